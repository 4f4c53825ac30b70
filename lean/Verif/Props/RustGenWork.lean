import Verif.Proof.RustGenWork
import Verif.Props.GenWork
import Verif.Props.RustSize
/-!
# C126: how many steps the Rust generator takes
-/

namespace Packetc.Props
open Ast Check Gen WellFormed Rs RustGen
open Js (deeper length_deeper mem_decls)

/-- The steps are counted for the generator that all other theorems are about: it emits the same files. -/
theorem C126_same_generator (r : Resolved) : (RustGenW.fileRun r).1 = rustFile r := RustGenW.same_file r

theorem silent_count {ast : AST} {r : Resolved} (hc : Checked ast r) : (r.types.filter RustGenW.silent).length ≤ 9 := by
  refine Nat.le_trans ?_ (quiet_count hc (List.Perm.refl r.types))
  rw [← List.countP_eq_length_filter, ← List.countP_eq_length_filter]
  refine List.countP_mono_left fun e _ h => ?_
  obtain ⟨n, m, t⟩ := e
  cases t with
  | builtin b => exact Bool.or_true _
  | enum => cases h
  | struct => cases h

theorem hollow_nonempty : (fs : List (FieldOf RType)) → fs ≠ [] → (∀ f ∈ fs, hollowT f.ty = false) → hollowFs fs = false
  | [], h, _ => absurd rfl h
  | ⟨_, _, t, a, o⟩ :: fs, _, h => by
    have : hollowT t = false := h ⟨_, _, t, a, o⟩ List.mem_cons_self
    rw [hollowFs, hollowF, this, Bool.and_false, Bool.false_and]

theorem idle_none : (fs : List (FieldOf RType)) → (∀ f ∈ fs, hollowT f.ty = false ∧ idleT f.ty = 0) → idleFs fs = 0
  | [], _ => rfl
  | ⟨_, _, t, a, o⟩ :: fs, h => by
    obtain ⟨h1, h2⟩ : hollowT t = false ∧ idleT t = 0 := h ⟨_, _, t, a, o⟩ List.mem_cons_self
    rw [idleFs, idleF, h1, h2, idle_none fs fun f hf => h f (List.mem_cons_of_mem _ hf), Bool.and_false]
    rfl

/-- Every declared struct has a field. -/
def NoEmptyStruct (ast : AST) : Prop := ∀ n fs, .decl n (.struct fs) ∈ ast → fs ≠ []

theorem no_idle {ord} (hord : FairOrd ord) {ast : AST} (hnb : NoBuiltinDecl ast) {r} (h : typeCheck ord ast = .ok r) (hE : NoEmptyStruct ast) :
    (k : Nat) → ∀ (t : RType), typeDepth t = k → ∀ n m, r.types.get n = some (m, t) → hollowT t = false ∧ idleT t = 0 := by
  intro k
  induction k using Nat.strong_induction_on with
  | _ k ih =>
    intro t hk n m hg
    obtain ⟨-, hm⟩ := Module.meaning hord hnb h hg
    cases hm with
    | builtin => exact ⟨rfl, rfl⟩
    | enum => exact ⟨rfl, rfl⟩
    | struct fs fs' rfs hn hd hp hf =>
      have hk : fieldsDepth rfs = k := hk
      have hall : ∀ f ∈ rfs, hollowT f.ty = false ∧ idleT f.ty = 0 := by
        intro f h1
        obtain ⟨g, hgm, hR⟩ := forall₂_mem hf h1
        have h2 := depth_le_of_mem rfs h1
        have h3 : fieldDepth f = 1 + typeDepth f.ty := by cases f; rfl
        exact ih (typeDepth f.ty) (by omega) f.ty rfl _ _ hR.ty
      refine ⟨?_, idle_none rfs hall⟩
      refine hollow_nonempty rfs ?_ fun f hf => (hall f hf).1
      rintro rfl
      cases hf
      exact hE n fs hd hp.symm.eq_nil

/-- C126, what holds. The generator takes at least one step for each character of the file and for each character of the names of hollow fields (fields of a
struct in which nothing is transmitted, each counted wherever its struct is used), and at most 24 for each of the former and 32 for each of the latter. So for schemas
without empty structs the time is linear in the length of the file. What is missing is a bound by the length of the file for schemas with hollow fields; by
`C126_false` there is none, not even a polynomial one. -/
theorem C126_steps_partial {ast : AST} {r : Resolved} (hc : Checked ast r) {code : Str} (h : rustFile r = some code) :
    code.length ≤ (RustGenW.fileRun r).2 ∧ idleFs r.export.fields ≤ (RustGenW.fileRun r).2 ∧
    (RustGenW.fileRun r).2 ≤ 24 * code.length + 32 * idleFs r.export.fields ∧
    (NoEmptyStruct ast → (RustGenW.fileRun r).2 ≤ 24 * code.length) := by
  have h3 := RustGenW.file_pays (silent_count hc) h
  refine ⟨RustGenW.file_writes h, RustGenW.file_takes r, h3, fun hE => ?_⟩
  obtain ⟨ord, text, hord, hp, ht⟩ := hc
  have hnb := parsed_noBuiltinDecl hp
  have h4 : idleFs r.export.fields = 0 := (no_idle hord hnb ht hE _ (.struct r.export.fields) rfl _ _ (C23_faithful hord hnb ht).1).2
  rw [h4] at h3
  omega

/-! ### The code of a schema in which nothing is transmitted -/

mutual
theorem hollow_write : (fs : List (FieldOf RType)) → hollowFs fs = true → ∀ st, Rs.writeStruct st fs = []
  | [], _, _ => by rw [Rs.writeStruct]
  | ⟨n, tn, t, a, o⟩ :: fs, h, st => by
    rw [hollowFs, hollowF] at h
    simp only [Bool.and_eq_true, Bool.not_eq_true'] at h
    obtain ⟨⟨⟨rfl, rfl⟩, ht⟩, hf⟩ := h
    unfold Rs.writeStruct Rs.writeField
    rw [hollow_write fs hf]
    simp only [Bool.false_eq_true, if_false, hollow_writeT t ht, List.append_nil]
theorem hollow_writeT : (t : RType) → hollowT t = true → ∀ st tn, Rs.writeType st tn t = []
  | .builtin _, h, _, _ => by cases h
  | .enum _, h, _, _ => by cases h
  | .struct fs, h, st, tn => by
    rw [Rs.writeType]
    rw [hollowT] at h
    exact hollow_write fs h st
end

mutual
theorem hollow_read : (fs : List (FieldOf RType)) → hollowFs fs = true → ∀ st, Rs.readStruct st fs = []
  | [], _, _ => by rw [Rs.readStruct]
  | ⟨n, tn, t, a, o⟩ :: fs, h, st => by
    rw [hollowFs, hollowF] at h
    simp only [Bool.and_eq_true, Bool.not_eq_true'] at h
    obtain ⟨⟨⟨rfl, rfl⟩, ht⟩, hf⟩ := h
    unfold Rs.readStruct Rs.readField
    rw [hollow_read fs hf]
    simp only [Bool.false_eq_true, if_false, hollow_readT t ht, List.append_nil]
theorem hollow_readT : (t : RType) → hollowT t = true → ∀ st tn, Rs.readType st tn t = []
  | .builtin _, h, _, _ => by cases h
  | .enum _, h, _, _ => by cases h
  | .struct fs, h, st, tn => by
    rw [Rs.readType]
    rw [hollowT] at h
    exact hollow_read fs h st
end

/-- If nothing is transmitted, the file is not much longer than the schema. -/
theorem hollow_size {ord} (hord : FairOrd ord) {text : Str} {ast : AST} (hp : Parser.schema text = .ok ast) {r : Resolved}
    (ht : typeCheck ord ast = .ok r) (hh : hollowFs r.export.fields = true) {code : Str} (h : rustFile r = some code) : code.length ≤ 4000 * (text.length + 1) := by
  have hc : Checked ast r := ⟨ord, text, hord, hp, ht⟩
  rw [rustFile_eq hc] at h
  obtain rfl := Option.some.inj h
  have hw := weight_text hp
  have hexp : r.export.name.length ≤ text.length := by
    obtain ⟨-, fs, hm⟩ := C21_export_is_struct hord ht
    have := name_in_text hp hm
    simp only [nodeWeight] at this
    omega
  have hds := length_defs hc
  have hcm : RustGen.genCommon.length ≤ 2000 := by decide +kernel
  unfold Rs.writeBody Rs.readBody
  rw [hollow_write _ hh, hollow_read _ hh]
  unfold printWrite printRead
  simp only [List.length_append, length_deeper]
  generalize RustGen.genCommon.length = k at *
  simp only [Rs.printStmts, String.reduceToList, List.length_cons, List.length_nil, Nat.reduceAdd]
  omega

/-! ### The tower over an empty struct -/

/-- `A: struct {}`, `Aa: struct { x: A, y: A }`, `Aaa: struct { x: Aa, y: Aa }`, ... -/
def bareFields : Nat → List (Str × Unresolved)
  | 0 => []
  | i + 1 => [("x".toList, ⟨towerName i, false, false⟩), ("y".toList, ⟨towerName i, false, false⟩)]

def bare (n : Nat) : AST := (List.range (n + 1)).map (fun i => .decl (towerName i) (.struct (bareFields i))) ++ [.export (towerName n)]

theorem bareField_of_mem {i : Nat} {f : Str × Unresolved} (h : f ∈ bareFields i) :
    ∃ j, i = j + 1 ∧ f.2 = ⟨towerName j, false, false⟩ ∧ (f.1 = "x".toList ∨ f.1 = "y".toList) := by
  cases i with
  | zero => cases h
  | succ j =>
    rcases List.mem_cons.1 h with rfl | h
    · exact ⟨j, rfl, rfl, Or.inl rfl⟩
    · cases List.mem_singleton.1 h
      exact ⟨j, rfl, rfl, Or.inr rfl⟩

theorem bare_legal (n : Nat) : Print.Legal (bare n) := by
  intro nd h
  rcases List.mem_append.1 h with h | h
  · obtain ⟨i, -, rfl⟩ := List.mem_map.1 h
    refine ⟨towerName_ident i, towerName_not i (by decide), ?_⟩
    intro f hf
    obtain ⟨j, rfl, h2, h3⟩ := bareField_of_mem hf
    obtain ⟨f1, f2⟩ := f
    subst h2
    refine ⟨?_, towerName_word j⟩
    rcases h3 with h3 | h3
    · cases h3; exact tower_ident (Or.inl rfl)
    · cases h3; exact tower_ident (Or.inr rfl)
  · cases List.mem_singleton.1 h
    exact towerName_word n

theorem bare_decls (n : Nat) : decls (bare n) = (List.range (n + 1)).map fun i => (towerName i, .struct (bareFields i)) := by
  unfold bare decls
  rw [List.filterMap_append, List.filterMap_map]
  show List.filterMap (fun i => some (towerName i, Ast.Ty.struct (bareFields i))) _ ++ [] = _
  rw [List.append_nil, List.filterMap_eq_map']

theorem bare_mem {n : Nat} {m : Str} {t : Ast.Ty} (h : (m, t) ∈ decls (bare n)) : ∃ i ≤ n, m = towerName i ∧ t = .struct (bareFields i) := by
  rw [bare_decls] at h
  obtain ⟨i, hi, h⟩ := List.mem_map.1 h
  cases h
  exact ⟨i, by have := List.mem_range.1 hi; omega, rfl, rfl⟩

theorem bare_exports (n : Nat) : exports (bare n) = [towerName n] := by
  unfold bare exports
  rw [List.filterMap_append, List.filterMap_map]
  show List.filterMap (fun _ => none) _ ++ [towerName n] = _
  simp

theorem bare_refers {n : Nat} {a b : Str} (h : Refers (bare n) a b) : ∃ i < n, a = towerName (i + 1) ∧ b = towerName i := by
  obtain ⟨fs, hd, f, hf, rfl⟩ := h
  obtain ⟨i, hi, rfl, h⟩ := bare_mem hd
  cases h
  obtain ⟨j, rfl, h2, -⟩ := bareField_of_mem hf
  exact ⟨j, hi, rfl, by rw [h2]⟩

theorem bare_wf (n : Nat) : WF (bare n) where
  exported := ⟨_, bareFields n, bare_exports n, by
    rw [bare_decls]
    exact List.mem_map.2 ⟨n, List.mem_range.2 (by omega), rfl⟩⟩
  unique := by
    rw [bare_decls, List.map_map]
    exact List.nodup_range.map fun _ _ h => towerName_inj h
  enums := by
    intro m vs h
    obtain ⟨i, -, -, h⟩ := bare_mem h
    cases h
  closed := by
    intro a b h
    obtain ⟨i, hi, -, rfl⟩ := bare_refers h
    refine Or.inr ⟨.struct (bareFields i), ?_⟩
    rw [bare_decls]
    exact List.mem_map.2 ⟨i, List.mem_range.2 (by omega), rfl⟩
  noOptArray := by
    intro m fs h f hf
    obtain ⟨i, -, -, h⟩ := bare_mem h
    cases h
    obtain ⟨j, -, h2, -⟩ := bareField_of_mem hf
    rw [h2]
    simp
  acyclic := by
    have key : ∀ a b, Relation.TransGen (Refers (bare n)) a b → ∃ i j, i < j ∧ a = towerName j ∧ b = towerName i := by
      intro a b h
      induction h with
      | single h =>
        obtain ⟨i, -, rfl, rfl⟩ := bare_refers h
        exact ⟨i, i + 1, by omega, rfl, rfl⟩
      | tail _ h ih =>
        obtain ⟨i, j, hij, rfl, rfl⟩ := ih
        obtain ⟨k, -, h1, rfl⟩ := bare_refers h
        have := towerName_inj h1
        exact ⟨_, j, by omega, rfl, rfl⟩
    intro a h
    obtain ⟨i, j, hij, rfl, h⟩ := key a a h
    have := towerName_inj h
    omega
  fieldNames := by
    intro m fs h
    obtain ⟨i, -, -, h⟩ := bare_mem h
    cases h
    intro pre f post h _
    have h' : bareFields i = pre ++ f :: post := h
    cases i with
    | zero => simp [bareFields] at h'
    | succ i =>
      cases pre with
      | nil => simp
      | cons a pre =>
        cases pre with
        | nil =>
          cases h'
          exact (by decide : "y".toList ∉ ["x".toList])
        | cons b pre =>
          have := congrArg List.length h'
          simp [bareFields] at this

theorem bare_length (n : Nat) : (Print.schema (bare n)).length ≤ 80 * (n + 1) ^ 2 := by
  have h1 : (Print.schema (bare n)).length ≤ ((bare n).map fun _ => 3 * n + 40).sum := by
    refine length_flatMap_le fun nd h => ?_
    rcases List.mem_append.1 h with h | h
    · obtain ⟨i, hi, rfl⟩ := List.mem_map.1 h
      have hi := List.mem_range.1 hi
      cases i with
      | zero =>
        show (towerName 0 ++ ": ".toList ++ ("struct {\n".toList ++ (([] : List Str).flatten) ++ "}".toList) ++ "\n".toList).length ≤ _
        simp only [List.flatten_nil, List.length_append, towerName_length, List.length_nil]
        simp only [String.reduceToList, List.length_cons, List.length_nil, Nat.reduceAdd]
        omega
      | succ i =>
        show (towerName (i + 1) ++ ": ".toList ++ ("struct {\n".toList ++ ((["x".toList ++ [] ++ ": ".toList ++ towerName i ++ [] ++ ",\n".toList,
          "y".toList ++ [] ++ ": ".toList ++ towerName i ++ [] ++ ",\n".toList]).flatten) ++ "}".toList) ++ "\n".toList).length ≤ _
        simp only [List.flatten_cons, List.flatten_nil, List.length_append, towerName_length, List.length_nil]
        simp only [String.reduceToList, List.length_cons, List.length_nil, Nat.reduceAdd]
        omega
    · cases List.mem_singleton.1 h
      show ("export ".toList ++ towerName n ++ "\n".toList).length ≤ _
      simp only [List.length_append, towerName_length]
      simp only [String.reduceToList, List.length_cons, List.length_nil, Nat.reduceAdd]
      omega
  have h2 : (bare n).length = n + 2 := by simp [bare]
  rw [List.map_const', List.sum_replicate_nat, h2] at h1
  nlinarith

theorem bare_idle {ord} (hord : FairOrd ord) {n : Nat} (hnb : NoBuiltinDecl (bare n)) {r} (h : typeCheck ord (bare n) = .ok r) :
    ∀ i m t, r.types.get (towerName i) = some (m, t) → hollowT t = true ∧ 2 ^ i ≤ idleT t + 1 := by
  have step : ∀ i m t, r.types.get (towerName i) = some (m, t) → ∃ fs' rfs, t = .struct rfs ∧ fs'.Perm (bareFields i) ∧ List.Forall₂ (FieldResolved r.types) fs' rfs := by
    intro i m t hg
    obtain ⟨-, hm⟩ := Module.meaning hord hnb h hg
    cases hm with
    | builtin b hb =>
      have := (builtin_table_get hb).1
      simp [builtinNames, towerName] at this
    | enum vs e _ hd =>
      obtain ⟨_, _, _, h'⟩ := bare_mem (mem_decls.2 hd)
      cases h'
    | struct fs fs' rfs _ hd hp hf =>
      obtain ⟨j, _, h1, h2⟩ := bare_mem (mem_decls.2 hd)
      cases towerName_inj h1
      cases h2
      exact ⟨fs', rfs, rfl, hp, hf⟩
  intro i
  induction i with
  | zero =>
    intro m t hg
    obtain ⟨fs', rfs, rfl, hp, hf⟩ := step 0 m t hg
    have : fs' = [] := hp.eq_nil
    subst this
    cases hf
    exact ⟨rfl, by decide⟩
  | succ i ih =>
    intro m t hg
    obtain ⟨fs', rfs, rfl, hp, hf⟩ := step _ m t hg
    have hall : ∀ f ∈ fs', f.2 = ⟨towerName i, false, false⟩ := fun f hf => by
      obtain ⟨j, h1, h2, -⟩ := bareField_of_mem (hp.mem_iff.1 hf)
      cases h1
      exact h2
    have hlen : fs'.length = 2 := hp.length_eq
    match fs', rfs, hf, hlen, hall with
    | [a, b], [⟨na, tna, t1, a1, o1⟩, ⟨nb, tnb, t2, a2, o2⟩], .cons ha (.cons hb .nil), _, hall =>
      have ea := hall a (by simp)
      have eb := hall b (by simp)
      have ha1 := ha.array
      have ha2 := ha.optional
      have ha3 := ha.ty
      have hb1 := hb.array
      have hb2 := hb.optional
      have hb3 := hb.ty
      rw [ea] at ha1 ha2 ha3
      rw [eb] at hb1 hb2 hb3
      simp only at ha1 ha2 ha3 hb1 hb2 hb3
      subst ha1 ha2 hb1 hb2
      obtain ⟨k1, k2⟩ := ih _ _ ha3
      obtain ⟨j1, j2⟩ := ih _ _ hb3
      constructor
      · rw [hollowT, hollowFs, hollowFs, hollowFs, hollowF, hollowF, k1, j1]
        rfl
      · rw [idleT, idleFs, idleFs, idleFs, idleF, idleF, k1, j1, Nat.pow_succ]
        simp only [Bool.not_false, Bool.and_true, if_true]
        omega

/-- The schema of `n` structs over an empty one has a short file, but emitting it takes about `2 ^ n` steps. -/
theorem bare_rust (n : Nat) : ∃ r code, typeCheck id (bare n) = .ok r ∧ rustFile r = some code ∧ code.length ≤ 4000 * ((Print.schema (bare n)).length + 1) ∧
    2 ^ n ≤ (RustGenW.fileRun r).2 + 1 := by
  have hp := C02_print_parse (bare n) (bare_legal n)
  have hord : FairOrd (id : List (Str × Ast.Ty) → List (Str × Ast.Ty)) := fun l => List.Perm.refl l
  obtain ⟨r, hr⟩ := (C12_text hord hp).2 (bare_wf n)
  have hnb := parsed_noBuiltinDecl hp
  have hc : Checked (bare n) r := ⟨id, _, hord, hp, hr⟩
  have hg := (C23_faithful hord hnb hr).1
  have hn : r.export.name = towerName n := by
    have := (C21_export_is_struct hord hr).1
    rw [bare_exports] at this
    exact (List.cons.inj this).1.symm
  rw [hn] at hg
  obtain ⟨h1, h2⟩ := bare_idle hord hnb hr n _ _ hg
  rw [hollowT] at h1
  rw [idleT] at h2
  refine ⟨r, _, hr, rustFile_eq hc, hollow_size hord hp hr h1 (rustFile_eq hc), ?_⟩
  have := RustGenW.file_takes r
  omega

/-- C126 as one would like it: emitting the Rust file takes time polynomial in the lengths of the schema and of the file. -/
def C126_claim : Prop := ∃ c k : Nat, ∀ (ord : List (Str × Ast.Ty) → List (Str × Ast.Ty)) (text : Str) (ast : AST) (r : Resolved) (code : Str),
  FairOrd ord → Parser.schema text = .ok ast → typeCheck ord ast = .ok r → rustFile r = some code →
    (RustGenW.fileRun r).2 ≤ c * (text.length + code.length + 1) ^ k

/-- C126 is false of the code: structs over an empty one are gone through again and again without anything being emitted, so a short file may take exponential time. -/
theorem C126_false : ¬ C126_claim := by
  rintro ⟨c, k, h⟩
  obtain ⟨s, hs⟩ := exceeds (c + 15 * k + 1) k
  obtain ⟨r, code, h0, h1, h8, h2⟩ := bare_rust (2 ^ s)
  have hpos : 1 ≤ 2 ^ s := Nat.one_le_two_pow
  have h3 := h id _ _ r code (fun l => List.Perm.refl l) (C02_print_parse (bare (2 ^ s)) (bare_legal _)) h0 h1
  have h4 := bare_length (2 ^ s)
  have h5 : (Print.schema (bare (2 ^ s))).length + code.length + 1 ≤ 2 ^ (24 + 2 * s) := by
    rw [Nat.pow_add, Nat.two_mul, Nat.pow_add]
    nlinarith
  have h6 : c * ((Print.schema (bare (2 ^ s))).length + code.length + 1) ^ k ≤ 2 ^ (c + 24 * k + 2 * s * k) := by
    have e : 2 ^ (c + 24 * k + 2 * s * k) = 2 ^ c * (2 ^ (24 + 2 * s)) ^ k := by
      rw [← Nat.pow_mul, ← Nat.pow_add]
      congr 1
      ring
    rw [e]
    exact Nat.mul_le_mul (Nat.le_of_lt Nat.lt_two_pow_self) (Nat.pow_le_pow_left h5 k)
  have h7 : 2 ^ (c + 24 * k + 2 * s * k + 1) < 2 ^ 2 ^ s := Nat.pow_lt_pow_right (by decide) (by omega)
  rw [Nat.pow_succ] at h7
  have h9 : 1 ≤ 2 ^ (c + 24 * k + 2 * s * k) := Nat.one_le_two_pow
  omega

/-- The example schema has no empty struct, and its file is emitted. -/
example : NoEmptyStruct exampleAst ∧ ∃ r code, Checked exampleAst r ∧ rustFile r = some code := by
  have hp : Parser.schema exampleText = .ok exampleAst := by decide +kernel
  refine ⟨?_, ?_⟩
  · intro n fs h
    have key : ∀ d ∈ decls exampleAst, d.2 ≠ .struct [] := by decide +kernel
    rintro rfl
    exact key _ (mem_decls.2 h) rfl
  · obtain ⟨r, hr⟩ := example_accepted
    have hc : Checked exampleAst r := ⟨id, _, fun l => List.Perm.refl l, hp, hr⟩
    exact ⟨r, _, hc, rustFile_eq hc⟩

end Packetc.Props
