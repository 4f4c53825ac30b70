import Verif.Proof.RustSize
import Verif.Props.Size
import Verif.Props.Rust
/-!
# C124: how long the emitted Rust file is
-/

namespace Packetc.Props
open Ast Check Gen WellFormed Rs RustGen
open Js (deeper length_deeper NamesLeFs mem_decls)

/-! ### definitions -/

theorem length_rustTypeName (n : Str) : (rustTypeName n).length ≤ n.length := by
  unfold rustTypeName rustTable
  simp only [lookup_if, List.lookup_nil]
  split_ifs <;> first | (subst_vars; decide) | exact Nat.le_refl _

theorem length_fieldTy (t : FieldTy) : t.print.length ≤ t.base.length + 13 := by
  have h1 : (if t.opt then "Option<".toList else []).length ≤ 7 := length_ite_le (by decide)
  have h2 : (if t.vec then "Vec<".toList else []).length ≤ 4 := length_ite_le (by decide)
  have h3 : (if t.vec then ">".toList else []).length ≤ 1 := length_ite_le (by decide)
  have h4 : (if t.opt then ">".toList else []).length ≤ 1 := length_ite_le (by decide)
  unfold FieldTy.print
  simp only [List.length_append]
  omega

theorem length_printFields (fs : List (Str × FieldTy)) :
    (printFields (deeper []) fs).length ≤ (fs.map fun f => 30 * (f.1.length + f.2.base.length + 1)).sum := by
  induction fs with
  | nil => exact Nat.zero_le _
  | cons f fs ih =>
    obtain ⟨f, t⟩ := f
    have := length_fieldTy t
    simp only [printFields, List.map_cons, List.sum_cons, List.length_append, length_deeper]
    simp only [String.reduceToList, List.length_cons, List.length_nil, Nat.reduceAdd]
    omega

theorem length_printVariants (vs : List (Str × Nat)) (h : ∀ v ∈ vs, v.2 < 32) :
    (printVariants (deeper []) vs).length ≤ (vs.map fun v => v.1.length + 20).sum := by
  induction vs with
  | nil => exact Nat.zero_le _
  | cons v vs ih =>
    obtain ⟨v, k⟩ := v
    have h1 := length_small (h _ List.mem_cons_self)
    have := ih fun w hw => h w (List.mem_cons_of_mem _ hw)
    simp only at h1
    simp only [printVariants, List.map_cons, List.sum_cons, List.length_append, length_deeper]
    generalize ((toString k).toList).length = d at *
    simp only [String.reduceToList, List.length_cons, List.length_nil, Nat.reduceAdd]
    omega

theorem length_bit {k : Nat} (h : k < 32) : ((toString (if k = 31 then -2 ^ 31 else 2 ^ k : Int)).toList).length ≤ 11 := by
  have : ∀ k < 32, ((toString (if k = 31 then -2 ^ 31 else 2 ^ k : Int)).toList).length ≤ 11 := by decide +kernel
  exact this k h

theorem length_printArms (n : Str) (vs : List (Str × Nat)) (h : ∀ v ∈ vs, v.2 < 32) :
    (printArms (deeper (deeper (deeper []))) n (vs.map fun w => (if w.2 = 31 then -2 ^ 31 else 2 ^ w.2, w.1))).length ≤
      (vs.map fun v => n.length + v.1.length + 40).sum := by
  induction vs with
  | nil => exact Nat.zero_le _
  | cons v vs ih =>
    have h1 := length_bit (h _ List.mem_cons_self)
    have := ih fun w hw => h w (List.mem_cons_of_mem _ hw)
    simp only [printArms, List.map_cons, List.sum_cons, List.length_append, length_deeper]
    generalize ((toString (if v.2 = 31 then -2 ^ 31 else 2 ^ v.2 : Int)).toList).length = d at *
    simp only [String.reduceToList, List.length_cons, List.length_nil, Nat.reduceAdd]
    omega

theorem sum_const {α : Type} (l : List α) (w : α → Nat) (c : Nat) : (l.map fun a => w a + c).sum = (l.map w).sum + l.length * c := by
  induction l with
  | nil => simp
  | cons a l ih =>
    rw [List.map_cons, List.sum_cons, ih, List.map_cons, List.sum_cons, List.length_cons, Nat.add_mul]
    omega

theorem zipIdx_weight (vs : List Str) : (vs.zipIdx.map fun v => v.1.length).sum = (vs.map List.length).sum := by
  rw [show (vs.zipIdx.map fun v => v.1.length) = (vs.zipIdx.map Prod.fst).map List.length by rw [List.map_map]; rfl, List.zipIdx_map_fst]

/-- A definition is not much longer than the declaration. -/
theorem length_item {n : Str} {t : Ast.Ty} {i : Item} (h : DefinedAs n t i) : i.print.length ≤ 3000 * nodeWeight (.decl n t) := by
  cases h with
  | struct gs fs hp =>
    have h1 := length_printFields fs
    rw [(hp.map _).sum_eq, List.map_map] at h1
    have h2 : (gs.map ((fun f : Str × FieldTy => 30 * (f.1.length + f.2.base.length + 1)) ∘
        fun g : Str × Unresolved => (g.1, (⟨rustTypeName g.2.name, g.2.array, g.2.optional⟩ : FieldTy)))).sum ≤
        (gs.map fun g => 30 * (g.1.length + g.2.name.length + 1)).sum := by
      refine List.sum_le_sum fun g _ => ?_
      have := length_rustTypeName g.2.name
      simp only [Function.comp]
      omega
    rw [sum_mul] at h2
    unfold Item.print nodeWeight tyWeight
    simp only [List.length_append]
    simp only [String.reduceToList, List.length_cons, List.length_nil, Nat.reduceAdd]
    omega
  | enum v vs repr bits hr hb hm =>
    have hr' : repr.length ≤ 3 ∧ bits ≤ 32 := by
      simp only [unsignedTypes, List.mem_cons, Prod.mk.injEq, List.not_mem_nil, or_false] at hr
      rcases hr with ⟨rfl, rfl⟩ | ⟨rfl, rfl⟩ | ⟨rfl, rfl⟩ <;> decide
    have hlt : ∀ w ∈ (v :: vs).zipIdx, w.2 < 32 := fun w hw => by
      have := List.snd_lt_of_mem_zipIdx hw
      omega
    have h1 := length_printVariants _ hlt
    have h2 := length_printArms n _ hlt
    rw [sum_const, zipIdx_weight, List.length_zipIdx] at h1
    have e : ((v :: vs).zipIdx.map fun w => n.length + w.1.length + 40) = (v :: vs).zipIdx.map fun w => w.1.length + (n.length + 40) :=
      List.map_congr_left fun w _ => by omega
    rw [e, sum_const, zipIdx_weight, List.length_zipIdx] at h2
    have h3 : (v :: vs).length * (n.length + 40) ≤ 32 * (n.length + 40) := Nat.mul_le_mul_right _ (by omega)
    have h4 : v.length ≤ ((v :: vs).map List.length).sum := by simp
    have hw : nodeWeight (.decl n (.enum (v :: vs))) = n.length + ((v :: vs).map List.length).sum + 1 := rfl
    rw [hw]
    unfold Item.print
    generalize (v :: vs).zipIdx = z at *
    generalize ((v :: vs).map List.length).sum = W at *
    simp only [List.length_append, length_deeper]
    generalize (printVariants (deeper []) z).length = x1 at *
    generalize (printArms (deeper (deeper (deeper []))) n (z.map fun w => (if w.2 = 31 then -2 ^ 31 else 2 ^ w.2, w.1))).length = x2 at *
    generalize hk : (v :: vs).length = k at *
    generalize k * (n.length + 40) = k' at *
    simp only [String.reduceToList, List.length_cons, List.length_nil, Nat.reduceAdd]
    omega

theorem length_items {ast : AST} : (is : List Item) → (∀ i ∈ is, ∃ n t, .decl n t ∈ ast ∧ DefinedAs n t i) →
    ∃ ns : List Node, (printItems is).length ≤ (ns.map fun n => 3000 * nodeWeight n).sum ∧ ns ⊆ ast ∧
      ns.map (fun | .decl n _ => n | .export n => n) = is.map Item.name
  | [], _ => ⟨[], by simp [printItems], by simp, rfl⟩
  | i :: is, h => by
    obtain ⟨ns, h1, h2, h3⟩ := length_items is fun j hj => h j (List.mem_cons_of_mem _ hj)
    obtain ⟨n, t, hd, hi⟩ := h i List.mem_cons_self
    refine ⟨.decl n t :: ns, ?_, List.cons_subset.2 ⟨hd, h2⟩, ?_⟩
    · have := length_item hi
      rw [printItems, List.length_append, List.map_cons, List.sum_cons]
      omega
    · rw [List.map_cons, List.map_cons, h3]
      refine congrArg (· :: _) ?_
      cases hi <;> rfl

theorem length_defs {ast : AST} {r : Resolved} (hc : Checked ast r) : (printItems (itemsOf r.types)).length ≤ 3000 * (ast.map nodeWeight).sum := by
  obtain ⟨s, hs, -⟩ := C91_file hc
  have he := (emitted_iff hc).1 hs
  obtain ⟨hn, -, hall⟩ := C91_definitions hc hs
  rw [he] at hn hall
  obtain ⟨ns, h1, h2, h3⟩ := length_items (ast := ast) (itemsOf r.types) fun i hi => by
    obtain ⟨n, t, -, h1, h2⟩ := hall i hi
    exact ⟨n, t, h1, h2⟩
  have hnd : ns.Nodup := by
    have : (ns.map (fun | .decl n _ => n | .export n => n)).Nodup := by rw [h3]; exact hn
    exact List.Nodup.of_map _ this
  have := sum_le_of_subset hnd h2 nodeWeight
  rw [sum_mul] at h1
  omega

/-! ### the functions -/

theorem length_functions {N : Nat} (e : Export) (h : NamesLeFs N e.fields) :
    (printWrite e.name (Rs.writeBody e)).length + (printRead e.name (Rs.readBody e)).length ≤ 300 + 2 * e.name.length +
      2 * (fieldsAll e.fields * 100 * (10 + (fieldsDepth e.fields * (N + 20) + N + 20))) := by
  have hi : (deeper []).length = 4 := by decide
  have h2 := Rs.cost_readStruct (T := 10 + (fieldsDepth e.fields * (N + 20) + N + 20)) e.fields h ["output".toList] (by simp) (deeper [])
    (by rw [hi, show (fname ["output".toList]).length = 6 by decide])
  have h3 := Rs.cost_writeStruct (T := 10 + (fieldsDepth e.fields * (N + 20) + N + 20)) e.fields h ["input".toList] (by simp) (deeper [])
    (by rw [hi, show (fname ["input".toList]).length = 5 by decide]; omega)
  simp only at h2 h3
  unfold printWrite printRead Rs.writeBody Rs.readBody
  simp only [List.length_append, hi]
  generalize (Rs.printStmts (deeper []) (Rs.readStruct ["output".toList] e.fields)).length = x2 at *
  generalize (Rs.printStmts (deeper []) (Rs.writeStruct ["input".toList] e.fields)).length = x3 at *
  simp only [String.reduceToList, List.length_cons, List.length_nil, Nat.reduceAdd]
  omega

/-! ### C124 -/

section
variable {ord : List (Str × Ast.Ty) → List (Str × Ast.Ty)} (hord : FairOrd ord) {text : Str} {ast : AST}
  (hp : Parser.schema text = .ok ast) {r : Resolved} (ht : typeCheck ord ast = .ok r)
include hord hp ht

theorem rust_size {code : Str} (h : rustFile r = some code) : leavesFs r.export.fields ≤ code.length ∧
    code.length ≤ 20000 * (fieldsAll r.export.fields + 1) * (text.length + 1) ^ 2 := by
  have hc : Checked ast r := ⟨ord, text, hord, hp, ht⟩
  have hnb := parsed_noBuiltinDecl hp
  rw [rustFile_eq hc] at h
  obtain rfl := Option.some.inj h
  constructor
  · have h1 := Rs.least_readStruct r.export.fields ["output".toList] (deeper [])
    have h2 : (Rs.printStmts (deeper []) (Rs.readStruct ["output".toList] r.export.fields)).length ≤
        (printRead r.export.name (Rs.readBody r.export)).length := by
      unfold printRead Rs.readBody
      simp only [List.length_append]
      omega
    rw [List.length_append]
    omega
  · have hw := weight_text hp
    have hN : ∀ n fs, .decl n (.struct fs) ∈ ast → ∀ f ∈ fs, f.1.length ≤ text.length ∧ f.2.name.length ≤ text.length := by
      intro n fs hm f hfm
      have h1 := name_in_text hp hm
      have h2 : f.1.length + f.2.name.length + 1 ≤ tyWeight (.struct fs) :=
        List.single_le_sum (l := fs.map fun f => f.1.length + f.2.name.length + 1) (by simp) _ (List.mem_map.2 ⟨f, hfm, rfl⟩)
      simp only [nodeWeight] at h1
      omega
    have hnames : NamesLeFs text.length r.export.fields :=
      names_le hord hnb ht hN _ (.struct r.export.fields) rfl _ _ (C23_faithful hord hnb ht).1
    have hd := depth_le hord hnb ht
    have hdl : (decls ast).length ≤ text.length := by
      have : ∀ l : AST, (decls l).length ≤ (l.map nodeWeight).sum := by
        intro l
        induction l with
        | nil => simp [decls]
        | cons a l ih =>
          cases a with
          | decl n t =>
            show (decls l).length + 1 ≤ _
            simp only [List.map_cons, List.sum_cons, nodeWeight]
            omega
          | «export» n =>
            show (decls l).length ≤ _
            simp only [List.map_cons, List.sum_cons, nodeWeight]
            omega
      exact Nat.le_trans (this ast) hw
    have hexp : r.export.name.length ≤ text.length := by
      obtain ⟨-, fs, hm⟩ := C21_export_is_struct hord ht
      have := name_in_text hp hm
      simp only [nodeWeight] at this
      omega
    have hfn := length_functions r.export hnames
    have hds := length_defs hc
    have hcm : RustGen.genCommon.length ≤ 2000 := by decide +kernel
    simp only [List.length_append]
    generalize fieldsAll r.export.fields = U at *
    generalize hL : text.length = L at *
    have hT : 10 + (fieldsDepth r.export.fields * (L + 20) + L + 20) ≤ 34 * (L + 1) ^ 2 := by
      have : fieldsDepth r.export.fields * (L + 20) ≤ L * (L + 20) := Nat.mul_le_mul_right _ (by omega)
      nlinarith
    have h1 : U * 100 * (10 + (fieldsDepth r.export.fields * (L + 20) + L + 20)) ≤ U * 100 * (34 * (L + 1) ^ 2) := Nat.mul_le_mul_left _ hT
    have hQ : L + 1 ≤ (L + 1) ^ 2 := by nlinarith
    generalize (L + 1) ^ 2 = Q at *
    have h3 : 20000 * (U + 1) * Q = 20000 * (U * Q) + 20000 * Q := by ring
    have h4 : U * 100 * (34 * Q) = 3400 * (U * Q) := by ring
    omega

/-- C124, what holds. The file is at least as long as the schema has fields that are no structs when written out (each use of a struct replaced
by its fields), and at most the number of all fields times a quadratic term in the length of the schema. If no struct is used twice the file is
at most cubic. What is missing is a polynomial bound for schemas in which structs are used several times; by `C124_false` there is none. -/
theorem C124_size_partial {code : Str} (h : rustFile r = some code) : leavesFs r.export.fields ≤ code.length ∧
    code.length ≤ 20000 * (fieldsAll r.export.fields + 1) * (text.length + 1) ^ 2 ∧
    (UsedOnce ast → code.length ≤ 20000 * (text.length + 1) ^ 3) := by
  obtain ⟨h3, h4⟩ := rust_size hord hp ht h
  refine ⟨h3, h4, fun hu => Nat.le_trans h4 ?_⟩
  have hnb := parsed_noBuiltinDecl hp
  have hg := (C23_faithful hord hnb ht).1
  obtain ⟨ns, e1, e2, e3⟩ := own_all hord hnb ht _ (.struct r.export.fields) rfl _ _ hg
  have hn : ns.Nodup := by
    have := own_nodup hord hnb ht hu _ (.struct r.export.fields) rfl _ _ hg
    rw [← e3] at this
    exact List.Nodup.of_map _ this
  have e4 := sum_le_of_subset hn e2 nodeWeight
  have e5 := weight_text hp
  have e6 : fieldsAll r.export.fields ≤ text.length := by
    have : typeAll (.struct r.export.fields) = fieldsAll r.export.fields := rfl
    omega
  have : 20000 * (fieldsAll r.export.fields + 1) * (text.length + 1) ^ 2 ≤ 20000 * (text.length + 1) * (text.length + 1) ^ 2 :=
    Nat.mul_le_mul_right _ (Nat.mul_le_mul_left _ (by omega))
  have e7 : 20000 * (text.length + 1) * (text.length + 1) ^ 2 = 20000 * (text.length + 1) ^ 3 := by ring
  omega

end

/-- C124 as one would like it: the Rust file is at most polynomially longer than the schema. -/
def C124_claim : Prop := ∃ c k : Nat, ∀ (ord : List (Str × Ast.Ty) → List (Str × Ast.Ty)) (text : Str) (ast : AST) (r : Resolved) (code : Str),
  FairOrd ord → Parser.schema text = .ok ast → typeCheck ord ast = .ok r → rustFile r = some code → code.length ≤ c * (text.length + 1) ^ k

theorem tower_leaves {ord} (hord : FairOrd ord) {n : Nat} (hnb : NoBuiltinDecl (tower n)) {r} (h : typeCheck ord (tower n) = .ok r) :
    ∀ i m t, r.types.get (towerName i) = some (m, t) → 2 ^ i ≤ leavesT t := by
  have step : ∀ i m t, r.types.get (towerName i) = some (m, t) → ∃ f g, t = .struct [f, g] ∧
      (∃ a, r.types.get (towerField i) = some (a, f.ty)) ∧ ∃ a, r.types.get (towerField i) = some (a, g.ty) := by
    intro i m t hg
    obtain ⟨-, hm⟩ := Module.meaning hord hnb h hg
    cases hm with
    | builtin b hb =>
      have := (builtin_table_get hb).1
      simp [builtinNames, towerName] at this
    | enum vs e _ hd =>
      obtain ⟨_, _, _, h'⟩ := tower_mem (mem_decls.2 hd)
      cases h'
    | struct fs fs' rfs _ hd hp hf =>
      obtain ⟨j, _, h1, h2⟩ := tower_mem (mem_decls.2 hd)
      cases towerName_inj h1
      cases h2
      have hall : ∀ f ∈ fs', f.2 = ⟨towerField i, false, false⟩ := fun f hf => towerField_of_mem (hp.mem_iff.1 hf)
      have hlen : fs'.length = 2 := hp.length_eq
      match fs', rfs, hf, hlen, hall with
      | [a, b], [f, g], .cons ha (.cons hb .nil), _, hall =>
        refine ⟨f, g, rfl, ⟨towerField i, ?_⟩, ⟨towerField i, ?_⟩⟩
        · have := ha.ty
          rw [hall a (by simp)] at this
          exact this
        · have := hb.ty
          rw [hall b (by simp)] at this
          exact this
  intro i
  induction i with
  | zero =>
    intro m t hg
    obtain ⟨⟨_, _, t1, _, _⟩, ⟨_, _, t2, _, _⟩, rfl, ⟨a, ha⟩, -⟩ := step 0 m t hg
    obtain ⟨-, hm⟩ := Module.meaning hord hnb h ha
    cases hm with
    | builtin b hb => show 1 ≤ 1 + _; omega
    | enum vs e _ hd => show 1 ≤ 1 + _; omega
    | struct fs fs' rfs hn hd hp hf =>
      obtain ⟨j, _, h1, -⟩ := tower_mem (mem_decls.2 hd)
      simp [towerField, towerName] at h1
  | succ i ih =>
    intro m t hg
    obtain ⟨⟨_, _, t1, _, _⟩, ⟨_, _, t2, _, _⟩, rfl, ⟨a, ha⟩, ⟨b, hb⟩⟩ := step _ m t hg
    have h1 := ih a t1 ha
    have h2 := ih b t2 hb
    show 2 ^ (i + 1) ≤ leavesT t1 + (leavesT t2 + 0)
    rw [Nat.pow_succ]
    omega

/-- The schema of `n` structs, each with two fields of the struct before, has a Rust file of at least `2 ^ n` characters. -/
theorem tower_rust (n : Nat) : ∃ r code, typeCheck id (tower n) = .ok r ∧ rustFile r = some code ∧ 2 ^ n ≤ code.length := by
  have hp := C02_print_parse (tower n) (tower_legal n)
  have hord : FairOrd (id : List (Str × Ast.Ty) → List (Str × Ast.Ty)) := fun l => List.Perm.refl l
  obtain ⟨r, hr⟩ := (C12_text hord hp).2 (tower_wf n)
  have hnb := parsed_noBuiltinDecl hp
  have hc : Checked (tower n) r := ⟨id, _, hord, hp, hr⟩
  refine ⟨r, _, hr, rustFile_eq hc, Nat.le_trans ?_ (rust_size hord hp hr (rustFile_eq hc)).1⟩
  have hg := (C23_faithful hord hnb hr).1
  have hn : r.export.name = towerName n := by
    have := (C21_export_is_struct hord hr).1
    rw [tower_exports] at this
    exact (List.cons.inj this).1.symm
  rw [hn] at hg
  exact tower_leaves hord hnb hr n _ _ hg

/-- C124 is false of the code, as C78 is: structs used twice are read and written twice. -/
theorem C124_false : ¬ C124_claim := by
  rintro ⟨c, k, h⟩
  obtain ⟨s, hs⟩ := exceeds c k
  obtain ⟨r, code, h0, h1, h2⟩ := tower_rust (2 ^ s)
  have hpos : 1 ≤ 2 ^ s := Nat.one_le_two_pow
  have h3 := h id _ _ r code (fun l => List.Perm.refl l) (C02_print_parse (tower (2 ^ s)) (tower_legal _)) h0 h1
  have h4 := tower_length (2 ^ s)
  have h5 : (Print.schema (tower (2 ^ s))).length + 1 ≤ 2 ^ (9 + 2 * s) := by
    rw [Nat.pow_add, Nat.two_mul, Nat.pow_add]
    nlinarith
  have h6 : c * ((Print.schema (tower (2 ^ s))).length + 1) ^ k ≤ 2 ^ (c + 9 * k + 2 * s * k) := by
    have e : 2 ^ (c + 9 * k + 2 * s * k) = 2 ^ c * (2 ^ (9 + 2 * s)) ^ k := by
      rw [← Nat.pow_mul, ← Nat.pow_add]
      congr 1
      ring
    rw [e]
    exact Nat.mul_le_mul (Nat.le_of_lt Nat.lt_two_pow_self) (Nat.pow_le_pow_left h5 k)
  have h7 : 2 ^ (c + 9 * k + 2 * s * k) < 2 ^ 2 ^ s := Nat.pow_lt_pow_right (by decide) hs
  omega

/-- The hypotheses are met by the example schema, in which no struct is used twice. -/
example : UsedOnce exampleAst ∧ Parser.schema exampleText = .ok exampleAst ∧ ∃ r code, typeCheck id exampleAst = .ok r ∧ rustFile r = some code := by
  have hp : Parser.schema exampleText = .ok exampleAst := by decide +kernel
  refine ⟨?_, hp, ?_⟩
  · intro T fs h
    have : ∀ d ∈ decls exampleAst, (usesOf exampleAst d.1).length ≤ 1 := by decide +kernel
    exact this _ h
  · obtain ⟨r, hr⟩ := example_accepted
    exact ⟨r, _, hr, rustFile_eq ⟨id, _, fun l => List.Perm.refl l, hp, hr⟩⟩

end Packetc.Props
