import Verif.Proof.CheckUsed
import Verif.Proof.CheckOrder
import Verif.Proof.CheckOrders
import Verif.Props.Parser
import Mathlib.Data.List.Induction
/-!
# C11-C24, C54, C61: the type checker

`Check.FairOrd ord`: `ord` enumerates a hash map in an arbitrary order.
-/

namespace Packetc.Props
open Ast WellFormed Check

/-- What the parser produces never reuses a builtin name. -/
theorem parsed_noBuiltinDecl {text : Str} {ast : AST} (h : Parser.schema text = .ok ast) : NoBuiltinDecl ast := by
  rintro n ⟨t, ht⟩ hb
  have hd : Node.decl n t ∈ ast := by
    unfold decls at ht
    obtain ⟨x, hx, hxt⟩ := List.mem_filterMap.1 ht
    cases x with
    | decl n' t' => simp only [Option.some.injEq, Prod.mk.injEq] at hxt; obtain ⟨rfl, rfl⟩ := hxt; exact hx
    | «export» n' => simp at hxt
  have := (C04_names_legal h).1 n t hd
  refine this.1.2 n ?_ (List.prefix_refl n)
  have hsub : ∀ x ∈ builtinNames, x ∈ keywords := by decide
  exact hsub n hb

/-! ## C11 -/

/-- C11: the checker returns a result or an error message, for every syntax tree and hash order. -/
theorem C11_no_panic {ord} (hord : FairOrd ord) (ast : AST) :
    (∃ r, typeCheck ord ast = .ok r) ∨ (∃ e, typeCheck ord ast = .error (.err e)) := by
  have := typeCheck_spec ast hord
  generalize typeCheck ord ast = r at this
  cases this with
  | ok => exact Or.inl ⟨_, rfl⟩
  | err e => exact Or.inr ⟨e, rfl⟩

theorem depsLoop_fuel (rec rec' : Str → Ty → SecondPass → Except Fault SecondPass)
    (h : ∀ n t st, rec n t st ≠ .error .diverge → rec' n t st = rec n t st)
    (nots : List (Str × Unresolved)) (st : SecondPass) (hn : depsLoop rec nots st ≠ .error .diverge) :
    depsLoop rec' nots st = depsLoop rec nots st := by
  induction nots generalizing st with
  | nil => rfl
  | cons x nots ih =>
    obtain ⟨fn, fty⟩ := x
    unfold depsLoop at hn ⊢
    cases hg : st.unresolved.get fty.name with
    | none =>
      rw [hg] at hn; simp only at hn ⊢
      split at hn
      · rename_i hh; rw [if_pos hh, if_pos hh]; exact ih _ hn
      · rename_i hh; rw [if_neg hh, if_neg hh]
    | some t =>
      rw [hg] at hn; simp only at hn ⊢
      rw [h]
      · cases hr : rec fty.name t { st with unresolved := st.unresolved.erase fty.name } with
        | error e => rfl
        | ok st' => rw [hr] at hn; exact ih _ hn
      · intro hr; rw [hr] at hn; exact hn rfl

/-- C11: the bound on the recursion depth in the model changes nothing: more depth, same result. -/
theorem C11_depth_irrelevant (fuel k : Nat) (n : Str) (t : Ty) (st : SecondPass)
    (h : resolveOneSecondPass fuel n t st ≠ .error .diverge) :
    resolveOneSecondPass (fuel + k) n t st = resolveOneSecondPass fuel n t st := by
  induction fuel generalizing n t st with
  | zero => simp [resolveOneSecondPass] at h
  | succ fuel ih =>
    rw [show fuel + 1 + k = fuel + k + 1 by omega]
    unfold resolveOneSecondPass at h ⊢
    by_cases hc : st.cache.has n = true
    · rw [if_pos hc, if_pos hc]
    · rw [if_neg hc] at h ⊢
      rw [if_neg hc]
      cases t with
      | enum vs => rfl
      | struct fs =>
        simp only at h ⊢
        by_cases hv : n ∈ st.visited
        · rw [if_pos hv, if_pos hv]
        · rw [if_neg hv] at h ⊢
          rw [if_neg hv]
          cases hs : splitFields st.cache n fs with
          | error e => rfl
          | ok p =>
            obtain ⟨fields, nots⟩ := p
            rw [hs] at h
            simp only at h ⊢
            by_cases he : nots.isEmpty = true
            · rw [if_pos he, if_pos he]
            · rw [if_neg he] at h ⊢
              rw [if_neg he]
              rw [depsLoop_fuel (resolveOneSecondPass fuel) (resolveOneSecondPass (fuel + k)) (fun n t st => ih n t st)]
              intro hd; rw [hd] at h; exact h rfl

/-- Both kinds of result occur. -/
example : (∃ r, typeCheck id [.decl "A".toList (.struct []), .export "A".toList] = .ok r) ∧
    typeCheck id [.decl "A".toList (.struct [("x".toList, ⟨"A".toList, false, false⟩)]), .export "A".toList] =
      .error (.err (.cycle "A".toList)) ∧ FairOrd id :=
  ⟨⟨_, rfl⟩, rfl, fun _ => .refl _⟩

/-! ## C12 -/

/-- C12: acceptance is well-formedness. -/
theorem C12_accepts_iff_wellformed {ord} (hord : FairOrd ord) (ast : AST) (hnb : NoBuiltinDecl ast) :
    (∃ r, typeCheck ord ast = .ok r) ↔ WF ast := by
  have := typeCheck_spec ast hord
  generalize typeCheck ord ast = r at this
  cases this with
  | ok e B c u fs he hA hg => exact ⟨fun _ => (hA.final hnb).wf he hg, fun _ => ⟨_, rfl⟩⟩
  | err e _ h => exact ⟨fun ⟨r, h⟩ => by simp at h, fun hw => absurd hw (h hnb)⟩

/-- C12 for schema texts: no side condition is left. -/
theorem C12_text {ord} (hord : FairOrd ord) {text : Str} {ast : AST} (h : Parser.schema text = .ok ast) :
    (∃ r, typeCheck ord ast = .ok r) ↔ WF ast :=
  C12_accepts_iff_wellformed hord ast (parsed_noBuiltinDecl h)

/-- A schema with nested structs, an enum, arrays and an optional. -/
def exampleText : Str :=
  "E: enum { X, Y }\nB: struct { e: E, n: uint8 }\nA: struct { b: B[], o?: string }\nexport A".toList

def exampleAst : AST :=
  [.decl "E".toList (.enum ["X".toList, "Y".toList]),
   .decl "B".toList (.struct [("e".toList, ⟨"E".toList, false, false⟩), ("n".toList, ⟨"uint8".toList, false, false⟩)]),
   .decl "A".toList (.struct [("b".toList, ⟨"B".toList, true, false⟩), ("o".toList, ⟨"string".toList, false, true⟩)]),
   .export "A".toList]

theorem example_parses : Parser.schema exampleText = .ok exampleAst := by decide +kernel

/-- It is accepted (so the hypotheses of the theorems about accepted schemas can be met), and well formed. -/
theorem example_accepted : ∃ r, typeCheck id exampleAst = .ok r := ⟨_, rfl⟩

example : NoBuiltinDecl exampleAst ∧ WF exampleAst :=
  ⟨parsed_noBuiltinDecl example_parses, (C12_text (ord := id) (fun _ => .refl _) example_parses).1 example_accepted⟩

/-! ## C13 -/

theorem decls_perm {a b : AST} (h : a.Perm b) : (decls a).Perm (decls b) := h.filterMap _
theorem exports_perm {a b : AST} (h : a.Perm b) : (exports a).Perm (exports b) := h.filterMap _

theorem noBuiltinDecl_perm {a b : AST} (h : a.Perm b) (hn : NoBuiltinDecl a) : NoBuiltinDecl b := by
  rintro n ⟨t, ht⟩
  exact hn n ⟨t, (decls_perm h).mem_iff.2 ht⟩

theorem refers_perm {a b : AST} (h : a.Perm b) : Refers a = Refers b := by
  funext n m
  unfold Refers
  simp only [(decls_perm h).mem_iff]

theorem wf_perm {a b : AST} (h : a.Perm b) (hw : WF a) : WF b := by
  have hd := decls_perm h
  obtain ⟨e, fs, he, hfs⟩ := hw.exported
  refine ⟨⟨e, fs, ?_, hd.mem_iff.1 hfs⟩, (hd.map _).nodup_iff.1 hw.unique, ?_, ?_, ?_, ?_, ?_⟩
  · have := exports_perm h
    rw [he] at this
    exact (List.singleton_perm.1 this).symm
  · exact fun n vs hm => hw.enums n vs (hd.mem_iff.2 hm)
  · intro n m hr
    rw [← refers_perm h] at hr
    rcases hw.closed n m hr with h1 | ⟨t, h1⟩
    · exact Or.inl h1
    · exact Or.inr ⟨t, hd.mem_iff.1 h1⟩
  · exact fun n fs hm => hw.noOptArray n fs (hd.mem_iff.2 hm)
  · intro n hr
    unfold Recursive at hr
    rw [← refers_perm h] at hr
    exact hw.acyclic n hr
  · exact fun n fs hm => hw.fieldNames n fs (hd.mem_iff.2 hm)

/-- C13: acceptance depends neither on the hash order nor on the order of the lines. -/
theorem C13_order_independent {ord₁ ord₂} (h₁ : FairOrd ord₁) (h₂ : FairOrd ord₂) {a b : AST} (hp : a.Perm b)
    (hnb : NoBuiltinDecl a) : (∃ r, typeCheck ord₁ a = .ok r) ↔ (∃ r, typeCheck ord₂ b = .ok r) := by
  rw [C12_accepts_iff_wellformed h₁ a hnb, C12_accepts_iff_wellformed h₂ b (noBuiltinDecl_perm hp hnb)]
  exact ⟨wf_perm hp, wf_perm hp.symm⟩

example : exampleAst.Perm exampleAst.reverse ∧ exampleAst ≠ exampleAst.reverse ∧
    FairOrd List.reverse ∧ (∃ r, typeCheck List.reverse exampleAst.reverse = .ok r) :=
  ⟨(List.reverse_perm _).symm, by decide, fun l => List.reverse_perm l, ⟨_, rfl⟩⟩

/-! ## C14, C16, C17 -/

/-- C14: recursive schemas are rejected. -/
theorem C14_recursion_rejected {ord} (hord : FairOrd ord) {ast : AST} (hnb : NoBuiltinDecl ast) {n : Str}
    (hrec : Relation.TransGen (Refers ast) n n) : ∃ e, typeCheck ord ast = .error (.err e) := by
  rcases C11_no_panic hord ast with h | h
  · exact absurd hrec (((C12_accepts_iff_wellformed hord ast hnb).1 h).acyclic n)
  · exact h

/-- A cycle through three types, one of them an array and one optional. -/
def cycleAst : AST :=
  [.decl "A".toList (.struct [("b".toList, ⟨"B".toList, true, false⟩)]),
   .decl "B".toList (.struct [("c".toList, ⟨"C".toList, false, true⟩)]),
   .decl "C".toList (.struct [("a".toList, ⟨"A".toList, false, false⟩)]),
   .export "A".toList]

example : NoBuiltinDecl cycleAst ∧ Relation.TransGen (Refers cycleAst) "A".toList "A".toList := by
  refine ⟨?_, ?_⟩
  · rintro n ⟨t, ht⟩
    have : n ∈ (decls cycleAst).map Prod.fst := List.mem_map_of_mem (f := Prod.fst) ht
    have hd : ∀ m ∈ (decls cycleAst).map Prod.fst, m ∉ builtinNames := by decide
    exact hd n this
  · refine .tail (b := "C".toList) (.tail (b := "B".toList) (.single ?_) ?_) ?_
    · exact ⟨[("b".toList, ⟨"B".toList, true, false⟩)], by simp [decls, cycleAst], _, List.mem_singleton_self _, rfl⟩
    · exact ⟨[("c".toList, ⟨"C".toList, false, true⟩)], by simp [decls, cycleAst], _, List.mem_singleton_self _, rfl⟩
    · exact ⟨[("a".toList, ⟨"A".toList, false, false⟩)], by simp [decls, cycleAst], _, List.mem_singleton_self _, rfl⟩

/-- C16: a field whose type is neither builtin nor declared is an error, whether or not its struct is used. -/
theorem C16_undeclared_rejected {ord} (hord : FairOrd ord) {ast : AST} (hnb : NoBuiltinDecl ast) {n : Str} {fs}
    (hd : .decl n (.struct fs) ∈ ast) {f} (hf : f ∈ fs) (hb : f.2.name ∉ builtinNames)
    (hu : ∀ t, .decl f.2.name t ∉ ast) : ∃ e, typeCheck ord ast = .error (.err e) := by
  rcases C11_no_panic hord ast with h | h
  · have hw := (C12_accepts_iff_wellformed hord ast hnb).1 h
    have hd' : (n, Ty.struct fs) ∈ decls ast := List.mem_filterMap.2 ⟨_, hd, rfl⟩
    rcases hw.closed n f.2.name ⟨fs, hd', f, hf, rfl⟩ with h1 | ⟨t, h1⟩
    · exact absurd h1 hb
    · obtain ⟨x, hx, hxt⟩ := List.mem_filterMap.1 h1
      cases x with
      | decl n' t' =>
        simp only [Option.some.injEq, Prod.mk.injEq] at hxt
        obtain ⟨h2, rfl⟩ := hxt
        rw [h2] at hx
        exact absurd hx (hu _)
      | «export» n' => simp at hxt
  · exact h

example : ∃ (ast : AST) (n : Str) (fs : List (Str × Unresolved)), NoBuiltinDecl ast ∧ .decl n (.struct fs) ∈ ast ∧
    ∃ f ∈ fs, f.2.name ∉ builtinNames ∧ ∀ t, .decl f.2.name t ∉ ast :=
  ⟨[.decl "A".toList (.struct [("b".toList, ⟨"B".toList, true, false⟩)])], "A".toList, _,
    by rintro n ⟨t, ht⟩
       simp only [decls, List.filterMap_cons, List.filterMap_nil, List.mem_singleton, Prod.mk.injEq] at ht
       rw [ht.1]; decide,
    List.mem_singleton_self _, _, List.mem_singleton_self _, by decide,
    by intro t ht; simp only [List.mem_singleton, Node.decl.injEq] at ht; exact absurd ht.1 (by decide)⟩

/-- C17: no field of an accepted schema is both an array and optional. -/
theorem C17_no_optional_array {ord} (hord : FairOrd ord) {ast : AST} (hnb : NoBuiltinDecl ast) {r}
    (h : typeCheck ord ast = .ok r) {n : Str} {fs} (hd : .decl n (.struct fs) ∈ ast) {f} (hf : f ∈ fs) :
    ¬ (f.2.array = true ∧ f.2.optional = true) :=
  ((C12_accepts_iff_wellformed hord ast hnb).1 ⟨r, h⟩).noOptArray n fs (List.mem_filterMap.2 ⟨_, hd, rfl⟩) f hf

/-! ## C15 -/

/-- C15, full statement: the error does not depend on the hash order. -/
def C15_claim : Prop := ∀ (ast : AST) ord₁ ord₂ e₁ e₂, NoBuiltinDecl ast → FairOrd ord₁ → FairOrd ord₂ →
  typeCheck ord₁ ast = .error (.err e₁) → typeCheck ord₂ ast = .error (.err e₂) → e₁ = e₂

/-- A cycle that is entered from outside. -/
def lassoText : Str := "A: struct { b: B }\nB: struct { c: C }\nC: struct { b: B }\nexport A".toList

def lassoAst : AST :=
  [.decl "A".toList (.struct [("b".toList, ⟨"B".toList, false, false⟩)]),
   .decl "B".toList (.struct [("c".toList, ⟨"C".toList, false, false⟩)]),
   .decl "C".toList (.struct [("b".toList, ⟨"B".toList, false, false⟩)]),
   .export "A".toList]

/-- C15 is false: a cycle is reported as a cycle or as a missing declaration, depending on the hash order. -/
theorem C15_false : ¬ C15_claim := by
  intro h
  have hp : Parser.schema lassoText = .ok lassoAst := by decide +kernel
  have := h lassoAst id List.reverse (.cycle "C".toList) (.missingType "B".toList) (parsed_noBuiltinDecl hp)
    (fun _ => .refl _) (fun l => List.reverse_perm l) rfl rfl
  cases this

/-- Errors of the second pass. -/
def SecondPassErr : CheckErr → Prop
  | .cycle _ | .missingType _ | .optionalArray _ _ => True
  | _ => False

theorem truth2_secondPass {ast : AST} {e} (h : Truth2 ast e) : SecondPassErr e := by
  cases h <;> trivial

theorem truth2_not_final {ast : AST} {c : TypeMap} (hf : Final ast c) {e} (h : Truth2 ast e) : False := by
  cases h with
  | optionalArray f u n fs h1 h2 h3 h4 =>
    obtain ⟨_, _, _, _, h5⟩ := hf.field h1 h2
    exact h5.flags ⟨h3, h4⟩
  | cycle n h => exact hf.acyclic n h
  | missing k n h1 h2 h3 =>
    obtain ⟨fs, hd, f, hf', rfl⟩ := h1
    obtain ⟨_, _, _, _, h5⟩ := hf.field hd hf'
    have := h5.ty
    rw [hf.other _ h2 h3] at this; cases this
  | missingCycle k n h1 h2 h3 => exact hf.acyclic n h3

/-- two final maps give the same kind of type to a name -/
theorem final_same_error {ast : AST} {c₁ c₂ : TypeMap} (h₁ : Final ast c₁) (h₂ : Final ast c₂) (e : Str) {x₁ x₂}
    (g₁ : resolveExport e c₁ = .error x₁) (g₂ : resolveExport e c₂ = .error x₂) : x₁ = x₂ := by
  by_cases hb : e ∈ builtinNames
  · have : c₁.get e = c₂.get e := by rw [h₁.builtin e hb, h₂.builtin e hb]
    unfold resolveExport at g₁ g₂
    rw [this] at g₁
    cases hg : c₂.get e with
    | none => rw [hg] at g₁ g₂; simp only at g₁ g₂; cases g₁; cases g₂; rfl
    | some x =>
      rw [hg] at g₁ g₂; simp only at g₁ g₂
      cases hs : x.2.getStruct with
      | none => rw [hs] at g₁ g₂; cases g₁; cases g₂; rfl
      | some fs => rw [hs] at g₁; cases g₁
  · by_cases hd : Declared ast e
    · obtain ⟨t, ht⟩ := hd
      cases t with
      | enum vs =>
        unfold resolveExport at g₁ g₂
        rw [(h₁.enum e vs ht).2] at g₁
        rw [(h₂.enum e vs ht).2] at g₂
        cases g₁; cases g₂; rfl
      | struct fs =>
        obtain ⟨_, rfs, p, h3, _⟩ := h₁.struct e fs ht
        unfold resolveExport at g₁
        rw [h3] at g₁; cases g₁
    · unfold resolveExport at g₁ g₂
      rw [h₁.other e hb hd] at g₁
      rw [h₂.other e hb hd] at g₂
      cases g₁; cases g₂; rfl

/-- C15, what holds: rejection itself does not depend on the hash order (C13), and two runs report the same error
unless both errors are of the kinds "cycle", "missing declaration" and "optional array". What is missing from the
full statement: agreement among these three kinds. -/
theorem C15_same_error_partial {ord₁ ord₂} (h₁ : FairOrd ord₁) (h₂ : FairOrd ord₂) {ast : AST}
    (hnb : NoBuiltinDecl ast) {e₁ e₂} (g₁ : typeCheck ord₁ ast = .error (.err e₁))
    (g₂ : typeCheck ord₂ ast = .error (.err e₂)) : e₁ = e₂ ∨ (SecondPassErr e₁ ∧ SecondPassErr e₂) := by
  unfold typeCheck at g₁ g₂
  cases he : getExport ast with
  | error f => rw [he] at g₁ g₂; cases g₁; cases g₂; exact Or.inl rfl
  | ok e =>
    rw [he] at g₁ g₂
    simp only at g₁ g₂
    cases hu : collectTypes ast with
    | error f => rw [hu] at g₁ g₂; cases g₁; cases g₂; exact Or.inl rfl
    | ok u =>
      rw [hu] at g₁ g₂
      simp only at g₁ g₂
      cases hf : resolveFirstPass getBuiltins ast ⟨[], u⟩ with
      | error f => rw [hf] at g₁ g₂; cases g₁; cases g₂; exact Or.inl rfl
      | ok fp =>
        rw [hf] at g₁ g₂
        simp only at g₁ g₂
        have hb := between hu hf
        have r₁ := resolveSecondPass_spec hb (mergeMaps_keys _ _ builtins_nodup) h₁
        have r₂ := resolveSecondPass_spec hb (mergeMaps_keys _ _ builtins_nodup) h₂
        generalize resolveSecondPass ord₁ _ _ = x₁ at r₁ g₁
        generalize resolveSecondPass ord₂ _ _ = x₂ at r₂ g₂
        cases r₁ with
        | err a ha =>
          cases r₂ with
          | err b hb => cases g₁; cases g₂; exact Or.inr ⟨truth2_secondPass ha, truth2_secondPass hb⟩
          | ok c hc => exact (truth2_not_final (hc.final hnb) ha).elim
        | ok c hc =>
          cases r₂ with
          | err b hb => exact (truth2_not_final (hc.final hnb) hb).elim
          | ok c' hc' =>
            have := final_same_error (hc.final hnb) (hc'.final hnb) e g₁ g₂
            cases this; exact Or.inl rfl

example : typeCheck id lassoAst = .error (.err (.cycle "C".toList)) ∧
    typeCheck List.reverse lassoAst = .error (.err (.missingType "B".toList)) := ⟨rfl, rfl⟩

/-! ## C54 -/

/-- C54: every error message states a fact about the schema. -/
theorem C54_errors_truthful {ord} (hord : FairOrd ord) {ast : AST} {e} (h : typeCheck ord ast = .error (.err e)) :
    Truthful ast e := by
  have := typeCheck_spec ast hord
  rw [h] at this
  cases this with
  | err e h1 h2 => exact h1

/-! ## C18 -/

/-- C18, full statement: field names are unique in accepted schemas. -/
def C18_claim : Prop := ∀ (ast : AST) ord r, NoBuiltinDecl ast → FairOrd ord → typeCheck ord ast = .ok r →
  ∀ n fs, .decl n (.struct fs) ∈ ast → (fs.map Prod.fst).Nodup

def dupFieldText : Str := "E: enum { V }\nS: struct { e: E, x: uint8, x: uint8 }\nexport S".toList

def dupFieldAst : AST :=
  [.decl "E".toList (.enum ["V".toList]),
   .decl "S".toList (.struct [("e".toList, ⟨"E".toList, false, false⟩), ("x".toList, ⟨"uint8".toList, false, false⟩),
     ("x".toList, ⟨"uint8".toList, false, false⟩)]),
   .export "S".toList]

/-- C18 is false: the check stops at the first field that is not of a builtin type. -/
theorem C18_false : ¬ C18_claim := by
  intro h
  have hp : Parser.schema dupFieldText = .ok dupFieldAst := by decide +kernel
  have hr : ∃ r, typeCheck id dupFieldAst = .ok r := ⟨_, rfl⟩
  obtain ⟨r, hr⟩ := hr
  have := h dupFieldAst id r (parsed_noBuiltinDecl hp) (fun _ => .refl _) hr "S".toList _
    (List.mem_cons_of_mem _ List.mem_cons_self)
  revert this; decide

/-- C18, what holds: a field differs from all fields before it if those have builtin types. What is missing from
the full statement: fields that come after a field of enum or struct type. -/
theorem C18_field_names_partial {ord} (hord : FairOrd ord) {ast : AST} (hnb : NoBuiltinDecl ast) {r}
    (h : typeCheck ord ast = .ok r) {n : Str} {pre f post} (hd : .decl n (.struct (pre ++ f :: post)) ∈ ast)
    (hb : ∀ g ∈ pre, g.2.name ∈ builtinNames) : f.1 ∉ pre.map Prod.fst :=
  ((C12_accepts_iff_wellformed hord ast hnb).1 ⟨r, h⟩).fieldNames n _ (List.mem_filterMap.2 ⟨_, hd, rfl⟩) pre f post
    rfl hb

/-- C18 holds for structs in which at most the last field has a type that is not builtin. -/
theorem C18_builtin_structs {ord} (hord : FairOrd ord) {ast : AST} (hnb : NoBuiltinDecl ast) {r}
    (h : typeCheck ord ast = .ok r) {n : Str} {fs} (hd : .decl n (.struct fs) ∈ ast)
    (hb : ∀ g ∈ fs.dropLast, g.2.name ∈ builtinNames) : (fs.map Prod.fst).Nodup := by
  have key := fun pre f post (he : fs = pre ++ f :: post) =>
    C18_field_names_partial hord hnb h (n := n) (pre := pre) (f := f) (post := post) (he ▸ hd)
  clear hd h
  have : ∀ l post, fs = l ++ post → (l.map Prod.fst).Nodup := by
    intro l
    induction l using List.reverseRecOn with
    | nil => simp
    | append_singleton l f ih =>
      intro post he
      rw [List.append_assoc, List.singleton_append] at he
      have h1 := ih (f :: post) he
      have h2 := key l f post he (fun g hg => hb g (by
        rw [he, List.dropLast_append_of_ne_nil (by simp)]
        exact List.mem_append_left _ hg))
      simp only [List.map_append, List.map_cons, List.map_nil]
      refine List.nodup_append.2 ⟨h1, by simp, ?_⟩
      intro a ha b hb' hab
      simp only [List.mem_singleton] at hb'
      exact h2 (hb' ▸ hab ▸ ha)
  exact this fs [] (by simp)

/-! ## C20, C21 -/

/-- C20: export errors and duplicate declarations are reported precisely. -/
theorem C20_export_errors {ord} (hord : FairOrd ord) (ast : AST) :
    (typeCheck ord ast = .error (.err .noExport) ↔ exports ast = []) ∧
    (typeCheck ord ast = .error (.err .moreThanOneExport) ↔ 2 ≤ (exports ast).length) ∧
    (∀ n, typeCheck ord ast = .error (.err (.duplicateDecl n)) ↔
      (exports ast).length = 1 ∧ FirstRepeat ((decls ast).map Prod.fst) n) := by
  refine ⟨⟨?_, ?_⟩, ⟨?_, ?_⟩, fun n => ⟨?_, ?_⟩⟩
  · intro h
    cases C54_errors_truthful hord h with
    | noExport h => exact h
  · intro h
    unfold typeCheck; rw [getExport_eq, h]
  · intro h
    cases C54_errors_truthful hord h with
    | moreThanOneExport h => exact h
  · intro h
    unfold typeCheck; rw [getExport_eq]
    rcases he : exports ast with _ | ⟨a, _ | ⟨b, l⟩⟩
    · rw [he] at h; simp at h
    · rw [he] at h; simp at h
    · rfl
  · intro h
    refine ⟨?_, ?_⟩
    · have h2 := h
      unfold typeCheck at h2
      rw [getExport_eq] at h2
      rcases he : exports ast with _ | ⟨a, _ | ⟨b, l⟩⟩
      · rw [he] at h2; cases h2
      · rfl
      · rw [he] at h2; cases h2
    · cases C54_errors_truthful hord h with
      | duplicateDecl n h => exact h
  · rintro ⟨h1, h2⟩
    obtain ⟨e, he⟩ := List.length_eq_one_iff.1 h1
    unfold typeCheck
    rw [getExport_eq, he]
    simp only
    cases hc : collectTypes ast with
    | ok u => exact absurd (collectTypes_ok hc).nodup h2.not_nodup
    | error f =>
      obtain ⟨m, rfl, hm⟩ := collectTypes_err hc
      rw [h2.unique hm]

example : typeCheck id [.export "A".toList, .decl "A".toList (.struct []), .decl "B".toList (.struct []),
    .decl "A".toList (.enum [])] = .error (.err (.duplicateDecl "A".toList)) := rfl

/-- C21: an accepted schema exports a declared struct. -/
theorem C21_export_is_struct {ord} (hord : FairOrd ord) {ast : AST} {r} (h : typeCheck ord ast = .ok r) :
    exports ast = [r.export.name] ∧ ∃ fs, .decl r.export.name (.struct fs) ∈ ast := by
  have := typeCheck_spec ast hord
  rw [h] at this
  cases this with
  | ok e B c u fs he hA hg =>
    refine ⟨he, ?_⟩
    have key : ∃ fs, (e, Ty.struct fs) ∈ decls ast := by
      rcases hA.get_cases hg with h1 | ⟨t, r, h1, h2, h3⟩ | ⟨fs, p, rfs, h1, _⟩
      · obtain ⟨b, hb⟩ := builtins_not_struct h1.2
        cases hb
      · cases h3
        cases h2
        exact ⟨_, h1⟩
      · exact ⟨_, h1⟩
    obtain ⟨fs', h1⟩ := key
    obtain ⟨x, hx, hxt⟩ := List.mem_filterMap.1 h1
    cases x with
    | decl n' t' =>
      simp only [Option.some.injEq, Prod.mk.injEq] at hxt
      obtain ⟨rfl, rfl⟩ := hxt
      exact ⟨_, hx⟩
    | «export» n' => simp at hxt

/-- C21: exporting anything but a declared struct is an error. -/
theorem C21_other_exports_rejected {ord} (hord : FairOrd ord) {ast : AST} {e : Str} (he : .export e ∈ ast)
    (hs : ∀ fs, .decl e (.struct fs) ∉ ast) : ∃ x, typeCheck ord ast = .error (.err x) := by
  rcases C11_no_panic hord ast with ⟨r, h⟩ | h
  · obtain ⟨h1, fs, h2⟩ := C21_export_is_struct hord h
    have : e ∈ exports ast := List.mem_filterMap.2 ⟨_, he, rfl⟩
    rw [h1, List.mem_singleton] at this
    subst this
    exact absurd h2 (hs fs)
  · exact h

example : typeCheck id [.decl "E".toList (.enum ["V".toList]), .export "E".toList] =
    .error (.err (.notAStruct "E".toList)) ∧
    typeCheck id [.export "uint8".toList] = .error (.err (.notAStruct "uint8".toList)) ∧
    typeCheck id [.export "X".toList] = .error (.err (.exportUnresolved "X".toList)) := ⟨rfl, rfl, rfl⟩

/-! ## C22, C23, C19 -/

theorem typeCheck_final {ord} (hord : FairOrd ord) {ast : AST} (hnb : NoBuiltinDecl ast) {r}
    (h : typeCheck ord ast = .ok r) : ∃ c, Final ast c ∧ exports ast = [r.export.name] ∧
      c.get r.export.name = some (r.export.name, .struct r.export.fields) ∧ r.types.keys.Nodup ∧
      (∀ n, Used ast n → r.types.get n = c.get n) ∧ (∀ n, ¬ Used ast n → r.types.get n = none) := by
  have := typeCheck_spec ast hord
  rw [h] at this
  cases this with
  | ok e B c u fs he hA hg =>
    have hf := hA.final hnb
    have hv : ∀ n, n ∈ exportVisited [e] fs ↔ Used ast n := by
      intro n
      rw [hf.visited_iff hg]
      constructor
      · intro h; exact ⟨e, he, h⟩
      · rintro ⟨e', he', h⟩
        rw [he] at he'; cases he'; exact h
    have hget : ∀ n, (removeUnused (exportVisited [e] fs) c).get n =
        if decide (n ∈ exportVisited [e] fs) then c.get n else none := by
      intro n
      exact Map.get_filter c (fun k => decide (k ∈ exportVisited [e] fs)) n
    refine ⟨c, hf, he, hg, ?_, ?_, ?_⟩
    · unfold removeUnused Map.keys
      exact hf.keys.sublist (List.Sublist.map _ List.filter_sublist)
    · intro n hn; simp only [hget, (hv n).2 hn, decide_true, if_true]
    · intro n hn
      have : ¬ n ∈ exportVisited [e] fs := fun hh => hn ((hv n).1 hh)
      simp only [hget, this, decide_false, Bool.false_eq_true, if_false]

/-- every used name is in the final map -/
theorem final_used_has {ast : AST} {c : TypeMap} (hf : Final ast c) {e fs} (he : exports ast = [e])
    (hg : c.get e = some (e, .struct fs)) {n : Str} (hn : Used ast n) : c.has n = true := by
  obtain ⟨e', he', h⟩ := hn
  rw [he] at he'; cases he'
  rcases Relation.ReflTransGen.cases_tail h with h | ⟨m, _, hr⟩
  · subst h; exact (Map.has_iff _ _).2 ⟨_, hg⟩
  · obtain ⟨fs, hd, f, hf', rfl⟩ := hr
    obtain ⟨_, _, _, _, h5⟩ := hf.field hd hf'
    exact (Map.has_iff _ _).2 ⟨_, h5.ty⟩

/-- C22: the type map has exactly the used types, each once and under its own name. -/
theorem C22_types_are_used {ord} (hord : FairOrd ord) {ast : AST} (hnb : NoBuiltinDecl ast) {r}
    (h : typeCheck ord ast = .ok r) :
    (∀ n, (∃ e, (n, e) ∈ r.types) ↔ Used ast n) ∧ (r.types.map Prod.fst).Nodup ∧
    (∀ n e, (n, e) ∈ r.types → e.1 = n) := by
  obtain ⟨c, hf, he, hg, hk, h1, h2⟩ := typeCheck_final hord hnb h
  refine ⟨?_, hk, ?_⟩
  · intro n
    constructor
    · rintro ⟨e, hm⟩
      by_contra hn
      have := h2 n hn
      rw [Map.mem_get hk hm] at this; cases this
    · intro hn
      obtain ⟨v, hv⟩ := (Map.has_iff _ _).1 (final_used_has hf he hg hn)
      exact ⟨v, Map.get_mem (by rw [h1 n hn, hv])⟩
  · intro n e hm
    have hm := Map.mem_get hk hm
    by_cases hn : Used ast n
    · rw [h1 n hn] at hm; exact hf.named _ _ hm
    · rw [h2 n hn] at hm; cases hm

/-- A schema with a used and an unused type. -/
example : ∃ (ast : AST) (r : Resolved), NoBuiltinDecl ast ∧ typeCheck id ast = .ok r ∧
    r.types.map Prod.fst = ["A".toList, "uint8".toList] ∧ Declared ast "B".toList := by
  have hp : Parser.schema "A: struct { x: uint8 }\nB: struct { x: string }\nexport A".toList = .ok
    [.decl "A".toList (.struct [("x".toList, ⟨"uint8".toList, false, false⟩)]),
     .decl "B".toList (.struct [("x".toList, ⟨"string".toList, false, false⟩)]), .export "A".toList] := by
    decide +kernel
  refine ⟨_, ⟨⟨"A".toList, [⟨"x".toList, "uint8".toList, .builtin .uint8, false, false⟩]⟩,
    [("A".toList, "A".toList, .struct [⟨"x".toList, "uint8".toList, .builtin .uint8, false, false⟩]),
     ("uint8".toList, "uint8".toList, .builtin .uint8)]⟩, parsed_noBuiltinDecl hp, rfl, rfl, ?_⟩
  exact ⟨_, List.mem_cons_of_mem _ List.mem_cons_self⟩

theorem used_field {ast : AST} {n : Str} {fs} (hn : Used ast n) (hd : (n, Ty.struct fs) ∈ decls ast) {f}
    (hf : f ∈ fs) : Used ast f.2.name := by
  obtain ⟨e, he, h⟩ := hn
  exact ⟨e, he, h.tail ⟨fs, hd, f, hf, rfl⟩⟩

theorem builtin_table_get {n : Str} {b : Builtin} (h : (n, b) ∈ builtinTable) :
    n ∈ builtinNames ∧ getBuiltins.get n = some (n, .builtin b) := by
  unfold builtinTable at h
  simp only [List.mem_cons, Prod.mk.injEq, List.not_mem_nil, or_false] at h
  rcases h with ⟨rfl, rfl⟩ | ⟨rfl, rfl⟩ | ⟨rfl, rfl⟩ | ⟨rfl, rfl⟩ | ⟨rfl, rfl⟩ | ⟨rfl, rfl⟩ | ⟨rfl, rfl⟩ | ⟨rfl, rfl⟩ <;>
    exact ⟨by decide, rfl⟩

/-- The resolved fields are the declared fields, in some order `fs'`. -/
theorem resolved_struct {ord} (hord : FairOrd ord) {ast : AST} (hnb : NoBuiltinDecl ast) {r}
    (h : typeCheck ord ast = .ok r) {n : Str} {fs} (hn : Used ast n) (hd : (n, Ty.struct fs) ∈ decls ast) :
    ∃ (rfs : List RField) (p : Str → Bool), r.types.get n = some (n, .struct rfs) ∧
      (∀ m, Simple ast m → p m = true) ∧ (∀ m k, Refers ast m k → p m = true → p k = true) ∧
      List.Forall₂ (FieldResolved r.types)
        (fs.filter (fun f => p f.2.name) ++ fs.filter (fun f => !p f.2.name)) rfs := by
  obtain ⟨c, hf, he, hg, hk, h1, h2⟩ := typeCheck_final hord hnb h
  obtain ⟨_, rfs, p, h3, h4, hcl, h5⟩ := hf.struct n fs hd
  refine ⟨rfs, p, by rw [h1 n hn, h3], h4, hcl, ?_⟩
  have hall : ∀ f ∈ fs.filter (fun f => p f.2.name) ++ fs.filter (fun f => !p f.2.name), f ∈ fs :=
    fun f hf => (mem_partition (fun f : Str × Unresolved => p f.2.name) fs f).1 hf
  clear h3
  revert hall
  generalize fs.filter (fun f => p f.2.name) ++ fs.filter (fun f => !p f.2.name) = l at h5
  intro hall
  induction h5 with
  | nil => exact .nil
  | cons hR _ ih =>
    refine .cons ⟨hR.name, hR.tyName, hR.array, hR.optional, ?_⟩ (ih fun f hf => hall f (List.mem_cons_of_mem _ hf))
    rw [h1 _ (used_field hn hd (hall _ List.mem_cons_self))]; exact hR.ty

/-- C23: resolution is faithful. Every used builtin, enum and struct is resolved to what it was declared to be;
field types are those of the type map, so a name means the same type everywhere. -/
theorem C23_faithful {ord} (hord : FairOrd ord) {ast : AST} (hnb : NoBuiltinDecl ast) {r}
    (h : typeCheck ord ast = .ok r) :
    r.types.get r.export.name = some (r.export.name, .struct r.export.fields) ∧
    (∀ n b, Used ast n → (n, b) ∈ builtinTable → r.types.get n = some (n, .builtin b)) ∧
    (∀ n vs, Used ast n → (n, .enum vs) ∈ decls ast →
      ∃ e, r.types.get n = some (n, .enum e) ∧ e.variants.map EnumVariant.name = vs) ∧
    (∀ n fs, Used ast n → (n, .struct fs) ∈ decls ast →
      ∃ rfs fs', r.types.get n = some (n, .struct rfs) ∧ fs'.Perm fs ∧
        List.Forall₂ (FieldResolved r.types) fs' rfs) := by
  obtain ⟨c, hf, he, hg, hk, h1, h2⟩ := typeCheck_final hord hnb h
  refine ⟨?_, ?_, ?_, ?_⟩
  · rw [h1 _ ⟨_, he, .refl⟩]; exact hg
  · intro n b hn hb
    obtain ⟨h3, h4⟩ := builtin_table_get hb
    rw [h1 n hn, hf.builtin n h3, h4]
  · intro n vs hn hd
    refine ⟨_, by rw [h1 n hn, (hf.enum n vs hd).2], ?_⟩
    simp [enumSpec, Function.comp_def]
  · intro n fs hn hd
    obtain ⟨rfs, p, h3, _, _, h5⟩ := resolved_struct hord hnb h hn hd
    exact ⟨rfs, _, h3, perm_partition (fun f : Str × Unresolved => p f.2.name) fs, h5⟩

theorem enumSpec_resolved {vs : List Str} (h : EnumOk vs) : EnumResolved vs (enumSpec vs) := by
  obtain ⟨h1, h2, h3⟩ := h
  refine ⟨by simp [enumSpec, Function.comp_def], ?_, ?_, ?_⟩
  · simp only [enumSpec, List.map_map, Function.comp_def]
    rw [List.range_eq_range']
    exact List.zipIdx_map_snd 0 vs
  · unfold enumSpec smallestRepr
    split
    · simpa [reprBits]
    · split <;> simpa [reprBits]
  · intro r hr
    unfold enumSpec smallestRepr
    by_cases h8 : vs.length ≤ 8
    · cases r <;> simp [h8, reprBits]
    · by_cases h16 : vs.length ≤ 16
      · cases r <;> simp [h8, h16, reprBits] at hr ⊢
      · cases r <;> simp [h8, h16, reprBits] at hr ⊢

/-- C19: enums have 1 to 32 distinct variants; they are numbered in order and get the smallest representation that
has a bit for each. -/
theorem C19_enum_bits {ord} (hord : FairOrd ord) {ast : AST} (hnb : NoBuiltinDecl ast) {r}
    (h : typeCheck ord ast = .ok r) {n : Str} {vs} (hd : .decl n (.enum vs) ∈ ast) :
    1 ≤ vs.length ∧ vs.length ≤ 32 ∧ vs.Nodup ∧
    (Used ast n → ∃ e, r.types.get n = some (n, .enum e) ∧ EnumResolved vs e) := by
  obtain ⟨c, hf, he, hg, hk, h1, h2⟩ := typeCheck_final hord hnb h
  obtain ⟨h3, h4⟩ := hf.enum n vs (List.mem_filterMap.2 ⟨_, hd, rfl⟩)
  refine ⟨h3.1, h3.2.1, h3.2.2, fun hn => ⟨_, by rw [h1 n hn, h4], enumSpec_resolved h3⟩⟩

/-- The example schema uses the enum `E`. -/
example : Used exampleAst "E".toList ∧ (∃ r, typeCheck id exampleAst = .ok r) ∧ NoBuiltinDecl exampleAst := by
  refine ⟨⟨"A".toList, rfl, .tail (.tail .refl (b := "A".toList) (c := "B".toList) ?_) ?_⟩, example_accepted,
    parsed_noBuiltinDecl example_parses⟩
  · exact ⟨_, List.mem_cons_of_mem _ (List.mem_cons_of_mem _ List.mem_cons_self), _, List.mem_cons_self, rfl⟩
  · exact ⟨_, List.mem_cons_of_mem _ List.mem_cons_self, _, List.mem_cons_self, rfl⟩

/-! ## C24, C25 -/

/-- C24, full statement: resolved fields are in declaration order. -/
def C24_claim : Prop := ∀ (ast : AST) ord r, NoBuiltinDecl ast → FairOrd ord → typeCheck ord ast = .ok r →
  ∀ n fs rfs, .decl n (.struct fs) ∈ ast → r.types.get n = some (n, .struct rfs) →
    rfs.map FieldOf.name = fs.map Prod.fst

/-- The field `a` has a struct type which itself has a struct field. -/
def reorderText : Str :=
  "E: struct { x: uint8 }\nA: struct { e: E }\nS: struct { a: A, n: uint8 }\nexport S".toList

def reorderAst : AST :=
  [.decl "E".toList (.struct [("x".toList, ⟨"uint8".toList, false, false⟩)]),
   .decl "A".toList (.struct [("e".toList, ⟨"E".toList, false, false⟩)]),
   .decl "S".toList (.struct [("a".toList, ⟨"A".toList, false, false⟩), ("n".toList, ⟨"uint8".toList, false, false⟩)]),
   .export "S".toList]

theorem reorder_parses : Parser.schema reorderText = .ok reorderAst := by decide +kernel

/-- C24 is false: fields whose type is resolved late move to the end. -/
theorem C24_false : ¬ C24_claim := by
  intro h
  have hr : ∃ r rfs, typeCheck id reorderAst = .ok r ∧ r.types.get "S".toList = some ("S".toList, .struct rfs) ∧
    rfs.map FieldOf.name = ["n".toList, "a".toList] := ⟨_, _, rfl, rfl, rfl⟩
  obtain ⟨r, rfs, h1, h2, h3⟩ := hr
  have := h reorderAst id r (parsed_noBuiltinDecl reorder_parses) (fun _ => .refl _) h1 "S".toList _ rfs
    (List.mem_cons_of_mem _ (List.mem_cons_of_mem _ List.mem_cons_self)) h2
  rw [h3] at this
  revert this; decide

/-- C24, what holds: the fields are those already resolved, in declaration order, followed by the others, in
declaration order. Fields of builtin type, enum type, or a struct type made of builtins are always among the first, and
with a type everything it contains. So the order is the declared one if no field can be overtaken by a later one.
What is missing from the full statement: structs in which a field can be overtaken; for those it fails (`C61_order_exact`). -/
theorem C24_field_order_partial {ord} (hord : FairOrd ord) {ast : AST} (hnb : NoBuiltinDecl ast) {r}
    (h : typeCheck ord ast = .ok r) {n : Str} {fs} (hn : Used ast n) (hd : .decl n (.struct fs) ∈ ast) :
    ∃ (rfs : List RField) (early : Str → Bool), r.types.get n = some (n, .struct rfs) ∧
      (∀ m, Simple ast m → early m = true) ∧ (∀ m k, Refers ast m k → early m = true → early k = true) ∧
      rfs.map FieldOf.name =
        (fs.filter (fun f => early f.2.name)).map Prod.fst ++ (fs.filter (fun f => !early f.2.name)).map Prod.fst ∧
      (InOrder ast fs → List.Forall₂ (FieldResolved r.types) fs rfs) := by
  obtain ⟨rfs, p, h1, h2, hcl, h3⟩ := resolved_struct hord hnb h hn (List.mem_filterMap.2 ⟨_, hd, rfl⟩)
  refine ⟨rfs, p, h1, h2, hcl, ?_, ?_⟩
  · rw [← List.map_append]
    clear h1 h2 hcl
    generalize fs.filter (fun f => p f.2.name) ++ fs.filter (fun f => !p f.2.name) = l at h3
    induction h3 with
    | nil => rfl
    | cons hR _ ih => simp only [List.map_cons, ih, hR.name]
  · intro hs
    rwa [inOrder_partition h2 hcl hs] at h3

/-- Nested structs, where no field can be overtaken. -/
def orderedText : Str :=
  "E: struct { x: uint8 }\nA: struct { e: E }\nD: struct { a: A }\nS: struct { n: uint8, a: A, b: A[], d: D }\nexport S".toList

def orderedAst : AST :=
  [.decl "E".toList (.struct [("x".toList, ⟨"uint8".toList, false, false⟩)]),
   .decl "A".toList (.struct [("e".toList, ⟨"E".toList, false, false⟩)]),
   .decl "D".toList (.struct [("a".toList, ⟨"A".toList, false, false⟩)]),
   .decl "S".toList (.struct [("n".toList, ⟨"uint8".toList, false, false⟩), ("a".toList, ⟨"A".toList, false, false⟩),
     ("b".toList, ⟨"A".toList, true, false⟩), ("d".toList, ⟨"D".toList, false, false⟩)]),
   .export "S".toList]

theorem ordered_parses : Parser.schema orderedText = .ok orderedAst := by decide +kernel

theorem ordered_inOrder : AllInOrder orderedAst := by
  intro n fs _ hd
  have hD : Relation.ReflTransGen (Refers orderedAst) "D".toList "A".toList :=
    .single ⟨_, List.mem_cons_of_mem _ (List.mem_cons_of_mem _ List.mem_cons_self), _, List.mem_cons_self, rfl⟩
  have hA : Simple orderedAst "uint8".toList := Or.inl (by decide)
  simp only [orderedAst, decls, List.filterMap_cons, List.filterMap_nil, List.mem_cons, Prod.mk.injEq, List.not_mem_nil,
    or_false, Ty.struct.injEq] at hd
  rcases hd with ⟨_, rfl⟩ | ⟨_, rfl⟩ | ⟨_, rfl⟩ | ⟨_, rfl⟩
  · exact List.pairwise_singleton _ _
  · exact List.pairwise_singleton _ _
  · exact List.pairwise_singleton _ _
  · simp only [InOrder, List.pairwise_cons, List.mem_cons, List.not_mem_nil, or_false, forall_eq_or_imp, forall_eq]
    refine ⟨⟨Or.inl hA, Or.inl hA, Or.inl hA⟩, ⟨Or.inr .refl, Or.inr hD⟩, Or.inr hD, fun _ h => h.elim, List.Pairwise.nil⟩

example : (∃ r, typeCheck id orderedAst = .ok r) ∧ Used orderedAst "S".toList ∧ NoBuiltinDecl orderedAst ∧
    ∃ fs, .decl "S".toList (.struct fs) ∈ orderedAst ∧ fs.length = 4 ∧ InOrder orderedAst fs := by
  have hu : Used orderedAst "S".toList := ⟨"S".toList, rfl, .refl⟩
  refine ⟨⟨_, rfl⟩, hu, parsed_noBuiltinDecl ordered_parses, ?_⟩
  refine ⟨_, List.mem_cons_of_mem _ (List.mem_cons_of_mem _ (List.mem_cons_of_mem _ List.mem_cons_self)), rfl,
    ordered_inOrder "S".toList _ hu ?_⟩
  exact List.mem_cons_of_mem _ (List.mem_cons_of_mem _ (List.mem_cons_of_mem _ List.mem_cons_self))

/-- The order does depend on the hash order. -/
example : (∃ r, typeCheck id reorderAst = .ok r ∧ r.export.fields.map FieldOf.name = ["n".toList, "a".toList]) ∧
    (∃ r, typeCheck List.reverse reorderAst = .ok r ∧ r.export.fields.map FieldOf.name = ["a".toList, "n".toList]) :=
  ⟨⟨_, rfl, rfl⟩, ⟨_, rfl, rfl⟩⟩

/-- Every struct field has a simple type. -/
def AllSimple (ast : AST) : Prop := ∀ n fs, (n, .struct fs) ∈ decls ast → ∀ f ∈ fs, Simple ast f.2.name

theorem AllSimple.inOrder {ast : AST} (h : AllSimple ast) : AllInOrder ast :=
  fun n fs _ hd => List.pairwise_iff_forall_sublist.2 fun {f _} hs => Or.inl (h n fs hd f (hs.subset List.mem_cons_self))

theorem final_get_eq {ast : AST} {c₁ c₂ : TypeMap} (h₁ : Final ast c₁) (h₂ : Final ast c₂) (hs : AllInOrder ast)
    (k : Nat) : ∀ n, Used ast n → sizeOf (typeOf c₁ n) ≤ k → c₁.get n = c₂.get n := by
  induction k with
  | zero =>
    intro n _ hn
    have : 0 < sizeOf (typeOf c₁ n) := by cases typeOf c₁ n <;> simp <;> omega
    omega
  | succ k ih =>
    intro n hus hn
    by_cases hb : n ∈ builtinNames
    · rw [h₁.builtin n hb, h₂.builtin n hb]
    · by_cases hd : Declared ast n
      · obtain ⟨t, ht⟩ := hd
        cases t with
        | enum vs => rw [(h₁.enum n vs ht).2, (h₂.enum n vs ht).2]
        | struct fs =>
          obtain ⟨r₁, g₁, f₁⟩ := h₁.inOrder ht (hs n fs hus ht)
          obtain ⟨r₂, g₂, f₂⟩ := h₂.inOrder ht (hs n fs hus ht)
          have hsz : ∀ f ∈ r₁, sizeOf f.ty ≤ k := by
            intro f hf
            have := sizeOf_field hf
            have hty : typeOf c₁ n = .struct r₁ := by unfold typeOf; rw [g₁]; rfl
            rw [hty] at hn; omega
          have hfu : ∀ f ∈ fs, Used ast f.2.name := fun f hf => used_field hus ht hf
          have : r₁ = r₂ := by
            clear g₁ g₂ hn ht
            induction f₁ generalizing r₂ with
            | nil => cases f₂; rfl
            | cons hR _ ih' =>
              cases f₂ with
              | cons hR' f₂' =>
                rename_i a b l₁ l₂ _ b' l₂'
                have e := ih' _ f₂' (fun f hf => hsz f (List.mem_cons_of_mem _ hf))
                  (fun f hf => hfu f (List.mem_cons_of_mem _ hf))
                have h1 := hsz _ List.mem_cons_self
                have h2 := ih b.tyName (by rw [hR.tyName]; exact hfu _ List.mem_cons_self) (by
                  have : typeOf c₁ b.tyName = b.ty := by unfold typeOf; rw [hR.tyName, hR.ty]; rfl
                  rw [this]; exact h1)
                rw [hR.tyName, hR.ty, hR'.ty] at h2
                have h3 : b.ty = b'.ty := by
                  simp only [Option.some.injEq, Prod.mk.injEq, true_and] at h2; exact h2
                have : b = b' := by
                  obtain ⟨x1, x2, x3, x4, x5⟩ := b
                  obtain ⟨y1, y2, y3, y4, y5⟩ := b'
                  have e1 := hR.name.trans hR'.name.symm
                  have e2 := hR.tyName.trans hR'.tyName.symm
                  have e3 := hR.array.trans hR'.array.symm
                  have e4 := hR.optional.trans hR'.optional.symm
                  simp only at e1 e2 e3 e4 h3
                  subst e1 e2 e3 e4 h3; rfl
                rw [this, e]
          rw [g₁, g₂, this]
      · rw [h₁.other n hb hd, h₂.other n hb hd]

/-- Two checks of a schema in which no field can be overtaken give the same export. -/
theorem export_eq_of_inOrder {ord₁ ord₂} (h₁ : FairOrd ord₁) (h₂ : FairOrd ord₂) {ast : AST} (hnb : NoBuiltinDecl ast)
    (hs : AllInOrder ast) {r₁ r₂} (g₁ : typeCheck ord₁ ast = .ok r₁) (g₂ : typeCheck ord₂ ast = .ok r₂) :
    r₁.export = r₂.export ∧ ∀ n, r₁.types.get n = r₂.types.get n := by
  obtain ⟨c₁, f₁, e₁, x₁, _, u₁, v₁⟩ := typeCheck_final h₁ hnb g₁
  obtain ⟨c₂, f₂, e₂, x₂, _, u₂, v₂⟩ := typeCheck_final h₂ hnb g₂
  have hn : r₁.export.name = r₂.export.name := by rw [e₁] at e₂; simpa using e₂
  have hall := fun n hn => final_get_eq f₁ f₂ hs _ n hn (Nat.le_refl _)
  refine ⟨?_, fun n => ?_⟩
  · rw [hall _ ⟨_, e₁, .refl⟩, hn, x₂] at x₁
    simp only [Option.some.injEq, Prod.mk.injEq, RType.struct.injEq] at x₁
    rcases hr₁ : r₁.export with ⟨a, b⟩
    rcases hr₂ : r₂.export with ⟨a', b'⟩
    rw [hr₁, hr₂] at hn x₁
    simp only at hn x₁
    rw [hn, x₁.2]
  · by_cases hu : Used ast n
    · rw [u₁ n hu, u₂ n hu, hall n hu]
    · rw [v₁ n hu, v₂ n hu]

/-! ## C61 -/

theorem accepted_any {ord₁ ord₂} (h₁ : FairOrd ord₁) (h₂ : FairOrd ord₂) {ast : AST} (hnb : NoBuiltinDecl ast) {r₁}
    (h : typeCheck ord₁ ast = .ok r₁) : ∃ r₂, typeCheck ord₂ ast = .ok r₂ :=
  (C12_accepts_iff_wellformed h₂ ast hnb).2 ((C12_accepts_iff_wellformed h₁ ast hnb).1 ⟨_, h⟩)

/-- C61: the fields of a used struct are in declaration order in every run of the compiler exactly if no field can be
overtaken by a later one: its type is simple, or the later field's type is the same or contains it. -/
theorem C61_order_exact {ast : AST} (hnb : NoBuiltinDecl ast) {ord₀} (h₀ : FairOrd ord₀) {r₀} (hr₀ : typeCheck ord₀ ast = .ok r₀)
    {n : Str} {fs} (hn : Used ast n) (hd : .decl n (.struct fs) ∈ ast) :
    (∀ ord r, FairOrd ord → typeCheck ord ast = .ok r →
      ∃ rfs, r.types.get n = some (n, .struct rfs) ∧ List.Forall₂ (FieldResolved r.types) fs rfs) ↔ InOrder ast fs := by
  have hd' : (n, Ty.struct fs) ∈ decls ast := List.mem_filterMap.2 ⟨_, hd, rfl⟩
  constructor
  · intro h
    by_contra ho
    obtain ⟨ord, hf, hbad⟩ := overtaken hnb hd' ho
    obtain ⟨r, hr⟩ := accepted_any h₀ hf hnb hr₀
    obtain ⟨rfs, h1, h2⟩ := h ord r hf hr
    obtain ⟨rfs', h3, h4⟩ := hbad r hr hn
    rw [h1] at h3
    cases h3
    exact h4 h2
  · intro ho ord r hf hr
    obtain ⟨rfs, _, h1, _, _, _, h2⟩ := C24_field_order_partial hf hnb hr hn hd
    exact ⟨rfs, h1, h2 ho⟩

/-- C61: for every accepted schema some run of the compiler has the fields of all structs in declaration order. -/
theorem C61_order_possible {ast : AST} (hnb : NoBuiltinDecl ast) {ord₀} (h₀ : FairOrd ord₀) {r₀}
    (hr₀ : typeCheck ord₀ ast = .ok r₀) :
    ∃ ord r, FairOrd ord ∧ typeCheck ord ast = .ok r ∧ ∀ n fs, Used ast n → .decl n (.struct fs) ∈ ast →
      ∃ rfs, r.types.get n = some (n, .struct rfs) ∧ List.Forall₂ (FieldResolved r.types) fs rfs := by
  obtain ⟨ord, hf, h⟩ := declOrder_run hnb h₀ hr₀
  obtain ⟨r, hr⟩ := accepted_any h₀ hf hnb hr₀
  refine ⟨ord, r, hf, hr, fun n fs hn hd => ?_⟩
  have hd' : (n, Ty.struct fs) ∈ decls ast := List.mem_filterMap.2 ⟨_, hd, rfl⟩
  obtain ⟨rfs, _, h1, -⟩ := resolved_struct hf hnb hr hn hd'
  exact ⟨rfs, h1, h r hr n fs rfs hn hd' h1⟩

/-- C61: all runs of the compiler resolve a schema to the same types exactly if no field can be overtaken. -/
theorem C61_runs_agree_iff {ast : AST} (hnb : NoBuiltinDecl ast) {ord₀} (h₀ : FairOrd ord₀) {r₀}
    (hr₀ : typeCheck ord₀ ast = .ok r₀) :
    (∀ ord₁ ord₂ r₁ r₂, FairOrd ord₁ → FairOrd ord₂ → typeCheck ord₁ ast = .ok r₁ → typeCheck ord₂ ast = .ok r₂ →
      r₁.export = r₂.export ∧ ∀ n, r₁.types.get n = r₂.types.get n) ↔ AllInOrder ast := by
  constructor
  · intro h n fs hn hd
    obtain ⟨d, hd', he⟩ := List.mem_filterMap.1 hd
    have hmem : .decl n (.struct fs) ∈ ast := by
      cases d with
      | decl m t => cases he; exact hd'
      | «export» m => cases he
    refine (C61_order_exact hnb h₀ hr₀ hn hmem).1 ?_
    intro ord r hf hr
    obtain ⟨ord', r', hf', hr', hall⟩ := C61_order_possible hnb h₀ hr₀
    obtain ⟨rfs, h1, h2⟩ := hall n fs hn hmem
    have hg := (h ord ord' r r' hf hf' hr hr').2
    refine ⟨rfs, by rw [hg, h1], h2.imp fun f rf hR => ⟨hR.name, hR.tyName, hR.array, hR.optional, by rw [hg]; exact hR.ty⟩⟩
  · intro hs ord₁ ord₂ r₁ r₂ f₁ f₂ g₁ g₂
    exact export_eq_of_inOrder f₁ f₂ hnb hs g₁ g₂

/-- C61: the orders in which the fields of a used struct can end up are exactly these: first the fields whose types are in
a set of types that contains what its members contain and all simple types, then the other fields. -/
theorem C61_orders_exact {ast : AST} (hnb : NoBuiltinDecl ast) {ord₀} (h₀ : FairOrd ord₀) {r₀} (hr₀ : typeCheck ord₀ ast = .ok r₀)
    {n : Str} {fs} (hn : Used ast n) (hd : .decl n (.struct fs) ∈ ast) (gs : List (Str × Unresolved)) :
    (∃ ord r rfs, FairOrd ord ∧ typeCheck ord ast = .ok r ∧ r.types.get n = some (n, .struct rfs) ∧
      List.Forall₂ (FieldResolved r.types) gs rfs) ↔
    ∃ early : Str → Bool, (∀ m, Simple ast m → early m = true) ∧ (∀ m k, Refers ast m k → early m = true → early k = true) ∧
      gs = fs.filter (fun f => early f.2.name) ++ fs.filter (fun f => !early f.2.name) := by
  have hd' : (n, Ty.struct fs) ∈ decls ast := List.mem_filterMap.2 ⟨_, hd, rfl⟩
  constructor
  · rintro ⟨ord, r, rfs, hf, hr, hg, hR⟩
    obtain ⟨rfs', p, h1, h2, h3, h4⟩ := resolved_struct hf hnb hr hn hd'
    rw [hg] at h1
    cases h1
    refine ⟨p, h2, h3, ?_⟩
    exact fieldOk_unique (fun f rf h => ⟨h.name, h.tyName, h.array, h.optional⟩)
      (fun f rf h => ⟨h.name, h.tyName, h.array, h.optional⟩) hR h4
  · rintro ⟨p, h2, h3, rfl⟩
    cases hpn : p n with
    | false =>
      obtain ⟨r, hr⟩ := accepted_any h₀ (firstThose_fair p n) hnb hr₀
      obtain ⟨rfs, h4, h5⟩ := early_run hnb hd' p h2 h3 hpn hr hn
      exact ⟨_, r, rfs, firstThose_fair p n, hr, h4, h5⟩
    | true =>
      obtain ⟨ord, r, hf, hr, hall⟩ := C61_order_possible hnb h₀ hr₀
      obtain ⟨rfs, h4, h5⟩ := hall n fs hn hd
      refine ⟨ord, r, rfs, hf, hr, h4, ?_⟩
      have hp : ∀ f ∈ fs, p f.2.name = true := fun f hf => h3 _ _ ⟨fs, hd', f, hf, rfl⟩ hpn
      rw [List.filter_eq_self.2 hp, List.filter_eq_nil_iff.2 (fun f hf => by simp [hp f hf]), List.append_nil]
      exact h5

/-- A schema of nested structs in order, and one not in order. -/
example : (∃ r, typeCheck id orderedAst = .ok r) ∧ AllInOrder orderedAst ∧ (∃ r, typeCheck id reorderAst = .ok r) ∧
    ¬ AllInOrder reorderAst := by
  refine ⟨⟨_, rfl⟩, ordered_inOrder, ⟨_, rfl⟩, ?_⟩
  intro h
  have hex := (C61_runs_agree_iff (parsed_noBuiltinDecl reorder_parses) (ord₀ := id) (fun _ => .refl _) rfl).2 h id List.reverse
    _ _ (fun _ => .refl _) List.reverse_perm rfl rfl
  have := congrArg (fun e => e.fields.map FieldOf.name) hex.1
  revert this; decide

end Packetc.Props
