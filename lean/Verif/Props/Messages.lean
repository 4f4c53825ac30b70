import Verif.Proof.CheckCycle
import Verif.Props.Check
import Verif.Model.Compile
/-!
# C57, C58: the wording of type errors
-/

namespace Packetc.Props
open Ast WellFormed Check

/-- C57, full statement: a type error is one of the documented sentences, and what it says is true. -/
def C57_claim : Prop := ∀ (env : Env) (text m : Str) (ast : AST), env.Fair → Parser.schema text = .ok ast →
  compile env text = .checkError m → Says ast m

theorem compile_checkError {env : Env} {text m : Str} (h : compile env text = .checkError m) :
    ∃ ast e, Parser.schema text = .ok ast ∧ typeCheck env.ordTypes ast = .error (.err e) ∧ m = e.render := by
  unfold compile at h
  split at h
  · cases h
  · split at h
    · cases h
    · split at h <;> cases h
  · rename_i ast hp
    split at h
    · rename_i e ht
      cases h
      exact ⟨ast, e, hp, ht, rfl⟩
    · cases h
    · cases h
    · split at h <;> cases h

theorem compile_of_checkError {env : Env} {text : Str} {ast e} (hp : Parser.schema text = .ok ast)
    (ht : typeCheck env.ordTypes ast = .error (.err e)) : compile env text = .checkError e.render := by
  unfold compile
  rw [hp]
  simp only [ht]

theorem FirstRepeat_count {names : List Str} {n : Str} (h : FirstRepeat names n) : 2 ≤ names.count n := by
  obtain ⟨pre, post, rfl, _, hm⟩ := h
  have := List.count_pos_iff.2 hm
  rw [List.count_append, List.count_cons_self]
  omega

theorem quote1 {a b c d : Str} (n : Str) (ha : a = c ++ "'".toList) (hb : b = "'".toList ++ d) :
    a ++ n ++ b = c ++ quoted n ++ d := by
  subst ha hb
  unfold quoted
  simp only [List.append_assoc]

theorem quote1' {a b c : Str} (n : Str) (ha : a = c ++ "'".toList) (hb : b = "'".toList) :
    a ++ n ++ b = c ++ quoted n := by
  subst ha hb
  unfold quoted
  simp only [List.append_assoc]

theorem quote2 {a b c d e f : Str} (n m : Str) (ha : a = d ++ "'".toList) (hb : b = "'".toList ++ e ++ "'".toList)
    (hc : c = "'".toList ++ f) : a ++ n ++ b ++ m ++ c = d ++ quoted n ++ e ++ quoted m ++ f := by
  subst ha hb hc
  unfold quoted
  simp only [List.append_assoc]

theorem quote2' {a b c d e : Str} (n m : Str) (ha : a = d ++ "'".toList) (hb : b = "'".toList ++ e ++ "'".toList)
    (hc : c = "'".toList) : a ++ n ++ b ++ m ++ c = d ++ quoted n ++ e ++ quoted m := by
  subst ha hb hc
  unfold quoted
  simp only [List.append_assoc]

theorem render_missing (n : Str) : CheckErr.render (.missingType n) = missingSentence n := quote1 n rfl rfl

theorem render_cycle (n : Str) : CheckErr.render (.cycle n) = cycleSentence n := quote1' n rfl rfl

/-- The sentence of a truthful error, and the one way in which it can be false. -/
theorem render_says {ast : AST} {e : CheckErr} (h : Truthful ast e) :
    Says ast e.render ∨ ∃ n, Recursive ast n ∧ e = .missingType n := by
  cases h with
  | noExport h => exact Or.inl (.noExport h)
  | moreThanOneExport h => exact Or.inl (.moreThanOneExport h)
  | duplicateDecl n h => exact Or.inl (.duplicateDecl n (FirstRepeat_count h))
  | optionalArray f u n fs h1 h2 h3 h4 =>
    have := Says.optionalArray _ _ _ _ h1 h2 h3 h4
    refine Or.inl ?_
    have e : CheckErr.render (.optionalArray f n) = "Field ".toList ++ quoted f ++ " in struct ".toList ++ quoted n ++
        " cannot be optional and array at once".toList :=
      quote2 f n rfl rfl rfl
    rw [e]; exact this
  | emptyEnum n h =>
    have := Says.emptyEnum _ h
    refine Or.inl ?_
    have e : CheckErr.render (.emptyEnum n) = "Enum ".toList ++ quoted n ++ " must have at least one variant".toList :=
      quote1 n rfl rfl
    rw [e]; exact this
  | tooManyVariants n vs h1 h2 =>
    have := Says.tooManyVariants _ _ h1 h2
    refine Or.inl ?_
    have e : CheckErr.render (.tooManyVariants n vs.length) = "Enum ".toList ++ quoted n ++
        " has too many variants (".toList ++ (toString vs.length).toList ++ "/32)".toList :=
      congrArg (· ++ (toString vs.length).toList ++ "/32)".toList) (quote1 n rfl rfl)
    rw [e]; exact this
  | duplicateVariant v n vs h1 h2 =>
    have := Says.duplicateVariant _ _ _ h1 h2
    refine Or.inl ?_
    have e : CheckErr.render (.duplicateVariant v n) =
        "Duplicate variant ".toList ++ quoted v ++ " on enum ".toList ++ quoted n :=
      quote2' v n rfl rfl rfl
    rw [e]; exact this
  | duplicateField f n fs h1 h2 =>
    have := Says.duplicateField _ _ _ h1 h2
    refine Or.inl ?_
    have e : CheckErr.render (.duplicateField f n) =
        "Duplicate field ".toList ++ quoted f ++ " on struct ".toList ++ quoted n :=
      quote2' f n rfl rfl rfl
    rw [e]; exact this
  | cycle n h =>
    have := Says.cycle _ h
    refine Or.inl ?_
    rw [render_cycle]; exact this
  | missingType k n h1 h2 h3 =>
    rcases h3 with h3 | h3
    · rw [render_missing]
      exact Or.inl (.missing k n h1 h2 h3)
    · exact Or.inr ⟨n, h3, rfl⟩
  | notAStruct n h1 h2 =>
    have := Says.notAStruct _ h1 h2
    refine Or.inl ?_
    have e : CheckErr.render (.notAStruct n) =
        "Attempted to export ".toList ++ quoted n ++ ", which is not a struct".toList :=
      quote1 n rfl rfl
    rw [e]; exact this
  | exportUnresolved n h1 h2 h3 =>
    have := Says.exportUnresolved _ h1 h2 h3
    refine Or.inl ?_
    have e : CheckErr.render (.exportUnresolved n) = "Export ".toList ++ quoted n ++ " could not be resolved".toList :=
      quote1 n rfl rfl
    rw [e]; exact this

/-- A run in which hash maps are enumerated backwards. -/
def backwards : Env := ⟨"0.1.4".toList, "now".toList, List.reverse, List.reverse⟩

theorem backwards_fair : backwards.Fair := ⟨fun l => List.reverse_perm l, fun l => List.reverse_perm l⟩

theorem lasso_message : compile backwards lassoText = .checkError (missingSentence "B".toList) := by
  have hp : Parser.schema lassoText = .ok lassoAst := by decide +kernel
  exact compile_of_checkError (e := .missingType "B".toList) hp rfl

/-- Only of a type without declaration is it true that its declaration does not exist. -/
theorem says_missing {ast : AST} {n₀ : Str} (hs : Says ast (missingSentence n₀)) : ¬ Declared ast n₀ := by
  generalize hm : missingSentence n₀ = m at hs
  cases hs with
  | missing k n h1 h2 h3 =>
    have hn : n₀ = n := by
      unfold missingSentence quoted at hm
      exact (List.append_right_inj "'".toList).1 ((List.append_left_inj "'".toList).1
        ((List.append_right_inj _).1 ((List.append_left_inj _).1 hm)))
    subst hn
    exact h3
  | noExport h =>
    have : ['D', 'e'] = ['S', 'c'] := congrArg (List.take 2) hm
    cases this
  | moreThanOneExport h =>
    have : ['D', 'e'] = ['S', 'c'] := congrArg (List.take 2) hm
    cases this
  | duplicateDecl n h =>
    have : ['D', 'e'] = ['S', 'c'] := congrArg (List.take 2) hm
    cases this
  | optionalArray f u n fs =>
    have : ['D', 'e'] = ['F', 'i'] := congrArg (List.take 2) hm
    cases this
  | emptyEnum n =>
    have : ['D', 'e'] = ['E', 'n'] := congrArg (List.take 2) hm
    cases this
  | tooManyVariants n vs =>
    have : ['D', 'e'] = ['E', 'n'] := congrArg (List.take 2) hm
    cases this
  | duplicateVariant v n vs =>
    have : ['D', 'e'] = ['D', 'u'] := congrArg (List.take 2) hm
    cases this
  | duplicateField f n fs =>
    have : ['D', 'e'] = ['D', 'u'] := congrArg (List.take 2) hm
    cases this
  | cycle n =>
    have : ['D', 'e'] = ['F', 'o'] := congrArg (List.take 2) hm
    cases this
  | notAStruct n =>
    have : ['D', 'e'] = ['A', 't'] := congrArg (List.take 2) hm
    cases this
  | exportUnresolved n =>
    have : ['D', 'e'] = ['E', 'x'] := congrArg (List.take 2) hm
    cases this

/-- C57 is false: of a declared but recursive type it can be said that its declaration does not exist. -/
theorem C57_false : ¬ C57_claim := by
  intro h
  have hp : Parser.schema lassoText = .ok lassoAst := by decide +kernel
  exact says_missing (h backwards lassoText _ lassoAst backwards_fair hp lasso_message)
    ⟨_, List.mem_cons_of_mem _ List.mem_cons_self⟩

/-- C57, what holds: a type error is one of the documented sentences, and what it says is true. What is missing from
the full statement: a recursive type may be said not to be declared. -/
theorem C57_messages_partial {env : Env} (hf : env.Fair) {text m : Str} (h : compile env text = .checkError m) :
    ∃ ast, Parser.schema text = .ok ast ∧ (Says ast m ∨ ∃ n, Recursive ast n ∧ m = missingSentence n) := by
  obtain ⟨ast, e, hp, ht, rfl⟩ := compile_checkError h
  refine ⟨ast, hp, ?_⟩
  exact (render_says (C54_errors_truthful hf.1 ht)).imp id fun ⟨n, h1, h2⟩ => ⟨n, h1, h2 ▸ render_missing n⟩

example : compile backwards "E: enum { }\nS: struct { e: E }\nexport S".toList =
    .checkError "Enum 'E' must have at least one variant".toList := by decide +kernel

example : compile backwards "S: struct { e: uint8[], e?: int8 }\nexport S".toList =
    .checkError "Duplicate field 'e' on struct 'S'".toList := by decide +kernel

/-! ## C58 -/

/-- C58, full statement: when recursion is the only defect of a schema, a cycle is reported. -/
def C58_claim : Prop := ∀ (env : Env) (text : Str) (ast : AST), env.Fair → Parser.schema text = .ok ast →
  OnlyRecursive ast → ∃ n, Recursive ast n ∧ compile env text = .checkError (cycleSentence n)

theorem onlyRecursive_error {env : Env} (hf : env.Fair) {text : Str} {ast : AST} (hp : Parser.schema text = .ok ast)
    (ho : OnlyRecursive ast) :
    ∃ n, Recursive ast n ∧ (typeCheck env.ordTypes ast = .error (.err (.cycle n)) ∨
      typeCheck env.ordTypes ast = .error (.err (.missingType n))) := by
  obtain ⟨k, hk⟩ := ho.recursive
  obtain ⟨e, he⟩ := C14_recursion_rejected hf.1 (parsed_noBuiltinDecl hp) hk
  obtain ⟨x, xs, hx, hxs⟩ := ho.exported
  cases C54_errors_truthful hf.1 he with
  | noExport h => rw [h] at hx; cases hx
  | moreThanOneExport h => rw [hx] at h; simp at h
  | duplicateDecl n h => exact absurd ho.unique h.not_nodup
  | optionalArray f u n fs h1 h2 h3 h4 => exact absurd ⟨h3, h4⟩ (ho.noOptArray n fs h1 _ h2)
  | emptyEnum n h => have := (ho.enums n _ h).1; simp at this
  | tooManyVariants n vs h1 h2 => have := (ho.enums n _ h1).2.1; omega
  | duplicateVariant v n vs h1 h2 => exact absurd (ho.enums n _ h1).2.2 (count_two_not_nodup h2)
  | duplicateField f n fs h1 h2 => exact absurd (ho.fieldNames n _ h1) (count_two_not_nodup h2)
  | cycle n h => exact ⟨n, h, Or.inl he⟩
  | missingType k n h1 h2 h3 =>
    refine ⟨n, ?_, Or.inr he⟩
    rcases h3 with h3 | h3
    · rcases ho.closed _ _ h1 with h | h
      · exact absurd h h2
      · exact absurd h h3
    · exact h3
  | notAStruct n h1 h2 =>
    rw [hx] at h1
    cases h1
    rcases h2 with h2 | ⟨vs, h2⟩
    · exact absurd h2 (parsed_noBuiltinDecl hp _ ⟨_, hxs⟩)
    · have := (Map.mem_iff_get (m := decls ast) ho.unique _ _).1 h2
      rw [(Map.mem_iff_get (m := decls ast) ho.unique _ _).1 hxs] at this
      cases this
  | exportUnresolved n h1 h2 h3 =>
    rw [hx] at h1
    cases h1
    exact absurd ⟨_, hxs⟩ h3

/-- The references of a schema, as a list. -/
def edges (ast : AST) : List (Str × Str) :=
  (decls ast).flatMap fun | (n, .struct fs) => fs.map (fun f => (n, f.2.name)) | (_, .enum _) => []

theorem refers_iff_edge {ast : AST} {n m : Str} : Refers ast n m ↔ (n, m) ∈ edges ast := by
  unfold Refers edges
  simp only [List.mem_flatMap]
  constructor
  · rintro ⟨fs, h1, f, h2, rfl⟩
    exact ⟨_, h1, List.mem_map.2 ⟨f, h2, rfl⟩⟩
  · rintro ⟨⟨k, t⟩, h1, h2⟩
    cases t with
    | enum vs => cases h2
    | struct fs =>
      simp only [List.mem_map, Prod.mk.injEq] at h2
      obtain ⟨f, hf, rfl, rfl⟩ := h2
      exact ⟨fs, h1, f, hf, rfl⟩

/-- The fields of a struct. -/
def fieldsOf : Ty → List (Str × Unresolved)
  | .struct fs => fs
  | .enum _ => []

/-- `OnlyRecursive` for a schema of structs, by computation. -/
theorem onlyRecursive_of {ast : AST} (h1 : ∃ e fs, exports ast = [e] ∧ (e, .struct fs) ∈ decls ast)
    (h2 : ((decls ast).map Prod.fst).Nodup) (h3 : ∀ d ∈ decls ast, d.2 = .struct (fieldsOf d.2))
    (h4 : ∀ e ∈ edges ast, e.2 ∈ (decls ast).map Prod.fst)
    (h5 : ∀ d ∈ decls ast, ∀ f ∈ fieldsOf d.2, ¬ (f.2.array = true ∧ f.2.optional = true))
    (h6 : ∀ d ∈ decls ast, ((fieldsOf d.2).map Prod.fst).Nodup) (h7 : ∃ n, Recursive ast n) : OnlyRecursive ast := by
  refine ⟨h1, h2, ?_, ?_, ?_, ?_, h7⟩
  · intro n vs h
    cases h3 _ h
  · intro n m h
    rw [refers_iff_edge] at h
    obtain ⟨⟨x, t⟩, hx, hxe⟩ := List.mem_map.1 (h4 _ h)
    simp only at hxe
    subst hxe
    exact Or.inr ⟨t, hx⟩
  · intro n fs h
    exact h5 _ h
  · intro n fs h
    exact h6 _ h

theorem lasso_only : OnlyRecursive lassoAst := by
  refine onlyRecursive_of ⟨_, _, rfl, List.mem_cons_self⟩ (by decide) (by decide) (by decide) (by decide) (by decide)
    ⟨"B".toList, ?_⟩
  refine .tail (b := "C".toList) (.single ?_) ?_ <;> rw [refers_iff_edge] <;> decide

/-- C58 is false: see `lassoText`. -/
theorem C58_false : ¬ C58_claim := by
  intro h
  have hp : Parser.schema lassoText = .ok lassoAst := by decide +kernel
  obtain ⟨n, _, hn⟩ := h backwards lassoText lassoAst backwards_fair hp lasso_only
  rw [lasso_message] at hn
  simp only [CompileOutcome.checkError.injEq] at hn
  have : ['D', 'e'] = ['F', 'o'] := congrArg (List.take 2) hn
  cases this

/-- C58, what holds of every schema whose only defect is recursion: it is rejected with a sentence that names a
recursive type. What is missing from the full statement: the sentence may be that the type is not declared. -/
theorem C58_recursive_named_partial {env : Env} (hf : env.Fair) {text : Str} {ast : AST}
    (hp : Parser.schema text = .ok ast) (ho : OnlyRecursive ast) :
    ∃ n, Recursive ast n ∧ (compile env text = .checkError (cycleSentence n) ∨
      compile env text = .checkError (missingSentence n)) := by
  obtain ⟨n, hn, h | h⟩ := onlyRecursive_error hf hp ho
  · refine ⟨n, hn, Or.inl ?_⟩
    rw [compile_of_checkError hp h, render_cycle]
  · refine ⟨n, hn, Or.inr ?_⟩
    rw [compile_of_checkError hp h, render_missing]

/-- C58, what holds when the recursive types form a ring: a cycle is reported in every run. What is missing from the
full statement: recursion that is entered from outside, and types that are recursive in several ways. -/
theorem C58_ring_partial {env : Env} (hf : env.Fair) {text : Str} {ast : AST} (hp : Parser.schema text = .ok ast)
    (ho : OnlyRecursive ast) (hr : Ring ast) :
    ∃ n, Recursive ast n ∧ compile env text = .checkError (cycleSentence n) := by
  obtain ⟨n, hn, h | h⟩ := onlyRecursive_error hf hp ho
  · refine ⟨n, hn, ?_⟩
    rw [compile_of_checkError hp h, render_cycle]
  · exfalso
    rcases typeCheck_missing hf.1 h with h' | ⟨r, h1, h2⟩
    · obtain ⟨m, hm, _⟩ := Relation.TransGen.head'_iff.1 hn
      obtain ⟨fs, hfs, _⟩ := hm
      exact h' ⟨_, hfs⟩
    · exact hr r n h1.to_reflTransGen hn n h2

def ringText : Str := "A: struct { b: B[] }\nB: struct { c?: C }\nC: struct { a: A }\nexport A".toList

theorem no_cycle_of_rank {R : Str → Str → Prop} (f : Str → Nat) (h : ∀ n m, R n m → f n < f m) (n : Str) :
    ¬ Relation.TransGen R n n := by
  have : ∀ a b, Relation.TransGen R a b → f a < f b := by
    intro a b hab
    induction hab with
    | single h1 => exact h _ _ h1
    | tail _ h1 ih => exact Nat.lt_trans ih (h _ _ h1)
  intro hn
  exact absurd (this _ _ hn) (Nat.lt_irrefl _)

theorem ring_ring : Ring cycleAst := by
  intro r m hrm hm
  have hedge : ∀ n m, Refers cycleAst n m → (n, m) ∈ edges cycleAst := fun n m h => refers_iff_edge.1 h
  have hed : edges cycleAst =
    [("A".toList, "B".toList), ("B".toList, "C".toList), ("C".toList, "A".toList)] := by decide
  rw [hed] at hedge
  have hr : r = "A".toList ∨ r = "B".toList ∨ r = "C".toList := by
    have : ∃ k, Refers cycleAst r k := by
      rcases Relation.ReflTransGen.cases_head hrm with rfl | ⟨k, hk, _⟩
      · obtain ⟨k, hk, _⟩ := Relation.TransGen.head'_iff.1 hm
        exact ⟨k, hk⟩
      · exact ⟨k, hk⟩
    obtain ⟨k, hk⟩ := this
    have := hedge _ _ hk
    simp only [List.mem_cons, Prod.mk.injEq, List.not_mem_nil, or_false] at this
    rcases this with ⟨h, _⟩ | ⟨h, _⟩ | ⟨h, _⟩
    · exact Or.inl h
    · exact Or.inr (Or.inl h)
    · exact Or.inr (Or.inr h)
  have key : ∀ (f : Str → Nat), (∀ e ∈ [("A".toList, "B".toList), ("B".toList, "C".toList), ("C".toList, "A".toList)],
      e.1 ≠ r → e.2 ≠ r → f e.1 < f e.2) → ∀ n, ¬ Relation.TransGen (RefersAvoiding cycleAst r) n n := by
    intro f hf
    exact no_cycle_of_rank f (fun n m h => hf _ (hedge _ _ h.1) h.2.1 h.2.2)
  rcases hr with rfl | rfl | rfl
  · exact key (fun x => if x = "B".toList then 0 else 1) (by decide)
  · exact key (fun x => if x = "C".toList then 0 else 1) (by decide)
  · exact key (fun x => if x = "A".toList then 0 else 1) (by decide)

example : Parser.schema ringText = .ok cycleAst ∧ OnlyRecursive cycleAst ∧ Ring cycleAst := by
  refine ⟨by decide +kernel, onlyRecursive_of ⟨_, _, rfl, List.mem_cons_self⟩ (by decide) (by decide) (by decide)
    (by decide) (by decide) ⟨"B".toList, ?_⟩, ring_ring⟩
  refine .tail (b := "A".toList) (.tail (b := "C".toList) (.single ?_) ?_) ?_ <;> rw [refers_iff_edge] <;> decide

end Packetc.Props
