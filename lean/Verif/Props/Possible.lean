import Verif.Proof.CheckPossibleAll
import Verif.Props.Messages
/-!
# C84: exactly which errors a schema can be rejected with; consequences for C15 and C58
-/

namespace Packetc.Props
open Ast WellFormed Check

/-! ## C84 -/

/-- C84: the errors reported by the runs of the checker are exactly the possible ones. -/
theorem C84_exact {ast : AST} (hnb : NoBuiltinDecl ast) (e : CheckErr) :
    (∃ ord, FairOrd ord ∧ typeCheck ord ast = .error (.err e)) ↔ Possible ast e :=
  ⟨fun ⟨_, hord, h⟩ => typeCheck_possible hnb hord h, typeCheck_some hnb⟩

/-- C84, for texts: the messages shown by the runs of `compile` are exactly those of the possible errors. -/
theorem C84_messages {text : Str} {ast : AST} (hp : Parser.schema text = .ok ast) (m : Str) :
    (∃ env : Env, env.Fair ∧ compile env text = .checkError m) ↔ ∃ e, Possible ast e ∧ m = e.render := by
  have hnb := parsed_noBuiltinDecl hp
  constructor
  · rintro ⟨env, hf, h⟩
    obtain ⟨ast', e, hp', ht, rfl⟩ := compile_checkError h
    rw [hp] at hp'
    cases hp'
    exact ⟨e, typeCheck_possible hnb hf.1 ht, rfl⟩
  · rintro ⟨e, he, rfl⟩
    obtain ⟨ord, hord, ht⟩ := typeCheck_some hnb he
    exact ⟨⟨[], [], ord, id⟩, ⟨hord, fun _ => .refl _⟩, compile_of_checkError hp ht⟩

/-- C84: the schemas with a possible error are those that are not well-formed. -/
theorem C84_some_iff {ast : AST} (hnb : NoBuiltinDecl ast) : (∃ e, Possible ast e) ↔ ¬ WF ast := by
  constructor
  · rintro ⟨e, he⟩
    exact Possible.not_wf hnb he
  · intro hw
    cases hr : typeCheck id ast with
    | ok r => exact absurd ((C12_accepts_iff_wellformed fair_id ast hnb).1 ⟨r, hr⟩) hw
    | error f =>
      have hs := typeCheck_spec ast fair_id
      rw [hr] at hs
      cases hs with
      | err e _ _ => exact ⟨e, typeCheck_possible hnb fair_id hr⟩

/-- `U` does not exist, and the field `a` is optional and array: which of the two is reported depends on whether `S` is
resolved before `T`. -/
def twoFlawsText : Str :=
  "T: struct { x: U, a?: S[] }\nS: struct { b: B }\nB: struct { v: uint8 }\nexport T".toList

def twoFlawsAst : AST :=
  [.decl "T".toList (.struct [("x".toList, ⟨"U".toList, false, false⟩), ("a".toList, ⟨"S".toList, true, true⟩)]),
   .decl "S".toList (.struct [("b".toList, ⟨"B".toList, false, false⟩)]),
   .decl "B".toList (.struct [("v".toList, ⟨"uint8".toList, false, false⟩)]),
   .export "T".toList]

example : Parser.schema twoFlawsText = .ok twoFlawsAst := by decide +kernel

example : Possible twoFlawsAst (.missingType "U".toList) ∧
    Possible twoFlawsAst (.optionalArray "a".toList "T".toList) := by
  have hp : Parser.schema twoFlawsText = .ok twoFlawsAst := by decide +kernel
  have hnb := parsed_noBuiltinDecl hp
  exact ⟨(C84_exact hnb _).1 ⟨List.reverse, fun l => List.reverse_perm l, rfl⟩, (C84_exact hnb _).1 ⟨id, fair_id, rfl⟩⟩

/-! ## C15 -/

/-- C15, exactly: all runs report the same error if and only if at most one error is possible. What is missing from the
full statement: schemas with several possible errors, such as `twoFlawsText`. -/
theorem C15_exact_partial {ast : AST} (hnb : NoBuiltinDecl ast) :
    (∀ ord₁ ord₂ e₁ e₂, FairOrd ord₁ → FairOrd ord₂ → typeCheck ord₁ ast = .error (.err e₁) →
      typeCheck ord₂ ast = .error (.err e₂) → e₁ = e₂) ↔
    ∀ e₁ e₂, Possible ast e₁ → Possible ast e₂ → e₁ = e₂ := by
  constructor
  · intro h e₁ e₂ h₁ h₂
    obtain ⟨ord₁, ho₁, ht₁⟩ := typeCheck_some hnb h₁
    obtain ⟨ord₂, ho₂, ht₂⟩ := typeCheck_some hnb h₂
    exact h ord₁ ord₂ e₁ e₂ ho₁ ho₂ ht₁ ht₂
  · intro h ord₁ ord₂ e₁ e₂ ho₁ ho₂ ht₁ ht₂
    exact h e₁ e₂ (typeCheck_possible hnb ho₁ ht₁) (typeCheck_possible hnb ho₂ ht₂)

/-! ## C58 -/

theorem cycle_ne_missing (n m : Str) : cycleSentence n ≠ missingSentence m := by
  intro h
  have : ['F', 'o'] = ['D', 'e'] := congrArg (List.take 2) h
  cases this

theorem leads_recursive {ast : AST} {n : Str} (h : Relation.TransGen (Leads ast) n n) : Recursive ast n :=
  Relation.TransGen.mono (fun _ _ h => Leads.refers h) _ _ h

/-- An error of a schema whose only defect is recursion comes from an entry of the second pass. -/
theorem onlyRecursive_possible {ast : AST} (ho : OnlyRecursive ast) {e : CheckErr} (h : Possible ast e) :
    ∃ K R, Settled ast K ∧ Loops ast R ∧ Report ast R K [R] R e := by
  have hcl := ho.clean
  have h1 := hcl.oneExport
  obtain ⟨k, hk⟩ := ho.recursive
  have hbad : ¬ ∀ m, Declared ast m → ¬ Broken ast m := fun h' => by
    have hl : Loops ast k := ⟨k, .refl, hk⟩
    exact h' k (Loops.declared hl) (Loops.broken hl)
  cases h with
  | noExport h => rw [h] at h1; cases h1
  | moreThanOneExport h => omega
  | duplicateDecl n _ h => exact absurd hcl.unique h.not_nodup
  | locally pre n t post _ _ _ h _ hl => exact absurd hl (hcl.locally (n, t) (by rw [h]; simp) _)
  | resolving K R _ _ hK hd hb hr => exact ⟨K, R, hK, (ho.broken (Or.inr hd)).1 hb, hr⟩
  | notAStruct n _ h => exact absurd h hbad
  | exportUnresolved n _ h => exact absurd h hbad

/-- C58, what holds of every schema whose only defect is recursion: in some run a cycle is reported. What is missing
from the full statement: the other runs. -/
theorem C58_some_run_partial {text : Str} {ast : AST} (hp : Parser.schema text = .ok ast) (ho : OnlyRecursive ast) :
    ∃ (env : Env) (n : Str), env.Fair ∧ Recursive ast n ∧ compile env text = .checkError (cycleSentence n) := by
  have hnb := parsed_noBuiltinDecl hp
  have hcl := ho.clean
  -- some type leads back to itself
  obtain ⟨m, hm⟩ : ∃ m, Relation.TransGen (Leads ast) m m := by
    obtain ⟨k, hk⟩ := ho.recursive
    have hl : Loops ast k := ⟨k, .refl, hk⟩
    obtain ⟨K, e, hK, hrep⟩ := report_exists hnb hcl (Loops.declared hl) (Loops.broken hl)
    rcases report_entry ho hrep with ⟨-, h⟩ | ⟨m, -, -, h⟩
    · exact ⟨k, h⟩
    · exact ⟨m, h⟩
  have hl : Loops ast m := ⟨m, .refl, leads_recursive hm⟩
  obtain ⟨K, e, hK, hrep⟩ := report_exists hnb hcl (Loops.declared hl) (Loops.broken hl)
  rcases report_entry ho hrep with ⟨rfl, -⟩ | ⟨m', -, h, -⟩
  · obtain ⟨env, hf, h⟩ := (C84_messages hp _).2
      ⟨_, .resolving K m _ hcl hK (Loops.declared hl) (Loops.broken hl) hrep, rfl⟩
    exact ⟨env, m, hf, leads_recursive hm, by rw [h, render_cycle]⟩
  · exact absurd hm h

/-- C58, exactly: a cycle is reported in every run if and only if following, from any type that reaches recursion,
the first field that does so leads back to this type. What is missing from the full statement: all other schemas, for
which C58 is false. -/
theorem C58_exact_partial {text : Str} {ast : AST} (hp : Parser.schema text = .ok ast) (ho : OnlyRecursive ast) :
    (∀ env : Env, env.Fair → ∃ n, Recursive ast n ∧ compile env text = .checkError (cycleSentence n)) ↔
    ∀ n, Loops ast n → Relation.TransGen (Leads ast) n n := by
  have hnb := parsed_noBuiltinDecl hp
  have hcl := ho.clean
  constructor
  · intro h n hl
    obtain ⟨K, e, hK, hrep⟩ := report_exists hnb hcl (Loops.declared hl) (Loops.broken hl)
    rcases report_entry ho hrep with ⟨-, h1⟩ | ⟨m, rfl, -, -⟩
    · exact h1
    · exfalso
      obtain ⟨env, hf, h1⟩ := (C84_messages hp _).2
        ⟨_, .resolving K n _ hcl hK (Loops.declared hl) (Loops.broken hl) hrep, rfl⟩
      obtain ⟨k, -, h2⟩ := h env hf
      rw [h2, render_missing] at h1
      simp only [CompileOutcome.checkError.injEq] at h1
      exact cycle_ne_missing _ _ h1
  · intro h env hf
    obtain ⟨n, hn, h1⟩ := onlyRecursive_error hf hp ho
    obtain ⟨e, ht⟩ : ∃ e, typeCheck env.ordTypes ast = .error (.err e) := by
      rcases h1 with h1 | h1 <;> exact ⟨_, h1⟩
    obtain ⟨K, R, hK, hl, hrep⟩ := onlyRecursive_possible ho (typeCheck_possible hnb hf.1 ht)
    rcases report_entry ho hrep with ⟨rfl, h2⟩ | ⟨m, -, h2, -⟩
    · exact ⟨R, leads_recursive h2, by rw [compile_of_checkError hp ht, render_cycle]⟩
    · exact absurd (h R hl) h2

/-- A ring (compare `C58_ring_partial`): the condition of `C58_exact_partial` holds. -/
example : Parser.schema ringText = .ok cycleAst ∧ OnlyRecursive cycleAst ∧
    ∀ n, Loops cycleAst n → Relation.TransGen (Leads cycleAst) n n := by
  have hp : Parser.schema ringText = .ok cycleAst := by decide +kernel
  have ho : OnlyRecursive cycleAst := by
    refine onlyRecursive_of ⟨_, _, rfl, List.mem_cons_self⟩ (by decide) (by decide) (by decide)
      (by decide) (by decide) ⟨"B".toList, ?_⟩
    refine .tail (b := "A".toList) (.tail (b := "C".toList) (.single ?_) ?_) ?_ <;> rw [refers_iff_edge] <;> decide
  exact ⟨hp, ho, (C58_exact_partial hp ho).1 fun env hf => C58_ring_partial hf hp ho ring_ring⟩

/-- A type recursive in two ways, neither of them through all recursive types, is reported as a cycle in every run:
the second way does not matter. -/
def twoWaysText : Str := "A: struct { b: B }\nB: struct { a: A, b: B }\nexport A".toList

def twoWaysAst : AST :=
  [.decl "A".toList (.struct [("b".toList, ⟨"B".toList, false, false⟩)]),
   .decl "B".toList (.struct [("a".toList, ⟨"A".toList, false, false⟩), ("b".toList, ⟨"B".toList, false, false⟩)]),
   .export "A".toList]

example (env : Env) (hf : env.Fair) :
    ∃ n, Recursive twoWaysAst n ∧ compile env twoWaysText = .checkError (cycleSentence n) := by
  have hp : Parser.schema twoWaysText = .ok twoWaysAst := by decide +kernel
  have hAB : Refers twoWaysAst "A".toList "B".toList := by rw [refers_iff_edge]; decide
  have hBA : Refers twoWaysAst "B".toList "A".toList := by rw [refers_iff_edge]; decide
  have hA : Loops twoWaysAst "A".toList := ⟨_, .refl, .tail (.single hAB) hBA⟩
  have hB : Loops twoWaysAst "B".toList := ⟨_, .refl, .tail (.single hBA) hAB⟩
  have ho : OnlyRecursive twoWaysAst :=
    onlyRecursive_of ⟨_, _, rfl, List.mem_cons_self⟩ (by decide) (by decide) (by decide) (by decide) (by decide)
      ⟨"A".toList, .tail (.single hAB) hBA⟩
  refine (C58_exact_partial hp ho).2 ?_ env hf
  have lA : Leads twoWaysAst "A".toList "B".toList :=
    ⟨[], ("b".toList, ⟨"B".toList, false, false⟩), [], List.mem_cons_self, rfl, hB, by simp⟩
  have lB : Leads twoWaysAst "B".toList "A".toList :=
    ⟨[], ("a".toList, ⟨"A".toList, false, false⟩), _, List.mem_cons_of_mem _ List.mem_cons_self, rfl, hA, by simp⟩
  intro n hn
  have hd : n ∈ (decls twoWaysAst).map Prod.fst := mem_decl_names.2 (Loops.declared hn)
  have : (decls twoWaysAst).map Prod.fst = ["A".toList, "B".toList] := rfl
  rw [this] at hd
  simp only [List.mem_cons, List.not_mem_nil, or_false] at hd
  rcases hd with rfl | rfl
  · exact .tail (.single lA) lB
  · exact .tail (.single lB) lA

/-- `lassoText`: in some runs a cycle is reported, in others a missing declaration. -/
example : (∃ (env : Env) (n : Str), env.Fair ∧ Recursive lassoAst n ∧
    compile env lassoText = .checkError (cycleSentence n)) ∧
    compile backwards lassoText = .checkError (missingSentence "B".toList) :=
  ⟨C58_some_run_partial (by decide +kernel) lasso_only, lasso_message⟩

end Packetc.Props
