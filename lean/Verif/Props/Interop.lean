import Verif.Props.Names
/-!
# C59: programs generated in different runs of the compiler talk to each other; C62: calls do not disturb each other

A server and a client are usually compiled separately, each running `packetc` on the same schema. Every run has its own hash
seed, so the two texts `e₁.code` and `e₂.code` need not be the same.
-/

namespace Packetc.Props
open Ast Check WellFormed Js Gen

/-- C59 as described: what the code of one run writes, the code of any other run reads back. -/
def C59_claim : Prop := ∀ (rt : Runtime) (ast : AST) (e₁ e₂ : Artifact), Compiled ast e₁ → Compiled ast e₂ → PlainSchema ast →
  SmallEnums ast → ∀ ps, TypedFs (FaithfulStr rt) IsVariant e₁.fields ps → ∃ bytes, Writes rt e₁ ps bytes ∧ Reads rt e₂ bytes ps

/-- Two runs give the same export if no field can be overtaken. -/
theorem compiled_eq_of_inOrder {ast : AST} (hs : AllInOrder ast) {e₁ e₂ : Artifact} (h₁ : Compiled ast e₁) (h₂ : Compiled ast e₂) :
    e₁.toExport = e₂.toExport := by
  obtain ⟨v₁, t₁, r₁, f₁, -, p₁, -, c₁, x₁⟩ := h₁
  obtain ⟨v₂, t₂, r₂, f₂, -, p₂, -, c₂, x₂⟩ := h₂
  rw [← x₁, ← x₂]
  exact (export_eq_of_inOrder f₁.1 f₂.1 (parsed_noBuiltinDecl p₁) hs c₁ c₂).1

/-- Texts with the same resolved export read and write in the same way. -/
theorem reads_congr {rt : Runtime} {ast : AST} {e₁ e₂ : Artifact} (h₁ : Compiled ast e₁) (h₂ : Compiled ast e₂)
    (l₁ : load e₁.code ≠ none) (l₂ : load e₂.code ≠ none) (he : e₁.toExport = e₂.toExport) {data ps}
    (h : Reads rt e₁ data ps) : Reads rt e₂ data ps := by
  intro heap fuel hfuel
  have := h heap fuel hfuel
  rwa [((compiled_text h₁ l₁).2 rt fuel heap).1, he, ← ((compiled_text h₂ l₂).2 rt fuel heap).1] at this

/-- C59, what holds: if no field can be overtaken by a later one, then different runs understand each other. What is missing
from the full statement: schemas in which a field can be overtaken; for these it is false. -/
theorem C59_runs_agree_partial (rt : Runtime) {ast : AST} (hs : AllInOrder ast) {e₁ e₂ : Artifact} (h₁ : Compiled ast e₁)
    (h₂ : Compiled ast e₂) (u₁ : Usable e₁) (hsm : SmallEnums ast) {ps : List (PropOf JVal)}
    (hty : TypedFs (FaithfulStr rt) IsVariant e₁.fields ps) : ∃ bytes, Writes rt e₁ ps bytes ∧ Reads rt e₂ bytes ps := by
  obtain ⟨bytes, hw, hr⟩ := C31_read_inverts_write_partial rt h₁ u₁ hsm hty
  exact ⟨bytes, hw, reads_congr h₁ h₂ u₁.loads ((C80_every_run h₁ h₂).1 u₁).loads (compiled_eq_of_inOrder hs h₁ h₂) hr⟩

theorem single_inOrder (c : Str) (fs : List (Str × Unresolved)) (h : ∀ f ∈ fs, f.2.name ∈ builtinNames) :
    AllInOrder [.decl c (.struct fs), .export c] := by
  refine AllSimple.inOrder ?_
  intro n gs hd f hf
  have := mem_decls.1 hd
  simp only [List.mem_cons, Node.decl.injEq, Ty.struct.injEq, reduceCtorEq, or_false, List.not_mem_nil] at this
  rw [this.2] at hf
  exact Or.inl (h f hf)

/-! ### the counterexample -/

def leafFields : List (FieldOf RType) := [⟨"x".toList, "uint8".toList, .builtin .uint8, false, false⟩]
def midFields : List (FieldOf RType) := [⟨"e".toList, "E".toList, .struct leafFields, false, false⟩]
def fieldA : FieldOf RType := ⟨"a".toList, "A".toList, .struct midFields, false, false⟩
def fieldN : FieldOf RType := ⟨"n".toList, "uint8".toList, .builtin .uint8, false, false⟩
def runOne : Artifact := ⟨⟨"S".toList, [fieldN, fieldA]⟩, exampleCode id reorderText⟩
def runTwo : Artifact := ⟨⟨"S".toList, [fieldA, fieldN]⟩, exampleCode List.reverse reorderText⟩

theorem runOne_compiled : Compiled reorderAst runOne :=
  compiled_of (ord := id) reorder_parses (fun _ => .refl _) rfl rfl

theorem runTwo_compiled : Compiled reorderAst runTwo :=
  compiled_of (ord := List.reverse) reorder_parses List.reverse_perm rfl rfl

theorem reorder_plain : PlainSchema reorderAst := plain_of (by decide)

theorem reorder_small : SmallEnums reorderAst := by
  intro n vs h
  unfold reorderAst at h
  simp only [List.mem_cons, Node.decl.injEq, reduceCtorEq, and_false, or_false, List.not_mem_nil] at h

def propN (k : Int) : PropOf JVal := ⟨"n".toList, .num (.int k)⟩
def propA (k : Int) : PropOf JVal := ⟨"a".toList, .obj [⟨"e".toList, .obj [⟨"x".toList, .num (.int k)⟩]⟩]⟩

theorem fieldN_typed (S E) {k : Int} (h : Scalar.Ok .uint8 (.int k)) : TypedF S E fieldN (propN k) :=
  ⟨rfl, Or.inr ⟨_, rfl, h⟩⟩

theorem fieldA_typed (S E) {k : Int} (h : Scalar.Ok .uint8 (.int k)) : TypedF S E fieldA (propA k) :=
  ⟨rfl, Or.inr ⟨_, rfl, _, _, rfl, ⟨rfl, Or.inr ⟨_, rfl, _, _, rfl, ⟨rfl, Or.inr ⟨_, rfl, h⟩⟩, rfl⟩⟩, rfl⟩⟩

theorem one_typed (S E) {j k : Int} (hj : Scalar.Ok .uint8 (.int j)) (hk : Scalar.Ok .uint8 (.int k)) :
    TypedFs S E runOne.fields [propN j, propA k] := ⟨_, _, rfl, fieldN_typed S E hj, _, _, rfl, fieldA_typed S E hk, rfl⟩

theorem two_typed (S E) {j k : Int} (hj : Scalar.Ok .uint8 (.int j)) (hk : Scalar.Ok .uint8 (.int k)) :
    TypedFs S E runTwo.fields [propA k, propN j] := ⟨_, _, rfl, fieldA_typed S E hk, _, _, rfl, fieldN_typed S E hj, rfl⟩

/-- The order in which components are listed does not matter for an object holding them. -/
theorem reads_swap {rt : Runtime} {e : Artifact} {data : List UInt8} {p q : PropOf JVal} (h : Reads rt e data [p, q]) :
    Reads rt e data [q, p] := by
  intro heap fuel hfuel
  obtain ⟨v, st, ext, h1, h2, i, pr, props, h3, h4, h5, h6, h7, h8⟩ := h heap fuel hfuel
  exact ⟨v, st, ext, h1, h2, i, pr, props, h3, h4, h5, h7, h6, h8⟩

/-- With one hash order `n` is sent before `a`, with another one after it. -/
theorem runs_differ : ¬ ∃ bytes, Writes leUtf8 runOne [propN 1, propA 2] bytes ∧ Reads leUtf8 runTwo bytes [propN 1, propA 2] := by
  rintro ⟨bytes, hw, hr⟩
  have h1 : Scalar.Ok .uint8 (.int 1) := ⟨by decide, by decide⟩
  have h2 : Scalar.Ok .uint8 (.int 2) := ⟨by decide, by decide⟩
  have u1 := plain_usable runOne_compiled reorder_plain
  have u2 := plain_usable runTwo_compiled reorder_plain
  have hw' := C30_write_format leUtf8 runOne_compiled u1.loads (one_typed _ _ h1 h2)
  obtain rfl := writes_unique leUtf8 runOne_compiled u1 (one_typed ShortStr IsVariant h1 h2) hw hw'
  obtain ⟨bytes', hv, hs⟩ := C31_read_inverts_write_partial leUtf8 runTwo_compiled u2 reorder_small
    (two_typed _ _ h2 h1)
  obtain rfl := writes_unique leUtf8 runTwo_compiled u2 (two_typed ShortStr IsVariant h2 h1) hv
    (C30_write_format leUtf8 runTwo_compiled u2.loads (two_typed _ _ h2 h1))
  have hb : encodeFields leUtf8 runOne.fields [propN 1, propA 2] = encodeFields leUtf8 runTwo.fields [propA 1, propN 2] := by
    decide +kernel
  rw [hb] at hr
  have := reads_unique leUtf8 (two_typed _ _ h1 h2) (two_typed _ _ h2 h1) (reads_swap hr) hs
  injection this with _ h3
  injection h3 with h3 _
  injection h3 with _ h3
  injection h3 with h3
  injection h3 with h3
  revert h3
  decide

/-- C59 is false: runs with different hash orders send fields in different orders. -/
theorem C59_false : ¬ C59_claim := fun h =>
  runs_differ (h leUtf8 reorderAst _ _ runOne_compiled runTwo_compiled reorder_plain reorder_small [propN 1, propA 2]
    (one_typed _ _ ⟨by decide, by decide⟩ ⟨by decide, by decide⟩))

example : ∃ (ast : AST) (e : Artifact) (ps : List (PropOf JVal)), AllInOrder ast ∧ Compiled ast e ∧ Usable e ∧ SmallEnums ast ∧
    TypedFs (FaithfulStr leUtf8) IsVariant e.fields ps ∧ ps ≠ [] :=
  ⟨stringAst, stringExport, [⟨"s".toList, .str "hi".toList⟩], single_inOrder _ _ (by decide), string_compiled,
    plain_usable string_compiled string_plain, by
      intro n vs h
      unfold stringAst at h
      simp only [List.mem_cons, Node.decl.injEq, reduceCtorEq, and_false, or_false, List.not_mem_nil] at h,
    ⟨_, _, rfl, ⟨rfl, Or.inr ⟨_, rfl, by decide, by decide⟩⟩, rfl⟩, by intro h; cases h⟩

/-! ## C62 -/

/-- C62: reading leaves all objects of the program alone, and the packet that is returned shares nothing with them: neither do
later calls change packets read earlier, nor do two packets overlap. -/
theorem C62_reads_independent (rt : Runtime) {ast : AST} {e : Artifact} (hc : Compiled ast e) (hu : Usable e)
    (data₁ data₂ : List UInt8) (heap : List Obj) {fuel : Nat} (hfuel : 2 ^ 32 ≤ fuel) : ∃ v₁ st₁ v₂ st₂,
      readText rt fuel e.code heap data₁ = .returns v₁ st₁ ∧ readText rt fuel e.code st₁.heap data₂ = .returns v₂ st₂ ∧
      (∀ j v, Rep heap j v → Rep st₂.heap j v) ∧
      (v₁ = .null ∨ ∃ ps, Shaped e.fields ps ∧ RepFrom st₁.heap heap.length (.obj ps) v₁ ∧
        RepFrom st₂.heap heap.length (.obj ps) v₁) ∧
      (v₂ = .null ∨ ∃ ps, Shaped e.fields ps ∧ RepFrom st₂.heap st₁.heap.length (.obj ps) v₂) := by
  obtain ⟨st₁, x₁, h1, -, h2, -, h3⟩ := read_eq rt hc hu hfuel heap data₁
  obtain ⟨st₂, x₂, g1, -, g2, -, g3⟩ := read_eq rt hc hu hfuel st₁.heap data₂
  have grow : ∀ {a b c : List Obj}, b = a ++ c → ∀ (k : Nat) (o : Obj), a[k]? = some o → b[k]? = some o := by
    rintro a _ c rfl k o h
    rw [List.getElem?_append_left (List.getElem?_eq_some_iff.1 h).1, h]
  refine ⟨_, st₁, _, st₂, h1, g1, fun j v h => repFrom_mono (Nat.le_refl _) (fun k o _ h => grow g2 k o (grow h2 k o h)) j v h, ?_, ?_⟩
  · cases hb : (rdFields rt e.fields ⟨data₁, false, 0⟩).2.failed with
    | true => exact Or.inl rfl
    | false =>
      exact Or.inr ⟨_, shaped_of hc (typed_fields rt e.fields _ hb), h3,
        repFrom_mono (Nat.le_refl _) (fun k o _ h => grow g2 k o h) _ _ h3⟩
  · cases hb : (rdFields rt e.fields ⟨data₂, false, 0⟩).2.failed with
    | true => exact Or.inl rfl
    | false => exact Or.inr ⟨_, shaped_of hc (typed_fields rt e.fields _ hb), g3⟩

/-- C62 for `write`: it changes no object, and what it returns depends on the contents of the packet only, not on the buffer, on
which objects hold the packet, or on what else there is. -/
theorem C62_write_pure (rt : Runtime) {ast : AST} {e : Artifact} (hc : Compiled ast e) (hl : load e.code ≠ none)
    {ps : List (PropOf JVal)} (hty : HasFields e.fields ps) {heap₁ heap₂ : List Obj} {this₁ this₂ : Val} (h₁ : Rep heap₁ (.obj ps) this₁)
    (h₂ : Rep heap₂ (.obj ps) this₂) {buffer₁ buffer₂ : Val} (hb₁ : buffer₁ = .undef ∨ ∃ b, buffer₁ = .buf b)
    (hb₂ : buffer₂ = .undef ∨ ∃ b, buffer₂ = .buf b) {fuel : Nat} (hfuel : 2 ^ 32 ≤ fuel) : ∃ bytes st₁ st₂,
      writeText rt fuel e.code heap₁ this₁ buffer₁ = .returns (.buf bytes) st₁ ∧ st₁.heap = heap₁ ∧
      writeText rt fuel e.code heap₂ this₂ buffer₂ = .returns (.buf bytes) st₂ ∧ st₂.heap = heap₂ := by
  have hw := C30_write_format rt hc hl hty
  obtain ⟨s, a, b⟩ := hw heap₁ this₁ buffer₁ fuel hfuel hb₁ h₁
  obtain ⟨s', a', b'⟩ := hw heap₂ this₂ buffer₂ fuel hfuel hb₂ h₂
  exact ⟨_, s, s', a, b, a', b'⟩

/-- Non-trivial: `{ s: "hi" }`, packed by one call and read by the other. -/
example : ∃ (e : Artifact) (ps : List (PropOf JVal)) (heap : List Obj) (v : Val), Compiled stringAst e ∧ Usable e ∧ HasFields e.fields ps ∧
    Rep heap (.obj ps) v ∧ ps ≠ [] := by
  have hty : HasFields stringExport.fields [⟨"s".toList, .str "hi".toList⟩] := ⟨_, _, rfl, ⟨rfl, Or.inr ⟨_, rfl, by decide⟩⟩, rfl⟩
  have hu := plain_usable string_compiled string_plain
  obtain ⟨heap, v, h⟩ := held string_compiled hu hty
  exact ⟨stringExport, _, heap, v, string_compiled, hu, hty, h, by intro h; cases h⟩

end Packetc.Props
