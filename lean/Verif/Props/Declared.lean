import Verif.Proof.Declared
import Verif.Props.RoundTrip
import Verif.Props.Construct
/-!
# C118: values that the declared types allow

The interfaces that the compiler generates say `number` for every numeric type. C30-C44 are about numbers in range; here the
numbers are whatever TypeScript accepts.
-/

namespace Packetc.Props
open Ast Check WellFormed Js Gen

section
variable (rt : Runtime) {ast : AST} {e : Artifact} {ps : List (PropOf JVal)}

/-- C118: whatever numbers the object holds, `write` returns bytes, those of the documented encoding. -/
theorem C118_write (hc : Compiled ast e) (hl : load e.code ≠ none) {S : Str → Prop} {N : Scalar → Num → Prop} {E : REnum → Num → Prop}
    (hty : DeclaredFs S N E e.fields ps) : Writes rt e ps (encodeFields rt e.fields ps) := by
  intro heap this buffer fuel hfuel hbuf hrep
  obtain ⟨hm, hrun⟩ := compiled_text hc hl
  rw [(hrun rt fuel heap).2]
  exact runWrite_declared (rt := rt) hm (compiled_sound hc) hfuel heap this buffer hbuf hty hrep

theorem declared_held (hc : Compiled ast e) (hu : Usable e) {S : Str → Prop} {N : Scalar → Num → Prop} {E : REnum → Num → Prop}
    (h : DeclaredFs S N E e.fields ps) : ∃ heap v, Rep heap (.obj ps) v := by
  have hn : (ps.map PropOf.name).Nodup := by
    rw [declared_names h]
    exact (moduleOk_parts (compiled_text hc hu.loads).1).2.2.1
  obtain ⟨ext, v, hr⟩ := repJ_exists (.obj ps) ⟨hn, distinctD_fields _ hu.nested ps h⟩ []
  exact ⟨_, v, hr⟩

theorem declared_writes_unique (hc : Compiled ast e) (hu : Usable e) {S : Str → Prop} {N : Scalar → Num → Prop} {E : REnum → Num → Prop}
    (h : DeclaredFs S N E e.fields ps) {b c : List UInt8} (hb : Writes rt e ps b) (hc' : Writes rt e ps c) : b = c := by
  obtain ⟨heap, v, hr⟩ := declared_held hc hu h
  obtain ⟨st, h1, -⟩ := hb heap v .undef (2 ^ 32) (Nat.le_refl _) (Or.inl rfl) hr
  obtain ⟨st', h2, -⟩ := hc' heap v .undef (2 ^ 32) (Nat.le_refl _) (Or.inl rfl) hr
  rw [h1] at h2
  cases h2
  rfl

theorem declared_reads (hc : Compiled ast e) (hu : Usable e) {S : Str → Prop} {N : Scalar → Num → Prop} {E : REnum → Num → Prop}
    (h : DeclaredFs S N E e.fields ps) {data : List UInt8} (hr : Reads rt e data ps) :
    (rdFields rt e.fields ⟨data, false, 0⟩).2.failed = false ∧ (rdFields rt e.fields ⟨data, false, 0⟩).1 = ps := by
  cases hb : (rdFields rt e.fields ⟨data, false, 0⟩).2.failed with
  | true => exact (not_reads_rejects rt hr (rejects_of_rd rt hc hu hb)).elim
  | false =>
    refine ⟨rfl, ?_⟩
    obtain ⟨v, st, ext, h3, -, h4⟩ := hr [] (2 ^ 32) (Nat.le_refl _)
    obtain ⟨v', st', ext', h5, -, h6⟩ := reads_of_rd rt hc hu hb [] (2 ^ 32) (Nat.le_refl _)
    rw [h3] at h5
    cases h5
    have := declT_unique (.struct e.fields) (.obj _) (.obj ps) v
      ⟨_, rfl, declaredFs_mono (fun _ _ => trivial) (fun _ _ _ => trivial) (fun _ _ _ => trivial) _ _ (typedFs_declared _ _ (typed_fields rt e.fields _ hb))⟩ ⟨ps, rfl, declaredFs_mono (S' := fun _ => True) (N' := fun _ _ => True) (E' := fun _ _ => True) (fun _ _ => trivial) (fun _ _ _ => trivial) (fun _ _ _ => trivial) _ _ h⟩ h6 h4
    cases this
    rfl

theorem surviving_iff (hc : Compiled ast e) {S : Str → Prop} {ps : List (PropOf JVal)} :
    TypedFs S FaithE e.fields ps ↔ TypedFs S Surviving e.fields ps := by
  have he := soundFs_enums _ (compiled_sound hc)
  constructor
  · exact typedFs_mono (fun _ h => h) (fun _ n hs h => (faith_iff hs n).1 h) _ he _
  · exact typedFs_mono (fun _ h => h) (fun _ n hs h => (faith_iff hs n).2 h) _ he _

/-- C118 as described: what TypeScript accepts is read back as it was written. -/
def C118_claim : Prop := ∀ (rt : Runtime) (ast : AST) (e : Artifact), Compiled ast e → PlainSchema ast →
  ∀ ps, DeclaredFs (FaithfulStr rt) SameKind AnyInt e.fields ps → ∃ bytes, Writes rt e ps bytes ∧ Reads rt e bytes ps

/-- C118, exact: a packet with numbers of any size is read back as it was written **exactly** when every number is in the range of
its type, every enum holds a number between two of its (at most 31) variants, and every string has as many bytes as JavaScript says
it has characters. -/
theorem C118_exact {P : Str → Prop} (hP : Honest rt P) (hc : Compiled ast e) (hu : Usable e)
    (hty : DeclaredFs (fun s => ShortStr s ∧ P s) SameKind AnyInt e.fields ps) :
    (∃ bytes, Writes rt e ps bytes ∧ Reads rt e bytes ps) ↔ TypedFs (FaithfulStr rt) Surviving e.fields ps := by
  rw [← surviving_iff hc]
  have hw := C118_write rt hc hu.loads hty
  constructor
  · rintro ⟨bytes, h1, h2⟩
    obtain rfl := declared_writes_unique rt hc hu hty h1 hw
    obtain ⟨h3, h4⟩ := declared_reads rt hc hu hty h2
    refine kept_fields rt hP e.fields ps hty [] 0 ?_ ?_
    · rw [List.append_nil]
      exact h3
    · rw [List.append_nil]
      exact h4
  · intro h
    refine ⟨_, hw, ?_⟩
    obtain ⟨c', h5⟩ := dec_fields rt e.fields ps h [] 0
    have := reads_of_rd rt hc hu (data := encodeFields rt e.fields ps ++ []) (by rw [h5])
    rwa [h5, List.append_nil] at this

/-- C118, what arrives: with a library that writes the lowest bits of a number, the receiver gets the packet with every number
wrapped to its type, or, exactly when an enum does not let its number through, `null`. What is missing from the claim: numbers out
of range are changed on the way, and nothing is reported to the sender. -/
theorem C118_received_partial (hw : WritesLowBits rt) (hc : Compiled ast e) (hu : Usable e)
    (hty : DeclaredFs (FaithfulStr rt) SameKind AnyInt e.fields ps) : ∃ bytes, Writes rt e ps bytes ∧
      (TypedFs (FaithfulStr rt) Surviving e.fields (wrapFs e.fields ps) → Reads rt e bytes (wrapFs e.fields ps)) ∧
      (¬ TypedFs (FaithfulStr rt) Surviving e.fields (wrapFs e.fields ps) → Rejects rt e bytes) := by
  refine ⟨_, C118_write rt hc hu.loads hty, ?_, ?_⟩
  · rw [← surviving_iff hc, ← wrapFs_encode rt hw e.fields ps hty]
    intro h
    obtain ⟨c', h5⟩ := dec_fields rt e.fields _ h [] 0
    have := reads_of_rd rt hc hu (data := encodeFields rt e.fields (wrapFs e.fields ps) ++ []) (by rw [h5])
    rwa [h5, List.append_nil] at this
  · rw [← surviving_iff hc, ← wrapFs_encode rt hw e.fields ps hty]
    intro h
    refine rejects_of_rd rt hc hu ?_
    cases hb : (rdFields rt e.fields ⟨encodeFields rt e.fields (wrapFs e.fields ps), false, 0⟩).2.failed with
    | true => rfl
    | false =>
      refine absurd (fit_fields rt e.fields _ (wrapFs_typed e.fields ps hty) [] 0 ?_) h
      rw [List.append_nil]
      exact hb

end

/-! ### a packet with a number that is too large, and one with a number that no variant has -/

/-- The packet of the examples with other numbers. -/
def otherValue (e n : Int) : List (PropOf JVal) :=
  [⟨"o".toList, .str "hi".toList⟩, ⟨"b".toList, .arr [.obj [⟨"e".toList, .num (.int e)⟩, ⟨"n".toList, .num (.int n)⟩]]⟩]

theorem other_declared {S : Str → Prop} (hS : S "hi".toList) (e n : Int) : DeclaredFs S SameKind AnyInt exampleFields (otherValue e n) := by
  refine ⟨_, _, rfl, ⟨rfl, Or.inr ⟨_, rfl, hS⟩⟩, _, _, rfl, ⟨rfl, Or.inr ⟨_, rfl, by simp, ?_⟩⟩, rfl⟩
  intro j hj
  rw [List.mem_singleton] at hj
  subst hj
  exact ⟨_, rfl, _, _, rfl, ⟨rfl, Or.inr ⟨_, rfl, _, rfl⟩⟩, _, _, rfl, ⟨rfl, Or.inr ⟨_, rfl, _, rfl⟩⟩, rfl⟩

/-- Which of these packets survive. -/
theorem other_surviving (e n : Int) : TypedFs (FaithfulStr leUtf8) Surviving exampleFields (otherValue e n) ↔
    (1 ≤ e ∧ e ≤ 2) ∧ 0 ≤ n ∧ n < 2 ^ 8 := by
  constructor
  · rintro ⟨p, q, h0, -, p', q', h1, ⟨-, h2⟩, -⟩
    injection h0 with h0 h0'
    subst h0'
    injection h1 with h1 _
    subst h1
    rcases h2 with ⟨h2, -⟩ | ⟨js, h2, -, h3⟩
    · exact absurd h2 (by decide)
    · injection h2 with h2
      subst h2
      obtain ⟨ps, h4, p, q, h5, ⟨-, h6⟩, p', q', h7, ⟨-, h8⟩, -⟩ := h3 _ List.mem_cons_self
      injection h4 with h4
      subst h4
      injection h5 with h5 h5'
      subst h5
      subst h5'
      injection h7 with h7 _
      subst h7
      rcases h6 with ⟨h6, -⟩ | ⟨m, h6, ⟨v, hv, w, hw, i, rfl, h9, h10⟩, -⟩
      · exact absurd h6 (by decide)
      · rcases h8 with ⟨h8, -⟩ | ⟨m, h8, h11⟩
        · exact absurd h8 (by decide)
        · injection h6 with h6
          injection h6 with h6
          injection h8 with h8
          subst h6
          subst h8
          refine ⟨?_, h11⟩
          have h1v : 1 ≤ jsShl1 v.value := by
            clear h9
            revert v
            decide
          have h2w : jsShl1 w.value ≤ 2 := by
            clear h10
            revert w
            decide
          omega
  · rintro ⟨he, hn⟩
    refine ⟨_, _, rfl, ⟨rfl, Or.inr ⟨_, rfl, by decide, by decide⟩⟩, _, _, rfl, ⟨rfl, Or.inr ⟨_, rfl, by simp, ?_⟩⟩, rfl⟩
    intro j hj
    rw [List.mem_singleton] at hj
    subst hj
    exact ⟨_, rfl, _, _, rfl, ⟨rfl, Or.inr ⟨_, rfl, ⟨_, List.mem_cons_self, _, List.mem_cons_of_mem _ List.mem_cons_self, _, rfl,
      he.1, he.2⟩, by decide⟩⟩, _, _, rfl, ⟨rfl, Or.inr ⟨_, rfl, hn⟩⟩, rfl⟩

/-- C118 is false: 300 is a number, and does not fit in a `uint8`. -/
theorem C118_false : ¬ C118_claim := by
  intro h
  obtain ⟨e, h1, h2, h3⟩ := example_compiled
  have hu := plain_usable h1 example_plain
  have hb := h leUtf8 exampleAst e h1 example_plain (otherValue 1 300) (by rw [h3]; exact other_declared ⟨by decide, by decide⟩ _ _)
  rw [C118_exact leUtf8 utf8_honest h1 hu (by rw [h3]; exact other_declared ⟨by decide, by decide⟩ _ _), h3, other_surviving] at hb
  omega

/-- The packets of the examples with any two integers: what arrives. -/
example (i n : Int) : ∃ (ast : AST) (e : Artifact), Compiled ast e ∧ Usable e ∧ ∃ bytes,
    Writes leUtf8 e (otherValue i n) bytes ∧
    (1 ≤ i % 256 ∧ i % 256 ≤ 2 → Reads leUtf8 e bytes (otherValue (i % 256) (n % 256))) ∧
    (¬ (1 ≤ i % 256 ∧ i % 256 ≤ 2) → Rejects leUtf8 e bytes) := by
  obtain ⟨e, h1, h2, h3⟩ := example_compiled
  have hu := plain_usable h1 example_plain
  obtain ⟨bytes, h4, h5, h6⟩ := C118_received_partial leUtf8 leUtf8_low h1 hu (ps := otherValue i n)
    (by rw [h3]; exact other_declared ⟨by decide, by decide⟩ _ _)
  have hwrap : wrapFs e.fields (otherValue i n) = otherValue (i % 256) (n % 256) := by rw [h3]; rfl
  rw [hwrap, h3, other_surviving] at h5 h6
  refine ⟨exampleAst, e, h1, hu, bytes, h4, fun h => h5 ⟨h, ?_⟩, fun h => h6 fun h' => h h'.1⟩
  omega

end Packetc.Props
