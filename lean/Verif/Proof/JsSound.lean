import Verif.Proof.JsWire
import Verif.Props.Check
/-!
# Accepted schemas have sound types; generation does not panic
-/

namespace Packetc.Js
open Ast Check Gen WellFormed

theorem soundFs_iff (fs : List (FieldOf RType)) : SoundFs fs ↔ ∀ f ∈ fs, SoundF f := by
  induction fs with
  | nil => simp [SoundFs]
  | cons f fs ih => simp [SoundFs, ih]

theorem builtin_entry {n m : Str} {t : RType} (h : getBuiltins.get n = some (m, t)) :
    ∃ b, t = .builtin b ∧ n = builtinName b := by
  have hn : n ∈ builtinNames := (builtins_has n).1 ((Map.has_iff _ _).2 ⟨_, h⟩)
  unfold builtinNames at hn
  simp only [List.mem_cons, List.not_mem_nil, or_false] at hn
  rcases hn with rfl | rfl | rfl | rfl | rfl | rfl | rfl | rfl <;>
    (cases h; exact ⟨_, rfl, rfl⟩)

theorem final_sound {ast : AST} {c : TypeMap} (hf : Final ast c) (k : Nat) : ∀ n m t, sizeOf t ≤ k →
    c.get n = some (m, t) → SoundT t ∧ ∀ b, t = .builtin b → n = builtinName b := by
  induction k with
  | zero =>
    intro n m t hn
    have : 0 < sizeOf t := by cases t <;> simp <;> omega
    omega
  | succ k ih =>
    intro n m t hn hg
    by_cases hb : n ∈ builtinNames
    · rw [hf.builtin n hb] at hg
      obtain ⟨b, rfl, hb⟩ := builtin_entry hg
      exact ⟨trivial, fun b' h => by cases h; exact hb⟩
    · by_cases hd : Declared ast n
      · obtain ⟨ty, hty⟩ := hd
        cases ty with
        | enum vs =>
          obtain ⟨h1, h2⟩ := hf.enum n vs hty
          rw [h2] at hg
          cases hg
          exact ⟨⟨vs, h1, Props.enumSpec_resolved h1⟩, fun b h => by cases h⟩
        | struct fs =>
          obtain ⟨_, rfs, p, h1, h2, _, h3⟩ := hf.struct n fs hty
          rw [h1] at hg
          cases hg
          refine ⟨?_, fun b h => by cases h⟩
          show SoundFs rfs
          rw [soundFs_iff]
          intro rf hrf
          have hex : ∃ f, FieldOk c f rf := by
            clear h1 h2 hn
            generalize fs.filter (fun f => p f.2.name) ++ fs.filter (fun f => !p f.2.name) = l at h3
            induction h3 with
            | nil => simp at hrf
            | cons hR _ ih =>
              rcases List.mem_cons.1 hrf with rfl | h
              · exact ⟨_, hR⟩
              · exact ih h
          obtain ⟨f, hR⟩ := hex
          have hsz := sizeOf_field hrf
          have := ih f.2.name f.2.name rf.ty (by omega) hR.ty
          obtain ⟨x1, x2, x3, x4, x5⟩ := rf
          have e2 := hR.tyName
          simp only at e2
          exact ⟨fun b hb => by rw [e2]; exact this.2 b hb, this.1⟩
      · rw [hf.other n hb hd] at hg
        cases hg

/-- The types of an accepted schema are sound. -/
theorem accepted_sound {ord} (hord : FairOrd ord) {ast : AST} (hnb : NoBuiltinDecl ast) {r}
    (h : typeCheck ord ast = .ok r) : SoundFs r.export.fields ∧
      ∀ n m t, r.types.get n = some (m, t) → SoundT t := by
  obtain ⟨c, hf, he, hg, hk, h1, h2⟩ := Props.typeCheck_final hord hnb h
  refine ⟨(final_sound hf _ _ _ _ (Nat.le_refl _) hg).1, ?_⟩
  intro n m t hn
  by_cases hu : Used ast n
  · rw [h1 n hu] at hn
    exact (final_sound hf _ _ _ _ (Nat.le_refl _) hn).1
  · rw [h2 n hu] at hn
    cases hn

mutual
theorem sound_boundsT : (t : RType) → SoundT t → BoundsOk t
  | .builtin _, _ => trivial
  | .enum e, h => by
    show (enumBounds e.variants).isSome
    rw [sound_bounds h rfl]
    rfl
  | .struct fs, h => sound_boundsFs fs h
theorem sound_boundsFs : (fs : List (FieldOf RType)) → SoundFs fs → BoundsOkFs fs
  | [], _ => trivial
  | f :: fs, h => ⟨sound_boundsF f h.1, sound_boundsFs fs h.2⟩
theorem sound_boundsF : (f : FieldOf RType) → SoundF f → BoundsOkF f
  | ⟨_, _, t, _, _⟩, h => sound_boundsT t h.2
end

end Packetc.Js
