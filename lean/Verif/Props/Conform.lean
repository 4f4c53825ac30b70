import Verif.Proof.Conform
import Verif.Props.Declared
import Verif.Props.Accept
/-!
# C119: the declared types and the code of the class agree

The generated file declares types for its users, and contains code. C29 and C60 are about the declarations, C30-C44 and C118 about
the code.
-/

namespace Packetc.Props
open Ast Check WellFormed Js Gen Module

section
variable {ast : AST} {e : Artifact} {m : TsModule}

theorem compiled_Known (hc : Compiled ast e) (hm : load e.code = some m) :
    ∃ c, Known ast c m ∧ c.get m.className = some (m.className, .struct e.fields) := by
  obtain ⟨c, h1, h2, h3, h4, h5, h6, -⟩ := compiled_known hc hm
  exact ⟨c, ⟨h1, h3, h4, h5, h6⟩, h2⟩

/-- C119: a JavaScript value has the declared fields of the class exactly when it holds a packet with numbers of any size, and enums
for which the declaration allows the number. -/
theorem C119_declared_iff (hc : Compiled ast e) (hm : load e.code = some m) (enumOk : List (Str × Nat) → Num → Prop) (heap : List Obj)
    (v : Val) : HasClassFields enumOk m heap v ↔
      ∃ ps, DeclaredFs (fun _ => True) (fun _ _ => True) (viaDecl enumOk) e.fields ps ∧ Rep heap (.obj ps) v := by
  obtain ⟨c, K, hg⟩ := compiled_Known hc hm
  obtain ⟨-, fs, fs', hd, hperm, hall⟩ := K.struct hg
  have hu : Used ast m.className := ⟨_, K.desc.names.1, .refl⟩
  obtain ⟨gs, h1, h2⟩ := K.desc.params
  cases K.same (Js.mem_decls.2 h1) hd
  have hin := fun f hf => K.inner hu hd (hperm.mem_iff.1 hf : f ∈ fs)
  have hq : ∀ k, PathOf m (qualPath m.className k) k := by
    intro k
    unfold qualPath
    split
    · exact .inl rfl
    · rename_i hk
      exact .inr ⟨hk, by rw [K.desc.names.2]⟩
  constructor
  · rintro ⟨i, pr, props, rfl, hi, hx⟩
    obtain ⟨ps, h9, h10⟩ := fields_conf K (enumOk := enumOk) e.fields fs' hall hin (qualPath m.className) hq (.obj pr props)
      (fun f hf => by
        obtain ⟨w, t, h3, h4, h5⟩ := hx _ (h2.mem_iff.2 (List.mem_map_of_mem (f := paramOf m.className) (hperm.mem_iff.1 hf)))
        refine ⟨w, t, h3, ?_, h5⟩
        unfold memberType paramOf at h4
        simp only [Bool.false_eq_true, if_false] at h4
        rcases List.mem_cons.1 h4 with h | h
        · exact .inr h
        · split at h
          · rename_i ho
            exact .inl ⟨ho, List.mem_singleton.1 h⟩
          · cases h)
    exact ⟨ps, h9, i, pr, props, rfl, Nat.zero_le _, hi, h10⟩
  · rintro ⟨ps, hps, i, pr, props, rfl, -, hi, hr⟩
    refine ⟨i, pr, props, rfl, hi, ?_⟩
    have hf := conf_fields K (enumOk := enumOk) e.fields fs' hall hin (qualPath m.className) hq ps (.obj pr props) hps hr
    intro x hx
    obtain ⟨f, hff, rfl⟩ := List.mem_map.1 (h2.mem_iff.1 hx)
    obtain ⟨w, t, h3, h4, h5⟩ := hf f (hperm.mem_iff.2 hff)
    refine ⟨w, t, h3, ?_, h5⟩
    unfold memberType paramOf
    simp only [Bool.false_eq_true, if_false]
    rcases h4 with ⟨h4, rfl⟩ | rfl
    · rw [if_pos h4]
      exact List.mem_cons_of_mem _ List.mem_cons_self
    · exact List.mem_cons_self

/-- C119: `write` returns bytes for every value of the declared type. -/
theorem C119_write (rt : Runtime) (hc : Compiled ast e) (hm : load e.code = some m) {enumOk : List (Str × Nat) → Num → Prop}
    {heap : List Obj} {v : Val} (hv : HasClassFields enumOk m heap v) {fuel : Nat} (hfuel : 2 ^ 32 ≤ fuel) {buffer : Val}
    (hb : buffer = .undef ∨ ∃ b, buffer = .buf b) :
    ∃ bytes st, writeText rt fuel e.code heap v buffer = .returns (.buf bytes) st ∧ st.heap = heap := by
  obtain ⟨ps, h1, h2⟩ := (C119_declared_iff hc hm enumOk heap v).1 hv
  obtain ⟨st, h3, h4⟩ := C118_write rt hc (by rw [hm]; simp) h1 heap v buffer fuel hfuel hb h2
  exact ⟨_, st, h3, h4⟩

theorem via_between (r : REnum) (n : Num) : viaDecl BetweenConsts r n ↔ BetweenVariants r n := by
  unfold viaDecl BetweenConsts BetweenVariants
  simp only [List.mem_map]
  constructor
  · rintro ⟨x, ⟨v, hv, rfl⟩, y, ⟨w, hw, rfl⟩, h⟩
    exact ⟨v, hv, w, hw, h⟩
  · rintro ⟨v, hv, w, hw, h⟩
    exact ⟨_, ⟨v, hv, rfl⟩, _, ⟨w, hw, rfl⟩, h⟩

theorem via_constant (r : REnum) (n : Num) : viaDecl Constant r n ↔ IsVariant r n := by
  unfold viaDecl Constant IsVariant
  simp only [List.mem_map]
  constructor
  · rintro ⟨x, ⟨v, hv, rfl⟩, h⟩
    exact ⟨v, hv, h⟩
  · rintro ⟨v, hv, h⟩
    exact ⟨_, ⟨v, hv, rfl⟩, h⟩

/-- C119 as described: what `read` returns, if not `null`, has the declared fields; enums hold their constants. -/
def C119_claim : Prop := ∀ (rt : Runtime) (ast : AST) (e : Artifact) (m : TsModule), Compiled ast e → Usable e →
  load e.code = some m → ∀ (data : List UInt8) (heap : List Obj) (fuel : Nat), 2 ^ 32 ≤ fuel →
    ∀ v st, readText rt fuel e.code heap data = .returns v st → v ≠ .null → HasClassFields Constant m st.heap v

/-- C119: what `read` returns has the declared fields. What is missing: an enum can hold any number between its constants. -/
theorem C119_read_partial (rt : Runtime) (hc : Compiled ast e) (hu : Usable e) (hm : load e.code = some m) (data : List UInt8)
    (heap : List Obj) {fuel : Nat} (hfuel : 2 ^ 32 ≤ fuel) {v : Val} {st : State}
    (hr : readText rt fuel e.code heap data = .returns v st) (hv : v ≠ .null) : HasClassFields BetweenConsts m st.heap v := by
  obtain ⟨st', ext, h1, -, h3, -, h5⟩ := read_eq rt hc hu hfuel heap data
  rw [h1] at hr
  cases hb : (rdFields rt e.fields ⟨data, false, 0⟩).2.failed with
  | true =>
    rw [hb] at hr
    injection hr with hr
    exact absurd hr.symm hv
  | false =>
    rw [hb] at hr
    injection hr with hr hst
    subst hr
    subst hst
    refine (C119_declared_iff hc hm BetweenConsts _ _).2 ⟨_, ?_, rep_of_from h5⟩
    have ht := typed_fields rt e.fields _ hb
    have he := soundFs_enums _ (compiled_sound hc)
    have ht' : TypedFs (fun _ => True) (viaDecl BetweenConsts) e.fields (rdFields rt e.fields ⟨data, false, 0⟩).1 :=
      typedFs_mono (fun _ h => h) (fun r n hs h => (via_between r n).2 (inBounds_between hs h)) _ he _ ht
    exact declaredFs_mono (fun _ h => h) (fun _ _ _ => trivial) (fun _ _ h => h) _ _ (typedFs_declared _ _ ht')

/-- C119, exact for one call: enums hold their constants exactly when the packet that was read does. -/
theorem C119_exact (rt : Runtime) (hc : Compiled ast e) (hu : Usable e) (hm : load e.code = some m) {data : List UInt8}
    {ps : List (PropOf JVal)} (hps : Shaped e.fields ps) (hr : Reads rt e data ps) (heap : List Obj) {fuel : Nat}
    (hfuel : 2 ^ 32 ≤ fuel) : ∃ v st, readText rt fuel e.code heap data = .returns v st ∧
      (HasClassFields Constant m st.heap v ↔ TypedFs (fun _ => True) IsVariant e.fields ps) := by
  obtain ⟨v, st, ext, h1, -, h3⟩ := hr heap fuel hfuel
  refine ⟨v, st, h1, ?_⟩
  rw [C119_declared_iff hc hm]
  have hrep := rep_of_from h3
  constructor
  · rintro ⟨qs, h4, h5⟩
    have hu1 := declT_unique (.struct e.fields) (.obj ps) (.obj qs) v
      ⟨ps, rfl, declaredFs_mono (S' := fun _ => True) (N' := fun _ _ => True) (E' := fun _ _ => True) (fun _ _ => trivial)
        (fun _ _ _ => trivial) (fun _ _ _ => trivial) _ _ (typedFs_declared _ _ hps)⟩
      ⟨qs, rfl, declaredFs_mono (fun _ _ => trivial) (fun _ _ _ => trivial) (fun _ _ _ => trivial) _ _ h4⟩ hrep h5
    cases hu1
    exact typedFs_mono (fun _ h => h) (fun r n _ h => (via_constant r n).1 h) _ (trueEnums hc) _ (combineFs _ _ hps h4)
  · intro h
    have h' : TypedFs (fun _ => True) (viaDecl Constant) e.fields ps :=
      typedFs_mono (fun _ h => h) (fun r n _ h => (via_constant r n).2 h) _ (trueEnums hc) _ h
    exact ⟨ps, declaredFs_mono (fun _ h => h) (fun _ _ _ => trivial) (fun _ _ h => h) _ _ (typedFs_declared _ _ h'), hrep⟩

/-- C119 is false: an enum with the constants 1, 2, 4 can be read as 3. -/
theorem C119_false : ¬ C119_claim := by
  intro h
  have hu := plain_usable flag_compiled flag_plain
  have hs := C75_shaped leUtf8 flag_compiled flag_holds
  have hr := (C75_reads leUtf8 flag_compiled hu hs).2 ⟨_, List.prefix_refl _, flag_holds⟩
  obtain ⟨m, hm⟩ := Option.ne_none_iff_exists'.1 hu.loads
  obtain ⟨v, st, h1, h2⟩ := C119_exact leUtf8 flag_compiled hu hm hs hr [] (Nat.le_refl _)
  obtain ⟨v', st', ext, h3, -, i, pr, props, h4, -⟩ := hr [] (2 ^ 32) (Nat.le_refl _)
  rw [h1] at h3
  injection h3 with h3 _
  have h5 := h2.1 (h leUtf8 flagAst flagExport m flag_compiled hu hm [2, 9, 3] [] (2 ^ 32) (Nat.le_refl _) v st h1
    (by rw [h3, h4]; simp))
  obtain ⟨p, qs, h6, -, p', qs', h7, ⟨-, h8⟩, -⟩ := h5
  injection h6 with _ h6
  subst h6
  injection h7 with h7 _
  subst h7
  rcases h8 with ⟨h8, -⟩ | ⟨n, h8, w, hw, h9⟩
  · exact absurd h8 (by decide)
  · injection h8 with h8
    subst h8
    injection h9 with h9
    revert w
    decide

end

/-- The hypotheses are met: a packet with an absent optional and the constant 4, read and written again. -/
example : ∃ (m : TsModule) (v : Val) (st : State), Compiled flagAst flagExport ∧ Usable flagExport ∧ load flagExport.code = some m ∧
    readText leUtf8 (2 ^ 32) flagExport.code [] [0, 4] = .returns v st ∧ v ≠ .null ∧ HasClassFields Constant m st.heap v ∧
    ∃ bytes st', writeText leUtf8 (2 ^ 32) flagExport.code st.heap v .undef = .returns (.buf bytes) st' := by
  have hu := plain_usable flag_compiled flag_plain
  obtain ⟨m, hm⟩ := Option.ne_none_iff_exists'.1 hu.loads
  have ht : HasFields flagExport.fields [⟨"a".toList, .undef⟩, ⟨"e".toList, .num (.int 4)⟩] :=
    ⟨_, _, rfl, ⟨rfl, .inl ⟨rfl, rfl⟩⟩, _, _, rfl, ⟨rfl, .inr ⟨_, rfl, ⟨"Z".toList, 2⟩, by decide, by decide⟩⟩, rfl⟩
  have hs := shaped_of flag_compiled ht
  have hr : Reads leUtf8 flagExport [0, 4] [⟨"a".toList, .undef⟩, ⟨"e".toList, .num (.int 4)⟩] := by
    refine (reads_iff leUtf8 flag_compiled hu hs).2 ⟨by decide +kernel, ?_⟩
    rfl
  obtain ⟨v, st, h1, h2⟩ := C119_exact leUtf8 flag_compiled hu hm hs hr [] (Nat.le_refl _)
  have h3 := h2.2 (typedFs_mono (fun _ _ => trivial) (fun _ _ _ h => h) _ (trueEnums flag_compiled) _ ht)
  obtain ⟨bytes, st', h4, -⟩ := C119_write leUtf8 flag_compiled hm h3 (Nat.le_refl _) (.inl rfl)
  refine ⟨m, v, st, flag_compiled, hu, hm, h1, ?_, h3, bytes, st', h4⟩
  obtain ⟨i, pr, props, rfl, -⟩ := h3
  simp
end Packetc.Props
