import Verif.Proof.RustHas
/-!
# The emitted functions as a whole
-/

namespace Packetc.Rs
open Ast Check WellFormed
open Js (Num Scalar utf8Enc scalarOf reprScalar SoundEnum EnumsT EnumsFs EnumsF builtinName)
open RustGen (fieldTypename)

/-- A program with the emitted definitions. -/
def progOf (types : TypeMap) : Prog where
  items := itemsOf types
  dflt n := match types.get n with
    | some (_, .struct fs) => dfltT n (.struct fs)
    | some (_, .enum e) => dfltT n (.enum e)
    | _ => primDefault n

section
variable {ast : AST} {r : Resolved}

theorem progOf_has (hc : Checked ast r) (hn : NamesFit ast) : (progOf r.types).HasItems (itemsOf r.types) := by
  obtain ⟨hk, -, hall⟩ := checked_entries hc
  refine ⟨.refl _, fun n hp hi => ?_, fun n rp vs d arms hi => ?_, fun n fs hi => ?_⟩
  · show (match r.types.get n with | some (_, .struct fs) => _ | some (_, .enum e) => _ | _ => _) = _
    split
    · rename_i m fs hg
      exact absurd (List.mem_map.2 ⟨structItem n fs, List.mem_filterMap.2 ⟨_, Map.get_mem hg, rfl⟩, rfl⟩) hi
    · rename_i m e hg
      exact absurd (List.mem_map.2 ⟨enumItem n e, List.mem_filterMap.2 ⟨_, Map.get_mem hg, rfl⟩, rfl⟩) hi
    · rfl
  · rcases mem_items hi with ⟨n', m, gs, h1, h2⟩ | ⟨n', m, e, h1, h2⟩
    · cases h2
    · cases h2
      have hg := Map.mem_get hk h1
      show (match r.types.get n with | some (_, .struct fs) => _ | some (_, .enum e) => _ | _ => _) = _
      rw [hg]
      rfl
  · rcases mem_items hi with ⟨n', m, gs, h1, h2⟩ | ⟨n', m, e, h1, h2⟩
    · cases h2
      have hg := Map.mem_get hk h1
      have hd : (progOf r.types).dflt n = .struct (dfltFs gs) := by
        show (match r.types.get n with | some (_, .struct fs) => _ | some (_, .enum e) => _ | _ => _) = _
        rw [hg]
        rfl
      rw [hd]
      obtain ⟨-, -, hE⟩ := hall _ _ _ hg
      cases hE with
      | struct ds ds' _ hb hdec hperm hnm hR =>
        rw [dflt_fields_eq]
        intro f hf
        obtain ⟨hgf, -⟩ := hR f hf
        obtain ⟨-, -, hE'⟩ := hall _ _ _ hgf
        refine ⟨?_, name_eq hE'⟩
        show (match r.types.get (rustName f.tyName) with | some (_, .struct fs) => _ | some (_, .enum e) => _ | _ => _) = _
        have hname := name_eq hE'
        generalize f.ty = t at *
        cases hE' with
        | builtin b hb' =>
          have hnone : r.types.get (rustName f.tyName) = none := by
            cases hx : r.types.get (rustName f.tyName) with
            | none => rfl
            | some p =>
              obtain ⟨m, t⟩ := p
              refine absurd (hall _ _ _ hx).2.1 ?_
              rw [hb']
              exact hn.types _ (rustName_prim b)
          rw [hnone]
          show primDefault _ = _
          rw [hb', prim_default]
        | enum vs e hb' _ _ _ =>
          rw [rustName_user hb', hgf]
        | struct fs fs' rfs hb' _ _ _ _ =>
          rw [rustName_user hb', hgf]
    · cases h2

variable (lib : Lib) {P : Prog}

theorem run_write (hc : Checked ast r) (hn : NamesFit ast) (hP : P.HasItems (itemsOf r.types)) {ps : List (Str × Val)}
    (hps : ValFs (2 ^ 32) r.export.fields ps) :
    runWrite lib P (writeBody r.export) (.struct ps) = some (encFs lib r.export.fields ps) := by
  have hf := (fits_export hc hn hP).1
  have h := write_type lib P (Nat.le_refl _) r.export.name (.struct r.export.fields) hf (.struct ps) ⟨ps, rfl, hps⟩
    [("input".toList, .struct ps)] ["input".toList] [] [] (At.head _ _ [])
  unfold runWrite
  rw [show writeBody r.export = writeType ["input".toList] r.export.name (.struct r.export.fields) from rfl, h]
  rfl

/-- The result of `read`, from what is read. -/
def resultOf : Got (List (Str × Val)) → ReadResult
  | .ok ps rest => .ok (.struct ps) rest
  | .err => .err
  | .abort => .abort

theorem run_read (hc : Checked ast r) (hn : NamesFit ast) (hP : P.HasItems (itemsOf r.types)) {old : List (Str × Val)}
    (ho : ShapeFs r.export.fields old) (data : List UInt8) :
    runRead lib P (readBody r.export) (.struct old) data = resultOf (rdFs lib r.export.fields old data) := by
  obtain ⟨hf, hd⟩ := fits_export hc hn hP
  have h := read_type lib P r.export.name (.struct r.export.fields) hf hd [("output".toList, .struct old)] "output".toList []
    (.struct old) (.struct old) [] data True.intro (get_head _ _ []) (getV_nil _) ⟨old, rfl, ho⟩
  unfold runRead
  rw [show readBody r.export = readType ["output".toList] r.export.name (.struct r.export.fields) from rfl]
  have h' : Outcome (execAll lib P (readType ["output".toList] r.export.name (.struct r.export.fields)) ⟨[("output".toList, .struct old)], [], data⟩)
      [("output".toList, .struct old)] "output".toList (.struct old) [] []
      ((rdFs lib r.export.fields old data).bind fun ps r' => .ok (.struct ps) r') := h
  cases hq : rdFs lib r.export.fields old data with
  | err => rw [hq] at h'; have h' : execAll _ _ _ _ = _ := h'; rw [h']; rfl
  | abort => rw [hq] at h'; have h' : execAll _ _ _ _ = _ := h'; rw [h']; rfl
  | ok ps rest =>
    rw [hq] at h'
    obtain ⟨pre, r', env', h1, h2, h3, h4⟩ := h'
    rw [setV_nil] at h1
    cases h1
    have : set [("output".toList, Val.struct old)] "output".toList (.struct ps) = some [("output".toList, .struct ps)] := if_pos rfl
    rw [this] at h2
    cases h2
    rw [h4]
    show (match get (pre ++ _) _ with | some v => _ | none => _) = _
    rw [get_skip (longer h3), get_head]
    rfl

end

/-! ### Written bytes hold what was written -/

variable (lib : Lib) {P : Prog} {lim : Nat}

theorem dec_u32 {n : Nat} (h : n < 2 ^ 32) : lib.dec .uint32 (lib.enc .uint32 (.int n)) = .int n :=
  lib.dec_enc _ _ ⟨by omega, by omega⟩

theorem ok_pow {e : REnum} (h : SoundEnum e) {w : EnumVariant} (hw : w ∈ e.variants) : NumOk (reprScalar e.repr) (.int (2 ^ w.value)) := by
  have h1 := sound_value h hw
  have h2 : (2 : Int) ^ w.value < 2 ^ reprBits e.repr := by exact_mod_cast Nat.pow_lt_pow_right (by decide) h1
  have h3 : (0 : Int) ≤ 2 ^ w.value := by positivity
  cases hr : e.repr <;> rw [hr] at h2 <;> exact ⟨h3, h2⟩

mutual
theorem enc_has (h1 : lim ≤ 2 ^ 32) (h2 : lim ≤ lib.maxItems + 1) (tn : Str) : (t : RType) → EnumsT SoundEnum t → DefT P tn t →
    ∀ v, ValT lim tn t v → HasT lib tn t (encT lib t v) v
  | .builtin b, _, _, v, hv => by
    cases hb : scalarOf b with
    | some sc =>
      unfold ValT at hv
      rw [hb] at hv
      obtain ⟨n, rfl, hn⟩ := hv
      unfold HasT encT
      rw [hb]
      exact ⟨lib.enc_len _ _, by rw [lib.dec_enc _ _ hn]⟩
    | none =>
      unfold ValT at hv
      rw [hb] at hv
      obtain ⟨s, rfl, hs⟩ := hv
      unfold HasT encT
      rw [hb]
      exact ⟨_, s, rfl, lib.enc_len _ _, dec_u32 lib hs, rfl⟩
  | .enum e, he, _, v, hv => by
    obtain ⟨w, hw, rfl⟩ := hv
    cases hx : e.variants.find? fun x => x.name = w.name with
    | none => exact absurd (List.find?_eq_none.1 hx w hw) (by simp)
    | some w' =>
      have hw' : w' ∈ e.variants := List.mem_of_find?_eq_some hx
      have hn : w'.name = w.name := by simpa using List.find?_some hx
      have hE : encT lib (.enum e) (.variant tn w.name) = lib.enc (reprScalar e.repr) (.int (2 ^ w'.value)) := by
        unfold encT
        simp only [hx]
      rw [hE]
      exact ⟨lib.enc_len _ _, w', hw', lib.dec_enc _ _ (ok_pow he hw'), by rw [hn]⟩
  | .struct fs, he, hd, v, hv => by
    obtain ⟨ps, rfl, hps⟩ := hv
    exact ⟨ps, rfl, encFs_has h1 h2 fs he hd.2 ps hps⟩
theorem encFs_has (h1 : lim ≤ 2 ^ 32) (h2 : lim ≤ lib.maxItems + 1) : (fs : List (FieldOf RType)) → EnumsFs SoundEnum fs → DefFs P fs → ∀ ps,
    ValFs lim fs ps → HasFs lib fs (encFs lib fs ps) ps
  | [], _, _, ps, hps => ⟨rfl, hps⟩
  | f :: fs, he, hd, ps, hps => by
    obtain ⟨⟨n, v⟩, qs, rfl, hp, hqs⟩ := hps
    have hname : n = f.name := by
      obtain ⟨_, _, _, _, _⟩ := f
      exact hp.1
    subst hname
    exact ⟨_, _, v, qs, rfl, rfl, encF_has h1 h2 f he.1 hd.1 v hp, encFs_has h1 h2 fs he.2 hd.2 qs hqs⟩
theorem encF_has (h1 : lim ≤ 2 ^ 32) (h2 : lim ≤ lib.maxItems + 1) : (f : FieldOf RType) → EnumsF SoundEnum f → DefF P f → ∀ v,
    ValF lim f (f.name, v) → HasF lib f (encF lib f v) v
  | ⟨n, tn, t, a, o⟩, he, hd, v, hv => by
    have ht := enc_has h1 h2 tn t he hd.1
    cases o with
    | true =>
      cases a with
      | true => exact absurd ⟨rfl, rfl⟩ hd.2
      | false =>
        obtain ⟨-, ⟨-, hv⟩ | ⟨w, hv, hw⟩⟩ := hv
        · have hv : v = .none := hv
          rw [hv]
          exact ⟨_, [], (List.append_nil _).symm, lib.enc_len _ _, Or.inl ⟨lib.dec_enc _ _ ⟨by decide, by decide⟩, rfl, rfl⟩⟩
        · have hv : v = .some w := hv
          rw [hv]
          refine ⟨_, _, rfl, lib.enc_len _ _, Or.inr ⟨?_, w, rfl, ht w hw⟩⟩
          rw [lib.dec_enc .uint8 (.int 1) ⟨by decide, by decide⟩]
          simp
    | false =>
      have hv' : if a = true then ∃ vs, v = .vec vs ∧ vs.length < lim ∧ ∀ w ∈ vs, ValT lim tn t w else ValT lim tn t v := by
        obtain ⟨-, ⟨h, -⟩ | ⟨w, hv, hw⟩⟩ := hv
        · cases h
        · have hv : v = w := hv
          rw [hv]
          exact hw
      cases a with
      | false => exact ht v hv'
      | true =>
        obtain ⟨vs, rfl, hl, hw⟩ := hv'
        refine ⟨_, vs.map fun x => encT lib t x, vs, rfl, lib.enc_len _ _, dec_u32 lib (by omega), by omega, rfl, ?_⟩
        clear hl hv
        induction vs with
        | nil => exact .nil
        | cons x vs ih => exact .cons (ht x (hw x (by simp))) (ih fun w h => hw w (by simp [h]))
end

end Packetc.Rs
