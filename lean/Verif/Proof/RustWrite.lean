import Verif.Proof.RustBase
import Verif.Proof.RustPrint
/-!
# What the emitted `write` does
-/

namespace Packetc.Rs
open Check
open Js (Num Scalar utf8Enc scalarOf reprScalar SoundEnum)
open Gen (varname bindname reprName)
open RustGen (reprType)

variable (lib : Lib) (P : Prog) {lim : Nat}

mutual
/-- What the functions for a type need: builtin types under their own names, enums defined as emitted, fields with different names. -/
def FitsT (tn : Str) : RType → Prop
  | .builtin b => tn = Js.builtinName b
  | .enum e => SoundEnum e ∧ P.enum? tn = some (e.variants.map fun v => (v.name, v.value),
      e.variants.map fun v => ((Gen.i32Shl1 v.value).getD 0, v.name))
  | .struct fs => (fs.map FieldOf.name).Nodup ∧ FitsFs fs
def FitsFs : List (FieldOf RType) → Prop
  | [] => True
  | f :: fs => FitsF f ∧ FitsFs fs
def FitsF : FieldOf RType → Prop
  | ⟨_, tn, t, _, _⟩ => FitsT tn t
end

theorem scalarNamed_name (s : Scalar) : scalarNamed s.name = some s := by cases s <;> decide

theorem scalarNamed_repr (r : EnumRepr) : scalarNamed (reprName r) = some (reprScalar r) := by cases r <;> decide

theorem scalarNamed_builtin {b : Builtin} {sc : Scalar} (h : scalarOf b = some sc) : scalarNamed (Js.builtinName b) = some sc := by
  cases b <;> cases h <;> decide

theorem bits_repr (r : EnumRepr) : bits (reprType r) = some (WellFormed.reprBits r) := by cases r <;> decide

theorem emit_num {t : Str} {sc : Scalar} (h : scalarNamed t = some sc) (n : Num) (env out rest) :
    emit lib t (.num n) ⟨env, out, rest⟩ = .ok () ⟨env, out ++ lib.enc sc n, rest⟩ := by
  unfold emit
  simp only [h]

theorem lookup_find {α} (vs : List EnumVariant) (f : EnumVariant → α) (n : Str) :
    (vs.map fun v => (v.name, f v)).lookup n = (vs.find? fun w => w.name = n).map f := by
  induction vs with
  | nil => rfl
  | cons v vs ih =>
    rw [List.map_cons, List.lookup_cons, List.find?_cons, ih]
    by_cases h : v.name = n
    · simp [h]
    · have : (n == v.name) = false := by simpa using fun e => h e.symm
      simp [h, this]

theorem sound_value {e : REnum} (h : SoundEnum e) {w : EnumVariant} (hw : w ∈ e.variants) : w.value < WellFormed.reprBits e.repr := by
  obtain ⟨vs, -, hr⟩ := h
  have : w.value ∈ e.variants.map EnumVariant.value := List.mem_map_of_mem hw
  rw [hr.values, List.mem_range] at this
  exact Nat.lt_of_lt_of_le this hr.fits

theorem pow_mod_lt {k b : Nat} (h : k < b) : (2 : Int) ^ k % 2 ^ b = 2 ^ k := by
  have h1 : (2 : Nat) ^ k % 2 ^ b = 2 ^ k := Nat.mod_eq_of_lt (Nat.pow_lt_pow_right (by decide) h)
  exact_mod_cast congrArg (fun n : Nat => (n : Int)) h1

theorem cast_variant {tn : Str} {e : REnum} (h : FitsT P tn (.enum e)) {n : Str} {w : EnumVariant}
    (hw : (e.variants.find? fun w => w.name = n) = some w) (s : St) :
    castTo P (reprType e.repr) (.variant tn n) s = .ok (.num (.int (2 ^ w.value))) s := by
  obtain ⟨h1, h2⟩ := h
  unfold castTo
  simp only [bits_repr, h2, Option.bind_some, lookup_find, hw, Option.map_some]
  rw [pow_mod_lt (sound_value h1 (List.mem_of_find?_eq_some hw))]
  rfl

theorem len_cast {n : Nat} (h : n < 2 ^ 32) : ((n : Int) % 2 ^ 32) = n := by omega

theorem cast_u32 {n : Nat} (h : n < 2 ^ 32) (s : St) :
    castTo P "u32".toList (.num (.int (n : Int))) s = .ok (.num (.int n)) s := by
  have hb : bits "u32".toList = some 32 := by decide
  unfold castTo
  simp only [hb]
  rw [len_cast h]
  rfl

theorem u32_named : scalarNamed "uint32".toList = some .uint32 := by decide
theorem u8_named : scalarNamed "uint8".toList = some .uint8 := by decide

theorem exec_writeLen {st : List Str} {env v} (h : At env st v) {n : Nat} (hn : n < 2 ^ 32)
    (hv : (∃ l, v = .vec l ∧ n = l.length) ∨ ∃ s, v = .str s ∧ n = (utf8Enc s).length) (out rest : List UInt8) :
    exec lib P (.write "uint32".toList (.cast (.len (path st)) "u32".toList)) ⟨env, out, rest⟩ =
      .ok () ⟨env, out ++ lib.enc .uint32 (.int n), rest⟩ := by
  have h1 : eval lib P (.len (path st)) ⟨env, out, rest⟩ = .ok (.num (.int n)) ⟨env, out, rest⟩ := by
    show (eval lib P (path st) >>= _) _ = _
    rw [bind_ok (h.eval lib P out rest)]
    rcases hv with ⟨l, rfl, rfl⟩ | ⟨s, rfl, rfl⟩ <;> rfl
  have h2 : eval lib P (.cast (.len (path st)) "u32".toList) ⟨env, out, rest⟩ = .ok (.num (.int n)) ⟨env, out, rest⟩ := by
    show (eval lib P (.len (path st)) >>= _) _ = _
    rw [bind_ok h1, cast_u32 P hn]
  rw [exec_write, bind_ok h2, emit_num lib u32_named]

theorem exec_writeStr {st : List Str} {env s} (h : At env st (.str s)) (out rest : List UInt8) :
    exec lib P (.write "string".toList (.addr (path st))) ⟨env, out, rest⟩ = .ok () ⟨env, out ++ utf8Enc s, rest⟩ := by
  rw [exec_write, bind_ok (show eval lib P (.addr (path st)) _ = _ from h.eval lib P out rest)]
  unfold emit
  simp

/-- Running the statements from any state where the place holds the value appends the bytes. -/
def WritesAt (prog : List Str → List Stmt) (v : Val) (bytes : List UInt8) : Prop :=
  ∀ env st out rest, At env st v → execAll lib P (prog st) ⟨env, out, rest⟩ = .ok () ⟨env, out ++ bytes, rest⟩

theorem writes_block {x : Str} {prog : List Str → List Stmt} {v : Val} {bytes : List UInt8} (h : WritesAt lib P prog v bytes)
    (env out rest) : block (do declare x v; execAll lib P (prog [x])) ⟨env, out, rest⟩ = .ok () ⟨env, out ++ bytes, rest⟩ :=
  block_ok (pre := [(x, v)]) (h ((x, v) :: env) [x] out rest (At.head x v env)) rfl

theorem writes_loop {x : Str} {prog : List Str → List Stmt} {enc : Val → List UInt8} (vs : List Val)
    (h : ∀ v ∈ vs, WritesAt lib P prog v (enc v)) (env out rest) :
    forEach (fun v => block do declare x v; execAll lib P (prog [x])) vs ⟨env, out, rest⟩ =
      .ok () ⟨env, out ++ (vs.map enc).flatten, rest⟩ := by
  induction vs generalizing out with
  | nil => simp only [forEach, pure_apply, List.map_nil, List.flatten_nil, List.append_nil]
  | cons v vs ih =>
    show (block (do declare x v; execAll lib P (prog [x])) >>= fun _ => forEach _ vs) _ = _
    rw [bind_ok (writes_block lib P (h v (by simp)) env out rest), ih (fun w hw => h w (by simp [hw]))]
    simp

theorem writes_arr {prog : List Str → List Stmt} {enc : Val → List UInt8} (vs : List Val) (hl : vs.length < 2 ^ 32)
    (h : ∀ v ∈ vs, WritesAt lib P prog v (enc v)) :
    WritesAt lib P (wArr prog) (.vec vs) (lib.enc .uint32 (.int vs.length) ++ (vs.map enc).flatten) := by
  intro env st out rest hat
  unfold wArr
  rw [execAll_two lib P (exec_writeLen lib P hat hl (Or.inl ⟨vs, rfl, rfl⟩) out rest),
    exec_forIter lib P _ _ _ _ _ _ (hat.eval lib P _ rest), writes_loop lib P vs h, List.append_assoc]

theorem writes_none {r : Bool} {prog : List Str → List Stmt} : WritesAt lib P (wOpt r prog) .none (lib.enc .uint8 (.int 0)) := by
  intro env st out rest hat
  unfold wOpt
  rw [execAll_one, exec_match lib P _ _ _ _ _ _ _ _ _ (hat.eval lib P out rest)]
  show emit lib "uint8".toList (.num (.int 0)) _ = _
  rw [emit_num lib u8_named]

theorem writes_some {r : Bool} {prog : List Str → List Stmt} {v : Val} {bytes : List UInt8} (h : WritesAt lib P prog v bytes) :
    WritesAt lib P (wOpt r prog) (.some v) (lib.enc .uint8 (.int 1) ++ bytes) := by
  intro env st out rest hat
  unfold wOpt
  rw [execAll_one, exec_match lib P _ _ _ _ _ _ _ _ _ (hat.eval lib P out rest)]
  have := writes_block lib P (x := bindname st)
    (prog := fun st' => Stmt.write "uint8".toList (.u8 1) :: prog st') (v := v) (bytes := lib.enc .uint8 (.int 1) ++ bytes) ?_ env out rest
  · exact this
  · intro env st out rest hat
    rw [execAll_cons]
    have h1 : exec lib P (.write "uint8".toList (.u8 1)) ⟨env, out, rest⟩ = .ok () ⟨env, out ++ lib.enc .uint8 (.int 1), rest⟩ := by
      show emit lib "uint8".toList (.num (.int 1)) _ = _
      rw [emit_num lib u8_named]
    rw [bind_ok h1, h env st _ rest hat, List.append_assoc]

theorem get_of_nodup {ps : List (Str × Val)} (h : (ps.map Prod.fst).Nodup) {p : Str × Val} (hp : p ∈ ps) : get ps p.1 = some p.2 := by
  induction ps with
  | nil => cases hp
  | cons q ps ih =>
    rw [List.map_cons, List.nodup_cons] at h
    obtain ⟨n, v⟩ := q
    rcases List.mem_cons.1 hp with rfl | hp'
    · exact if_pos rfl
    · have : p.1 ≠ n := by
        intro he
        exact h.1 (List.mem_map.2 ⟨p, hp', he⟩)
      exact (if_neg this).trans (ih h.2 hp')

theorem valFs_names {fs : List (FieldOf RType)} {ps} (h : ValFs lim fs ps) : ps.map Prod.fst = fs.map FieldOf.name := by
  induction fs generalizing ps with
  | nil => cases h; rfl
  | cons f fs ih =>
    obtain ⟨p, qs, rfl, h1, h2⟩ := h
    obtain ⟨n, tn, t, a, o⟩ := f
    rw [List.map_cons, List.map_cons, ih h2, h1.1]

/-- The components hold the values of the fields. -/
def Found (l ps : List (Str × Val)) : Prop := ∀ p ∈ ps, get l p.1 = some p.2

mutual
theorem write_type (hlim : lim ≤ 2 ^ 32) (tn : Str) : (t : RType) → FitsT P tn t → ∀ v, ValT lim tn t v →
    WritesAt lib P (fun st => writeType st tn t) v (encT lib t v)
  | .builtin b, hf, v, hv => by
    intro env st out rest hat
    cases hb : scalarOf b with
    | none =>
      have : b = .string := by cases b <;> first | rfl | cases hb
      subst this
      obtain ⟨s, rfl, hs⟩ := hv
      show execAll lib P [_, _] _ = _
      rw [execAll_two lib P (exec_writeLen lib P hat hs (Or.inr ⟨s, rfl, rfl⟩) out rest), exec_writeStr lib P hat,
        List.append_assoc]
      rfl
    | some sc =>
      have hv' : ∃ n, v = .num n ∧ NumOk sc n := by
        unfold ValT at hv
        rw [hb] at hv
        exact hv
      obtain ⟨n, rfl, -⟩ := hv'
      have hp : writeType st tn (.builtin b) = [.write tn (path st)] := by cases b <;> first | rfl | cases hb
      have he : encT lib (.builtin b) (.num n) = lib.enc sc n := by unfold encT; rw [hb]
      have htn : tn = Js.builtinName b := hf
      show execAll lib P (writeType st tn (.builtin b)) _ = _
      rw [hp, he, execAll_one, exec_write, bind_ok (hat.eval lib P out rest),
        emit_num lib (by rw [htn]; exact scalarNamed_builtin hb)]
  | .enum e, hf, v, hv => by
    intro env st out rest hat
    obtain ⟨w, hw, rfl⟩ := hv
    show execAll lib P [.write (reprName e.repr) (.cast (path st) (reprType e.repr))] _ = _
    cases hx : e.variants.find? fun x => x.name = w.name with
    | none => exact absurd (List.find?_eq_none.1 hx w hw) (by simp)
    | some w' =>
      have h1 : eval lib P (.cast (path st) (reprType e.repr)) ⟨env, out, rest⟩ =
          .ok (.num (.int (2 ^ w'.value))) ⟨env, out, rest⟩ := by
        show (eval lib P (path st) >>= _) _ = _
        rw [bind_ok (hat.eval lib P out rest), cast_variant P hf hx]
      have he : encT lib (.enum e) (.variant tn w.name) = lib.enc (reprScalar e.repr) (.int (2 ^ w'.value)) := by
        unfold encT
        simp only [hx]
      rw [execAll_one, exec_write, bind_ok h1, emit_num lib (scalarNamed_repr _), he]
  | .struct fs, hf, v, hv => by
    intro env st out rest hat
    obtain ⟨ps, rfl, hps⟩ := hv
    have hn : (ps.map Prod.fst).Nodup := by rw [valFs_names hps]; exact hf.1
    exact write_fields hlim fs hf.2 ps hps env st ps out rest hat (fun p hp => get_of_nodup hn hp)
theorem write_fields (hlim : lim ≤ 2 ^ 32) : (fs : List (FieldOf RType)) → FitsFs P fs → ∀ ps, ValFs lim fs ps → ∀ env st l out rest,
    At env st (.struct l) → Found l ps → execAll lib P (writeStruct st fs) ⟨env, out, rest⟩ = .ok () ⟨env, out ++ encFs lib fs ps, rest⟩
  | [], _, ps, hps, env, st, l, out, rest, _, _ => by
    show Res.ok () _ = Res.ok () ⟨env, out ++ [], rest⟩
    rw [List.append_nil]
  | f :: fs, hf, ps, hps, env, st, l, out, rest, hat, hl => by
    obtain ⟨p, qs, rfl, h1, h2⟩ := hps
    show execAll lib P (writeField st f ++ writeStruct st fs) _ = .ok () ⟨env, out ++ (encF lib f p.2 ++ encFs lib fs qs), rest⟩
    have hp1 : p.1 = f.name := by
      obtain ⟨n, tn, t, a, o⟩ := f
      exact h1.1
    have hg := hl p (by simp)
    rw [hp1] at hg
    rw [execAll_append, writeField_eq, bind_ok (write_field hlim f hf.1 p h1 env (st ++ [f.name]) out rest (hat.field hg)),
      write_fields hlim fs hf.2 qs h2 env st l _ rest hat (fun q hq => hl q (by simp [hq])), List.append_assoc]
theorem write_field (hlim : lim ≤ 2 ^ 32) : (f : FieldOf RType) → FitsF P f → ∀ p, ValF lim f p →
    WritesAt lib P (if f.optional then wOpt (byRef f.ty) (if f.array then wArr (fun st => writeType st f.tyName f.ty)
          else fun st => writeType st f.tyName f.ty)
        else (if f.array then wArr (fun st => writeType st f.tyName f.ty)
          else fun st => writeType st f.tyName f.ty)) p.2 (encF lib f p.2)
  | ⟨n, tn, t, a, o⟩, hf, p, hp => by
    have ht := write_type hlim tn t hf
    have hone : ∀ v, (if a then ∃ vs, v = .vec vs ∧ vs.length < lim ∧ ∀ w ∈ vs, ValT lim tn t w else ValT lim tn t v) →
        WritesAt lib P (if a then wArr (fun st => writeType st tn t) else fun st => writeType st tn t) v
          (if a then match v with
            | .vec vs => lib.enc .uint32 (.int vs.length) ++ (vs.map fun x => encT lib t x).flatten
            | _ => [] else encT lib t v) := by
      intro v hv
      cases a with
      | false => exact ht v hv
      | true =>
        obtain ⟨vs, rfl, hl, hw⟩ := hv
        exact writes_arr lib P vs (by omega) fun w hw' => ht w (hw w hw')
    obtain ⟨-, ⟨ho, hv⟩ | ⟨v, hv, hw⟩⟩ := hp
    · subst ho
      rw [hv]
      exact writes_none lib P
    · have := hone v hw
      rw [hv]
      cases o with
      | false => exact this
      | true => exact writes_some lib P this
end

end Packetc.Rs
