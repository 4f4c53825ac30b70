import Verif.Proof.JsRep
import Verif.Proof.Text
/-!
# C30-C44: behaviour of the generated `read` and `write`

The theorems speak about every text `e.code` that the compiler can write (`Compiled ast e`) whose names do not
break it (`Usable e`); `plain_usable` gives a condition on the schema that guarantees this, and C38, C39, C44 say
what goes wrong otherwise. What a text does is given by `readText` and `writeText`: a lexer and a parser for
TypeScript and an interpreter, none of which knows anything about the generator. `rt` is any runtime library meeting
the contract `Runtime`.
-/

namespace Packetc.Props
open Ast Check WellFormed Js Gen

variable (rt : Runtime)

theorem compiled_sound {ast : AST} {e : Artifact} (h : Compiled ast e) : SoundFs e.fields := by
  obtain ⟨ds, tds, fs, fs', R⟩ := compiled_run h
  exact R.sound

/-- Plain schemas are usable. -/
theorem plain_usable {ast : AST} {e : Artifact} (h : Compiled ast e) (hp : PlainSchema ast) : Usable e := by
  have hc := h
  obtain ⟨env, text, r, hf, -, h1, -, h3, he⟩ := h
  obtain ⟨a, b, c, d⟩ := plain_module h1 hf.1 h3 hp
  rw [he] at a b c d
  exact ⟨compiled_loads hc a (plain_loadable hp), b, c, d⟩

theorem compiled_small {ast : AST} {e : Artifact} (h : Compiled ast e) {k : Nat} (hs : EnumsAtMost k ast) :
    EnumsFs (fun e => SoundEnum e ∧ e.variants.length ≤ k) e.fields := by
  obtain ⟨env, text, r, hf, -, h1, -, h3, he⟩ := h
  have := small_enums h1 hf.1 h3 hs
  rwa [he] at this

/-! ### an example -/

/-- The exported fields of the example (`o` comes first: fields of builtin type are resolved first). -/
def exampleFields : List (FieldOf RType) :=
  [⟨"o".toList, "string".toList, .builtin .string, false, true⟩,
   ⟨"b".toList, "B".toList, .struct [⟨"e".toList, "E".toList, .enum ⟨.u8, [⟨"X".toList, 0⟩, ⟨"Y".toList, 1⟩]⟩, false, false⟩,
      ⟨"n".toList, "uint8".toList, .builtin .uint8, false, false⟩], true, false⟩]

theorem example_compiled : ∃ e, Compiled exampleAst e ∧ e.name = "A".toList ∧ e.fields =
    exampleFields :=
  ⟨_, compiled_of (ord := id) example_parses (fun _ => .refl _) rfl rfl, rfl, rfl⟩

theorem example_plain : PlainSchema exampleAst := plain_of (by decide)

theorem example_small : SmallEnums exampleAst := by
  intro n vs h
  unfold exampleAst at h
  simp only [List.mem_cons, Node.decl.injEq, Ty.enum.injEq, reduceCtorEq, and_false, or_false,
      List.not_mem_nil] at h
  rw [h.2]
  decide

/-- A value of the example: one `B`, and the string "hi". -/
def exampleValue : List (PropOf JVal) :=
  [⟨"o".toList, .str "hi".toList⟩, ⟨"b".toList, .arr [.obj [⟨"e".toList, .num (.int 2)⟩, ⟨"n".toList, .num (.int 7)⟩]]⟩]

theorem example_typed (e : Artifact) (h : e.fields =
    exampleFields) :
    TypedFs (FaithfulStr leUtf8) IsVariant e.fields exampleValue := by
  rw [h]
  refine ⟨_, _, rfl, ⟨rfl, Or.inr ⟨_, rfl, by decide, by decide⟩⟩, _, _, rfl, ⟨rfl, Or.inr ⟨_, rfl, by decide, ?_⟩⟩, rfl⟩
  intro j hj
  rw [List.mem_singleton] at hj
  subst hj
  refine ⟨_, rfl, _, _, rfl, ⟨rfl, Or.inr ⟨_, rfl, ⟨_, List.mem_cons_of_mem _ List.mem_cons_self, rfl⟩⟩⟩, _, _, rfl,
    ⟨rfl, Or.inr ⟨_, rfl, by decide, by decide⟩⟩, rfl⟩

/-! ## C30 -/

/-- C30: `write` returns exactly the documented encoding of the packet. -/
theorem C30_write_format {ast : AST} {e : Artifact} (hc : Compiled ast e) (hl : load e.code ≠ none)
    {ps : List (PropOf JVal)} (hty : HasFields e.fields ps) : Writes rt e ps (encodeFields rt e.fields ps) := by
  intro heap this buffer fuel hfuel hbuf hrep
  obtain ⟨hm, hrun⟩ := compiled_text hc hl
  rw [(hrun rt fuel heap).2]
  exact runWrite_ok (rt := rt) hm (compiled_sound hc) hfuel heap this buffer hbuf hty hrep

/-- C30, with conditions on the schema only. -/
theorem C30_write_format_plain {ast : AST} {e : Artifact} (hc : Compiled ast e) (hp : PlainSchema ast)
    {ps : List (PropOf JVal)} (hty : HasFields e.fields ps) : Writes rt e ps (encodeFields rt e.fields ps) :=
  C30_write_format rt hc (plain_usable hc hp).loads hty

theorem faithful_hasFields {fs : List (FieldOf RType)} {ps : List (PropOf JVal)} (he : EnumsFs (fun _ => True) fs)
    (h : TypedFs (FaithfulStr rt) IsVariant fs ps) : HasFields fs ps :=
  typedFs_mono (fun _ h => h.1) (fun _ _ _ h => h) fs he ps h

example : ∃ (ast : AST) (e : Artifact) (ps : List (PropOf JVal)), Compiled ast e ∧ PlainSchema ast ∧ HasFields e.fields ps ∧
    encodeFields leUtf8 e.fields ps = [1, 2, 0, 0, 0, 104, 105, 1, 0, 0, 0, 2, 7] := by
  obtain ⟨e, h1, h2, h3⟩ := example_compiled
  refine ⟨exampleAst, e, exampleValue, h1, example_plain,
    faithful_hasFields leUtf8 (enumsFs_imp (fun _ _ => trivial) _ (compiled_small h1 example_small)) (example_typed e h3), ?_⟩
  rw [h3]
  decide +kernel

/-! ## what `read` and `write` do, as functions -/

/-- `Writes` is not vacuous: every value of the right shape is held by some object. -/
theorem held {ast : AST} {e : Artifact} (hc : Compiled ast e) (hu : Usable e) {S E} {ps : List (PropOf JVal)} (h : TypedFs S E e.fields ps) :
    ∃ heap v, Rep heap (.obj ps) v := by
  have hn : (ps.map PropOf.name).Nodup := by
    rw [typed_names h]
    exact (moduleOk_parts (compiled_text hc hu.loads).1).2.2.1
  obtain ⟨ext, v, hr⟩ := repJ_exists (.obj ps) ⟨hn, distinct_fields _ hu.nested ps h⟩ []
  exact ⟨_, v, hr⟩

theorem writes_unique {ast : AST} {e : Artifact} (hc : Compiled ast e) (hu : Usable e) {S E} {ps : List (PropOf JVal)} (h : TypedFs S E e.fields ps)
    {b c : List UInt8} (hb : Writes rt e ps b) (hc' : Writes rt e ps c) : b = c := by
  obtain ⟨heap, v, hr⟩ := held hc hu h
  obtain ⟨st, h1, -⟩ := hb heap v .undef (2 ^ 32) (Nat.le_refl _) (Or.inl rfl) hr
  obtain ⟨st', h2, -⟩ := hc' heap v .undef (2 ^ 32) (Nat.le_refl _) (Or.inl rfl) hr
  rw [h1] at h2
  cases h2
  rfl

theorem rep_of_from {heap : List Obj} {lo : Nat} {j : JVal} {v : Val} (h : RepFrom heap lo j v) : Rep heap j v :=
  repFrom_mono (Nat.zero_le _) (fun _ _ _ h => h) _ _ h

/-- What `read` does, on every input. -/
theorem read_eq {ast : AST} {e : Artifact} (hc : Compiled ast e) (hu : Usable e) {fuel : Nat} (hfuel : 2 ^ 32 ≤ fuel)
    (heap : List Obj) (data : List UInt8) :
    ∃ (st' : State) (ext : List Obj), readText rt fuel e.code heap data =
        .returns (if (rdFields rt e.fields ⟨data, false, 0⟩).2.failed then .null else .ref heap.length) st' ∧
      st'.rd = (rdFields rt e.fields ⟨data, false, 0⟩).2 ∧ st'.heap = heap ++ ext ∧
      (∃ props, st'.heap[heap.length]? = some (.obj .cls props) ∧
        ∀ n, n ∉ e.fields.map (·.name) → props.get n = none) ∧
      RepFrom st'.heap heap.length (.obj (rdFields rt e.fields ⟨data, false, 0⟩).1) (.ref heap.length) := by
  obtain ⟨hm, hrun⟩ := compiled_text hc hu.loads
  rw [(hrun rt fuel heap).1]
  exact runRead_eq (rt := rt) hm hu.className (compiled_sound hc) hu.nested hu.top hfuel heap data

/-- The state of the reader after `read`. -/
theorem read_state {ast : AST} {e : Artifact} (hc : Compiled ast e) (hu : Usable e) {fuel : Nat} (hfuel : 2 ^ 32 ≤ fuel)
    {heap : List Obj} {data : List UInt8} {v : Val} {st : State} (h : readText rt fuel e.code heap data = .returns v st) :
    st.rd = (rdFields rt e.fields ⟨data, false, 0⟩).2 := by
  obtain ⟨st', ext, h1, h2, -⟩ := read_eq rt hc hu hfuel heap data
  rw [h1] at h
  injection h with ha hb
  rw [← hb, h2]

theorem reads_of_rd {ast : AST} {e : Artifact} (hc : Compiled ast e) (hu : Usable e) {data : List UInt8}
    (h : (rdFields rt e.fields ⟨data, false, 0⟩).2.failed = false) :
    Reads rt e data (rdFields rt e.fields ⟨data, false, 0⟩).1 := by
  intro heap fuel hfuel
  obtain ⟨st, ext, h1, h2, h3, -, h5⟩ :=
    read_eq rt hc hu hfuel heap data
  rw [h] at h1
  exact ⟨_, st, ext, h1, h3, h5⟩

theorem rejects_of_rd {ast : AST} {e : Artifact} (hc : Compiled ast e) (hu : Usable e) {data : List UInt8}
    (h : (rdFields rt e.fields ⟨data, false, 0⟩).2.failed = true) : Rejects rt e data := by
  intro heap fuel hfuel
  obtain ⟨st, ext, h1, h2, h3, -⟩ :=
    read_eq rt hc hu hfuel heap data
  rw [h] at h1
  exact ⟨st, ext, h1, h3⟩

/-- A call cannot both reject and return an object. -/
theorem not_reads_rejects {e : Artifact} {data : List UInt8} {ps} (h1 : Reads rt e data ps) (h2 : Rejects rt e data) :
    False := by
  obtain ⟨v, st, ext, h3, -, h4⟩ := h1 [] (2 ^ 32) (Nat.le_refl _)
  obtain ⟨st', ext', h5, -⟩ := h2 [] (2 ^ 32) (Nat.le_refl _)
  rw [h3] at h5
  cases h5
  obtain ⟨i, pr, props, h6, -⟩ := h4
  cases h6

/-- A call returns at most one value of the right shape. -/
theorem reads_unique {e : Artifact} {data : List UInt8} {ps qs} (hps : Shaped e.fields ps) (hqs : Shaped e.fields qs)
    (h1 : Reads rt e data ps) (h2 : Reads rt e data qs) : ps = qs := by
  obtain ⟨v, st, ext, h3, -, h4⟩ := h1 [] (2 ^ 32) (Nat.le_refl _)
  obtain ⟨v', st', ext', h5, -, h6⟩ := h2 [] (2 ^ 32) (Nat.le_refl _)
  rw [h3] at h5
  cases h5
  have := repT_unique (.struct e.fields) (.obj ps) (.obj qs) v ⟨ps, rfl, hps⟩ ⟨qs, rfl, hqs⟩ h4 h6
  cases this
  rfl

theorem trueEnums {ast : AST} {e : Artifact} (hc : Compiled ast e) : EnumsFs (fun _ => True) e.fields :=
  enumsFs_imp (fun _ _ => trivial) _ (soundFs_enums _ (compiled_sound hc))

theorem shaped_of {ast : AST} {e : Artifact} (hc : Compiled ast e) {S E} {ps} (h : TypedFs S E e.fields ps) :
    Shaped e.fields ps :=
  typedFs_mono (fun _ _ => trivial) (fun _ _ _ _ => trivial) _ (trueEnums hc) _ h

theorem reads_iff {ast : AST} {e : Artifact} (hc : Compiled ast e) (hu : Usable e) {data : List UInt8} {ps}
    (hps : Shaped e.fields ps) : Reads rt e data ps ↔
      (rdFields rt e.fields ⟨data, false, 0⟩).2.failed = false ∧ ps = (rdFields rt e.fields ⟨data, false, 0⟩).1 := by
  constructor
  · intro h
    cases hb : (rdFields rt e.fields ⟨data, false, 0⟩).2.failed with
    | true => exact (not_reads_rejects rt h (rejects_of_rd rt hc hu hb)).elim
    | false =>
      exact ⟨rfl, reads_unique rt hps (shaped_of hc (typed_fields rt e.fields _ hb)) h (reads_of_rd rt hc hu hb)⟩
  · rintro ⟨hb, rfl⟩
    exact reads_of_rd rt hc hu hb

/-! ## C31 -/

theorem faithful_typed {fs : List (FieldOf RType)} {ps : List (PropOf JVal)}
    (he : EnumsFs (fun e => SoundEnum e ∧ e.variants.length ≤ 31) fs) (h : TypedFs (FaithfulStr rt) IsVariant fs ps) :
    TypedFs (FaithfulStr rt) FaithE fs ps :=
  typedFs_mono (fun _ h => h) (fun _ _ hp h => variant_faithful hp.1 hp.2 h) fs he ps h

/-- C31 as described. -/
def C31_claim : Prop := ∀ (rt : Runtime) (ast : AST) (e : Artifact), Compiled ast e → PlainSchema ast →
  ∀ ps, HasFields e.fields ps → ∃ bytes, Writes rt e ps bytes ∧ Reads rt e bytes ps

/-- C31, what holds: `read` inverts `write` for schemas without 32-variant enums, and values whose strings are encoded in as
many bytes as JavaScript says they have characters. What is missing from the full statement: other strings and enums, for
which it is false. -/
theorem C31_read_inverts_write_partial {ast : AST} {e : Artifact} (hc : Compiled ast e) (hu : Usable e)
    (hs : SmallEnums ast) {ps : List (PropOf JVal)} (hty : TypedFs (FaithfulStr rt) IsVariant e.fields ps) :
    ∃ bytes, Writes rt e ps bytes ∧ Reads rt e bytes ps := by
  have hsm := compiled_small hc hs
  refine ⟨encodeFields rt e.fields ps, C30_write_format rt hc hu.loads (faithful_hasFields rt (trueEnums hc) hty), ?_⟩
  obtain ⟨c', h⟩ := dec_fields rt e.fields ps (faithful_typed rt hsm hty) [] 0
  have := reads_of_rd rt hc hu (data := encodeFields rt e.fields ps ++ []) (by rw [h])
  rwa [h, List.append_nil] at this

example : ∃ (ast : AST) (e : Artifact) (ps : List (PropOf JVal)), Compiled ast e ∧ Usable e ∧ SmallEnums ast ∧
    TypedFs (FaithfulStr leUtf8) IsVariant e.fields ps ∧ ps ≠ [] := by
  obtain ⟨e, h1, h2, h3⟩ := example_compiled
  exact ⟨exampleAst, e, exampleValue, h1, plain_usable h1 example_plain, example_small, example_typed e h3, by
    intro h; cases h⟩

def stringText : Str := "A: struct { s: string }\nexport A".toList
def stringAst : AST := [.decl "A".toList (.struct [("s".toList, ⟨"string".toList, false, false⟩)]), .export "A".toList]
def stringExport : Artifact :=
  ⟨⟨"A".toList, [⟨"s".toList, "string".toList, .builtin .string, false, false⟩]⟩, exampleCode id stringText⟩

theorem string_compiled : Compiled stringAst stringExport :=
  compiled_of (ord := id) (by decide +kernel) (fun _ => .refl _) rfl rfl

theorem string_plain : PlainSchema stringAst := plain_of (by decide)

/-- The packet `{ s: "é" }`. -/
def accent : List (PropOf JVal) := [⟨"s".toList, .str "é".toList⟩]

theorem accent_typed : HasFields stringExport.fields accent :=
  ⟨_, _, rfl, ⟨rfl, Or.inr ⟨_, rfl, by decide⟩⟩, rfl⟩

/-- With UTF-8, "é" is sent as length 1 and the two bytes c3 a9, and read back as the replacement character. -/
theorem accent_garbled :
    Writes leUtf8 stringExport accent [1, 0, 0, 0, 0xc3, 0xa9] ∧
    Reads leUtf8 stringExport [1, 0, 0, 0, 0xc3, 0xa9] [⟨"s".toList, .str "\uFFFD".toList⟩] ∧
    Reads leUtf8 stringExport [1, 0, 0, 0, 0xc3] [⟨"s".toList, .str "\uFFFD".toList⟩] := by
  refine ⟨?_, ?_, ?_⟩
  · have := C30_write_format_plain leUtf8 string_compiled string_plain accent_typed
    have e : encodeFields leUtf8 stringExport.fields accent = [1, 0, 0, 0, 0xc3, 0xa9] := by decide +kernel
    rwa [e] at this
  · refine (reads_iff leUtf8 string_compiled (plain_usable string_compiled string_plain) ?_).2 ?_
    · exact ⟨_, _, rfl, ⟨rfl, Or.inr ⟨_, rfl, trivial⟩⟩, rfl⟩
    · refine ⟨by decide +kernel, ?_⟩
      have h : (leUtf8.readStr 1 ⟨[0xc3, 0xa9], false, 1⟩).1 = "\uFFFD".toList := by decide +kernel
      exact congrArg (fun x => [(⟨"s".toList, .str x⟩ : PropOf JVal)]) h.symm
  · refine (reads_iff leUtf8 string_compiled (plain_usable string_compiled string_plain) ?_).2 ?_
    · exact ⟨_, _, rfl, ⟨rfl, Or.inr ⟨_, rfl, trivial⟩⟩, rfl⟩
    · refine ⟨by decide +kernel, ?_⟩
      have h : (leUtf8.readStr 1 ⟨[0xc3], false, 1⟩).1 = "\uFFFD".toList := by decide +kernel
      exact congrArg (fun x => [(⟨"s".toList, .str x⟩ : PropOf JVal)]) h.symm

/-- C31 is false for a library that encodes text in UTF-8. -/
theorem C31_false : ¬ C31_claim := by
  intro h
  obtain ⟨bytes, h1, h2⟩ := h leUtf8 stringAst stringExport string_compiled string_plain accent accent_typed
  have hu := plain_usable string_compiled string_plain
  obtain rfl := writes_unique leUtf8 string_compiled hu accent_typed h1 accent_garbled.1
  have := reads_unique leUtf8 (shaped_of string_compiled accent_typed) ⟨_, _, rfl, ⟨rfl, Or.inr ⟨_, rfl, trivial⟩⟩, rfl⟩ h2
    accent_garbled.2.1
  have h3 : "é".toList = "\uFFFD".toList := by
    injection this with h _
    injection h with _ h
    injection h
  revert h3
  decide

/-! ## C32 -/

/-- C32: bytes after a packet that is accepted do not change what `read` returns. -/
theorem C32_trailing_ignored {ast : AST} {e : Artifact} (hc : Compiled ast e) (hu : Usable e) {data : List UInt8} {ps}
    (hps : Shaped e.fields ps) (h : Reads rt e data ps) (tail : List UInt8) : Reads rt e (data ++ tail) ps := by
  obtain ⟨hf, rfl⟩ := (reads_iff rt hc hu hps).1 h
  refine (reads_iff rt hc hu hps).2 ?_
  obtain ⟨-, used, k, h1, -, -, h2⟩ := local_fields rt e.fields _ hf
  have h1 : data = used ++ (rdFields rt e.fields ⟨data, false, 0⟩).2.rest := h1
  have h3 := h2 ((rdFields rt e.fields ⟨data, false, 0⟩).2.rest ++ tail) 0
  rw [← List.append_assoc, ← h1] at h3
  rw [h3]
  exact ⟨rfl, rfl⟩

/-- C32 for packets made by `write`. -/
theorem C32_trailing_after_write {ast : AST} {e : Artifact} (hc : Compiled ast e) (hu : Usable e)
    (hs : SmallEnums ast) {ps : List (PropOf JVal)} (hty : TypedFs (FaithfulStr rt) IsVariant e.fields ps)
    {bytes : List UInt8} (hw : Writes rt e ps bytes) (tail : List UInt8) : Reads rt e (bytes ++ tail) ps := by
  obtain ⟨b, h1, h2⟩ := C31_read_inverts_write_partial rt hc hu hs hty
  obtain rfl := writes_unique rt hc hu hty hw h1
  exact C32_trailing_ignored rt hc hu (shaped_of hc hty) h2 tail

example : ∃ (e : Artifact) (data : List UInt8) (ps : List (PropOf JVal)), Compiled exampleAst e ∧ Usable e ∧
    Shaped e.fields ps ∧ Reads leUtf8 e data ps ∧ ps ≠ [] := by
  obtain ⟨e, h1, h2, h3⟩ := example_compiled
  have hu := plain_usable h1 example_plain
  obtain ⟨b, -, h4⟩ := C31_read_inverts_write_partial leUtf8 h1 hu example_small (example_typed e h3)
  exact ⟨e, b, exampleValue, h1, hu, shaped_of h1 (example_typed e h3), h4, by intro h; cases h⟩

/-! ## C33 -/

/-- C33 as described. -/
def C33_claim : Prop := ∀ (rt : Runtime) (ast : AST) (e : Artifact), Compiled ast e → PlainSchema ast →
  ∀ ps, HasFields e.fields ps → ∀ bytes, Writes rt e ps bytes → ∀ pre, pre <+: bytes → pre ≠ bytes → Rejects rt e pre

/-- C33, what holds: strict prefixes of a packet are rejected, for values as in C31. What is missing: strings that are
longer in bytes than in characters. -/
theorem C33_truncated_rejected_partial {ast : AST} {e : Artifact} (hc : Compiled ast e) (hu : Usable e)
    (hs : SmallEnums ast) {ps : List (PropOf JVal)} (hty : TypedFs (FaithfulStr rt) IsVariant e.fields ps)
    {bytes : List UInt8} (hw : Writes rt e ps bytes) {pre : List UInt8} (hpre : pre <+: bytes) (hne : pre ≠ bytes) :
    Rejects rt e pre := by
  have hsm := compiled_small hc hs
  obtain rfl := writes_unique rt hc hu hty hw
    (C30_write_format rt hc hu.loads (faithful_hasFields rt (trueEnums hc) hty))
  refine rejects_of_rd rt hc hu ?_
  cases hf : (rdFields rt e.fields ⟨pre, false, 0⟩).2.failed with
  | true => rfl
  | false =>
    exfalso
    obtain ⟨q, hq⟩ := hpre
    obtain ⟨-, used, k, h1, -, -, h2⟩ := local_fields rt e.fields _ hf
    have h1 : pre = used ++ (rdFields rt e.fields ⟨pre, false, 0⟩).2.rest := h1
    have h3 := h2 ((rdFields rt e.fields ⟨pre, false, 0⟩).2.rest ++ q) 0
    rw [← List.append_assoc, ← h1, hq] at h3
    obtain ⟨c', h⟩ := dec_fields rt e.fields ps (faithful_typed rt hsm hty) [] 0
    rw [List.append_nil, h3] at h
    have h4 : (rdFields rt e.fields ⟨pre, false, 0⟩).2.rest ++ q = [] := congrArg (fun x => x.2.rest) h
    have h5 : q = [] := (List.append_eq_nil_iff.1 h4).2
    rw [h5, List.append_nil] at hq
    exact hne hq

example : ∃ (e : Artifact) (ps : List (PropOf JVal)) (bytes pre : List UInt8), Compiled exampleAst e ∧ Usable e ∧
    TypedFs (FaithfulStr leUtf8) IsVariant e.fields ps ∧ Writes leUtf8 e ps bytes ∧ pre <+: bytes ∧ pre ≠ bytes := by
  obtain ⟨e, h1, h2, h3⟩ := example_compiled
  have hu := plain_usable h1 example_plain
  have ht := example_typed e h3
  refine ⟨e, exampleValue, _, [1], h1, hu, ht,
    C30_write_format leUtf8 h1 hu.loads (faithful_hasFields leUtf8 (trueEnums h1) ht), ?_, ?_⟩
  · have : encodeFields leUtf8 e.fields exampleValue = [1, 2, 0, 0, 0, 104, 105, 1, 0, 0, 0, 2, 7] := by
      rw [h3]; decide +kernel
    rw [this]; decide
  · have : encodeFields leUtf8 e.fields exampleValue = [1, 2, 0, 0, 0, 104, 105, 1, 0, 0, 0, 2, 7] := by
      rw [h3]; decide +kernel
    rw [this]; decide

/-- C33 is false for a library that encodes text in UTF-8: `{ s: "é" }` without its last byte is accepted. -/
theorem C33_false : ¬ C33_claim := by
  intro h
  exact not_reads_rejects leUtf8 accent_garbled.2.2 (h leUtf8 stringAst stringExport string_compiled string_plain accent
    accent_typed _ accent_garbled.1 [1, 0, 0, 0, 0xc3] (by decide) (by decide))

/-! ## C34, C35 -/

/-- C34: on every byte string `read` terminates, does not throw, and returns `null` or a new object; existing objects are not
changed. -/
theorem C34_read_total {ast : AST} {e : Artifact} (hc : Compiled ast e) (hu : Usable e) (data : List UInt8) (heap : List Obj)
    {fuel : Nat} (hfuel : 2 ^ 32 ≤ fuel) : ∃ v st ext, readText rt fuel e.code heap data = .returns v st ∧ st.heap = heap ++ ext ∧
      (v = .null ∨ ∃ i, v = .ref i ∧ heap.length ≤ i ∧ i < st.heap.length) := by
  obtain ⟨st, ext, h1, h2, h3, ⟨props, h4, -⟩, -⟩ :=
    read_eq rt hc hu hfuel heap data
  refine ⟨_, st, ext, h1, h3, ?_⟩
  split
  · exact Or.inl rfl
  · exact Or.inr ⟨_, rfl, Nat.le_refl _, (List.getElem?_eq_some_iff.1 h4).1⟩

/-- C34, with conditions on the schema only. -/
theorem C34_read_total_plain {ast : AST} {e : Artifact} (hc : Compiled ast e) (hp : PlainSchema ast) (data : List UInt8) :
    Rejects rt e data ∨ ∃ ps, Reads rt e data ps := by
  cases hb : (rdFields rt e.fields ⟨data, false, 0⟩).2.failed with
  | true => exact Or.inl (rejects_of_rd rt hc (plain_usable hc hp) hb)
  | false => exact Or.inr ⟨_, reads_of_rd rt hc (plain_usable hc hp) hb⟩

/-- C35: `read` returns `null` or an object holding a value of the exported type, with enum fields between the smallest and the
largest variant. -/
theorem C35_read_typed {ast : AST} {e : Artifact} (hc : Compiled ast e) (hu : Usable e) (data : List UInt8) :
    Rejects rt e data ∨ ∃ ps, Reads rt e data ps ∧ TypedFs (fun _ => True) BetweenVariants e.fields ps := by
  cases hb : (rdFields rt e.fields ⟨data, false, 0⟩).2.failed with
  | true => exact Or.inl (rejects_of_rd rt hc hu hb)
  | false =>
    exact Or.inr ⟨_, reads_of_rd rt hc hu hb, typedFs_mono (fun _ _ => trivial) (fun _ _ hp h => inBounds_between hp h) _
      (soundFs_enums _ (compiled_sound hc)) _ (typed_fields rt e.fields _ hb)⟩

/-- C35 for a given result. -/
theorem C35_result_typed {ast : AST} {e : Artifact} (hc : Compiled ast e) (hu : Usable e) {data : List UInt8} {ps}
    (hps : Shaped e.fields ps) (h : Reads rt e data ps) : TypedFs (fun _ => True) BetweenVariants e.fields ps := by
  rcases C35_read_typed rt hc hu data with hr | ⟨qs, h1, h2⟩
  · exact (not_reads_rejects rt h hr).elim
  · rw [reads_unique rt hps (shaped_of hc h2) h h1]
    exact h2

/-! ## C36 -/

/-- C36 as described. -/
def C36_claim : Prop := ∀ (rt : Runtime) (ast : AST) (e : Artifact), Compiled ast e → PlainSchema ast →
  ∀ data ps, Shaped e.fields ps → Reads rt e data ps → TypedFs (fun _ => True) IsVariant e.fields ps

theorem between_two {e : REnum} (hs : SoundEnum e) (h2 : e.variants.length ≤ 2) {n : Num} (h : inBounds e n = true) :
    IsVariant e n := by
  obtain ⟨k, h1, -, h3, -, -, ⟨v, hv, hv0⟩, ⟨w, hw, hw0⟩⟩ := sound_values hs
  have hb := sound_bounds hs h3
  cases n with
  | f32 b => simp [inBounds] at h
  | int i =>
    unfold inBounds at h
    simp only [hb, Option.getD_some, Bool.and_eq_true, decide_eq_true_eq] at h
    rw [jsShl1_small (show k - 1 < 31 by omega)] at h
    have hk : k = 1 ∨ k = 2 := by omega
    rcases hk with rfl | rfl
    · refine ⟨v, List.mem_of_head? hv, ?_⟩
      have : i = 1 := by
        have := h.2
        norm_num at this
        omega
      rw [this, hv0]
      rfl
    · have h5 : i = 1 ∨ i = 2 := by
        have := h.2
        norm_num at this
        omega
      rcases h5 with rfl | rfl
      · exact ⟨v, List.mem_of_head? hv, by rw [hv0]; rfl⟩
      · exact ⟨w, List.mem_of_getLast? hw, by rw [hw0]; rfl⟩

/-- C36, what holds: for schemas in which every enum has at most two variants. What is missing: larger enums, for which
it is false (see C35 for what holds of them). -/
theorem C36_only_variants_partial {ast : AST} {e : Artifact} (hc : Compiled ast e) (hu : Usable e) (hs : EnumsAtMost 2 ast)
    {data : List UInt8} {ps} (hps : Shaped e.fields ps) (h : Reads rt e data ps) :
    TypedFs (fun _ => True) IsVariant e.fields ps := by
  obtain ⟨hb, rfl⟩ := (reads_iff rt hc hu hps).1 h
  exact typedFs_mono (fun _ _ => trivial) (fun _ _ hp h => between_two hp.1 hp.2 h) _ (compiled_small hc hs) _
    (typed_fields rt e.fields _ hb)

example : ∃ (e : Artifact) (data : List UInt8) (ps : List (PropOf JVal)), Compiled exampleAst e ∧ Usable e ∧
    EnumsAtMost 2 exampleAst ∧ Shaped e.fields ps ∧ Reads leUtf8 e data ps := by
  obtain ⟨e, h1, h2, h3⟩ := example_compiled
  have hu := plain_usable h1 example_plain
  obtain ⟨b, -, h4⟩ := C31_read_inverts_write_partial leUtf8 h1 hu example_small (example_typed e h3)
  refine ⟨e, b, exampleValue, h1, hu, ?_, shaped_of h1 (example_typed e h3), h4⟩
  intro n vs h
  unfold exampleAst at h
  simp only [List.mem_cons, Node.decl.injEq, Ty.enum.injEq, reduceCtorEq, and_false, or_false,
      List.not_mem_nil] at h
  rw [h.2]
  decide

def enumText : Str := "E: enum { A, B, C }\nP: struct { e: E }\nexport P".toList
def enumAst : AST :=
  [.decl "E".toList (.enum ["A".toList, "B".toList, "C".toList]),
   .decl "P".toList (.struct [("e".toList, ⟨"E".toList, false, false⟩)]), .export "P".toList]
def enumABC : REnum := ⟨.u8, [⟨"A".toList, 0⟩, ⟨"B".toList, 1⟩, ⟨"C".toList, 2⟩]⟩
def enumExport : Artifact :=
  ⟨⟨"P".toList, [⟨"e".toList, "E".toList, .enum enumABC, false, false⟩]⟩, exampleCode id enumText⟩

theorem enum_compiled : Compiled enumAst enumExport :=
  compiled_of (ord := id) (by decide +kernel) (fun _ => .refl _) rfl rfl

theorem enum_plain : PlainSchema enumAst := plain_of (by decide)

/-- C36 is false: 3 is no variant of `enum { A, B, C }` (1, 2, 4), but `read` accepts it, whatever the library. -/
theorem C36_false_always : Reads rt enumExport (rt.enc .uint8 (.int 3)) [⟨"e".toList, .num (.int 3)⟩] ∧
    ¬ IsVariant enumABC (.int 3) := by
  constructor
  · refine (reads_iff rt enum_compiled (plain_usable enum_compiled enum_plain) ?_).2 ?_
    · exact ⟨_, _, rfl, ⟨rfl, Or.inr ⟨_, rfl, trivial⟩⟩, rfl⟩
    · have ht : TypedFs (FaithfulStr rt) FaithE enumExport.fields [⟨"e".toList, .num (.int 3)⟩] :=
        ⟨_, _, rfl, ⟨rfl, Or.inr ⟨_, rfl, ⟨by decide, by decide⟩, by decide⟩⟩, rfl⟩
      obtain ⟨c', h⟩ := dec_fields rt enumExport.fields _ ht [] 0
      have he : encodeFields rt enumExport.fields [⟨"e".toList, .num (.int 3)⟩] ++ [] = rt.enc .uint8 (.int 3) := by
        show (rt.enc .uint8 (.int 3) ++ []) ++ [] = _
        rw [List.append_nil, List.append_nil]
      rw [he] at h
      rw [h]
      exact ⟨rfl, rfl⟩
  · rintro ⟨v, hv, h⟩
    simp only [enumABC, List.mem_cons, List.not_mem_nil, or_false] at hv
    rcases hv with rfl | rfl | rfl <;> revert h <;> decide

theorem C36_false : ¬ C36_claim := by
  intro h
  obtain ⟨h1, h2⟩ := C36_false_always leUtf8
  obtain ⟨p, qs, h3, h4, -⟩ := h leUtf8 enumAst enumExport enum_compiled enum_plain _ _
    ⟨_, _, rfl, ⟨rfl, Or.inr ⟨_, rfl, trivial⟩⟩, rfl⟩ h1
  cases h3
  rcases h4.2 with ⟨h5, -⟩ | ⟨n, h5, h6⟩
  · cases h5
  · cases h5
    exact h2 h6

/-! ## C37 -/

/-- C37 as described. -/
def C37_claim : Prop := ∀ (rt : Runtime) (ast : AST) (e : Artifact), Compiled ast e → PlainSchema ast →
  ∀ f tn en n, e.fields = [⟨f, tn, .enum en, false, false⟩] → IsVariant en n →
    ∃ bytes, Writes rt e [⟨f, .num n⟩] bytes ∧ Reads rt e bytes [⟨f, .num n⟩]

/-- C37, what holds: enums with at most 31 variants. What is missing: enums with 32 variants, for which it is false. -/
theorem C37_variants_transmitted_partial {ast : AST} {e : Artifact} (hc : Compiled ast e) (hu : Usable e)
    (hs : SmallEnums ast) {f tn : Str} {en : REnum} {n : Num} (he : e.fields = [⟨f, tn, .enum en, false, false⟩])
    (hn : IsVariant en n) : ∃ bytes, Writes rt e [⟨f, .num n⟩] bytes ∧ Reads rt e bytes [⟨f, .num n⟩] := by
  refine C31_read_inverts_write_partial rt hc hu hs ?_
  rw [he]
  exact ⟨_, _, rfl, ⟨rfl, Or.inr ⟨_, rfl, hn⟩⟩, rfl⟩

example : Compiled enumAst enumExport ∧ Usable enumExport ∧ SmallEnums enumAst ∧
    enumExport.fields = [⟨"e".toList, "E".toList, .enum enumABC, false, false⟩] ∧ IsVariant enumABC (.int 4) := by
  refine ⟨enum_compiled, plain_usable enum_compiled enum_plain, ?_, rfl, _,
    List.mem_cons_of_mem _ (List.mem_cons_of_mem _ List.mem_cons_self), rfl⟩
  intro n vs h
  unfold enumAst at h
  simp only [List.mem_cons, Node.decl.injEq, Ty.enum.injEq, reduceCtorEq, and_false, or_false,
      List.not_mem_nil] at h
  rw [h.2]
  decide

def bigText : Str := "E: enum { V0, V1, V2, V3, V4, V5, V6, V7, V8, V9, V10, V11, V12, V13, V14, V15, V16, V17, V18, V19, V20, V21, V22, V23, V24, V25, V26, V27, V28, V29, V30, V31 }\nP: struct { e: E }\nexport P".toList
def bigAst : AST :=
  [.decl "E".toList (.enum ["V0".toList, "V1".toList, "V2".toList, "V3".toList, "V4".toList, "V5".toList, "V6".toList, "V7".toList,
    "V8".toList, "V9".toList, "V10".toList, "V11".toList, "V12".toList, "V13".toList, "V14".toList, "V15".toList,
    "V16".toList, "V17".toList, "V18".toList, "V19".toList, "V20".toList, "V21".toList, "V22".toList,
    "V23".toList, "V24".toList, "V25".toList, "V26".toList, "V27".toList, "V28".toList, "V29".toList,
    "V30".toList, "V31".toList]),
   .decl "P".toList (.struct [("e".toList, ⟨"E".toList, false, false⟩)]), .export "P".toList]
def bigEnum : REnum :=
  ⟨.u32, [⟨"V0".toList, 0⟩, ⟨"V1".toList, 1⟩, ⟨"V2".toList, 2⟩, ⟨"V3".toList, 3⟩, ⟨"V4".toList, 4⟩, ⟨"V5".toList, 5⟩,
    ⟨"V6".toList, 6⟩, ⟨"V7".toList, 7⟩, ⟨"V8".toList, 8⟩, ⟨"V9".toList, 9⟩, ⟨"V10".toList, 10⟩, ⟨"V11".toList,
    11⟩, ⟨"V12".toList, 12⟩, ⟨"V13".toList, 13⟩, ⟨"V14".toList, 14⟩, ⟨"V15".toList, 15⟩, ⟨"V16".toList, 16⟩,
    ⟨"V17".toList, 17⟩, ⟨"V18".toList, 18⟩, ⟨"V19".toList, 19⟩, ⟨"V20".toList, 20⟩, ⟨"V21".toList, 21⟩,
    ⟨"V22".toList, 22⟩, ⟨"V23".toList, 23⟩, ⟨"V24".toList, 24⟩, ⟨"V25".toList, 25⟩, ⟨"V26".toList, 26⟩,
    ⟨"V27".toList, 27⟩, ⟨"V28".toList, 28⟩, ⟨"V29".toList, 29⟩, ⟨"V30".toList, 30⟩, ⟨"V31".toList, 31⟩]⟩
def bigExport : Artifact :=
  ⟨⟨"P".toList, [⟨"e".toList, "E".toList, .enum bigEnum, false, false⟩]⟩, exampleCode id bigText⟩

theorem big_compiled : Compiled bigAst bigExport :=
  compiled_of (ord := id) (by decide +kernel) (fun _ => .refl _) (by rfl) (by rfl)

theorem big_plain : PlainSchema bigAst := plain_of (by decide)

/-- C37 is false: with 32 variants, `read` rejects every packet, whatever the library. (The upper bound is printed as
`1 << 31` computed in Rust's `i32`, that is, -2147483648.) -/
theorem C37_false_always (data : List UInt8) : Rejects rt bigExport data := by
  refine rejects_of_rd rt big_compiled (plain_usable big_compiled big_plain) ?_
  have hb : enumBounds bigEnum.variants = some (1, -2147483648) := by decide +kernel
  have hn : ∀ n, inBounds bigEnum n = false := by
    intro n
    cases n with
    | f32 b => rfl
    | int i =>
      unfold inBounds
      rw [hb]
      simp only [Option.getD_some, Bool.and_eq_false_iff, decide_eq_false_iff_not]
      omega
  show (if inBounds bigEnum _ = true then _ else _ : Option JVal × RState).2.failed = true
  rw [if_neg (by rw [hn]; exact Bool.false_ne_true)]

theorem C37_false : ¬ C37_claim := by
  intro h
  obtain ⟨bytes, h1, h2⟩ := h leUtf8 bigAst bigExport big_compiled big_plain _ _ _ (.int 1) rfl ⟨_, List.mem_cons_self, rfl⟩
  exact not_reads_rejects leUtf8 h2 (C37_false_always leUtf8 bytes)

/-! ## C38 -/

/-- C38 as described: if the text has the form of a module, no block of its methods declares a variable twice or uses one
before its declaration, or declares one with the name of the parameter. -/
def C38_claim : Prop := ∀ (ast : AST) (e : Artifact), Compiled ast e → ∀ m, parseText e.code = some m →
  ∀ f ∈ m.methods, blockOk f.body = true ∧ f.param.name ∉ letNames f.body

/-- C38, what holds: schemas with plain names. What is missing: names such as `a` and `a_b` in the same struct, and structs with
repeated fields (which the checker sometimes accepts), for which it is false. -/
theorem C38_no_redeclaration_partial {ast : AST} {e : Artifact} (hc : Compiled ast e) (hp : PlainSchema ast) :
    ∃ m, parseText e.code = some m ∧ m.methods.map TsMethod.name = ["read".toList, "write".toList] ∧
      ∀ f ∈ m.methods, blockOk f.body = true ∧ f.param.name ∉ letNames f.body := by
  obtain ⟨m, hm⟩ := Option.ne_none_iff_exists'.1 (plain_usable hc hp).loads
  obtain ⟨ds, tds, fs, fs', R, -, rfl, -, hok⟩ := compiled_load hc hm
  unfold moduleOk at hok
  simp only [Bool.and_eq_true, Bool.not_eq_true', List.contains_eq_mem, decide_eq_false_iff_not] at hok
  refine ⟨_, (load_eq_some.1 hm).1, rfl, ?_⟩
  intro f hf
  rcases List.mem_cons.1 hf with rfl | hf
  · exact ⟨hok.1.1.1.2, hok.1.1.2⟩
  · rcases List.mem_singleton.1 hf with rfl
    exact ⟨hok.1.2, hok.2⟩

example : ∃ e, Compiled exampleAst e ∧ PlainSchema exampleAst := by
  obtain ⟨e, h1, -⟩ := example_compiled
  exact ⟨e, h1, example_plain⟩

def clashText : Str := "S: struct { b?: uint8 }\nP: struct { a: S, a_b?: uint8 }\nexport P".toList
def clashAst : AST :=
  [.decl "S".toList (.struct [("b".toList, ⟨"uint8".toList, false, true⟩)]),
   .decl "P".toList (.struct [("a".toList, ⟨"S".toList, false, false⟩), ("a_b".toList, ⟨"uint8".toList, false, true⟩)]),
   .export "P".toList]
def clashExport : Artifact :=
  ⟨⟨"P".toList, [⟨"a".toList, "S".toList, .struct [⟨"b".toList, "uint8".toList, .builtin .uint8, false, true⟩], false, false⟩,
    ⟨"a_b".toList, "uint8".toList, .builtin .uint8, false, true⟩]⟩, exampleCode id clashText⟩

theorem clash_compiled : Compiled clashAst clashExport :=
  compiled_of (ord := id) (by decide +kernel) (fun _ => .refl _) rfl rfl

/-- C38 is false: `write` declares `this_a_b` twice. -/
theorem C38_false : ¬ C38_claim := by
  intro h
  obtain ⟨ds, tds, fs, fs', R⟩ := compiled_run clash_compiled
  have hb : BindableTypes clashAst := by
    intro n t _ hd
    simp only [clashAst, List.mem_cons, Node.decl.injEq, reduceCtorEq, or_false, List.not_mem_nil] at hd
    rcases hd with ⟨rfl, -⟩ | ⟨rfl, -⟩ <;> decide
  have := (h _ _ clash_compiled _ (R.parses hb) _ (List.mem_cons_of_mem _ List.mem_cons_self)).1
  revert this
  show blockOk (writeBody clashExport.toExport) = true → False
  decide +kernel

/-! ## C39 -/

/-- C39 as described. -/
def C39_claim : Prop := ∀ (rt : Runtime) (ast : AST) (e : Artifact), Compiled ast e → ClassNameOk e.name →
  ∀ f, e.fields = [⟨f, "uint8".toList, .builtin .uint8, false, false⟩] →
    ∀ n, Scalar.uint8.Ok n → ∃ bytes, Reads rt e bytes [⟨f, .num n⟩]

/-- C39, what holds: names that are not those of special properties of classes, nor JavaScript keywords. What is missing: the
other names, for which it is false. -/
theorem C39_field_names_partial {ast : AST} {e : Artifact} (hc : Compiled ast e)
    (hn : ClassNameOk e.name ∧ e.name ∉ reservedWords ∧ e.name ∉ reservedTypeNames) {f : Str}
    (he : e.fields = [⟨f, "uint8".toList, .builtin .uint8, false, false⟩])
    (hf : f ∉ readOnlyNames ∧ f ∉ poisonedNames ∧ f ∉ reservedWords ∧ f ≠ "__proto__".toList ∧ f ≠ "write".toList) {n : Num}
    (hok : Scalar.uint8.Ok n) : ∃ bytes, Writes rt e [⟨f, .num n⟩] bytes ∧ Reads rt e bytes [⟨f, .num n⟩] := by
  have hu : Usable e := by
    obtain ⟨ds, tds, fs, fs', R⟩ := compiled_run hc
    obtain ⟨a, b, c, d⟩ := plain_export (e := e.toExport) R.ident.1 R.ident.2 (by
        rw [he]
        refine ⟨List.nodup_singleton _, ?_, fun h => hf.2.2.2.1 (List.mem_singleton.1 h).symm⟩
        intro m hm n hn hp
        rw [List.mem_singleton.1 hm, List.mem_singleton.1 hn] at hp
        have := hp.length_le
        simp at this) (by rw [he]; exact ⟨trivial, trivial⟩) hn (by
        rw [he]
        intro n hn
        rw [List.mem_singleton.1 hn]
        exact ⟨hf.2.2.1, hf.1, hf.2.1⟩)
    have hshape := R.shapes
    rw [he] at hshape
    have hdecl : ∀ t, .decl e.name t ∈ ast → t = .struct fs := by
      intro t ht
      have := List.inj_on_of_nodup_map R.wf.unique (mem_decls.2 ht) (mem_decls.2 R.decl) rfl
      exact (Prod.mk.inj this).2
    have hfs : ∃ a o, fs = [(f, ⟨"uint8".toList, a, o⟩)] := by
      cases fs' with
      | nil => cases hshape
      | cons g gs =>
        obtain ⟨g1, g2, g3, g4⟩ := g
        simp only [List.map_cons, List.map_nil, List.cons.injEq, Prod.mk.injEq, List.map_eq_nil_iff] at hshape
        obtain ⟨⟨rfl, rfl, -, -⟩, rfl⟩ := hshape
        exact ⟨g3, g4, List.perm_singleton.1 R.perm.symm⟩
    obtain ⟨a', o, rfl⟩ := hfs
    have honly : ∀ n, Used ast n → ∀ t, .decl n t ∈ ast → n = e.name ∧ t = .struct [(f, ⟨"uint8".toList, a', o⟩)] := by
      rintro n ⟨x, hx, hr⟩ t ht
      rw [R.exp] at hx
      cases hx
      rcases Relation.ReflTransGen.cases_head hr with rfl | ⟨m, ⟨gs, hgs, g, hg, rfl⟩, hr'⟩
      · exact ⟨rfl, hdecl t ht⟩
      · exfalso
        have h1 := hdecl _ (mem_decls.1 hgs)
        simp only [Ty.struct.injEq] at h1
        subst h1
        rw [List.mem_singleton.1 hg] at hr'
        have h2 : ∀ t, .decl "uint8".toList t ∉ ast := fun t ht =>
          R.noBuiltin "uint8".toList ⟨t, mem_decls.2 ht⟩ (by decide)
        rcases Relation.ReflTransGen.cases_head hr' with rfl | ⟨m, ⟨gs, hgs, -⟩, -⟩
        · exact h2 _ ht
        · exact h2 _ (mem_decls.1 hgs)
    refine ⟨compiled_loads hc a ⟨fun n gs hu hd => ?_, fun n t hu hd => ?_, fun n gs hx hd => ?_⟩, b, c, d⟩
    · have := (honly n hu _ hd).2
      simp only [Ty.struct.injEq] at this
      rw [this]
      exact List.nodup_singleton _
    · rw [(honly n hu _ hd).1]
      exact hn.2
    · have hne : n = e.name := by
        have : n ∈ exports ast := List.mem_filterMap.2 ⟨_, hx, rfl⟩
        rw [R.exp] at this
        exact List.mem_singleton.1 this
      have := hdecl _ (hne ▸ hd)
      simp only [Ty.struct.injEq] at this
      rw [this]
      exact fun h => hf.2.2.2.2 (List.mem_singleton.1 h).symm
  have hty : TypedFs (FaithfulStr rt) FaithE e.fields [⟨f, .num n⟩] := by
    rw [he]
    exact ⟨_, _, rfl, ⟨rfl, Or.inr ⟨_, rfl, hok⟩⟩, rfl⟩
  have hty' : HasFields e.fields [⟨f, .num n⟩] := by
    rw [he]
    exact ⟨_, _, rfl, ⟨rfl, Or.inr ⟨_, rfl, hok⟩⟩, rfl⟩
  refine ⟨_, C30_write_format rt hc hu.loads hty', ?_⟩
  obtain ⟨c', h⟩ := dec_fields rt e.fields _ hty [] 0
  have := reads_of_rd rt hc hu (data := encodeFields rt e.fields [⟨f, .num n⟩] ++ []) (by rw [h])
  rwa [h, List.append_nil] at this

example : ∃ (ast : AST) (e : Artifact) (f : Str), Compiled ast e ∧
    e.fields = [⟨f, "uint8".toList, .builtin .uint8, false, false⟩] ∧
    (ClassNameOk e.name ∧ e.name ∉ reservedWords ∧ e.name ∉ reservedTypeNames) ∧
    (f ∉ readOnlyNames ∧ f ∉ poisonedNames ∧ f ∉ reservedWords ∧ f ≠ "__proto__".toList ∧ f ≠ "write".toList) :=
  ⟨[.decl "P".toList (.struct [("constructor".toList, ⟨"uint8".toList, false, false⟩)]), .export "P".toList],
   ⟨⟨"P".toList, [⟨"constructor".toList, "uint8".toList, .builtin .uint8, false, false⟩]⟩,
     exampleCode id "P: struct { constructor: uint8 }\nexport P".toList⟩, _,
   compiled_of (ord := id) (by decide +kernel) (fun _ => .refl _) rfl rfl, rfl,
   ⟨⟨by decide, by decide⟩, by decide, by decide⟩, by decide⟩

def nameText : Str := "P: struct { name: uint8 }\nexport P".toList
def nameAst : AST := [.decl "P".toList (.struct [("name".toList, ⟨"uint8".toList, false, false⟩)]), .export "P".toList]
def nameExport : Artifact :=
  ⟨⟨"P".toList, [⟨"name".toList, "uint8".toList, .builtin .uint8, false, false⟩]⟩, exampleCode id nameText⟩

theorem name_compiled : Compiled nameAst nameExport :=
  compiled_of (ord := id) (by decide +kernel) (fun _ => .refl _) rfl rfl

theorem name_loadable : Loadable nameAst := by
  refine ⟨fun n fs _ hd => ?_, fun n t _ hd => ?_, fun n fs _ hd => ?_⟩ <;>
    simp only [nameAst, List.mem_cons, Node.decl.injEq, Ty.struct.injEq, reduceCtorEq, or_false, List.not_mem_nil] at hd
  · rw [hd.2]; decide
  · rw [hd.1]; decide
  · rw [hd.2]; decide

/-- `output.name = reader.read_uint8();` -/
def nameAssign : Stmt := .assign (.prop (.var "output".toList) "name".toList) (readCall "uint8".toList)
/-- Assigning `output.name` when the prototype of `output` is the class. -/
theorem name_readonly (fuel) (h' : List Obj) (i : Nat) (rd wr ps) (hi : h'[i]? = some (.obj .cls [])) :
    exec rt "P".toList fuel nameAssign
      ⟨h', [[("output".toList, some (.ref i)), ("reader".toList, some .reader)], ps], rd, wr⟩ = .error (.throw .typeError) := by
  show lift ((State.deref ⟨h', [[("output".toList, some (.ref i)), ("reader".toList, some .reader)], ps], (rt.readNum .uint8 rd).2, wr⟩ (.ref i)).bind fun o => (o.set "name".toList _).bind fun o' => .ok _) = _
  have : State.deref ⟨h', [[("output".toList, some (.ref i)), ("reader".toList, some .reader)], ps], (rt.readNum .uint8 rd).2, wr⟩ (.ref i) = .ok (.obj .cls []) := by
    unfold State.deref
    simp only [hi]
  rw [this]
  rfl

/-- C39 is false: with a field called `name`, `read` throws on every packet, whatever the library (assigning to an object whose
prototype is a class cannot set `name`, which is read-only there). -/
theorem C39_false_always (data : List UInt8) (heap : List Obj) (fuel : Nat) :
    readText rt fuel nameExport.code heap data = .throws .typeError := by
  have hm : moduleOk nameExport.toExport = true := by decide +kernel
  rw [((compiled_text name_compiled (compiled_loads name_compiled hm name_loadable)).2 rt fuel heap).1]
  unfold runRead
  rw [if_pos hm]
  show (match ((exec rt "P".toList fuel nameAssign ⟨heap ++ [.obj .cls []], [[("output".toList, some (.ref heap.length)), ("reader".toList, some .reader)], [("data".toList, some (.buf data))]], ⟨data, false, 0⟩, []⟩).bind fun st => execs rt "P".toList fuel _ st) with
  | .ok st => Outcome.returns .undef st
  | .error (.ret v st) => .returns v st
  | .error (.throw t) => .throws t
  | .error .timeout => .timeout) = _
  rw [name_readonly _ _ _ _ _ _ _ (by simp)]
  rfl

theorem C39_false : ¬ C39_claim := by
  intro h
  obtain ⟨bytes, h1⟩ := h leUtf8 nameAst nameExport name_compiled ⟨by decide, by decide⟩ _ rfl (.int 0) ⟨by decide, by decide⟩
  obtain ⟨v, st, ext, h2, -⟩ := h1 [] (2 ^ 32) (Nat.le_refl _)
  rw [C39_false_always] at h2
  cases h2

/-! ## C40 -/

/-- C40 as described: the property `write` of what `read` returns is a method. -/
def C40_claim : Prop := ∀ (rt : Runtime) (ast : AST) (e : Artifact), Compiled ast e → PlainSchema ast →
  "write".toList ∉ e.fields.map FieldOf.name → ∀ data heap fuel v st, 2 ^ 32 ≤ fuel →
    readText rt fuel e.code heap data = .returns v st → v ≠ .null → st.getProp v "write".toList = .ok .other

/-- C40 is false for every schema, library and accepted packet: the property is `undefined`, so that calling it throws. -/
theorem C40_false_always {ast : AST} {e : Artifact} (hc : Compiled ast e) (hu : Usable e)
    (hw : "write".toList ∉ e.fields.map FieldOf.name) {data heap fuel v st} (hfuel : 2 ^ 32 ≤ fuel)
    (h : readText rt fuel e.code heap data = .returns v st) (hv : v ≠ .null) :
    st.getProp v "write".toList = .ok .undef := by
  obtain ⟨st', ext, h1, h2, h3, ⟨props, h4, h5⟩, -⟩ :=
    read_eq rt hc hu hfuel heap data
  rw [h1] at h
  injection h with ha hb
  subst hb
  rw [← ha] at hv ⊢
  split at hv
  · exact absurd rfl hv
  · rename_i hnf
    rw [if_neg hnf]
    have h6 := h5 _ hw
    show (State.deref st' (.ref heap.length)).bind _ = _
    have : State.deref st' (.ref heap.length) = .ok (.obj .cls props) := by
      unfold State.deref
      simp only [h4]
    rw [this]
    show (match props.get "write".toList with | some v => _ | none => _ : Except Throw Val) = _
    rw [h6]
    rfl

theorem C40_false : ¬ C40_claim := by
  intro h
  obtain ⟨e, h1, h2, h3⟩ := example_compiled
  have hu := plain_usable h1 example_plain
  obtain ⟨b, -, h4⟩ := C31_read_inverts_write_partial leUtf8 h1 hu example_small (example_typed e h3)
  obtain ⟨v, st, ext, h5, -, h6⟩ := h4 [] (2 ^ 32) (Nat.le_refl _)
  have hv : v ≠ .null := by
    rintro rfl
    obtain ⟨i, pr, props, h7, -⟩ := h6
    cases h7
  have hw : "write".toList ∉ e.fields.map FieldOf.name := by rw [h3]; decide
  have h7 := h leUtf8 exampleAst e h1 example_plain hw b [] _ v st (Nat.le_refl _) h5 hv
  rw [C40_false_always leUtf8 h1 hu hw (Nat.le_refl _) h5 hv] at h7
  cases h7

/-- C40, what holds: the class's `write` method can be applied to the object that `read` returned
(`C.prototype.write.call(packet)`) and yields an encoding of it. What is missing: the object does not have the method. -/
theorem C40_write_again_partial {ast : AST} {e : Artifact} (hc : Compiled ast e) (hu : Usable e) {data : List UInt8} {ps}
    (hps : Shaped e.fields ps) (h : Reads rt e data ps) {heap fuel} (hfuel : 2 ^ 32 ≤ fuel) :
    ∃ v st st', readText rt fuel e.code heap data = .returns v st ∧
      writeText rt fuel e.code st.heap v .undef = .returns (.buf (encodeFields rt e.fields ps)) st' := by
  obtain ⟨v, st, ext, h1, -, h3⟩ := h heap fuel hfuel
  obtain ⟨hm, hrun⟩ := compiled_text hc hu.loads
  obtain ⟨st', h4, -⟩ := runWrite_ok (rt := rt) hm (compiled_sound hc) hfuel st.heap v .undef (Or.inl rfl) hps (rep_of_from h3)
  rw [← (hrun rt fuel st.heap).2] at h4
  exact ⟨v, st, st', h1, h4⟩

/-- C40, continued: if the packet came from `write`, the same bytes are written again. -/
theorem C40_same_bytes_partial {ast : AST} {e : Artifact} (hc : Compiled ast e) (hu : Usable e)
    (hs : SmallEnums ast) {ps : List (PropOf JVal)} (hty : TypedFs (FaithfulStr rt) IsVariant e.fields ps)
    {bytes : List UInt8} (hw : Writes rt e ps bytes) {heap fuel} (hfuel : 2 ^ 32 ≤ fuel) :
    ∃ v st st', readText rt fuel e.code heap bytes = .returns v st ∧ writeText rt fuel e.code st.heap v .undef = .returns (.buf bytes) st' := by
  obtain ⟨b, h1, h2⟩ := C31_read_inverts_write_partial rt hc hu hs hty
  obtain rfl := writes_unique rt hc hu hty hw h1
  obtain rfl := writes_unique rt hc hu hty hw (C30_write_format rt hc hu.loads (faithful_hasFields rt (trueEnums hc) hty))
  exact C40_write_again_partial rt hc hu (shaped_of hc hty) h2 hfuel

/-! ## C41 -/

/-- C41, sizes: the number of bytes written is the sum of the sizes of the parts. -/
theorem C41_size {ast : AST} {e : Artifact} (hc : Compiled ast e) (hl : load e.code ≠ none) {ps : List (PropOf JVal)}
    (hty : HasFields e.fields ps) : ∃ bytes, Writes rt e ps bytes ∧ bytes.length = sizeFs rt e.fields ps :=
  ⟨_, C30_write_format rt hc hl hty, size_fields rt e.fields ps hty⟩

/-- C41, injectivity: different values are written differently, for libraries as described by `Delimiting` (which UTF-8
meets). -/
theorem C41_injective {ast : AST} {e : Artifact} (hc : Compiled ast e) (hu : Usable e) (hd : Delimiting rt)
    {ps qs : List (PropOf JVal)} (hps : HasFields e.fields ps) (hqs : HasFields e.fields qs) {bytes : List UInt8}
    (h1 : Writes rt e ps bytes) (h2 : Writes rt e qs bytes) : ps = qs := by
  have e1 := writes_unique rt hc hu hps h1 (C30_write_format rt hc hu.loads hps)
  have e2 := writes_unique rt hc hu hqs h2 (C30_write_format rt hc hu.loads hqs)
  refine (inj_fields hd e.fields (soundFs_enums _ (compiled_sound hc)) ps qs [] [] hps hqs ?_).1
  rw [← e1, ← e2]

/-- C41, injectivity for every library, for values as in C31. -/
theorem C41_injective_faithful {ast : AST} {e : Artifact} (hc : Compiled ast e) (hu : Usable e) (hs : SmallEnums ast)
    {ps qs : List (PropOf JVal)} (hps : TypedFs (FaithfulStr rt) IsVariant e.fields ps)
    (hqs : TypedFs (FaithfulStr rt) IsVariant e.fields qs) {bytes : List UInt8}
    (h1 : Writes rt e ps bytes) (h2 : Writes rt e qs bytes) : ps = qs := by
  obtain ⟨b, h3, h4⟩ := C31_read_inverts_write_partial rt hc hu hs hps
  obtain ⟨c, h5, h6⟩ := C31_read_inverts_write_partial rt hc hu hs hqs
  obtain rfl := writes_unique rt hc hu hps h1 h3
  obtain rfl := writes_unique rt hc hu hqs h2 h5
  exact reads_unique rt (shaped_of hc hps) (shaped_of hc hqs) h4 h6

example : Delimiting leUtf8 ∧ ∃ e, Compiled exampleAst e ∧ Usable e ∧ HasFields e.fields exampleValue ∧
    sizeFs leUtf8 e.fields exampleValue = 13 := by
  obtain ⟨e, h1, h2, h3⟩ := example_compiled
  refine ⟨leUtf8_delimiting, e, h1, plain_usable h1 example_plain,
    faithful_hasFields leUtf8 (trueEnums h1) (example_typed e h3), ?_⟩
  rw [h3]
  decide +kernel

/-! ## C42 -/

/-- C42 as described: the length prefix is the number of bytes that follow. -/
def C42_claim : Prop := ∀ (rt : Runtime) (s : Str), ShortStr s →
  Writes rt stringExport [⟨"s".toList, .str s⟩] (rt.enc .uint32 (.int (rt.encS s).length) ++ rt.encS s)

theorem string_writes {s : Str} (h : ShortStr s) :
    Writes rt stringExport [⟨"s".toList, .str s⟩] (rt.enc .uint32 (.int (utf16Length s)) ++ rt.encS s) := by
  have := C30_write_format_plain rt string_compiled string_plain (ps := [⟨"s".toList, .str s⟩])
    ⟨_, _, rfl, ⟨rfl, Or.inr ⟨_, rfl, h⟩⟩, rfl⟩
  have he : encodeFields rt stringExport.fields [⟨"s".toList, .str s⟩] =
      rt.enc .uint32 (.int (utf16Length s)) ++ rt.encS s := by
    show ([] ++ (rt.enc .uint32 (.int (utf16Length s)) ++ rt.encS s)) ++ [] = _
    simp
  rwa [he] at this

/-- C42, what holds: with UTF-8, the length prefix is the number of bytes exactly for ASCII strings. What is missing: all other
strings, for which it is false. -/
theorem C42_length_prefix_partial {s : Str} (h : utf16Length s < 2 ^ 30) :
    Writes leUtf8 stringExport [⟨"s".toList, .str s⟩] (leUtf8.enc .uint32 (.int (leUtf8.encS s).length) ++ leUtf8.encS s) ↔
      ∀ c ∈ s, c.toNat < 128 := by
  have hs : ShortStr s := Nat.lt_trans h (by decide)
  have hw := string_writes leUtf8 hs
  have ht : HasFields stringExport.fields [⟨"s".toList, .str s⟩] := ⟨_, _, rfl, ⟨rfl, Or.inr ⟨_, rfl, hs⟩⟩, rfl⟩
  have hf := faithful_utf8 s
  constructor
  · intro h1
    have h2 := writes_unique leUtf8 string_compiled (plain_usable string_compiled string_plain) ht h1 hw
    have h3 := (enc_append_inj leUtf8 h2).1
    refine (hf.1 ⟨hs, ?_⟩).2
    have h4 : (leUtf8.encS s).length < 2 ^ 32 := by
      have : ∀ s : Str, (utf8Enc s).length ≤ 4 * utf16Length s := by
        intro s
        induction s with
        | nil => exact Nat.le_refl _
        | cons c s ih =>
          have h5 := Char.utf8Size_le_four c
          show (String.utf8EncodeChar c ++ utf8Enc s).length ≤ 4 * ((if c.toNat < 0x10000 then 1 else 2) + utf16Length s)
          rw [List.length_append, String.length_utf8EncodeChar]
          split <;> omega
      have : (leUtf8.encS s).length ≤ 4 * utf16Length s := this s
      omega
    exact Int.ofNat.inj (Num.int.inj (enc_inj leUtf8 (ok_uint32 h4) (ok_uint32 hs) h3))
  · intro h1
    have h2 := (hf.2 ⟨hs, h1⟩).2
    rw [h2]
    exact hw

theorem C42_false : ¬ C42_claim := by
  intro h
  have h1 := (C42_length_prefix_partial (s := "é".toList) (by decide)).1 (h leUtf8 _ (by decide)) 'é' (by decide)
  revert h1
  decide

/-! ## C43 -/

/-- C43 as described: each read in the generated code is executed at most once per byte received, plus once. -/
def C43_claim : Prop := ∀ (rt : Runtime) (ast : AST) (e : Artifact), Compiled ast e → PlainSchema ast →
  ∀ data heap fuel v st, 2 ^ 32 ≤ fuel → readText rt fuel e.code heap data = .returns v st →
    st.rd.calls ≤ slotsFs e.fields * (data.length + 1)

/-- C43, what holds: if the packet is accepted, there are at most as many reads as bytes. What is missing: rejected packets. -/
theorem C43_work_bounded_partial {ast : AST} {e : Artifact} (hc : Compiled ast e) (hu : Usable e) {data heap fuel v st}
    (hfuel : 2 ^ 32 ≤ fuel) (h : readText rt fuel e.code heap data = .returns v st) (hv : v ≠ .null) :
    st.rd.calls ≤ data.length := by
  obtain ⟨st', ext, h1, h2, -⟩ :=
    read_eq rt hc hu hfuel heap data
  rw [h1] at h
  injection h with ha hb
  subst hb
  rw [← ha] at hv
  split at hv
  · exact absurd rfl hv
  · rename_i hnf
    rw [Bool.not_eq_true] at hnf
    obtain ⟨-, used, k, h3, h4, h5, -⟩ := local_fields rt e.fields _ hnf
    have h3 : data = used ++ (rdFields rt e.fields ⟨data, false, 0⟩).2.rest := h3
    rw [h2, h4, h3, List.length_append]
    show 0 + k ≤ _
    omega

example : ∃ (e : Artifact) (data : List UInt8) (v : Val) (st : State), Compiled exampleAst e ∧ Usable e ∧
    readText leUtf8 (2 ^ 32) e.code [] data = .returns v st ∧ v ≠ .null := by
  obtain ⟨e, h1, h2, h3⟩ := example_compiled
  have hu := plain_usable h1 example_plain
  obtain ⟨b, -, h4⟩ := C31_read_inverts_write_partial leUtf8 h1 hu example_small (example_typed e h3)
  obtain ⟨v, st, ext, h5, -, h6⟩ := h4 [] (2 ^ 32) (Nat.le_refl _)
  refine ⟨e, b, v, st, h1, hu, h5, ?_⟩
  rintro rfl
  obtain ⟨i, pr, props, h7, -⟩ := h6
  cases h7

def bytesText : Str := "P: struct { xs: uint8[] }\nexport P".toList
def bytesAst : AST := [.decl "P".toList (.struct [("xs".toList, ⟨"uint8".toList, true, false⟩)]), .export "P".toList]
def bytesExport : Artifact :=
  ⟨⟨"P".toList, [⟨"xs".toList, "uint8".toList, .builtin .uint8, true, false⟩]⟩, exampleCode id bytesText⟩

theorem bytes_compiled : Compiled bytesAst bytesExport :=
  compiled_of (ord := id) (by decide +kernel) (fun _ => .refl _) rfl rfl

theorem bytes_plain : PlainSchema bytesAst := plain_of (by decide)

theorem rdMany_calls (n : Nat) (r : RState) : (rdMany (rdType rt (.builtin .uint8)) n r).2.calls = r.calls + n := by
  induction n generalizing r with
  | zero => rfl
  | succ n ih =>
    rw [rdMany, ih]
    have : (rdType rt (.builtin .uint8) r).2.calls = r.calls + 1 := by
      show (rt.readNum .uint8 r).2.calls = r.calls + 1
      unfold Runtime.readNum
      split <;> rfl
    omega

/-- C43 is false, whatever the library: four bytes make `read` perform 2^32 reads. -/
theorem C43_false_always {heap fuel v st} (hfuel : 2 ^ 32 ≤ fuel)
    (h : readText rt fuel bytesExport.code heap (rt.enc .uint32 (.int (2 ^ 32 - 1))) = .returns v st) :
    st.rd.calls = 2 ^ 32 := by
  rw [read_state rt bytes_compiled (plain_usable bytes_compiled bytes_plain) hfuel h]
  have hr : rt.readNum .uint32 ⟨rt.enc .uint32 (.int (2 ^ 32 - 1)), false, 0⟩ = (.int (2 ^ 32 - 1), ⟨[], false, 1⟩) := by
    have := readNum_enc rt (s := .uint32) (n := .int (2 ^ 32 - 1)) ⟨by decide, by decide⟩ [] 0
    rwa [List.append_nil] at this
  have hfs : bytesExport.fields = [⟨"xs".toList, "uint8".toList, .builtin .uint8, true, false⟩] := rfl
  rw [hfs]
  show (rdMany (rdType rt (.builtin .uint8)) (rt.readNum .uint32 ⟨rt.enc .uint32 (.int (2 ^ 32 - 1)), false, 0⟩).1.toNat
    (rt.readNum .uint32 ⟨rt.enc .uint32 (.int (2 ^ 32 - 1)), false, 0⟩).2).2.calls = 2 ^ 32
  rw [hr, rdMany_calls]
  decide

theorem C43_false : ¬ C43_claim := by
  intro h
  obtain ⟨v, st, ext, h1, -⟩ := C34_read_total leUtf8 bytes_compiled (plain_usable bytes_compiled bytes_plain)
    (leUtf8.enc .uint32 (.int (2 ^ 32 - 1))) [] (Nat.le_refl _)
  have h2 := h leUtf8 _ _ bytes_compiled bytes_plain _ _ _ _ _ (Nat.le_refl _) h1
  rw [C43_false_always leUtf8 (Nat.le_refl _) h1, leUtf8.enc_len] at h2
  revert h2
  decide

def emptyText : Str := "E: struct { }\nP: struct { xs: E[] }\nexport P".toList
def emptyAst : AST :=
  [.decl "E".toList (.struct []), .decl "P".toList (.struct [("xs".toList, ⟨"E".toList, true, false⟩)]), .export "P".toList]
def emptyExport : Artifact :=
  ⟨⟨"P".toList, [⟨"xs".toList, "E".toList, .struct [], true, false⟩]⟩, exampleCode id emptyText⟩

theorem empty_compiled : Compiled emptyAst emptyExport :=
  compiled_of (ord := id) (by decide +kernel) (fun _ => .refl _) rfl rfl

theorem empty_plain : PlainSchema emptyAst := plain_of (by decide)

/-- Nor is the size of the result bounded by the size of the packet: four bytes are enough for up to 2^32-1 objects. -/
theorem C43_false_memory {n : Nat} (hn : n < 2 ^ 32) :
    Reads rt emptyExport (rt.enc .uint32 (.int n)) [⟨"xs".toList, .arr (List.replicate n (.obj []))⟩] := by
  have hu := plain_usable empty_compiled empty_plain
  have ht : TypedFs (FaithfulStr rt) FaithE emptyExport.fields [⟨"xs".toList, .arr (List.replicate n (.obj []))⟩] := by
    refine ⟨_, _, rfl, ⟨rfl, Or.inr ⟨_, rfl, by rw [List.length_replicate]; exact hn, ?_⟩⟩, rfl⟩
    intro j hj
    rw [List.eq_of_mem_replicate hj]
    exact ⟨[], rfl, rfl⟩
  obtain ⟨c', h⟩ := dec_fields rt emptyExport.fields _ ht [] 0
  have he : encodeFields rt emptyExport.fields [⟨"xs".toList, .arr (List.replicate n (.obj []))⟩] ++ [] =
      rt.enc .uint32 (.int n) := by
    show ([] ++ (rt.enc .uint32 (.int (List.replicate n (JVal.obj [])).length) ++
      ((List.replicate n (JVal.obj [])).map fun x => encode rt (.struct []) x).flatten)) ++ [] ++ [] = _
    have : ((List.replicate n (JVal.obj [])).map fun x => encode rt (.struct []) x).flatten = [] := by
      rw [List.flatten_eq_nil_iff]
      intro l hl
      obtain ⟨x, hx, rfl⟩ := List.mem_map.1 hl
      rw [List.eq_of_mem_replicate hx]
      rfl
    rw [this, List.length_replicate]
    simp
  rw [he] at h
  refine (reads_iff rt empty_compiled hu (shaped_of empty_compiled ht)).2 ?_
  rw [h]
  exact ⟨rfl, rfl⟩

/-! ## C44 -/

/-- C44 as described: TypeScript accepts the generated text, and its class hides nothing that the code uses. -/
def C44_claim : Prop := ∀ (ast : AST) (e : Artifact), Compiled ast e → load e.code ≠ none ∧ ClassNameOk e.name

/-- C44, what holds: schemas with plain names. What is missing: other names, for which it is false. -/
theorem C44_names_ok_partial {ast : AST} {e : Artifact} (hc : Compiled ast e) (hp : PlainSchema ast) :
    load e.code ≠ none ∧ ClassNameOk e.name :=
  ⟨(plain_usable hc hp).loads, (plain_usable hc hp).className⟩

example : Compiled stringAst stringExport ∧ PlainSchema stringAst := ⟨string_compiled, string_plain⟩

def readerText : Str := "Reader: struct { x: uint8 }\nexport Reader".toList
def readerAst : AST := [.decl "Reader".toList (.struct [("x".toList, ⟨"uint8".toList, false, false⟩)]), .export "Reader".toList]
def readerExport : Artifact :=
  ⟨⟨"Reader".toList, [⟨"x".toList, "uint8".toList, .builtin .uint8, false, false⟩]⟩, exampleCode id readerText⟩

theorem reader_compiled : Compiled readerAst readerExport :=
  compiled_of (ord := id) (by decide +kernel) (fun _ => .refl _) rfl rfl

theorem not_loads {ast : AST} {e : Artifact} (hc : Compiled ast e) (h : moduleOk e.toExport = false) : load e.code = none := by
  by_contra hl
  rw [(compiled_text hc hl).1] at h
  cases h

/-- A class called `Reader` clashes with the import. -/
theorem reader_rejected : load readerExport.code = none := not_loads reader_compiled (by decide +kernel)

/-- C44 is false. -/
theorem C44_false : ¬ C44_claim := fun h => (h _ _ reader_compiled).1 reader_rejected

/-- Another case: a field whose name is a JavaScript keyword, which cannot be a constructor parameter. -/
theorem C44_false_keyword : ∃ ast e, Compiled ast e ∧ e.name = "P".toList ∧ load e.code = none :=
  have hc : Compiled [.decl "P".toList (.struct [("class".toList, ⟨"uint8".toList, false, false⟩)]), .export "P".toList]
      ⟨⟨"P".toList, [⟨"class".toList, "uint8".toList, .builtin .uint8, false, false⟩]⟩,
        exampleCode id "P: struct { class: uint8 }\nexport P".toList⟩ :=
    compiled_of (ord := id) (by decide +kernel) (fun _ => .refl _) rfl rfl
  ⟨_, _, hc, rfl, not_loads hc (by decide +kernel)⟩

end Packetc.Props
