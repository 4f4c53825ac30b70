import Verif.Proof.RustExact
import Verif.Proof.RustGood
/-!
# C91-C95: the functions emitted by rust.rs

The statements are about the text that the model of rust.rs emits: `Built r s P` says that the program `P` contains the emitted file, which
is parsed as `s`. The Rust compiler is trusted to parse it like `Rust/Parse.lean` and to give it the meaning of `Rust/Sem.lean`; C97 says which
files it takes.
-/

namespace Packetc.Props
open Ast Check Gen WellFormed Rs RustGen
open Js (Scalar utf8Enc)

variable (lib : Lib) {ast : AST} {r : Resolved} {s : Source} {P : Prog}

/-! ## C91: the format of the Rust writer -/

theorem _root_.Packetc.Rs.Built.has (hB : Built r s P) (hc : Checked ast r) : P.HasItems (itemsOf r.types) := by
  have := hB.items
  rwa [(emitted_iff hc).1 hB.emitted] at this

/-- C91, the file: for every accepted schema a file is emitted, without panicking, which can be parsed as Rust in one way. -/
theorem C91_file (hc : Checked ast r) : ∃! s, Emitted r s :=
  ⟨_, (emitted_iff hc).2 rfl, fun _ h => (emitted_iff hc).1 h⟩

theorem lookup_if {n k v : Str} {l : List (Str × Str)} : List.lookup n ((k, v) :: l) = if n = k then some v else l.lookup n := by
  rw [List.lookup_cons]
  by_cases h : n = k
  · rw [if_pos h, beq_iff_eq.2 h]
  · rw [if_neg h, beq_eq_false_iff_ne.2 h]

theorem rustTypeName_eq (n : Str) : rustTypeName n = rustName n := by
  unfold rustTypeName rustName RustGen.resolveTypename rustTable
  rw [lookup_if, lookup_if, lookup_if, lookup_if, lookup_if, lookup_if, lookup_if, lookup_if]
  rfl

theorem field_def (hc : Checked ast r) {gs : List (Str × Unresolved)} {rfs : List RField}
    (h : List.Forall₂ (FieldResolved r.types) gs rfs) :
    rfs.map (fun f => (f.name, (⟨fieldTypename f.tyName f.ty, f.array, f.optional⟩ : FieldTy))) =
    gs.map fun g => (g.1, ⟨rustTypeName g.2.name, g.2.array, g.2.optional⟩) := by
  induction h with
  | nil => rfl
  | cons hf _ ih =>
    rw [List.map_cons, List.map_cons, ih, hf.name, hf.array, hf.optional, rustTypeName_eq, hf.tyName,
      name_eq ((checked_entries hc).2.2 _ _ _ hf.ty).2.2]

theorem enum_def {n : Str} {vs : List Str} {e : REnum} (h1 : EnumOk vs) (h : EnumResolved vs e) : DefinedAs n (.enum vs) (enumItem n e) := by
  have hz : (e.variants.map fun v => (v.name, v.value)) = vs.zipIdx := by
    rw [List.zipIdx_eq_zip_range', ← List.range_eq_range', ← h.values, ← h.names, List.zip_map']
  have ha : (e.variants.map fun v => ((Gen.i32Shl1 v.value).getD 0, v.name)) =
      vs.zipIdx.map fun w => (if w.2 = 31 then -2 ^ 31 else 2 ^ w.2, w.1) := by
    rw [← hz, List.map_map]
    refine List.map_congr_left fun v hv => ?_
    have hlt : v.value < 32 := by
      have : v.value ∈ List.range vs.length := h.values ▸ List.mem_map_of_mem hv
      exact Nat.lt_of_lt_of_le (List.mem_range.1 this) h1.2.1
    show (_, v.name) = (_, v.name)
    have key : ∀ k < 32, (Gen.i32Shl1 k).getD 0 = if k = 31 then -2 ^ 31 else 2 ^ k := by decide
    rw [key _ hlt]
  have hd : ((e.variants.head?.map EnumVariant.name).getD []) = vs.head?.getD [] := by rw [← List.head?_map, h.names]
  unfold enumItem
  rw [hz, ha, hd]
  cases vs with
  | nil => exact absurd h1.1 (by decide)
  | cons v vs =>
    refine .enum v vs _ (reprBits e.repr) ?_ h.fits ?_
    · cases e.repr <;> decide
    · intro t ht hl
      simp only [unsignedTypes, List.mem_cons, List.not_mem_nil, or_false] at ht
      rcases ht with rfl | rfl | rfl
      · exact h.smallest .u8 hl
      · exact h.smallest .u16 hl
      · exact h.smallest .u32 hl

/-- C91, the definitions: the file has one definition for each struct and each enum that is used, as declared, and no other. -/
theorem C91_definitions (hc : Checked ast r) (hE : Emitted r s) : (s.items.map Item.name).Nodup ∧
    (∀ n t, Used ast n → .decl n t ∈ ast → ∃ i ∈ s.items, DefinedAs n t i) ∧
    ∀ i ∈ s.items, ∃ n t, Used ast n ∧ .decl n t ∈ ast ∧ DefinedAs n t i := by
  obtain rfl := (emitted_iff hc).1 hE
  obtain ⟨hk, -, hall⟩ := checked_entries hc
  have hnd := items_names _ hk
  have key : ∀ n t, Used ast n → .decl n t ∈ ast → ∃ i ∈ itemsOf r.types, DefinedAs n t i := by
    intro n t hu hd
    obtain ⟨ord, text, hord, hp, ht⟩ := id hc
    have hnb := parsed_noBuiltinDecl hp
    cases t with
    | struct gs =>
      obtain ⟨-, -, -, h⟩ := C23_faithful hord hnb ht
      obtain ⟨rfs, gs', h1, h2, h3⟩ := h n gs hu (Js.mem_decls.2 hd)
      refine ⟨structItem n rfs, List.mem_filterMap.2 ⟨_, Map.get_mem h1, rfl⟩, .struct _ _ ?_⟩
      rw [field_def hc h3]
      exact h2.map _
    | enum vs =>
      obtain ⟨h1, h2, h3, h⟩ := C19_enum_bits hord hnb ht hd
      obtain ⟨e, h4, h5⟩ := h hu
      exact ⟨enumItem n e, List.mem_filterMap.2 ⟨_, Map.get_mem h4, rfl⟩, enum_def ⟨h1, h2, h3⟩ h5⟩
  refine ⟨hnd, key, fun i hi => ?_⟩
  have hname : ∀ n t j, DefinedAs n t j → j.name = n := by
    intro n t j h
    cases h <;> rfl
  have fin : ∀ n t, i.name = n → Used ast n → .decl n t ∈ ast → ∃ n t, Used ast n ∧ .decl n t ∈ ast ∧ DefinedAs n t i := by
    intro n t hi' hu hd
    obtain ⟨j, hj, h⟩ := key n t hu hd
    obtain rfl := List.inj_on_of_nodup_map hnd hi hj (hi'.trans (hname _ _ _ h).symm)
    exact ⟨n, t, hu, hd, h⟩
  rcases mem_items hi with ⟨n, m, fs, h1, rfl⟩ | ⟨n, m, e, h1, rfl⟩
  · obtain ⟨-, hu, hE⟩ := hall _ _ _ (Map.mem_get hk h1)
    cases hE with
    | struct gs gs' _ _ hd _ _ _ => exact fin n _ rfl hu hd
  · obtain ⟨-, hu, hE⟩ := hall _ _ _ (Map.mem_get hk h1)
    cases hE with
    | enum vs _ _ hd _ _ => exact fin n _ rfl hu hd

/-- C91: in every program with the emitted file, `write` writes each value in the format of format.md. -/
theorem C91_write (hc : Checked ast r) (hn : NamesFit ast) (hB : Built r s P) {ps : List (Str × Val)}
    (hps : ValFs (2 ^ 32) r.export.fields ps) :
    runWrite lib P s.write.2 (.struct ps) = some (encFs lib r.export.fields ps) := by
  have hP := hB.has hc
  obtain rfl := (emitted_iff hc).1 hB.emitted
  exact run_write lib hc hn hP hps

/-- C91: there is such a program. -/
theorem C91_program (hc : Checked ast r) (hn : NamesFit ast) : ∃ s P, Built r s P :=
  ⟨_, _, (emitted_iff hc).2 rfl, progOf_has hc hn⟩

/-! ### An example -/

/-- What the checker makes of a schema. -/
def resultFor (ast : AST) : Resolved := match typeCheck id ast with | .ok r => r | .error _ => ⟨⟨[], []⟩, []⟩

theorem checked_of {text : Str} {ast : AST} (h1 : Parser.schema text = .ok ast) (h2 : typeCheck id ast = .ok (resultFor ast)) :
    Checked ast (resultFor ast) := ⟨id, text, fun _ => .refl _, h1, h2⟩

theorem used_mem {n : Str} (h : Used ast n) : n ∈ exports ast ∨ ∃ m fs, .decl m (.struct fs) ∈ ast ∧ ∃ f ∈ fs, f.2.name = n := by
  obtain ⟨e, he, hr⟩ := h
  rcases hr.cases_tail with h | ⟨b, -, fs, hd, hf⟩
  · rw [h, he]
    exact Or.inl (by simp)
  · exact Or.inr ⟨b, fs, Js.mem_decls.1 hd, hf⟩

/-- A check on the text of the schema that is enough for `NamesFit`. -/
def namesFitB (ast : AST) : Bool :=
  (exports ast).all (fun n => decide (n ∉ primNames)) && ast.all fun
    | .decl _ (.struct fs) => decide (fs.map Prod.fst).Nodup && fs.all fun f => decide (f.2.name ∉ primNames)
    | _ => true

theorem namesFit_of (h : namesFitB ast = true) : NamesFit ast := by
  unfold namesFitB at h
  rw [Bool.and_eq_true, List.all_eq_true, List.all_eq_true] at h
  refine ⟨fun n fs _ hd => ?_, fun n hp hu => ?_⟩
  · have := h.2 _ hd
    dsimp only at this
    rw [Bool.and_eq_true] at this
    exact of_decide_eq_true this.1
  · rcases used_mem hu with hx | ⟨m, fs, hd, f, hf, rfl⟩
    · exact of_decide_eq_true (h.1 _ hx) hp
    · have := h.2 _ hd
      dsimp only at this
      rw [Bool.and_eq_true, List.all_eq_true] at this
      exact of_decide_eq_true (this.2 f hf) hp

/-- A concrete library: little endian, with room for `k` items. -/
def leLib (k : Nat) : Lib where
  enc := Js.leEnc
  dec
    | .float, bs => .f32 (BitVec.ofNat 32 (Js.leNat bs))
    | s, bs => Js.leDec s bs
  enc_len s n := by cases n <;> simp [Js.leEnc, Js.leBytes_length]
  dec_enc s n h := by
    cases s <;> first | exact Js.leDec_leEnc _ n h | skip
    cases n with
    | int i => exact absurd h (by simp [NumOk])
    | f32 b =>
      have := b.isLt
      simp only [Js.leEnc, Js.leNat_leBytes, Scalar.width]
      rw [Nat.mod_eq_of_lt (by omega)]
      simp
  dec_ok s bs := by
    cases s
    case float => exact True.intro
    case uint8 => exact Js.leDec_ok .uint8 bs
    case uint16 => exact Js.leDec_ok .uint16 bs
    case uint32 => exact Js.leDec_ok .uint32 bs
    case int8 => exact Js.leDec_ok .int8 bs
    case int16 => exact Js.leDec_ok .int16 bs
    case int32 => exact Js.leDec_ok .int32 bs
  maxItems := k

theorem example_checked : Checked exampleAst (resultFor exampleAst) := checked_of example_parses (by rfl)
theorem example_names : NamesFit exampleAst := namesFit_of (by decide)

/-- What the file for a schema is parsed as. -/
def sourceFor (ast : AST) : Source :=
  let r := resultFor ast
  ⟨itemsOf r.types, (r.export.name, writeBody r.export), (r.export.name, readBody r.export)⟩

theorem built_of (hc : Checked ast (resultFor ast)) (hn : NamesFit ast) : Built (resultFor ast) (sourceFor ast) (progOf (resultFor ast).types) :=
  ⟨(emitted_iff hc).2 rfl, progOf_has hc hn⟩

theorem example_built : Built (resultFor exampleAst) (sourceFor exampleAst) (progOf (resultFor exampleAst).types) :=
  built_of example_checked example_names

/-- A packet of the example schema: `A { b: vec![B { e: E::Y, n: 7 }], o: Some("é") }`. -/
def examplePacket : List (Str × Val) :=
  [("o".toList, .some (.str "é".toList)),
   ("b".toList, .vec [.struct [("e".toList, .variant "E".toList "Y".toList), ("n".toList, .num (.int 7))]])]

theorem example_val {lim : Nat} (h : 1 < lim) : ValFs lim (resultFor exampleAst).export.fields examplePacket := by
  have hf : (resultFor exampleAst).export.fields =
      [⟨"o".toList, "string".toList, .builtin .string, false, true⟩,
       ⟨"b".toList, "B".toList, .struct [⟨"e".toList, "E".toList, .enum ⟨.u8, [⟨"X".toList, 0⟩, ⟨"Y".toList, 1⟩]⟩, false, false⟩,
         ⟨"n".toList, "uint8".toList, .builtin .uint8, false, false⟩], true, false⟩] := by rfl
  rw [hf]
  refine ⟨_, _, rfl, ⟨rfl, Or.inr ⟨_, rfl, _, rfl, by decide⟩⟩, _, _, rfl, ⟨rfl, Or.inr ⟨_, rfl, _, rfl, h, fun w hw => ?_⟩⟩, rfl⟩
  rw [List.mem_singleton.1 hw]
  exact ⟨_, rfl, _, _, rfl, ⟨rfl, Or.inr ⟨_, rfl, _, List.mem_cons_of_mem _ List.mem_cons_self, rfl⟩⟩, _, _, rfl,
    ⟨rfl, Or.inr ⟨_, rfl, _, rfl, by decide, by decide⟩⟩, rfl⟩

example : Checked exampleAst (resultFor exampleAst) ∧ NamesFit exampleAst ∧
    Built (resultFor exampleAst) (sourceFor exampleAst) (progOf (resultFor exampleAst).types) ∧
    ValFs (2 ^ 32) (resultFor exampleAst).export.fields examplePacket ∧
    runWrite (leLib 100) (progOf (resultFor exampleAst).types) (sourceFor exampleAst).write.2 (.struct examplePacket) =
      some [1, 2, 0, 0, 0, 0xc3, 0xa9, 1, 0, 0, 0, 2, 7] := by
  refine ⟨example_checked, example_names, example_built, example_val (by decide), ?_⟩
  rw [C91_write (leLib 100) example_checked example_names example_built (example_val (by decide))]
  decide +kernel

/-! ## C92: the Rust reader inverts the Rust writer -/

/-- C92, full statement: whatever is written, followed by anything, is read back from the same program's bytes, if it fits in memory. -/
def C92_claim : Prop := ∀ (lib : Lib) (ast : AST) (r : Resolved) (s : Source) (P : Prog), Checked ast r → NamesFit ast →
  Built r s P → ∀ lim ps rest bytes, lim ≤ 2 ^ 32 → lim ≤ lib.maxItems + 1 → ValFs lim r.export.fields ps →
  runWrite lib P s.write.2 (.struct ps) = some bytes → readDefault lib P s (bytes ++ rest) = .ok (.struct ps) rest

theorem readDefault_eq (hc : Checked ast r) (hn : NamesFit ast) (hB : Built r s P) (data : List UInt8) :
    readDefault lib P s data = resultOf (rdFs lib r.export.fields (dfltFs r.export.fields) data) := by
  have hP := hB.has hc
  obtain rfl := (emitted_iff hc).1 hB.emitted
  have h := (fits_export hc hn hP).2.dflt
  rw [name_eq ((checked_entries hc).2.2 _ _ _ (checked_entries hc).2.1).2.2] at h
  have h : P.dflt r.export.name = _ := h
  unfold readDefault
  dsimp only
  rw [h]
  exact run_read lib hc hn hP (dfltFs_shape _) data

theorem runRead_eq (hc : Checked ast r) (hn : NamesFit ast) (hB : Built r s P) {old : List (Str × Val)} {lim : Nat}
    (h : ValFs lim r.export.fields old) (data : List UInt8) :
    runRead lib P s.read.2 (.struct old) data = resultOf (rdFs lib r.export.fields old data) := by
  have hP := hB.has hc
  obtain rfl := (emitted_iff hc).1 hB.emitted
  exact run_read lib hc hn hP (valFs_shape _ _ h) data

theorem resultOf_ok {x : Got (List (Str × Val))} {v : Val} {rest : List UInt8} : resultOf x = .ok v rest ↔ ∃ ps, v = .struct ps ∧ x = .ok ps rest := by
  cases x with
  | ok ps r =>
    constructor
    · intro h
      cases h
      exact ⟨ps, rfl, rfl⟩
    · rintro ⟨qs, rfl, h⟩
      cases h
      rfl
  | err => exact ⟨fun h => (by cases h), fun ⟨_, _, h⟩ => by cases h⟩
  | abort => exact ⟨fun h => (by cases h), fun ⟨_, _, h⟩ => by cases h⟩

/-- C92 for schemas whose used enums have less than 32 variants. What is missing from the full statement: enums with 32 variants,
for which it is false. -/
theorem C92_round_trip_partial (hc : Checked ast r) (hn : NamesFit ast) (hB : Built r s P)
    (hs : ∀ n vs, Used ast n → .decl n (.enum vs) ∈ ast → vs.length ≤ 31) {lim : Nat} (h1 : lim ≤ 2 ^ 32) (h2 : lim ≤ lib.maxItems + 1)
    {ps : List (Str × Val)} (hps : ValFs lim r.export.fields ps) {bytes : List UInt8}
    (hw : runWrite lib P s.write.2 (.struct ps) = some bytes) (rest : List UInt8) :
    readDefault lib P s (bytes ++ rest) = .ok (.struct ps) rest := by
  have hps' := valFs_mono h1 _ _ hps
  rw [C91_write lib hc hn hB hps'] at hw
  cases hw
  rw [readDefault_eq lib hc hn hB, resultOf_ok]
  refine ⟨ps, rfl, (accepts_fields lib _ ((checked_small hc).2 hs) _ _ _).2 ⟨_, rfl, ?_⟩⟩
  exact encFs_has lib h1 h2 _ (checked_sound hc) (fits_export hc hn (hB.has hc)).2.2 _ hps

/-- C92, exactly: what is written can be read if and only if no used enum has 32 variants. -/
theorem C92_exact (hc : Checked ast r) (hn : NamesFit ast) (hB : Built r s P) {lim : Nat} (h0 : 1 < lim)
    (h1 : lim ≤ 2 ^ 32) (h2 : lim ≤ lib.maxItems + 1) :
    (∀ ps rest bytes, ValFs lim r.export.fields ps → runWrite lib P s.write.2 (.struct ps) = some bytes →
      readDefault lib P s (bytes ++ rest) = .ok (.struct ps) rest) ↔
    ∀ n vs, Used ast n → .decl n (.enum vs) ∈ ast → vs.length ≤ 31 := by
  constructor
  · intro h
    rw [← checked_small hc]
    have hd := (fits_export hc hn (hB.has hc)).2.2
    have hl := lastFs_val h0 _ (checked_sound hc) hd
    have hr := h _ [] _ hl (C91_write lib hc hn hB (valFs_mono h1 _ _ hl))
    rw [readDefault_eq lib hc hn hB, resultOf_ok] at hr
    obtain ⟨ps, -, hr⟩ := hr
    exact rd_lastFs lib (by omega) _ (checked_sound hc) hd _ _ _ hr
  · intro hs ps rest bytes hps hw
    exact C92_round_trip_partial lib hc hn hB hs h1 h2 hps hw rest

theorem big_checked : Checked bigAst (resultFor bigAst) := checked_of (text := bigText) (by decide +kernel) (by rfl)
theorem big_names : NamesFit bigAst := namesFit_of (by decide)

theorem big_built : Built (resultFor bigAst) (sourceFor bigAst) (progOf (resultFor bigAst).types) := built_of big_checked big_names

theorem big_used : Used bigAst "E".toList :=
  ⟨"P".toList, rfl, .tail .refl ⟨_, List.mem_cons_of_mem _ List.mem_cons_self, _, List.mem_cons_self, rfl⟩⟩

theorem C92_false : ¬ C92_claim := by
  intro h
  have := (C92_exact (leLib 100) big_checked big_names big_built (lim := 2) (by decide) (by decide) (by decide)).1
    (fun ps rest bytes hps hw => h _ _ _ _ _ big_checked big_names big_built 2 ps rest bytes (by decide) (by decide) hps hw)
  exact absurd (this _ _ big_used List.mem_cons_self) (by decide)

theorem example_small_enums : ∀ n vs, Used exampleAst n → .decl n (.enum vs) ∈ exampleAst → vs.length ≤ 31 :=
  fun n vs _ h => example_small n vs h

example : (∀ n vs, Used exampleAst n → .decl n (.enum vs) ∈ exampleAst → vs.length ≤ 31) ∧
    readDefault (leLib 100) (progOf (resultFor exampleAst).types) (sourceFor exampleAst)
      [1, 2, 0, 0, 0, 0xc3, 0xa9, 1, 0, 0, 0, 2, 7, 99] = .ok (.struct examplePacket) [99] := by
  refine ⟨example_small_enums, ?_⟩
  refine C92_round_trip_partial (leLib 100) example_checked example_names example_built example_small_enums
    (lim := 2) (by decide) (by decide) (example_val (by decide)) (bytes := [1, 2, 0, 0, 0, 0xc3, 0xa9, 1, 0, 0, 0, 2, 7]) ?_ [99]
  rw [C91_write (leLib 100) example_checked example_names example_built (example_val (by decide))]
  decide +kernel

/-! ## C93: what the Rust reader accepts -/

/-- C93, full statement: `read` succeeds exactly on data that begin with the bytes of a value, and returns that value and what follows. -/
def C93_claim : Prop := ∀ (lib : Lib) (ast : AST) (r : Resolved) (s : Source) (P : Prog), Checked ast r → NamesFit ast →
  Built r s P → ∀ data v rest, readDefault lib P s data = .ok v rest ↔
    ∃ bs ps, data = bs ++ rest ∧ v = .struct ps ∧ HasFs lib r.export.fields bs ps

/-- C93 for schemas whose used enums have less than 32 variants. What is missing from the full statement: enums with 32 variants,
for which it is false. -/
theorem C93_reads_partial (hc : Checked ast r) (hn : NamesFit ast) (hB : Built r s P)
    (hs : ∀ n vs, Used ast n → .decl n (.enum vs) ∈ ast → vs.length ≤ 31) (data : List UInt8) (v : Val) (rest : List UInt8) :
    readDefault lib P s data = .ok v rest ↔ ∃ bs ps, data = bs ++ rest ∧ v = .struct ps ∧ HasFs lib r.export.fields bs ps := by
  rw [readDefault_eq lib hc hn hB, resultOf_ok]
  constructor
  · rintro ⟨ps, rfl, h⟩
    obtain ⟨bs, hd, hh⟩ := (accepts_fields lib _ ((checked_small hc).2 hs) _ _ _).1 h
    exact ⟨bs, ps, hd, rfl, hh⟩
  · rintro ⟨bs, ps, rfl, rfl, h⟩
    exact ⟨ps, rfl, (accepts_fields lib _ ((checked_small hc).2 hs) _ _ _).2 ⟨bs, rfl, h⟩⟩

/-- C93, exactly: this holds if and only if no used enum has 32 variants. -/
theorem C93_exact (hc : Checked ast r) (hn : NamesFit ast) (hB : Built r s P) (hm : 1 ≤ lib.maxItems) :
    (∀ data v rest, readDefault lib P s data = .ok v rest ↔
      ∃ bs ps, data = bs ++ rest ∧ v = .struct ps ∧ HasFs lib r.export.fields bs ps) ↔
    ∀ n vs, Used ast n → .decl n (.enum vs) ∈ ast → vs.length ≤ 31 := by
  constructor
  · intro h
    rw [← checked_small hc]
    have hd := (fits_export hc hn (hB.has hc)).2.2
    have hl := lastFs_val (lim := 2) (by decide) _ (checked_sound hc) hd
    have hh := encFs_has lib (lim := 2) (by decide) (by omega) _ (checked_sound hc) hd _ hl
    have hr := (h (encFs lib r.export.fields (lastFs r.export.fields) ++ []) _ []).2 ⟨_, _, rfl, rfl, hh⟩
    rw [readDefault_eq lib hc hn hB, resultOf_ok] at hr
    obtain ⟨ps, -, hr⟩ := hr
    exact rd_lastFs lib (by omega) _ (checked_sound hc) hd _ _ _ hr
  · intro hs data v rest
    exact C93_reads_partial lib hc hn hB hs data v rest

theorem C93_false : ¬ C93_claim := by
  intro h
  have := (C93_exact (leLib 100) big_checked big_names big_built (by decide)).1
    (h _ _ _ _ _ big_checked big_names big_built)
  exact absurd (this _ _ big_used List.mem_cons_self) (by decide)

theorem checked_roomy (hc : Checked ast r) (h : 2 ^ 32 - 1 ≤ lib.maxItems ∨
      ∀ n fs, Used ast n → .decl n (.struct fs) ∈ ast → ∀ f ∈ fs, f.2.array = false) :
    Roomy lib r.export.fields ∧ Js.AllFs (Roomy lib) r.export.fields := by
  refine (allT_imp (Q := fun fs => ∀ f ∈ fs, 2 ^ 32 - 1 ≤ lib.maxItems ∨ f.array = false) (R := Roomy lib) ?_ _
    ((checked_fields hc (fun f => 2 ^ 32 - 1 ≤ lib.maxItems ∨ f.2.array = false)).2 ?_))
  · intro fs h
    by_cases hm : 2 ^ 32 - 1 ≤ lib.maxItems
    · exact Or.inl hm
    · exact Or.inr fun f hf => (h f hf).resolve_left hm
  · intro n fs hu hd f hf
    exact h.imp id fun h => h n fs hu hd f hf

/-- C93: with enough memory (or without arrays) `read` returns an error on all other data. -/
theorem C93_rejects (hc : Checked ast r) (hn : NamesFit ast) (hB : Built r s P) 
    (hm : 2 ^ 32 - 1 ≤ lib.maxItems ∨ ∀ n fs, Used ast n → .decl n (.struct fs) ∈ ast → ∀ f ∈ fs, f.2.array = false) (data : List UInt8) :
    (∃ v rest, readDefault lib P s data = .ok v rest) ∨ readDefault lib P s data = .err := by
  rw [readDefault_eq lib hc hn hB]
  have hr := checked_roomy lib hc hm
  cases hx : rdFs lib r.export.fields (dfltFs r.export.fields) data with
  | ok ps rest => exact Or.inl ⟨_, _, rfl⟩
  | err => exact Or.inr rfl
  | abort => exact absurd hx (rdFs_safe lib _ hr.1 hr.2 data)

/-- C93: the bytes of a value, cut off anywhere, are rejected. -/
theorem C93_truncated (hc : Checked ast r) (hn : NamesFit ast) (hB : Built r s P)
    (hs : ∀ n vs, Used ast n → .decl n (.enum vs) ∈ ast → vs.length ≤ 31)
    (hm : 2 ^ 32 - 1 ≤ lib.maxItems ∨ ∀ n fs, Used ast n → .decl n (.struct fs) ∈ ast → ∀ f ∈ fs, f.2.array = false)
    {bs cut : List UInt8} {ps : List (Str × Val)} (h : HasFs lib r.export.fields (bs ++ cut) ps) (hcut : cut ≠ []) :
    readDefault lib P s bs = .err := by
  rcases C93_rejects lib hc hn hB hm bs with ⟨v, rest, h1⟩ | h1
  · obtain ⟨b, qs, h2, rfl, h3⟩ := (C93_reads_partial lib hc hn hB hs _ _ _).1 h1
    have h4 := (C93_reads_partial lib hc hn hB hs (bs ++ cut) (.struct ps) []).2 ⟨_, _, (List.append_nil _).symm, rfl, h⟩
    have h5 := (C93_reads_partial lib hc hn hB hs (bs ++ cut) (.struct qs) (rest ++ cut)).2
      ⟨b, qs, by rw [h2, List.append_assoc], rfl, h3⟩
    rw [h4] at h5
    injection h5 with h6 h7
    exact absurd (List.append_eq_nil_iff.1 h7.symm).2 hcut
  · exact h1

example : ∃ bs cut ps, HasFs (leLib (2 ^ 32)) (resultFor exampleAst).export.fields (bs ++ cut) ps ∧ cut ≠ [] ∧ bs ≠ [] ∧
    2 ^ 32 - 1 ≤ (leLib (2 ^ 32)).maxItems := by
  have hd := (fits_export example_checked example_names (example_built.has example_checked)).2.2
  have h := encFs_has (leLib (2 ^ 32)) (lim := 2) (by decide) (by decide) _ (checked_sound example_checked) hd _ (example_val (by decide))
  refine ⟨[1], [2, 0, 0, 0, 0xc3, 0xa9, 1, 0, 0, 0, 2, 7], examplePacket, ?_, by simp, by simp, by decide⟩
  have he : encFs (leLib (2 ^ 32)) (resultFor exampleAst).export.fields examplePacket = [1, 2, 0, 0, 0, 0xc3, 0xa9, 1, 0, 0, 0, 2, 7] := by
    decide +kernel
  rw [he] at h
  exact h

/-! ## C94: memory -/

/-- C94, full statement: no data can make `read` run out of memory. -/
def C94_claim : Prop := ∀ (lib : Lib) (ast : AST) (r : Resolved) (s : Source) (P : Prog), Checked ast r → NamesFit ast →
  Built r s P → 1 ≤ lib.maxItems → ∀ data, readDefault lib P s data ≠ .abort

/-- C94, exactly, if memory does not suffice for 2^32 - 1 items: some data make `read` run out of memory if and
only if an array is used. The schemas are those without empty
structs, since arrays of those need no memory in Rust, whereas in the model items of all types do. What is missing from the full
statement: schemas with arrays, for which it is false. -/
theorem C94_exact_partial (hc : Checked ast r) (hn : NamesFit ast) (hB : Built r s P) (hm : 1 ≤ lib.maxItems)
    (hb : lib.maxItems < 2 ^ 32 - 1) (_hne : ∀ n, Used ast n → .decl n (.struct []) ∉ ast) :
    (∀ data, readDefault lib P s data ≠ .abort) ↔
    ∀ n fs, Used ast n → .decl n (.struct fs) ∈ ast → ∀ f ∈ fs, f.2.array = false := by
  constructor
  · intro h
    rw [← checked_fields hc (fun f => f.2.array = false)]
    by_contra hx
    obtain ⟨bs, hbs⟩ := bombFs lib hm hb _ (checked_sound hc) (fits_export hc hn (hB.has hc)).2.2 hx
    refine h bs ?_
    rw [readDefault_eq lib hc hn hB, hbs]
    rfl
  · intro h data
    rcases C93_rejects lib hc hn hB (Or.inr h) data with ⟨v, rest, h1⟩ | h1 <;> rw [h1] <;> simp

theorem bytes_checked : Checked bytesAst (resultFor bytesAst) := checked_of (text := bytesText) (by decide +kernel) (by rfl)
theorem bytes_names : NamesFit bytesAst := namesFit_of (by decide)
theorem bytes_built : Built (resultFor bytesAst) (sourceFor bytesAst) (progOf (resultFor bytesAst).types) :=
  built_of bytes_checked bytes_names
theorem bytes_used : Used bytesAst "P".toList := ⟨"P".toList, rfl, .refl⟩

theorem bytes_nonempty (n : Str) (_ : Used bytesAst n) : .decl n (.struct []) ∉ bytesAst := by
  unfold bytesAst
  simp

theorem C94_false : ¬ C94_claim := by
  intro h
  have := (C94_exact_partial (leLib (2 ^ 31)) bytes_checked bytes_names bytes_built (by decide) (by decide)
    bytes_nonempty).1 (h _ _ _ _ _ bytes_checked bytes_names bytes_built (by decide))
  exact absurd (this _ _ bytes_used List.mem_cons_self _ List.mem_cons_self) (by decide)

example : Checked bytesAst (resultFor bytesAst) ∧ NamesFit bytesAst ∧ (∀ n, Used bytesAst n → .decl n (.struct []) ∉ bytesAst) ∧
    1 ≤ (leLib (2 ^ 31)).maxItems ∧ (leLib (2 ^ 31)).maxItems < 2 ^ 32 - 1 :=
  ⟨bytes_checked, bytes_names, bytes_nonempty, by decide, by decide⟩

/-! ## C95: what was in `output` before -/

/-- C95, full statement: what `read` leaves in `output` does not depend on what was there before. -/
def C95_claim : Prop := ∀ (lib : Lib) (ast : AST) (r : Resolved) (s : Source) (P : Prog), Checked ast r → NamesFit ast →
  Built r s P → 1 ≤ lib.maxItems → ∀ lim old old' data, 1 < lim → ValFs lim r.export.fields old →
    ValFs lim r.export.fields old' →
    runRead lib P s.read.2 (.struct old) data = runRead lib P s.read.2 (.struct old') data

/-- C95, exactly: what `read` leaves in `output` is independent of what was there before if and only if neither arrays nor optionals are
used. What is missing from the full statement: schemas with arrays or optionals, for which it is false. -/
theorem C95_exact_partial (hc : Checked ast r) (hn : NamesFit ast) (hB : Built r s P) (hm : 1 ≤ lib.maxItems)
    {lim : Nat} (hl : 1 < lim) :
    (∀ old old' data, ValFs lim r.export.fields old → ValFs lim r.export.fields old' →
      runRead lib P s.read.2 (.struct old) data = runRead lib P s.read.2 (.struct old') data) ↔
    ∀ n fs, Used ast n → .decl n (.struct fs) ∈ ast → ∀ f ∈ fs, f.2.array = false ∧ f.2.optional = false := by
  rw [← checked_fields hc (fun f => f.2.array = false ∧ f.2.optional = false)]
  constructor
  · intro h
    have hb := (checked_fields hc (fun f => ¬ (f.2.array = true ∧ f.2.optional = true))).2 (checked_plain hc)
    have hv : ∀ b, ValFs lim r.export.fields (fillFs b r.export.fields) := fun b =>
      fillFs_val b hl _ (checked_sound hc) hb.1 hb.2
    have := h _ _ (encFs lib r.export.fields (dfltFs r.export.fields) ++ []) (hv true) (hv false)
    rw [runRead_eq lib hc hn hB (hv true), runRead_eq lib hc hn hB (hv false),
      rd_dfltFs lib true hm _ (checked_sound hc), rd_dfltFs lib false hm _ (checked_sound hc)] at this
    injection this with h1 _
    exact fillFs_eq _ (Val.struct.inj h1)
  · intro h old old' data ho ho'
    rw [runRead_eq lib hc hn hB ho, runRead_eq lib hc hn hB ho',
      rdFs_fresh lib _ h.1 h.2 old old' (valFs_shape _ _ ho) (valFs_shape _ _ ho')]

theorem C95_false : ¬ C95_claim := by
  intro h
  have := (C95_exact_partial (leLib 1) bytes_checked bytes_names bytes_built (by decide) (lim := 2) (by decide)).1
    (fun old old' data => h _ _ _ _ _ bytes_checked bytes_names bytes_built (by decide) 2 old old' data (by decide))
  exact absurd (this _ _ bytes_used List.mem_cons_self _ List.mem_cons_self) (by decide)

/-- A packet of no items read into a packet with items leaves these. -/
example : ValFs 2 (resultFor bytesAst).export.fields [("xs".toList, .vec [.num (.int 7)])] ∧
    runRead (leLib 1) (progOf (resultFor bytesAst).types) (sourceFor bytesAst).read.2 (.struct [("xs".toList, .vec [.num (.int 7)])])
      [0, 0, 0, 0] = .ok (.struct [("xs".toList, .vec [.num (.int 7)])]) [] := by
  have hf : (resultFor bytesAst).export.fields = [⟨"xs".toList, "uint8".toList, .builtin .uint8, true, false⟩] := by rfl
  constructor
  · rw [hf]
    refine ⟨_, _, rfl, ⟨rfl, Or.inr ⟨_, rfl, _, rfl, by decide, fun w hw => ?_⟩⟩, rfl⟩
    rw [List.mem_singleton.1 hw]
    exact ⟨_, rfl, by decide, by decide⟩
  · rfl

end Packetc.Props
