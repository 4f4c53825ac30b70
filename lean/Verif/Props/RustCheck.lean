import Verif.Proof.RustAccept
import Verif.Props.Rust
/-!
# C97: the Rust compiler accepts the emitted text

`Rs.Compiles` (Verif/Rust/Check.lean) is what the compiler checks of a text; here is which schemas pass.
-/

namespace Packetc.Props
open Ast Check Gen WellFormed Rs RustGen

variable {ast : AST} {r : Resolved}

/-- The names of a schema are names in Rust: none is a keyword or one that the emitted text needs, fields have different names. -/
structure RustNames (ast : AST) : Prop where
  types : ∀ n t, Used ast n → .decl n t ∈ ast → n ∉ Rs.keywords ∧ n ∉ taken
  fields : ∀ n fs, Used ast n → .decl n (.struct fs) ∈ ast → (fs.map Prod.fst).Nodup ∧ ∀ f ∈ fs, f.1 ∉ Rs.keywords
  variants : ∀ n vs, Used ast n → .decl n (.enum vs) ∈ ast → ∀ v ∈ vs, v ∉ Rs.keywords ∧ v ≠ "Error".toList

/-- The types of a schema are among those for which rust.rs emits something that can be compiled. -/
structure RustTypes (ast : AST) : Prop where
  /-- at most 31 variants -/
  enums : ∀ n vs, Used ast n → .decl n (.enum vs) ∈ ast → vs.length ≤ 31
  /-- the items of arrays are strings or structs -/
  arrays : ∀ n fs, Used ast n → .decl n (.struct fs) ∈ ast → ∀ f ∈ fs, f.2.array = true →
    f.2.name = "string".toList ∨ ∃ gs, .decl f.2.name (.struct gs) ∈ ast
  /-- there are no optional strings -/
  optionals : ∀ n fs, Used ast n → .decl n (.struct fs) ∈ ast → ∀ f ∈ fs, f.2.optional = true → f.2.name ≠ "string".toList

/-- C97, full statement: the compiler accepts what is emitted for a schema whose names are all right in Rust. -/
def C97_claim : Prop := ∀ (ast : AST) (r : Resolved) (text : Str), Checked ast r → RustNames ast → rustFile r = some text → Compiles text

/-- C97, exactly: the names are all right, no enum has 32 variants, the items of arrays are strings or structs, and there are no
optional strings. What is missing from the full statement: the other schemas, for which it is false (`C97_false`). -/
theorem C97_exact_partial (hc : Checked ast r) {text : Str} (hf : rustFile r = some text) :
    Compiles text ↔ RustNames ast ∧ RustTypes ast := by
  constructor
  · rintro ⟨s, hp, hs⟩
    obtain rfl := (emitted_iff hc).1 ⟨text, hf, hp⟩
    obtain ⟨-, hdefs, -, -, hw, -⟩ := hs
    have hd := (accepted_defs hc).1 hdefs
    have hw := (accepted_functions hc hd).2.1 hw
    exact ⟨⟨hd.types, hd.fields, fun n vs hu h => (hd.enums n vs hu h).2⟩, fun n vs hu h => (hd.enums n vs hu h).1,
      fun n fs hu h f hf => (hw n fs hu h f hf).1, fun n fs hu h f hf => (hw n fs hu h f hf).2⟩
  · rintro ⟨hn, ht⟩
    have hd : DefsFit ast := ⟨hn.types, hn.fields, fun n vs hu h => ⟨ht.enums n vs hu h, hn.variants n vs hu h⟩⟩
    obtain ⟨h1, h2⟩ := accepted_functions hc hd
    obtain ⟨text', hf', hp⟩ := (emitted_iff hc).2 rfl
    rw [hf] at hf'
    cases hf'
    exact ⟨_, hp, items_names _ (checked_entries hc).1, (accepted_defs hc).2 hd,
      fun x hx => (List.mem_append.1 hx).elim (fun h => (good_localsOf _ (good_bodies hc).1 x h).allowed)
        (fun h => (good_localsOf _ (good_bodies hc).2 x h).allowed),
      ⟨(quiet_writeStruct _ _).last _, (quiet_readStruct _ _).last _⟩,
      h2.2 fun n fs hu h f hf => ⟨ht.arrays n fs hu h f hf, ht.optionals n fs hu h f hf⟩, h1⟩

/-- The functions apart from the definitions: if those are accepted then `read` always is, and `write` exactly if the items of arrays are
strings or structs and there are no optional strings. -/
theorem C97_functions (hc : Checked ast r) {s : Source} (hE : Emitted r s) (hdefs : ∀ i ∈ s.items, ItemAccepted s.items i) :
    ReadAccepted s.items s.read.1 s.read.2 ∧
    (WriteAccepted s.items s.write.1 s.write.2 ↔
      ∀ n fs, Used ast n → .decl n (.struct fs) ∈ ast → ∀ f ∈ fs,
        (f.2.array = true → f.2.name = "string".toList ∨ ∃ gs, .decl f.2.name (.struct gs) ∈ ast) ∧
        (f.2.optional = true → f.2.name ≠ "string".toList)) := by
  obtain rfl := (emitted_iff hc).1 hE
  exact accepted_functions hc ((accepted_defs hc).1 hdefs)

/-- The text of the file for a schema. -/
def textFor (ast : AST) : Str := (rustFile (resultFor ast)).getD []

theorem textFor_eq (hc : Checked ast (resultFor ast)) : rustFile (resultFor ast) = some (textFor ast) := by
  obtain ⟨text, h, -⟩ := rustFile_parses hc
  unfold textFor
  rw [h]
  rfl

/-- A check on the text of the schema that is enough for `RustNames`. -/
def rustNamesB (ast : AST) : Bool := ast.all fun
  | .decl n (.struct fs) => decide (n ∉ Rs.keywords ∧ n ∉ taken) && decide (fs.map Prod.fst).Nodup && fs.all fun f => decide (f.1 ∉ Rs.keywords)
  | .decl n (.enum vs) => decide (n ∉ Rs.keywords ∧ n ∉ taken) && vs.all fun v => decide (v ∉ Rs.keywords ∧ v ≠ "Error".toList)
  | _ => true

theorem rustNames_of (h : rustNamesB ast = true) : RustNames ast := by
  unfold rustNamesB at h
  rw [List.all_eq_true] at h
  refine ⟨fun n t _ hd => ?_, fun n fs _ hd => ?_, fun n vs _ hd v hv => ?_⟩
  · have := h _ hd
    cases t <;> (dsimp only at this; simp only [Bool.and_eq_true] at this)
    · exact of_decide_eq_true this.1
    · exact of_decide_eq_true this.1.1
  · have := h _ hd
    dsimp only at this
    simp only [Bool.and_eq_true, List.all_eq_true] at this
    exact ⟨of_decide_eq_true this.1.2, fun f hf => of_decide_eq_true (this.2 f hf)⟩
  · have := h _ hd
    dsimp only at this
    simp only [Bool.and_eq_true, List.all_eq_true] at this
    exact of_decide_eq_true (this.2 v hv)

/-- An array of numbers. -/
theorem C97_false : ¬ C97_claim := by
  intro h
  have := ((C97_exact_partial bytes_checked (textFor_eq bytes_checked)).1
    (h _ _ _ bytes_checked (rustNames_of (by decide)) (textFor_eq bytes_checked))).2.arrays _ _ bytes_used List.mem_cons_self _
    List.mem_cons_self rfl
  rcases this with h | ⟨gs, h⟩
  · exact absurd h (by decide)
  · simp [bytesAst] at h

/-- An optional string; the compiler accepts the definitions and `read` but not `write`. -/
example : RustNames exampleAst ∧ Emitted (resultFor exampleAst) (sourceFor exampleAst) ∧
    (∀ i ∈ (sourceFor exampleAst).items, ItemAccepted (sourceFor exampleAst).items i) ∧
    ReadAccepted (sourceFor exampleAst).items "A".toList (sourceFor exampleAst).read.2 ∧
    ¬ WriteAccepted (sourceFor exampleAst).items "A".toList (sourceFor exampleAst).write.2 := by
  have hn : RustNames exampleAst := rustNames_of (by decide)
  have hd : ∀ i ∈ (sourceFor exampleAst).items, ItemAccepted (sourceFor exampleAst).items i :=
    (accepted_defs example_checked).2 ⟨hn.types, hn.fields, fun n vs hu h => ⟨example_small_enums n vs hu h, hn.variants n vs hu h⟩⟩
  refine ⟨hn, example_built.emitted, hd, (C97_functions example_checked example_built.emitted hd).1, ?_⟩
  intro h
  exact ((C97_functions example_checked example_built.emitted hd).2.1 h "A".toList _ ⟨"A".toList, rfl, .refl⟩
    (List.mem_cons_of_mem _ (List.mem_cons_of_mem _ List.mem_cons_self)) _ (List.mem_cons_of_mem _ List.mem_cons_self)).2 rfl rfl

/-- 32 variants; the names are all right. -/
example : RustNames bigAst ∧ rustFile (resultFor bigAst) = some (textFor bigAst) ∧ ¬ Compiles (textFor bigAst) := by
  refine ⟨rustNames_of (by decide), textFor_eq big_checked, fun h => ?_⟩
  exact absurd (((C97_exact_partial big_checked (textFor_eq big_checked)).1 h).2.enums _ _ big_used List.mem_cons_self) (by decide)

def plainText : Str := "E: enum { X, Y }\nB: struct { e?: E, n: uint8 }\nA: struct { b: B[], c?: B, s: string[] }\nexport A".toList
def plainAst : AST :=
  [.decl "E".toList (.enum ["X".toList, "Y".toList]),
   .decl "B".toList (.struct [("e".toList, ⟨"E".toList, false, true⟩), ("n".toList, ⟨"uint8".toList, false, false⟩)]),
   .decl "A".toList (.struct [("b".toList, ⟨"B".toList, true, false⟩), ("c".toList, ⟨"B".toList, false, true⟩),
     ("s".toList, ⟨"string".toList, true, false⟩)]),
   .export "A".toList]

theorem plain_checked : Checked plainAst (resultFor plainAst) := checked_of (text := plainText) (by decide +kernel) (by rfl)

/-- A schema that passes, with arrays, optionals and an enum. -/
theorem plain_compiles : Checked plainAst (resultFor plainAst) ∧ RustNames plainAst ∧ RustTypes plainAst ∧
    rustFile (resultFor plainAst) = some (textFor plainAst) ∧ Compiles (textFor plainAst) := by
  have hn : RustNames plainAst := rustNames_of (by decide)
  have ht : RustTypes plainAst := by
    refine ⟨fun n vs _ h => ?_, fun n fs _ h f hf ha => ?_, fun n fs _ h f hf ho => ?_⟩
    · simp only [plainAst, List.mem_cons, Node.decl.injEq, Ast.Ty.enum.injEq, reduceCtorEq, and_false, or_false, List.not_mem_nil] at h
      rw [h.2]
      decide
    · simp only [plainAst, List.mem_cons, Node.decl.injEq, Ast.Ty.struct.injEq, reduceCtorEq, and_false, or_false, false_or,
        List.not_mem_nil] at h
      rcases h with ⟨-, rfl⟩ | ⟨-, rfl⟩
      · simp only [List.mem_cons, List.not_mem_nil, or_false] at hf
        rcases hf with rfl | rfl <;> cases ha
      · simp only [List.mem_cons, List.not_mem_nil, or_false] at hf
        rcases hf with rfl | rfl | rfl
        · exact Or.inr ⟨_, List.mem_cons_of_mem _ List.mem_cons_self⟩
        · cases ha
        · exact Or.inl rfl
    · simp only [plainAst, List.mem_cons, Node.decl.injEq, Ast.Ty.struct.injEq, reduceCtorEq, and_false, or_false, false_or,
        List.not_mem_nil] at h
      rcases h with ⟨-, rfl⟩ | ⟨-, rfl⟩ <;> simp only [List.mem_cons, List.not_mem_nil, or_false] at hf
      · rcases hf with rfl | rfl
        · exact fun h => absurd h (by decide)
        · cases ho
      · rcases hf with rfl | rfl | rfl
        · cases ho
        · exact fun h => absurd h (by decide)
        · cases ho
  exact ⟨plain_checked, hn, ht, textFor_eq plain_checked, (C97_exact_partial plain_checked (textFor_eq plain_checked)).2 ⟨hn, ht⟩⟩

end Packetc.Props
