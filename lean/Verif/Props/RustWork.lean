import Verif.Props.Rust
import Verif.Proof.RustWork
/-!
# C99: how long the functions emitted by rust.rs run

Counted in statements executed (`Rust/Steps.lean`), for the emitted text as parsed.
-/

namespace Packetc.Props
open Ast Check Gen WellFormed Rs RustGen
open Evolution (TakesSpace)
open Js (Scalar utf8Enc)

variable (lib : Lib) {ast : AST} {r : Resolved} {s : Source} {P : Prog}

/-- C99, full statement: whatever the data, `read` executes at most as many statements as its text has, once for each byte (and once more). -/
def C99_claim : Prop := ∀ (lib : Lib) (ast : AST) (r : Resolved) (s : Source) (P : Prog), Checked ast r → NamesFit ast → Built r s P →
  ∀ data, readSteps lib P s data ≤ sizes s.read.2 * (data.length + 1)

/-- The items of each array that is used take space: at least a byte each. -/
def ItemsTakeSpace (ast : AST) : Prop :=
  ∀ n fs, Used ast n → .decl n (.struct fs) ∈ ast → ∀ f ∈ fs, f.2.array = true → TakesSpace ast ⟨f.2.name, false, false⟩

/-- C99 for schemas without arrays of structs without content. What is missing from the full statement: such arrays, for which it is
false. -/
theorem C99_read_partial (hc : Checked ast r) (hB : Built r s P) (hs : ItemsTakeSpace ast) (data : List UInt8) :
    readSteps lib P s data ≤ sizes s.read.2 * (data.length + 1) := by
  obtain rfl := (emitted_iff hc).1 hB.emitted
  have h := (checked_fed hc).2 hs
  exact stepsAll_stops lib P _ (readStruct_calm _ h.1 h.2 _) (readStruct_readers _ _) _

theorem readDefault_ok {data : List UInt8} {v : Val} {rest : List UInt8} (h : readDefault lib P s data = .ok v rest) :
    ∃ env out, execAll lib P s.read.2 ⟨[("output".toList, P.dflt s.read.1)], [], data⟩ = .ok () ⟨env, out, rest⟩ := by
  unfold readDefault runRead at h
  split at h
  · rename_i s' hs
    refine ⟨s'.env, s'.out, ?_⟩
    rw [hs]
    split at h
    · cases h
      rfl
    · cases h
  · cases h
  · cases h
  · cases h

/-- C99: reading a packet takes statements in proportion to the bytes of the packet, whatever comes after it. -/
theorem C99_packet_partial (hc : Checked ast r) (hB : Built r s P) (hs : ItemsTakeSpace ast) {bytes rest : List UInt8} {v : Val}
    (h : readDefault lib P s (bytes ++ rest) = .ok v rest) : readSteps lib P s (bytes ++ rest) ≤ sizes s.read.2 * max bytes.length 1 := by
  obtain ⟨env, out, h⟩ := readDefault_ok lib h
  obtain rfl := (emitted_iff hc).1 hB.emitted
  have hf := (checked_fed hc).2 hs
  have h1 := stepsAll_ends lib P _ (readStruct_calm _ hf.1 hf.2 _) _ _ h
  have h2 := (reads_execAll lib P _ (readStruct_readers _ _) _ _ _ h).1
  have h2 : out = [] := h2
  subst h2
  have h3 : used ⟨[("output".toList, P.dflt r.export.name)], [], bytes ++ rest⟩ ⟨env, [], rest⟩ = bytes.length := by
    unfold used
    simp
  rw [h3] at h1
  exact h1

/-- C99: writing a packet takes statements in proportion to the bytes written. -/
theorem C99_write_partial (hc : Checked ast r) (hn : NamesFit ast) (hB : Built r s P) (hs : ItemsTakeSpace ast) {ps : List (Str × Val)}
    {bytes : List UInt8} (h : runWrite lib P s.write.2 (.struct ps) = some bytes) :
    writeSteps lib P s (.struct ps) ≤ sizes s.write.2 * max bytes.length 1 := by
  have hP := hB.has hc
  obtain rfl := (emitted_iff hc).1 hB.emitted
  have hf := (checked_fed hc).2 hs
  have hfit := (fits_export hc hn hP).1
  unfold runWrite at h
  split at h
  · rename_i s' hs'
    cases h
    have h1 := stepsAll_ends lib P _ (writeStruct_calm P _ hfit.2 hf.1 hf.2 _) _ _ hs'
    have h2 : used ⟨[("input".toList, .struct ps)], [], []⟩ s' = s'.out.length := by
      unfold used
      simp
    rw [h2] at h1
    exact h1
  · cases h

/-- C99: if there is an array of structs without content, there are data, of at most four bytes for each statement in the text of `read`, for
which `read` executes 2^33 - 2 statements (if it can reserve memory for 2^32 - 1 items, which take none). -/
theorem C99_flood (hc : Checked ast r) (hn : NamesFit ast) (hB : Built r s P) (hm : 2 ^ 32 - 1 ≤ lib.maxItems) (hs : ¬ ItemsTakeSpace ast) :
    ∃ data : List UInt8, data.length ≤ 4 * sizes s.read.2 ∧ 2 ^ 33 - 2 ≤ readSteps lib P s data := by
  have hP := hB.has hc
  obtain rfl := (emitted_iff hc).1 hB.emitted
  obtain ⟨hfit, hdef⟩ := fits_export hc hn hP
  have h := hdef.dflt
  rw [name_eq ((checked_entries hc).2.2 _ _ _ (checked_entries hc).2.1).2.2] at h
  have h : P.dflt r.export.name = _ := h
  obtain ⟨data, hlen, hfl⟩ := floodT P lib (n := 2 ^ 32 - 1) (by decide) hm (by decide) r.export.name (.struct r.export.fields)
    (checked_sound hc) hfit hdef fun hf => hs ((checked_fed hc).1 hf)
  refine ⟨data, Nat.le_trans hlen (Nat.mul_le_mul_left 4 (readStruct_size _ _)), ?_⟩
  unfold readSteps
  dsimp only
  rw [h]
  exact hfl _ "output".toList [] _ [] True.intro (get_head _ _ _) (getV_nil _)

/-- C99, exactly, for files of a reasonable size: the bound holds if and only if there is no array of structs without content. -/
theorem C99_exact (hc : Checked ast r) (hn : NamesFit ast) (hB : Built r s P) (hm : 2 ^ 32 - 1 ≤ lib.maxItems) (hz : sizes s.read.2 ≤ 40000) :
    (∀ data, readSteps lib P s data ≤ sizes s.read.2 * (data.length + 1)) ↔ ItemsTakeSpace ast := by
  constructor
  · intro h
    by_contra hs
    obtain ⟨data, h1, h2⟩ := C99_flood lib hc hn hB hm hs
    have h3 := h data
    have h4 : sizes s.read.2 * (data.length + 1) ≤ 40000 * 160001 := Nat.mul_le_mul hz (by omega)
    omega
  · exact fun hs data => C99_read_partial lib hc hB hs data

/-! ### Examples -/

def hollowText : Str := "E: struct {}\nA: struct { e: E[] }\nexport A".toList
def hollowAst : AST :=
  [.decl "E".toList (.struct []), .decl "A".toList (.struct [("e".toList, ⟨"E".toList, true, false⟩)]), .export "A".toList]

theorem hollow_checked : Checked hollowAst (resultFor hollowAst) := checked_of (text := hollowText) (by decide +kernel) (by rfl)
theorem hollow_names : NamesFit hollowAst := namesFit_of (by decide)
theorem hollow_built : Built (resultFor hollowAst) (sourceFor hollowAst) (progOf (resultFor hollowAst).types) :=
  built_of hollow_checked hollow_names

theorem hollow_empty : ¬ ItemsTakeSpace hollowAst := by
  intro h
  have := h "A".toList _ ⟨_, rfl, .refl⟩ (List.mem_cons_of_mem _ List.mem_cons_self) _ List.mem_cons_self rfl
  have hE : ∀ p ∈ decls hollowAst, p.1 = "E".toList → p.2 = .struct [] := by decide
  cases this with
  | builtin hb => exact absurd hb (by decide)
  | enum hd => exact Ast.Ty.noConfusion (hE _ hd rfl)
  | struct hd hf _ =>
    have := hE _ hd rfl
    injection this with this
    rw [this] at hf
    cases hf

theorem C99_false : ¬ C99_claim := by
  intro h
  exact hollow_empty ((C99_exact (leLib (2 ^ 32)) hollow_checked hollow_names hollow_built (by decide) (by decide +kernel)).1
    (h _ _ _ _ _ hollow_checked hollow_names hollow_built))

/-- `E: struct {} A: struct { e: E[] }`: four bytes for 200 items and 2 * 200 + 3 statements; the text of `read` has five statements. -/
example : sizes (sourceFor hollowAst).read.2 = 5 ∧
    readSteps (leLib 1000) (progOf (resultFor hollowAst).types) (sourceFor hollowAst) [200, 0, 0, 0] = 403 := by decide +kernel

theorem example_space : ItemsTakeSpace exampleAst := by
  intro n fs _ hd f hf ha
  have hB : exampleAst.all (fun | .decl _ (.struct fs) => fs.all (fun f => !f.2.array || decide (f.2.name = "B".toList)) | _ => true) = true := by
    decide
  have := List.all_eq_true.1 (List.all_eq_true.1 hB _ hd) f hf
  rw [ha] at this
  have : f.2.name = "B".toList := of_decide_eq_true this
  rw [this]
  exact .struct (fs := [("e".toList, ⟨"E".toList, false, false⟩), ("n".toList, ⟨"uint8".toList, false, false⟩)])
    (f := ("n".toList, ⟨"uint8".toList, false, false⟩)) (by decide) (by decide) (.builtin (by decide))

/-- The packet of the example schema has 13 bytes; `read` has 12 statements and executes 12 for it. -/
example : ItemsTakeSpace exampleAst ∧ sizes (sourceFor exampleAst).read.2 = 12 ∧
    readSteps (leLib 100) (progOf (resultFor exampleAst).types) (sourceFor exampleAst) [1, 2, 0, 0, 0, 0xc3, 0xa9, 1, 0, 0, 0, 2, 7] = 12 ∧
    writeSteps (leLib 100) (progOf (resultFor exampleAst).types) (sourceFor exampleAst) (.struct examplePacket) = 8 :=
  ⟨example_space, by decide +kernel⟩

end Packetc.Props
