import Verif.Proof.ParserWork
import Verif.Proof.CheckWork
import Verif.Props.Check
import Verif.Props.Parser
/-!
# C81, C82: how many steps the parser and the checker take
-/

namespace Packetc.Props
open Ast Check WellFormed

/-! ### C81 -/

/-- The steps are counted for the parser that all other theorems are about: it gives the same results. -/
theorem C81_same_parser : ParserW.schemaRule.run = Parser.schemaRule := rfl

/-- C81: parsing takes steps proportional to the length of the text, whatever the text is: there is no backtracking that multiplies. -/
theorem C81_linear (text : Str) : ParserW.schemaWork text ≤ 1550 * text.length + 7202 := by
  have h := ParserW.schemaRule_work ⟨0, text⟩
  dsimp only at h
  unfold ParserW.schemaWork
  split <;> omega

/-- C81, from below: every character of an accepted text is looked at. -/
theorem C81_reads_all {text : Str} {ast : AST} (h : Parser.schema text = .ok ast) : text.length ≤ ParserW.schemaWork text := by
  have h1 := ParserW.schemaRule_looks ⟨0, text⟩ _ _ ((Parser.schema_ok_iff _ _).1 h)
  dsimp only [List.length_nil] at h1
  unfold ParserW.schemaWork
  split <;> omega

/-- A text of 31 characters, and the steps for it. -/
example : Parser.schema "A: struct { a: uint8 }\nexport A".toList =
      .ok [.decl "A".toList (.struct [("a".toList, ⟨"uint8".toList, false, false⟩)]), .export "A".toList] ∧
    ParserW.schemaWork "A: struct { a: uint8 }\nexport A".toList = 514 := by decide +kernel

/-! ### C82 -/

theorem size_variants {vs t rest} (h : Grammar.Variants vs t rest) : vs.length ≤ t.length := by
  induction h with
  | nil => simp
  | cons h _ ih =>
    obtain ⟨l₁, c, l₂, rfl, ⟨⟨a, as, rfl, -⟩, -⟩, -⟩ := h
    simp only [List.length_cons, List.length_append]
    omega

theorem size_fields {fs t rest} (h : Grammar.Fields fs t rest) : fs.length ≤ t.length := by
  induction h with
  | nil => simp
  | field h _ ih =>
    obtain ⟨b₁, q, b₂, a, l₁, comma, l₂, rfl, -⟩ := h
    simp only [List.length_cons, List.length_append, show (":".toList).length = 1 from rfl]
    omega
  | comment h _ _ ih =>
    simp only [List.length_append]
    omega

theorem size_type {ty t} (h : Grammar.Type' ty t) : CheckW.tySize ty ≤ t.length := by
  cases h with
  | enum _ _ _ h =>
    have := size_variants h
    simp only [CheckW.tySize, List.length_append]
    omega
  | struct _ _ _ h =>
    have := size_fields h
    simp only [CheckW.tySize, List.length_append]
    omega

theorem size_lines {ast t} (h : Grammar.Lines ast t) : CheckW.astSize ast ≤ t.length := by
  unfold CheckW.astSize
  induction h with
  | nil => simp
  | comment _ _ _ _ ih =>
    simp only [List.length_append]
    omega
  | «export» _ _ _ _ _ _ _ ih =>
    simp only [List.map_cons, List.sum_cons, List.length_append, CheckW.nodeSize, show ("export".toList).length = 6 from rfl]
    omega
  | decl _ _ _ _ _ h _ _ ih =>
    have := size_type h
    simp only [List.map_cons, List.sum_cons, List.length_append, CheckW.nodeSize, show (":".toList).length = 1 from rfl]
    omega

theorem size_text {text ast} (h : Parser.schema text = .ok ast) : CheckW.astSize ast ≤ text.length := by
  obtain ⟨l, t, rfl, -, h⟩ := (Parser.schema_iff _ _).mp h
  have := size_lines h
  rw [List.length_append]
  omega

section
variable {ord : List (Str × Ty) → List (Str × Ty)} (hord : FairOrd ord) {text : Str} {ast : AST} (hp : Parser.schema text = .ok ast)
include hord hp

/-- C82: whatever the schema and the order of the hash maps, and whether the schema is accepted or not, type checking takes a number of steps that is linear in the length of
the text, plus at most three for each field of a type of a field of the exported struct. -/
theorem C82_cost : CheckW.typeCheckWork ord ast ≤ 30 * text.length + 55 + 3 * nestedFields ast := by
  have hnb := parsed_noBuiltinDecl hp
  have hs := size_text hp
  rcases CheckW.typeCheckWork_cases hord hnb with ⟨h, -⟩ | ⟨e, c, -, he, hf, -, -, h⟩
  · omega
  · have := CheckW.resolveExportWork_le hf hnb he
    omega

/-- C82: so type checking takes at most quadratically many steps, in particular it always ends; no nesting of structs makes it exponential. -/
theorem C82_quadratic : CheckW.typeCheckWork ord ast ≤ 3 * text.length ^ 2 + 30 * text.length + 55 := by
  have hnb := parsed_noBuiltinDecl hp
  have hs := size_text hp
  rcases CheckW.typeCheckWork_cases hord hnb with ⟨h, -⟩ | ⟨e, c, hn, he, hf, -, -, h⟩
  · omega
  · have h1 := CheckW.resolveExportWork_le hf hnb he
    have h2 := CheckW.nestedFields_le ast hn he
    have h3 : CheckW.astSize ast * CheckW.astSize ast ≤ text.length ^ 2 := by
      rw [Nat.pow_two]; exact Nat.mul_le_mul hs hs
    omega

/-- C82, from below: for an accepted schema, the steps for the fields of the types of the fields of the exported struct are really taken, even if all these types
are the same. -/
theorem C82_at_least {r : Resolved} (h : typeCheck ord ast = .ok r) : nestedFields ast ≤ CheckW.typeCheckWork ord ast := by
  have hnb := parsed_noBuiltinDecl hp
  rcases CheckW.typeCheckWork_cases hord hnb with ⟨-, f, h'⟩ | ⟨e, c, hn, he, hf, ht, h1, h2⟩
  · rw [h] at h'; cases h'
  · rw [h] at ht
    unfold resolveExport at ht
    cases hg : c.get e with
    | none => rw [hg] at ht; cases ht
    | some x =>
      obtain ⟨m, t⟩ := x
      have := hf.named e _ hg
      dsimp only at this
      subst this
      rw [hg] at ht
      cases t with
      | builtin b => cases ht
      | enum b => cases ht
      | struct rfs => exact le_trans (CheckW.resolveExportWork_ge hf he hg) h1
end

/-! Quadratically many steps are taken: schemas with two structs of `2 ^ k` fields each, the fields of the exported one having the other as their type. -/

/-- The words of `k` letters, each an `x` or a `y`. -/
def xyWords : Nat → List Str
  | 0 => [[]]
  | k + 1 => (xyWords k).map ('x' :: ·) ++ (xyWords k).map ('y' :: ·)

theorem xyWords_length (k : Nat) : (xyWords k).length = 2 ^ k := by
  induction k with
  | zero => rfl
  | succ k ih => simp only [xyWords, List.length_append, List.length_map, ih, Nat.pow_succ]; omega

theorem xyWords_nodup (k : Nat) : (xyWords k).Nodup := by
  induction k with
  | zero => simp [xyWords]
  | succ k ih =>
    refine List.nodup_append.2 ⟨ih.map (fun a b h => (List.cons.inj h).2), ih.map (fun a b h => (List.cons.inj h).2), ?_⟩
    intro a ha b hb hab
    obtain ⟨a', -, rfl⟩ := List.mem_map.1 ha
    obtain ⟨b', -, rfl⟩ := List.mem_map.1 hb
    exact absurd (List.cons.inj hab).1 (by decide)

theorem xyWords_mem {k : Nat} {w : Str} (h : w ∈ xyWords k) : w.length = k ∧ ∀ c ∈ w, c = 'x' ∨ c = 'y' := by
  induction k generalizing w with
  | zero => simp [xyWords] at h; simp [h]
  | succ k ih =>
    rcases List.mem_append.1 h with h | h <;> obtain ⟨v, hv, rfl⟩ := List.mem_map.1 h <;> obtain ⟨h1, h2⟩ := ih hv <;>
      refine ⟨by simp [h1], fun c hc => ?_⟩ <;> rcases List.mem_cons.1 hc with rfl | hc <;> simp_all

/-- `2 ^ k` fields of a type. -/
def xyFields (k : Nat) (t : Str) : List (Str × Unresolved) := (xyWords k).map fun w => ('x' :: w, ⟨t, false, false⟩)

def wideAst (k : Nat) : AST :=
  [.decl "S".toList (.struct (xyFields k "uint8".toList)), .decl "E".toList (.struct (xyFields k "S".toList)), .export "E".toList]

theorem wide_decls (k : Nat) : decls (wideAst k) =
    [("S".toList, .struct (xyFields k "uint8".toList)), ("E".toList, .struct (xyFields k "S".toList))] := rfl

theorem wide_field {k : Nat} {t : Str} {f} (h : f ∈ xyFields k t) : ∃ w ∈ xyWords k, f = ('x' :: w, ⟨t, false, false⟩) := by
  obtain ⟨w, hw, rfl⟩ := List.mem_map.1 h
  exact ⟨w, hw, rfl⟩

theorem wide_struct {k : Nat} {n : Str} {fs} (h : (n, Ty.struct fs) ∈ decls (wideAst k)) :
    (n = "S".toList ∧ fs = xyFields k "uint8".toList) ∨ (n = "E".toList ∧ fs = xyFields k "S".toList) := by
  rw [wide_decls] at h
  rcases List.mem_cons.1 h with h | h
  · cases h; exact .inl ⟨rfl, rfl⟩
  · cases List.mem_singleton.1 h; exact .inr ⟨rfl, rfl⟩

theorem wide_refers {k : Nat} {n m : Str} (h : Refers (wideAst k) n m) :
    (n = "S".toList ∧ m = "uint8".toList) ∨ (n = "E".toList ∧ m = "S".toList) := by
  obtain ⟨fs, hd, f, hf, rfl⟩ := h
  rcases wide_struct hd with ⟨rfl, rfl⟩ | ⟨rfl, rfl⟩
  · obtain ⟨w, -, rfl⟩ := wide_field hf
    exact .inl ⟨rfl, rfl⟩
  · obtain ⟨w, -, rfl⟩ := wide_field hf
    exact .inr ⟨rfl, rfl⟩

theorem wide_names {k : Nat} {t : Str} : FieldNamesOk (xyFields k t) := by
  intro pre f post h _ hm
  have hn : ((xyFields k t).map Prod.fst).Nodup := by
    unfold xyFields
    rw [List.map_map]
    exact (xyWords_nodup k).map fun a b hab => (List.cons.inj hab).2
  rw [h, List.map_append, List.map_cons] at hn
  exact (List.nodup_append.1 hn).2.2 _ hm _ List.mem_cons_self rfl

theorem wide_wf (k : Nat) : WF (wideAst k) := by
  refine ⟨⟨"E".toList, _, rfl, List.mem_cons_of_mem _ List.mem_cons_self⟩, ?_, ?_, ?_, ?_, ?_, ?_⟩
  · show ["S".toList, "E".toList].Nodup; decide
  · intro n vs h
    rw [wide_decls] at h
    rcases List.mem_cons.1 h with h | h
    · cases h
    · cases List.mem_singleton.1 h
  · intro n m h
    rcases wide_refers h with ⟨-, rfl⟩ | ⟨-, rfl⟩
    · exact .inl (by decide)
    · exact .inr ⟨_, List.mem_cons_self⟩
  · intro n fs h f hf
    rcases wide_struct h with ⟨-, rfl⟩ | ⟨-, rfl⟩ <;> obtain ⟨w, -, rfl⟩ := wide_field hf <;> simp
  · intro n h
    have h2 : ∀ m, Relation.TransGen (Refers (wideAst k)) n m → m ≠ "E".toList ∧ (n = "S".toList → m = "uint8".toList) := by
      intro m hm
      induction hm with
      | single h =>
        rcases wide_refers h with ⟨rfl, rfl⟩ | ⟨rfl, rfl⟩
        · exact ⟨by decide, fun _ => rfl⟩
        · exact ⟨by decide, fun h => absurd h (by decide)⟩
      | tail _ h ih =>
        rcases wide_refers h with ⟨rfl, rfl⟩ | ⟨rfl, rfl⟩
        · exact ⟨by decide, fun _ => rfl⟩
        · exact absurd rfl ih.1
    have h1 := h2 n h
    obtain ⟨m, hm, -⟩ := Relation.TransGen.head'_iff.1 h
    rcases wide_refers hm with ⟨rfl, -⟩ | ⟨rfl, -⟩
    · exact absurd (h1.2 rfl) (by decide)
    · exact h1.1 rfl
  · intro n fs h
    rcases wide_struct h with ⟨-, rfl⟩ | ⟨-, rfl⟩ <;> exact wide_names

theorem wide_nested (k : Nat) : nestedFields (wideAst k) = 2 ^ k * 2 ^ k := by
  have hw := wide_wf k
  have hs : declFields (wideAst k) "S".toList = 2 ^ k := by
    rw [CheckW.declFields_of hw.unique (t := .struct (xyFields k "uint8".toList)) List.mem_cons_self]
    simp only [structSize, xyFields, List.length_map, xyWords_length]
  rw [CheckW.nestedFields_of hw.unique (e := "E".toList) rfl (List.mem_cons_of_mem _ List.mem_cons_self)]
  have : (xyFields k "S".toList).map (fun f => declFields (wideAst k) f.2.name) = (xyWords k).map fun _ => 2 ^ k := by
    unfold xyFields
    rw [List.map_map]
    exact List.map_congr_left fun w _ => hs
  rw [this, List.map_const', List.sum_replicate, xyWords_length]
  rfl

theorem wide_ident {k : Nat} {w : Str} (h : w ∈ xyWords k) : Grammar.Ident ('x' :: w) := by
  have hc : ∀ c ∈ w, Grammar.WordChar c := by
    intro c hc
    rcases (xyWords_mem h).2 c hc with rfl | rfl <;> exact .inl (.inl (by decide))
  refine ⟨⟨'x', w, rfl, .inl (.inl (by decide)), hc⟩, ?_⟩
  intro r hr hp
  simp only [Grammar.reservedWords, List.mem_cons, List.not_mem_nil, or_false] at hr
  rcases hr with rfl | rfl | rfl | rfl | rfl | rfl | rfl | rfl | rfl | rfl <;> obtain ⟨t, ht⟩ := hp <;>
    exact absurd (List.cons.inj ht).1 (by decide)

theorem wide_legal (k : Nat) : Print.Legal (wideAst k) := by
  have id1 : ∀ c : Char, c = 'S' ∨ c = 'E' → Grammar.Ident [c] ∧ ¬ "export".toList <+: [c] := by
    rintro c hc
    refine ⟨⟨⟨c, [], rfl, .inl (.inr (by rcases hc with rfl | rfl <;> decide)), by simp [Grammar.Word]⟩, ?_⟩, ?_⟩
    · intro r hr hp
      have := hp.length_le
      simp only [Grammar.reservedWords, List.mem_cons, List.not_mem_nil, or_false] at hr
      rcases hr with rfl | rfl | rfl | rfl | rfl | rfl | rfl | rfl | rfl | rfl <;> exact absurd this (by simp)
    · intro hp
      exact absurd hp.length_le (by simp)
  have hS : Grammar.Word "S".toList := by
    intro c hc
    cases List.mem_singleton.1 hc
    exact .inl (.inr (by decide))
  have hE : Grammar.Word "E".toList := by
    intro c hc
    cases List.mem_singleton.1 hc
    exact .inl (.inr (by decide))
  have hu : Grammar.Word "uint8".toList := by
    intro c hc
    have : c = 'u' ∨ c = 'i' ∨ c = 'n' ∨ c = 't' ∨ c = '8' := by simpa using hc
    rcases this with rfl | rfl | rfl | rfl | rfl
    · exact .inl (.inl (by decide))
    · exact .inl (.inl (by decide))
    · exact .inl (.inl (by decide))
    · exact .inl (.inl (by decide))
    · exact .inr (.inl ⟨by decide, by decide⟩)
  intro n hn
  simp only [wideAst, List.mem_cons, List.not_mem_nil, or_false] at hn
  rcases hn with rfl | rfl | rfl
  · refine ⟨(id1 'S' (.inl rfl)).1, (id1 'S' (.inl rfl)).2, ?_⟩
    intro f hf
    obtain ⟨w, hw, rfl⟩ := wide_field hf
    exact ⟨wide_ident hw, hu⟩
  · refine ⟨(id1 'E' (.inr rfl)).1, (id1 'E' (.inr rfl)).2, ?_⟩
    intro f hf
    obtain ⟨w, hw, rfl⟩ := wide_field hf
    exact ⟨wide_ident hw, hS⟩
  · exact hE

theorem wide_text (k : Nat) : (Print.schema (wideAst k)).length ≤ 2 ^ k * (2 * k + 80) := by
  have hf : ∀ (t : Str) (l : List Str), t.length ≤ 5 → (∀ w ∈ l, w ∈ xyWords k) →
      ((l.map fun w => (('x' :: w, ⟨t, false, false⟩) : Str × Unresolved)).flatMap Print.field).length ≤ l.length * (k + 10) := by
    intro t l ht hl
    induction l with
    | nil => simp
    | cons w l ih =>
      have h1 := ih fun w hw => hl w (List.mem_cons_of_mem _ hw)
      have h2 := (xyWords_mem (hl w List.mem_cons_self)).1
      have h3 : (Print.field (('x' :: w, ⟨t, false, false⟩) : Str × Unresolved)).length ≤ k + 10 := by
        simp [Print.field, h2]
        omega
      simp only [List.map_cons, List.flatMap_cons, List.length_append, List.length_cons, Nat.add_mul] at h1 ⊢
      omega
  have h1 := hf "uint8".toList (xyWords k) (by decide) fun _ h => h
  have h2 := hf "S".toList (xyWords k) (by decide) fun _ h => h
  rw [xyWords_length] at h1 h2
  have h3 : (Print.schema (wideAst k)).length =
      ((xyFields k "uint8".toList).flatMap Print.field).length + ((xyFields k "S".toList).flatMap Print.field).length + 37 := by
    have he : Print.schema (wideAst k) =
        ("S".toList ++ ": ".toList ++ ("struct {\n".toList ++ (xyFields k "uint8".toList).flatMap Print.field ++ "}".toList) ++ "\n".toList) ++
        (("E".toList ++ ": ".toList ++ ("struct {\n".toList ++ (xyFields k "S".toList).flatMap Print.field ++ "}".toList) ++ "\n".toList) ++
        (("export ".toList ++ "E".toList ++ "\n".toList) ++ [])) := rfl
    rw [he]
    simp only [List.length_append, show ("S".toList).length = 1 from rfl, show ("E".toList).length = 1 from rfl,
      show (": ".toList).length = 2 from rfl, show ("struct {\n".toList).length = 9 from rfl, show ("}".toList).length = 1 from rfl,
      show ("\n".toList).length = 1 from rfl, show ("export ".toList).length = 7 from rfl, List.length_nil]
    omega
  have h4 : 1 ≤ 2 ^ k := Nat.one_le_two_pow
  unfold xyFields at h3
  rw [h3]
  have h5 : 2 ^ k * (2 * k + 80) = 2 ^ k * (k + 10) + 2 ^ k * (k + 10) + 60 * 2 ^ k := by ring
  omega

/-- C82: the bound cannot be made linear: for every factor there is an accepted schema for which, in any hash order, type checking takes more steps than its length times this factor. -/
theorem C82_not_linear (factor : Nat) : ∃ text ast, Parser.schema text = .ok ast ∧ ∀ ord, FairOrd ord →
    (∃ r, typeCheck ord ast = .ok r) ∧ factor * text.length < CheckW.typeCheckWork ord ast := by
  obtain ⟨j, hj⟩ : ∃ j, j = 100 * factor + 100 := ⟨_, rfl⟩
  have hp := C02_print_parse (wideAst (2 * j)) (wide_legal _)
  refine ⟨_, _, hp, fun ord hord => ?_⟩
  obtain ⟨r, hr⟩ := (C12_text hord hp).2 (wide_wf _)
  refine ⟨⟨r, hr⟩, lt_of_lt_of_le ?_ (C82_at_least hord hp hr)⟩
  rw [wide_nested]
  have h1 := wide_text (2 * j)
  have h2 : factor * (2 * (2 * j) + 80) < 2 ^ (2 * j) := by
    have h3 : j + 1 ≤ 2 ^ j := Nat.lt_two_pow_self
    have h4 : (j + 1) * (j + 1) ≤ 2 ^ (2 * j) := by
      rw [Nat.two_mul, Nat.pow_add]
      exact Nat.mul_le_mul h3 h3
    have h5 : factor * (2 * (2 * j) + 80) < (j + 1) * (j + 1) := by
      nlinarith
    omega
  calc factor * (Print.schema (wideAst (2 * j))).length ≤ factor * (2 ^ (2 * j) * (2 * (2 * j) + 80)) := Nat.mul_le_mul_left _ h1
    _ = 2 ^ (2 * j) * (factor * (2 * (2 * j) + 80)) := by ring
    _ < 2 ^ (2 * j) * 2 ^ (2 * j) := Nat.mul_lt_mul_of_pos_left h2 (by positivity)

/-- The hypotheses are met by the example schema; its exported struct has one field whose type is a struct. -/
example : Parser.schema exampleText = .ok exampleAst ∧ (∃ r, typeCheck id exampleAst = .ok r) ∧ nestedFields exampleAst ≠ 0 ∧
    CheckW.typeCheckWork id exampleAst ≤ 400 :=
  ⟨example_parses, example_accepted, by decide +kernel, by decide +kernel⟩

end Packetc.Props
