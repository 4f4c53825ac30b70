import Verif.Proof.Chars
import Verif.Proof.RustGood
import Verif.Props.RustInverse
/-!
# C125: the emitted Rust file is plain ASCII code
-/

namespace Packetc.Chars

/-- The text is plain code, apart from string literals with these contents (in this order); no content has a quote or a backslash in it. -/
inductive Literals : Str → List Str → Prop where
  | code {s : Str} (h : Code s) : Literals s []
  | literal {s n t : Str} {ns : List Str} (h : Code s) (hn : Code n) (ht : Literals t ns) : Literals (s ++ '"' :: n ++ '"' :: t) (n :: ns)

theorem Literals.after {s t : Str} {ns : List Str} (hs : Code s) (h : Literals t ns) : Literals (s ++ t) ns := by
  cases h with
  | code h => exact .code (code_append.2 ⟨hs, h⟩)
  | @literal s' n t ns h hn ht =>
    have : s ++ (s' ++ '"' :: n ++ '"' :: t) = (s ++ s') ++ '"' :: n ++ '"' :: t := by simp only [List.append_assoc]
    rw [this]
    exact .literal (code_append.2 ⟨hs, h⟩) hn ht

theorem Literals.append {s t : Str} {ns ms : List Str} (hs : Literals s ns) (h : Literals t ms) : Literals (s ++ t) (ns ++ ms) := by
  induction hs with
  | code hs => exact h.after hs
  | @literal s' n t' ns hs hn ht ih =>
    have : s' ++ '"' :: n ++ '"' :: t' ++ t = s' ++ '"' :: n ++ '"' :: (t' ++ t) := by simp only [List.append_assoc, List.cons_append]
    rw [this]
    exact .literal hs hn ih

/-- Such a text has only plain characters, and none that begins a comment, a character or a lifetime, or escapes. -/
theorem Literals.plain {s : Str} {ns : List Str} (h : Literals s ns) : ∀ c ∈ s, PlainChar c ∧ c ∉ "'`/\\".toList := by
  have code : ∀ {s : Str}, Code s → ∀ c ∈ s, PlainChar c ∧ c ∉ "'`/\\".toList := by
    intro s h c hc
    obtain ⟨h1, h2⟩ := h c hc
    refine ⟨h1, fun hm => h2 ?_⟩
    rw [show "\"'`/\\".toList = '"' :: "'`/\\".toList by decide]
    exact List.mem_cons_of_mem _ hm
  induction h with
  | code h => exact code h
  | literal h hn _ ih =>
    intro c hc
    rcases List.mem_append.1 hc with hc | hc
    · rcases List.mem_append.1 hc with hc | hc
      · exact code h c hc
      · rcases List.mem_cons.1 hc with rfl | hc
        · decide
        · exact code hn c hc
    · rcases List.mem_cons.1 hc with rfl | hc
      · decide
      · exact ih c hc

end Packetc.Chars

namespace Packetc.Rs
open Ast Check WellFormed RustGen Chars
open Js (deeper isIdent isIdPart)

/-- Splits appended texts; what is left are literals and facts at hand. -/
local macro "rust" : tactic =>
  `(tactic| ((try simp only [code_append]); (repeat' apply And.intro) <;> first | assumption | decide))

theorem rc_part {x : Str} (h : ∀ c ∈ x, isIdPart c = true) : Code x := by
  intro c hc
  have := h c hc
  unfold isIdPart at this
  simp only [Char.isAlphanum, Char.isAlpha, Char.isUpper, Char.isLower, Char.isDigit, Bool.or_eq_true, Bool.and_eq_true, decide_eq_true_eq] at this
  rcases this with ((⟨h1, h2⟩ | ⟨h1, h2⟩) | ⟨h1, h2⟩) | rfl
  · have h1 := UInt32.le_iff_toNat_le.1 h1
    have h2 := UInt32.le_iff_toNat_le.1 h2
    change 65 ≤ c.toNat at h1
    change c.toNat ≤ 90 at h2
    exact codeChar_of (by omega) (by omega) (by omega)
  · have h1 := UInt32.le_iff_toNat_le.1 h1
    have h2 := UInt32.le_iff_toNat_le.1 h2
    change 97 ≤ c.toNat at h1
    change c.toNat ≤ 122 at h2
    exact codeChar_of (by omega) (by omega) (by omega)
  · have h1 := UInt32.le_iff_toNat_le.1 h1
    have h2 := UInt32.le_iff_toNat_le.1 h2
    change 48 ≤ c.toNat at h1
    change c.toNat ≤ 57 at h2
    exact codeChar_of (by omega) (by omega) (by omega)
  · decide

theorem rc_ident {x : Str} (h : isIdent x = true) : Code x := by
  cases x with
  | nil => cases h
  | cons c cs =>
    refine rc_part fun d hd => ?_
    simp only [isIdent, Bool.and_eq_true, List.all_eq_true] at h
    rcases List.mem_cons.1 hd with rfl | hd
    · unfold isIdPart
      have h1 := h.1
      simp only [Bool.or_eq_true, decide_eq_true_eq] at h1 ⊢
      rcases h1 with h1 | h1
      · exact .inl (by simp [Char.isAlphanum, h1])
      · exact .inr h1
    · exact h.2 d hd

theorem rc_digits (n : Nat) : Code (toString n).toList := code_digits n
theorem rc_int (n : Int) : Code (toString n).toList := code_int n

theorem rc_if (y : Bool) {s : Str} (h : Code s) : Code (if y then s else []) := by
  cases y with
  | false => intro c hc; cases hc
  | true => exact h

theorem rc_place : (e : Expr) → GoodP e → Code e.print
  | .var x, h => rc_ident h.1
  | .field e f, h => by
    have := rc_place e h.1
    have := rc_ident h.2
    rw [pr_field]
    rust

theorem rc_expr (e : Expr) : ∀ p, Good p e → Code e.print := by
  induction e with
  | var x => exact fun p h => rc_ident h.1
  | field e f _ => exact fun p h => rc_place (.field e f) h
  | u8 n => intro p h; have := rc_digits n; rw [pr_u8]; rust
  | len e _ => intro p h; have := rc_place e h; rw [pr_len]; rust
  | cast e t ih => intro p h; have := ih _ h.2.1; have := rc_ident h.2.2; rw [pr_cast]; rust
  | addr e _ => intro p h; have := rc_place e h; rw [pr_addr]; rust
  | read t => intro p h; have := rc_part h.1; rw [pr_read]; rust
  | readString e ih => intro p h; have := ih _ h; rw [pr_readString]; rust
  | dflt t => intro p h; have := rc_ident h; rw [pr_dflt]; rust
  | some e ih => intro p h; have := ih _ h; rw [pr_some]; rust
  | tryFrom t e ih => intro p h; have := rc_ident h.1; have := ih _ h.2; rw [pr_tryFrom]; rust

theorem rc_deeper {ind : Str} (h : Code ind) : Code (deeper ind) := by
  unfold deeper
  rust

mutual
theorem rc_stmt : (s : Stmt) → GoodS s → ∀ ind, Code ind → Code (s.print ind)
  | .write t e, h, ind, hi => by
    have := rc_part h.1
    have := rc_expr e _ h.2
    rw [ps_write]
    rust
  | .matchOpt y e t n x body, h, ind, hi => by
    have := rc_place e h.1
    have := rc_part h.2.1
    have := rc_expr n _ h.2.2.1
    have := rc_ident h.2.2.2.1.1
    have := rc_if y (s := "&".toList) (by decide)
    have hd := rc_deeper hi
    have := rc_deeper hd
    have := rc_stmts body h.2.2.2.2 _ this
    rw [ps_match]
    rust
  | .forIter x e body, h, ind, hi => by
    have := rc_ident h.1.1
    have := rc_place e h.2.1
    have := rc_stmts body h.2.2 _ (rc_deeper hi)
    rw [ps_forIter]
    rust
  | .letS m x e, h, ind, hi => by
    have := rc_ident h.1.1
    have := rc_expr e _ h.2
    cases m with
    | false => rw [ps_let]; rust
    | true => rw [ps_letMut]; rust
  | .assign l r, h, ind, hi => by
    have := rc_place l h.1
    have := rc_expr r _ h.2
    rw [ps_assign]
    rust
  | .ifGt e k body, h, ind, hi => by
    have := rc_expr e _ h.1
    have := rc_digits k
    have := rc_stmts body h.2 _ (rc_deeper hi)
    rw [ps_if]
    rust
  | .reserve e n, h, ind, hi => by
    have := rc_place e h.1
    have := rc_expr n _ h.2
    rw [ps_reserve]
    rust
  | .push e v, h, ind, hi => by
    have := rc_place e h.1
    have := rc_expr v _ h.2
    rw [ps_push]
    rust
  | .forRange n body, h, ind, hi => by
    have := rc_place n h.1
    have := rc_stmts body h.2 _ (rc_deeper hi)
    rw [ps_range]
    rust
theorem rc_stmts : (ss : List Stmt) → GoodSs ss → ∀ ind, Code ind → Code (printStmts ind ss)
  | [], _, _, _ => fun c hc => nomatch hc
  | s :: ss, h, ind, hi => by
    have := rc_stmt s h.1 ind hi
    have := rc_stmts ss h.2 ind hi
    rw [ps_cons]
    rust
end

theorem rc_fieldTy {t : FieldTy} (h : Code t.base) : Code t.print := by
  have := rc_if t.opt (s := "Option<".toList) (by decide)
  have := rc_if t.vec (s := "Vec<".toList) (by decide)
  have := rc_if t.vec (s := ">".toList) (by decide)
  have := rc_if t.opt (s := ">".toList) (by decide)
  unfold FieldTy.print
  rust

theorem rc_fields : (fs : List (Str × FieldTy)) → (∀ f ∈ fs, isIdent f.1 = true ∧ isIdent f.2.base = true) →
    Code (printFields (deeper []) fs)
  | [], _ => fun c hc => nomatch hc
  | (f, t) :: fs, h => by
    have := rc_fields fs fun g hg => h g (List.mem_cons_of_mem _ hg)
    have := rc_ident (h _ List.mem_cons_self).1
    have := rc_fieldTy (t := t) (rc_ident (h _ List.mem_cons_self).2)
    unfold printFields
    rust

theorem rc_variants : (vs : List (Str × Nat)) → (∀ v ∈ vs, isIdent v.1 = true) → Code (printVariants (deeper []) vs)
  | [], _ => fun c hc => nomatch hc
  | (v, k) :: vs, h => by
    have := rc_variants vs fun g hg => h g (List.mem_cons_of_mem _ hg)
    have := rc_ident (h _ List.mem_cons_self)
    have := rc_digits k
    unfold printVariants
    rust

theorem rc_arms {n : Str} (hn : Code n) : (vs : List (Int × Str)) → (∀ v ∈ vs, isIdent v.2 = true) →
    Code (printArms (deeper (deeper (deeper []))) n vs)
  | [], _ => fun c hc => nomatch hc
  | (i, v) :: vs, h => by
    have := rc_arms hn vs fun g hg => h g (List.mem_cons_of_mem _ hg)
    have := rc_int i
    have := rc_ident (h _ List.mem_cons_self)
    unfold printArms
    rust

/-- The name of an enum. -/
def enumName : Item → Option Str
  | .struct _ _ => none
  | .enum n _ _ _ _ => some n

theorem rc_item : (i : Item) → GoodItem i → Literals i.print (enumName i).toList
  | .struct n fs, h => by
    have := rc_ident h.1
    have := rc_fields fs h.2
    refine .code ?_
    unfold Item.print
    rust
  | .enum n r vs d arms, h => by
    obtain ⟨g1, g2, g3, g4, g5⟩ := h
    have h1 := rc_ident g1
    have := rc_ident g2
    have := rc_variants vs g3
    have := rc_ident g4
    have := rc_arms h1 arms g5
    have e : "_ => Err(packet::Error::InvalidEnumValue(value as usize, \"".toList ++ n ++ "\"))\n".toList =
        "_ => Err(packet::Error::InvalidEnumValue(value as usize, ".toList ++ '"' :: n ++ '"' :: "))\n".toList := by
      rw [show "_ => Err(packet::Error::InvalidEnumValue(value as usize, \"".toList =
        "_ => Err(packet::Error::InvalidEnumValue(value as usize, ".toList ++ ['"'] by decide +kernel,
        show "\"))\n".toList = '"' :: "))\n".toList by decide]
      simp only [List.append_assoc, List.cons_append, List.nil_append]
    have hl : Literals ("_ => Err(packet::Error::InvalidEnumValue(value as usize, \"".toList ++ n ++ "\"))\n".toList) [n] := by
      rw [e]
      exact .literal (by decide +kernel) h1 (.code (by decide))
    unfold Item.print
    have hl : ∀ rest, Code rest → Literals ("_ => Err(packet::Error::InvalidEnumValue(value as usize, \"".toList ++ (n ++ ("\"))\n".toList ++ rest))) [n] := by
      intro rest hr
      have := hl.append (.code hr)
      simpa only [List.append_assoc, List.append_nil] using this
    simp only [List.append_assoc]
    repeat refine Literals.after (by first | assumption | decide +kernel) ?_
    exact hl _ (by rust)

theorem rc_items : (is : List Item) → (∀ i ∈ is, GoodItem i) → Literals (printItems is) (is.filterMap enumName)
  | [], _ => .code fun c hc => nomatch hc
  | i :: is, h => by
    have h1 := rc_item i (h i List.mem_cons_self)
    have h2 := rc_items is fun j hj => h j (List.mem_cons_of_mem _ hj)
    have : (i :: is).filterMap enumName = (enumName i).toList ++ is.filterMap enumName := by
      cases h : enumName i <;> simp [h]
    rw [this]
    unfold printItems
    exact h1.append h2

theorem rc_common : Code RustGen.genCommon := by decide +kernel

end Packetc.Rs

namespace Packetc.Props
open Ast Check WellFormed Rs RustGen Chars

/-- C125: the file has only printable ASCII and LF, no character that begins a comment or a character literal or escapes, and its string literals are the names of
the enums that are used, each once. -/
theorem C125_code {ast : AST} {r : Resolved} (hc : Checked ast r) {text : Str} (h : rustFile r = some text) :
    ∃ names, Literals text names ∧ names.Nodup ∧ ∀ n, n ∈ names ↔ Used ast n ∧ ∃ vs, (n, .enum vs) ∈ decls ast := by
  rw [rustFile_eq hc] at h
  obtain rfl := Option.some.inj h
  obtain ⟨hk, hg, hall⟩ := checked_entries hc
  have hn := rc_ident (entry_ident hc (hall _ _ _ hg).2.2).1
  have h1 := rc_items _ (good_items hc)
  have hd : Code (Js.deeper []) := by decide
  have h2 := rc_stmts _ (good_bodies hc).1 _ hd
  have h3 := rc_stmts _ (good_bodies hc).2 _ hd
  have e : ∀ d : Str × (Str × RType), (itemOf d).bind enumName = match d with | (n, _, .enum _) => some n | _ => none := by
    rintro ⟨n, m, t⟩
    cases t <;> rfl
  refine ⟨(itemsOf r.types).filterMap enumName, ?_, ?_, ?_⟩
  · have hw : Code (printWrite r.export.name (writeBody r.export)) :=
      code_append.2 ⟨code_append.2 ⟨code_append.2 ⟨code_append.2 ⟨by decide +kernel, hn⟩, by decide⟩, h2⟩, by decide⟩
    have hr : Code (printRead r.export.name (readBody r.export)) :=
      code_append.2 ⟨code_append.2 ⟨code_append.2 ⟨code_append.2 ⟨code_append.2 ⟨by decide +kernel, hn⟩, by decide⟩, h3⟩, by decide⟩, by decide⟩
    have := ((h1.after rc_common).append (.code hw)).append (.code hr)
    rwa [List.append_nil, List.append_nil] at this
  · unfold itemsOf
    rw [List.filterMap_filterMap]
    refine List.Sublist.nodup ?_ hk
    generalize r.types = l
    show List.Sublist _ (l.map Prod.fst)
    induction l with
    | nil => exact .slnil
    | cons d l ih =>
      obtain ⟨n, m, t⟩ := d
      rw [List.filterMap_cons, e]
      cases t with
      | enum => exact ih.cons_cons n
      | struct => exact ih.cons n
      | builtin => exact ih.cons n
  · intro n
    obtain ⟨ord, s, hord, hp, ht⟩ := hc
    have hnb := parsed_noBuiltinDecl hp
    unfold itemsOf
    rw [List.filterMap_filterMap, List.mem_filterMap]
    constructor
    · rintro ⟨⟨n', m, t⟩, hm, hd⟩
      rw [e] at hd
      cases t with
      | struct => cases hd
      | builtin => cases hd
      | enum v =>
        cases hd
        obtain ⟨hu, hM⟩ := Module.meaning hord hnb ht (Map.mem_get hk hm)
        cases hM with
        | enum vs _ _ hd => exact ⟨hu, vs, Js.mem_decls.2 hd⟩
    · rintro ⟨hu, vs, hd⟩
      obtain ⟨v, hv, -⟩ := (C23_faithful hord hnb ht).2.2.1 n vs hu hd
      exact ⟨_, Map.get_mem hv, e _⟩

/-- C125: the characters of the file. -/
theorem C125_chars {ast : AST} {r : Resolved} (hc : Checked ast r) {text : Str} (h : rustFile r = some text) :
    ∀ c ∈ text, PlainChar c ∧ c ∉ "'`/\\".toList := by
  obtain ⟨ns, h, -⟩ := C125_code hc h
  exact h.plain

/-- C125: the file ends with a line end. -/
theorem C125_last_line {ast : AST} {r : Resolved} (hc : Checked ast r) {text : Str} (h : rustFile r = some text) :
    ∃ s, text = s ++ "\n".toList := by
  rw [rustFile_eq hc] at h
  obtain rfl := Option.some.inj h
  unfold printRead
  rw [show "}\n".toList = "}".toList ++ "\n".toList by decide]
  simp only [← List.append_assoc]
  exact ⟨_, rfl⟩

/-- The hypotheses are met by an example schema. -/
example : ∃ r text, Checked orderedAst r ∧ rustFile r = some text := ⟨_, _, ordered_checked, textFor_eq ordered_checked⟩

end Packetc.Props
