import Verif.Rust.Parse
import Verif.Proof.JsGood
/-!
# The tokens of printed Rust
-/

namespace Packetc.Rs
open Js (isIdStart isIdPart digitsValue isIdent deeper)

/-! ### running the lexer on parts of a text -/

theorem lexFrom_append (st : LState) (a b : Str) :
    lexFrom st (a ++ b) = (lexFrom st a).bind fun r => (lexFrom r.2 b).map fun q => (r.1 ++ q.1, q.2) := by
  induction a generalizing st with
  | nil => cases h : lexFrom st b <;> simp [lexFrom, h]
  | cons c cs ih =>
    simp only [List.cons_append, lexFrom]
    cases h : step st c with
    | none => rfl
    | some r =>
      simp only [Option.bind_some, ih]
      cases h2 : lexFrom r.2 cs with
      | none => rfl
      | some q =>
        simp only [Option.bind_some, Option.map_some]
        cases h3 : lexFrom q.2 b with
        | none => rfl
        | some p => simp [List.append_assoc]

/-- The token that has been begun. -/
def flush : LState → List Tok
  | .word s => [.word s]
  | .num ds => [.num (digitsValue ds) []]
  | .suffix ds s => [.num (digitsValue ds) s]
  | .op s => [.op s]
  | _ => []

/-- The character ends what has been begun. -/
def joins : LState → Char → Bool
  | .start, _ => true
  | .word _, c => !isIdPart c && !isPrefixed c
  | .num _, c => !isIdPart c && !isPrefixed c && !decide (c = '.')
  | .suffix _ s, c => !isIdPart c && !isPrefixed c && !decide (c = '.') && decide (s ∈ suffixes)
  | .op s, c => decide (s ++ [c] ∉ operators)
  | _, _ => false

theorem lexFrom_join {st : LState} {c : Char} (h : joins st c = true) (cs : Str) :
    lexFrom st (c :: cs) = (lexFrom .start (c :: cs)).map fun q => (flush st ++ q.1, q.2) := by
  have key : ∀ t : Tok, step st c = stepAfter t c → flush st = [t] →
      lexFrom st (c :: cs) = (lexFrom .start (c :: cs)).map fun q => (flush st ++ q.1, q.2) := by
    intro t h1 h2
    show (step st c).bind _ = ((stepStart c).bind _).map _
    rw [h1, h2]
    unfold stepAfter
    cases stepStart c with
    | none => rfl
    | some r => cases h : lexFrom r.2 cs <;> simp [h]
  cases st with
  | start => cases h : lexFrom .start (c :: cs) <;> simp [flush]
  | word s =>
    simp only [joins, Bool.and_eq_true, Bool.not_eq_true'] at h
    refine key (.word s) ?_ rfl
    simp [step, h.1, h.2]
  | num ds =>
    simp only [joins, Bool.and_eq_true, Bool.not_eq_true', decide_eq_false_iff_not] at h
    refine key (.num (digitsValue ds) []) ?_ rfl
    simp [step, h.1.1, h.1.2, h.2, Js.isIdPart_digit h.1.1]
  | suffix ds s =>
    simp only [joins, Bool.and_eq_true, Bool.not_eq_true', decide_eq_false_iff_not, decide_eq_true_eq] at h
    refine key (.num (digitsValue ds) s) ?_ rfl
    simp [step, h.1.1.1, h.1.1.2, h.1.2, h.2]
  | op s =>
    simp only [joins, decide_eq_true_eq] at h
    refine key (.op s) ?_ rfl
    simp only [step]
    rw [if_neg h]
  | dot ds => cases h
  | str s => cases h

/-- The text has these tokens, and ends in a state of this kind. -/
def Lx (K : LState → Prop) (s : Str) (ts : List Tok) : Prop := ∃ out st, lexFrom .start s = some (out, st) ∧ K st ∧ ts = out ++ flush st

/-- Between tokens. -/
inductive KS : LState → Prop
  | start : KS .start
/-- Between tokens or in a word. -/
inductive KW : LState → Prop
  | start : KW .start
  | word (s : Str) : KW (.word s)
/-- Between tokens or in a word or number. -/
inductive KN : LState → Prop
  | start : KN .start
  | word (s : Str) : KN (.word s)
  | num (ds : Str) : KN (.num ds)
  | suffix (ds s : Str) (h : s ∈ suffixes) : KN (.suffix ds s)
/-- In punctuation. -/
inductive KO : LState → Prop
  | op (s : Str) : KO (.op s)

abbrev Cl := Lx KS

theorem Lx.mono {K K' : LState → Prop} (h : ∀ st, K st → K' st) {s ts} (hl : Lx K s ts) : Lx K' s ts := by
  obtain ⟨out, st, h1, h2, h3⟩ := hl
  exact ⟨out, st, h1, h st h2, h3⟩
theorem Lx.lx {s ts} (hl : Lx KW s ts) : Lx KN s ts := hl.mono fun st h => by cases h <;> constructor
theorem Lx.lxC {s ts} (hl : Cl s ts) : Lx KN s ts := hl.mono fun st h => by cases h; constructor
theorem Lx.lxCW {s ts} (hl : Cl s ts) : Lx KW s ts := hl.mono fun st h => by cases h; constructor

theorem Lx.join {K K' : LState → Prop} {a c b ta tb} (ha : Lx K a ta) (hc : ∀ st, K st → joins st c = true) (hb : Lx K' (c :: b) tb) :
    Lx K' (a ++ c :: b) (ta ++ tb) := by
  obtain ⟨out, st, h1, h2, rfl⟩ := ha
  obtain ⟨out', st', h1', h2', rfl⟩ := hb
  refine ⟨out ++ (flush st ++ out'), st', ?_, h2', by simp⟩
  rw [lexFrom_append, h1]
  simp [lexFrom_join (hc st h2), h1']

theorem Lx.then {K' : LState → Prop} {a b ta tb} (ha : Cl a ta) (hb : Lx K' b tb) : Lx K' (a ++ b) (ta ++ tb) := by
  obtain ⟨out, st, h1, h2, rfl⟩ := ha
  cases h2
  obtain ⟨out', st', h1', h2', rfl⟩ := hb
  refine ⟨out ++ out', st', ?_, h2', by simp [flush]⟩
  rw [lexFrom_append, h1]
  simp [h1']

/-- The first character cannot continue a word or a number. -/
def delimB : Str → Bool
  | [] => false
  | c :: _ => !isIdPart c && !isPrefixed c && !decide (c = '.')
/-- The first character cannot continue a word. -/
def delimW : Str → Bool
  | [] => false
  | c :: _ => !isIdPart c && !isPrefixed c
/-- The first character can be in a word or number. -/
def wordy : Str → Bool
  | [] => false
  | c :: _ => isIdPart c

theorem Lx.lit {K' : LState → Prop} {a ta} (h : Lx KN a ta) {s : Str} {ts} (hl : Lx K' s ts) (hd : delimB s = true) :
    Lx K' (a ++ s) (ta ++ ts) := by
  cases s with
  | nil => cases hd
  | cons c s =>
    refine h.join (fun st hk => ?_) hl
    change (!isIdPart c && !isPrefixed c && !decide (c = '.')) = true at hd
    have := hd
    simp only [Bool.and_eq_true] at this
    cases hk with
    | start => rfl
    | word => exact Bool.and_eq_true_iff.2 this.1
    | num => exact hd
    | suffix ds s hs => exact Bool.and_eq_true_iff.2 ⟨hd, decide_eq_true hs⟩
theorem Lx.litW {K' : LState → Prop} {a ta} (h : Lx KW a ta) {s : Str} {ts} (hl : Lx K' s ts) (hd : delimW s = true) :
    Lx K' (a ++ s) (ta ++ ts) := by
  cases s with
  | nil => cases hd
  | cons c s =>
    refine h.join (fun st hk => ?_) hl
    cases hk with
    | start => rfl
    | word => exact hd
theorem operators_parts : ∀ o ∈ operators, ∀ c ∈ o, isIdPart c = false := by decide
theorem Lx.litO {K' : LState → Prop} {a ta} (h : Lx KO a ta) {s : Str} {ts} (hl : Lx K' s ts) (hd : wordy s = true) :
    Lx K' (a ++ s) (ta ++ ts) := by
  cases s with
  | nil => cases hd
  | cons c s =>
    refine h.join (fun st hk => ?_) hl
    cases hk with
    | op o =>
      refine decide_eq_true fun hm => ?_
      change isIdPart c = true at hd
      rw [operators_parts _ hm c (by simp)] at hd
      cases hd

/-! ### words and numbers -/

theorem stepStart_idStart {c : Char} (h : isIdStart c = true) : stepStart c = some ([], .word [c]) := by
  have h1 : isSpace c = false := by
    unfold isSpace
    simp only [Bool.or_eq_false_iff, decide_eq_false_iff_not]
    refine ⟨⟨⟨?_, ?_⟩, ?_⟩, ?_⟩ <;> (rintro rfl; revert h; decide)
  unfold stepStart
  simp [h1, h]

theorem lexFrom_word (s cs : Str) (h : ∀ c ∈ cs, isIdPart c = true) : lexFrom (.word s) cs = some ([], .word (s ++ cs)) := by
  induction cs generalizing s with
  | nil => simp [lexFrom]
  | cons c cs ih =>
    simp only [lexFrom, step, h c List.mem_cons_self]
    simp [ih (s ++ [c]) (fun d hd => h d (List.mem_cons_of_mem _ hd))]

theorem lx_word {x : Str} (h : isIdent x = true) : Lx KW x [.word x] := by
  cases x with
  | nil => cases h
  | cons c cs =>
    unfold isIdent at h
    simp only [Bool.and_eq_true, List.all_eq_true] at h
    have h2 : ∀ d ∈ cs, isIdPart d = true := h.2
    refine ⟨[], .word (c :: cs), ?_, .word _, rfl⟩
    have h1 : step .start c = some ([], .word [c]) := stepStart_idStart h.1
    simp [lexFrom, h1, lexFrom_word [c] cs h2]

theorem wordy_ident {x : Str} (h : isIdent x = true) (s : Str) : wordy (x ++ s) = true := by
  cases x with
  | nil => cases h
  | cons c cs => exact Js.ident_parts h c List.mem_cons_self

/-- A word of which the beginning is fixed. -/
theorem lx_prefix {a p t : Str} {out} (h : lexFrom .start a = some (out, .word p)) (ht : ∀ c ∈ t, isIdPart c = true) :
    Lx KW (a ++ t) (out ++ [.word (p ++ t)]) := by
  refine ⟨out, .word (p ++ t), ?_, .word _, rfl⟩
  rw [lexFrom_append, h]
  simp [lexFrom_word p t ht]

theorem lex_digits (n : Nat) : lexFrom .start (Nat.toDigits 10 n) = some ([], .num (Nat.toDigits 10 n)) := by
  induction n using Nat.strongRecOn with
  | _ n ih =>
    by_cases hn : n < 10
    · have : n = 0 ∨ n = 1 ∨ n = 2 ∨ n = 3 ∨ n = 4 ∨ n = 5 ∨ n = 6 ∨ n = 7 ∨ n = 8 ∨ n = 9 := by omega
      rcases this with rfl | rfl | rfl | rfl | rfl | rfl | rfl | rfl | rfl | rfl <;> decide
    · have h1 := ih (n / 10) (by omega)
      have hm : n % 10 < 10 := Nat.mod_lt _ (by omega)
      have he : Nat.toDigits 10 n = Nat.toDigits 10 (n / 10) ++ [(n % 10).digitChar] := by
        rw [← Nat.toDigits_of_lt_base hm, Nat.toDigits_append_toDigits (by omega) (by omega) hm]
        congr 1
        omega
      have hd : (n % 10).digitChar.isDigit = true := by rw [Nat.isDigit_digitChar]; simpa using hm
      rw [he, lexFrom_append, h1]
      simp [lexFrom, step, hd]

theorem toString_nat (n : Nat) : (toString n).toList = Nat.toDigits 10 n := String.toList_ofList

theorem lx_nat (n : Nat) : Lx KN (toString n).toList [.num n []] := by
  rw [toString_nat]
  exact ⟨[], _, lex_digits n, .num _, by simp [flush, (Js.lex_digits n).2]⟩

theorem lx_u8 (n : Nat) : Lx KN ((toString n).toList ++ "u8".toList) [.num n "u8".toList] := by
  rw [toString_nat]
  refine ⟨[], .suffix (Nat.toDigits 10 n) "u8".toList, ?_, .suffix _ _ (by decide), by simp [flush, (Js.lex_digits n).2]⟩
  rw [lexFrom_append, lex_digits]
  rfl

/-- The tokens of an integer. -/
def intToks (i : Int) : List Tok := if i < 0 then [op "-", .num i.natAbs []] else [.num i.natAbs []]

theorem lx_int (i : Int) : Lx KN (toString i).toList (intToks i) := by
  cases i with
  | ofNat n =>
    have : intToks (Int.ofNat n) = [.num n []] := by
      unfold intToks
      rw [if_neg (by exact Int.not_lt.2 (Int.natCast_nonneg n))]
      rfl
    rw [this]
    exact lx_nat n
  | negSucc n =>
    have h : (toString (Int.negSucc n)).toList = "-".toList ++ (toString (n + 1)).toList := by
      show ("-" ++ Nat.repr (n + 1)).toList = _
      rw [String.toList_append]
      rfl
    have : intToks (Int.negSucc n) = [op "-"] ++ [.num (n + 1) []] := by
      unfold intToks
      rw [if_pos (Int.negSucc_lt_zero n)]
      rfl
    rw [h, this]
    refine Lx.litO (a := "-".toList) (ta := [op "-"]) ⟨_, _, rfl, .op _, rfl⟩ (lx_nat _) ?_
    rw [toString_nat]
    cases h3 : Nat.toDigits 10 (n + 1) with
    | nil =>
      have h2 := (Js.lex_digits (n + 1)).2
      rw [h3] at h2
      exact absurd h2 (by show ¬ (0 = n + 1); omega)
    | cons c cs =>
      have : c.isDigit = true :=
        Nat.isDigit_of_mem_toDigits (b := 10) (by omega) (by omega) (by rw [h3]; exact List.mem_cons_self)
      show isIdPart c = true
      unfold isIdPart Char.isAlphanum
      rw [this]
      simp

/-! ### expressions -/

/-- The tokens of an expression. -/
def Expr.toks : Expr → List Tok
  | .var x => [.word x]
  | .field e f => e.toks ++ [op "."] ++ [.word f]
  | .u8 n => [.num n "u8".toList]
  | .len e => e.toks ++ [op ".", kw "len", op "(", op ")"]
  | .cast e t => e.toks ++ [kw "as"] ++ [.word t]
  | .addr e => [op "&"] ++ e.toks
  | .read t => [kw "reader", op "."] ++ [.word ("read_".toList ++ t)] ++ [op "(", op ")", op "?"]
  | .readString e => [kw "reader", op ".", kw "read_string", op "("] ++ e.toks ++ [op ")", op "?"]
  | .dflt t => [.word t] ++ [op "::", kw "default", op "(", op ")"]
  | .some e => [kw "Some", op "("] ++ e.toks ++ [op ")"]
  | .tryFrom t e => [.word t] ++ [op "::", kw "try_from", op "("] ++ e.toks ++ [op ")", op "?"]

/-- Words that begin something other than a place, and keywords. -/
def markers : List Str := ["Some".toList, "reader".toList, "writer".toList, "Ok".toList] ++ keywords

/-- Names of variables. -/
def GoodVar (x : Str) : Prop := isIdent x = true ∧ x ∉ markers

/-- `x.f.g` -/
def GoodP : Expr → Prop
  | .var x => GoodVar x
  | .field e f => GoodP e ∧ isIdent f = true
  | _ => False

/-- Expressions as they are printed: `prim` if without a cast. -/
def Good (prim : Bool) : Expr → Prop
  | .var x => GoodVar x
  | .field e f => GoodP e ∧ isIdent f = true
  | .u8 _ => True
  | .len e => GoodP e
  | .cast e t => prim = false ∧ Good true e ∧ isIdent t = true
  | .addr e => GoodP e
  | .read t => (∀ c ∈ t, isIdPart c = true) ∧ t ≠ "string".toList
  | .readString e => Good false e
  | .dflt t => isIdent t = true
  | .some e => Good false e
  | .tryFrom t e => isIdent t = true ∧ Good false e

theorem GoodP.good {e : Expr} (h : GoodP e) (b : Bool) : Good b e := by
  cases e with
  | var x => exact h
  | field e f => exact h
  | _ => exact h.elim

theorem lx_place {e : Expr} (h : GoodP e) : Lx KW e.print e.toks := by
  induction e with
  | var x => exact lx_word h.1
  | field e f ih =>
    refine Lx.litO (Lx.litW (ih h.1) (s := ".".toList) (ts := [op "."]) ⟨_, _, rfl, .op _, rfl⟩ (by decide)) (lx_word h.2) ?_
    have := wordy_ident h.2 []
    rwa [List.append_nil] at this
  | _ => exact h.elim

theorem wordy_append {a : Str} (h : wordy a = true) (b : Str) : wordy (a ++ b) = true := by
  cases a with
  | nil => cases h
  | cons c cs => exact h

theorem wordy_place {e : Expr} (h : GoodP e) : wordy e.print = true := by
  induction e with
  | var x =>
    have := wordy_ident h.1 []
    rwa [List.append_nil] at this
  | field e f ih =>
    show wordy (e.print ++ _ ++ f) = true
    rw [List.append_assoc]
    exact wordy_append (ih h.1) _
  | _ => exact h.elim

theorem lx_expr {e : Expr} : ∀ {b : Bool}, Good b e → Lx KN e.print e.toks := by
  induction e with
  | var x => exact fun h => (lx_place (e := .var x) h).lx
  | field e f ih => exact fun h => (lx_place (e := .field e f) h).lx
  | u8 n => exact fun _ => lx_u8 n
  | len e ih =>
    exact fun h => ((lx_place h).litW (s := ".len()".toList) (ts := [op ".", kw "len", op "(", op ")"]) ⟨_, _, rfl, .start, rfl⟩ (by decide) : Cl _ _).lxC
  | cast e t ih =>
    exact fun h => (((ih h.2.1).lit (s := " as ".toList) (ts := [kw "as"]) ⟨_, _, rfl, .start, rfl⟩ (by decide) : Cl _ _).then (lx_word h.2.2)).lx
  | addr e ih =>
    exact fun h => (Lx.litO (a := "&".toList) (ta := [op "&"]) ⟨_, _, rfl, .op _, rfl⟩ (lx_place h) (wordy_place h)).lx
  | read t =>
    exact fun h => ((lx_prefix (a := "reader.read_".toList) (p := "read_".toList) (out := [kw "reader", op "."]) rfl h.1).litW
      (s := "()?".toList) (ts := [op "(", op ")", op "?"]) ⟨_, _, rfl, .start, rfl⟩ (by decide) : Cl _ _).lxC
  | readString e ih =>
    exact fun h => ((Lx.then (a := "reader.read_string(".toList) (ta := [kw "reader", op ".", kw "read_string", op "("]) ⟨_, _, rfl, .start, rfl⟩ (ih h)).lit
      (s := ")?".toList) (ts := [op ")", op "?"]) ⟨_, _, rfl, .start, rfl⟩ (by decide) : Cl _ _).lxC
  | dflt t =>
    exact fun h => ((lx_word h).litW (s := "::default()".toList) (ts := [op "::", kw "default", op "(", op ")"])
      ⟨_, _, rfl, .start, rfl⟩ (by decide) : Cl _ _).lxC
  | some e ih =>
    exact fun h => ((Lx.then (a := "Some(".toList) (ta := [kw "Some", op "("]) ⟨_, _, rfl, .start, rfl⟩ (ih h)).lit
      (s := ")".toList) (ts := [op ")"]) ⟨_, _, rfl, .start, rfl⟩ (by decide) : Cl _ _).lxC
  | tryFrom t e ih =>
    exact fun h => ((Lx.then ((lx_word h.1).litW (s := "::try_from(".toList) (ts := [op "::", kw "try_from", op "("])
      ⟨_, _, rfl, .start, rfl⟩ (by decide)) (ih h.2)).lit
      (s := ")?".toList) (ts := [op ")", op "?"]) ⟨_, _, rfl, .start, rfl⟩ (by decide) : Cl _ _).lxC

/-! ### statements -/

mutual
/-- The tokens of a statement. -/
def Stmt.toks : Stmt → List Tok
  | .write t e => [kw "writer", op "."] ++ [.word ("write_".toList ++ t)] ++ [op "("] ++ e.toks ++ [op ")", op ";"]
  | .matchOpt byRef e t n x body =>
    [kw "match"] ++ (if byRef then [op "&"] else []) ++ e.toks ++ [op "{"] ++
      ([kw "None", op "=>", kw "writer", op "."] ++ [.word ("write_".toList ++ t)] ++ [op "("] ++ n.toks ++ [op ")", op ","]) ++
      ([kw "Some", op "("] ++ [.word x] ++ [op ")", op "=>", op "{"]) ++ stmtsToks body ++ [op "}"] ++ [op "}"]
  | .forIter x e body =>
    ([kw "for"] ++ [.word x] ++ [kw "in"] ++ e.toks ++ [op ".", kw "iter", op "(", op ")", op "{"]) ++ stmtsToks body ++ [op "}"]
  | .letS isMut x e => [kw "let"] ++ (if isMut then [kw "mut"] else []) ++ [.word x] ++ [op "="] ++ e.toks ++ [op ";"]
  | .assign l r => l.toks ++ [op "="] ++ r.toks ++ [op ";"]
  | .ifGt e n body => ([kw "if"] ++ e.toks ++ [op ">"] ++ [.num n []] ++ [op "{"]) ++ stmtsToks body ++ [op "}"]
  | .reserve e n => e.toks ++ [op ".", kw "reserve", op "("] ++ n.toks ++ [op ")", op ";"]
  | .push e v => e.toks ++ [op ".", kw "push", op "("] ++ v.toks ++ [op ")", op ";"]
  | .forRange n body => ([kw "for", kw "_", kw "in", .num 0 [], op ".."] ++ n.toks ++ [op "{"]) ++ stmtsToks body ++ [op "}"]
/-- The tokens of a statement list. -/
def stmtsToks : List Stmt → List Tok
  | [] => []
  | s :: ss => s.toks ++ stmtsToks ss
end

mutual
/-- Statements as they are printed. -/
def GoodS : Stmt → Prop
  | .write t e => (∀ c ∈ t, isIdPart c = true) ∧ Good false e
  | .matchOpt _ e t n x body => GoodP e ∧ (∀ c ∈ t, isIdPart c = true) ∧ Good false n ∧ GoodVar x ∧ GoodSs body
  | .forIter x e body => GoodVar x ∧ GoodP e ∧ GoodSs body
  | .letS _ x e => GoodVar x ∧ Good false e
  | .assign l r => GoodP l ∧ Good false r
  | .ifGt e _ body => Good false e ∧ GoodSs body
  | .reserve e n => GoodP e ∧ Good false n
  | .push e v => GoodP e ∧ Good false v
  | .forRange n body => GoodP n ∧ GoodSs body
def GoodSs : List Stmt → Prop
  | [] => True
  | s :: ss => GoodS s ∧ GoodSs ss
end

theorem cl_nil : Cl [] [] := ⟨_, _, rfl, .start, rfl⟩
theorem Cl.indent {ind s : Str} {ts} (hi : Cl ind []) (h : Cl s ts) : Cl (ind ++ s) ts := Lx.then hi h
theorem cl_deeper {ind : Str} (h : Cl ind []) : Cl (deeper ind) [] := Lx.then h (b := "    ".toList) ⟨_, _, rfl, .start, rfl⟩

/-- `writer.write_t(e` -/
theorem lx_write {a : Str} {out : List Tok} {t : Str} {e : Expr} (ht : ∀ c ∈ t, isIdPart c = true) (he : Good false e)
    (h : lexFrom .start a = some (out, .word "write_".toList)) :
    Lx KN (a ++ t ++ "(".toList ++ e.print) (out ++ [.word ("write_".toList ++ t)] ++ [op "("] ++ e.toks) :=
  Lx.then ((lx_prefix h ht).litW (s := "(".toList) (ts := [op "("]) ⟨_, _, rfl, .start, rfl⟩ (by decide)) (lx_expr he)

theorem cl_close {ind : Str} (hi : Cl ind []) : Cl (ind ++ "}\n".toList) [op "}"] := hi.indent ⟨_, _, rfl, .start, rfl⟩

mutual
theorem cl_stmt {ind : Str} (hi : Cl ind []) : (s : Stmt) → GoodS s → Cl (s.print ind) s.toks
  | .write t e, h => by
    unfold Stmt.print Stmt.toks
    exact hi.indent ((lx_write h.1 h.2 (out := [kw "writer", op "."]) rfl).lit (s := ");\n".toList) (ts := [op ")", op ";"])
      ⟨_, _, rfl, .start, rfl⟩ (by decide))
  | .matchOpt byRef e t n x body, h => by
    unfold Stmt.print Stmt.toks
    refine Lx.then (Lx.then (Lx.then (Lx.then (Lx.then (hi.indent ?_) ((cl_deeper hi).indent ?_)) ((cl_deeper hi).indent ?_))
      (cl_stmts (cl_deeper (cl_deeper hi)) body h.2.2.2.2)) (cl_close (cl_deeper hi))) (cl_close hi)
    · refine Lx.litW ?_ (s := " {\n".toList) (ts := [op "{"]) ⟨_, _, rfl, .start, rfl⟩ (by decide)
      cases byRef with
      | true =>
        exact Lx.litO (a := "match &".toList) (ta := [kw "match"] ++ [op "&"]) ⟨_, _, rfl, .op _, rfl⟩ (lx_place h.1) (wordy_place h.1)
      | false => exact Lx.then (a := "match ".toList) (ta := [kw "match"]) ⟨_, _, rfl, .start, rfl⟩ (lx_place h.1)
    · exact (lx_write h.2.1 h.2.2.1 (out := [kw "None", op "=>", kw "writer", op "."]) rfl).lit (s := "),\n".toList) (ts := [op ")", op ","])
        ⟨_, _, rfl, .start, rfl⟩ (by decide)
    · exact (Lx.then (a := "Some(".toList) (ta := [kw "Some", op "("]) ⟨_, _, rfl, .start, rfl⟩ (lx_word h.2.2.2.1.1)).litW
        (s := ") => {\n".toList) (ts := [op ")", op "=>", op "{"]) ⟨_, _, rfl, .start, rfl⟩ (by decide)
  | .forIter x e body, h => by
    unfold Stmt.print Stmt.toks
    refine Lx.then (Lx.then (hi.indent ?_) (cl_stmts (cl_deeper hi) body h.2.2)) (cl_close hi)
    exact (Lx.then ((Lx.then (a := "for ".toList) (ta := [kw "for"]) ⟨_, _, rfl, .start, rfl⟩ (lx_word h.1.1)).litW
      (s := " in ".toList) (ts := [kw "in"]) ⟨_, _, rfl, .start, rfl⟩ (by decide)) (lx_place h.2.1)).litW
      (s := ".iter() {\n".toList) (ts := [op ".", kw "iter", op "(", op ")", op "{"]) ⟨_, _, rfl, .start, rfl⟩ (by decide)
  | .letS isMut x e, h => by
    unfold Stmt.print Stmt.toks
    refine hi.indent (Lx.lit ?_ (s := ";\n".toList) (ts := [op ";"]) ⟨_, _, rfl, .start, rfl⟩ (by decide))
    refine Lx.then (Lx.litW ?_ (s := " = ".toList) (ts := [op "="]) ⟨_, _, rfl, .start, rfl⟩ (by decide)) (lx_expr h.2)
    cases isMut with
    | true => exact Lx.then (a := "let mut ".toList) (ta := [kw "let"] ++ [kw "mut"]) ⟨_, _, rfl, .start, rfl⟩ (lx_word h.1.1)
    | false => exact Lx.then (a := "let ".toList) (ta := [kw "let"]) ⟨_, _, rfl, .start, rfl⟩ (lx_word h.1.1)
  | .assign l r, h => by
    unfold Stmt.print Stmt.toks
    exact hi.indent ((Lx.then ((lx_place h.1).litW (s := " = ".toList) (ts := [op "="]) ⟨_, _, rfl, .start, rfl⟩ (by decide)) (lx_expr h.2)).lit
      (s := ";\n".toList) (ts := [op ";"]) ⟨_, _, rfl, .start, rfl⟩ (by decide))
  | .ifGt e n body, h => by
    unfold Stmt.print Stmt.toks
    refine Lx.then (Lx.then (hi.indent ?_) (cl_stmts (cl_deeper hi) body h.2)) (cl_close hi)
    exact (Lx.then ((Lx.then (a := "if ".toList) (ta := [kw "if"]) ⟨_, _, rfl, .start, rfl⟩ (lx_expr h.1)).lit
      (s := " > ".toList) (ts := [op ">"]) ⟨_, _, rfl, .start, rfl⟩ (by decide)) (lx_nat n)).lit
      (s := " {\n".toList) (ts := [op "{"]) ⟨_, _, rfl, .start, rfl⟩ (by decide)
  | .reserve e n, h => by
    unfold Stmt.print Stmt.toks
    exact hi.indent ((Lx.then ((lx_place h.1).litW (s := ".reserve(".toList) (ts := [op ".", kw "reserve", op "("]) ⟨_, _, rfl, .start, rfl⟩
      (by decide)) (lx_expr h.2)).lit (s := ");\n".toList) (ts := [op ")", op ";"]) ⟨_, _, rfl, .start, rfl⟩ (by decide))
  | .push e v, h => by
    unfold Stmt.print Stmt.toks
    exact hi.indent ((Lx.then ((lx_place h.1).litW (s := ".push(".toList) (ts := [op ".", kw "push", op "("]) ⟨_, _, rfl, .start, rfl⟩
      (by decide)) (lx_expr h.2)).lit (s := ");\n".toList) (ts := [op ")", op ";"]) ⟨_, _, rfl, .start, rfl⟩ (by decide))
  | .forRange n body, h => by
    unfold Stmt.print Stmt.toks
    refine Lx.then (Lx.then (hi.indent ?_) (cl_stmts (cl_deeper hi) body h.2)) (cl_close hi)
    exact (Lx.litO (a := "for _ in 0..".toList) (ta := [kw "for", kw "_", kw "in", .num 0 [], op ".."]) ⟨_, _, rfl, .op _, rfl⟩
      (lx_place h.1) (wordy_place h.1)).litW (s := " {\n".toList) (ts := [op "{"]) ⟨_, _, rfl, .start, rfl⟩ (by decide)
theorem cl_stmts {ind : Str} (hi : Cl ind []) : (ss : List Stmt) → GoodSs ss → Cl (printStmts ind ss) (stmtsToks ss)
  | [], _ => cl_nil
  | s :: ss, h => by
    unfold printStmts stmtsToks
    exact Lx.then (cl_stmt hi s h.1) (cl_stmts hi ss h.2)
end

end Packetc.Rs
