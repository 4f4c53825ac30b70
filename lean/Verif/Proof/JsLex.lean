import Verif.Js.Parse
/-!
# The tokens of printed expressions and statements
-/

namespace Packetc.Js

/-! ### running the lexer on parts of a text -/

theorem lexFrom_append (st : LState) (a b : Str) :
    lexFrom st (a ++ b) = (lexFrom st a).bind fun r => (lexFrom r.2 b).map fun q => (r.1 ++ q.1, q.2) := by
  induction a generalizing st with
  | nil => cases h : lexFrom st b <;> simp [lexFrom, h]
  | cons c cs ih =>
    simp only [List.cons_append, lexFrom]
    cases h : step st c with
    | none => rfl
    | some r =>
      simp only [Option.bind_some, ih]
      cases h2 : lexFrom r.2 cs with
      | none => rfl
      | some q =>
        simp only [Option.bind_some, Option.map_some]
        cases h3 : lexFrom q.2 b with
        | none => rfl
        | some p => simp [List.append_assoc]

/-- The token that has been begun, in the states in which it can end. -/
def flush : LState → List Tok
  | .word s => [.word s]
  | .num ds => [.num (digitsValue ds)]
  | _ => []

/-- The lexer is between tokens or in a word or number. -/
inductive Quiet : LState → Prop
  | start : Quiet .start
  | word (s : Str) : Quiet (.word s)
  | num (ds : Str) : Quiet (.num ds)

/-- The same without numbers. -/
inductive QuietW : LState → Prop
  | start : QuietW .start
  | word (s : Str) : QuietW (.word s)

theorem QuietW.quiet {st} (h : QuietW st) : Quiet st := by cases h <;> constructor

/-- The text has these tokens, and may end in the middle of a word or number. -/
def Lx (s : Str) (ts : List Tok) : Prop := ∃ out st, lexFrom .start s = some (out, st) ∧ Quiet st ∧ ts = out ++ flush st
/-- The text has these tokens, and may end in the middle of a word. -/
def LxW (s : Str) (ts : List Tok) : Prop := ∃ out st, lexFrom .start s = some (out, st) ∧ QuietW st ∧ ts = out ++ flush st
/-- The text has these tokens and ends between two tokens. -/
def Cl (s : Str) (ts : List Tok) : Prop := lexFrom .start s = some (ts, .start)

theorem LxW.lx {s ts} (h : LxW s ts) : Lx s ts := by
  obtain ⟨out, st, h1, h2, h3⟩ := h
  exact ⟨out, st, h1, h2.quiet, h3⟩
theorem Cl.lxw {s ts} (h : Cl s ts) : LxW s ts := ⟨ts, .start, h, .start, by simp [flush]⟩
theorem Cl.lx {s ts} (h : Cl s ts) : Lx s ts := h.lxw.lx

theorem Cl.nil : Cl [] [] := rfl

theorem Cl.append {a b ta tb} (ha : Cl a ta) (hb : Cl b tb) : Cl (a ++ b) (ta ++ tb) := by
  unfold Cl at *
  rw [lexFrom_append, ha]
  simp [hb]

theorem Cl.then {a b ta tb} (ha : Cl a ta) (hb : Lx b tb) : Lx (a ++ b) (ta ++ tb) := by
  obtain ⟨out, st, h1, h2, rfl⟩ := hb
  refine ⟨ta ++ out, st, ?_, h2, by simp⟩
  unfold Cl at ha
  rw [lexFrom_append, ha]
  simp [h1]

theorem Cl.thenW {a b ta tb} (ha : Cl a ta) (hb : LxW b tb) : LxW (a ++ b) (ta ++ tb) := by
  obtain ⟨out, st, h1, h2, rfl⟩ := hb
  refine ⟨ta ++ out, st, ?_, h2, by simp⟩
  unfold Cl at ha
  rw [lexFrom_append, ha]
  simp [h1]

/-- The character cannot continue a word or a number. -/
def Delim (c : Char) : Prop := isIdPart c = false ∧ c ≠ '.'

theorem isIdPart_digit {c : Char} (h : isIdPart c = false) : c.isDigit = false := by
  unfold isIdPart Char.isAlphanum at h
  simp only [Bool.or_eq_false_iff] at h
  exact h.1.2

theorem lexFrom_after {st : LState} (h : Quiet st) {c : Char} (hc : Delim c) (cs : Str) :
    lexFrom st (c :: cs) = (lexFrom .start (c :: cs)).map fun q => (flush st ++ q.1, q.2) := by
  have hd := isIdPart_digit hc.1
  have hn := hc.2
  cases h with
  | start => cases h : lexFrom .start (c :: cs) <;> simp [flush]
  | word s =>
    simp only [lexFrom, step, hc.1, stepAfter, flush]
    cases stepStart c with
    | none => rfl
    | some r => cases h : lexFrom r.2 cs <;> simp [h]
  | num ds =>
    simp only [lexFrom, step, hc.1, hd, hn, stepAfter, flush]
    cases stepStart c with
    | none => simp
    | some r => cases h : lexFrom r.2 cs <;> simp [h]

theorem lexFrom_afterW {st : LState} (h : QuietW st) {c : Char} (hc : isIdPart c = false) (cs : Str) :
    lexFrom st (c :: cs) = (lexFrom .start (c :: cs)).map fun q => (flush st ++ q.1, q.2) := by
  cases h with
  | start => cases h : lexFrom .start (c :: cs) <;> simp [flush]
  | word s =>
    simp only [lexFrom, step, hc, stepAfter, flush]
    cases stepStart c with
    | none => rfl
    | some r => cases h : lexFrom r.2 cs <;> simp [h]

theorem Lx.append {a c b ta tb} (ha : Lx a ta) (hc : Delim c) (hb : Lx (c :: b) tb) : Lx (a ++ c :: b) (ta ++ tb) := by
  obtain ⟨out, st, h1, h2, rfl⟩ := ha
  obtain ⟨out', st', h1', h2', rfl⟩ := hb
  refine ⟨out ++ (flush st ++ out'), st', ?_, h2', by simp⟩
  rw [lexFrom_append, h1]
  simp [lexFrom_after h2 hc, h1']

theorem Lx.close {a c b ta tb} (ha : Lx a ta) (hc : Delim c) (hb : Cl (c :: b) tb) : Cl (a ++ c :: b) (ta ++ tb) := by
  obtain ⟨out, st, h1, h2, rfl⟩ := ha
  unfold Cl at *
  rw [lexFrom_append, h1]
  simp [lexFrom_after h2 hc, hb]

theorem LxW.appendW {a c b ta tb} (ha : LxW a ta) (hc : isIdPart c = false) (hb : LxW (c :: b) tb) :
    LxW (a ++ c :: b) (ta ++ tb) := by
  obtain ⟨out, st, h1, h2, rfl⟩ := ha
  obtain ⟨out', st', h1', h2', rfl⟩ := hb
  refine ⟨out ++ (flush st ++ out'), st', ?_, h2', by simp⟩
  rw [lexFrom_append, h1]
  simp [lexFrom_afterW h2 hc, h1']

theorem LxW.close {a c b ta tb} (ha : LxW a ta) (hc : isIdPart c = false) (hb : Cl (c :: b) tb) :
    Cl (a ++ c :: b) (ta ++ tb) := by
  obtain ⟨out, st, h1, h2, rfl⟩ := ha
  unfold Cl at *
  rw [lexFrom_append, h1]
  simp [lexFrom_afterW h2 hc, hb]

/-! ### words and numbers -/

theorem stepStart_idStart {c : Char} (h : isIdStart c = true) : stepStart c = some ([], .word [c]) := by
  have h1 : isLineEnd c = false := by
    unfold isLineEnd
    simp only [Bool.or_eq_false_iff, decide_eq_false_iff_not]
    refine ⟨⟨⟨?_, ?_⟩, ?_⟩, ?_⟩ <;> (rintro rfl; revert h; decide)
  have h2 : c ≠ ' ' := by rintro rfl; revert h; decide
  unfold stepStart
  simp [h1, h2, h]

theorem lexFrom_word (s cs : Str) (h : ∀ c ∈ cs, isIdPart c = true) : lexFrom (.word s) cs = some ([], .word (s ++ cs)) := by
  induction cs generalizing s with
  | nil => simp [lexFrom]
  | cons c cs ih =>
    simp only [lexFrom, step, h c List.mem_cons_self]
    simp [ih (s ++ [c]) (fun d hd => h d (List.mem_cons_of_mem _ hd))]

theorem lxw_word {x : Str} (h : isIdent x = true) : LxW x [.word x] := by
  cases x with
  | nil => cases h
  | cons c cs =>
    unfold isIdent at h
    simp only [Bool.and_eq_true, List.all_eq_true] at h
    have h2 : ∀ d ∈ cs, isIdPart d = true := h.2
    refine ⟨[], .word (c :: cs), ?_, .word _, rfl⟩
    have h1 : step .start c = some ([], .word [c]) := stepStart_idStart h.1
    simp [lexFrom, h1, lexFrom_word [c] cs h2]

theorem digitsValue_append (a : Str) (d : Char) : digitsValue (a ++ [d]) = digitsValue a * 10 + (d.toNat - 48) := by
  unfold digitsValue
  rw [List.foldl_append]
  rfl

theorem lex_digits (n : Nat) : lexFrom .start (Nat.toDigits 10 n) = some ([], .num (Nat.toDigits 10 n)) ∧
    digitsValue (Nat.toDigits 10 n) = n := by
  induction n using Nat.strongRecOn with
  | _ n ih =>
    by_cases hn : n < 10
    · have : n = 0 ∨ n = 1 ∨ n = 2 ∨ n = 3 ∨ n = 4 ∨ n = 5 ∨ n = 6 ∨ n = 7 ∨ n = 8 ∨ n = 9 := by omega
      rcases this with rfl | rfl | rfl | rfl | rfl | rfl | rfl | rfl | rfl | rfl <;> exact ⟨by decide, by decide⟩
    · obtain ⟨h1, h2⟩ := ih (n / 10) (by omega)
      have hm : n % 10 < 10 := Nat.mod_lt _ (by omega)
      have he : Nat.toDigits 10 n = Nat.toDigits 10 (n / 10) ++ [(n % 10).digitChar] := by
        rw [← Nat.toDigits_of_lt_base hm, Nat.toDigits_append_toDigits (by omega) (by omega) hm]
        congr 1
        omega
      have hd : (n % 10).digitChar.isDigit = true := by rw [Nat.isDigit_digitChar]; simpa using hm
      have h0 : Nat.toDigits 10 (n / 10) ≠ ['0'] := by
        intro h
        rw [h] at h2
        have : digitsValue ['0'] = 0 := by decide
        omega
      refine ⟨?_, ?_⟩
      · rw [he, lexFrom_append, h1]
        simp [lexFrom, step, hd, h0]
      · rw [he, digitsValue_append, h2, Nat.toNat_digitChar_sub_48_of_lt_ten hm]
        omega

theorem lx_nat (n : Nat) : Lx (toString n).toList [.num n] := by
  obtain ⟨h1, h2⟩ := lex_digits n
  have : (toString n).toList = Nat.toDigits 10 n := String.toList_ofList
  rw [this]
  exact ⟨[], _, h1, .num _, by simp [flush, h2]⟩

/-- The tokens of an integer. -/
def intToks (i : Int) : List Tok := if i < 0 then [op "-", .num i.natAbs] else [.num i.natAbs]

theorem lx_int (i : Int) : Lx (toString i).toList (intToks i) := by
  cases i with
  | ofNat n =>
    have : intToks (Int.ofNat n) = [.num n] := by
      unfold intToks
      rw [if_neg (by exact Int.not_lt.2 (Int.natCast_nonneg n))]
      rfl
    rw [this]
    exact lx_nat n
  | negSucc n =>
    have h : (toString (Int.negSucc n)).toList = '-' :: Nat.toDigits 10 (n + 1) := by
      show ("-" ++ Nat.repr (n + 1)).toList = _
      rw [String.toList_append]
      exact congrArg (fun l => '-' :: l) String.toList_ofList
    have : intToks (Int.negSucc n) = [op "-", .num (n + 1)] := by
      unfold intToks
      rw [if_pos (Int.negSucc_lt_zero n)]
      rfl
    rw [h, this]
    obtain ⟨h1, h2⟩ := lex_digits (n + 1)
    have hd : ∃ c cs, Nat.toDigits 10 (n + 1) = c :: cs ∧ c.isDigit = true := by
      cases h3 : Nat.toDigits 10 (n + 1) with
      | nil => rw [h3] at h2; exact absurd h2 (by show ¬ (0 = n + 1); omega)
      | cons c cs =>
        exact ⟨c, cs, rfl, Nat.isDigit_of_mem_toDigits (b := 10) (by omega) (by omega) (by rw [h3]; exact List.mem_cons_self)⟩
    obtain ⟨c, cs, hc, hdig⟩ := hd
    refine ⟨[op "-"], .num (Nat.toDigits 10 (n + 1)), ?_, .num _, by simp [flush, h2]⟩
    have ho : isOpChar c = false := by
      cases ho : isOpChar c with
      | false => rfl
      | true =>
        unfold isOpChar at ho
        rw [List.contains_eq_mem, decide_eq_true_eq] at ho
        have : ∀ c ∈ "<>=&+-|?/!*%^~".toList, c.isDigit = false := by decide
        rw [this c ho] at hdig
        cases hdig
    have hq : step (.op ['-']) c = stepAfter (op "-") c := by
      simp only [step, ho]
      rfl
    have h3 : lexFrom (.op ['-']) (c :: cs) = (lexFrom .start (c :: cs)).map fun q => (op "-" :: q.1, q.2) := by
      show (step (.op ['-']) c).bind _ = ((stepStart c).bind _).map _
      rw [hq]
      unfold stepAfter
      cases stepStart c with
      | none => rfl
      | some r => cases h : lexFrom r.2 cs <;> simp [h]
    show (step .start '-').bind _ = _
    have : step .start '-' = some ([], .op ['-']) := by decide
    rw [this, Option.bind_some, hc, h3, ← hc, h1]
    rfl

end Packetc.Js
