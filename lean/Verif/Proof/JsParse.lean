import Verif.Proof.JsToks
/-!
# Parsing the tokens of printed programs
-/

namespace Packetc.Js

/-- The next token is none of these. -/
def avoid (bad : List Tok) : List Tok → Bool
  | [] => true
  | t :: _ => !(bad.contains t)

def bad0 : List Tok := [op "("]
def bad1 : List Tok := [op "(", op ".", op "["]
def bad2 : List Tok := bad1 ++ [op "<", op "<=", op ">", kw "as"]
def bad3 : List Tok := bad2 ++ [op "&&"]
def bad4 : List Tok := bad3 ++ [op "?"]

theorem avoid_sub {a b : List Tok} (h : ∀ t ∈ a, t ∈ b) {ts : List Tok} (hb : avoid b ts = true) : avoid a ts = true := by
  cases ts with
  | nil => rfl
  | cons t ts =>
    simp only [avoid, Bool.not_eq_true', List.contains_eq_mem, decide_eq_false_iff_not] at hb ⊢
    exact fun hm => hb (h t hm)

theorem avoid_mem {b : List Tok} {t : Tok} {ts : List Tok} (h : avoid b (t :: ts) = true) {x : Tok} (hx : x ∈ b) : t ≠ x := by
  simp only [avoid, Bool.not_eq_true', List.contains_eq_mem, decide_eq_false_iff_not] at h
  rintro rfl
  exact h hx

theorem avoid_10 {ts} (h : avoid bad1 ts = true) : avoid bad0 ts = true := avoid_sub (by decide) h
theorem avoid_21 {ts} (h : avoid bad2 ts = true) : avoid bad1 ts = true := avoid_sub (by decide) h
theorem avoid_32 {ts} (h : avoid bad3 ts = true) : avoid bad2 ts = true := avoid_sub (by decide) h
theorem avoid_43 {ts} (h : avoid bad4 ts = true) : avoid bad3 ts = true := avoid_sub (by decide) h

theorem eat_none {t : Tok} {ts pre : List Tok} (h : avoid [t] ts = true) : eat (t :: pre) ts = none := by
  cases ts with
  | nil => rfl
  | cons t' ts =>
    show (if t' = t then _ else none) = none
    rw [if_neg (avoid_mem h (by simp))]

theorem eat_self (pre ts : List Tok) : eat pre (pre ++ ts) = some ts := by
  induction pre with
  | nil => rfl
  | cons t pre ih =>
    show (if t = t then eat pre (pre ++ ts) else none) = _
    rw [if_pos rfl, ih]

/-! ### stopping -/

theorem parsePost_stop (e : Expr) {ts : List Tok} (h : avoid bad1 ts = true) : parsePost e ts = some (e, ts) := by
  rw [parsePost.eq_def]
  cases ts with
  | nil => rfl
  | cons t ts =>
    cases t with
    | op o =>
      have h1 : o ≠ ".".toList := fun hh => avoid_mem h (x := op ".") (by decide) (by rw [hh])
      have h2 : o ≠ "[".toList := fun hh => avoid_mem h (x := op "[") (by decide) (by rw [hh])
      show (if o = ".".toList then _ else _) = _
      rw [if_neg h1, if_neg h2]
    | _ => rfl

theorem parseRel_stop (e : Expr) {ts : List Tok} (h : avoid bad2 ts = true) : parseRel e ts = some (e, ts) := by
  rw [parseRel.eq_def]
  cases ts with
  | nil => rfl
  | cons t ts =>
    cases t with
    | op o =>
      have h1 : o ≠ "<".toList := fun hh => avoid_mem h (x := op "<") (by decide) (by rw [hh])
      have h2 : o ≠ "<=".toList := fun hh => avoid_mem h (x := op "<=") (by decide) (by rw [hh])
      have h3 : o ≠ ">".toList := fun hh => avoid_mem h (x := op ">") (by decide) (by rw [hh])
      show (if o = "<".toList then _ else _) = _
      rw [if_neg h1, if_neg h2, if_neg h3]
    | word x =>
      have h1 : x ≠ "as".toList := fun hh => avoid_mem h (x := kw "as") (by decide) (by rw [hh])
      show (if x = "as".toList then _ else _) = _
      rw [if_neg h1]
    | _ => rfl

theorem parseAnd_stop (e : Expr) {ts : List Tok} (h : avoid bad3 ts = true) : parseAnd e ts = some (e, ts) := by
  rw [parseAnd.eq_def]
  cases ts with
  | nil => rfl
  | cons t ts =>
    cases t with
    | op o =>
      have h1 : o ≠ "&&".toList := fun hh => avoid_mem h (x := op "&&") (by decide) (by rw [hh])
      show (if o = "&&".toList then _ else _) = _
      rw [if_neg h1]
    | _ => rfl

/-! ### levels -/

/-- Parsing the tokens of `e` continues after `e`, at the four levels. -/
def Lev1 (e : Expr) : Prop := ∀ rest, avoid bad0 rest = true → parseOperand (e.toks ++ rest) = parsePost e rest
def Lev2 (e : Expr) : Prop := ∀ rest, avoid bad1 rest = true →
  ((parseOperand (e.toks ++ rest)) >>= fun a => parseRel a.1 a.2) = parseRel e rest
def Lev3 (e : Expr) : Prop := ∀ rest, avoid bad2 rest = true →
  ((parseOperand (e.toks ++ rest)) >>= fun a => (parseRel a.1 a.2) >>= fun b => parseAnd b.1 b.2) = parseAnd e rest
def Lev4 (e : Expr) : Prop := ∀ rest, avoid bad4 rest = true → parseExpr (e.toks ++ rest) = some (e, rest)

theorem Lev1.two {e} (h : Lev1 e) : Lev2 e := by
  intro rest hr
  rw [h rest (avoid_10 hr), parsePost_stop e hr]
  rfl

theorem Lev2.three {e} (h : Lev2 e) : Lev3 e := by
  intro rest hr
  have := h rest (avoid_21 hr)
  cases hp : parseOperand (e.toks ++ rest) with
  | none => rw [hp] at this; rw [parseRel_stop e hr] at this; cases this
  | some a =>
    rw [hp] at this
    change parseRel a.1 a.2 = _ at this
    show (parseRel a.1 a.2) >>= _ = _
    rw [this, parseRel_stop e hr]
    rfl

theorem Lev3.parse {e} (h : Lev3 e) {rest : List Tok} (hr : avoid bad3 rest = true) :
    parseExpr (e.toks ++ rest) = match eat [op "?"] rest with
    | none => some (e, rest)
    | some ts =>
      (parseExpr ts) >>= fun t => (eat [op ":"] t.2) >>= fun ts => (parseExpr ts) >>= fun e' =>
        some (.cond e t.1 e'.1, e'.2) := by
  have := h rest (avoid_32 hr)
  rw [parseAnd_stop e hr] at this
  rw [parseExpr.eq_def]
  cases hp : parseOperand (e.toks ++ rest) with
  | none => rw [hp] at this; cases this
  | some a =>
    rw [hp] at this
    change (parseRel a.1 a.2) >>= (fun b => parseAnd b.1 b.2) = _ at this
    show (parseRel a.1 a.2) >>= _ = _
    cases hq : parseRel a.1 a.2 with
    | none => rw [hq] at this; cases this
    | some b =>
      rw [hq] at this
      change parseAnd b.1 b.2 = _ at this
      show (parseAnd b.1 b.2) >>= _ = _
      rw [this]
      rfl

theorem Lev3.four {e} (h : Lev3 e) : Lev4 e := by
  intro rest hr
  rw [h.parse (avoid_43 hr), eat_none (avoid_sub (by decide) hr)]

/-! ### single steps -/

theorem parsePost_prop (e : Expr) (p : Str) {rest : List Tok} (hr : avoid bad0 rest = true) :
    parsePost e (op "." :: .word p :: rest) = parsePost (.prop e p) rest := by
  rw [parsePost.eq_def]
  show (match eat [op "("] rest with | some _ => _ | none => _) = _
  rw [eat_none hr]
theorem parsePost_index {e i : Expr} (hi : Lev4 i) (rest : List Tok) :
    parsePost e (op "[" :: (i.toks ++ op "]" :: rest)) = parsePost (.index e i) rest := by
  rw [parsePost.eq_def]
  show (parseExpr (i.toks ++ op "]" :: rest)) >>= _ = _
  rw [hi _ (by rfl)]
  rfl
theorem parsePost_call0 (e : Expr) (m : Str) (rest : List Tok) :
    parsePost e (op "." :: .word m :: op "(" :: op ")" :: rest) = parsePost (.call0 e m) rest := by
  rw [parsePost.eq_def]
  rfl

theorem toks_head (e : Expr) : ∃ t ts, e.toks = t :: ts ∧ t ≠ op ")" := by
  induction e with
  | var x => exact ⟨_, _, rfl, by simp⟩
  | prop e p ih => obtain ⟨t, ts, h, hn⟩ := ih; exact ⟨t, _, by rw [Expr.toks, h]; rfl, hn⟩
  | index e i ih => obtain ⟨t, ts, h, hn⟩ := ih; exact ⟨t, _, by rw [Expr.toks, h]; rfl, hn⟩
  | num i =>
    show ∃ t ts, intToks i = t :: ts ∧ _
    unfold intToks
    split
    · exact ⟨_, _, rfl, by decide⟩
    · exact ⟨_, _, rfl, by simp⟩
  | undef => exact ⟨_, _, rfl, by simp⟩
  | null => exact ⟨_, _, rfl, by simp⟩
  | tru => exact ⟨_, _, rfl, by simp⟩
  | obj => exact ⟨_, _, rfl, by decide⟩
  | new0 c => exact ⟨_, _, rfl, by simp⟩
  | new1 c a => exact ⟨_, _, rfl, by simp⟩
  | call0 e p ih => obtain ⟨t, ts, h, hn⟩ := ih; exact ⟨t, _, by rw [Expr.toks, h]; rfl, hn⟩
  | call1 e p a ih => obtain ⟨t, ts, h, hn⟩ := ih; exact ⟨t, _, by rw [Expr.toks, h]; rfl, hn⟩
  | asNumber e ih => obtain ⟨t, ts, h, hn⟩ := ih; exact ⟨t, _, by rw [Expr.toks, h]; rfl, hn⟩
  | lt e a ih => obtain ⟨t, ts, h, hn⟩ := ih; exact ⟨t, _, by rw [Expr.toks, h]; rfl, hn⟩
  | le e a ih => obtain ⟨t, ts, h, hn⟩ := ih; exact ⟨t, _, by rw [Expr.toks, h]; rfl, hn⟩
  | gt e a ih => obtain ⟨t, ts, h, hn⟩ := ih; exact ⟨t, _, by rw [Expr.toks, h]; rfl, hn⟩
  | and e a ih => obtain ⟨t, ts, h, hn⟩ := ih; exact ⟨t, _, by rw [Expr.toks, h]; rfl, hn⟩
  | cond e a b ih => obtain ⟨t, ts, h, hn⟩ := ih; exact ⟨t, _, by rw [Expr.toks, h]; rfl, hn⟩

theorem no_paren (e : Expr) (rest : List Tok) : eat [op ")"] (e.toks ++ rest) = none := by
  obtain ⟨t, ts, h, hn⟩ := toks_head e
  rw [h]
  show (if t = op ")" then _ else none) = none
  rw [if_neg hn]

theorem parsePost_call1 {e a : Expr} (m : Str) (ha : Lev4 a) (rest : List Tok) :
    parsePost e (op "." :: .word m :: op "(" :: (a.toks ++ op ")" :: rest)) = parsePost (.call1 e m a) rest := by
  rw [parsePost.eq_def]
  show (match eat [op ")"] (a.toks ++ op ")" :: rest) with | some _ => _ | none => _) = _
  rw [no_paren, ha _ (by rfl)]
  rfl

theorem name_ok {x : Str} (h : bindable x = true) (rest : List Tok) : name (.word x :: rest) = some (x, rest) := by
  show (if bindable x = true then _ else _) = _
  rw [if_pos h]

theorem bindable_ne {x : Str} (h : bindable x = true) {y : Str} (hy : bindable y = false) : x ≠ y := by
  rintro rfl
  rw [h] at hy
  cases hy

theorem parsePrim_var {x : Str} (h : bindable x = true ∨ x = "this".toList) (rest : List Tok) :
    parsePrim (.word x :: rest) = some (.var x, rest) := by
  rw [parsePrim.eq_def]
  rcases h with h | rfl
  · show (if x = "undefined".toList then _ else _) = _
    rw [if_neg (bindable_ne h (by decide)), if_neg (bindable_ne h (by decide)), if_neg (bindable_ne h (by decide)),
      if_neg (bindable_ne h (by decide)), if_neg (bindable_ne h (by decide)), if_pos h]
  · rfl

theorem parsePrim_new0 {c : Str} (h : bindable c = true) (rest : List Tok) :
    parsePrim (kw "new" :: .word c :: op "(" :: op ")" :: rest) = some (.new0 c, rest) := by
  rw [parsePrim.eq_def]
  show (name (.word c :: op "(" :: op ")" :: rest)) >>= _ = _
  rw [name_ok h]
  rfl

theorem parsePrim_new1 {c : Str} {a : Expr} (h : bindable c = true) (ha : Lev4 a) (rest : List Tok) :
    parsePrim (kw "new" :: .word c :: op "(" :: (a.toks ++ op ")" :: rest)) = some (.new1 c a, rest) := by
  rw [parsePrim.eq_def]
  show (name (.word c :: op "(" :: (a.toks ++ op ")" :: rest))) >>= _ = _
  rw [name_ok h]
  show (match eat [op ")"] (a.toks ++ op ")" :: rest) with | some _ => _ | none => _) = _
  rw [no_paren, ha _ (by rfl)]
  rfl

theorem parsePrim_num (i : Int) (rest : List Tok) : parsePrim (intToks i ++ rest) = some (.num i, rest) := by
  unfold intToks
  by_cases h : i < 0
  · rw [if_pos h, parsePrim.eq_def]
    show some (Expr.num (-(i.natAbs : Int)), rest) = _
    rw [show -(i.natAbs : Int) = i by omega]
  · rw [if_neg h, parsePrim.eq_def]
    show some (Expr.num (i.natAbs : Int), rest) = _
    rw [show (i.natAbs : Int) = i by omega]

theorem parseOperand_prim {ts rest : List Tok} {e : Expr} (h : parsePrim ts = some (e, rest)) :
    parseOperand ts = parsePost e rest := by
  rw [parseOperand.eq_def, h]
  rfl

theorem parseRel_as (e : Expr) (rest : List Tok) :
    parseRel e (kw "as" :: kw "number" :: rest) = parseRel (.asNumber e) rest := by
  rw [parseRel.eq_def]
  rfl
theorem Lev1.stop {b} (hb : Lev1 b) {rest} (hr : avoid bad1 rest = true) : parseOperand (b.toks ++ rest) = some (b, rest) := by
  rw [hb rest (avoid_10 hr), parsePost_stop b hr]
theorem parseRel_lt {e b : Expr} (hb : Lev1 b) {rest : List Tok} (hr : avoid bad1 rest = true) :
    parseRel e (op "<" :: (b.toks ++ rest)) = parseRel (.lt e b) rest := by
  rw [parseRel.eq_def]
  show (parseOperand (b.toks ++ rest)) >>= _ = _
  rw [hb.stop hr]
  rfl
theorem parseRel_le {e b : Expr} (hb : Lev1 b) {rest : List Tok} (hr : avoid bad1 rest = true) :
    parseRel e (op "<=" :: (b.toks ++ rest)) = parseRel (.le e b) rest := by
  rw [parseRel.eq_def]
  show (parseOperand (b.toks ++ rest)) >>= _ = _
  rw [hb.stop hr]
  rfl
theorem parseRel_gt {e b : Expr} (hb : Lev1 b) {rest : List Tok} (hr : avoid bad1 rest = true) :
    parseRel e (op ">" :: (b.toks ++ rest)) = parseRel (.gt e b) rest := by
  rw [parseRel.eq_def]
  show (parseOperand (b.toks ++ rest)) >>= _ = _
  rw [hb.stop hr]
  rfl
theorem parseAnd_and {e b : Expr} (hb : Lev2 b) {rest : List Tok} (hr : avoid bad2 rest = true) :
    parseAnd e (op "&&" :: (b.toks ++ rest)) = parseAnd (.and e b) rest := by
  rw [parseAnd.eq_def]
  show (parseOperand (b.toks ++ rest)) >>= _ = _
  have := hb rest (avoid_21 hr)
  cases hp : parseOperand (b.toks ++ rest) with
  | none => rw [hp] at this; rw [parseRel_stop b hr] at this; cases this
  | some a =>
    rw [hp] at this
    change parseRel a.1 a.2 = _ at this
    show (parseRel a.1 a.2) >>= _ = _
    rw [this, parseRel_stop b hr]
    rfl

/-- All levels. -/
def Levels (e : Expr) : Prop :=
  (Good 1 e → Lev1 e) ∧ (Good 2 e → Lev2 e) ∧ (Good 3 e → Lev3 e) ∧ (Good 4 e → Lev4 e)

theorem Levels.of1 {e : Expr} (h : ∀ k, Good k e → Lev1 e) : Levels e :=
  ⟨h 1, fun g => (h 2 g).two, fun g => (h 3 g).two.three, fun g => (h 4 g).two.three.four⟩
theorem Levels.of2 {e : Expr} (h1 : ¬ Good 1 e) (h : ∀ k, Good k e → Lev2 e) : Levels e :=
  ⟨fun g => absurd g h1, h 2, fun g => (h 3 g).three, fun g => (h 4 g).three.four⟩

theorem levels (e : Expr) : Levels e := by
  induction e with
  | var x => exact Levels.of1 fun k g rest hr => parseOperand_prim (parsePrim_var g.2 rest)
  | prop e p ih =>
    refine Levels.of1 fun k g rest hr => ?_
    simp only [Expr.toks, List.append_assoc, List.cons_append, List.nil_append]
    rw [ih.1 (g.1.mono (by omega)) _ (by rfl), parsePost_prop e p hr]
  | index e i ih ihi =>
    refine Levels.of1 fun k g rest hr => ?_
    simp only [Expr.toks, List.append_assoc, List.cons_append, List.nil_append]
    rw [ih.1 (g.1.mono (by omega)) _ (by rfl), parsePost_index (ihi.2.2.2 g.2)]
  | num i => exact Levels.of1 fun k g rest hr => parseOperand_prim (parsePrim_num i rest)
  | undef => exact Levels.of1 fun k g rest hr => parseOperand_prim (by rw [parsePrim.eq_def]; rfl)
  | null => exact Levels.of1 fun k g rest hr => parseOperand_prim (by rw [parsePrim.eq_def]; rfl)
  | tru => exact Levels.of1 fun k g rest hr => parseOperand_prim (by rw [parsePrim.eq_def]; rfl)
  | obj => exact Levels.of1 fun k g rest hr => parseOperand_prim (by rw [parsePrim.eq_def]; rfl)
  | new0 c => exact Levels.of1 fun k g rest hr => parseOperand_prim (parsePrim_new0 g.2 rest)
  | new1 c a ih =>
    refine Levels.of1 fun k g rest hr => ?_
    simp only [Expr.toks, List.append_assoc, List.cons_append, List.nil_append]
    exact parseOperand_prim (parsePrim_new1 g.2.1 (ih.2.2.2 g.2.2) rest)
  | call0 e m ih =>
    refine Levels.of1 fun k g rest hr => ?_
    simp only [Expr.toks, List.append_assoc, List.cons_append, List.nil_append]
    rw [ih.1 (g.1.mono (by omega)) _ (by rfl), parsePost_call0]
  | call1 e m a ih iha =>
    refine Levels.of1 fun k g rest hr => ?_
    simp only [Expr.toks, List.append_assoc, List.cons_append, List.nil_append]
    rw [ih.1 (g.1.mono (by omega)) _ (by rfl), parsePost_call1 m (iha.2.2.2 g.2.2)]
  | asNumber e ih =>
    refine Levels.of2 (fun g => absurd g.1 (by omega)) fun k g rest hr => ?_
    simp only [Expr.toks, List.append_assoc, List.cons_append, List.nil_append]
    rw [ih.2.1 g.2 _ (by rfl), parseRel_as]
  | lt a b iha ihb =>
    refine Levels.of2 (fun g => absurd g.1 (by omega)) fun k g rest hr => ?_
    simp only [Expr.toks, List.append_assoc, List.cons_append, List.nil_append]
    rw [iha.2.1 g.2.1 _ (by rfl), parseRel_lt (ihb.1 g.2.2) hr]
  | le a b iha ihb =>
    refine Levels.of2 (fun g => absurd g.1 (by omega)) fun k g rest hr => ?_
    simp only [Expr.toks, List.append_assoc, List.cons_append, List.nil_append]
    rw [iha.2.1 g.2.1 _ (by rfl), parseRel_le (ihb.1 g.2.2) hr]
  | gt a b iha ihb =>
    refine Levels.of2 (fun g => absurd g.1 (by omega)) fun k g rest hr => ?_
    simp only [Expr.toks, List.append_assoc, List.cons_append, List.nil_append]
    rw [iha.2.1 g.2.1 _ (by rfl), parseRel_gt (ihb.1 g.2.2) hr]
  | and a b iha ihb =>
    have h : ∀ k, Good k (.and a b) → Lev3 (.and a b) := fun k g rest hr => by
      simp only [Expr.toks, List.append_assoc, List.cons_append, List.nil_append]
      rw [iha.2.2.1 g.2.1 _ (by rfl), parseAnd_and (ihb.2.1 g.2.2) hr]
    exact ⟨fun g => absurd g.1 (by omega), fun g => absurd g.1 (by omega), h 3, fun g => (h 4 g).four⟩
  | cond c t e ihc iht ihe =>
    refine ⟨fun g => absurd g.1 (by omega), fun g => absurd g.1 (by omega), fun g => absurd g.1 (by omega), fun g rest hr => ?_⟩
    simp only [Expr.toks, List.append_assoc, List.cons_append, List.nil_append]
    rw [(ihc.2.2.1 g.2.1).parse (by rfl)]
    show (parseExpr (t.toks ++ op ":" :: (e.toks ++ rest))) >>= _ = _
    rw [iht.2.2.2 g.2.2.1 _ (by rfl)]
    show (parseExpr (e.toks ++ rest)) >>= _ = _
    rw [ihe.2.2.2 g.2.2.2 _ hr]
    rfl

theorem parseExpr_ok {k e} (h : Good k e) (hk : k ≤ 4) {rest} (hr : avoid bad4 rest = true) :
    parseExpr (e.toks ++ rest) = some (e, rest) := (levels e).2.2.2 (h.mono hk) rest hr

/-! ### statements -/

/-- Words that begin a statement. -/
def stmtWords : List Str := ["let".toList, "return".toList, "if".toList, "for".toList, "switch".toList]

theorem toks_word {e : Expr} (h : Good 0 e) : ∃ x ts, e.toks = .word x :: ts ∧ x ∉ stmtWords := by
  induction e with
  | var x =>
    refine ⟨x, [], rfl, ?_⟩
    rcases h.2 with h | rfl
    · intro hm
      have : ∀ x ∈ stmtWords, bindable x = false := by decide
      rw [this x hm] at h
      cases h
    · decide
  | prop e p ih => obtain ⟨x, ts, h, hn⟩ := ih h.1; exact ⟨x, _, by rw [Expr.toks, h]; rfl, hn⟩
  | index e i ih => obtain ⟨x, ts, h, hn⟩ := ih h.1; exact ⟨x, _, by rw [Expr.toks, h]; rfl, hn⟩
  | call0 e p ih => obtain ⟨x, ts, h, hn⟩ := ih h.1; exact ⟨x, _, by rw [Expr.toks, h]; rfl, hn⟩
  | call1 e p a ih => obtain ⟨x, ts, h, hn⟩ := ih h.1; exact ⟨x, _, by rw [Expr.toks, h]; rfl, hn⟩
  | new0 c => exact ⟨_, _, rfl, by decide⟩
  | new1 c a => exact ⟨_, _, rfl, by decide⟩
  | num i => exact absurd h (by simp [Good])
  | undef => exact absurd h (by simp [Good])
  | null => exact absurd h (by simp [Good])
  | tru => exact absurd h (by simp [Good])
  | obj => exact absurd h (by simp [Good])
  | asNumber e => exact absurd h.1 (by omega)
  | lt a b => exact absurd h.1 (by omega)
  | le a b => exact absurd h.1 (by omega)
  | gt a b => exact absurd h.1 (by omega)
  | and a b => exact absurd h.1 (by omega)
  | cond a b c => exact absurd h.1 (by omega)

theorem parseStmt_simple {x : Str} (h : x ∉ stmtWords) (ts : List Tok) : parseStmt (.word x :: ts) = parseSimple (.word x :: ts) := by
  have hn : ∀ y ∈ stmtWords, x ≠ y := fun y hy hh => h (hh ▸ hy)
  rw [parseStmt.eq_def]
  show (if x = "let".toList then _ else _) = _
  rw [if_neg (hn _ (by decide)), if_neg (hn _ (by decide)), if_neg (hn _ (by decide)), if_neg (hn _ (by decide)),
    if_neg (hn _ (by decide))]

theorem parseAssign_ok {l r : Expr} (h : (isTarget l = true ∧ Good 0 l) ∧ Good 4 r) (rest : List Tok) :
    parseAssign (l.toks ++ op "=" :: (r.toks ++ op ";" :: rest)) = some ((l, r), rest) := by
  unfold parseAssign
  rw [parseExpr_ok h.1.2 (by omega) (by rfl)]
  show (parseExpr (r.toks ++ op ";" :: rest)) >>= _ = _
  rw [parseExpr_ok h.2 (by omega) (by rfl)]
  show (if isTarget l = true then _ else _) = _
  rw [if_pos h.1.1]

theorem parseReturn_ok {e : Expr} (h : Good 4 e) (rest : List Tok) :
    parseReturn (e.toks ++ op ";" :: rest) = some (e, rest) := by
  unfold parseReturn
  rw [parseExpr_ok h (by omega) (by rfl)]
  rfl

/-- The first token of a statement is a word. -/
theorem stmt_word {s : Stmt} (h : GoodS s) : ∃ x ts, s.toks = .word x :: ts := by
  cases s with
  | assign l r =>
    obtain ⟨x, ts, hx, _⟩ := toks_word h.1.2
    exact ⟨x, _, by rw [Stmt.toks, hx]; rfl⟩
  | expr e =>
    obtain ⟨x, ts, hx, _⟩ := toks_word h
    exact ⟨x, _, by rw [Stmt.toks, hx]; rfl⟩
  | letS => exact ⟨_, _, rfl⟩
  | ifElse => exact ⟨_, _, rfl⟩
  | ifAssign => exact ⟨_, _, rfl⟩
  | ifRet => exact ⟨_, _, rfl⟩
  | forS => exact ⟨_, _, rfl⟩
  | switchNullish => exact ⟨_, _, rfl⟩
  | ret => exact ⟨_, _, rfl⟩

theorem parseStmts_nl (ts : List Tok) : parseStmts (.nl :: ts) = parseStmts ts := by
  rw [parseStmts.eq_def]
theorem parseStmts_end (ts : List Tok) : parseStmts (op "}" :: ts) = some ([], op "}" :: ts) := by
  rw [parseStmts.eq_def]
  rfl
theorem parseStmts_word (x : Str) (ts : List Tok) : parseStmts (.word x :: ts) =
    ((parseStmt (.word x :: ts)) >>= fun s => (parseStmts s.2) >>= fun ss => some (s.1 :: ss.1, ss.2)) := by
  rw [parseStmts.eq_def]

mutual
theorem parse_stmt : (s : Stmt) → GoodS s → (rest : List Tok) → parseStmt (s.toks ++ rest) = some (s, .nl :: rest)
  | .letS x any e, hg, rest => by
    simp only [Stmt.toks, List.append_assoc, List.cons_append, List.nil_append]
    rw [parseStmt.eq_def]
    show parseLet (.word x :: _) = _
    unfold parseLet
    rw [name_ok hg.1.2]
    cases any with
    | true =>
      show (parseExpr (e.toks ++ op ";" :: .nl :: rest)) >>= _ = _
      rw [parseExpr_ok hg.2 (by omega) (by rfl)]
      rfl
    | false =>
      show (parseExpr (e.toks ++ op ";" :: .nl :: rest)) >>= _ = _
      rw [parseExpr_ok hg.2 (by omega) (by rfl)]
      rfl
  | .assign l r, hg, rest => by
    simp only [Stmt.toks, List.append_assoc, List.cons_append, List.nil_append]
    obtain ⟨x, ts, hx, hn⟩ := toks_word hg.1.2
    rw [hx, List.cons_append, parseStmt_simple hn, ← List.cons_append, ← hx]
    unfold parseSimple
    rw [parseExpr_ok hg.1.2 (by omega) (by rfl)]
    show (parseExpr (r.toks ++ op ";" :: .nl :: rest)) >>= _ = _
    rw [parseExpr_ok hg.2 (by omega) (by rfl)]
    show (if isTarget l = true then _ else _) = _
    rw [if_pos hg.1.1]
  | .expr e, hg, rest => by
    simp only [Stmt.toks, List.append_assoc, List.cons_append, List.nil_append]
    obtain ⟨x, ts, hx, hn⟩ := toks_word hg
    rw [hx, List.cons_append, parseStmt_simple hn, ← List.cons_append, ← hx]
    unfold parseSimple
    rw [parseExpr_ok hg (by omega) (by rfl)]
    rfl
  | .ifElse c t e, hg, rest => by
    simp only [Stmt.toks, List.append_assoc, List.cons_append, List.nil_append]
    rw [parseStmt.eq_def]
    show (parseExpr (c.toks ++ op ")" :: _)) >>= _ = _
    rw [parseExpr_ok hg.1 (by omega) (by rfl)]
    show (parseStmts (.nl :: (stmtsToks t ++ op "}" :: _))) >>= _ = _
    rw [parseStmts_nl, parse_stmts t hg.2.1]
    show (parseStmts (.nl :: (stmtsToks e ++ op "}" :: _))) >>= _ = _
    rw [parseStmts_nl, parse_stmts e hg.2.2]
    rfl
  | .ifAssign c l r l' r', hg, rest => by
    simp only [Stmt.toks, List.append_assoc, List.cons_append, List.nil_append]
    rw [parseStmt.eq_def]
    show (parseExpr (c.toks ++ op ")" :: _)) >>= _ = _
    rw [parseExpr_ok hg.1 (by omega) (by rfl)]
    obtain ⟨x, ts, hx, hn⟩ := toks_word hg.2.1.1.2
    have h1 : ∀ rest, eat [op "{"] (l.toks ++ rest) = none := fun rest => by
      rw [hx]
      rfl
    have h2 : ∀ rest, eat [kw "return"] (l.toks ++ rest) = none := fun rest => by
      rw [hx]
      show (if Tok.word x = kw "return" then _ else none) = none
      rw [if_neg (fun hh => hn (by cases hh; decide))]
    show (match eat [op "{"] (l.toks ++ _) with | some _ => _ | none => _) = _
    rw [h1]
    show (match eat [kw "return"] (l.toks ++ _) with | some _ => _ | none => _) = _
    rw [h2]
    show (parseAssign (l.toks ++ op "=" :: (r.toks ++ op ";" :: _))) >>= _ = _
    rw [parseAssign_ok hg.2.1]
    show (parseAssign (l'.toks ++ op "=" :: (r'.toks ++ op ";" :: _))) >>= _ = _
    rw [parseAssign_ok hg.2.2]
    rfl
  | .ifRet c e, hg, rest => by
    simp only [Stmt.toks, List.append_assoc, List.cons_append, List.nil_append]
    rw [parseStmt.eq_def]
    show (parseExpr (c.toks ++ op ")" :: _)) >>= _ = _
    rw [parseExpr_ok hg.1 (by omega) (by rfl)]
    show (parseReturn (e.toks ++ op ";" :: _)) >>= _ = _
    rw [parseReturn_ok hg.2]
    rfl
  | .forS i b body, hg, rest => by
    simp only [Stmt.toks, List.append_assoc, List.cons_append, List.nil_append]
    rw [parseStmt.eq_def]
    show (name (.word i :: _)) >>= _ = _
    rw [name_ok hg.1.2]
    show (eat [.word i, op "<"] ([.word i, op "<"] ++ _)) >>= _ = _
    rw [eat_self]
    show (parseOperand (b.toks ++ op ";" :: _)) >>= _ = _
    rw [((levels b).1 hg.2.1).stop (by rfl)]
    show (eat [op ";", op "++", .word i, op ")", op "{"] ([op ";", op "++", .word i, op ")", op "{"] ++ _)) >>= _ = _
    rw [eat_self]
    show (parseStmts (.nl :: (stmtsToks body ++ op "}" :: _))) >>= _ = _
    rw [parseStmts_nl, parse_stmts body hg.2.2]
    rfl
  | .switchNullish e n d, hg, rest => by
    simp only [Stmt.toks, List.append_assoc, List.cons_append, List.nil_append]
    rw [parseStmt.eq_def]
    show (parseExpr (e.toks ++ op ")" :: _)) >>= _ = _
    rw [parseExpr_ok hg.1 (by omega) (by rfl)]
    show (parseExpr (n.toks ++ op ";" :: _)) >>= _ = _
    rw [parseExpr_ok hg.2.1 (by omega) (by rfl)]
    show (parseStmts (.nl :: (stmtsToks d ++ op "}" :: _))) >>= _ = _
    rw [parseStmts_nl, parse_stmts d hg.2.2]
    rfl
  | .ret e, hg, rest => by
    simp only [Stmt.toks, List.append_assoc, List.cons_append, List.nil_append]
    rw [parseStmt.eq_def]
    show (parseReturn (e.toks ++ op ";" :: _)) >>= _ = _
    rw [parseReturn_ok hg]
    rfl
theorem parse_stmts : (ss : List Stmt) → GoodSs ss → (rest : List Tok) →
    parseStmts (stmtsToks ss ++ op "}" :: rest) = some (ss, op "}" :: rest)
  | [], _, rest => parseStmts_end rest
  | s :: ss, hg, rest => by
    simp only [stmtsToks, List.append_assoc]
    obtain ⟨x, ts, hx⟩ := stmt_word hg.1
    rw [hx, List.cons_append, parseStmts_word, ← List.cons_append, ← hx, parse_stmt s hg.1]
    show (parseStmts (.nl :: _)) >>= _ = _
    rw [parseStmts_nl, parse_stmts ss hg.2]
    rfl
end

end Packetc.Js
