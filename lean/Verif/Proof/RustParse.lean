import Verif.Proof.RustLex
/-!
# Parsing the tokens of printed Rust gives back the syntax
-/

namespace Packetc.Rs
open Js (isIdStart isIdPart digitsValue isIdent deeper)

theorem eat_self (ps rest : List Tok) : eat ps (ps ++ rest) = some rest := by
  induction ps with
  | nil => rfl
  | cons p ps ih =>
    show (if p = p then eat ps (ps ++ rest) else none) = _
    rw [if_pos rfl, ih]

theorem eat_word {x : Str} {s : String} {ps : List Tok} (h : x ≠ s.toList) (ts : List Tok) : eat (kw s :: ps) (.word x :: ts) = none := by
  show (if Tok.word x = kw s then _ else none) = none
  rw [if_neg (fun hh => h (by cases hh; rfl))]

theorem afterPrefix_self (p t : Str) : afterPrefix p (p ++ t) = some t := by
  induction p with
  | nil => cases t <;> rfl
  | cons c p ih =>
    show (if c = c then afterPrefix p (p ++ t) else none) = _
    rw [if_pos rfl, ih]

/-! ### expressions -/

/-- What may follow an expression without a cast. -/
def stop1 : List Tok → Bool
  | .op o :: _ => decide (o ∉ ["(".toList, "::".toList, ".".toList])
  | _ => true
/-- What may follow an expression. -/
def stop2 : List Tok → Bool
  | .op o :: _ => decide (o ∉ ["(".toList, "::".toList, ".".toList])
  | .word w :: _ => decide (w ≠ "as".toList)
  | _ => true

theorem stop_21 {rest : List Tok} (h : stop2 rest = true) : stop1 rest = true := by
  cases rest with
  | nil => rfl
  | cons t ts => cases t <;> first | exact h | rfl

theorem stop_op {s : String} {rest : List Tok} (h : stop1 rest = true) (hs : s.toList ∈ ["(".toList, "::".toList, ".".toList]) (ps : List Tok) :
    eat (op s :: ps) rest = none := by
  cases rest with
  | nil => rfl
  | cons t ts =>
    show (if t = op s then _ else none) = none
    rw [if_neg]
    rintro rfl
    exact of_decide_eq_true h hs

theorem stop_call {rest : List Tok} (h : stop1 rest = true) : isCall rest = false := by
  cases rest with
  | nil => rfl
  | cons t ts =>
    cases t with
    | op o =>
      have : o ∉ ["(".toList, "::".toList, ".".toList] := of_decide_eq_true h
      exact decide_eq_false fun hh => this (by rw [hh]; decide)
    | _ => rfl

theorem stop_as {rest : List Tok} (h : stop2 rest = true) : eat [kw "as"] rest = none := by
  cases rest with
  | nil => rfl
  | cons t ts =>
    cases t with
    | word w => exact eat_word (of_decide_eq_true h) ts
    | _ => rfl

theorem parseFields_stop (e : Expr) {rest : List Tok} (h : stop1 rest = true) : parseFields e rest = (e, rest) := by
  cases rest with
  | nil => rfl
  | cons t ts =>
    cases t with
    | op o =>
      have : o ∉ ["(".toList, "::".toList, ".".toList] := of_decide_eq_true h
      cases ts with
      | nil => rfl
      | cons u us =>
        cases u with
        | word f =>
          show (if o = ".".toList ∧ _ then _ else _) = _
          rw [if_neg fun hh => this (by rw [hh.1]; decide)]
        | _ => rfl
    | _ => rfl

theorem parseFields_call (e : Expr) (m : Str) (rest : List Tok) :
    parseFields e (op "." :: .word m :: op "(" :: rest) = (e, op "." :: .word m :: op "(" :: rest) := rfl

/-- A place is a word, and fields. -/
theorem place_toks {e : Expr} (h : GoodP e) : ∃ x ts, e.toks = .word x :: ts ∧ GoodVar x ∧
    (∀ rest, eat [op "::"] rest = none → eat [op "::"] (ts ++ rest) = none) ∧
    ∀ rest, isCall rest = false → parseFields (.var x) (ts ++ rest) = parseFields e rest := by
  induction e with
  | var x => exact ⟨x, [], rfl, h, fun _ h => h, fun _ _ => rfl⟩
  | field e f ih =>
    obtain ⟨x, ts, h1, h2, h3, h4⟩ := ih h.1
    refine ⟨x, ts ++ [op ".", .word f], ?_, h2, fun rest _ => ?_, fun rest hr => ?_⟩
    · rw [Expr.toks, h1]
      simp
    · rw [List.append_assoc]
      exact h3 _ rfl
    · rw [List.append_assoc, h4 _ rfl]
      show (if ".".toList = ".".toList ∧ isCall rest = false then _ else _) = _
      rw [if_pos ⟨rfl, hr⟩]
      rfl
  | _ => exact h.elim

theorem parsePlace_eq {e : Expr} (h : GoodP e) {rest : List Tok} (hr : isCall rest = false) :
    parsePlace (e.toks ++ rest) = some (parseFields e rest) := by
  obtain ⟨x, ts, h1, h2, h3, h4⟩ := place_toks h
  rw [h1, List.cons_append, ← h4 rest hr]
  rfl

theorem parsePlace_ok {e : Expr} (h : GoodP e) {rest : List Tok} (hr : stop1 rest = true) : parsePlace (e.toks ++ rest) = some (e, rest) := by
  rw [parsePlace_eq h (stop_call hr), parseFields_stop e hr]

theorem parsePlace_call {e : Expr} (h : GoodP e) (m : Str) (rest : List Tok) :
    parsePlace (e.toks ++ op "." :: .word m :: op "(" :: rest) = some (e, op "." :: .word m :: op "(" :: rest) := by
  rw [parsePlace_eq h rfl, parseFields_call]

theorem good_ne {x : Str} (h : GoodVar x) {y : Str} (hy : y ∈ markers) : x ≠ y := fun hh => h.2 (hh ▸ hy)

theorem parsePrim_place {e : Expr} (h : GoodP e) {rest : List Tok} (hr : isCall rest = false) (hc : eat [op "::"] rest = none) :
    parsePrim (e.toks ++ rest) =
      match eat [op ".", kw "len", op "(", op ")"] (parseFields e rest).2 with
      | some ts => some (.len (parseFields e rest).1, ts)
      | none => some (parseFields e rest) := by
  obtain ⟨x, ts, h1, h2, h3, h4⟩ := place_toks h
  rw [h1, List.cons_append, parsePrim.eq_def]
  show (match eat [op "::"] (ts ++ rest) with | some _ => _ | none => _) = _
  rw [h3 rest hc]
  show (if x = "Some".toList then _ else if x = "reader".toList then _ else _) = _
  rw [if_neg (good_ne h2 (by decide)), if_neg (good_ne h2 (by decide)), h4 rest hr]
  rfl

theorem parseExpr_prim {ts rest : List Tok} {e : Expr} (h : parsePrim ts = some (e, rest)) (hr : stop2 rest = true) :
    parseExpr ts = some (e, rest) := by
  rw [parseExpr.eq_def, h]
  show (match eat [kw "as"] rest with | some _ => _ | none => _) = _
  rw [stop_as hr]

/-- How an expression is parsed. -/
def Parses (e : Expr) : Prop :=
  (Good true e → ∀ rest, stop1 rest = true → parsePrim (e.toks ++ rest) = some (e, rest)) ∧
  (Good false e → ∀ rest, stop2 rest = true → parseExpr (e.toks ++ rest) = some (e, rest))

theorem Parses.of {e : Expr} (hg : Good false e → Good true e)
    (h : Good true e → ∀ rest, stop1 rest = true → parsePrim (e.toks ++ rest) = some (e, rest)) : Parses e :=
  ⟨h, fun g rest hr => parseExpr_prim (h (hg g) rest (stop_21 hr)) hr⟩

theorem parsePlacePrim {e : Expr} (h : GoodP e) {rest : List Tok} (hr : stop1 rest = true) : parsePrim (e.toks ++ rest) = some (e, rest) := by
  rw [parsePrim_place h (stop_call hr) (stop_op hr (by decide) _), parseFields_stop e hr]
  show (match eat [op ".", kw "len", op "(", op ")"] rest with | some _ => _ | none => _) = _
  rw [stop_op hr (by decide)]

theorem parses (e : Expr) : Parses e := by
  induction e with
  | var x => exact Parses.of id fun g rest hr => parsePlacePrim (e := .var x) g hr
  | field e f ih => exact Parses.of id fun g rest hr => parsePlacePrim (e := .field e f) g hr
  | u8 n =>
    refine Parses.of id fun g rest hr => ?_
    rw [parsePrim.eq_def]
    rfl
  | len e ih =>
    refine Parses.of id fun g rest hr => ?_
    simp only [Expr.toks, List.append_assoc,List.cons_append, List.nil_append]
    rw [parsePrim_place g rfl rfl, parseFields_call]
    rfl
  | cast e t ih =>
    refine ⟨fun g => absurd g.1 (by decide), fun g rest hr => ?_⟩
    simp only [Expr.toks, List.append_assoc, List.cons_append, List.nil_append]
    rw [parseExpr.eq_def, ih.1 g.2.1 _ rfl]
    rfl
  | addr e ih =>
    refine Parses.of id fun g rest hr => ?_
    simp only [Expr.toks, List.cons_append, List.nil_append]
    rw [parsePrim.eq_def]
    show (parsePlace (e.toks ++ rest)) >>= _ = _
    rw [parsePlace_ok g hr]
    rfl
  | read t =>
    refine Parses.of id fun g rest hr => ?_
    simp only [Expr.toks, List.cons_append, List.nil_append]
    rw [parsePrim.eq_def]
    have hne : "read_".toList ++ t ≠ "read_string".toList := fun h => g.2 (List.append_cancel_left (as := "read_".toList) h)
    show (if "read_".toList ++ t = "read_string".toList then _ else _) = _
    rw [if_neg hne, afterPrefix_self]
    rfl
  | readString e ih =>
    refine Parses.of id fun g rest hr => ?_
    simp only [Expr.toks, List.append_assoc, List.cons_append, List.nil_append]
    rw [parsePrim.eq_def]
    show (parseExpr (e.toks ++ op ")" :: op "?" :: rest)) >>= _ = _
    rw [ih.2 g _ rfl]
    rfl
  | dflt t =>
    refine Parses.of id fun g rest hr => ?_
    rw [parsePrim.eq_def]
    rfl
  | some e ih =>
    refine Parses.of id fun g rest hr => ?_
    simp only [Expr.toks, List.append_assoc, List.cons_append, List.nil_append]
    rw [parsePrim.eq_def]
    show (parseExpr (e.toks ++ op ")" :: rest)) >>= _ = _
    rw [ih.2 g _ rfl]
    rfl
  | tryFrom t e ih =>
    refine Parses.of id fun g rest hr => ?_
    simp only [Expr.toks, List.append_assoc, List.cons_append, List.nil_append]
    rw [parsePrim.eq_def]
    show (parseExpr (e.toks ++ op ")" :: op "?" :: rest)) >>= _ = _
    rw [ih.2 g.2 _ rfl]
    rfl

theorem parseExpr_ok {e : Expr} (h : Good false e) {rest : List Tok} (hr : stop2 rest = true) :
    parseExpr (e.toks ++ rest) = some (e, rest) := (parses e).2 h rest hr

/-! ### statements -/

theorem parseWrite_ok {t : Str} {e : Expr} (h : Good false e) (rest : List Tok) :
    parseWrite (op "." :: .word ("write_".toList ++ t) :: op "(" :: (e.toks ++ op ")" :: rest)) = some ((t, e), rest) := by
  unfold parseWrite
  show (parseExpr (e.toks ++ op ")" :: rest)) >>= _ = _
  rw [parseExpr_ok h rfl]
  rfl

theorem parseStmt_place {e : Expr} (h : GoodP e) (rest : List Tok) : parseStmt (e.toks ++ rest) = parseSimple (e.toks ++ rest) := by
  obtain ⟨x, ts, h1, h2, -, -⟩ := place_toks h
  rw [h1, List.cons_append, parseStmt.eq_def]
  show (if x = "writer".toList then _ else _) = _
  rw [if_neg (good_ne h2 (by decide)), if_neg (good_ne h2 (by decide)), if_neg (good_ne h2 (by decide)), if_neg (good_ne h2 (by decide)),
    if_neg (good_ne h2 (by decide))]

/-- What may follow statements. -/
def stopS : List Tok → Bool
  | .op _ :: _ => true
  | .word x :: _ => decide (x = "Ok".toList)
  | _ => false

theorem parseStmts_stop {rest : List Tok} (h : stopS rest = true) : parseStmts rest = some ([], rest) := by
  rw [parseStmts.eq_def]
  cases rest with
  | nil => cases h
  | cons t ts =>
    cases t with
    | op o => rfl
    | word x =>
      show (if x = "Ok".toList then _ else _) = _
      rw [if_pos (of_decide_eq_true h)]
    | _ => cases h

/-- The first token of a statement is a word. -/
theorem stmt_word {s : Stmt} (h : GoodS s) : ∃ x ts, s.toks = .word x :: ts ∧ x ≠ "Ok".toList := by
  have place : ∀ {e : Expr}, GoodP e → ∀ rest, ∃ x ts, e.toks ++ rest = .word x :: ts ∧ x ≠ "Ok".toList := fun h rest => by
    obtain ⟨x, ts, h1, h2, -, -⟩ := place_toks h
    exact ⟨x, ts ++ rest, by rw [h1]; rfl, good_ne h2 (by decide)⟩
  cases s with
  | assign l r =>
    simp only [Stmt.toks, List.append_assoc]
    exact place h.1 _
  | reserve e n =>
    simp only [Stmt.toks, List.append_assoc]
    exact place h.1 _
  | push e v =>
    simp only [Stmt.toks, List.append_assoc]
    exact place h.1 _
  | write => exact ⟨_, _, rfl, by decide⟩
  | matchOpt => exact ⟨_, _, rfl, by decide⟩
  | forIter => exact ⟨_, _, rfl, by decide⟩
  | letS => exact ⟨_, _, rfl, by decide⟩
  | ifGt => exact ⟨_, _, rfl, by decide⟩
  | forRange => exact ⟨_, _, rfl, by decide⟩

mutual
theorem parse_stmt : (s : Stmt) → GoodS s → (rest : List Tok) → parseStmt (s.toks ++ rest) = some (s, rest)
  | .write t e, hg, rest => by
    simp only [Stmt.toks, List.append_assoc, List.cons_append, List.nil_append]
    rw [parseStmt.eq_def]
    show (parseWrite (op "." :: .word ("write_".toList ++ t) :: op "(" :: (e.toks ++ op ")" :: op ";" :: rest))) >>= _ = _
    rw [parseWrite_ok hg.2]
    rfl
  | .matchOpt byRef e t n x body, hg, rest => by
    simp only [Stmt.toks, List.append_assoc, List.cons_append, List.nil_append]
    rw [parseStmt.eq_def]
    obtain ⟨y, ts, h1, h2, -, -⟩ := place_toks hg.1
    have hr : ∀ rest : List Tok, eat [op "&"] (e.toks ++ rest) = none := fun rest => by rw [h1]; rfl
    have tail : ∀ (b : Bool) (rest : List Tok), ((parsePlace (e.toks ++ op "{" :: kw "None" :: op "=>" :: kw "writer" :: op "." :: Tok.word ("write_".toList ++ t) :: op "(" ::
        (n.toks ++ op ")" :: op "," :: kw "Some" :: op "(" :: Tok.word x :: op ")" :: op "=>" :: op "{" :: (stmtsToks body ++
        op "}" :: op "}" :: rest)))) >>= fun e =>
        (eat [op "{", kw "None", op "=>", kw "writer"] e.2) >>= fun ts => (parseWrite ts) >>= fun w =>
        (eat [op ",", kw "Some", op "("] w.2) >>= fun ts => (anyWord ts) >>= fun x => (eat [op ")", op "=>", op "{"] x.2) >>= fun ts =>
          (parseStmts ts) >>= fun bd => (eat [op "}", op "}"] bd.2) >>= fun ts =>
            some (Stmt.matchOpt b e.1 w.1.1 w.1.2 x.1 bd.1, ts)) = some (.matchOpt b e t n x body, rest) := by
      intro b rest
      rw [parsePlace_ok hg.1 rfl]
      show (parseWrite (op "." :: .word ("write_".toList ++ t) :: op "(" :: (n.toks ++ op ")" :: _))) >>= _ = _
      rw [parseWrite_ok hg.2.2.1]
      show (parseStmts (stmtsToks body ++ _)) >>= _ = _
      rw [parse_stmts body hg.2.2.2.2 _ rfl]
      rfl
    cases byRef with
    | true => exact tail true rest
    | false =>
      simp only [Bool.false_eq_true, if_false, List.nil_append]
      show ((parsePlace ((eat [op "&"] (e.toks ++ _)).getD (e.toks ++ _))) >>= _) = _
      rw [hr]
      exact tail false rest
  | .forIter x e body, hg, rest => by
    simp only [Stmt.toks, List.append_assoc, List.cons_append, List.nil_append]
    rw [parseStmt.eq_def]
    show (match eat [kw "_", kw "in", .num 0 [], op ".."] (.word x :: _) with | some _ => _ | none => _) = _
    rw [eat_word (good_ne hg.1 (by decide))]
    show (parsePlace (e.toks ++ op "." :: kw "iter" :: op "(" :: _)) >>= _ = _
    rw [parsePlace_call hg.2.1]
    show (parseStmts (stmtsToks body ++ _)) >>= _ = _
    rw [parse_stmts body hg.2.2 _ rfl]
    rfl
  | .letS isMut x e, hg, rest => by
    simp only [Stmt.toks, List.append_assoc, List.cons_append, List.nil_append]
    rw [parseStmt.eq_def]
    cases isMut with
    | true =>
      show (parseExpr (e.toks ++ op ";" :: rest)) >>= _ = _
      rw [parseExpr_ok hg.2 rfl]
      rfl
    | false =>
      show parseLet (.word x :: op "=" :: (e.toks ++ op ";" :: rest)) = _
      unfold parseLet
      dsimp only
      rw [eat_word (good_ne hg.1 (by decide))]
      show (parseExpr (e.toks ++ op ";" :: rest)) >>= _ = _
      rw [parseExpr_ok hg.2 rfl]
      rfl
  | .assign l r, hg, rest => by
    simp only [Stmt.toks, List.append_assoc, List.cons_append, List.nil_append]
    rw [parseStmt_place hg.1]
    unfold parseSimple
    rw [parsePlace_ok hg.1 rfl]
    show (parseExpr (r.toks ++ op ";" :: rest)) >>= _ = _
    rw [parseExpr_ok hg.2 rfl]
    rfl
  | .ifGt e n body, hg, rest => by
    simp only [Stmt.toks, List.append_assoc, List.cons_append, List.nil_append]
    rw [parseStmt.eq_def]
    show (parseExpr (e.toks ++ _)) >>= _ = _
    rw [parseExpr_ok hg.1 rfl]
    show (parseStmts (stmtsToks body ++ _)) >>= _ = _
    rw [parse_stmts body hg.2 _ rfl]
    rfl
  | .reserve e n, hg, rest => by
    simp only [Stmt.toks, List.append_assoc, List.cons_append, List.nil_append]
    rw [parseStmt_place hg.1]
    unfold parseSimple
    rw [parsePlace_call hg.1]
    show (parseExpr (n.toks ++ _)) >>= _ = _
    rw [parseExpr_ok hg.2 rfl]
    rfl
  | .push e v, hg, rest => by
    simp only [Stmt.toks, List.append_assoc, List.cons_append, List.nil_append]
    rw [parseStmt_place hg.1]
    unfold parseSimple
    rw [parsePlace_call hg.1]
    show (parseExpr (v.toks ++ _)) >>= _ = _
    rw [parseExpr_ok hg.2 rfl]
    rfl
  | .forRange n body, hg, rest => by
    simp only [Stmt.toks, List.append_assoc, List.cons_append, List.nil_append]
    rw [parseStmt.eq_def]
    show (parsePlace (n.toks ++ op "{" :: _)) >>= _ = _
    rw [parsePlace_ok hg.1 rfl]
    show (parseStmts (stmtsToks body ++ _)) >>= _ = _
    rw [parse_stmts body hg.2 _ rfl]
    rfl
theorem parse_stmts : (ss : List Stmt) → GoodSs ss → (rest : List Tok) → stopS rest = true →
    parseStmts (stmtsToks ss ++ rest) = some (ss, rest)
  | [], _, rest, hr => parseStmts_stop hr
  | s :: ss, hg, rest, hr => by
    simp only [stmtsToks, List.append_assoc]
    obtain ⟨x, ts, hx, hne⟩ := stmt_word hg.1
    have : parseStmts (s.toks ++ (stmtsToks ss ++ rest)) =
        ((parseStmt (s.toks ++ (stmtsToks ss ++ rest))) >>= fun s => (parseStmts s.2) >>= fun ss => some (s.1 :: ss.1, ss.2)) := by
      rw [hx, List.cons_append, parseStmts.eq_def]
      show (if x = "Ok".toList then _ else _) = _
      rw [if_neg hne]
    rw [this, parse_stmt s hg.1]
    show (parseStmts (stmtsToks ss ++ rest)) >>= _ = _
    rw [parse_stmts ss hg.2 rest hr]
    rfl
end

end Packetc.Rs
