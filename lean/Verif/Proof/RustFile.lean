import Verif.Proof.RustParse
import Verif.Model.Rust
/-!
# Parsing a printed file
-/

namespace Packetc.Rs
open Js (isIdStart isIdPart digitsValue isIdent deeper)

/-! ### fields, variants, arms -/

def FieldTy.toks (t : FieldTy) : List Tok :=
  match t.opt, t.vec with
  | true, true => [kw "Option", op "<", kw "Vec", op "<"] ++ [.word t.base] ++ [op ">>"]
  | true, false => [kw "Option", op "<"] ++ [.word t.base] ++ [op ">"]
  | false, true => [kw "Vec", op "<"] ++ [.word t.base] ++ [op ">"]
  | false, false => [.word t.base]
def fieldsToks : List (Str × FieldTy) → List Tok
  | [] => []
  | f :: fs => ([kw "pub"] ++ [.word f.1] ++ [op ":"] ++ (f.2.toks ++ [op ","])) ++ fieldsToks fs
def variantsToks : List (Str × Nat) → List Tok
  | [] => []
  | v :: vs => ([.word v.1] ++ [op "=", .num 1 [], op "<<"] ++ [.num v.2 []] ++ [op ","]) ++ variantsToks vs
def armsToks (name : Str) : List (Int × Str) → List Tok
  | [] => []
  | a :: as => (intToks a.1 ++ [op "=>", kw "Ok", op "("] ++ [.word name] ++ [op "::"] ++ [.word a.2] ++ [op ")", op ","]) ++ armsToks name as

theorem cl_ty {t : FieldTy} (h : isIdent t.base = true) : Cl (t.print ++ ",\n".toList) (t.toks ++ [op ","]) := by
  obtain ⟨b, v, o⟩ := t
  have hw := lx_word h
  have hy : wordy b = true := by
    have := wordy_ident h []
    rwa [List.append_nil] at this
  cases o <;> cases v
  · have e : FieldTy.print ⟨b, false, false⟩ ++ ",\n".toList = b ++ ",\n".toList := by simp [FieldTy.print]
    rw [e]
    exact hw.litW (ts := [op ","]) ⟨_, _, rfl, .start, rfl⟩ (by decide)
  · have e : FieldTy.print ⟨b, true, false⟩ ++ ",\n".toList = "Vec<".toList ++ b ++ ">,\n".toList := by simp [FieldTy.print]
    rw [e]
    exact (Lx.litO (a := "Vec<".toList) (ta := [kw "Vec", op "<"]) ⟨_, _, rfl, .op _, rfl⟩ hw hy).litW (ts := [op ">", op ","])
      ⟨_, _, rfl, .start, rfl⟩ (by decide)
  · have e : FieldTy.print ⟨b, false, true⟩ ++ ",\n".toList = "Option<".toList ++ b ++ ">,\n".toList := by simp [FieldTy.print]
    rw [e]
    exact (Lx.litO (a := "Option<".toList) (ta := [kw "Option", op "<"]) ⟨_, _, rfl, .op _, rfl⟩ hw hy).litW (ts := [op ">", op ","])
      ⟨_, _, rfl, .start, rfl⟩ (by decide)
  · have e : FieldTy.print ⟨b, true, true⟩ ++ ",\n".toList = "Option<Vec<".toList ++ b ++ ">>,\n".toList := by simp [FieldTy.print]
    rw [e]
    exact (Lx.litO (a := "Option<Vec<".toList) (ta := [kw "Option", op "<", kw "Vec", op "<"]) ⟨_, _, rfl, .op _, rfl⟩ hw hy).litW
      (ts := [op ">>", op ","]) ⟨_, _, rfl, .start, rfl⟩ (by decide)

theorem cl_fields {ind : Str} (hi : Cl ind []) : (fs : List (Str × FieldTy)) → (∀ f ∈ fs, isIdent f.1 = true ∧ isIdent f.2.base = true) →
    Cl (printFields ind fs) (fieldsToks fs)
  | [], _ => cl_nil
  | (f, t) :: fs, h => by
    unfold printFields fieldsToks
    refine Lx.then (hi.indent ?_) (cl_fields hi fs fun g hg => h g (List.mem_cons_of_mem _ hg))
    rw [List.append_assoc _ t.print]
    exact Lx.then ((Lx.then (a := "pub ".toList) (ta := [kw "pub"]) ⟨_, _, rfl, .start, rfl⟩ (lx_word (h _ List.mem_cons_self).1)).litW
      (s := ": ".toList) (ts := [op ":"]) ⟨_, _, rfl, .start, rfl⟩ (by decide)) (cl_ty (h _ List.mem_cons_self).2)

theorem cl_variants {ind : Str} (hi : Cl ind []) : (vs : List (Str × Nat)) → (∀ v ∈ vs, isIdent v.1 = true) →
    Cl (printVariants ind vs) (variantsToks vs)
  | [], _ => cl_nil
  | (v, k) :: vs, h => by
    unfold printVariants variantsToks
    refine Lx.then (hi.indent ?_) (cl_variants hi vs fun g hg => h g (List.mem_cons_of_mem _ hg))
    exact (Lx.then ((lx_word (h _ List.mem_cons_self)).litW (s := " = 1 << ".toList) (ts := [op "=", .num 1 [], op "<<"])
      ⟨_, _, rfl, .start, rfl⟩ (by decide)) (lx_nat k)).lit (s := ",\n".toList) (ts := [op ","]) ⟨_, _, rfl, .start, rfl⟩ (by decide)

theorem cl_arms {ind name : Str} (hi : Cl ind []) (hn : isIdent name = true) : (as : List (Int × Str)) → (∀ a ∈ as, isIdent a.2 = true) →
    Cl (printArms ind name as) (armsToks name as)
  | [], _ => cl_nil
  | (i, v) :: as, h => by
    unfold printArms armsToks
    refine Lx.then (hi.indent ?_) (cl_arms hi hn as fun g hg => h g (List.mem_cons_of_mem _ hg))
    have hy : wordy v = true := by
      have := wordy_ident (h _ List.mem_cons_self) []
      rwa [List.append_nil] at this
    exact (Lx.litO ((Lx.then ((lx_int i).lit (s := " => Ok(".toList) (ts := [op "=>", kw "Ok", op "("])
      ⟨_, _, rfl, .start, rfl⟩ (by decide)) (lx_word hn)).litW (s := "::".toList) (ts := [op "::"]) ⟨_, _, rfl, .op _, rfl⟩ (by decide))
      (lx_word (h _ List.mem_cons_self)) hy).litW (s := "),\n".toList) (ts := [op ")", op ","]) ⟨_, _, rfl, .start, rfl⟩ (by decide)

theorem parseTy_ok (t : FieldTy) (rest : List Tok) (h : isIdent t.base = true) :
    parseTy (t.toks ++ op "," :: rest) = some (t, op "," :: rest) := by
  obtain ⟨b, v, o⟩ := t
  have key : ∀ (s : String) (r : List Tok), (∀ r', r ≠ op "<" :: r') → eat [kw s, op "<"] (.word b :: r) = none := by
    intro s r hr
    show (if Tok.word b = kw s then eat [op "<"] r else none) = none
    split
    · cases r with
      | nil => rfl
      | cons u us =>
        show (if u = op "<" then _ else none) = none
        rw [if_neg fun hh => hr us (by rw [hh])]
    · rfl
  cases o <;> cases v
  · unfold parseTy
    show (match eat [kw "Option", op "<"] (.word b :: op "," :: rest) with | some _ => _ | none => _) = _
    rw [key _ _ (by simp [op])]
    show (match eat [kw "Vec", op "<"] (.word b :: op "," :: rest) with | some _ => _ | none => _) = _
    rw [key _ _ (by simp [op])]
    rfl
  · rfl
  · unfold parseTy
    show (match eat [kw "Vec", op "<"] (.word b :: op ">" :: op "," :: rest) with | some _ => _ | none => _) = _
    rw [key _ _ (by simp [op])]
    rfl
  · rfl

theorem parse_fields : (fs : List (Str × FieldTy)) → (∀ f ∈ fs, isIdent f.1 = true ∧ isIdent f.2.base = true) → (rest : List Tok) →
    parseFieldDefs (fieldsToks fs ++ op "}" :: rest) = some (fs, rest)
  | [], _, rest => by
    rw [parseFieldDefs.eq_def]
    rfl
  | (f, t) :: fs, h, rest => by
    simp only [fieldsToks, List.append_assoc, List.cons_append, List.nil_append]
    rw [parseFieldDefs.eq_def]
    show (parseTy (t.toks ++ op "," :: (fieldsToks fs ++ op "}" :: rest))) >>= _ = _
    rw [parseTy_ok t _ (h _ List.mem_cons_self).2]
    show (parseFieldDefs (fieldsToks fs ++ op "}" :: rest)) >>= _ = _
    rw [parse_fields fs (fun g hg => h g (List.mem_cons_of_mem _ hg))]
    rfl

theorem parse_variants : (vs : List (Str × Nat)) → (rest : List Tok) →
    parseVariants (variantsToks vs ++ op "}" :: rest) = some (vs, rest)
  | [], rest => by
    rw [parseVariants.eq_def]
    rfl
  | (v, k) :: vs, rest => by
    simp only [variantsToks, List.cons_append, List.nil_append]
    rw [parseVariants.eq_def]
    show (parseVariants (variantsToks vs ++ op "}" :: rest)) >>= _ = _
    rw [parse_variants vs]
    rfl

theorem parseInt_ok (i : Int) (rest : List Tok) : parseInt (intToks i ++ rest) = some (i, rest) := by
  cases i with
  | ofNat n =>
    have : intToks (Int.ofNat n) = [.num n []] := by
      unfold intToks
      rw [if_neg (by exact Int.not_lt.2 (Int.natCast_nonneg n))]
      rfl
    rw [this]
    rfl
  | negSucc n =>
    have : intToks (Int.negSucc n) = [op "-", .num (n + 1) []] := by
      unfold intToks
      rw [if_pos (Int.negSucc_lt_zero n)]
      rfl
    rw [this]
    rfl

theorem intToks_head (i : Int) (rest : List Tok) : eat [kw "_"] (intToks i ++ rest) = none := by
  unfold intToks
  split <;> rfl

theorem parse_arms (name : Str) : (as : List (Int × Str)) → (rest : List Tok) →
    parseArms name (armsToks name as ++ kw "_" :: rest) = some (as, rest)
  | [], rest => by
    rw [parseArms.eq_def]
    rfl
  | (i, v) :: as, rest => by
    simp only [armsToks, List.append_assoc]
    rw [parseArms.eq_def, intToks_head]
    show (parseInt (intToks i ++ _)) >>= _ = _
    rw [parseInt_ok]
    show (eat [op "=>", kw "Ok", op "(", .word name, op "::"] ([op "=>", kw "Ok", op "(", .word name, op "::"] ++ _)) >>= _ = _
    rw [eat_self]
    show (parseArms name (armsToks name as ++ kw "_" :: rest)) >>= _ = _
    rw [parse_arms name as]
    rfl

/-! ### definitions -/

def Item.toks : Item → List Tok
  | .struct n fs => structHead ++ [.word n] ++ [op "{"] ++ fieldsToks fs ++ [op "}"]
  | .enum n r vs d arms =>
    enumHead ++ [.word r] ++ [op ")", op "]", kw "pub", kw "enum"] ++ [.word n] ++ [op "{"] ++ variantsToks vs ++ [op "}"] ++
      implDefault n ++ [.word d] ++ implTryFrom n r ++ armsToks n arms ++ [kw "_"] ++ implEnd n

/-- The names in a definition are words. -/
def GoodItem : Item → Prop
  | .struct n fs => isIdent n = true ∧ ∀ f ∈ fs, isIdent f.1 = true ∧ isIdent f.2.base = true
  | .enum n r vs d arms => isIdent n = true ∧ isIdent r = true ∧ (∀ v ∈ vs, isIdent v.1 = true) ∧ isIdent d = true ∧ ∀ a ∈ arms, isIdent a.2 = true

theorem lexFrom_str (s : Str) : (cs : Str) → (∀ c ∈ cs, isIdPart c = true) → lexFrom (.str s) cs = some ([], .str (s ++ cs))
  | [], _ => by simp [lexFrom]
  | c :: cs, h => by
    have hc := h c List.mem_cons_self
    have h1 : c ≠ '"' := by rintro rfl; revert hc; decide
    have h2 : c ≠ '\\' := by rintro rfl; revert hc; decide
    have h3 : c ≠ '\r' := by rintro rfl; revert hc; decide
    simp only [lexFrom, step, h1, h2, h3]
    simp [lexFrom_str (s ++ [c]) cs (fun d hd => h d (List.mem_cons_of_mem _ hd))]

theorem cl_err {n : Str} (h : isIdent n = true) :
    Cl ("_ => Err(packet::Error::InvalidEnumValue(value as usize, \"".toList ++ n ++ "\"))\n".toList)
      ([kw "_", op "=>", kw "Err", op "(", kw "packet", op "::", kw "Error", op "::", kw "InvalidEnumValue", op "(", kw "value", kw "as",
        kw "usize", op ",", .str n, op ")", op ")"]) := by
  refine ⟨_, .start, ?_, .start, (List.append_nil _).symm⟩
  rw [List.append_assoc, lexFrom_append]
  have h1 : lexFrom .start "_ => Err(packet::Error::InvalidEnumValue(value as usize, \"".toList =
      some ([kw "_", op "=>", kw "Err", op "(", kw "packet", op "::", kw "Error", op "::", kw "InvalidEnumValue", op "(", kw "value", kw "as",
        kw "usize", op ","], .str []) := by decide +kernel
  rw [h1, Option.bind_some, lexFrom_append, lexFrom_str [] n (Js.ident_parts h), Option.bind_some]
  rfl

theorem lx_word_lit {a b n : Str} {ta tb : List Tok} (ha : Cl a ta) (hn : isIdent n = true) (hb : Cl b tb) (hd : delimW b = true) :
    Cl (a ++ n ++ b) (ta ++ [.word n] ++ tb) := (Lx.then ha (lx_word hn)).litW hb hd

theorem cl_item {i : Item} (h : GoodItem i) : Cl i.print ([op "#", op "["] ++ i.toks) := by
  cases i with
  | struct n fs =>
    have e : [op "#", op "["] ++ (Item.struct n fs).toks =
        ([op "#", op "[", kw "derive", op "(", kw "Clone", op ",", kw "PartialEq", op ",", kw "Debug", op ",", kw "Default", op ")", op "]"] ++
          ([kw "pub", kw "struct"] ++ [.word n] ++ [op "{"]) ++ fieldsToks fs) ++ [op "}"] := by
      simp [Item.toks, structHead]
    rw [e]
    unfold Item.print
    refine Lx.then (Lx.then (Lx.then ⟨_, _, rfl, .start, rfl⟩ ?_) (cl_fields (cl_deeper cl_nil) fs h.2)) ⟨_, _, rfl, .start, rfl⟩
    exact lx_word_lit ⟨_, _, rfl, .start, rfl⟩ h.1 ⟨_, _, rfl, .start, rfl⟩ (by decide)
  | enum n r vs d arms =>
    obtain ⟨hn, hr, hv, hd, ha⟩ := h
    have e : [op "#", op "["] ++ (Item.enum n r vs d arms).toks =
        [op "#", op "[", kw "derive", op "(", kw "Clone", op ",", kw "Copy", op ",", kw "PartialEq", op ",", kw "Debug", op ")", op "]"] ++
          ([op "#", op "[", kw "repr", op "("] ++ [.word r] ++ [op ")", op "]"]) ++
          ([kw "pub", kw "enum"] ++ [.word n] ++ [op "{"]) ++ variantsToks vs ++ [op "}"] ++
          ([kw "impl", kw "Default", kw "for"] ++ [.word n] ++ [op "{"]) ++
          [kw "fn", kw "default", op "(", op ")", op "->", kw "Self", op "{"] ++ ([.word n] ++ [op "::"] ++ [.word d] ++ []) ++ [op "}"] ++ [op "}"] ++
          ([kw "impl", kw "std", op "::", kw "convert", op "::", kw "TryFrom", op "<"] ++ [.word r] ++ [op ">", kw "for"] ++ [.word n] ++ [op "{"]) ++
          [kw "type", kw "Error", op "=", kw "packet", op "::", kw "Error", op ";"] ++
          ([kw "fn", kw "try_from", op "(", kw "value", op ":"] ++ [.word r] ++
            [op ")", op "->", kw "Result", op "<", kw "Self", op ",", kw "Self", op "::", kw "Error", op ">", op "{"]) ++
          [kw "match", kw "value", op "{"] ++ armsToks n arms ++
          [kw "_", op "=>", kw "Err", op "(", kw "packet", op "::", kw "Error", op "::", kw "InvalidEnumValue", op "(", kw "value", kw "as",
            kw "usize", op ",", .str n, op ")", op ")"] ++ [op "}"] ++ [op "}"] ++ [op "}"] := by
      simp [Item.toks, enumHead, implDefault, implTryFrom, implEnd]
    rw [e]
    unfold Item.print
    have d1 := cl_deeper cl_nil
    have d2 := cl_deeper d1
    have d3 := cl_deeper d2
    have hw : ∀ {x : Str}, isIdent x = true → wordy x = true := fun {x} hx => by
      have := wordy_ident hx []
      rwa [List.append_nil] at this
    refine Lx.then (Lx.then (Lx.then (Lx.then (Lx.then (Lx.then (Lx.then (Lx.then (Lx.then (Lx.then (Lx.then (Lx.then (Lx.then (Lx.then
      (Lx.then (Lx.then (Lx.then (Lx.then ⟨_, _, rfl, .start, rfl⟩ ?_) ?_) (cl_variants d1 vs hv)) ⟨_, _, rfl, .start, rfl⟩) ?_) (d1.indent ?_))
      (d2.indent ?_)) (cl_close d1)) ⟨_, _, rfl, .start, rfl⟩) ?_) (d1.indent ?_)) (d1.indent ?_)) (d2.indent ?_)) (cl_arms d3 hn arms ha))
      (d3.indent (cl_err hn))) (cl_close d2)) (cl_close d1)) ⟨_, _, rfl, .start, rfl⟩
    · exact lx_word_lit ⟨_, _, rfl, .start, rfl⟩ hr ⟨_, _, rfl, .start, rfl⟩ (by decide)
    · exact lx_word_lit ⟨_, _, rfl, .start, rfl⟩ hn ⟨_, _, rfl, .start, rfl⟩ (by decide)
    · exact lx_word_lit ⟨_, _, rfl, .start, rfl⟩ hn ⟨_, _, rfl, .start, rfl⟩ (by decide)
    · exact ⟨_, _, rfl, .start, rfl⟩
    · exact (Lx.litO ((lx_word hn).litW (s := "::".toList) (ts := [op "::"]) ⟨_, _, rfl, .op _, rfl⟩ (by decide)) (lx_word hd) (hw hd)).litW
        (s := "\n".toList) (ts := []) ⟨_, _, rfl, .start, rfl⟩ (by decide)
    · exact Lx.litW (Lx.then (Lx.litW (Lx.litO (a := "impl std::convert::TryFrom<".toList)
        (ta := [kw "impl", kw "std", op "::", kw "convert", op "::", kw "TryFrom", op "<"]) ⟨_, _, rfl, .op _, rfl⟩ (lx_word hr) (hw hr))
        (s := "> for ".toList) (ts := [op ">", kw "for"]) ⟨_, _, rfl, .start, rfl⟩ (by decide)) (lx_word hn))
        (s := " {\n".toList) (ts := [op "{"]) ⟨_, _, rfl, .start, rfl⟩ (by decide)
    · exact ⟨_, _, rfl, .start, rfl⟩
    · exact lx_word_lit ⟨_, _, rfl, .start, rfl⟩ hr ⟨_, _, rfl, .start, rfl⟩ (by decide)
    · exact ⟨_, _, rfl, .start, rfl⟩

theorem parse_struct {n : Str} {fs : List (Str × FieldTy)} (h : GoodItem (.struct n fs)) (rest : List Tok) :
    parseStruct ((Item.struct n fs).toks ++ rest) = some (.struct n fs, rest) := by
  simp only [Item.toks, List.append_assoc]
  unfold parseStruct
  rw [eat_self]
  show (parseFieldDefs (fieldsToks fs ++ op "}" :: rest)) >>= _ = _
  rw [parse_fields fs h.2]
  rfl

theorem parse_enum (n r : Str) (vs : List (Str × Nat)) (d : Str) (arms : List (Int × Str)) (rest : List Tok) :
    parseStruct ((Item.enum n r vs d arms).toks ++ rest) = none ∧
    parseEnum ((Item.enum n r vs d arms).toks ++ rest) = some (.enum n r vs d arms, rest) := by
  constructor
  · rfl
  · simp only [Item.toks, List.append_assoc]
    unfold parseEnum
    rw [eat_self]
    show (parseVariants (variantsToks vs ++ op "}" :: (implDefault n ++ _))) >>= _ = _
    rw [parse_variants vs]
    show (eat (implDefault n) (implDefault n ++ _)) >>= _ = _
    rw [eat_self]
    show (eat (implTryFrom n r) (implTryFrom n r ++ _)) >>= _ = _
    rw [eat_self]
    show (parseArms n (armsToks n arms ++ kw "_" :: _)) >>= _ = _
    rw [parse_arms]
    show (eat (implEnd n) (implEnd n ++ _)) >>= _ = _
    rw [eat_self]
    rfl

def itemsToks : List Item → List Tok
  | [] => []
  | i :: is => ([op "#", op "["] ++ i.toks) ++ itemsToks is

theorem parse_items : (is : List Item) → (∀ i ∈ is, GoodItem i) → (rest : List Tok) →
    parseItems (itemsToks is ++ kw "pub" :: rest) = some (is, kw "pub" :: rest)
  | [], _, rest => by
    rw [parseItems.eq_def]
    rfl
  | i :: is, h, rest => by
    simp only [itemsToks, List.append_assoc]
    rw [parseItems.eq_def, eat_self]
    have hi := parse_items is (fun j hj => h j (List.mem_cons_of_mem _ hj)) rest
    cases i with
    | struct n fs =>
      dsimp only
      rw [parse_struct (h _ List.mem_cons_self)]
      show (parseItems (itemsToks is ++ kw "pub" :: rest)) >>= _ = _
      rw [hi]
      rfl
    | enum n r vs d arms =>
      dsimp only
      rw [(parse_enum n r vs d arms _).1]
      dsimp only
      rw [(parse_enum n r vs d arms _).2]
      show (parseItems (itemsToks is ++ kw "pub" :: rest)) >>= _ = _
      rw [hi]
      rfl

/-! ### the file -/

def printItems : List Item → Str
  | [] => []
  | i :: is => i.print ++ printItems is

theorem cl_items : (is : List Item) → (∀ i ∈ is, GoodItem i) → Cl (printItems is) (itemsToks is)
  | [], _ => cl_nil
  | i :: is, h => Lx.then (cl_item (h i List.mem_cons_self)) (cl_items is fun j hj => h j (List.mem_cons_of_mem _ hj))

def writeToks (name : Str) (body : List Stmt) : List Tok := writeHead ++ [.word name] ++ [op ")", op "{"] ++ stmtsToks body ++ [op "}"]
def readToks (name : Str) (body : List Stmt) : List Tok :=
  readHead ++ [.word name] ++ readResult ++ stmtsToks body ++ [kw "Ok", op "(", op "(", op ")", op ")"] ++ [op "}"]

theorem cl_writeFn {name : Str} {body : List Stmt} (hn : isIdent name = true) (hb : GoodSs body) :
    Cl (printWrite name body) (writeToks name body) := by
  unfold printWrite writeToks
  refine Lx.then (Lx.then (Lx.litW (Lx.litO (ta := writeHead) ⟨writeHead.dropLast, .op "&".toList, by decide +kernel, .op _, rfl⟩ (lx_word hn) ?_) ⟨_, _, rfl, .start, rfl⟩ (by decide))
    (cl_stmts (cl_deeper cl_nil) body hb)) ⟨_, _, rfl, .start, rfl⟩
  have := wordy_ident hn []
  rwa [List.append_nil] at this

theorem cl_readFn {name : Str} {body : List Stmt} (hn : isIdent name = true) (hb : GoodSs body) :
    Cl (printRead name body) (readToks name body) := by
  unfold printRead readToks
  exact Lx.then (Lx.then (Lx.then (lx_word_lit (ta := readHead) (tb := readResult) ⟨readHead, .start, by decide +kernel, .start, rfl⟩ hn
    ⟨readResult, .start, by decide +kernel, .start, rfl⟩ (by decide)) (cl_stmts (cl_deeper cl_nil) body hb))
    ((cl_deeper cl_nil).indent ⟨_, _, rfl, .start, rfl⟩)) ⟨_, _, rfl, .start, rfl⟩

theorem cl_common : Cl RustGen.genCommon header := ⟨header, .start, by decide +kernel, .start, rfl⟩

/-- The file that is printed is parsed to what was printed. -/
theorem parseText_print {items : List Item} {name name' : Str} {write read : List Stmt} (hi : ∀ i ∈ items, GoodItem i)
    (hn : isIdent name = true) (hn' : isIdent name' = true) (hw : GoodSs write) (hr : GoodSs read) :
    parseText (RustGen.genCommon ++ printItems items ++ printWrite name write ++ printRead name' read) =
      some ⟨items, (name, write), (name', read)⟩ := by
  have hl : Cl (RustGen.genCommon ++ printItems items ++ printWrite name write ++ printRead name' read)
      (header ++ itemsToks items ++ writeToks name write ++ readToks name' read) :=
    Lx.then (Lx.then (Lx.then cl_common (cl_items items hi)) (cl_writeFn hn hw)) (cl_readFn hn' hr)
  have hlex : lex (RustGen.genCommon ++ printItems items ++ printWrite name write ++ printRead name' read) =
      some (header ++ itemsToks items ++ writeToks name write ++ readToks name' read) := by
    obtain ⟨out, st, h1, h2, h3⟩ := hl
    cases h2
    unfold lex
    rw [h1, h3]
    rfl
  unfold parseText
  rw [hlex]
  show parseFile (header ++ itemsToks items ++ writeToks name write ++ readToks name' read) = _
  unfold parseFile
  rw [List.append_assoc, List.append_assoc, eat_self]
  show (parseItems (itemsToks items ++ (writeToks name write ++ readToks name' read))) >>= _ = _
  have h1 : writeToks name write ++ readToks name' read =
      kw "pub" :: ((writeToks name write).tail ++ readToks name' read) := rfl
  rw [h1, parse_items items hi, ← h1]
  have h2 : ∀ rest, parseWriteFn (writeToks name write ++ rest) = some ((name, write), rest) := by
    intro rest
    unfold parseWriteFn writeToks
    simp only [List.append_assoc]
    rw [eat_self]
    show (parseStmts (stmtsToks write ++ op "}" :: rest)) >>= _ = _
    rw [parse_stmts write hw _ rfl]
    rfl
  have h3 : parseReadFn (readToks name' read) = some ((name', read), []) := by
    unfold parseReadFn readToks
    simp only [List.append_assoc]
    rw [eat_self]
    show (eat readResult (readResult ++ _)) >>= _ = _
    rw [eat_self]
    show (parseStmts (stmtsToks read ++ _)) >>= _ = _
    rw [parse_stmts read hr _ rfl]
    rfl
  show (parseWriteFn (writeToks name write ++ readToks name' read)) >>= _ = _
  rw [h2]
  show (parseReadFn (readToks name' read)) >>= _ = _
  rw [h3]
  rfl

end Packetc.Rs
