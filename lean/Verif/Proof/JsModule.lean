import Verif.Spec.Text
import Verif.Proof.JsGood
import Verif.Spec.Module
/-!
# The generated module text can be parsed
-/

namespace Packetc.Js
open Ast WellFormed Module

/-! ### tokens of the parts -/

def markToks (o : Bool) : List Tok := if o then [op "?", op ":"] else [op ":"]
def arrToks (a : Bool) : List Tok := if a then [op "[", op "]"] else []
def undefToks (o : Bool) : List Tok := if o then [op "|", kw "undefined"] else []
def memberToks (f : Str × Unresolved) : List Tok :=
  [.word f.1] ++ markToks f.2.optional ++ [.word (tsType f.2.name)] ++ arrToks f.2.array ++ [op ",", .nl]
def variantToks (v : Str × Nat) : List Tok := [.word v.1] ++ [op "=", .num 1, op "<<"] ++ [.num v.2] ++ [op ",", .nl]
def qualToks (exp n : Str) : List Tok :=
  if n ∈ builtinNames then [.word (tsType n)] else [.word exp] ++ [op "."] ++ [.word n]
def paramToks (exp : Str) (f : Str × Unresolved) : List Tok :=
  [kw "public"] ++ [.word f.1] ++ [op ":"] ++ qualToks exp f.2.name ++ arrToks f.2.array ++ undefToks f.2.optional ++ [op ",", .nl]
def interfaceToks (n : Str) (fs : List (Str × Unresolved)) : List Tok :=
  [kw "export", kw "interface"] ++ [.word n] ++ [op "{", .nl] ++ fs.flatMap memberToks ++ [op "}", .nl]
def enumToks (n : Str) (vs : List Str) : List Tok :=
  [kw "export", kw "const", kw "enum"] ++ [.word n] ++ [op "{", .nl] ++ vs.zipIdx.flatMap variantToks ++ [op "}", .nl]
def classToks (exp : Str) (fs : List (Str × Unresolved)) (rb wb : List Tok) : List Tok :=
  [kw "export", kw "class"] ++ [.word exp] ++ [op "{", .nl] ++ [kw "constructor", op "(", .nl] ++ fs.flatMap (paramToks exp) ++
    [op ")", op "{", op "}", .nl] ++
  [kw "static", kw "read", op "(", kw "data", op ":", kw "ArrayBuffer", op ")", op ":"] ++ [.word exp] ++
    [op "|", kw "null", op "{", .nl] ++ rb ++ [op "}", .nl] ++
  [kw "write", op "(", kw "buffer", op "?", op ":", kw "ArrayBuffer", op ")", op ":", kw "ArrayBuffer", op "{", .nl] ++ wb ++
    [op "}", .nl] ++ [op "}", .nl]

/-- The names in a field are words. -/
def FieldId (f : Str × Unresolved) : Prop := isIdent f.1 = true ∧ (f.2.name ∈ builtinNames ∨ isIdent f.2.name = true)

/-- A word that may begin a type. -/
def Typeable (x : Str) : Prop := bindable x = true ∨ x = "undefined".toList ∨ x = "null".toList

instance (x : Str) : Decidable (Typeable x) := by unfold Typeable; infer_instance

theorem isIdent_tsType {n : Str} (h : n ∈ builtinNames ∨ isIdent n = true) : isIdent (tsType n) = true := by
  unfold tsType
  split
  · decide
  · split
    · decide
    · rename_i h1 h2
      exact h.resolve_left h2

theorem typeable_tsType {n : Str} (h : n ∈ builtinNames ∨ bindable n = true) : Typeable (tsType n) := by
  unfold tsType
  split
  · exact Or.inl (by decide)
  · split
    · exact Or.inl (by decide)
    · rename_i h1 h2
      exact Or.inl (h.resolve_left h2)

theorem LxW.arr {s ts} (h : LxW s ts) (a : Bool) : LxW (s ++ (if a then "[]".toList else [])) (ts ++ arrToks a) := by
  cases a with
  | false => simpa [arrToks] using h
  | true => exact (h.lit (s := "[]".toList) (ts := [op "[", op "]"]) rfl rfl).lxw

theorem LxW.undef {s ts} (h : LxW s ts) (a : Bool) : LxW (s ++ (if a then " | undefined".toList else [])) (ts ++ undefToks a) := by
  cases a with
  | false => simpa [undefToks] using h
  | true =>
    exact h.litW (s := " | undefined".toList) (ts := [op "|", kw "undefined"]) ⟨[op "|"], .word "undefined".toList, rfl, .word _, rfl⟩ rfl

theorem cl_member {f : Str × Unresolved} (h : FieldId f) : Cl (memberLine f) (memberToks f) := by
  have h1 : LxW ("        ".toList ++ f.1) ([] ++ [.word f.1]) := Cl.thenW rfl (lxw_word h.1)
  have h2 : Cl ("        ".toList ++ f.1 ++ (if f.2.optional then "?".toList else []) ++ ": ".toList)
      ([] ++ [.word f.1] ++ markToks f.2.optional) := by
    cases f.2.optional with
    | false =>
      rw [if_neg (by simp), List.append_nil]
      exact h1.lit (s := ": ".toList) (ts := [op ":"]) rfl rfl
    | true =>
      rw [if_pos rfl, List.append_assoc _ "?".toList]
      exact h1.lit (s := "?".toList ++ ": ".toList) (ts := [op "?", op ":"]) rfl rfl
  exact ((h2.thenW (lxw_word (isIdent_tsType h.2))).arr f.2.array).lit (s := ",\n".toList) (ts := [op ",", .nl]) rfl rfl

theorem cl_variant {v : Str × Nat} (h : isIdent v.1 = true) : Cl (variantLine v) (variantToks v) := by
  have h1 : LxW ("        ".toList ++ v.1) ([] ++ [.word v.1]) := Cl.thenW rfl (lxw_word h)
  exact (Cl.then (h1.lit (s := " = 1 << ".toList) (ts := [op "=", .num 1, op "<<"]) rfl rfl) (lx_nat v.2)).lit (s := ",\n".toList)
    (ts := [op ",", .nl]) rfl rfl

theorem cl_flatMap {α : Type} {f : α → Str} {g : α → List Tok} : (l : List α) → (∀ a ∈ l, Cl (f a) (g a)) → Cl (l.flatMap f) (l.flatMap g)
  | [], _ => rfl
  | a :: l, h => by
    rw [List.flatMap_cons, List.flatMap_cons]
    exact (h a List.mem_cons_self).append (cl_flatMap l fun b hb => h b (List.mem_cons_of_mem _ hb))

theorem cl_interface {n : Str} (hn : isIdent n = true) {fs : List (Str × Unresolved)} (h : ∀ f ∈ fs, FieldId f) :
    Cl (interfaceText n fs) (interfaceToks n fs) :=
  ((((Cl.thenW (a := "    export interface ".toList) (ta := [kw "export", kw "interface"]) rfl (lxw_word hn)).lit
    (s := " {\n".toList) (ts := [op "{", .nl]) rfl rfl)).append (cl_flatMap fs fun f hf => cl_member (h f hf))).append
    (b := "    }\n".toList) (tb := [op "}", .nl]) rfl

theorem cl_enum {n : Str} (hn : isIdent n = true) {vs : List Str} (h : ∀ v ∈ vs, isIdent v = true) :
    Cl (enumText n vs) (enumToks n vs) := by
  have h1 : ∀ v ∈ vs.zipIdx, Cl (variantLine v) (variantToks v) := fun v hv => by
    exact cl_variant (h _ (List.fst_mem_of_mem_zipIdx hv))
  exact ((((Cl.thenW (a := "    export const enum ".toList) (ta := [kw "export", kw "const", kw "enum"]) rfl (lxw_word hn)).lit
    (s := " {\n".toList) (ts := [op "{", .nl]) rfl rfl)).append (cl_flatMap _ h1)).append
    (b := "    }\n".toList) (tb := [op "}", .nl]) rfl

theorem lxw_qualified {exp n : Str} (he : isIdent exp = true) (h : n ∈ builtinNames ∨ isIdent n = true) :
    LxW (qualified exp n) (qualToks exp n) := by
  unfold qualified qualToks
  split
  · exact lxw_word (isIdent_tsType h)
  · rename_i h2
    exact Cl.thenW ((lxw_word he).lit (s := ".".toList) (ts := [op "."]) rfl rfl) (lxw_word (h.resolve_left h2))

theorem cl_param {exp : Str} (he : isIdent exp = true) {f : Str × Unresolved} (h : FieldId f) : Cl (paramLine exp f) (paramToks exp f) := by
  have h1 : Cl ("        public ".toList ++ f.1 ++ ": ".toList) ([kw "public"] ++ [.word f.1] ++ [op ":"]) :=
    (Cl.thenW (a := "        public ".toList) (ta := [kw "public"]) rfl (lxw_word h.1)).lit (s := ": ".toList) (ts := [op ":"]) rfl rfl
  exact (((h1.thenW (lxw_qualified he h.2)).arr f.2.array).undef f.2.optional).lit (s := ",\n".toList) (ts := [op ",", .nl]) rfl rfl

theorem cl_class {exp : Str} (he : isIdent exp = true) {fs : List (Str × Unresolved)} (h : ∀ f ∈ fs, FieldId f)
    {rb wb : Str} {trb twb : List Tok} (hr : Cl rb trb) (hw : Cl wb twb) :
    Cl (classText exp fs rb wb) (classToks exp fs trb twb) := by
  have h1 : Cl (classHead exp fs) ([kw "export", kw "class"] ++ [.word exp] ++ [op "{", .nl] ++ [kw "constructor", op "(", .nl] ++
      fs.flatMap (paramToks exp) ++ [op ")", op "{", op "}", .nl]) :=
    (((((Cl.thenW (a := "export class ".toList) (ta := [kw "export", kw "class"]) rfl (lxw_word he)).lit (s := " {\n".toList)
      (ts := [op "{", .nl]) rfl rfl)).append (b := "    constructor(\n".toList) (tb := [kw "constructor", op "(", .nl]) rfl).append
      (cl_flatMap fs fun f hf => cl_param he (h f hf))).append (b := "    ) {}\n".toList) (tb := [op ")", op "{", op "}", .nl]) rfl
  have h2 := (((h1.append (b := "    static read(data: ArrayBuffer): ".toList)
    (tb := [kw "static", kw "read", op "(", kw "data", op ":", kw "ArrayBuffer", op ")", op ":"]) rfl).thenW (lxw_word he)).lit
    (s := " | null {\n".toList) (ts := [op "|", kw "null", op "{", .nl]) rfl rfl)
  have h3 := (h2.append hr).append (b := "    }\n".toList) (tb := [op "}", .nl]) rfl
  have h4 := (h3.append (b := "    write(buffer?: ArrayBuffer): ArrayBuffer {\n".toList)
    (tb := [kw "write", op "(", kw "buffer", op "?", op ":", kw "ArrayBuffer", op ")", op ":", kw "ArrayBuffer", op "{", .nl]) rfl)
  exact ((h4.append hw).append (b := "    }\n".toList) (tb := [op "}", .nl]) rfl).append (b := "}\n".toList) (tb := [op "}", .nl]) rfl

/-- A comment line. -/
theorem lex_comment (s : Str) (h : ∀ c ∈ s, isLineEnd c = false) : lexFrom .comment s = some ([], .comment) := by
  induction s with
  | nil => rfl
  | cons c cs ih =>
    simp only [lexFrom, step, h c List.mem_cons_self]
    simp [ih (fun d hd => h d (List.mem_cons_of_mem _ hd))]

theorem cl_header {version now : Str} (hv : ∀ c ∈ version, isLineEnd c = false) (hn : ∀ c ∈ now, isLineEnd c = false) :
    Cl (header version now) [.nl] := by
  unfold Cl header
  rw [List.append_assoc, List.append_assoc, List.append_assoc, lexFrom_append,
    show lexFrom .start "// Generated by packetc v".toList = some ([], .comment) from rfl]
  simp only [Option.bind_some]
  rw [lexFrom_append, lex_comment _ hv]
  simp only [Option.bind_some]
  rw [lexFrom_append, show lexFrom .comment " at ".toList = some ([], .comment) from rfl]
  simp only [Option.bind_some]
  rw [lexFrom_append, lex_comment _ hn]
  rfl

/-! ### parsing types and members -/

/-- Tokens after which a type cannot go on. -/
def badT : List Tok := [op ".", op "[", op "|"]

theorem typeWord_ok {x : Str} (h : Typeable x) (r : List Tok) : typeWord (.word x :: r) = some (x, r) := by
  show (if bindable x = true ∨ _ then _ else _) = _
  exact if_pos h

theorem typeWord_no {x : Str} (h : ¬ Typeable x) (r : List Tok) : typeWord (.word x :: r) = none := by
  show (if bindable x = true ∨ _ then _ else _) = _
  exact if_neg h

theorem parseAtom_one {x : Str} (h : Typeable x) (a : Bool) {r : List Tok} (hr : avoid [op ".", op "["] r = true) :
    parseAtom (.word x :: (arrToks a ++ r)) = some (⟨[x], a⟩, r) := by
  unfold parseAtom
  rw [typeWord_ok h]
  cases a with
  | false =>
    show (Option.bind (match eat [op "."] r with | some ts => _ | none => _) _) = _
    rw [eat_none (avoid_sub (by decide) hr)]
    show (match eat [op "[", op "]"] r with | some ts => _ | none => _) = _
    rw [eat_none (avoid_sub (by decide) hr)]
    rfl
  | true => rfl

theorem parseAtom_two {x y : Str} (h : Typeable x) (a : Bool) {r : List Tok} (hr : avoid [op ".", op "["] r = true) :
    parseAtom (.word x :: op "." :: .word y :: (arrToks a ++ r)) = some (⟨[x, y], a⟩, r) := by
  unfold parseAtom
  rw [typeWord_ok h]
  cases a with
  | false =>
    show (match eat [op "[", op "]"] r with | some ts => _ | none => _) = _
    rw [eat_none (avoid_sub (by decide) hr)]
    rfl
  | true => rfl

theorem parseType_of {ts r : List Tok} {a : TsAtom} (h : parseAtom ts = some (a, r)) (hr : avoid [op "|"] r = true) :
    parseType ts = some ([a], r) := by
  rw [parseType.eq_def, h]
  show (match eat [op "|"] r with | some ts => _ | none => _) = _
  rw [eat_none hr]

theorem parseType_more {ts r r' : List Tok} {a : TsAtom} {t : TsType} (h : parseAtom ts = some (a, op "|" :: r))
    (ht : parseType r = some (t, r')) : parseType ts = some (a :: t, r') := by
  rw [parseType.eq_def, h]
  show (parseType r) >>= _ = _
  rw [ht]
  rfl

theorem parseMember_ok {f : Str × Unresolved} (h : Typeable (tsType f.2.name)) (r : List Tok) :
    parseMember (memberToks f ++ r) = some (memberOf f, op "," :: .nl :: r) := by
  unfold memberToks
  simp only [List.append_assoc, List.cons_append, List.nil_append]
  unfold parseMember memberOf
  have ht : parseType (.word (tsType f.2.name) :: (arrToks f.2.array ++ op "," :: .nl :: r)) =
      some ([⟨[tsType f.2.name], f.2.array⟩], op "," :: .nl :: r) :=
    parseType_of (parseAtom_one h _ (by rfl)) (by rfl)
  cases f.2.optional with
  | false =>
    show (parseType (.word (tsType f.2.name) :: (arrToks f.2.array ++ op "," :: .nl :: r))) >>= _ = _
    rw [ht]
    rfl
  | true =>
    show (parseType (.word (tsType f.2.name) :: (arrToks f.2.array ++ op "," :: .nl :: r))) >>= _ = _
    rw [ht]
    rfl

theorem parseMember_no {f : Str × Unresolved} (h : ¬ Typeable (tsType f.2.name)) (r : List Tok) :
    parseMember (memberToks f ++ r) = none := by
  unfold memberToks
  simp only [List.append_assoc, List.cons_append, List.nil_append]
  unfold parseMember
  have ht : parseType (.word (tsType f.2.name) :: (arrToks f.2.array ++ op "," :: .nl :: r)) = none := by
    rw [parseType.eq_def]
    unfold parseAtom
    rw [typeWord_no h]
    rfl
  cases f.2.optional with
  | false =>
    show (parseType (.word (tsType f.2.name) :: (arrToks f.2.array ++ op "," :: .nl :: r))) >>= _ = _
    rw [ht]
    rfl
  | true =>
    show (parseType (.word (tsType f.2.name) :: (arrToks f.2.array ++ op "," :: .nl :: r))) >>= _ = _
    rw [ht]
    rfl

theorem memberToks_word (f : Str × Unresolved) (r : List Tok) : ∃ ts, memberToks f ++ r = .word f.1 :: ts := by
  unfold memberToks
  simp only [List.append_assoc, List.cons_append, List.nil_append]
  exact ⟨_, rfl⟩

theorem parseMembers_ok : (fs : List (Str × Unresolved)) → (∀ f ∈ fs, Typeable (tsType f.2.name)) → (r : List Tok) →
    parseMembers (.nl :: (fs.flatMap memberToks ++ op "}" :: r)) = some (fs.map memberOf, r)
  | [], _, r => by
    rw [parseMembers.eq_def]
    show parseMembers (op "}" :: r) = _
    rw [parseMembers.eq_def]
    rfl
  | f :: fs, h, r => by
    rw [parseMembers.eq_def]
    show parseMembers (List.flatMap memberToks (f :: fs) ++ op "}" :: r) = _
    rw [List.flatMap_cons, List.append_assoc]
    have hm := parseMember_ok (h f List.mem_cons_self) (fs.flatMap memberToks ++ op "}" :: r)
    have ih := parseMembers_ok fs (fun g hg => h g (List.mem_cons_of_mem _ hg)) r
    obtain ⟨ts, hts⟩ := memberToks_word f (fs.flatMap memberToks ++ op "}" :: r)
    rw [hts] at hm ⊢
    rw [parseMembers.eq_def]
    show (parseMember (.word f.1 :: ts)) >>= _ = _
    rw [hm]
    show (parseMembers (.nl :: (fs.flatMap memberToks ++ op "}" :: r))) >>= _ = _
    rw [ih]
    rfl

/-- The members are parsed as written, or not at all. -/
theorem parseMembers_or : (fs : List (Str × Unresolved)) → (r : List Tok) →
    parseMembers (.nl :: (fs.flatMap memberToks ++ op "}" :: r)) = some (fs.map memberOf, r) ∨
      parseMembers (.nl :: (fs.flatMap memberToks ++ op "}" :: r)) = none
  | [], r => Or.inl (parseMembers_ok [] (by simp) r)
  | f :: fs, r => by
    have hstep : parseMembers (.nl :: ((f :: fs).flatMap memberToks ++ op "}" :: r)) =
        ((parseMember (memberToks f ++ (fs.flatMap memberToks ++ op "}" :: r))) >>= fun m => (eat [op ","] m.2) >>= fun ts =>
          (parseMembers ts) >>= fun ms => some (m.1 :: ms.1, ms.2)) := by
      rw [parseMembers.eq_def]
      show parseMembers (List.flatMap memberToks (f :: fs) ++ op "}" :: r) = _
      rw [List.flatMap_cons, List.append_assoc]
      obtain ⟨ts, hts⟩ := memberToks_word f (fs.flatMap memberToks ++ op "}" :: r)
      rw [hts, parseMembers.eq_def]
    rw [hstep]
    by_cases h : Typeable (tsType f.2.name)
    · rw [parseMember_ok h]
      rcases parseMembers_or fs r with ih | ih
      · left
        show (parseMembers (.nl :: (fs.flatMap memberToks ++ op "}" :: r))) >>= _ = _
        rw [ih]
        rfl
      · right
        show (parseMembers (.nl :: (fs.flatMap memberToks ++ op "}" :: r))) >>= _ = _
        rw [ih]
        rfl
    · right
      rw [parseMember_no h]
      rfl

theorem parseVariants_ok : (vs : List (Str × Nat)) → (r : List Tok) →
    parseVariants (.nl :: (vs.flatMap variantToks ++ op "}" :: r)) = some (vs, r)
  | [], r => by
    rw [parseVariants.eq_def]
    show parseVariants (op "}" :: r) = _
    rw [parseVariants.eq_def]
    rfl
  | v :: vs, r => by
    rw [parseVariants.eq_def]
    show parseVariants (List.flatMap variantToks (v :: vs) ++ op "}" :: r) = _
    rw [List.flatMap_cons, List.append_assoc]
    have ih := parseVariants_ok vs r
    unfold variantToks
    simp only [List.cons_append, List.nil_append]
    rw [parseVariants.eq_def]
    show (parseVariants (.nl :: (vs.flatMap variantToks ++ op "}" :: r))) >>= _ = _
    rw [ih]
    rfl

theorem parseParam_ok {exp : Str} (he : bindable exp = true) (f : Str × Unresolved) (r : List Tok) :
    parseMember (.word f.1 :: op ":" :: (qualToks exp f.2.name ++ (arrToks f.2.array ++ (undefToks f.2.optional ++ op "," :: .nl :: r)))) =
      some (paramOf exp f, op "," :: .nl :: r) := by
  have hr : avoid [op ".", op "["] (undefToks f.2.optional ++ op "," :: .nl :: r) = true := by
    cases f.2.optional <;> rfl
  have ha : parseAtom (qualToks exp f.2.name ++ (arrToks f.2.array ++ (undefToks f.2.optional ++ op "," :: .nl :: r))) =
      some (⟨qualPath exp f.2.name, f.2.array⟩, undefToks f.2.optional ++ op "," :: .nl :: r) := by
    unfold qualToks qualPath
    split
    · rename_i hb
      exact parseAtom_one (typeable_tsType (Or.inl hb)) _ hr
    · exact parseAtom_two (Or.inl he) _ hr
  have ht : parseType (qualToks exp f.2.name ++ (arrToks f.2.array ++ (undefToks f.2.optional ++ op "," :: .nl :: r))) =
      some ((paramOf exp f).type, op "," :: .nl :: r) := by
    unfold paramOf
    cases ho : f.2.optional with
    | false =>
      rw [ho] at ha
      exact parseType_of ha (by rfl)
    | true =>
      rw [ho] at ha
      refine parseType_more ha ?_
      rw [parseType.eq_def]
      rfl
  unfold parseMember
  show (parseType (qualToks exp f.2.name ++ (arrToks f.2.array ++ (undefToks f.2.optional ++ op "," :: .nl :: r)))) >>= _ = _
  rw [ht]
  rfl

theorem parseParams_ok {exp : Str} (he : bindable exp = true) : (fs : List (Str × Unresolved)) → (r : List Tok) →
    parseParams (.nl :: (fs.flatMap (paramToks exp) ++ op ")" :: r)) = some (fs.map (paramOf exp), r)
  | [], r => by
    rw [parseParams.eq_def]
    show parseParams (op ")" :: r) = _
    rw [parseParams.eq_def]
    rfl
  | f :: fs, r => by
    rw [parseParams.eq_def]
    show parseParams (List.flatMap (paramToks exp) (f :: fs) ++ op ")" :: r) = _
    rw [List.flatMap_cons, List.append_assoc]
    have hm := parseParam_ok he f (fs.flatMap (paramToks exp) ++ op ")" :: r)
    have ih := parseParams_ok he fs r
    rw [paramToks]
    simp only [List.append_assoc, List.cons_append, List.nil_append]
    rw [parseParams.eq_def]
    show (parseMember (.word f.1 :: op ":" :: (qualToks exp f.2.name ++ (arrToks f.2.array ++ (undefToks f.2.optional ++ op "," :: .nl ::
      (fs.flatMap (paramToks exp) ++ op ")" :: r)))))) >>= _ = _
    rw [hm]
    show (parseParams (.nl :: (fs.flatMap (paramToks exp) ++ op ")" :: r))) >>= _ = _
    rw [ih]
    rfl

/-! ### declarations -/

/-- The tokens of a declaration. -/
def DeclToks : TsDecl × List Tok → Prop
  | (.interface n ms, ts) => ∃ fs, ms = fs.map memberOf ∧ ts = interfaceToks n fs
  | (.enum n vs, ts) => ∃ ws : List Str, vs = ws.zipIdx ∧ ts = enumToks n ws

/-- A declaration that can be parsed. -/
def DeclOk : TsDecl × List Tok → Prop
  | (.interface n ms, ts) => bindable n = true ∧ ∃ fs, (∀ f ∈ fs, Typeable (tsType f.2.name)) ∧ ms = fs.map memberOf ∧ ts = interfaceToks n fs
  | (.enum n vs, ts) => bindable n = true ∧ ∃ ws : List Str, vs = ws.zipIdx ∧ ts = enumToks n ws

theorem parseDecls_ok : (ds : List (TsDecl × List Tok)) → (∀ d ∈ ds, DeclOk d) → (r : List Tok) →
    parseDecls (.nl :: (ds.flatMap Prod.snd ++ op "}" :: r)) = some (ds.map Prod.fst, r)
  | [], _, r => by
    rw [parseDecls.eq_def]
    show parseDecls (op "}" :: r) = _
    rw [parseDecls.eq_def]
    rfl
  | d :: ds, h, r => by
    rw [parseDecls.eq_def]
    show parseDecls (List.flatMap Prod.snd (d :: ds) ++ op "}" :: r) = _
    rw [List.flatMap_cons, List.append_assoc]
    have ih := parseDecls_ok ds (fun g hg => h g (List.mem_cons_of_mem _ hg)) r
    have hd := h d List.mem_cons_self
    obtain ⟨td, ts⟩ := d
    cases td with
    | interface n ms =>
      obtain ⟨hn, fs, hf, rfl, rfl⟩ := hd
      show parseDecls (interfaceToks n fs ++ _) = _
      unfold interfaceToks
      simp only [List.append_assoc, List.cons_append, List.nil_append]
      rw [parseDecls.eq_def]
      show (name (.word n :: op "{" :: _)) >>= _ = _
      rw [name_ok hn]
      show (parseMembers (.nl :: (fs.flatMap memberToks ++ op "}" :: _))) >>= _ = _
      rw [parseMembers_ok fs hf]
      show (parseDecls (.nl :: _)) >>= _ = _
      rw [ih]
      rfl
    | enum n vs =>
      obtain ⟨hn, ws, rfl, rfl⟩ := hd
      show parseDecls (enumToks n ws ++ _) = _
      unfold enumToks
      simp only [List.append_assoc, List.cons_append, List.nil_append]
      rw [parseDecls.eq_def]
      show (name (.word n :: op "{" :: _)) >>= _ = _
      rw [name_ok hn]
      show (parseVariants (.nl :: (ws.zipIdx.flatMap variantToks ++ op "}" :: _))) >>= _ = _
      rw [parseVariants_ok]
      show (parseDecls (.nl :: _)) >>= _ = _
      rw [ih]
      rfl

theorem name_no {x : Str} (h : ¬ bindable x = true) (r : List Tok) : name (.word x :: r) = none := by
  show (if bindable x = true then _ else _) = _
  rw [if_neg h]

/-- If the declarations can be parsed, their names are no keywords. -/
theorem parseDecls_names : (ds : List (TsDecl × List Tok)) → (∀ d ∈ ds, DeclToks d) → (r : List Tok) → (x : List TsDecl × List Tok) →
    parseDecls (.nl :: (ds.flatMap Prod.snd ++ op "}" :: r)) = some x → ∀ d ∈ ds, bindable d.1.name = true
  | [], _, _, _, _, d, hd => by cases hd
  | d :: ds, h, r, x, hx, d', hd' => by
    rw [parseDecls.eq_def] at hx
    change parseDecls (List.flatMap Prod.snd (d :: ds) ++ op "}" :: r) = _ at hx
    rw [List.flatMap_cons, List.append_assoc] at hx
    have ih := parseDecls_names ds (fun g hg => h g (List.mem_cons_of_mem _ hg)) r
    have hd := h d List.mem_cons_self
    obtain ⟨td, ts⟩ := d
    cases td with
    | interface n ms =>
      obtain ⟨fs, rfl, rfl⟩ := hd
      change parseDecls (interfaceToks n fs ++ _) = _ at hx
      unfold interfaceToks at hx
      simp only [List.append_assoc, List.cons_append, List.nil_append] at hx
      rw [parseDecls.eq_def] at hx
      change (name (.word n :: op "{" :: _)) >>= _ = _ at hx
      by_cases hn : bindable n = true
      · rw [name_ok hn] at hx
        change (parseMembers (.nl :: (fs.flatMap memberToks ++ op "}" :: _))) >>= _ = _ at hx
        rcases parseMembers_or fs (.nl :: (ds.flatMap Prod.snd ++ op "}" :: r)) with hm | hm
        · rw [hm] at hx
          change (parseDecls (.nl :: _)) >>= _ = _ at hx
          rcases List.mem_cons.1 hd' with rfl | hd'
          · exact hn
          · cases hq : parseDecls (.nl :: (ds.flatMap Prod.snd ++ op "}" :: r)) with
            | none => rw [hq] at hx; cases hx
            | some q => exact ih q hq d' hd'
        · rw [hm] at hx; cases hx
      · rw [name_no hn] at hx; cases hx
    | enum n vs =>
      obtain ⟨ws, rfl, rfl⟩ := hd
      change parseDecls (enumToks n ws ++ _) = _ at hx
      unfold enumToks at hx
      simp only [List.append_assoc, List.cons_append, List.nil_append] at hx
      rw [parseDecls.eq_def] at hx
      change (name (.word n :: op "{" :: _)) >>= _ = _ at hx
      by_cases hn : bindable n = true
      · rw [name_ok hn] at hx
        change (parseVariants (.nl :: (ws.zipIdx.flatMap variantToks ++ op "}" :: _))) >>= _ = _ at hx
        rw [parseVariants_ok] at hx
        change (parseDecls (.nl :: _)) >>= _ = _ at hx
        rcases List.mem_cons.1 hd' with rfl | hd'
        · exact hn
        · cases hq : parseDecls (.nl :: (ds.flatMap Prod.snd ++ op "}" :: r)) with
          | none => rw [hq] at hx; cases hx
          | some q => exact ih q hq d' hd'
      · rw [name_no hn] at hx; cases hx

/-! ### the module -/

/-- The parsed `read` method. -/
def readMethod (exp : Str) (body : List Stmt) : TsMethod :=
  ⟨true, "read".toList, ⟨"data".toList, false, arrayBuffer⟩, [⟨[exp], false⟩, ⟨["null".toList], false⟩], body⟩
/-- The parsed `write` method. -/
def writeMethod (body : List Stmt) : TsMethod :=
  ⟨false, "write".toList, ⟨"buffer".toList, true, arrayBuffer⟩, arrayBuffer, body⟩

theorem parse_arrayBuffer {r : List Tok} (hr : avoid [op ".", op "[", op "|"] r = true) :
    parseType (kw "ArrayBuffer" :: r) = some (arrayBuffer, r) :=
  parseType_of (parseAtom_one (x := "ArrayBuffer".toList) (Or.inl (by decide)) false (avoid_sub (by decide) hr)) (avoid_sub (by decide) hr)

theorem parse_read {exp : Str} (he : bindable exp = true) {rb : List Stmt} (hb : GoodSs rb) (r : List Tok) :
    parseMethod true (kw "read" :: op "(" :: kw "data" :: op ":" :: kw "ArrayBuffer" :: op ")" :: op ":" :: .word exp :: op "|" ::
      kw "null" :: op "{" :: .nl :: (stmtsToks rb ++ op "}" :: r)) = some (readMethod exp rb, r) := by
  unfold parseMethod
  have h1 : parseMember (kw "data" :: op ":" :: kw "ArrayBuffer" :: op ")" :: op ":" :: .word exp :: op "|" ::
      kw "null" :: op "{" :: .nl :: (stmtsToks rb ++ op "}" :: r)) = some (⟨"data".toList, false, arrayBuffer⟩, op ")" :: op ":" :: .word exp :: op "|" ::
      kw "null" :: op "{" :: .nl :: (stmtsToks rb ++ op "}" :: r)) := by
    unfold parseMember
    show (parseType (kw "ArrayBuffer" :: op ")" :: _)) >>= _ = _
    rw [parse_arrayBuffer (by rfl)]
    rfl
  show (parseMember (kw "data" :: _)) >>= _ = _
  rw [h1]
  show (parseType (.word exp :: op "|" :: _)) >>= _ = _
  have h2 : parseType (kw "null" :: op "{" :: .nl :: (stmtsToks rb ++ op "}" :: r)) =
      some ([⟨["null".toList], false⟩], op "{" :: .nl :: (stmtsToks rb ++ op "}" :: r)) := by
    rw [parseType.eq_def]
    rfl
  have h3 : parseType (.word exp :: op "|" :: kw "null" :: op "{" :: .nl :: (stmtsToks rb ++ op "}" :: r)) =
      some ([⟨[exp], false⟩, ⟨["null".toList], false⟩], op "{" :: .nl :: (stmtsToks rb ++ op "}" :: r)) :=
    parseType_more (parseAtom_one (Or.inl he) false (by rfl)) h2
  rw [h3]
  show (parseStmts (.nl :: (stmtsToks rb ++ op "}" :: r))) >>= _ = _
  rw [parseStmts_nl, parse_stmts rb hb]
  rfl

theorem parse_write {wb : List Stmt} (hb : GoodSs wb) (r : List Tok) :
    parseMethod false (kw "write" :: op "(" :: kw "buffer" :: op "?" :: op ":" :: kw "ArrayBuffer" :: op ")" :: op ":" ::
      kw "ArrayBuffer" :: op "{" :: .nl :: (stmtsToks wb ++ op "}" :: r)) = some (writeMethod wb, r) := by
  unfold parseMethod
  have h1 : parseMember (kw "buffer" :: op "?" :: op ":" :: kw "ArrayBuffer" :: op ")" :: op ":" ::
      kw "ArrayBuffer" :: op "{" :: .nl :: (stmtsToks wb ++ op "}" :: r)) = some (⟨"buffer".toList, true, arrayBuffer⟩, op ")" :: op ":" ::
      kw "ArrayBuffer" :: op "{" :: .nl :: (stmtsToks wb ++ op "}" :: r)) := by
    unfold parseMember
    show (parseType (kw "ArrayBuffer" :: op ")" :: _)) >>= _ = _
    rw [parse_arrayBuffer (by rfl)]
    rfl
  show (parseMember (kw "buffer" :: _)) >>= _ = _
  rw [h1]
  show (parseType (kw "ArrayBuffer" :: op "{" :: _)) >>= _ = _
  rw [parse_arrayBuffer (by rfl)]
  show (parseStmts (.nl :: (stmtsToks wb ++ op "}" :: r))) >>= _ = _
  rw [parseStmts_nl, parse_stmts wb hb]
  rfl

theorem parse_methods {exp : Str} (he : bindable exp = true) {rb wb : List Stmt} (hr : GoodSs rb) (hw : GoodSs wb) (r : List Tok) :
    parseMethods (.nl :: kw "static" :: kw "read" :: op "(" :: kw "data" :: op ":" :: kw "ArrayBuffer" :: op ")" :: op ":" :: .word exp :: op "|" ::
      kw "null" :: op "{" :: .nl :: (stmtsToks rb ++ op "}" :: .nl :: kw "write" :: op "(" :: kw "buffer" :: op "?" :: op ":" :: kw "ArrayBuffer" :: op ")" :: op ":" ::
      kw "ArrayBuffer" :: op "{" :: .nl :: (stmtsToks wb ++ op "}" :: .nl :: op "}" :: r))) = some ([readMethod exp rb, writeMethod wb], r) := by
  rw [parseMethods.eq_def]
  show parseMethods (kw "static" :: _) = _
  rw [parseMethods.eq_def]
  show (parseMethod true (kw "read" :: _)) >>= _ = _
  rw [parse_read he hr]
  show (parseMethods (.nl :: kw "write" :: _)) >>= _ = _
  have h1 : ∀ ts, parseMethods (.nl :: ts) = parseMethods ts := fun ts => by rw [parseMethods.eq_def]
  rw [h1, parseMethods.eq_def]
  show ((parseMethod false (kw "write" :: _)) >>= _) >>= _ = _
  rw [parse_write hw]
  show ((parseMethods (.nl :: op "}" :: r)) >>= _) >>= _ = _
  rw [h1, parseMethods.eq_def]
  rfl

/-- The tokens of a whole module. -/
def moduleToks (exp : Str) (ds : List (TsDecl × List Tok)) (cls : List Tok) : List Tok :=
  [.nl] ++ [kw "import", op "{", kw "Reader", op ",", kw "Writer", op "}", kw "from", .str "packet".toList, op ";", .nl] ++
    ([kw "export", kw "namespace"] ++ [.word exp] ++ [op "{", .nl] ++ ds.flatMap Prod.snd ++ [op "}", .nl]) ++ cls

theorem parseNames_import (r : List Tok) :
    parseNames (kw "Reader" :: op "," :: kw "Writer" :: op "}" :: r) = some (["Reader".toList, "Writer".toList], r) := by
  rw [parseNames.eq_def]
  show (parseNames (kw "Writer" :: op "}" :: r)) >>= _ = _
  rw [parseNames.eq_def]
  rfl

/-- The tokens before the name of the namespace. -/
def prologueToks : List Tok :=
  [.nl] ++ [kw "import", op "{", kw "Reader", op ",", kw "Writer", op "}", kw "from", .str "packet".toList, op ";", .nl] ++
    [kw "export", kw "namespace"]

/-- A module whose namespace is called by a keyword is not parsed. -/
theorem parseModule_space {exp : Str} (he : ¬ bindable exp = true) (r : List Tok) :
    parseModule (prologueToks ++ ([.word exp] ++ r)) = none := by
  unfold prologueToks
  simp only [List.cons_append, List.nil_append]
  unfold parseModule
  show (parseNames (kw "Reader" :: op "," :: kw "Writer" :: op "}" :: _)) >>= _ = _
  rw [parseNames_import]
  show (name (.word exp :: r)) >>= _ = _
  rw [name_no he]
  rfl

/-- If a module is parsed, the names of its declarations are no keywords. -/
theorem parseModule_names {exp : Str} {ds : List (TsDecl × List Tok)} (hd : ∀ d ∈ ds, DeclToks d) {cls : List Tok} {m : TsModule}
    (h : parseModule (moduleToks exp ds cls) = some m) : ∀ d ∈ ds, bindable d.1.name = true := by
  unfold moduleToks at h
  simp only [List.append_assoc, List.cons_append, List.nil_append] at h
  unfold parseModule at h
  change (parseNames (kw "Reader" :: op "," :: kw "Writer" :: op "}" :: _)) >>= _ = _ at h
  rw [parseNames_import] at h
  change (name (.word exp :: op "{" :: .nl :: _)) >>= _ = _ at h
  by_cases he : bindable exp = true
  · rw [name_ok he] at h
    change (parseDecls (.nl :: (ds.flatMap Prod.snd ++ op "}" :: _))) >>= _ = _ at h
    cases hq : parseDecls (.nl :: (ds.flatMap Prod.snd ++ op "}" :: (.nl :: cls))) with
    | none => rw [hq] at h; cases h
    | some q => exact parseDecls_names ds hd _ q hq
  · rw [name_no he] at h; cases h

theorem parseModule_ok {exp : Str} (he : bindable exp = true) {ds : List (TsDecl × List Tok)} (hd : ∀ d ∈ ds, DeclOk d)
    (fs : List (Str × Unresolved)) {rb wb : List Stmt} (hr : GoodSs rb) (hw : GoodSs wb) :
    parseModule (moduleToks exp ds (classToks exp fs (stmtsToks rb) (stmtsToks wb))) =
      some ⟨["Reader".toList, "Writer".toList], "packet".toList, exp, ds.map Prod.fst, exp, fs.map (paramOf exp),
        [readMethod exp rb, writeMethod wb]⟩ := by
  unfold moduleToks classToks
  simp only [List.append_assoc, List.cons_append, List.nil_append]
  unfold parseModule
  show (parseNames (kw "Reader" :: op "," :: kw "Writer" :: op "}" :: _)) >>= _ = _
  rw [parseNames_import]
  show (name (.word exp :: op "{" :: .nl :: _)) >>= _ = _
  rw [name_ok he]
  show (parseDecls (.nl :: (ds.flatMap Prod.snd ++ op "}" :: _))) >>= _ = _
  rw [parseDecls_ok ds hd]
  show (name (.word exp :: op "{" :: .nl :: _)) >>= _ = _
  rw [name_ok he]
  show (parseParams (.nl :: (fs.flatMap (paramToks exp) ++ op ")" :: _))) >>= _ = _
  rw [parseParams_ok he fs]
  show (parseMethods (.nl :: kw "static" :: _)) >>= _ = _
  rw [parse_methods he hr hw]
  rfl

end Packetc.Js
