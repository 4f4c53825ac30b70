import Verif.Props.Unused
import Verif.Props.Accept
import Verif.Spec.Nested
/-!
# C77: a struct inside of a packet is laid out like a packet of its own
-/

namespace Packetc.Props
open Ast Check WellFormed Js Gen

variable (rt : Runtime)

/-! ### values -/

theorem encode_zip {S E} : (fs : List (FieldOf RType)) → (ps : List (PropOf JVal)) → TypedFs S E fs ps → ∀ {f p}, (f, p) ∈ fs.zip ps →
    TypedF S E f p ∧ ∃ pre post, encodeFields rt fs ps = pre ++ encodeField rt f p.value ++ post
  | [], _, _, _, _, hz => by simp at hz
  | f' :: fs, ps, ⟨p', qs, h1, h2, h3⟩, f, p, hz => by
    subst h1
    rw [List.zip_cons_cons, List.mem_cons] at hz
    simp only [encodeFields]
    rcases hz with hz | hz
    · cases hz
      exact ⟨h2, [], _, rfl⟩
    · obtain ⟨h4, pre, post, h5⟩ := encode_zip fs qs h3 hz
      exact ⟨h4, encodeField rt f' p'.value ++ pre, post, by rw [h5]; simp only [List.append_assoc]⟩

theorem encode_item {S E} {f : FieldOf RType} {p : PropOf JVal} (h : TypedF S E f p) {gs qs} (hg : f.ty = .struct gs)
    (hi : ItemOf f p.value (.obj qs)) :
    TypedFs S E gs qs ∧ ∃ pre post, encodeField rt f p.value = pre ++ encodeFields rt gs qs ++ post := by
  obtain ⟨n, tn, t, a, o⟩ := f
  obtain ⟨pn, j⟩ := p
  simp only at hg hi
  subst hg
  obtain ⟨-, ⟨-, h2⟩ | h2⟩ := h
  · simp only at h2
    subst h2
    cases a with
    | false => cases hi
    | true => obtain ⟨js, h3, -⟩ := hi; cases h3
  · cases a with
    | false =>
      simp only [Bool.false_eq_true, if_false] at h2
      obtain rfl : j = .obj qs := hi
      obtain ⟨ps, h3, h4⟩ := h2
      cases h3
      rw [encodeField_present rt _ _ _ _ _ (by intro h; cases h)]
      refine ⟨h4, if o = true then rt.enc .uint8 (.int 1) else [], [], ?_⟩
      rw [List.append_nil]
      rfl
    | true =>
      simp only [if_true] at h2
      obtain ⟨js, h3, -, h5⟩ := h2
      subst h3
      obtain ⟨js', h6, h7⟩ := hi
      cases h6
      obtain ⟨ps, h8, h9⟩ := h5 _ h7
      cases h8
      rw [encodeField_present rt _ _ _ _ _ (by intro h; cases h)]
      obtain ⟨x, y, rfl⟩ := List.append_of_mem h7
      refine ⟨h9, (if o = true then rt.enc .uint8 (.int 1) else []) ++ (rt.enc .uint32 (.int (x ++ .obj qs :: y).length) ++
        (x.map fun z => encode rt (.struct gs) z).flatten), (y.map fun z => encode rt (.struct gs) z).flatten, ?_⟩
      simp only [encodeB, if_true, List.map_append, List.map_cons, List.flatten_append, List.flatten_cons, List.append_assoc]
      rfl

theorem encode_occurs {S E T gs qs fs ps} (h : Occurs T gs qs fs ps) (ht : TypedFs S E fs ps) :
    TypedFs S E gs qs ∧ ∃ pre post, encodeFields rt fs ps = pre ++ encodeFields rt gs qs ++ post := by
  induction h with
  | here hz _ hg hi =>
    obtain ⟨h1, x, y, e1⟩ := encode_zip rt _ _ ht hz
    obtain ⟨h2, x', y', e2⟩ := encode_item rt h1 hg hi
    exact ⟨h2, x ++ x', y' ++ y, by rw [e1, e2]; simp only [List.append_assoc]⟩
  | deeper hz hg hi _ ih =>
    obtain ⟨h1, x, y, e1⟩ := encode_zip rt _ _ ht hz
    obtain ⟨h2, x', y', e2⟩ := encode_item rt h1 hg hi
    obtain ⟨h3, x'', y'', e3⟩ := ih h2
    exact ⟨h3, x ++ (x' ++ x''), y'' ++ y' ++ y, by rw [e1, e2, e3]; simp only [List.append_assoc]⟩

theorem holds_zip : (fs : List (FieldOf RType)) → (bs : List UInt8) → (ps : List (PropOf JVal)) → Holds rt fs bs ps →
    ∀ {f p}, (f, p) ∈ fs.zip ps → ∃ pre mid post, bs = pre ++ mid ++ post ∧ HoldsFt rt f mid p
  | [], _, _, _, _, _, hz => by simp at hz
  | f' :: fs, bs, ps, ⟨b1, b2, p', qs, h0, h1, h2, h3⟩, f, p, hz => by
    subst h0 h1
    rw [List.zip_cons_cons, List.mem_cons] at hz
    rcases hz with hz | hz
    · cases hz
      exact ⟨[], b1, b2, rfl, h2⟩
    · obtain ⟨pre, mid, post, rfl, h5⟩ := holds_zip fs b2 qs h3 hz
      exact ⟨b1 ++ pre, mid, post, by simp only [List.append_assoc], h5⟩

theorem forall₂_flatten {α : Type} {R : List UInt8 → α → Prop} {items : List (List UInt8)} {js : List α} (h : List.Forall₂ R items js) {x : α}
    (hx : x ∈ js) : ∃ pre mid post, items.flatten = pre ++ mid ++ post ∧ R mid x := by
  induction h with
  | nil => cases hx
  | @cons b j items js hh _ ih =>
    rcases List.mem_cons.1 hx with rfl | hx
    · exact ⟨[], b, items.flatten, rfl, hh⟩
    · obtain ⟨pre, mid, post, e, hr⟩ := ih hx
      exact ⟨b ++ pre, mid, post, by rw [List.flatten_cons, e]; simp only [List.append_assoc], hr⟩

theorem holds_item {f : FieldOf RType} {bs : List UInt8} {p : PropOf JVal} (h : HoldsFt rt f bs p) {gs qs} (hg : f.ty = .struct gs)
    (hi : ItemOf f p.value (.obj qs)) : ∃ pre mid post, bs = pre ++ mid ++ post ∧ Holds rt gs mid qs := by
  obtain ⟨n, tn, t, a, o⟩ := f
  obtain ⟨pn, j⟩ := p
  simp only at hg hi
  subst hg
  obtain ⟨-, ⟨-, h2, -⟩ | ⟨flag, body, rfl, -, h2⟩⟩ := h
  · simp only at h2
    subst h2
    cases a with
    | false => cases hi
    | true => obtain ⟨js, h3, -⟩ := hi; cases h3
  · cases a with
    | false =>
      obtain rfl : j = .obj qs := hi
      simp only [Bool.false_eq_true, if_false] at h2
      obtain ⟨ps, h3, h4⟩ := h2
      cases h3
      exact ⟨flag, body, [], by simp, h4⟩
    | true =>
      simp only [if_true] at h2
      obtain ⟨len, items, js, rfl, -, h3, h5⟩ := h2
      subst h3
      obtain ⟨js', h6, h7⟩ := hi
      cases h6
      obtain ⟨pre, mid, post, e, ps, h8, h9⟩ := forall₂_flatten h5 h7
      cases h8
      exact ⟨flag ++ (len ++ pre), mid, post, by rw [e]; simp only [List.append_assoc], h9⟩

theorem holds_occurs {T gs qs fs ps} (h : Occurs T gs qs fs ps) {bs : List UInt8} (hb : Holds rt fs bs ps) :
    ∃ pre mid post, bs = pre ++ mid ++ post ∧ Holds rt gs mid qs := by
  induction h generalizing bs with
  | here hz _ hg hi =>
    obtain ⟨x, m, y, rfl, h1⟩ := holds_zip rt _ _ _ hb hz
    obtain ⟨x', m', y', rfl, h2⟩ := holds_item rt h1 hg hi
    exact ⟨x ++ x', m', y' ++ y, by simp only [List.append_assoc], h2⟩
  | deeper hz hg hi _ ih =>
    obtain ⟨x, m, y, rfl, h1⟩ := holds_zip rt _ _ _ hb hz
    obtain ⟨x', m', y', rfl, h2⟩ := holds_item rt h1 hg hi
    obtain ⟨x'', m'', y'', rfl, h3⟩ := ih h2
    exact ⟨x ++ (x' ++ x''), m'', y'' ++ (y' ++ y), by simp only [List.append_assoc], h3⟩

/-! ### types -/

theorem occurs_type {c : Str → RType} (hc : Closed c) {T gs qs fs ps} (h : Occurs T gs qs fs ps) (hf : CohF c fs) : c T = .struct gs := by
  induction h with
  | here hz ht hg _ => rw [← ht, hf _ (List.of_mem_zip hz).1, hg]
  | deeper hz hg _ _ ih => exact ih (hc _ _ (by rw [hf _ (List.of_mem_zip hz).1, hg]))

/-- For each program of `a` there is one of `b` in which the exported type has the fields that it has in the former. -/
theorem shares_run {a b : AST} {T : Str} (hs : Shares a b T) {t : Str} (hb : Parser.schema t = .ok b) (hw : WF b) {e : Artifact}
    (hc : Compiled a e) : ∃ e', Compiled b e' ∧ e'.name = T ∧ ∀ gs qs ps, Occurs T gs qs e.fields ps → gs = e'.fields := by
  obtain ⟨env, text, r, hf, -, hp, -, hr, hx⟩ := hc
  have hna := parsed_noBuiltinDecl hp
  have hU : SameOn (Relation.ReflTransGen (Refers b) T) a b := by
    have hd : ∀ n, Relation.ReflTransGen (Refers b) T n → ∀ t, (n, t) ∈ decls a ↔ (n, t) ∈ decls b := by
      intro n hn t
      rw [mem_decls, mem_decls]
      exact hs.decl n hn t
    exact ⟨hd, fun n fs hn hm f hf => hn.tail ⟨fs, (hd n hn _).1 hm, f, hf, rfl⟩⟩
  obtain ⟨T', fs, hT, hfs⟩ := hw.exported
  rw [hs.exported] at hT
  cases hT
  obtain ⟨c, l, ⟨B, u, hA⟩, -, hge, hfol⟩ := typeCheck_follow hU (by
    intro n hn
    have hd : Declared b n ∨ n ∈ builtinNames := by
      cases hn with
      | refl => exact Or.inl ⟨_, hfs⟩
      | tail _ hr => exact (hw.closed _ _ hr).symm
    rcases hd with ⟨t, ht⟩ | hd
    · exact Or.inl ⟨t, (hU.decl n hn t).2 ht⟩
    · exact Or.inr hd) hf.1 hr
  obtain ⟨r', hr'⟩ := (C12_accepts_iff_wellformed (firstThese_fair l) b (parsed_noBuiltinDecl hb)).2 hw
  obtain ⟨d, -, -, hge', hag⟩ := hfol r' hr'
  obtain ⟨_, _, _, -, -, hex', -⟩ := typeCheck_run (firstThese_fair l) hr'
  have hname : r'.export.name = T := by
    have := hs.exported
    rw [hex'] at this
    simpa using this
  refine ⟨_, compiled_of (ord := firstThese l) hb (firstThese_fair l) hr' rfl, hname, ?_⟩
  intro gs qs ps ho
  have hF := hA.final hna
  have hcl := hF.closed
  have htop : typeOf c r.export.name = .struct r.export.fields := by
    unfold typeOf
    rw [hge]
    rfl
  rw [← hx] at ho
  have h1 := occurs_type hcl ho (hcl _ _ htop)
  have h2 := hag T .refl
  rw [hname] at hge'
  rw [hge'] at h2
  unfold typeOf at h1
  rw [h2] at h1
  simp only [Option.getD_some] at h1
  injection h1 with h1
  exact h1.symm

/-- C77 as described: the bytes of a struct inside of a packet are those that a program for the struct alone writes. -/
def C77_claim : Prop := ∀ (rt : Runtime) (a b : AST) (T : Str) (e e' : Artifact), Shares a b T → Compiled a e → Compiled b e' →
  PlainSchema a → PlainSchema b → ∀ gs qs ps bytes, Occurs T gs qs e.fields ps → HasFields e.fields ps → Writes rt e ps bytes →
    ∃ pre mid post, bytes = pre ++ mid ++ post ∧ Writes rt e' qs mid

/-- C77, what holds: for each program there is a program for the struct alone that writes it, and reads it, in the same way. What is missing: that
every program for the struct alone does (see `C77_inOrder`; false in general, since the order of fields is that of a run). -/
theorem C77_nested_partial {a b : AST} {T : Str} (hs : Shares a b T) {t : Str} (hb : Parser.schema t = .ok b) (hw : WF b)
    (hub : UsableSchema b) {e : Artifact} (hc : Compiled a e) (hu : Usable e) :
    ∃ e', Compiled b e' ∧ ∀ gs qs ps, Occurs T gs qs e.fields ps → gs = e'.fields ∧
      (∀ bytes, HasFields e.fields ps → Writes rt e ps bytes → ∃ pre mid post, bytes = pre ++ mid ++ post ∧ Writes rt e' qs mid) ∧
      (∀ data, Shaped e.fields ps → Reads rt e data ps → ∃ pre mid post, data = pre ++ mid ++ post ∧ ∀ rest, Reads rt e' (mid ++ rest) qs) := by
  obtain ⟨e', hc', -, hg⟩ := shares_run hs hb hw hc
  have hu' := (C80_usable_iff hc').2 hub
  refine ⟨e', hc', fun gs qs ps ho => ?_⟩
  obtain rfl := hg gs qs ps ho
  refine ⟨rfl, ?_, ?_⟩
  · intro bytes ht hwr
    obtain rfl := writes_unique rt hc hu ht hwr (C30_write_format rt hc hu.loads ht)
    obtain ⟨h1, pre, post, h2⟩ := encode_occurs rt ho ht
    exact ⟨pre, _, post, h2, C30_write_format rt hc' hu'.loads h1⟩
  · intro data ht hr
    obtain ⟨bs, ⟨rest, rfl⟩, hh⟩ := (C75_reads rt hc hu ht).1 hr
    obtain ⟨pre, mid, post, rfl, h2⟩ := holds_occurs rt ho hh
    refine ⟨pre, mid, post ++ rest, by simp only [List.append_assoc], fun rest' => ?_⟩
    exact (C75_reads rt hc' hu' (C75_shaped rt hc' h2)).2 ⟨mid, ⟨rest', rfl⟩, h2⟩

/-- C77, for every program for the struct alone, if in it no field can be overtaken by a later one. -/
theorem C77_inOrder {a b : AST} {T : Str} (hs : Shares a b T) (hi : AllInOrder b) (hub : UsableSchema b) {e e' : Artifact}
    (hc : Compiled a e) (hu : Usable e) (hc' : Compiled b e') {gs qs ps} (ho : Occurs T gs qs e.fields ps) : gs = e'.fields ∧
      (∀ bytes, HasFields e.fields ps → Writes rt e ps bytes → ∃ pre mid post, bytes = pre ++ mid ++ post ∧ Writes rt e' qs mid) ∧
      (∀ data, Shaped e.fields ps → Reads rt e data ps → ∃ pre mid post, data = pre ++ mid ++ post ∧ ∀ rest, Reads rt e' (mid ++ rest) qs) := by
  obtain ⟨env, t, r, hf, -, hp, -, hr, -⟩ := id hc'
  obtain ⟨e'', hc'', -, hg⟩ := shares_run hs hp ((C12_text hf.1 hp).1 ⟨_, hr⟩) hc
  have hu' := (C80_usable_iff hc').2 hub
  have heq := compiled_eq_of_inOrder hi hc'' hc'
  obtain rfl := hg gs qs ps ho
  have hfe : e''.fields = e'.fields := congrArg Export.fields heq
  refine ⟨hfe, ?_, ?_⟩
  · intro bytes ht hwr
    obtain rfl := writes_unique rt hc hu ht hwr (C30_write_format rt hc hu.loads ht)
    obtain ⟨h1, pre, post, h2⟩ := encode_occurs rt ho ht
    rw [hfe] at h1 h2
    exact ⟨pre, _, post, h2, C30_write_format rt hc' hu'.loads h1⟩
  · intro data ht hr
    obtain ⟨bs, ⟨rest, rfl⟩, hh⟩ := (C75_reads rt hc hu ht).1 hr
    obtain ⟨pre, mid, post, rfl, h2⟩ := holds_occurs rt ho hh
    rw [hfe] at h2
    refine ⟨pre, mid, post ++ rest, by simp only [List.append_assoc], fun rest' => ?_⟩
    exact (C75_reads rt hc' hu' (C75_shaped rt hc' h2)).2 ⟨mid, ⟨rest', rfl⟩, h2⟩

/-! ### the counterexample -/

def nestText : Str :=
  "E: struct { x: uint8 }\nA: struct { e: E }\nS: struct { a: A, n: uint8 }\nP: struct { s: S }\nexport P".toList

def nestAst : AST :=
  [.decl "E".toList (.struct [("x".toList, ⟨"uint8".toList, false, false⟩)]),
   .decl "A".toList (.struct [("e".toList, ⟨"E".toList, false, false⟩)]),
   .decl "S".toList (.struct [("a".toList, ⟨"A".toList, false, false⟩), ("n".toList, ⟨"uint8".toList, false, false⟩)]),
   .decl "P".toList (.struct [("s".toList, ⟨"S".toList, false, false⟩)]),
   .export "P".toList]

def nestField : FieldOf RType := ⟨"s".toList, "S".toList, .struct [fieldN, fieldA], false, false⟩
def nestOne : Artifact := ⟨⟨"P".toList, [nestField]⟩, exampleCode id nestText⟩
def nestValue : List (PropOf JVal) := [⟨"s".toList, .obj [propN 1, propA 2]⟩]

theorem nest_compiled : Compiled nestAst nestOne :=
  compiled_of (ord := id) (by decide +kernel) (fun _ => .refl _) rfl rfl

theorem nest_plain : PlainSchema nestAst := plain_of (by decide)

theorem not_named {ast : AST} {n : Str} (h : ∀ x ∈ decls ast, (match x.2 with
    | .struct fs => fs.all fun f => f.2.name != n
    | .enum _ => true) = true) {m fs f} (hd : (m, .struct fs) ∈ decls ast) (hf : f ∈ fs) : f.2.name ≠ n := by
  have := List.all_eq_true.1 (h _ hd) f hf
  simpa using this

theorem reach_reorder {n : Str} (h : Relation.ReflTransGen (Refers reorderAst) "S".toList n) : n ≠ "P".toList := by
  cases h with
  | refl => decide
  | tail _ h =>
    obtain ⟨fs, hd, f, hf, rfl⟩ := h
    exact not_named (by decide +kernel) hd hf

theorem nest_shares : Shares nestAst reorderAst "S".toList := by
  refine ⟨rfl, fun n hn t => ?_⟩
  have := reach_reorder hn
  simp only [nestAst, reorderAst, List.mem_cons, Node.decl.injEq, reduceCtorEq, List.not_mem_nil, or_false]
  tauto

theorem nest_occurs : Occurs "S".toList [fieldN, fieldA] [propN 1, propA 2] nestOne.fields nestValue :=
  .here (f := nestField) (p := ⟨"s".toList, .obj [propN 1, propA 2]⟩) (List.mem_singleton.2 rfl) rfl rfl rfl

theorem ok_one : Scalar.Ok .uint8 (.int 1) := ⟨by decide, by decide⟩
theorem ok_two : Scalar.Ok .uint8 (.int 2) := ⟨by decide, by decide⟩

theorem nest_typed (S E) : TypedFs S E nestOne.fields nestValue :=
  ⟨_, _, rfl, ⟨rfl, Or.inr ⟨_, rfl, _, _, rfl, fieldN_typed S E ok_one, _, _, rfl, fieldA_typed S E ok_two, rfl⟩⟩, rfl⟩

theorem writes_swap {rt : Runtime} {e : Artifact} {bytes : List UInt8} {p q : PropOf JVal} (h : Writes rt e [p, q] bytes) :
    Writes rt e [q, p] bytes := by
  intro heap this buffer fuel hfuel hb hr
  obtain ⟨i, pr, props, h3, h4, h5, h6, h7, h8⟩ := hr
  exact h heap this buffer fuel hfuel hb ⟨i, pr, props, h3, h4, h5, h7, h6, h8⟩

/-- C77 is false: the program for `S` alone may have been generated with another order of the fields of `S`. -/
theorem C77_false : ¬ C77_claim := by
  intro h
  have u1 := plain_usable nest_compiled nest_plain
  have u2 := plain_usable runTwo_compiled reorder_plain
  obtain ⟨pre, mid, post, h1, h2⟩ := h leUtf8 nestAst reorderAst "S".toList nestOne runTwo nest_shares nest_compiled runTwo_compiled nest_plain
    reorder_plain _ _ _ _ nest_occurs (nest_typed _ _) (C30_write_format leUtf8 nest_compiled u1.loads (nest_typed _ _))
  have h3 := writes_unique leUtf8 runTwo_compiled u2 (two_typed ShortStr IsVariant ok_one ok_two) (writes_swap h2)
    (C30_write_format leUtf8 runTwo_compiled u2.loads (two_typed _ _ ok_one ok_two))
  have e1 : encodeFields leUtf8 nestOne.fields nestValue = [1, 2] := by decide +kernel
  have e2 : encodeFields leUtf8 runTwo.fields [propA 2, propN 1] = [2, 1] := by decide +kernel
  rw [e1] at h1
  rw [e2] at h3
  subst h3
  have hl := congrArg List.length h1
  simp only [List.length_append, List.length_cons, List.length_nil] at hl
  obtain rfl := List.length_eq_zero_iff.1 (show pre.length = 0 by omega)
  obtain rfl := List.length_eq_zero_iff.1 (show post.length = 0 by omega)
  revert h1
  decide

/-- The hypotheses of both theorems are met. -/
example : Shares nestAst reorderAst "S".toList ∧ Parser.schema reorderText = .ok reorderAst ∧ WF reorderAst ∧ UsableSchema reorderAst ∧
    Compiled nestAst nestOne ∧ Usable nestOne ∧ Occurs "S".toList [fieldN, fieldA] [propN 1, propA 2] nestOne.fields nestValue ∧
    HasFields nestOne.fields nestValue :=
  ⟨nest_shares, reorder_parses, (C12_text (ord := id) (fun _ => .refl _) reorder_parses).1 ⟨_, rfl⟩, plain_usableSchema runTwo_compiled reorder_plain, nest_compiled,
    plain_usable nest_compiled nest_plain, nest_occurs, nest_typed _ _⟩

def pairText : Str := "S: struct { s: string }\nP: struct { a: S[], n: uint8 }\nexport P".toList
def pairAst : AST := [.decl "S".toList (.struct [("s".toList, ⟨"string".toList, false, false⟩)]),
  .decl "P".toList (.struct [("a".toList, ⟨"S".toList, true, false⟩), ("n".toList, ⟨"uint8".toList, false, false⟩)]), .export "P".toList]
def aloneText : Str := "S: struct { s: string }\nexport S".toList
def aloneAst : AST := [.decl "S".toList (.struct [("s".toList, ⟨"string".toList, false, false⟩)]), .export "S".toList]
def pairField : FieldOf RType := ⟨"a".toList, "S".toList, .struct stringExport.fields, true, false⟩
def pairExport : Artifact := ⟨⟨"P".toList, [pairField, fieldN]⟩, exampleCode id pairText⟩
def aloneExport : Artifact := ⟨⟨"S".toList, stringExport.fields⟩, exampleCode id aloneText⟩

theorem pair_compiled : Compiled pairAst pairExport :=
  compiled_of (ord := id) (by decide +kernel) (fun _ => .refl _) rfl rfl

theorem alone_compiled : Compiled aloneAst aloneExport :=
  compiled_of (ord := id) (by decide +kernel) (fun _ => .refl _) rfl rfl

/-- The second item of an array. -/
example : Shares pairAst aloneAst "S".toList ∧ AllInOrder aloneAst ∧ UsableSchema aloneAst ∧ Compiled pairAst pairExport ∧ Usable pairExport ∧
    Compiled aloneAst aloneExport ∧ Occurs "S".toList stringExport.fields accent pairExport.fields
      [⟨"a".toList, .arr [.obj [], .obj accent]⟩, propN 1] := by
  refine ⟨⟨rfl, fun n hn t => ?_⟩, single_inOrder _ _ (by decide), plain_usableSchema alone_compiled (plain_of (by decide)), pair_compiled,
    plain_usable pair_compiled (plain_of (by decide)), alone_compiled, ?_⟩
  · have : n ≠ "P".toList := by
      cases hn with
      | refl => decide
      | tail _ h =>
        obtain ⟨fs, hd, f, hf, rfl⟩ := h
        exact not_named (by decide +kernel) hd hf
    simp only [pairAst, aloneAst, List.mem_cons, Node.decl.injEq, reduceCtorEq, List.not_mem_nil, or_false]
    tauto
  · exact .here (f := pairField) (p := ⟨"a".toList, .arr [.obj [], .obj accent]⟩) (List.mem_cons_self ..) rfl rfl
      ⟨_, rfl, List.mem_cons_of_mem _ List.mem_cons_self⟩

end Packetc.Props
