import Verif.Spec.RustNested
import Verif.Props.Nested
import Verif.Props.Rust
/-!
# C127: a struct inside of a Rust packet is laid out like a packet of its own
-/

namespace Packetc.Rs
open Ast Check WellFormed

variable (lib : Lib) {lim : Nat}

theorem enc_zip : (fs : List (FieldOf RType)) → (ps : List (Str × Val)) → ValFs lim fs ps → ∀ {f p}, (f, p) ∈ fs.zip ps →
    ValF lim f p ∧ ∃ pre post, encFs lib fs ps = pre ++ encF lib f p.2 ++ post
  | [], _, _, _, _, hz => by simp at hz
  | f' :: fs, ps, h, f, p, hz => by
    rw [ValFs] at h
    obtain ⟨p', qs, rfl, h2, h3⟩ := h
    rw [List.zip_cons_cons, List.mem_cons] at hz
    rw [encFs]
    rcases hz with hz | hz
    · cases hz
      exact ⟨h2, [], _, rfl⟩
    · obtain ⟨h4, pre, post, h5⟩ := enc_zip fs qs h3 hz
      exact ⟨h4, encF lib f' p'.2 ++ pre, post, by rw [h5]; simp only [List.append_assoc]⟩

theorem enc_item {f : FieldOf RType} {p : Str × Val} (h : ValF lim f p) {gs qs} (hg : f.ty = .struct gs) (hi : PartOf f p.2 (.struct qs)) :
    ValFs lim gs qs ∧ ∃ pre post, encF lib f p.2 = pre ++ encFs lib gs qs ++ post := by
  obtain ⟨n, tn, t, a, o⟩ := f
  obtain ⟨pn, v⟩ := p
  obtain ⟨w, hv, hw⟩ := hi
  simp only at hg hv hw
  subst hg hv
  rw [ValF] at h
  obtain ⟨-, h⟩ := h
  simp only at h
  have hx : if a = true then ∃ vs, w = .vec vs ∧ vs.length < lim ∧ ∀ x ∈ vs, ValT lim tn (.struct gs) x else ValT lim tn (.struct gs) w := by
    rcases h with ⟨rfl, h⟩ | ⟨w', h1, h2⟩
    · cases h
    · cases o with
      | false => cases h1; exact h2
      | true => cases h1; exact h2
  have key : ValFs lim gs qs ∧ ∃ pre post, (if a = true then (match w with
      | .vec vs => lib.enc .uint32 (.int vs.length) ++ (vs.map fun x => encT lib (.struct gs) x).flatten
      | _ => []) else encT lib (.struct gs) w) = pre ++ encFs lib gs qs ++ post := by
    cases a with
    | false =>
      simp only [Bool.false_eq_true, if_false] at hx hw ⊢
      subst hw
      rw [ValT] at hx
      obtain ⟨ps, h3, h4⟩ := hx
      cases h3
      exact ⟨h4, [], [], by rw [encT]; simp⟩
    | true =>
      simp only [if_true] at hx hw ⊢
      obtain ⟨vs, rfl, h7⟩ := hw
      obtain ⟨vs', h3, -, h5⟩ := hx
      cases h3
      have h8 := h5 _ h7
      rw [ValT] at h8
      obtain ⟨ps, h8, h9⟩ := h8
      cases h8
      obtain ⟨x, y, rfl⟩ := List.append_of_mem h7
      refine ⟨h9, lib.enc .uint32 (.int (x ++ .struct qs :: y).length) ++ (x.map fun z => encT lib (.struct gs) z).flatten,
        (y.map fun z => encT lib (.struct gs) z).flatten, ?_⟩
      simp only [List.map_append, List.map_cons, List.flatten_append, List.flatten_cons, List.append_assoc]
      rw [show encT lib (.struct gs) (.struct qs) = encFs lib gs qs by rw [encT]]
  obtain ⟨h1, pre, post, e⟩ := key
  refine ⟨h1, ?_⟩
  cases o with
  | false =>
    refine ⟨pre, post, ?_⟩
    rw [← e]
    unfold encF
    rfl
  | true =>
    refine ⟨lib.enc .uint8 (.int 1) ++ pre, post, ?_⟩
    rw [List.append_assoc, List.append_assoc, ← List.append_assoc pre, ← e]
    unfold encF
    rfl

theorem enc_within {T gs qs fs ps} (h : Within T gs qs fs ps) (ht : ValFs lim fs ps) :
    ValFs lim gs qs ∧ ∃ pre post, encFs lib fs ps = pre ++ encFs lib gs qs ++ post := by
  induction h with
  | here hz _ hg hi =>
    obtain ⟨h1, x, y, e1⟩ := enc_zip lib _ _ ht hz
    obtain ⟨h2, x', y', e2⟩ := enc_item lib h1 hg hi
    exact ⟨h2, x ++ x', y' ++ y, by rw [e1, e2]; simp only [List.append_assoc]⟩
  | deeper hz hg hi _ ih =>
    obtain ⟨h1, x, y, e1⟩ := enc_zip lib _ _ ht hz
    obtain ⟨h2, x', y', e2⟩ := enc_item lib h1 hg hi
    obtain ⟨h3, x'', y'', e3⟩ := ih h2
    exact ⟨h3, x ++ (x' ++ x''), y'' ++ y' ++ y, by rw [e1, e2, e3]; simp only [List.append_assoc]⟩

theorem has_zip : (fs : List (FieldOf RType)) → (bs : List UInt8) → (ps : List (Str × Val)) → HasFs lib fs bs ps →
    ∀ {f p}, (f, p) ∈ fs.zip ps → ∃ pre mid post, bs = pre ++ mid ++ post ∧ HasF lib f mid p.2
  | [], _, _, _, _, _, hz => by simp at hz
  | f' :: fs, bs, ps, h, f, p, hz => by
    rw [HasFs] at h
    obtain ⟨b1, b2, v, qs, rfl, rfl, h2, h3⟩ := h
    rw [List.zip_cons_cons, List.mem_cons] at hz
    rcases hz with hz | hz
    · cases hz
      exact ⟨[], b1, b2, rfl, h2⟩
    · obtain ⟨pre, mid, post, rfl, h5⟩ := has_zip fs b2 qs h3 hz
      exact ⟨b1 ++ pre, mid, post, by simp only [List.append_assoc], h5⟩

theorem has_item {f : FieldOf RType} {bs : List UInt8} {v : Val} (h : HasF lib f bs v) {gs qs} (hg : f.ty = .struct gs)
    (hi : PartOf f v (.struct qs)) : ∃ pre mid post, bs = pre ++ mid ++ post ∧ HasFs lib gs mid qs := by
  obtain ⟨n, tn, t, a, o⟩ := f
  obtain ⟨w, hv, hw⟩ := hi
  simp only at hg hv hw
  subst hg hv
  rw [HasF] at h
  cases o with
  | true =>
    simp only [if_true] at h
    obtain ⟨flag, body, rfl, -, ⟨-, -, h⟩ | ⟨-, w', h1, h2⟩⟩ := h
    · cases h
    · cases h1
      rw [HasT] at h2
      obtain ⟨ps, rfl, h2⟩ := h2
      cases a with
      | false => cases hw; exact ⟨flag, body, [], by simp, h2⟩
      | true => obtain ⟨vs, h3, -⟩ := hw; cases h3
  | false =>
    simp only [Bool.false_eq_true, if_false] at h
    cases a with
    | false =>
      simp only [Bool.false_eq_true, if_false] at h hw
      subst hw
      rw [HasT] at h
      obtain ⟨ps, h1, h2⟩ := h
      cases h1
      exact ⟨[], bs, [], by simp, h2⟩
    | true =>
      simp only [if_true] at h hw
      obtain ⟨len, items, vs, rfl, -, -, -, h3, h5⟩ := h
      obtain ⟨vs', h6, h7⟩ := hw
      cases h3.symm.trans h6
      obtain ⟨pre, mid, post, e, h8⟩ := Props.forall₂_flatten h5 h7
      rw [HasT] at h8
      obtain ⟨ps, h8, h9⟩ := h8
      cases h8
      exact ⟨len ++ pre, mid, post, by rw [e]; simp only [List.append_assoc], h9⟩

theorem has_within {T gs qs fs ps} (h : Within T gs qs fs ps) {bs : List UInt8} (hb : HasFs lib fs bs ps) :
    ∃ pre mid post, bs = pre ++ mid ++ post ∧ HasFs lib gs mid qs := by
  induction h generalizing bs with
  | here hz _ hg hi =>
    obtain ⟨x, m, y, rfl, h1⟩ := has_zip lib _ _ _ hb hz
    obtain ⟨x', m', y', rfl, h2⟩ := has_item lib h1 hg hi
    exact ⟨x ++ x', m', y' ++ y, by simp only [List.append_assoc], h2⟩
  | deeper hz hg hi _ ih =>
    obtain ⟨x, m, y, rfl, h1⟩ := has_zip lib _ _ _ hb hz
    obtain ⟨x', m', y', rfl, h2⟩ := has_item lib h1 hg hi
    obtain ⟨x'', m'', y'', rfl, h3⟩ := ih h2
    exact ⟨x ++ (x' ++ x''), m'', y'' ++ (y' ++ y), by simp only [List.append_assoc], h3⟩

/-- What occurs in a Rust value of some fields occurs in a JavaScript value of them. -/
theorem within_occurs {T gs qs fs ps} (h : Within T gs qs fs ps) : ∃ qs' ps', Js.Occurs T gs qs' fs ps' := by
  have put : ∀ (fs : List (FieldOf RType)) (p : Js.PropOf Js.JVal) f, f ∈ fs → (f, p) ∈ fs.zip (fs.map fun _ => p) := by
    intro fs p f hf
    induction fs with
    | nil => cases hf
    | cons g fs ih =>
      rw [List.map_cons, List.zip_cons_cons]
      rcases List.mem_cons.1 hf with rfl | hf
      · exact List.mem_cons_self
      · exact List.mem_cons_of_mem _ (ih hf)
  have item : ∀ (f : FieldOf RType) x, Js.ItemOf f (if f.array then .arr [x] else x) x := by
    intro f x
    unfold Js.ItemOf
    split
    · exact ⟨[x], rfl, List.mem_singleton.2 rfl⟩
    · rfl
  induction h with
  | @here fs ps f p hz ht hg _ =>
    exact ⟨[], _, .here (put fs ⟨[], if f.array then .arr [.obj []] else .obj []⟩ f (List.of_mem_zip hz).1) ht hg (item _ _)⟩
  | @deeper fs ps f p hs rs hz hg _ _ ih =>
    obtain ⟨qs', ps', ih⟩ := ih
    exact ⟨qs', _, .deeper (put fs ⟨[], if f.array then .arr [.obj ps'] else .obj ps'⟩ f (List.of_mem_zip hz).1) hg (item _ _) ih⟩

end Packetc.Rs

namespace Packetc.Props
open Ast Check WellFormed Rs
open Js (Compiled)

theorem compiled_checked {ast : AST} {e : Js.Artifact} (h : Compiled ast e) : ∃ r, Checked ast r ∧ r.export = e.toExport := by
  obtain ⟨env, text, r, hf, -, hp, -, hr, hx⟩ := h
  exact ⟨r, ⟨_, text, hf.1, hp, hr⟩, hx⟩

variable (lib : Lib)

/-- What two programs do with a struct that the one has alone and the other inside of its packets: each packet that `P` writes contains the packet that `P'`
writes, and each packet that `P` reads contains one that `P'` reads. -/
def Embeds (r r' : Resolved) (T : Str) (s : Source) (P : Prog) (s' : Source) (P' : Prog) : Prop :=
  ∀ gs qs ps, Within T gs qs r.export.fields ps → gs = r'.export.fields ∧
    (∀ bytes, ValFs (2 ^ 32) r.export.fields ps → runWrite lib P s.write.2 (.struct ps) = some bytes →
      ∃ pre mid post, bytes = pre ++ mid ++ post ∧ runWrite lib P' s'.write.2 (.struct qs) = some mid) ∧
    ∀ data rest, readDefault lib P s data = .ok (.struct ps) rest →
      ∃ pre mid post, data = pre ++ mid ++ post ++ rest ∧ ∀ rest', readDefault lib P' s' (mid ++ rest') = .ok (.struct qs) rest'

variable {a b : AST} {T : Str} {r r' : Resolved} {s s' : Source} {P P' : Prog}

theorem embeds_of (k : Checked a r) (k' : Checked b r') (n : NamesFit a) (n' : NamesFit b)
    (z : ∀ n vs, Used a n → .decl n (.enum vs) ∈ a → vs.length ≤ 31) (z' : ∀ n vs, Used b n → .decl n (.enum vs) ∈ b → vs.length ≤ 31)
    (B : Built r s P) (B' : Built r' s' P') (h : ∀ gs qs ps, Within T gs qs r.export.fields ps → gs = r'.export.fields) :
    Embeds lib r r' T s P s' P' := by
  intro gs qs ps ho
  obtain rfl := h gs qs ps ho
  refine ⟨rfl, ?_, ?_⟩
  · intro bytes hps hw
    rw [C91_write lib k n B hps] at hw
    cases hw
    obtain ⟨h1, pre, post, h2⟩ := enc_within lib ho hps
    exact ⟨pre, _, post, h2, C91_write lib k' n' B' h1⟩
  · intro data rest hr
    obtain ⟨bs, ps', rfl, h1, hh⟩ := (C93_reads_partial lib k n B z _ _ _).1 hr
    cases h1
    obtain ⟨pre, mid, post, rfl, h2⟩ := has_within lib ho hh
    exact ⟨pre, mid, post, rfl, fun rest' => (C93_reads_partial lib k' n' B' z' _ _ _).2 ⟨mid, qs, rfl, rfl, h2⟩⟩

/-- C127, what holds: for each Rust program there is a run of packetc on the schema of the struct alone whose program writes it, and reads it, in the same way.
What is missing: that every program for the struct alone does (see `C127_inOrder`; false in general, since the order of fields is that of a run), and enums with
32 variants, which cannot be read (C92). -/
theorem C127_nested_partial (hs : Shares a b T) {t : Str} (hb : Parser.schema t = .ok b) (hw : WF b) (k : Checked a r) (n : NamesFit a) (n' : NamesFit b)
    (z : ∀ n vs, Used a n → .decl n (.enum vs) ∈ a → vs.length ≤ 31) (z' : ∀ n vs, Used b n → .decl n (.enum vs) ∈ b → vs.length ≤ 31)
    (B : Built r s P) : ∃ r', Checked b r' ∧ (∃ s' P', Built r' s' P') ∧ ∀ s' P', Built r' s' P' → Embeds lib r r' T s P s' P' := by
  obtain ⟨code, hc⟩ := k.compiled
  obtain ⟨e', hc', -, hg⟩ := shares_run hs hb hw hc
  obtain ⟨r', k', hx⟩ := compiled_checked hc'
  refine ⟨r', k', C91_program k' n', fun s' P' B' => embeds_of lib k k' n n' z z' B B' fun gs qs ps ho => ?_⟩
  obtain ⟨qs', ps', ho⟩ := within_occurs ho
  rw [hx]
  exact hg gs qs' ps' ho

/-- C127, for every program for the struct alone, if in it no field can be overtaken by a later one. -/
theorem C127_inOrder (hs : Shares a b T) (hi : AllInOrder b) (k : Checked a r) (k' : Checked b r') (n : NamesFit a) (n' : NamesFit b)
    (z : ∀ n vs, Used a n → .decl n (.enum vs) ∈ a → vs.length ≤ 31) (z' : ∀ n vs, Used b n → .decl n (.enum vs) ∈ b → vs.length ≤ 31)
    (B : Built r s P) (B' : Built r' s' P') : Embeds lib r r' T s P s' P' := by
  obtain ⟨code, hc⟩ := k.compiled
  obtain ⟨code', hc'⟩ := k'.compiled
  obtain ⟨ord, t, hord, hp, ht⟩ := id k'
  obtain ⟨e'', hc'', -, hg⟩ := shares_run hs hp ((C12_text hord hp).1 ⟨_, ht⟩) hc
  have heq := compiled_eq_of_inOrder hi hc'' hc'
  refine embeds_of lib k k' n n' z z' B B' fun gs qs ps ho => ?_
  obtain ⟨qs', ps', ho⟩ := within_occurs ho
  exact (hg gs qs' ps' ho).trans (congrArg Export.fields heq)

/-- C127 as described: the bytes of a struct inside of a packet are those that a Rust program for the struct alone writes for the same fields (in the order of that
program). -/
def C127_claim : Prop := ∀ (lib : Lib) (a b : AST) (T : Str) (r r' : Resolved) (s s' : Source) (P P' : Prog), Shares a b T → Checked a r → Checked b r' →
  NamesFit a → NamesFit b → Built r s P → Built r' s' P' → ∀ gs qs ps bytes, Within T gs qs r.export.fields ps → ValFs (2 ^ 32) r.export.fields ps →
    runWrite lib P s.write.2 (.struct ps) = some bytes →
    ∃ pre mid post qs', bytes = pre ++ mid ++ post ∧ qs'.Perm qs ∧ ValFs (2 ^ 32) r'.export.fields qs' ∧ runWrite lib P' s'.write.2 (.struct qs') = some mid

def rustN : Str × Val := ("n".toList, .num (.int 1))
def rustA : Str × Val := ("a".toList, .struct [("e".toList, .struct [("x".toList, .num (.int 2))])])

theorem rustNest_within : Within "S".toList [fieldN, fieldA] [rustN, rustA] nestOne.fields [("s".toList, .struct [rustN, rustA])] :=
  .here (f := nestField) (p := ("s".toList, .struct [rustN, rustA])) (List.mem_singleton.2 rfl) rfl rfl ⟨_, rfl, rfl⟩

theorem rustN_val : ValF (2 ^ 32) fieldN rustN := ⟨rfl, .inr ⟨_, rfl, _, rfl, ⟨by decide, by decide⟩⟩⟩
theorem rustA_val : ValF (2 ^ 32) fieldA rustA :=
  ⟨rfl, .inr ⟨_, rfl, _, rfl, _, _, rfl, ⟨rfl, .inr ⟨_, rfl, _, rfl, _, _, rfl, ⟨rfl, .inr ⟨_, rfl, _, rfl, ⟨by decide, by decide⟩⟩⟩, rfl⟩⟩, rfl⟩⟩

theorem rustNest_val : ValFs (2 ^ 32) nestOne.fields [("s".toList, .struct [rustN, rustA])] :=
  ⟨_, _, rfl, ⟨rfl, .inr ⟨_, rfl, _, rfl, _, _, rfl, rustN_val, _, _, rfl, rustA_val, rfl⟩⟩, rfl⟩

theorem nest_names : NamesFit nestAst := namesFit_of (by decide)
theorem reorder_names : NamesFit reorderAst := namesFit_of (by decide)

/-- C127 is false of the code: the program for `S` alone may have been generated with another order of the fields of `S`. -/
theorem C127_false : ¬ C127_claim := by
  intro h
  obtain ⟨r, k, hx⟩ := compiled_checked nest_compiled
  obtain ⟨r', k', hx'⟩ := compiled_checked runTwo_compiled
  obtain ⟨s, P, B⟩ := C91_program k nest_names
  obtain ⟨s', P', B'⟩ := C91_program k' reorder_names
  have hf : r.export.fields = nestOne.fields := congrArg Export.fields hx
  have hf' : r'.export.fields = [fieldA, fieldN] := congrArg Export.fields hx'
  have hv : ValFs (2 ^ 32) r.export.fields [("s".toList, .struct [rustN, rustA])] := by rw [hf]; exact rustNest_val
  obtain ⟨pre, mid, post, qs', h1, h2, h3, h4⟩ := h (leLib 1) _ _ _ r r' s s' P P' nest_shares k k' nest_names reorder_names B B' _ _ _ _
    (by rw [hf]; exact rustNest_within) hv (C91_write (leLib 1) k nest_names B hv)
  rw [C91_write (leLib 1) k' reorder_names B' h3] at h4
  rw [hf] at h1
  rw [hf'] at h3 h4
  cases h4
  obtain ⟨p, l, rfl, g1, q, l', rfl, g2, rfl⟩ := h3
  have hp : p = rustA := by
    rcases List.mem_cons.1 (h2.mem_iff.1 List.mem_cons_self) with e | e
    · have := g1.1
      rw [e] at this
      exact absurd this (by decide)
    · exact List.mem_singleton.1 e
  have hq : q = rustN := by
    rcases List.mem_cons.1 (h2.mem_iff.1 (List.mem_cons_of_mem _ List.mem_cons_self)) with e | e
    · exact e
    · have := g2.1
      rw [List.mem_singleton.1 e] at this
      exact absurd this (by decide)
  subst hp hq
  have e1 : encFs (leLib 1) nestOne.fields [("s".toList, .struct [rustN, rustA])] = [1, 2] := by decide +kernel
  have e2 : encFs (leLib 1) [fieldA, fieldN] [rustA, rustN] = [2, 1] := by decide +kernel
  rw [e1, e2] at h1
  have hl := congrArg List.length h1
  simp only [List.length_append, List.length_cons, List.length_nil] at hl
  obtain rfl := List.length_eq_zero_iff.1 (show pre.length = 0 by omega)
  obtain rfl := List.length_eq_zero_iff.1 (show post.length = 0 by omega)
  revert h1
  decide

/-- The hypotheses are met, with a struct inside of a packet that can be written. -/
example : Shares nestAst reorderAst "S".toList ∧ Parser.schema reorderText = .ok reorderAst ∧ WF reorderAst ∧ NamesFit nestAst ∧ NamesFit reorderAst ∧
    (∃ r s P, Checked nestAst r ∧ Built r s P ∧ Within "S".toList [fieldN, fieldA] [rustN, rustA] r.export.fields [("s".toList, .struct [rustN, rustA])] ∧
      ValFs (2 ^ 32) r.export.fields [("s".toList, .struct [rustN, rustA])]) := by
  refine ⟨nest_shares, reorder_parses, (C12_text (ord := id) (fun _ => .refl _) reorder_parses).1 ⟨_, rfl⟩, nest_names, reorder_names, ?_⟩
  obtain ⟨r, k, hx⟩ := compiled_checked nest_compiled
  obtain ⟨s, P, B⟩ := C91_program k nest_names
  have hf : r.export.fields = nestOne.fields := congrArg Export.fields hx
  exact ⟨r, s, P, k, B, by rw [hf]; exact rustNest_within, by rw [hf]; exact rustNest_val⟩

/-- In the schema of a packet with strings no field can be overtaken. -/
example : Shares pairAst aloneAst "S".toList ∧ AllInOrder aloneAst ∧ (∃ r, Checked pairAst r) ∧ (∃ r, Checked aloneAst r) ∧ NamesFit pairAst ∧ NamesFit aloneAst := by
  obtain ⟨r, k, -⟩ := compiled_checked pair_compiled
  obtain ⟨r', k', -⟩ := compiled_checked alone_compiled
  refine ⟨⟨rfl, fun n hn t => ?_⟩, single_inOrder _ _ (by decide), ⟨r, k⟩, ⟨r', k'⟩, namesFit_of (by decide), namesFit_of (by decide)⟩
  have : n ≠ "P".toList := by
    cases hn with
    | refl => decide
    | tail _ h =>
      obtain ⟨fs, hd, f, hf, rfl⟩ := h
      exact not_named (by decide +kernel) hd hf
  simp only [pairAst, aloneAst, List.mem_cons, Node.decl.injEq, reduceCtorEq, List.not_mem_nil, or_false]
  tauto

end Packetc.Props
