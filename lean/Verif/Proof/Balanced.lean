import Verif.Proof.Module
import Verif.Proof.JsAll
import Mathlib.Tactic.Tauto
/-!
# Generated modules are well bracketed
-/

namespace Packetc.Module
open Ast Check Gen WellFormed Js

/-- Well bracketed, in any context. -/
def Bal (s : Str) : Prop := ∀ st, scan st s = some st

theorem scan_append_aux (s t : Str) (k : List Char → Option (List Char)) (hk : k = fun st' => scan st' t)
    (st : List Char) : scan st (s ++ t) = (scan st s).bind k := by
  induction s generalizing st with
  | nil => rw [hk]; rfl
  | cons c cs ih =>
    rw [List.cons_append]
    unfold scan
    split_ifs
    · exact ih _
    · exact ih _
    · exact ih _
    · cases st with
      | nil => rfl
      | cons d st =>
        simp only
        split_ifs
        · exact ih _
        · rfl
    · exact ih _

theorem scan_append (s t : Str) (st : List Char) : scan st (s ++ t) = (scan st s).bind fun st' => scan st' t := by
  have key : ∀ k : List Char → Option (List Char), k = (fun st' => scan st' t) → scan st (s ++ t) = (scan st s).bind k := by
    intro k hk
    exact scan_append_aux s t k hk st
  exact key _ rfl

theorem Bal.append {s t : Str} (hs : Bal s) (ht : Bal t) : Bal (s ++ t) := fun st => by
  rw [scan_append, hs, Option.bind_some, ht]

theorem bal_nil : Bal [] := fun _ => rfl

theorem bal_flatMap {α : Type} {l : List α} {f : α → Str} (h : ∀ a ∈ l, Bal (f a)) : Bal (l.flatMap f) := by
  induction l with
  | nil => exact bal_nil
  | cons a l ih =>
    rw [List.flatMap_cons]
    exact (h a List.mem_cons_self).append (ih fun b hb => h b (List.mem_cons_of_mem _ hb))

/-- Text without brackets. -/
def Flat (s : Str) : Prop := ∀ c ∈ s, c ∉ "()[]{}".toList

instance (s : Str) : Decidable (Flat s) := inferInstanceAs (Decidable (∀ c ∈ s, c ∉ "()[]{}".toList))

theorem Flat.bal {s : Str} (h : Flat s) : Bal s := by
  intro st
  induction s with
  | nil => rfl
  | cons c cs ih =>
    have hc := h c List.mem_cons_self
    rw [show "()[]{}".toList = ['(', ')', '[', ']', '{', '}'] by decide] at hc
    simp only [List.mem_cons, List.not_mem_nil, or_false, not_or] at hc
    unfold scan
    rw [if_neg hc.1, if_neg hc.2.2.1, if_neg hc.2.2.2.2.1, if_neg (by tauto)]
    exact ih fun c hc => h c (List.mem_cons_of_mem _ hc)

theorem Flat.append {s t : Str} (hs : Flat s) (ht : Flat t) : Flat (s ++ t) := fun c hc =>
  (List.mem_append.1 hc).elim (hs c) (ht c)

theorem flat_digits (n : Nat) : Flat (toString n).toList := by
  intro c hc
  have h : c.isDigit = true := by
    have : c ∈ (Nat.repr n).toList := hc
    rw [Nat.toList_repr] at this
    exact Nat.isDigit_of_mem_toDigits (by omega) (by omega) this
  have key : ∀ d ∈ "()[]{}".toList, d.isDigit = false := by decide
  intro hm
  rw [key c hm] at h
  cases h

theorem flat_int (i : Int) : Flat (toString i).toList := by
  cases i with
  | ofNat n => exact flat_digits n
  | negSucc n =>
    have : (toString (Int.negSucc n)).toList = '-' :: (toString (n + 1)).toList := by
      show ("-" ++ Nat.repr (n + 1)).toList = _
      rw [String.toList_append]
      rfl
    rw [this]
    intro c hc
    rcases List.mem_cons.1 hc with rfl | hc
    · decide
    · exact flat_digits _ c hc

/-! ### programs -/

theorem bal_wrap (o c : Str) (l : List Char) (ho : ∀ st, scan st o = some (l ++ st)) (hc : ∀ st, scan (l ++ st) c = some st)
    {s : Str} (hs : Bal s) : Bal (o ++ s ++ c) := fun st => by
  rw [scan_append, scan_append, ho, Option.bind_some, hs, Option.bind_some, hc]

theorem bal_lit {s : Str} (h : ∀ c ∈ s, c ∉ "()[]{}".toList) : Bal s := Flat.bal h

theorem Flat.all {e : Expr} (h : e.All Flat) : Bal e.print := by
  induction e with
  | var x => exact Flat.bal h
  | prop e p ih => rw [pr_prop]; exact ((ih h.1).append (bal_lit (by decide))).append h.2.bal
  | index e i ih1 ih2 =>
    rw [pr_index, List.append_assoc, List.append_assoc]
    refine (ih1 h.1).append ?_
    rw [← List.append_assoc]
    exact bal_wrap _ _ [']'] (fun _ => rfl) (fun _ => rfl) (ih2 h.2)
  | num i => exact (flat_int i).bal
  | undef => exact bal_lit (by decide)
  | null => exact bal_lit (by decide)
  | tru => exact bal_lit (by decide)
  | obj => exact fun _ => rfl
  | new0 c => rw [pr_new0]; exact ((bal_lit (by decide)).append (Flat.bal h)).append (fun _ => rfl)
  | new1 c a ih =>
    rw [pr_new1, List.append_assoc, List.append_assoc]
    refine ((bal_lit (by decide)).append h.1.bal).append ?_
    rw [← List.append_assoc]
    exact bal_wrap _ _ [')'] (fun _ => rfl) (fun _ => rfl) (ih h.2)
  | call0 o m ih =>
    rw [pr_call0]
    exact (((ih h.1).append (bal_lit (by decide))).append h.2.bal).append (fun _ => rfl)
  | call1 o m a ih1 ih2 =>
    rw [pr_call1, List.append_assoc, List.append_assoc]
    refine (((ih1 h.1).append (bal_lit (by decide))).append h.2.1.bal).append ?_
    rw [← List.append_assoc]
    exact bal_wrap _ _ [')'] (fun _ => rfl) (fun _ => rfl) (ih2 h.2.2)
  | asNumber e ih => rw [pr_as]; exact Bal.append (ih h) (bal_lit (by decide))
  | lt a b iha ihb => rw [pr_lt]; exact ((iha h.1).append (bal_lit (by decide))).append (ihb h.2)
  | le a b iha ihb => rw [pr_le]; exact ((iha h.1).append (bal_lit (by decide))).append (ihb h.2)
  | gt a b iha ihb => rw [pr_gt]; exact ((iha h.1).append (bal_lit (by decide))).append (ihb h.2)
  | and a b iha ihb => rw [pr_and]; exact ((iha h.1).append (bal_lit (by decide))).append (ihb h.2)
  | cond c t e ic it ie =>
    rw [pr_cond]
    exact ((((ic h.1).append (bal_lit (by decide))).append (it h.2.1)).append (bal_lit (by decide))).append (ie h.2.2)

theorem flat_deeper {ind : Str} (h : Flat ind) : Flat (deeper ind) := h.append (by decide)

/-- `o` opens, `m` closes and opens again. -/
theorem scan_lits (st : List Char) :
    scan st "if (".toList = some (')' :: st) ∧ scan (')' :: st) ") {\n".toList = some ('}' :: st) ∧
    scan ('}' :: st) "} else {\n".toList = some ('}' :: st) ∧ scan ('}' :: st) "}\n".toList = some st ∧
    scan (')' :: st) ") ".toList = some st ∧ scan (')' :: st) ") return ".toList = some st ∧
    scan st "for (let ".toList = some (')' :: st) ∧ scan st "switch (".toList = some (')' :: st) ∧
    scan st "default: {\n".toList = some ('}' :: st) := ⟨rfl, rfl, rfl, rfl, rfl, rfl, rfl, rfl, rfl⟩

mutual
theorem bal_stmt : (s : Stmt) → s.All Flat → ∀ ind, Flat ind → Bal (s.print ind)
  | .letS x any e, h, ind, hi => by
    cases any with
    | false =>
      rw [ps_let]
      exact hi.bal.append (((((bal_lit (by decide)).append h.1.bal).append (bal_lit (by decide))).append (Flat.all h.2)).append
        (bal_lit (by decide)))
    | true =>
      rw [ps_letAny]
      exact hi.bal.append ((((((bal_lit (by decide)).append h.1.bal).append (bal_lit (by decide))).append
        (bal_lit (by decide))).append (Flat.all h.2)).append (bal_lit (by decide)))
  | .assign l r, h, ind, hi => by
    rw [ps_assign]
    exact hi.bal.append ((((Flat.all h.1).append (bal_lit (by decide))).append (Flat.all h.2)).append (bal_lit (by decide)))
  | .expr e, h, ind, hi => by
    rw [ps_expr]
    exact hi.bal.append (Bal.append (Flat.all h) (bal_lit (by decide)))
  | .ifElse c t d, h, ind, hi => by
    intro st
    rw [ps_ifElse]
    have h1 := Flat.all h.1
    have h2 := bal_stmts t h.2.1 _ (flat_deeper hi)
    have h3 := bal_stmts d h.2.2 _ (flat_deeper hi)
    have hi := hi.bal
    obtain ⟨l1, l2, l3, l4, -⟩ := scan_lits st
    simp only [scan_append, Option.bind_some, h1 _, h2 _, h3 _, hi _, l1, l2, l3, l4]
  | .ifAssign c l r l' r', h, ind, hi => by
    intro st
    rw [ps_ifAssign]
    have h1 := Flat.all h.1
    have h2 := Flat.all h.2.1
    have h3 := Flat.all h.2.2.1
    have h4 := Flat.all h.2.2.2.1
    have h5 := Flat.all h.2.2.2.2
    have hi := hi.bal
    obtain ⟨l1, l2, l3, l4, l5, -⟩ := scan_lits st
    have l6 : ∀ st, scan st " = ".toList = some st := fun _ => rfl
    have l7 : ∀ st, scan st ";\n".toList = some st := fun _ => rfl
    have l8 : ∀ st, scan st "else ".toList = some st := fun _ => rfl
    simp only [scan_append, Option.bind_some, h1 _, h2 _, h3 _, h4 _, h5 _, hi _, l1, l5, l6 _, l7 _, l8 _]
  | .ifRet c e, h, ind, hi => by
    intro st
    rw [ps_ifRet]
    have h1 := Flat.all h.1
    have h2 := Flat.all h.2
    have hi := hi.bal
    obtain ⟨l1, l2, l3, l4, l5, l6, -⟩ := scan_lits st
    have l7 : ∀ st, scan st ";\n".toList = some st := fun _ => rfl
    simp only [scan_append, Option.bind_some, h1 _, h2 _, hi _, l1, l6, l7 _]
  | .forS i b body, h, ind, hi => by
    intro st
    rw [ps_for]
    have h1 := h.1.bal
    have h2 := Flat.all h.2.1
    have h3 := bal_stmts body h.2.2 _ (flat_deeper hi)
    have hi := hi.bal
    obtain ⟨l1, l2, l3, l4, l5, l6, l7, -⟩ := scan_lits st
    have l8 : ∀ st, scan st " = 0; ".toList = some st := fun _ => rfl
    have l9 : ∀ st, scan st " < ".toList = some st := fun _ => rfl
    have l10 : ∀ st, scan st "; ++".toList = some st := fun _ => rfl
    simp only [scan_append, Option.bind_some, h1 _, h2 _, h3 _, hi _, l2, l4, l7, l8 _, l9 _, l10 _]
  | .switchNullish e n d, h, ind, hi => by
    intro st
    rw [ps_switch]
    have h1 := Flat.all h.1
    have h2 := Flat.all h.2.1
    have h3 := bal_stmts d h.2.2 _ (flat_deeper (flat_deeper hi))
    have hd := (flat_deeper hi).bal
    have hi := hi.bal
    obtain ⟨l1, l2, l3, l4, l5, l6, l7, l8, l9⟩ := scan_lits st
    obtain ⟨-, -, -, l4', -, -, -, -, l9'⟩ := scan_lits ('}' :: st)
    have l10 : ∀ st, scan st "case undefined: case null: ".toList = some st := fun _ => rfl
    have l11 : ∀ st, scan st "; break;\n".toList = some st := fun _ => rfl
    simp only [scan_append, Option.bind_some, h1 _, h2 _, h3 _, hi _, hd _, l2, l4, l4', l8, l9', l10 _, l11 _]
  | .ret e, h, ind, hi => by
    rw [ps_ret]
    exact hi.bal.append (((bal_lit (by decide)).append (Flat.all h)).append (bal_lit (by decide)))
theorem bal_stmts : (ss : List Stmt) → AllS Flat ss → ∀ ind, Flat ind → Bal (printStmts ind ss)
  | [], _, _, _ => bal_nil
  | s :: ss, h, ind, hi => by
    rw [ps_cons]
    exact (bal_stmt s h.1 ind hi).append (bal_stmts ss h.2 ind hi)
end

/-! ### modules -/

theorem flat_law : NameLaw Flat := ⟨by decide, fun a b ha hb => (ha.append (by decide)).append hb⟩

theorem flat_tsType {n : Str} (h : Flat n) : Flat (tsType n) := by
  unfold tsType
  split_ifs
  · decide
  · decide
  · exact h

theorem flat_qualified {exp n : Str} (he : Flat exp) (h : Flat n) : Flat (qualified exp n) := by
  unfold qualified
  split_ifs
  · exact flat_tsType h
  · exact (he.append (by decide)).append h

theorem bal_array (b : Bool) : Bal (if b then "[]".toList else []) := by
  cases b
  · exact bal_nil
  · exact fun _ => rfl

theorem bal_member {f : Str × Unresolved} (h1 : Flat f.1) (h2 : Flat f.2.name) : Bal (memberLine f) := by
  unfold memberLine
  refine ((((((bal_lit (by decide)).append h1.bal).append ?_).append (bal_lit (by decide))).append
    (flat_tsType h2).bal).append (bal_array _)).append (bal_lit (by decide))
  cases f.2.optional
  · exact bal_nil
  · exact fun _ => rfl

theorem bal_param {exp : Str} {f : Str × Unresolved} (he : Flat exp) (h1 : Flat f.1) (h2 : Flat f.2.name) :
    Bal (paramLine exp f) := by
  unfold paramLine
  refine ((((((bal_lit (by decide)).append h1.bal).append (bal_lit (by decide))).append
    (flat_qualified he h2).bal).append (bal_array _)).append ?_).append (bal_lit (by decide))
  cases f.2.optional
  · exact bal_nil
  · exact fun _ => rfl

theorem scan_ends (st : List Char) :
    scan st " {\n".toList = some ('}' :: st) ∧ scan ('}' :: st) "    }\n".toList = some st ∧
    scan ('}' :: st) "}\n".toList = some st := ⟨rfl, rfl, rfl⟩

theorem bal_interface {n : Str} {fs : List (Str × Unresolved)} (hn : Flat n)
    (h : ∀ f ∈ fs, Flat f.1 ∧ Flat f.2.name) : Bal (interfaceText n fs) := by
  intro st
  unfold interfaceText
  have h1 := hn.bal
  have h2 : Bal (fs.flatMap memberLine) := bal_flatMap fun f hf => bal_member (h f hf).1 (h f hf).2
  obtain ⟨l1, l2, -⟩ := scan_ends st
  have l3 : ∀ st, scan st "    export interface ".toList = some st := fun _ => rfl
  simp only [scan_append, Option.bind_some, h1 _, h2 _, l1, l2, l3 _]

theorem bal_enum {n : Str} {vs : List Str} (hn : Flat n) (h : ∀ v ∈ vs, Flat v) : Bal (enumText n vs) := by
  intro st
  unfold enumText
  have h1 := hn.bal
  have h2 : Bal (vs.zipIdx.flatMap variantLine) := by
    refine bal_flatMap fun v hv => ?_
    have hm : v.1 ∈ vs := by
      obtain ⟨x, i⟩ := v
      exact (List.mem_zipIdx hv).2.2 ▸ List.getElem_mem _
    exact ((((bal_lit (by decide)).append (h _ hm).bal).append (bal_lit (by decide))).append (flat_digits _).bal).append
      (bal_lit (by decide))
  obtain ⟨l1, l2, -⟩ := scan_ends st
  have l3 : ∀ st, scan st "    export const enum ".toList = some st := fun _ => rfl
  simp only [scan_append, Option.bind_some, h1 _, h2 _, l1, l2, l3 _]

theorem bal_namespace {exp : Str} {ds : List (Str × Str)} (he : Flat exp) (h : ∀ d ∈ ds, Bal d.2) :
    Bal (namespaceText exp ds) := by
  intro st
  unfold namespaceText
  have h1 := he.bal
  have h2 : Bal (ds.flatMap Prod.snd) := bal_flatMap h
  obtain ⟨l1, l2, l4⟩ := scan_ends st
  have l3 : ∀ st, scan st "export namespace ".toList = some st := fun _ => rfl
  simp only [scan_append, Option.bind_some, h1 _, h2 _, l1, l4, l3 _]

set_option maxRecDepth 4000 in
theorem bal_class {exp rb wb : Str} {fs : List (Str × Unresolved)} (he : Flat exp)
    (h : ∀ f ∈ fs, Flat f.1 ∧ Flat f.2.name) (hr : Bal rb) (hw : Bal wb) : Bal (classText exp fs rb wb) := by
  intro st
  unfold classText classHead
  have h1 := he.bal
  have h2 : Bal (fs.flatMap (paramLine exp)) := bal_flatMap fun f hf => bal_param he (h f hf).1 (h f hf).2
  obtain ⟨l1, -, l2⟩ := scan_ends st
  obtain ⟨-, l3, -⟩ := scan_ends ('}' :: st)
  have l4 : ∀ st, scan st "export class ".toList = some st := fun _ => rfl
  have l5 : ∀ st, scan st "    constructor(\n".toList = some (')' :: st) := fun _ => rfl
  have l6 : ∀ st, scan (')' :: st) "    ) {}\n".toList = some st := fun _ => rfl
  have l7 : ∀ st, scan st "    static read(data: ArrayBuffer): ".toList = some st := fun _ => rfl
  have l8 : ∀ st, scan st " | null {\n".toList = some ('}' :: st) := fun _ => rfl
  have l9 : ∀ st, scan st "    write(buffer?: ArrayBuffer): ArrayBuffer {\n".toList = some ('}' :: st) := fun _ => rfl
  simp only [scan_append, Option.bind_some, h1 _, h2 _, hr _, hw _, l1, l2, l3, l4 _, l5 _, l6 _, l7 _, l8 _, l9 _]

theorem flat_word {n : Str} (h : ∀ c ∈ n, Props.NameChar c) : Flat n := by
  intro c hc hm
  have := h c hc
  unfold Props.NameChar at this
  revert this
  rw [show "()[]{}".toList = ['(', ')', '[', ']', '{', '}'] by decide] at hm
  simp only [List.mem_cons, List.not_mem_nil, or_false] at hm
  rcases hm with rfl | rfl | rfl | rfl | rfl | rfl <;> decide

theorem flat_legal {n : Str} (h : Props.LegalName n) : Flat n := by
  obtain ⟨⟨c, cs, rfl, hc, hcs⟩, _⟩ := h
  refine flat_word fun d hd => ?_
  rcases List.mem_cons.1 hd with rfl | hd
  · unfold Props.NameChar
    tauto
  · exact hcs d hd

set_option maxRecDepth 4000 in
/-- Everything after the header is well bracketed. -/
theorem module_balanced {text : Str} {ast : AST} (hp : Parser.schema text = .ok ast) {ord} (hord : FairOrd ord) {r}
    (h : typeCheck ord ast = .ok r) {types : TypeMap} (ht : types.Perm r.types) :
    Bal (importLine ++ namespaceText r.export.name (types.filterMap (entry r.export.name)) ++ printClass r.export) := by
  have hnb := Props.parsed_noBuiltinDecl hp
  obtain ⟨n1, n2, n3, n4⟩ := Props.C04_names_legal hp
  obtain ⟨hx, fs0, hd0⟩ := Props.C21_export_is_struct hord h
  have hexp : Flat r.export.name := flat_legal (n1 _ _ hd0).1
  have hfields : ∀ n fs, .decl n (.struct fs) ∈ ast → ∀ f ∈ fs, Flat f.1 ∧ Flat f.2.name := fun n fs hd f hf =>
    ⟨flat_legal (n3 n fs hd f hf).1, flat_word (n3 n fs hd f hf).2⟩
  refine Bal.append (Bal.append (fun _ => rfl) (bal_namespace hexp ?_)) ?_
  · intro d hd
    rcases (entries_complete hord hnb h ht).right d hd with ⟨vs, h1, h2⟩ | ⟨fs, fs', h1, h2, h3⟩
    · rw [h2]
      exact bal_enum (flat_legal (n1 _ _ h1).1) fun v hv => flat_legal (n2 _ _ h1 v hv)
    · rw [h3]
      exact bal_interface (flat_legal (n1 _ _ h1).1) fun f hf => hfields _ _ h1 f (h2.mem_iff.1 hf)
  · obtain ⟨fs, fs', h1, h2, h3, h4⟩ := class_eq hord hnb h
    have hs := (accepted_sound hord hnb h).1
    obtain ⟨q1, q2⟩ := accepted_deep hord hnb h (Q := fun ns => ∀ n ∈ ns, Flat n) (P := fun _ => True)
      (fun l m hp hl n hn => hl n (hp.mem_iff.2 hn))
      (fun n fs hd m hm => by
        obtain ⟨f, hf, rfl⟩ := List.mem_map.1 hm
        exact (hfields n fs hd f hf).1)
      (fun _ _ _ _ _ => trivial)
    rw [h4]
    refine bal_class hexp (fun f hf => hfields _ _ h1 f (h2.mem_iff.1 hf)) (bal_stmts _ ?_ _ (by decide)) (bal_stmts _ ?_ _ (by decide))
    · exact readBody_all flat_law _ q1 q2 hs hexp
    · exact writeBody_all flat_law _ q1 q2 hs

end Packetc.Module
