import Verif.Proof.Layout
/-!
# The TypeScript file is indented by its brackets (for C123)
-/

namespace Packetc.Layout
open Ast Check Gen WellFormed Js
open Module (tsType qualified memberLine paramLine interfaceText enumText variantLine namespaceText classText classHead importLine entry)

theorem lit {s : Str} (h : Flat s) : Lin s := h.lin

theorem ex_expr {e : Expr} (h : e.All Word) : Ex e.print := by
  induction e with
  | var x => exact Word.ex h
  | prop e p ih => rw [pr_prop]; exact ((ih h.1).append (lit (by decide))).append h.2.lin
  | index e i ih1 ih2 =>
    rw [pr_index, List.append_assoc, List.append_assoc]
    refine (ih1 h.1).append ?_
    rw [← List.append_assoc]
    exact lin_wrap _ _ [']'] (fun _ => rfl) (fun _ => rfl) (ih2 h.2).lin
  | num i => exact ⟨(int_flat i).1.lin, (int_flat i).2⟩
  | undef => exact ⟨lit (by decide), rfl⟩
  | null => exact ⟨lit (by decide), rfl⟩
  | tru => exact ⟨lit (by decide), rfl⟩
  | obj => exact ⟨fun _ => rfl, rfl⟩
  | new0 c => rw [pr_new0]; exact Ex.append (Ex.append ⟨lit (by decide), rfl⟩ (Word.lin h)) (fun _ => rfl)
  | new1 c a ih =>
    rw [pr_new1, List.append_assoc, List.append_assoc]
    refine Ex.append (Ex.append ⟨lit (by decide), rfl⟩ h.1.lin) ?_
    rw [← List.append_assoc]
    exact lin_wrap _ _ [')'] (fun _ => rfl) (fun _ => rfl) (ih h.2).lin
  | call0 o m ih =>
    rw [pr_call0]
    exact (((ih h.1).append (lit (by decide))).append h.2.lin).append (fun _ => rfl)
  | call1 o m a ih1 ih2 =>
    rw [pr_call1, List.append_assoc, List.append_assoc]
    refine (((ih1 h.1).append (lit (by decide))).append h.2.1.lin).append ?_
    rw [← List.append_assoc]
    exact lin_wrap _ _ [')'] (fun _ => rfl) (fun _ => rfl) (ih2 h.2.2).lin
  | asNumber e ih => rw [pr_as]; exact Ex.append (ih h) (lit (by decide))
  | lt a b iha ihb => rw [pr_lt]; exact ((iha h.1).append (lit (by decide))).append (ihb h.2).lin
  | le a b iha ihb => rw [pr_le]; exact ((iha h.1).append (lit (by decide))).append (ihb h.2).lin
  | gt a b iha ihb => rw [pr_gt]; exact ((iha h.1).append (lit (by decide))).append (ihb h.2).lin
  | and a b iha ihb => rw [pr_and]; exact ((iha h.1).append (lit (by decide))).append (ihb h.2).lin
  | cond c t e ic it ie =>
    rw [pr_cond]
    exact ((((ic h.1).append (lit (by decide))).append (it h.2.1).lin).append (lit (by decide))).append (ie h.2.2).lin

/-- Literals at the beginning of a line. -/
theorem starts (st : List Char) :
    layout st (.start (4 * st.length)) "let ".toList = some (st, .inside) ∧
    layout st (.start (4 * st.length)) "if (".toList = some (')' :: st, .inside) ∧
    layout st (.start (4 * st.length)) "else ".toList = some (st, .inside) ∧
    layout st (.start (4 * st.length)) "for (let ".toList = some (')' :: st, .inside) ∧
    layout st (.start (4 * st.length)) "switch (".toList = some (')' :: st, .inside) ∧
    layout st (.start (4 * st.length)) "case undefined: case null: ".toList = some (st, .inside) ∧
    layout st (.start (4 * st.length)) "default: {\n".toList = some ('}' :: st, .start 0) ∧
    layout st (.start (4 * st.length)) "return ".toList = some (st, .inside) := by
  refine ⟨?_, ?_, ?_, ?_, ?_, ?_, ?_, ?_⟩ <;> (rw [layout_head (by decide)]; rfl)

theorem closes (st : List Char) :
    layout ('}' :: st) (.start (4 * st.length)) "}\n".toList = some (st, .start 0) ∧
    layout ('}' :: st) (.start (4 * st.length)) "} else {\n".toList = some ('}' :: st, .start 0) ∧
    layout (')' :: st) (.start (4 * st.length)) ") {}\n".toList = some (st, .start 0) :=
  ⟨layout_close st '}' (by simp) _, layout_close st '}' (by simp) _, layout_close st ')' (by simp) _⟩

/-- Literals inside a line. -/
theorem insides (st : List Char) :
    layout st .inside " = ".toList = some (st, .inside) ∧ layout st .inside ";\n".toList = some (st, .start 0) ∧
    layout st .inside ": any".toList = some (st, .inside) ∧ layout (')' :: st) .inside ") {\n".toList = some ('}' :: st, .start 0) ∧
    layout (')' :: st) .inside ") ".toList = some (st, .inside) ∧ layout (')' :: st) .inside ") return ".toList = some (st, .inside) ∧
    layout st .inside " = 0; ".toList = some (st, .inside) ∧ layout st .inside " < ".toList = some (st, .inside) ∧
    layout st .inside "; ++".toList = some (st, .inside) ∧ layout st .inside "; break;\n".toList = some (st, .start 0) :=
  ⟨rfl, rfl, rfl, rfl, rfl, rfl, rfl, rfl, rfl, rfl⟩

mutual
theorem lay_stmt : (s : Stmt) → s.All Word → ∀ (st : List Char) (ind : Str), Ind st.length ind →
    layout st (.start 0) (s.print ind) = some (st, .start 0)
  | .letS x any e, h, st, ind, hi => by
    obtain ⟨a1, -⟩ := starts st
    obtain ⟨b1, b2, b3, -⟩ := insides st
    have h1 := h.1.lin
    have h2 := (ex_expr h.2).lin
    cases any with
    | false =>
      rw [ps_let]
      simp only [layout_append, hi _ _, Option.bind_some, Nat.zero_add, a1, b1, b2, h1 _, h2 _]
    | true =>
      rw [ps_letAny]
      simp only [layout_append, hi _ _, Option.bind_some, Nat.zero_add, a1, b1, b2, b3, h1 _, h2 _]
  | .assign l r, h, st, ind, hi => by
    rw [ps_assign]
    obtain ⟨b1, b2, -⟩ := insides st
    simp only [layout_append, hi _ _, Option.bind_some, Nat.zero_add, (ex_expr h.1).start, b1, b2, (ex_expr h.2).lin _]
  | .expr e, h, st, ind, hi => by
    rw [ps_expr]
    obtain ⟨b1, b2, -⟩ := insides st
    simp only [layout_append, hi _ _, Option.bind_some, Nat.zero_add, (ex_expr h).start, b2]
  | .ifElse c t d, h, st, ind, hi => by
    rw [ps_ifElse]
    have h1 := (ex_expr h.1).lin
    have h2 := lay_stmts t h.2.1 ('}' :: st) _ hi.deeper
    have h3 := lay_stmts d h.2.2 ('}' :: st) _ hi.deeper
    obtain ⟨-, a2, -⟩ := starts st
    obtain ⟨-, -, -, b4, -⟩ := insides st
    obtain ⟨c1, c2, -⟩ := closes st
    simp only [layout_append, hi _ _, Option.bind_some, Nat.zero_add, h1 _, h2, h3, a2, b4, c1, c2]
  | .ifAssign c l r l' r', h, st, ind, hi => by
    rw [ps_ifAssign]
    have h1 := (ex_expr h.1).lin
    have h2 := (ex_expr h.2.1).lin
    have h3 := (ex_expr h.2.2.1).lin
    have h4 := (ex_expr h.2.2.2.1).lin
    have h5 := (ex_expr h.2.2.2.2).lin
    obtain ⟨-, a2, a3, -⟩ := starts st
    obtain ⟨b1, b2, -, -, b5, -⟩ := insides st
    simp only [layout_append, hi _ _, Option.bind_some, Nat.zero_add, h1 _, h2 _, h3 _, h4 _, h5 _, a2, a3, b1, b2, b5]
  | .ifRet c e, h, st, ind, hi => by
    rw [ps_ifRet]
    have h1 := (ex_expr h.1).lin
    have h2 := (ex_expr h.2).lin
    obtain ⟨-, a2, -⟩ := starts st
    obtain ⟨-, b2, -, -, -, b6, -⟩ := insides st
    simp only [layout_append, hi _ _, Option.bind_some, Nat.zero_add, h1 _, h2 _, a2, b2, b6]
  | .forS i b body, h, st, ind, hi => by
    rw [ps_for]
    have h1 := h.1.lin
    have h2 := (ex_expr h.2.1).lin
    have h3 := lay_stmts body h.2.2 ('}' :: st) _ hi.deeper
    obtain ⟨-, -, -, a4, -⟩ := starts st
    obtain ⟨-, -, -, b4, -⟩ := insides st
    obtain ⟨-, -, -, -, -, -, b7, b8, b9, -⟩ := insides (')' :: st)
    obtain ⟨c1, -⟩ := closes st
    simp only [layout_append, hi _ _, Option.bind_some, Nat.zero_add, h1 _, h2 _, h3, a4, b4, b7, b8, b9, c1]
  | .switchNullish e n d, h, st, ind, hi => by
    rw [ps_switch]
    have h1 := (ex_expr h.1).lin
    have h2 := (ex_expr h.2.1).lin
    have h3 := lay_stmts d h.2.2 ('}' :: '}' :: st) _ hi.deeper.deeper
    have hd := hi.deeper
    obtain ⟨-, -, -, -, a5, -⟩ := starts st
    obtain ⟨-, -, -, -, -, a6, a7, -⟩ := starts ('}' :: st)
    obtain ⟨-, -, -, b4, -⟩ := insides st
    obtain ⟨-, -, -, -, -, -, -, -, -, b10⟩ := insides ('}' :: st)
    obtain ⟨c1, -⟩ := closes st
    obtain ⟨c1', -⟩ := closes ('}' :: st)
    rw [List.length_cons] at a6 a7 c1'
    simp only [layout_append, hi _ _, hd _ _, Option.bind_some, Nat.zero_add, h1 _, h2 _, h3, a5, a6, a7, b4, b10, c1, c1']
  | .ret e, h, st, ind, hi => by
    rw [ps_ret]
    obtain ⟨-, b2, -⟩ := insides st
    obtain ⟨-, -, -, -, -, -, -, a8⟩ := starts st
    simp only [layout_append, hi _ _, Option.bind_some, Nat.zero_add, (ex_expr h).lin _, a8, b2]
theorem lay_stmts : (ss : List Stmt) → AllS Word ss → ∀ (st : List Char) (ind : Str), Ind st.length ind →
    layout st (.start 0) (printStmts ind ss) = some (st, .start 0)
  | [], _, _, _, _ => rfl
  | s :: ss, h, st, ind, hi => by
    rw [ps_cons, layout_append, lay_stmt s h.1 st ind hi, Option.bind_some]
    exact lay_stmts ss h.2 st ind hi
end

/-! ### modules -/

theorem word_law : NameLaw Word := by
  refine ⟨fun x hx => word_ident ?_, fun a b ha hb => ⟨by simp, fun c hc => ?_⟩⟩
  · have key : ∀ x ∈ fixedNames, isIdent x = true := by decide
    exact key x hx
  · rcases List.mem_append.1 hc with hc | hc
    · rcases List.mem_append.1 hc with hc | hc
      · exact ha.2 c hc
      · have key : ∀ c ∈ "_".toList, isIdPart c = true := by decide
        exact key c hc
    · exact hb.2 c hc

/-- Complete lines at a level of nesting. -/
def Lines (st : List Char) (s : Str) : Prop := layout st (.start 0) s = some (st, .start 0)

theorem lines_flatMap {α : Type} {st : List Char} {l : List α} {f : α → Str} (h : ∀ a ∈ l, Lines st (f a)) : Lines st (l.flatMap f) := by
  induction l with
  | nil => exact rfl
  | cons a l ih =>
    unfold Lines at *
    rw [List.flatMap_cons, layout_append, h a List.mem_cons_self, Option.bind_some]
    exact ih fun b hb => h b (List.mem_cons_of_mem _ hb)

theorem lin_tsType {n : Str} (h : Lin n) : Lin (tsType n) := by
  unfold tsType
  split_ifs
  · exact lit (by decide)
  · exact lit (by decide)
  · exact h

theorem lin_qualified {exp n : Str} (he : Lin exp) (h : Lin n) : Lin (qualified exp n) := by
  unfold qualified
  split_ifs
  · exact lin_tsType h
  · exact (he.append (lit (by decide))).append h

theorem lin_array (b : Bool) : Lin (if b then "[]".toList else []) := by
  cases b
  · exact lin_nil
  · exact fun _ => rfl

theorem lin_if (b : Bool) {s : Str} (h : Flat s) : Lin (if b then s else []) := by
  cases b
  · exact lin_nil
  · exact h.lin

theorem lines_member {f : Str × Unresolved} (h1 : Word f.1) (h2 : Lin f.2.name) : Lines ['}', '}'] (memberLine f) := by
  unfold memberLine Lines
  have a1 : layout ['}', '}'] (.start 0) "        ".toList = some (['}', '}'], .start 8) := rfl
  have a2 := h1.ex.start ['}', '}']
  have a3 := lin_tsType h2
  have a4 := lin_array f.2.array
  have a5 := lin_if f.2.optional (s := "?".toList) (by decide)
  have a6 : layout ['}', '}'] .inside ": ".toList = some (['}', '}'], .inside) := rfl
  have a7 : layout ['}', '}'] .inside ",\n".toList = some (['}', '}'], .start 0) := rfl
  have a2 : layout ['}', '}'] (.start 8) f.1 = some (['}', '}'], .inside) := a2
  simp only [layout_append, Option.bind_some, a1, a2, a3 _, a4 _, a5 _, a6, a7]

theorem lines_param {exp : Str} {f : Str × Unresolved} (he : Lin exp) (h1 : Word f.1) (h2 : Lin f.2.name) :
    Lines [')', '}'] (paramLine exp f) := by
  unfold paramLine Lines
  have a1 : layout [')', '}'] (.start 0) "        public ".toList = some ([')', '}'], .inside) := rfl
  have a3 := lin_qualified he h2
  have a4 := lin_array f.2.array
  have a5 := lin_if f.2.optional (s := " | undefined".toList) (by decide)
  have a6 : layout [')', '}'] .inside ": ".toList = some ([')', '}'], .inside) := rfl
  have a7 : layout [')', '}'] .inside ",\n".toList = some ([')', '}'], .start 0) := rfl
  simp only [layout_append, Option.bind_some, a1, h1.lin _, a3 _, a4 _, a5 _, a6, a7]

theorem lines_interface {n : Str} {fs : List (Str × Unresolved)} (hn : Word n)
    (h : ∀ f ∈ fs, Word f.1 ∧ Lin f.2.name) : Lines ['}'] (interfaceText n fs) := by
  unfold interfaceText
  have h2 : Lines ['}', '}'] (fs.flatMap memberLine) := lines_flatMap fun f hf => lines_member (h f hf).1 (h f hf).2
  unfold Lines at *
  have l1 : layout ['}'] (.start 0) "    export interface ".toList = some (['}'], .inside) := rfl
  have l2 : layout ['}'] .inside " {\n".toList = some (['}', '}'], .start 0) := rfl
  have l3 : layout ['}', '}'] (.start 0) "    }\n".toList = some (['}'], .start 0) := rfl
  simp only [layout_append, Option.bind_some, hn.lin _, h2, l1, l2, l3]

theorem lines_enum {n : Str} {vs : List Str} (hn : Word n) (h : ∀ v ∈ vs, Word v) : Lines ['}'] (enumText n vs) := by
  unfold enumText
  have h2 : Lines ['}', '}'] (vs.zipIdx.flatMap variantLine) := by
    refine lines_flatMap fun v hv => ?_
    have hm : v.1 ∈ vs := by
      obtain ⟨x, i⟩ := v
      exact (List.mem_zipIdx hv).2.2 ▸ List.getElem_mem _
    unfold variantLine Lines
    have a1 : layout ['}', '}'] (.start 0) "        ".toList = some (['}', '}'], .start 8) := rfl
    have a2 : layout ['}', '}'] (.start 8) v.1 = some (['}', '}'], .inside) := (h _ hm).ex.start ['}', '}']
    have a3 : layout ['}', '}'] .inside " = 1 << ".toList = some (['}', '}'], .inside) := rfl
    have a4 := (digits_flat v.2).1.lin
    have a5 : layout ['}', '}'] .inside ",\n".toList = some (['}', '}'], .start 0) := rfl
    simp only [layout_append, Option.bind_some, a1, a2, a3, a4 _, a5]
  unfold Lines at *
  have l1 : layout ['}'] (.start 0) "    export const enum ".toList = some (['}'], .inside) := rfl
  have l2 : layout ['}'] .inside " {\n".toList = some (['}', '}'], .start 0) := rfl
  have l3 : layout ['}', '}'] (.start 0) "    }\n".toList = some (['}'], .start 0) := rfl
  simp only [layout_append, Option.bind_some, hn.lin _, h2, l1, l2, l3]

theorem lines_namespace {exp : Str} {ds : List (Str × Str)} (he : Word exp) (h : ∀ d ∈ ds, Lines ['}'] d.2) :
    Lines [] (namespaceText exp ds) := by
  unfold namespaceText
  have h2 : Lines ['}'] (ds.flatMap Prod.snd) := lines_flatMap h
  unfold Lines at *
  have l1 : layout [] (.start 0) "export namespace ".toList = some ([], .inside) := rfl
  have l2 : layout [] .inside " {\n".toList = some (['}'], .start 0) := rfl
  have l3 : layout ['}'] (.start 0) "}\n".toList = some ([], .start 0) := rfl
  simp only [layout_append, Option.bind_some, he.lin _, h2, l1, l2, l3]

theorem lines_class {exp rb wb : Str} {fs : List (Str × Unresolved)} (he : Word exp)
    (h : ∀ f ∈ fs, Word f.1 ∧ Lin f.2.name) (hr : Lines ['}', '}'] rb) (hw : Lines ['}', '}'] wb) : Lines [] (classText exp fs rb wb) := by
  unfold classText classHead
  have h2 : Lines [')', '}'] (fs.flatMap (paramLine exp)) := lines_flatMap fun f hf => lines_param he.lin (h f hf).1 (h f hf).2
  unfold Lines at *
  have l1 : layout [] (.start 0) "export class ".toList = some ([], .inside) := rfl
  have l2 : layout [] .inside " {\n".toList = some (['}'], .start 0) := rfl
  have l3 : layout ['}'] (.start 0) "    constructor(\n".toList = some ([')', '}'], .start 0) := rfl
  have l4 : layout [')', '}'] (.start 0) "    ) {}\n".toList = some (['}'], .start 0) := rfl
  have l5 : layout ['}'] (.start 0) "    static read(data: ArrayBuffer): ".toList = some (['}'], .inside) := rfl
  have l6 : layout ['}'] .inside " | null {\n".toList = some (['}', '}'], .start 0) := rfl
  have l7 : layout ['}', '}'] (.start 0) "    }\n".toList = some (['}'], .start 0) := rfl
  have l8 : layout ['}'] (.start 0) "    write(buffer?: ArrayBuffer): ArrayBuffer {\n".toList = some (['}', '}'], .start 0) := rfl
  have l9 : layout ['}'] (.start 0) "}\n".toList = some ([], .start 0) := rfl
  simp only [layout_append, Option.bind_some, he.lin _, h2, hr, hw, l1, l2, l3, l4, l5, l6, l7, l8, l9]

theorem word_chars {n : Str} (h : ∀ c ∈ n, Props.NameChar c) : ∀ c ∈ n, isIdPart c = true := by
  intro c hc
  have := h c hc
  unfold Props.NameChar at this
  unfold isIdPart Char.isAlphanum Char.isAlpha Char.isUpper Char.isLower Char.isDigit
  simp only [Bool.or_eq_true, decide_eq_true_eq, Bool.and_eq_true]
  tauto

theorem word_legal {n : Str} (h : Props.LegalName n) : Word n := by
  obtain ⟨⟨c, cs, rfl, hc, hcs⟩, _⟩ := h
  refine ⟨by simp, word_chars fun d hd => ?_⟩
  rcases List.mem_cons.1 hd with rfl | hd
  · unfold Props.NameChar
    tauto
  · exact hcs d hd

theorem ind_two : Ind 2 "        ".toList := fun _ _ => rfl

/-- Everything after the header is indented by its brackets. -/
theorem module_laidOut {text : Str} {ast : AST} (hp : Parser.schema text = .ok ast) {ord} (hord : FairOrd ord) {r}
    (h : typeCheck ord ast = .ok r) {types : TypeMap} (ht : types.Perm r.types) :
    LaidOut (importLine ++ namespaceText r.export.name (types.filterMap (entry r.export.name)) ++ printClass r.export) := by
  have hnb := Props.parsed_noBuiltinDecl hp
  obtain ⟨n1, n2, n3, n4⟩ := Props.C04_names_legal hp
  obtain ⟨hx, fs0, hd0⟩ := Props.C21_export_is_struct hord h
  have hexp : Word r.export.name := word_legal (n1 _ _ hd0).1
  have hfields : ∀ n fs, .decl n (.struct fs) ∈ ast → ∀ f ∈ fs, Word f.1 ∧ Lin f.2.name := fun n fs hd f hf =>
    ⟨word_legal (n3 n fs hd f hf).1, (part_flat (word_chars (n3 n fs hd f hf).2)).lin⟩
  have h1 : Lines [] importLine := by unfold Lines; rfl
  have h2 : Lines [] (namespaceText r.export.name (types.filterMap (entry r.export.name))) := by
    refine lines_namespace hexp fun d hd => ?_
    rcases (Module.entries_complete hord hnb h ht).right d hd with ⟨vs, h1, h2⟩ | ⟨fs, fs', h1, h2, h3⟩
    · rw [h2]
      exact lines_enum (word_legal (n1 _ _ h1).1) fun v hv => word_legal (n2 _ _ h1 v hv)
    · rw [h3]
      exact lines_interface (word_legal (n1 _ _ h1).1) fun f hf => hfields _ _ h1 f (h2.mem_iff.1 hf)
  have h3 : Lines [] (printClass r.export) := by
    obtain ⟨fs, fs', h1, h2, h3, h4⟩ := Module.class_eq hord hnb h
    have hs := (accepted_sound hord hnb h).1
    obtain ⟨q1, q2⟩ := accepted_deep hord hnb h (Q := fun ns => ∀ n ∈ ns, Word n) (P := fun _ => True)
      (fun l m hp hl n hn => hl n (hp.mem_iff.2 hn))
      (fun n fs hd m hm => by
        obtain ⟨f, hf, rfl⟩ := List.mem_map.1 hm
        exact (hfields n fs hd f hf).1)
      (fun _ _ _ _ _ => trivial)
    rw [h4]
    refine lines_class hexp (fun f hf => hfields _ _ h1 f (h2.mem_iff.1 hf)) (lay_stmts _ ?_ _ _ ind_two) (lay_stmts _ ?_ _ _ ind_two)
    · exact readBody_all word_law _ q1 q2 hs hexp
    · exact writeBody_all word_law _ q1 q2 hs
  unfold LaidOut
  unfold Lines at h1 h2 h3
  simp only [layout_append, Option.bind_some, h1, h2, h3]

end Packetc.Layout
