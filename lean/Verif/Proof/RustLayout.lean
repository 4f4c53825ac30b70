import Verif.Proof.JsLayout
/-!
# The Rust file is indented by its brackets (for C123)
-/

namespace Packetc.Layout
open Ast Check WellFormed Rs RustGen
open Js (deeper isIdent isIdPart)

theorem ex_place : (e : Expr) → GoodP e → Ex e.print
  | .var x, h => (word_ident h.1).ex
  | .field e f, h => by
    rw [Rs.pr_field]
    exact ((ex_place e h.1).append (lit (by decide))).append (word_ident h.2).lin

theorem ex_rust (e : Expr) : ∀ p, Good p e → Ex e.print := by
  induction e with
  | var x => exact fun p h => (word_ident h.1).ex
  | field e f _ => exact fun p h => ex_place (.field e f) h
  | u8 n => exact fun p h => Ex.append ⟨(digits_flat n).1.lin, (digits_flat n).2⟩ (lit (by decide))
  | len e _ => exact fun p h => (ex_place e h).append (fun _ => rfl)
  | cast e t ih => exact fun p h => ((ih _ h.2.1).append (lit (by decide))).append (word_ident h.2.2).lin
  | addr e _ => exact fun p h => Ex.append (s := "&".toList) ⟨lit (by decide), rfl⟩ (ex_place e h).lin
  | read t => exact fun p h => Ex.append (Ex.append (s := "reader.read_".toList) ⟨lit (by decide), rfl⟩ (part_flat h.1).lin) (fun _ => rfl)
  | readString e ih =>
    exact fun p h => ⟨lin_wrap "reader.read_string(".toList ")?".toList [')'] (fun _ => rfl) (fun _ => rfl) (ih _ h).lin, rfl⟩
  | dflt t => exact fun p h => Ex.append (word_ident h).ex (fun _ => rfl)
  | some e ih => exact fun p h => ⟨lin_wrap "Some(".toList ")".toList [')'] (fun _ => rfl) (fun _ => rfl) (ih _ h).lin, rfl⟩
  | tryFrom t e ih =>
    intro p h
    rw [Rs.pr_tryFrom, List.append_assoc, List.append_assoc]
    refine (word_ident h.1).ex.append ?_
    rw [← List.append_assoc]
    exact lin_wrap _ _ [')'] (fun _ => rfl) (fun _ => rfl) (ih _ h.2).lin

/-- Literals at the beginning of a line. -/
theorem rust_starts (st : List Char) :
    layout st (.start (4 * st.length)) "writer.write_".toList = some (st, .inside) ∧
    layout st (.start (4 * st.length)) "match ".toList = some (st, .inside) ∧
    layout st (.start (4 * st.length)) "None => writer.write_".toList = some (st, .inside) ∧
    layout st (.start (4 * st.length)) "Some(".toList = some (')' :: st, .inside) ∧
    layout st (.start (4 * st.length)) "for ".toList = some (st, .inside) ∧
    layout st (.start (4 * st.length)) "let ".toList = some (st, .inside) ∧
    layout st (.start (4 * st.length)) "if ".toList = some (st, .inside) ∧
    layout st (.start (4 * st.length)) "for _ in 0..".toList = some (st, .inside) := by
  refine ⟨?_, ?_, ?_, ?_, ?_, ?_, ?_, ?_⟩ <;> (rw [layout_head (by decide)]; rfl)

/-- Literals inside a line. -/
theorem rust_insides (st : List Char) :
    layout st .inside "(".toList = some (')' :: st, .inside) ∧ layout (')' :: st) .inside ");\n".toList = some (st, .start 0) ∧
    layout st .inside " {\n".toList = some ('}' :: st, .start 0) ∧ layout (')' :: st) .inside "),\n".toList = some (st, .start 0) ∧
    layout (')' :: st) .inside ") => {\n".toList = some ('}' :: st, .start 0) ∧ layout st .inside " in ".toList = some (st, .inside) ∧
    layout st .inside ".iter() {\n".toList = some ('}' :: st, .start 0) ∧ layout st .inside "mut ".toList = some (st, .inside) ∧
    layout st .inside " = ".toList = some (st, .inside) ∧ layout st .inside ";\n".toList = some (st, .start 0) ∧
    layout st .inside " > ".toList = some (st, .inside) ∧ layout st .inside ".reserve(".toList = some (')' :: st, .inside) ∧
    layout st .inside ".push(".toList = some (')' :: st, .inside) :=
  ⟨rfl, rfl, rfl, rfl, rfl, rfl, rfl, rfl, rfl, rfl, rfl, rfl, rfl⟩

mutual
theorem lay_rust : (s : Stmt) → GoodS s → ∀ (st : List Char) (ind : Str), Ind st.length ind →
    layout st (.start 0) (s.print ind) = some (st, .start 0)
  | .write t e, h, st, ind, hi => by
    rw [Rs.ps_write]
    obtain ⟨a1, -⟩ := rust_starts st
    obtain ⟨b1, b2, -⟩ := rust_insides st
    have h1 := (part_flat h.1).lin
    have h2 := (ex_rust e _ h.2).lin
    simp only [layout_append, hi _ _, Option.bind_some, Nat.zero_add, a1, b1, b2, h1 _, h2 _]
  | .matchOpt y e t n x body, h, st, ind, hi => by
    rw [Rs.ps_match]
    have h1 := (ex_place e h.1).lin
    have h2 := (part_flat h.2.1).lin
    have h3 := (ex_rust n _ h.2.2.1).lin
    have h4 := (word_ident h.2.2.2.1.1).lin
    have h5 := lay_rusts body h.2.2.2.2 ('}' :: '}' :: st) _ hi.deeper.deeper
    have h6 := lin_if y (s := "&".toList) (by decide)
    have hd := hi.deeper
    obtain ⟨-, a2, -⟩ := rust_starts st
    obtain ⟨-, -, a3, a4, -⟩ := rust_starts ('}' :: st)
    obtain ⟨-, -, b3, -⟩ := rust_insides st
    obtain ⟨b1, -, -, b4, b5, -⟩ := rust_insides ('}' :: st)
    obtain ⟨c1, -⟩ := closes st
    obtain ⟨c1', -⟩ := closes ('}' :: st)
    rw [List.length_cons] at a3 a4 c1'
    simp only [layout_append, hi _ _, hd _ _, Option.bind_some, Nat.zero_add, h1 _, h2 _, h3 _, h4 _, h5, h6 _, a2, a3, a4, b1, b3, b4, b5,
      c1, c1']
  | .forIter x e body, h, st, ind, hi => by
    rw [Rs.ps_forIter]
    have h1 := (word_ident h.1.1).lin
    have h2 := (ex_place e h.2.1).lin
    have h3 := lay_rusts body h.2.2 ('}' :: st) _ hi.deeper
    obtain ⟨-, -, -, -, a5, -⟩ := rust_starts st
    obtain ⟨-, -, -, -, -, b6, b7, -⟩ := rust_insides st
    obtain ⟨c1, -⟩ := closes st
    simp only [layout_append, hi _ _, Option.bind_some, Nat.zero_add, h1 _, h2 _, h3, a5, b6, b7, c1]
  | .letS m x e, h, st, ind, hi => by
    have h1 := (word_ident h.1.1).lin
    have h2 := (ex_rust e _ h.2).lin
    obtain ⟨-, -, -, -, -, a6, -⟩ := rust_starts st
    obtain ⟨-, -, -, -, -, -, -, b8, b9, b10, -⟩ := rust_insides st
    cases m with
    | false =>
      rw [Rs.ps_let]
      simp only [layout_append, hi _ _, Option.bind_some, Nat.zero_add, h1 _, h2 _, a6, b9, b10]
    | true =>
      rw [Rs.ps_letMut]
      simp only [layout_append, hi _ _, Option.bind_some, Nat.zero_add, h1 _, h2 _, a6, b8, b9, b10]
  | .assign l r, h, st, ind, hi => by
    rw [Rs.ps_assign]
    have h1 := (ex_place l h.1).start
    have h2 := (ex_rust r _ h.2).lin
    obtain ⟨-, -, -, -, -, -, -, b8, b9, b10, -⟩ := rust_insides st
    simp only [layout_append, hi _ _, Option.bind_some, Nat.zero_add, h1, h2 _, b9, b10]
  | .ifGt e k body, h, st, ind, hi => by
    rw [Rs.ps_if]
    have h1 := (ex_rust e _ h.1).lin
    have h2 := (digits_flat k).1.lin
    have h3 := lay_rusts body h.2 ('}' :: st) _ hi.deeper
    obtain ⟨-, -, -, -, -, -, a7, -⟩ := rust_starts st
    obtain ⟨-, -, b3, -, -, -, -, -, -, -, b11, -⟩ := rust_insides st
    obtain ⟨c1, -⟩ := closes st
    simp only [layout_append, hi _ _, Option.bind_some, Nat.zero_add, h1 _, h2 _, h3, a7, b3, b11, c1]
  | .reserve e n, h, st, ind, hi => by
    rw [Rs.ps_reserve]
    have h1 := (ex_place e h.1).start
    have h2 := (ex_rust n _ h.2).lin
    obtain ⟨-, b2, -, -, -, -, -, -, -, -, -, b12, -⟩ := rust_insides st
    simp only [layout_append, hi _ _, Option.bind_some, Nat.zero_add, h1, h2 _, b2, b12]
  | .push e v, h, st, ind, hi => by
    rw [Rs.ps_push]
    have h1 := (ex_place e h.1).start
    have h2 := (ex_rust v _ h.2).lin
    obtain ⟨-, b2, -, -, -, -, -, -, -, -, -, -, b13⟩ := rust_insides st
    simp only [layout_append, hi _ _, Option.bind_some, Nat.zero_add, h1, h2 _, b2, b13]
  | .forRange n body, h, st, ind, hi => by
    rw [Rs.ps_range]
    have h1 := (ex_place n h.1).lin
    have h3 := lay_rusts body h.2 ('}' :: st) _ hi.deeper
    obtain ⟨-, -, -, -, -, -, -, a8⟩ := rust_starts st
    obtain ⟨-, -, b3, -⟩ := rust_insides st
    obtain ⟨c1, -⟩ := closes st
    simp only [layout_append, hi _ _, Option.bind_some, Nat.zero_add, h1 _, h3, a8, b3, c1]
theorem lay_rusts : (ss : List Stmt) → GoodSs ss → ∀ (st : List Char) (ind : Str), Ind st.length ind →
    layout st (.start 0) (printStmts ind ss) = some (st, .start 0)
  | [], _, _, _, _ => rfl
  | s :: ss, h, st, ind, hi => by
    rw [Rs.ps_cons, layout_append, lay_rust s h.1 st ind hi, Option.bind_some]
    exact lay_rusts ss h.2 st ind hi
end

/-! ### definitions -/

theorem lin_fieldTy {t : FieldTy} (h : Lin t.base) : Lin t.print := by
  unfold FieldTy.print
  exact ((((lin_if t.opt (by decide)).append (lin_if t.vec (by decide))).append h).append (lin_if t.vec (by decide))).append
    (lin_if t.opt (by decide))

theorem lines_fields : (fs : List (Str × FieldTy)) → (∀ f ∈ fs, isIdent f.1 = true ∧ isIdent f.2.base = true) →
    Lines ['}'] (printFields (deeper []) fs)
  | [], _ => rfl
  | (f, t) :: fs, h => by
    have ih := lines_fields fs fun g hg => h g (List.mem_cons_of_mem _ hg)
    have h1 := (word_ident (h _ List.mem_cons_self).1).lin
    have h2 := lin_fieldTy (t := t) (word_ident (h _ List.mem_cons_self).2).lin
    unfold Lines at *
    unfold printFields
    have l1 : layout ['}'] (.start 0) (deeper []) = some (['}'], .start 4) := rfl
    have l2 : layout ['}'] (.start 4) "pub ".toList = some (['}'], .inside) := rfl
    have l3 : layout ['}'] .inside ": ".toList = some (['}'], .inside) := rfl
    have l4 : layout ['}'] .inside ",\n".toList = some (['}'], .start 0) := rfl
    simp only [layout_append, Option.bind_some, h1 _, h2 _, ih, l1, l2, l3, l4]

theorem lines_variants : (vs : List (Str × Nat)) → (∀ v ∈ vs, isIdent v.1 = true) → Lines ['}'] (printVariants (deeper []) vs)
  | [], _ => rfl
  | (v, k) :: vs, h => by
    have ih := lines_variants vs fun g hg => h g (List.mem_cons_of_mem _ hg)
    have h1 : layout ['}'] (.start 4) v = some (['}'], .inside) := (word_ident (h _ List.mem_cons_self)).ex.start ['}']
    have h2 := (digits_flat k).1.lin
    unfold Lines at *
    unfold printVariants
    have l1 : layout ['}'] (.start 0) (deeper []) = some (['}'], .start 4) := rfl
    have l3 : layout ['}'] .inside " = 1 << ".toList = some (['}'], .inside) := rfl
    have l4 : layout ['}'] .inside ",\n".toList = some (['}'], .start 0) := rfl
    simp only [layout_append, Option.bind_some, h1, h2 _, ih, l1, l3, l4]

theorem lines_arms {n : Str} (hn : Lin n) : (vs : List (Int × Str)) → (∀ v ∈ vs, isIdent v.2 = true) →
    Lines ['}', '}', '}'] (printArms (deeper (deeper (deeper []))) n vs)
  | [], _ => rfl
  | (i, v) :: vs, h => by
    have ih := lines_arms hn vs fun g hg => h g (List.mem_cons_of_mem _ hg)
    have h1 : layout ['}', '}', '}'] (.start 12) (toString i).toList = some (['}', '}', '}'], .inside) :=
      Ex.start ⟨(int_flat i).1.lin, (int_flat i).2⟩ ['}', '}', '}']
    have h2 := (word_ident (h _ List.mem_cons_self)).lin
    unfold Lines at *
    unfold printArms
    have l1 : layout ['}', '}', '}'] (.start 0) (deeper (deeper (deeper []))) = some (['}', '}', '}'], .start 12) := rfl
    have l2 : layout ['}', '}', '}'] .inside " => Ok(".toList = some ([')', '}', '}', '}'], .inside) := rfl
    have l3 : layout [')', '}', '}', '}'] .inside "::".toList = some ([')', '}', '}', '}'], .inside) := rfl
    have l4 : layout [')', '}', '}', '}'] .inside "),\n".toList = some (['}', '}', '}'], .start 0) := rfl
    simp only [layout_append, Option.bind_some, h1, h2 _, hn _, ih, l1, l2, l3, l4]

theorem lines_item : (i : Item) → GoodItem i → Lines [] i.print
  | .struct n fs, h => by
    have h1 := (word_ident h.1).lin
    have h2 := lines_fields fs h.2
    unfold Lines at *
    unfold Item.print
    have l1 : layout [] (.start 0) "#[derive(Clone, PartialEq, Debug, Default)]\n".toList = some ([], .start 0) := rfl
    have l2 : layout [] (.start 0) "pub struct ".toList = some ([], .inside) := rfl
    have l3 : layout [] .inside " {\n".toList = some (['}'], .start 0) := rfl
    have l4 : layout ['}'] (.start 0) "}\n".toList = some ([], .start 0) := rfl
    simp only [layout_append, Option.bind_some, h1 _, h2, l1, l2, l3, l4]
  | .enum n r vs d arms, h => by
    obtain ⟨g1, g2, g3, g4, g5⟩ := h
    have h1 := (word_ident g1).lin
    have h1' : layout ['}', '}'] (.start 8) n = some (['}', '}'], .inside) := (word_ident g1).ex.start ['}', '}']
    have h2 := (word_ident g2).lin
    have h3 := lines_variants vs g3
    have h4 := (word_ident g4).lin
    have h5 := lines_arms h1 arms g5
    unfold Lines at *
    unfold Item.print
    have d1 : ∀ st, layout st (.start 0) (deeper []) = some (st, .start 4) := fun _ => rfl
    have d2 : ∀ st, layout st (.start 0) (deeper (deeper [])) = some (st, .start 8) := fun _ => rfl
    have d3 : ∀ st, layout st (.start 0) (deeper (deeper (deeper []))) = some (st, .start 12) := fun _ => rfl
    have l1 : layout [] (.start 0) "#[derive(Clone, Copy, PartialEq, Debug)]\n".toList = some ([], .start 0) := rfl
    have l2 : layout [] (.start 0) "#[repr(".toList = some ([')', ']'], .inside) := rfl
    have l3 : layout [')', ']'] .inside ")]\n".toList = some ([], .start 0) := rfl
    have l4 : layout [] (.start 0) "pub enum ".toList = some ([], .inside) := rfl
    have l5 : layout [] .inside " {\n".toList = some (['}'], .start 0) := rfl
    have l6 : layout ['}'] (.start 0) "}\n".toList = some ([], .start 0) := rfl
    have l7 : layout [] (.start 0) "impl Default for ".toList = some ([], .inside) := rfl
    have l8 : layout ['}'] (.start 4) "fn default() -> Self {\n".toList = some (['}', '}'], .start 0) := rfl
    have l9 : layout ['}', '}'] .inside "::".toList = some (['}', '}'], .inside) := rfl
    have l10 : layout ['}', '}'] .inside "\n".toList = some (['}', '}'], .start 0) := rfl
    have l11 : layout ['}', '}'] (.start 4) "}\n".toList = some (['}'], .start 0) := rfl
    have l12 : layout [] (.start 0) "impl std::convert::TryFrom<".toList = some ([], .inside) := rfl
    have l13 : layout [] .inside "> for ".toList = some ([], .inside) := rfl
    have l14 : layout ['}'] (.start 4) "type Error = packet::Error;\n".toList = some (['}'], .start 0) := rfl
    have l15 : layout ['}'] (.start 4) "fn try_from(value: ".toList = some ([')', '}'], .inside) := rfl
    have l16 : layout [')', '}'] .inside ") -> Result<Self, Self::Error> {\n".toList = some (['}', '}'], .start 0) := rfl
    have l17 : layout ['}', '}'] (.start 8) "match value {\n".toList = some (['}', '}', '}'], .start 0) := rfl
    have l18 : layout ['}', '}', '}'] (.start 12) "_ => Err(packet::Error::InvalidEnumValue(value as usize, \"".toList =
      some ([')', ')', '}', '}', '}'], .inside) := rfl
    have l19 : layout [')', ')', '}', '}', '}'] .inside "\"))\n".toList = some (['}', '}', '}'], .start 0) := rfl
    have l20 : layout ['}', '}', '}'] (.start 8) "}\n".toList = some (['}', '}'], .start 0) := rfl
    simp only [layout_append, Option.bind_some, h1 _, h1', h2 _, h3, h4 _, h5, d1 _, d2 _, d3 _, l1, l2, l3, l4, l5, l6, l7, l8, l9, l10,
      l11, l12, l13, l14, l15, l16, l17, l18, l19, l20]

theorem lines_items : (is : List Item) → (∀ i ∈ is, GoodItem i) → Lines [] (printItems is)
  | [], _ => rfl
  | i :: is, h => by
    have h1 := lines_item i (h i List.mem_cons_self)
    have h2 := lines_items is fun j hj => h j (List.mem_cons_of_mem _ hj)
    unfold Lines at *
    unfold printItems
    rw [layout_append, h1, Option.bind_some, h2]

theorem ind_one : Ind 1 (deeper []) := ind_zero.deeper

set_option maxRecDepth 4000 in
theorem lines_common : Lines [] genCommon := by unfold Lines; rfl

/-- The file is indented by its brackets. -/
theorem rust_laidOut {ast : AST} {r : Resolved} (hc : Checked ast r) {text : Str} (h : rustFile r = some text) : LaidOut text := by
  rw [rustFile_eq hc] at h
  obtain rfl := Option.some.inj h
  obtain ⟨hk, hg, hall⟩ := checked_entries hc
  have hn := (word_ident (entry_ident hc (hall _ _ _ hg).2.2).1).lin
  have h1 := lines_common
  have h2 := lines_items _ (good_items hc)
  have h3 : layout ['}'] (.start 0) _ = some (['}'], .start 0) := lay_rusts _ (good_bodies hc).1 ['}'] _ ind_one
  have h4 : layout ['}'] (.start 0) _ = some (['}'], .start 0) := lay_rusts _ (good_bodies hc).2 ['}'] _ ind_one
  unfold LaidOut printWrite printRead
  unfold Lines at h1 h2
  have l1 : layout [] (.start 0) "pub fn write(writer: &mut packet::writer::Writer, input: &".toList = some ([')'], .inside) := rfl
  have l2 : layout [')'] .inside ") {\n".toList = some (['}'], .start 0) := rfl
  have l3 : layout ['}'] (.start 0) "}\n".toList = some ([], .start 0) := rfl
  have l4 : layout [] (.start 0) "pub fn read(reader: &mut packet::reader::Reader, output: &mut ".toList = some ([')'], .inside) := rfl
  have l5 : layout [')'] .inside ") -> Result<(), packet::Error> {\n".toList = some (['}'], .start 0) := rfl
  have l6 : layout ['}'] (.start 0) (deeper []) = some (['}'], .start 4) := rfl
  have l7 : layout ['}'] (.start 4) "Ok(())\n".toList = some (['}'], .start 0) := rfl
  simp only [layout_append, Option.bind_some, hn _, h1, h2, h3, h4, l1, l2, l3, l4, l5, l6, l7]

end Packetc.Layout
