import Verif.Spec.Layout
import Verif.Proof.Balanced
import Verif.Proof.RustGood
/-!
# Generated code is indented by its brackets (for C123)
-/

namespace Packetc.Layout
open Module (scan)

theorem layout_append (s t : Str) : ∀ st l, layout st l (s ++ t) = (layout st l s).bind fun p => layout p.1 p.2 t := by
  have key : ∀ k : List Char × Line → Option (List Char × Line), (∀ p, k p = layout p.1 p.2 t) →
      ∀ st l, layout st l (s ++ t) = (layout st l s).bind k := by
    intro k hk
    induction s with
    | nil => intro st l; rw [layout, Option.bind_some, hk]; rfl
    | cons c cs ih =>
      intro st l
      rw [List.cons_append]
      cases l with
      | start n =>
        unfold layout
        split_ifs
        · exact ih _ _
        · rfl
        · cases scan st [c] with
          | none => rfl
          | some st => exact ih _ _
        · rfl
      | inside =>
        unfold layout
        split_ifs
        · exact ih _ _
        · cases scan st [c] with
          | none => rfl
          | some st => exact ih _ _
  exact key _ fun _ => rfl

/-- Something that neither opens nor closes brackets for good, inside a line. -/
def Lin (s : Str) : Prop := ∀ st, layout st .inside s = some (st, .inside)

theorem Lin.append {s t : Str} (hs : Lin s) (ht : Lin t) : Lin (s ++ t) := fun st => by
  rw [layout_append, hs, Option.bind_some, ht]

theorem lin_nil : Lin [] := fun _ => rfl

/-- No brackets and no ends of lines. -/
def Flat (s : Str) : Prop := ∀ c ∈ s, c ∉ "()[]{}\n".toList
instance (s : Str) : Decidable (Flat s) := inferInstanceAs (Decidable (∀ c ∈ s, c ∉ "()[]{}\n".toList))

theorem scan_flat {c : Char} (hc : c ∉ "()[]{}\n".toList) (st : List Char) : c ≠ '\n' ∧ scan st [c] = some st := by
  have h1 : ∀ d ∈ "()[]{}".toList, d ∈ "()[]{}\n".toList := by decide
  refine ⟨fun h => hc (h ▸ by decide), Module.Flat.bal (fun d hd => ?_) st⟩
  obtain rfl := List.mem_singleton.1 hd
  exact fun h => hc (h1 _ h)

theorem Flat.lin {s : Str} (h : Flat s) : Lin s := by
  intro st
  induction s with
  | nil => rfl
  | cons c cs ih =>
    obtain ⟨h1, h2⟩ := scan_flat (h c List.mem_cons_self) st
    rw [layout, if_neg h1, h2]
    exact ih fun d hd => h d (List.mem_cons_of_mem _ hd)

/-- A line may begin like this: not by a blank, not by its end, not by closing a bracket. -/
def Head : Str → Bool
  | [] => false
  | c :: _ => !" )]}\n".toList.contains c

theorem Head.append {s : Str} (h : Head s = true) (t : Str) : Head (s ++ t) = true := by
  cases s with
  | nil => cases h
  | cons c cs => exact h

theorem layout_head {s : Str} (h : Head s = true) (st : List Char) :
    layout st (.start (4 * st.length)) s = layout st .inside s := by
  cases s with
  | nil => cases h
  | cons c cs =>
    have hc : c ∉ " )]}\n".toList := by
      simp only [Head, List.contains_eq_mem, Bool.not_eq_true', decide_eq_false_iff_not] at h
      exact h
    rw [show " )]}\n".toList = [' ', ')', ']', '}', '\n'] by decide] at hc
    simp only [List.mem_cons, List.not_mem_nil, or_false, not_or] at hc
    obtain ⟨h1, h2, h3, h4, h5⟩ := hc
    rw [layout, layout, if_neg h1, if_neg h5, if_neg h5, if_pos]
    unfold indentOf
    rw [if_neg (by tauto), Nat.sub_zero]

/-- Indentation. -/
def Ind (n : Nat) (ind : Str) : Prop := ∀ st k, layout st (.start k) ind = some (st, .start (k + 4 * n))

theorem Ind.deeper {n : Nat} {ind : Str} (h : Ind n ind) : Ind (n + 1) (Js.deeper ind) := fun st k => by
  unfold Js.deeper
  rw [layout_append, h, Option.bind_some]
  rfl

theorem ind_zero : Ind 0 [] := fun _ _ => rfl

/-- A line that closes a bracket. -/
theorem layout_close (st : List Char) (c : Char) (hc : c = ')' ∨ c = ']' ∨ c = '}') (cs : Str) :
    layout (c :: st) (.start (4 * st.length)) (c :: cs) = layout st .inside cs := by
  have h : indentOf (c :: st) c = 4 * st.length := by
    unfold indentOf
    rw [if_pos hc, List.length_cons, Nat.add_sub_cancel]
  have hs : scan (c :: st) [c] = some st := by rcases hc with rfl | rfl | rfl <;> rfl
  have hb : c ≠ ' ' ∧ c ≠ '\n' := by rcases hc with rfl | rfl | rfl <;> decide
  rw [layout, if_neg hb.1, if_neg hb.2, if_pos h.symm, hs]

/-- Names. -/
def Word (x : Str) : Prop := x ≠ [] ∧ ∀ c ∈ x, Js.isIdPart c = true

theorem part_flat {s : Str} (h : ∀ c ∈ s, Js.isIdPart c = true) : Flat s := by
  intro c hc hm
  have key : ∀ c ∈ "()[]{}\n".toList, Js.isIdPart c = false := by decide
  have := h c hc
  rw [key c hm] at this
  cases this

theorem Word.lin {x : Str} (h : Word x) : Lin x := (part_flat h.2).lin

theorem Word.head {x : Str} (h : Word x) : Head x = true := by
  obtain ⟨h1, h2⟩ := h
  cases x with
  | nil => exact absurd rfl h1
  | cons c cs =>
    have hc := h2 c List.mem_cons_self
    have key : ∀ c ∈ " )]}\n".toList, Js.isIdPart c = false := by decide
    simp only [Head, List.contains_eq_mem, Bool.not_eq_true', decide_eq_false_iff_not]
    intro hm
    rw [key c hm] at hc
    cases hc

theorem word_ident {x : Str} (h : Js.isIdent x = true) : Word x := by
  cases x with
  | nil => cases h
  | cons c cs =>
    refine ⟨by simp, fun d hd => ?_⟩
    simp only [Js.isIdent, Bool.and_eq_true, List.all_eq_true] at h
    rcases List.mem_cons.1 hd with rfl | hd
    · unfold Js.isIdPart Char.isAlphanum
      simp only [Bool.or_eq_true] at h ⊢
      tauto
    · exact h.2 d hd

theorem digits_flat (n : Nat) : Flat (toString n).toList ∧ Head (toString n).toList = true := by
  have hd : ∀ c ∈ (toString n).toList, c.isDigit = true := by
    intro c hc
    have : c ∈ (Nat.repr n).toList := hc
    rw [Nat.toList_repr] at this
    exact Nat.isDigit_of_mem_toDigits (by omega) (by omega) this
  refine ⟨fun c hc hm => ?_, ?_⟩
  · have key : ∀ d ∈ "()[]{}\n".toList, d.isDigit = false := by decide
    have := hd c hc
    rw [key c hm] at this
    cases this
  · have hne : (toString n).toList ≠ [] := by
      show (Nat.repr n).toList ≠ []
      rw [Nat.toList_repr]
      exact Nat.toDigits_ne_nil
    cases hs : (toString n).toList with
    | nil => exact absurd hs hne
    | cons c cs =>
      have hc := hd c (by rw [hs]; exact List.mem_cons_self)
      have key : ∀ c ∈ " )]}\n".toList, c.isDigit = false := by decide
      simp only [Head, List.contains_eq_mem, Bool.not_eq_true', decide_eq_false_iff_not]
      intro hm
      rw [key c hm] at hc
      cases hc

theorem int_flat (i : Int) : Flat (toString i).toList ∧ Head (toString i).toList = true := by
  cases i with
  | ofNat n => exact digits_flat n
  | negSucc n =>
    have : (toString (Int.negSucc n)).toList = '-' :: (toString (n + 1)).toList := by
      show ("-" ++ Nat.repr (n + 1)).toList = _
      rw [String.toList_append]
      rfl
    rw [this]
    refine ⟨fun c hc => ?_, by rfl⟩
    rcases List.mem_cons.1 hc with rfl | hc
    · decide
    · exact (digits_flat _).1 c hc

/-- Something at the beginning of a line or inside it. -/
structure Ex (s : Str) : Prop where
  lin : Lin s
  head : Head s = true

theorem Ex.append {s t : Str} (hs : Ex s) (ht : Lin t) : Ex (s ++ t) := ⟨hs.lin.append ht, Head.append hs.head t⟩
theorem Word.ex {x : Str} (h : Word x) : Ex x := ⟨h.lin, h.head⟩
theorem Ex.start {s : Str} (h : Ex s) (st : List Char) : layout st (.start (4 * st.length)) s = some (st, .inside) := by
  rw [layout_head h.head, h.lin]

theorem lin_wrap (o c : Str) (l : List Char) (ho : ∀ st, layout st .inside o = some (l ++ st, .inside))
    (hc : ∀ st, layout (l ++ st) .inside c = some (st, .inside)) {s : Str} (hs : Lin s) : Lin (o ++ s ++ c) := fun st => by
  rw [layout_append, layout_append, ho, Option.bind_some, hs, Option.bind_some, hc]

end Packetc.Layout
