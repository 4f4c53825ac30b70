import Verif.Proof.Grammar
import Verif.Spec.Print
/-!
Canonically printed schemas are in the grammar; everything in the grammar has legal names.
-/

namespace Packetc.Parser
open Ast Grammar

theorem layout_nl : Layout "\n".toList := by intro c hc; simp at hc; simp [hc]
theorem newlines_nl : Newlines "\n".toList := by intro c hc; simp at hc; simp [hc]
theorem blank_sp : Blank " ".toList := by intro c hc; simp at hc; simp [hc]
theorem layout_nil : Layout [] := by intro c hc; cases hc
theorem blank_nil : Blank [] := by intro c hc; cases hc

theorem variants_print (vs : List Str) (h : ∀ v ∈ vs, Ident v) (rest : Str) :
    Variants vs (vs.flatMap Print.variant) rest := by
  induction vs with
  | nil => exact .nil _
  | cons v vs ih =>
    rw [List.flatMap_cons]
    refine .cons ?_ (ih fun w hw => h w (by simp [hw]))
    refine ⟨[], ",".toList, "\n".toList, by simp [Print.variant], h v (by simp), layout_nil, Or.inr rfl,
      layout_nl, ?_⟩
    rw [wordEnd_iff]; exact noHead_cons.mpr (by decide)

theorem blankEnd_word {n rest : Str} (hn : Word n) (hr : NoHead isBlank rest) : BlankEnd (n ++ rest) := by
  rw [blankEnd_iff]
  cases n with
  | nil => exact hr
  | cons c cs =>
    refine noHead_cons.mpr ?_
    have := word_not_layout ((word_iff _).mp hn c (by simp))
    cases hp : isBlank c with
    | false => rfl
    | true => rw [layout_of_blank hp] at this; exact this

theorem fields_print (fs : List (Str × Unresolved)) (h : ∀ f ∈ fs, Print.LegalField f) (rest : Str) :
    Fields fs (fs.flatMap Print.field) rest := by
  induction fs with
  | nil => exact .nil _
  | cons f fs ih =>
    rw [List.flatMap_cons]
    obtain ⟨n, u⟩ := f
    obtain ⟨h1, h2⟩ := h (n, u) (by simp)
    refine .field ?_ (ih fun w hw => h w (by simp [hw]))
    refine ⟨[], _, " ".toList, _, [], ",".toList, "\n".toList, ?_, h1, blank_nil, rfl, blank_sp, h2, rfl,
      layout_nil, Or.inr rfl, layout_nl, ?_, ?_⟩
    · simp [Print.field]
    · simp only [List.append_assoc]
      refine blankEnd_word h2 ?_
      split
      · exact noHead_cons.mpr (by decide)
      · exact noHead_cons.mpr (by decide)
    · rw [wordEnd_iff]
      simp only [List.append_assoc]
      split
      · exact noHead_cons.mpr (by decide)
      · exact noHead_cons.mpr (by decide)

theorem ty_enum (vs : List Str) :
    Print.ty (.enum vs) = "enum {\n".toList ++ vs.flatMap Print.variant ++ "}".toList := rfl
theorem ty_struct (fs : List (Str × Unresolved)) :
    Print.ty (.struct fs) = "struct {\n".toList ++ fs.flatMap Print.field ++ "}".toList := rfl
theorem node_decl (n : Str) (t : Ty) :
    Print.node (.decl n t) = n ++ ": ".toList ++ Print.ty t ++ "\n".toList := rfl
theorem node_export (n : Str) :
    Print.node (.export n) = "export ".toList ++ n ++ "\n".toList := rfl

theorem type_print (t : Ty) (h : Print.LegalTy t) : Type' t (Print.ty t) := by
  cases t with
  | enum vs =>
    have := Type'.enum (b₂ := " ".toList) (l₁ := "\n".toList) (l₂ := []) blank_sp layout_nl layout_nil
      (variants_print vs h ([] ++ "}".toList))
    have e : "enum".toList ++ " ".toList ++ "{".toList ++ "\n".toList ++ vs.flatMap Print.variant ++ [] ++
      "}".toList = Print.ty (.enum vs) := by
      have : "enum {\n".toList = "enum".toList ++ " ".toList ++ "{".toList ++ "\n".toList := by decide
      rw [ty_enum, this, List.append_nil]
    rwa [e] at this
  | struct fs =>
    have := Type'.struct (b₂ := " ".toList) (l₁ := "\n".toList) (l₂ := []) blank_sp layout_nl layout_nil
      (fields_print fs h ([] ++ "}".toList))
    have e : "struct".toList ++ " ".toList ++ "{".toList ++ "\n".toList ++ fs.flatMap Print.field ++ [] ++
      "}".toList = Print.ty (.struct fs) := by
      have : "struct {\n".toList = "struct".toList ++ " ".toList ++ "{".toList ++ "\n".toList := by decide
      rw [ty_struct, this, List.append_nil]
    rwa [e] at this

theorem lines_print (ast : AST) (h : Print.Legal ast) : Lines ast (Print.schema ast) := by
  unfold Print.schema
  induction ast with
  | nil => exact .nil
  | cons n ast ih =>
    have ih := ih fun m hm => h m (by simp [hm])
    have hn := h n (by simp)
    rw [List.flatMap_cons]
    cases n with
    | decl name t =>
      obtain ⟨h1, h2, h3⟩ := hn
      have := Lines.decl (b₁ := []) (b₂ := []) (b₃ := " ".toList) (l := "\n".toList) blank_nil h1 h2 blank_nil
        blank_sp (type_print t h3) layout_nl ih
      have e : ": ".toList = ":".toList ++ " ".toList := by decide
      have e2 : Print.node (.decl name t) ++ ast.flatMap Print.node =
          [] ++ name ++ [] ++ ":".toList ++ " ".toList ++ Print.ty t ++ "\n".toList ++ ast.flatMap Print.node := by
        rw [node_decl, e]; simp only [List.append_assoc, List.append_nil, List.nil_append]
      rw [e2]; exact this
    | «export» name =>
      have hn : Word name := hn
      have := Lines.export (b₁ := []) (b₂ := " ".toList) (name := name) (l := "\n".toList) blank_nil blank_sp
        hn newlines_nl
        (by rw [List.append_assoc]; exact blankEnd_word hn (noHead_cons.mpr (by decide)))
        (by rw [wordEnd_iff]; exact noHead_cons.mpr (by decide)) ih
      have e : "export ".toList = "export".toList ++ " ".toList := by decide
      have e2 : Print.node (.export name) ++ ast.flatMap Print.node =
          [] ++ "export".toList ++ " ".toList ++ name ++ "\n".toList ++ ast.flatMap Print.node := by
        rw [node_export, e]; simp only [List.append_assoc, List.nil_append]
      rw [e2]; exact this

theorem schema_print (ast : AST) (h : Print.Legal ast) : Schema ast (Print.schema ast) :=
  ⟨[], _, rfl, (by intro c hc; cases hc), lines_print ast h⟩

theorem variants_legal {vs : List Str} {t r : Str} (h : Variants vs t r) : ∀ v ∈ vs, Ident v := by
  induction h with
  | nil => simp
  | cons hv _ ih =>
    obtain ⟨_, _, _, _, hv, _⟩ := hv
    intro w hw
    rcases List.mem_cons.mp hw with rfl | hw
    · exact hv
    · exact ih w hw

theorem fields_legal {fs : List (Str × Unresolved)} {t r : Str} (h : Fields fs t r) :
    ∀ f ∈ fs, Print.LegalField f := by
  induction h with
  | nil => simp
  | field hd _ ih =>
    obtain ⟨_, _, _, _, _, _, _, _, hn, _, _, _, hw, _⟩ := hd
    intro w hw'
    rcases List.mem_cons.mp hw' with rfl | hw'
    · exact ⟨hn, hw⟩
    · exact ih w hw'
  | comment _ _ _ ih => exact ih

theorem lines_legal {ast : AST} {t : Str} (h : Lines ast t) : Print.Legal ast := by
  induction h with
  | nil => intro n hn; cases hn
  | comment _ _ _ _ ih => exact ih
  | «export» _ _ hw _ _ _ _ ih =>
    intro n hn
    rcases List.mem_cons.mp hn with rfl | hn
    · exact hw
    · exact ih n hn
  | decl _ hname hexp _ _ ht _ _ ih =>
    intro n hn
    rcases List.mem_cons.mp hn with rfl | hn
    · refine ⟨hname, hexp, ?_⟩
      cases ht with
      | enum _ _ _ hv => exact variants_legal hv
      | struct _ _ _ hf => exact fields_legal hf
    · exact ih n hn

theorem schema_legal {ast : AST} {t : Str} (h : Schema ast t) : Print.Legal ast := by
  obtain ⟨_, _, _, _, h⟩ := h
  exact lines_legal h

theorem lines_nil {ns : AST} (h : Lines ns []) : ns = [] := by
  generalize ht : ([] : Str) = t at h
  cases h with
  | nil => rfl
  | comment _ hc _ _ => obtain ⟨body, rfl, _⟩ := hc; simp at ht
  | «export» => simp at ht
  | decl => simp at ht

theorem newlines_layout {l : Str} (h : Newlines l) : Layout l :=
  (layout_iff _).mpr fun c hc => layout_of_nl ((newlines_iff _).mp h c hc)

theorem layout_append {a b : Str} (ha : Layout a) (hb : Layout b) : Layout (a ++ b) := by
  intro c hc
  rcases List.mem_append.mp hc with h | h
  · exact ha c h
  · exact hb c h

theorem lines_append {a b : AST} {t nl x : Str} (ha : Lines a t) (hb : Lines b x) (hne : t ≠ [])
    (hnl : Newlines ('\n' :: nl)) : Lines (a ++ b) (t ++ '\n' :: nl ++ x) := by
  induction ha with
  | nil => exact absurd rfl hne
  | @comment ns b₀ t l ts hb₀ hc hl hts ih =>
    obtain ⟨body, rfl, hbody, hend⟩ := hc
    by_cases hts0 : ts = []
    · subst hts0
      have := lines_nil hts; subst this
      have := Lines.comment (b := b₀) (t := '#' :: body) (l := l ++ '\n' :: nl) (ts := x) hb₀
        ⟨body, rfl, hbody, by
          rcases hend with h | ⟨cs, h⟩
          · rw [List.append_nil] at h; subst h; exact Or.inr ⟨nl ++ x, rfl⟩
          · rw [List.append_nil] at h; subst h; exact Or.inr ⟨cs ++ '\n' :: nl ++ x, rfl⟩⟩
        (newlines_append hl hnl) hb
      simpa using this
    · have := Lines.comment (b := b₀) (t := '#' :: body) (l := l) hb₀
        ⟨body, rfl, hbody, by
          rcases hend with h | ⟨cs, h⟩
          · exact absurd (List.append_eq_nil_iff.mp h).2 hts0
          · refine Or.inr ⟨cs ++ '\n' :: nl ++ x, ?_⟩
            rw [← List.append_assoc, ← List.append_assoc, h]; rfl⟩
        hl (ih hts0)
      simpa using this
  | @«export» ns b₁ b₂ name l ts hb₁ hb₂ hname hl hbe hwe hts ih =>
    by_cases hts0 : ts = []
    · subst hts0
      have := lines_nil hts; subst this
      have hh : ∀ p : Char → Bool, p '\n' = false → p '\r' = false → NoHead p (l ++ '\n' :: nl ++ x) := by
        intro p h1 h2
        cases l with
        | nil => exact noHead_cons.mpr h1
        | cons c l =>
          refine noHead_cons.mpr ?_
          rcases hl c (by simp) with rfl | rfl
          · exact h1
          · exact h2
      have := Lines.export (b₁ := b₁) (b₂ := b₂) (name := name) (l := l ++ '\n' :: nl) (ts := x) hb₁ hb₂
        hname (newlines_append hl hnl)
        (by rw [List.append_assoc]; exact blankEnd_word hname (hh _ (by decide) (by decide)))
        (by rw [wordEnd_iff]; exact hh _ (by decide) (by decide)) hb
      simpa using this
    · have hne' : l ++ ts ≠ [] := fun h => hts0 (List.append_eq_nil_iff.mp h).2
      have := Lines.export (b₁ := b₁) (b₂ := b₂) (name := name) (l := l) hb₁ hb₂ hname hl
        (by
          rw [blankEnd_iff] at hbe ⊢
          have e : name ++ l ++ (ts ++ '\n' :: nl ++ x) = (name ++ l ++ ts) ++ ('\n' :: nl ++ x) := by simp
          rw [e, noHead_append (by simp [hts0])]; exact hbe)
        (by
          rw [wordEnd_iff] at hwe ⊢
          have e : l ++ (ts ++ '\n' :: nl ++ x) = (l ++ ts) ++ ('\n' :: nl ++ x) := by simp
          rw [e, noHead_append hne']; exact hwe) (ih hts0)
      simpa using this
  | @decl ns b₁ name b₂ b₃ ty t l ts hb₁ hname hexp hb₂ hb₃ ht hl hts ih =>
    by_cases hts0 : ts = []
    · subst hts0
      have := lines_nil hts; subst this
      have := Lines.decl (b₁ := b₁) (b₂ := b₂) (b₃ := b₃) (l := l ++ '\n' :: nl) hb₁ hname hexp hb₂ hb₃ ht
        (layout_append hl (newlines_layout hnl)) hb
      simpa using this
    · have := Lines.decl (b₁ := b₁) (b₂ := b₂) (b₃ := b₃) (l := l) hb₁ hname hexp hb₂ hb₃ ht hl (ih hts0)
      simpa using this

/-- Schemas separated by a line end make up a schema. -/
theorem schema_append {a b : AST} {t u : Str} (ha : Schema a t) (hb : Schema b u) :
    Schema (a ++ b) (t ++ "\n".toList ++ u) := by
  obtain ⟨l, t, rfl, hl, ht⟩ := ha
  obtain ⟨l', u, rfl, hl', hu⟩ := hb
  by_cases ht0 : t = []
  · subst ht0
    have := lines_nil ht; subst this
    refine ⟨l ++ ("\n".toList ++ l'), u, by simp, newlines_append hl (newlines_append newlines_nl hl'), hu⟩
  · refine ⟨l, t ++ '\n' :: l' ++ u, by simp, hl, lines_append ht hu ht0 ?_⟩
    exact newlines_append newlines_nl hl'

theorem schema_comment {body : Str} (h : '\n' ∉ body) : Schema [] ('#' :: body) := by
  refine ⟨[], '#' :: body, rfl, (by intro c hc; cases hc), ?_⟩
  have := Lines.comment (b := []) (t := '#' :: body) (l := []) (ts := []) blank_nil
    ⟨body, rfl, h, Or.inl rfl⟩ (by intro c hc; cases hc) Lines.nil
  simpa using this

end Packetc.Parser
