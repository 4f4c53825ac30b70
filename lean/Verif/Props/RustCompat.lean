import Verif.Proof.RustCompat
import Verif.Props.RustEvolution
import Verif.Props.Compat
/-!
# C106: exactly which Rust programs understand each other
-/

namespace Packetc.Props
open Ast Check WellFormed RustGen Rs Evolution
open Js (SmallEnums mem_decls)
open Compat (samePackets_iff)

section
variable (lib : Lib) {old new : AST} {r₁ r₂ : Resolved} {s₁ s₂ : Source} {P₁ P₂ : Prog} {lim : Nat}

/-- C106 for the resolved types: whatever the order in which fields were resolved, one Rust program understands another one if and only
if the exported type of the other can take the place of its own. -/
theorem C106_programs (k₁ : Checked old r₁) (k₂ : Checked new r₂) (n₁ : NamesFit old) (n₂ : NamesFit new) (b₁ : Built r₁ s₁ P₁)
    (b₂ : Built r₂ s₂ P₂) (z₂ : ∀ n vs, Used new n → .decl n (.enum vs) ∈ new → vs.length ≤ 31)
    (h1 : 1 < lim) (h2 : lim ≤ 2 ^ 32) (h3 : lim ≤ lib.maxItems + 1) :
    Follows lib lim r₁ s₁ s₂ P₁ P₂ ↔ TakesFs Begins r₁.export.fields r₂.export.fields := by
  have d₁ := (fits_export k₁ n₁ (b₁.has k₁)).2.2
  have d₂ := (fits_export k₂ n₂ (b₂.has k₂)).2.2
  have e₁ := checked_sound k₁
  have e₂ := checked_sound k₂
  constructor
  · intro h
    have hb : ∀ vs, ValFs lim r₁.export.fields vs → HasFs lib r₂.export.fields (encFs lib r₁.export.fields vs) vs := fun vs hvs => by
      have := h vs _ hvs (C91_write lib k₁ n₁ b₁ (valFs_mono h2 _ _ hvs))
      obtain ⟨bs, qs, h4, h5, h6⟩ := (C93_reads_partial lib k₂ n₂ b₂ z₂ _ _ _).1 this
      rw [List.append_nil] at h4
      cases h5
      rw [h4]
      exact h6
    have hl := lastFs_val h1 _ e₁ d₁
    have hlen : (encFs lib r₁.export.fields (lastFs r₁.export.fields)).length ≤ fullSizeFs r₁.export.fields :=
      last_le_fields _ _ (encFs_has lib h2 h3 _ e₁ d₁ _ hl)
    exact begins_fields h1 h2 _ e₁ d₁ _ e₂ ((sub_fields h1 _ e₁ d₁ _ e₂ d₂ fun vs hvs => ⟨_, hb vs hvs⟩).2 _ (hb _ hl) hlen) hb
  · intro h vs bytes hvs hw
    rw [C91_write lib k₁ n₁ b₁ (valFs_mono h2 _ _ hvs)] at hw
    cases hw
    exact (C93_reads_partial lib k₂ n₂ b₂ z₂ _ _ _).2 ⟨_, vs, (List.append_nil _).symm, rfl,
      takesFs_has _ _ h _ _ (encFs_has lib h2 h3 _ e₁ d₁ _ hvs)⟩

/-- C106: if no field can be overtaken by a later one, a Rust program of the new schema understands all that a Rust program of the old
schema writes if and only if the exported type of the old schema can be replaced by that of the new one. -/
theorem C106_schemas (o₁ : AllInOrder old) (o₂ : AllInOrder new) (k₁ : Checked old r₁) (k₂ : Checked new r₂) (n₁ : NamesFit old)
    (n₂ : NamesFit new) (b₁ : Built r₁ s₁ P₁) (b₂ : Built r₂ s₂ P₂)
    (z₂ : ∀ n vs, Used new n → .decl n (.enum vs) ∈ new → vs.length ≤ 31)
    (h1 : 1 < lim) (h2 : lim ≤ 2 ^ 32) (h3 : lim ≤ lib.maxItems + 1) :
    Follows lib lim r₁ s₁ s₂ P₁ P₂ ↔ StandsFor old new := by
  obtain ⟨c₁, hc₁⟩ := k₁.compiled
  obtain ⟨c₂, hc₂⟩ := k₂.compiled
  rw [C106_programs lib k₁ k₂ n₁ n₂ b₁ b₂ z₂ h1 h2 h3, standsFor_iff o₁ o₂ hc₁ hc₂]

/-- C106, both ways: two Rust programs understand each other if and only if the exported types are the same up to names of structs. -/
theorem C106_mutual (o₁ : AllInOrder old) (o₂ : AllInOrder new) (k₁ : Checked old r₁) (k₂ : Checked new r₂) (n₁ : NamesFit old)
    (n₂ : NamesFit new) (b₁ : Built r₁ s₁ P₁) (b₂ : Built r₂ s₂ P₂)
    (z₁ : ∀ n vs, Used old n → .decl n (.enum vs) ∈ old → vs.length ≤ 31)
    (z₂ : ∀ n vs, Used new n → .decl n (.enum vs) ∈ new → vs.length ≤ 31)
    (h1 : 1 < lim) (h2 : lim ≤ 2 ^ 32) (h3 : lim ≤ lib.maxItems + 1) :
    (Follows lib lim r₁ s₁ s₂ P₁ P₂ ∧ Follows lib lim r₂ s₂ s₁ P₂ P₁) ↔ EqualExports old new := by
  obtain ⟨c₁, hc₁⟩ := k₁.compiled
  obtain ⟨c₂, hc₂⟩ := k₂.compiled
  rw [C106_schemas lib o₁ o₂ k₁ k₂ n₁ n₂ b₁ b₂ z₂ h1 h2 h3, C106_schemas lib o₂ o₁ k₂ k₁ n₂ n₁ b₂ b₁ z₁ h1 h2 h3, equalExports_iff hc₁ hc₂]

/-- C106: schemas whose Rust programs understand each other are compatible in TypeScript too (C89). -/
theorem C106_ts (o₁ : AllInOrder old) (o₂ : AllInOrder new) (k₁ : Checked old r₁) (k₂ : Checked new r₂) (n₁ : NamesFit old)
    (n₂ : NamesFit new) (b₁ : Built r₁ s₁ P₁) (b₂ : Built r₂ s₂ P₂)
    (z₂ : ∀ n vs, Used new n → .decl n (.enum vs) ∈ new → vs.length ≤ 31)
    (h1 : 1 < lim) (h2 : lim ≤ 2 ^ 32) (h3 : lim ≤ lib.maxItems + 1) (h : Follows lib lim r₁ s₁ s₂ P₁ P₂) : Compat.Compatible old new := by
  obtain ⟨x, y, hx, hy, hs⟩ := (C106_schemas lib o₁ o₂ k₁ k₂ n₁ n₂ b₁ b₂ z₂ h1 h2 h3).1 h
  exact ⟨x, y, hx, hy, replaces_of_stands hs⟩
end

/-! ### a variant more, other variants, another name of the struct -/

def roseText : Str := "E: enum { A, B, C }\nQ: struct { e: E }\nexport Q".toList
def roseAst : AST :=
  [.decl "E".toList (.enum ["A".toList, "B".toList, "C".toList]),
   .decl "Q".toList (.struct [("e".toList, ⟨"E".toList, false, false⟩)]), .export "Q".toList]

theorem rose_checked : Checked roseAst (resultFor roseAst) := checked_of (text := roseText) (by decide +kernel) (by rfl)
theorem twin_checked : Checked twinAst (resultFor twinAst) := checked_of (text := twinText) (by decide +kernel) (by rfl)

theorem one_inOrder {e : Str × Ast.Ty} {n x : Str} {f : Str × Unresolved} (he : ∀ fs, e.2 ≠ .struct fs) :
    AllInOrder [.decl e.1 e.2, .decl n (.struct [f]), .export x] := by
  intro m fs _ hd
  simp only [decls, List.filterMap_cons, List.filterMap_nil, List.mem_cons, Prod.mk.injEq, List.not_mem_nil, or_false, Ty.struct.injEq] at hd
  rcases hd with ⟨-, h⟩ | ⟨-, rfl⟩
  · exact absurd h.symm (he _)
  · exact List.pairwise_singleton _ _

theorem enum4_inOrder : AllInOrder enum4Ast := one_inOrder (e := ("E".toList, .enum _)) fun _ h => by cases h
theorem rose_inOrder : AllInOrder roseAst := one_inOrder (e := ("E".toList, .enum _)) fun _ h => by cases h

theorem rose_small : SmallEnums roseAst := by
  intro n vs h
  unfold roseAst at h
  simp only [List.mem_cons, Node.decl.injEq, Ty.enum.injEq, reduceCtorEq, and_false, or_false, List.not_mem_nil] at h
  rw [h.2]
  decide

theorem enum_enum4 : StandsFor enumAst enum4Ast :=
  ⟨_, _, rfl, rfl, .struct (fs := [("e".toList, ⟨"E".toList, false, false⟩)]) (gs := [("e".toList, ⟨"E".toList, false, false⟩)])
    (.tail _ (.head _)) (.tail _ (.head _)) (.cons ⟨rfl, rfl, rfl⟩ .nil) fun p hp => by
      rw [List.mem_singleton.1 hp]
      exact .enum (.head _) (.head _) ⟨["D".toList], rfl⟩ rfl⟩

theorem enum_rose : EqualExports enumAst roseAst :=
  ⟨_, _, rfl, rfl, .struct (fs := [("e".toList, ⟨"E".toList, false, false⟩)]) (gs := [("e".toList, ⟨"E".toList, false, false⟩)])
    (.tail _ (.head _)) (.tail _ (.head _)) (.cons ⟨rfl, rfl, rfl⟩ .nil) fun p hp => by
      rw [List.mem_singleton.1 hp]
      exact .enum (.head _) (.head _)⟩

/-- A program that knows one variant more understands one that does not, but not the other way round; programs of schemas that differ in
the name of the struct understand each other; those of schemas that differ in names of variants do not, although TypeScript programs do. -/
example : NamesFit enumAst ∧ NamesFit enum4Ast ∧ AllInOrder enumAst ∧ AllInOrder enum4Ast ∧ SmallEnums enumAst ∧ SmallEnums enum4Ast ∧
    ∃ s P s₄ P₄ s' P' s'' P'', Built (resultFor enumAst) s P ∧ Built (resultFor enum4Ast) s₄ P₄ ∧ Built (resultFor roseAst) s' P' ∧
      Built (resultFor twinAst) s'' P'' ∧
      Follows (leLib 100) 2 (resultFor enumAst) s s₄ P P₄ ∧ ¬ Follows (leLib 100) 2 (resultFor enum4Ast) s₄ s P₄ P ∧
      (Follows (leLib 100) 2 (resultFor enumAst) s s' P P' ∧ Follows (leLib 100) 2 (resultFor roseAst) s' s P' P) ∧
      ¬ Follows (leLib 100) 2 (resultFor enumAst) s s'' P P'' ∧ Compat.Compatible enumAst twinAst := by
  have n₁ : NamesFit enumAst := namesFit_of (by decide)
  have n₂ : NamesFit enum4Ast := namesFit_of (by decide)
  have n₃ : NamesFit roseAst := namesFit_of (by decide)
  have n₄ : NamesFit twinAst := namesFit_of (by decide)
  have b₁ := built_of enum3_checked n₁
  have b₂ := built_of enum4_checked n₂
  have b₃ := built_of rose_checked n₃
  have b₄ := built_of twin_checked n₄
  have z₁ : ∀ n vs, Used enumAst n → .decl n (.enum vs) ∈ enumAst → vs.length ≤ 31 := fun n vs _ h => enum_small n vs h
  have z₂ : ∀ n vs, Used enum4Ast n → .decl n (.enum vs) ∈ enum4Ast → vs.length ≤ 31 := fun n vs _ h => enum4_small n vs h
  have z₃ : ∀ n vs, Used roseAst n → .decl n (.enum vs) ∈ roseAst → vs.length ≤ 31 := fun n vs _ h => rose_small n vs h
  have z₄ : ∀ n vs, Used twinAst n → .decl n (.enum vs) ∈ twinAst → vs.length ≤ 31 := fun n vs _ h => twin_small n vs h
  refine ⟨n₁, n₂, enum_inOrder, enum4_inOrder, enum_small, enum4_small, _, _, _, _, _, _, _, _, b₁, b₂, b₃, b₄, ?_, fun h => ?_, ?_, fun h => ?_, ?_⟩
  · exact (C106_schemas _ enum_inOrder enum4_inOrder enum3_checked enum4_checked n₁ n₂ b₁ b₂ z₂ (by decide) (by decide) (by decide)).2 enum_enum4
  · obtain ⟨g, gs, hg, ⟨-, -, -, e', h1, -, -, h2⟩, -⟩ :=
      (C106_programs _ enum4_checked enum3_checked n₂ n₁ b₂ b₁ z₁ (by decide) (by decide) (by decide)).1 h
    have hg : [(⟨"e".toList, "E".toList, .enum enumABC, false, false⟩ : FieldOf RType)] = g :: gs := hg
    cases hg
    cases h1
    exact absurd h2.length_le (by decide)
  · exact (C106_mutual _ enum_inOrder rose_inOrder enum3_checked rose_checked n₁ n₃ b₁ b₃ z₁ z₃ (by decide) (by decide) (by decide)).2 enum_rose
  · obtain ⟨g, gs, hg, ⟨-, -, -, e', h1, h2, -⟩, -⟩ :=
      (C106_programs _ enum3_checked twin_checked n₁ n₄ b₁ b₄ z₄ (by decide) (by decide) (by decide)).1 h
    have hg : [(⟨"e".toList, "F".toList, .enum ⟨.u8, [⟨"X".toList, 0⟩, ⟨"Y".toList, 1⟩, ⟨"Z".toList, 2⟩]⟩, false, false⟩ : FieldOf RType)] = g :: gs := hg
    cases hg
    exact absurd h2 (by decide)
  · exact ((samePackets_iff enum_compiled twin_compiled).1 enum_twin).1

end Packetc.Props
