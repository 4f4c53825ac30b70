import Verif.Proof.Module
import Verif.Proof.JsAll
import Verif.Spec.Chars
import Mathlib.Tactic.Tauto
/-!
# Generated modules are plain text
-/

namespace Packetc.Chars
open Ast Check Gen WellFormed Js Module

theorem code_append {s t : Str} : Code (s ++ t) ↔ Code s ∧ Code t :=
  ⟨fun h => ⟨fun c hc => h c (List.mem_append_left _ hc), fun c hc => h c (List.mem_append_right _ hc)⟩,
    fun ⟨h1, h2⟩ c hc => (List.mem_append.1 hc).elim (h1 c) (h2 c)⟩

theorem code_flatMap {α : Type} {l : List α} {f : α → Str} (h : ∀ a ∈ l, Code (f a)) : Code (l.flatMap f) := by
  intro c hc
  obtain ⟨a, ha, hc⟩ := List.mem_flatMap.1 hc
  exact h a ha c hc

/-- Splits appended texts; what is left are literals and facts at hand. -/
local macro "code" : tactic =>
  `(tactic| ((try simp only [code_append]); (repeat' apply And.intro) <;> first | assumption | decide))

theorem codeChar_of {c : Char} (h1 : 32 ≤ c.toNat) (h2 : c.toNat ≤ 126) (h : 48 ≤ c.toNat ∧ c.toNat ≠ 92 ∧ c.toNat ≠ 96) :
    CodeChar c := by
  refine ⟨Or.inr ⟨h1, h2⟩, fun hm => ?_⟩
  rw [show "\"'`/\\".toList = ['"', '\'', '`', '/', '\\'] by decide] at hm
  simp only [List.mem_cons, List.not_mem_nil, or_false] at hm
  rcases hm with rfl | rfl | rfl | rfl | rfl
  · exact absurd h.1 (by decide)
  · exact absurd h.1 (by decide)
  · exact h.2.2 (by decide)
  · exact absurd h.1 (by decide)
  · exact h.2.1 (by decide)

theorem code_digits (n : Nat) : Code (toString n).toList := by
  intro c hc
  have h : c.isDigit = true := by
    have : c ∈ (Nat.repr n).toList := hc
    rw [Nat.toList_repr] at this
    exact Nat.isDigit_of_mem_toDigits (by omega) (by omega) this
  rw [Char.isDigit, Bool.and_eq_true, decide_eq_true_eq, decide_eq_true_eq] at h
  have h1 := UInt32.le_iff_toNat_le.1 h.1
  have h2 := UInt32.le_iff_toNat_le.1 h.2
  change 48 ≤ c.toNat at h1
  change c.toNat ≤ 57 at h2
  exact codeChar_of (by omega) (by omega) (by omega)

theorem code_int (i : Int) : Code (toString i).toList := by
  cases i with
  | ofNat n => exact code_digits n
  | negSucc n =>
    have : (toString (Int.negSucc n)).toList = '-' :: (toString (n + 1)).toList := by
      show ("-" ++ Nat.repr (n + 1)).toList = _
      rw [String.toList_append]
      rfl
    rw [this]
    intro c hc
    rcases List.mem_cons.1 hc with rfl | hc
    · decide
    · exact code_digits _ c hc

/-! ### programs -/

theorem code_expr {e : Expr} (h : e.All Code) : Code e.print := by
  induction e with
  | var x => exact h
  | prop e p ih => have := ih h.1; have := h.2; rw [pr_prop]; code
  | index e i ih1 ih2 => have := ih1 h.1; have := ih2 h.2; rw [pr_index]; code
  | num i => exact code_int i
  | undef => decide
  | null => decide
  | tru => decide
  | obj => decide
  | new0 c => have : Code c := h; rw [pr_new0]; code
  | new1 c a ih => have := h.1; have := ih h.2; rw [pr_new1]; code
  | call0 o m ih => have := ih h.1; have := h.2; rw [pr_call0]; code
  | call1 o m a ih1 ih2 => have := ih1 h.1; have := h.2.1; have := ih2 h.2.2; rw [pr_call1]; code
  | asNumber e ih => have := ih h; rw [pr_as]; code
  | lt a b iha ihb => have := iha h.1; have := ihb h.2; rw [pr_lt]; code
  | le a b iha ihb => have := iha h.1; have := ihb h.2; rw [pr_le]; code
  | gt a b iha ihb => have := iha h.1; have := ihb h.2; rw [pr_gt]; code
  | and a b iha ihb => have := iha h.1; have := ihb h.2; rw [pr_and]; code
  | cond c t e ic it ie => have := ic h.1; have := it h.2.1; have := ie h.2.2; rw [pr_cond]; code

theorem code_deeper {ind : Str} (h : Code ind) : Code (deeper ind) := code_append.2 ⟨h, by decide⟩

mutual
theorem code_stmt : (s : Stmt) → s.All Code → ∀ ind, Code ind → Code (s.print ind)
  | .letS x any e, h, ind, hi => by
    have := h.1
    have := code_expr h.2
    cases any with
    | false => rw [ps_let]; code
    | true => rw [ps_letAny]; code
  | .assign l r, h, ind, hi => by
    have := code_expr h.1
    have := code_expr h.2
    rw [ps_assign]; code
  | .expr e, h, ind, hi => by
    have := code_expr (e := e) h
    rw [ps_expr]; code
  | .ifElse c t d, h, ind, hi => by
    have h1 := code_expr h.1
    have h2 := code_stmts t h.2.1 _ (code_deeper hi)
    have h3 := code_stmts d h.2.2 _ (code_deeper hi)
    rw [ps_ifElse]; code
  | .ifAssign c l r l' r', h, ind, hi => by
    have h1 := code_expr h.1
    have h2 := code_expr h.2.1
    have h3 := code_expr h.2.2.1
    have h4 := code_expr h.2.2.2.1
    have h5 := code_expr h.2.2.2.2
    rw [ps_ifAssign]; code
  | .ifRet c e, h, ind, hi => by
    have h1 := code_expr h.1
    have h2 := code_expr h.2
    rw [ps_ifRet]; code
  | .forS i b body, h, ind, hi => by
    have h1 := h.1
    have h2 := code_expr h.2.1
    have h3 := code_stmts body h.2.2 _ (code_deeper hi)
    rw [ps_for]; code
  | .switchNullish e n d, h, ind, hi => by
    have h1 := code_expr h.1
    have h2 := code_expr h.2.1
    have h3 := code_stmts d h.2.2 _ (code_deeper (code_deeper hi))
    have hd := code_deeper hi
    rw [ps_switch]; code
  | .ret e, h, ind, hi => by
    have := code_expr (e := e) h
    rw [ps_ret]; code
theorem code_stmts : (ss : List Stmt) → AllS Code ss → ∀ ind, Code ind → Code (printStmts ind ss)
  | [], _, _, _ => by
    rw [show printStmts _ [] = [] from rfl]; decide
  | s :: ss, h, ind, hi => by
    have := code_stmt s h.1 ind hi
    have := code_stmts ss h.2 ind hi
    rw [ps_cons]; code
end

/-! ### modules -/

theorem code_law : NameLaw Code := ⟨by decide, fun a b ha hb => by code⟩

theorem code_tsType {n : Str} (h : Code n) : Code (tsType n) := by
  unfold tsType
  split_ifs
  · decide
  · decide
  · exact h

theorem code_qualified {exp n : Str} (he : Code exp) (h : Code n) : Code (qualified exp n) := by
  unfold qualified
  split_ifs
  · exact code_tsType h
  · code

theorem code_if (b : Bool) {s t : Str} (hs : Code s) (ht : Code t) : Code (if b then s else t) := by
  cases b
  · exact ht
  · exact hs

theorem code_member {f : Str × Unresolved} (h1 : Code f.1) (h2 : Code f.2.name) : Code (memberLine f) := by
  have h3 := code_tsType h2
  unfold memberLine
  simp only [code_append]
  (repeat' apply And.intro) <;> first | assumption | exact code_if _ (by decide) (by decide) | decide

theorem code_param {exp : Str} {f : Str × Unresolved} (he : Code exp) (h1 : Code f.1) (h2 : Code f.2.name) :
    Code (paramLine exp f) := by
  have h3 := code_qualified he h2
  unfold paramLine
  simp only [code_append]
  (repeat' apply And.intro) <;> first | assumption | exact code_if _ (by decide) (by decide) | decide

theorem code_interface {n : Str} {fs : List (Str × Unresolved)} (hn : Code n)
    (h : ∀ f ∈ fs, Code f.1 ∧ Code f.2.name) : Code (interfaceText n fs) := by
  have h2 : Code (fs.flatMap memberLine) := code_flatMap fun f hf => code_member (h f hf).1 (h f hf).2
  unfold interfaceText
  code

theorem code_enum {n : Str} {vs : List Str} (hn : Code n) (h : ∀ v ∈ vs, Code v) : Code (enumText n vs) := by
  have h2 : Code (vs.zipIdx.flatMap variantLine) := by
    refine code_flatMap fun v hv => ?_
    have hm : v.1 ∈ vs := by
      obtain ⟨x, i⟩ := v
      exact (List.mem_zipIdx hv).2.2 ▸ List.getElem_mem _
    have h1 := h _ hm
    have h3 := code_digits v.2
    have h4 := code_digits (2 ^ v.2)
    unfold variantLine
    code
  unfold enumText
  code

theorem code_namespace {exp : Str} {ds : List (Str × Str)} (he : Code exp) (h : ∀ d ∈ ds, Code d.2) :
    Code (namespaceText exp ds) := by
  have h2 : Code (ds.flatMap Prod.snd) := code_flatMap h
  unfold namespaceText
  code

set_option maxRecDepth 4000 in
theorem code_class {exp rb wb : Str} {fs : List (Str × Unresolved)} (he : Code exp)
    (h : ∀ f ∈ fs, Code f.1 ∧ Code f.2.name) (hr : Code rb) (hw : Code wb) : Code (classText exp fs rb wb) := by
  have h2 : Code (fs.flatMap (paramLine exp)) := code_flatMap fun f hf => code_param he (h f hf).1 (h f hf).2
  unfold classText classHead
  code

theorem code_word {n : Str} (h : ∀ c ∈ n, Props.NameChar c) : Code n := by
  intro c hc
  have h := h c hc
  unfold Props.NameChar at h
  have key : ∀ a b : Char, a ≤ b → a.toNat ≤ b.toNat := fun a b h => UInt32.le_iff_toNat_le.1 h
  rcases h with ⟨h1, h2⟩ | ⟨h1, h2⟩ | ⟨h1, h2⟩ | rfl
  · have h1 := key _ _ h1
    have h2 := key _ _ h2
    change 97 ≤ _ at h1
    change _ ≤ 122 at h2
    exact codeChar_of (by omega) (by omega) (by omega)
  · have h1 := key _ _ h1
    have h2 := key _ _ h2
    change 65 ≤ _ at h1
    change _ ≤ 90 at h2
    exact codeChar_of (by omega) (by omega) (by omega)
  · have h1 := key _ _ h1
    have h2 := key _ _ h2
    change 48 ≤ _ at h1
    change _ ≤ 57 at h2
    exact codeChar_of (by omega) (by omega) (by omega)
  · decide

theorem code_legal {n : Str} (h : Props.LegalName n) : Code n := by
  obtain ⟨⟨c, cs, rfl, hc, hcs⟩, _⟩ := h
  refine code_word fun d hd => ?_
  rcases List.mem_cons.1 hd with rfl | hd
  · unfold Props.NameChar
    tauto
  · exact hcs d hd

set_option maxRecDepth 4000 in
/-- Everything after the header is code. -/
theorem module_code {text : Str} {ast : AST} (hp : Parser.schema text = .ok ast) {ord} (hord : FairOrd ord) {r}
    (h : typeCheck ord ast = .ok r) {types : TypeMap} (ht : types.Perm r.types) :
    Code (namespaceText r.export.name (types.filterMap (entry r.export.name)) ++ printClass r.export) := by
  have hnb := Props.parsed_noBuiltinDecl hp
  obtain ⟨n1, n2, n3, n4⟩ := Props.C04_names_legal hp
  obtain ⟨hx, fs0, hd0⟩ := Props.C21_export_is_struct hord h
  have hexp : Code r.export.name := code_legal (n1 _ _ hd0).1
  have hfields : ∀ n fs, .decl n (.struct fs) ∈ ast → ∀ f ∈ fs, Code f.1 ∧ Code f.2.name := fun n fs hd f hf =>
    ⟨code_legal (n3 n fs hd f hf).1, code_word (n3 n fs hd f hf).2⟩
  refine code_append.2 ⟨code_namespace hexp ?_, ?_⟩
  · intro d hd
    rcases (entries_complete hord hnb h ht).right d hd with ⟨vs, h1, h2⟩ | ⟨fs, fs', h1, h2, h3⟩
    · rw [h2]
      exact code_enum (code_legal (n1 _ _ h1).1) fun v hv => code_legal (n2 _ _ h1 v hv)
    · rw [h3]
      exact code_interface (code_legal (n1 _ _ h1).1) fun f hf => hfields _ _ h1 f (h2.mem_iff.1 hf)
  · obtain ⟨fs, fs', h1, h2, h3, h4⟩ := class_eq hord hnb h
    have hs := (accepted_sound hord hnb h).1
    obtain ⟨q1, q2⟩ := accepted_deep hord hnb h (Q := fun ns => ∀ n ∈ ns, Code n) (P := fun _ => True)
      (fun l m hp hl n hn => hl n (hp.mem_iff.2 hn))
      (fun n fs hd m hm => by
        obtain ⟨f, hf, rfl⟩ := List.mem_map.1 hm
        exact (hfields n fs hd f hf).1)
      (fun _ _ _ _ _ => trivial)
    rw [h4]
    refine code_class hexp (fun f hf => hfields _ _ h1 f (h2.mem_iff.1 hf)) (code_stmts _ ?_ _ (by decide)) (code_stmts _ ?_ _ (by decide))
    · exact readBody_all code_law _ q1 q2 hs hexp
    · exact writeBody_all code_law _ q1 q2 hs

end Packetc.Chars
