import Verif.Proof.CheckPossible
import Verif.Spec.Messages
/-!
# Which errors the checker can report: the first pass, and the whole checker (for C84)
-/

namespace Packetc.Check
open Ast WellFormed

/-! ### the first pass -/

theorem firstPassFields_exact (name : Str) (seen : List Str) (fs : List (Str × Unresolved)) (e : CheckErr) :
    firstPassFields name getBuiltins seen fs = .error (.err e) ↔
    ∃ pre f u post, fs = pre ++ (f, u) :: post ∧ (∀ g ∈ pre, g.2.name ∈ builtinNames ∧ ¬ OptArray g.2) ∧
      (pre.map Prod.fst).Nodup ∧ (∀ g ∈ pre, g.1 ∉ seen) ∧
      (((f ∈ seen ∨ f ∈ pre.map Prod.fst) ∧ e = .duplicateField f name) ∨
        (f ∉ seen ∧ f ∉ pre.map Prod.fst ∧ u.name ∈ builtinNames ∧ OptArray u ∧ e = .optionalArray f name)) := by
  induction fs generalizing seen with
  | nil => simp [firstPassFields]
  | cons x fs ih =>
    obtain ⟨n, u⟩ := x
    unfold firstPassFields
    by_cases hn : n ∈ seen
    · rw [if_pos hn]
      constructor
      · intro h
        simp only [Except.error.injEq, Fault.err.injEq] at h
        exact ⟨[], n, u, fs, rfl, by simp, by simp, by simp, Or.inl ⟨Or.inl hn, h.symm⟩⟩
      · rintro ⟨pre, f, v, post, heq, h1, h2, h3, h4⟩
        cases pre with
        | nil =>
          simp only [List.nil_append, List.cons.injEq, Prod.mk.injEq] at heq
          obtain ⟨⟨rfl, rfl⟩, rfl⟩ := heq
          rcases h4 with ⟨_, rfl⟩ | ⟨h4, _⟩
          · rfl
          · exact absurd hn h4
        | cons g pre =>
          simp only [List.cons_append, List.cons.injEq] at heq
          obtain ⟨rfl, -⟩ := heq
          exact absurd hn (h3 _ List.mem_cons_self)
    · rw [if_neg hn]
      have hr := resolveStructField_spec n u getBuiltins name
      generalize resolveStructField n u getBuiltins name = r at hr
      cases hr with
      | none h =>
        have hu : u.name ∉ builtinNames := by
          rw [← builtins_has]; simp [Map.has, h]
        constructor
        · intro h; cases h
        · rintro ⟨pre, f, v, post, heq, h1, h2, h3, h4⟩
          cases pre with
          | nil =>
            simp only [List.nil_append, List.cons.injEq, Prod.mk.injEq] at heq
            obtain ⟨⟨rfl, rfl⟩, rfl⟩ := heq
            rcases h4 with ⟨h4 | h4, _⟩ | ⟨_, _, h4, _⟩
            · exact absurd h4 hn
            · simp at h4
            · exact absurd h4 hu
          | cons g pre =>
            simp only [List.cons_append, List.cons.injEq] at heq
            obtain ⟨rfl, -⟩ := heq
            exact absurd (h1 _ List.mem_cons_self).1 hu
      | err hu ho =>
        rw [builtins_has] at hu
        simp only
        constructor
        · intro h
          simp only [Except.error.injEq, Fault.err.injEq] at h
          exact ⟨[], n, u, fs, rfl, by simp, by simp, by simp, Or.inr ⟨hn, by simp, hu, ho, h.symm⟩⟩
        · rintro ⟨pre, f, v, post, heq, h1, h2, h3, h4⟩
          cases pre with
          | nil =>
            simp only [List.nil_append, List.cons.injEq, Prod.mk.injEq] at heq
            obtain ⟨⟨rfl, rfl⟩, rfl⟩ := heq
            rcases h4 with ⟨h4 | h4, _⟩ | ⟨_, _, _, _, rfl⟩
            · exact absurd h4 hn
            · simp at h4
            · rfl
          | cons g pre =>
            simp only [List.cons_append, List.cons.injEq] at heq
            obtain ⟨rfl, -⟩ := heq
            exact absurd ho (h1 _ List.mem_cons_self).2
      | some rf h hu ho =>
        rw [builtins_has] at hu
        simp only
        have key : (match firstPassFields name getBuiltins (n :: seen) fs with
            | .error e => .error e
            | .ok rest => .ok (rf :: rest) : Except Fault (List RField)) = .error (.err e) ↔
            firstPassFields name getBuiltins (n :: seen) fs = .error (.err e) := by
          cases firstPassFields name getBuiltins (n :: seen) fs <;> simp
        refine Iff.trans key ?_
        rw [ih]
        constructor
        · rintro ⟨pre, f, v, post, rfl, h1, h2, h3, h4⟩
          refine ⟨(n, u) :: pre, f, v, post, rfl, ?_, ?_, ?_, ?_⟩
          · intro g hg
            rcases List.mem_cons.1 hg with rfl | hg
            · exact ⟨hu, ho⟩
            · exact h1 g hg
          · simp only [List.map_cons, List.nodup_cons]
            refine ⟨fun hm => ?_, h2⟩
            obtain ⟨g, hg, rfl⟩ := List.mem_map.1 hm
            exact h3 g hg List.mem_cons_self
          · intro g hg
            rcases List.mem_cons.1 hg with rfl | hg
            · exact hn
            · exact fun hh => h3 g hg (List.mem_cons_of_mem _ hh)
          · simp only [List.map_cons, List.mem_cons, not_or] at h4 ⊢
            rcases h4 with ⟨h4, rfl⟩ | ⟨⟨h4, h5⟩, h6, h7, h8, rfl⟩
            · left; exact ⟨by tauto, rfl⟩
            · right; exact ⟨h5, ⟨h4, h6⟩, h7, h8, rfl⟩
        · rintro ⟨pre, f, v, post, heq, h1, h2, h3, h4⟩
          cases pre with
          | nil =>
            simp only [List.nil_append, List.cons.injEq, Prod.mk.injEq] at heq
            obtain ⟨⟨rfl, rfl⟩, rfl⟩ := heq
            rcases h4 with ⟨h4 | h4, _⟩ | ⟨_, _, _, h4, _⟩
            · exact absurd h4 hn
            · simp at h4
            · exact absurd h4 ho
          | cons g pre =>
            simp only [List.cons_append, List.cons.injEq] at heq
            obtain ⟨rfl, rfl⟩ := heq
            simp only [List.map_cons, List.nodup_cons] at h2
            refine ⟨pre, f, v, post, rfl, fun g hg => h1 g (List.mem_cons_of_mem _ hg), h2.2, ?_, ?_⟩
            · intro g hg hm
              rcases List.mem_cons.1 hm with rfl | hm
              · exact h2.1 (List.mem_map_of_mem (f := Prod.fst) hg)
              · exact h3 g (List.mem_cons_of_mem _ hg) hm
            · simp only [List.map_cons, List.mem_cons, not_or] at h4 ⊢
              rcases h4 with ⟨h4, rfl⟩ | ⟨h4, ⟨h5, h6⟩, h7, h8, rfl⟩
              · left; exact ⟨by tauto, rfl⟩
              · right; exact ⟨⟨h5, h4⟩, h6, h7, h8, rfl⟩

theorem resolveVariants_exact (name : Str) (seen : List Str) (k : Nat) (vs : List Str) (e : CheckErr) :
    resolveVariants name seen k vs = .error (.err e) ↔
    ∃ pre v post, vs = pre ++ v :: post ∧ pre.Nodup ∧ (∀ p ∈ pre, p ∉ seen) ∧ (v ∈ seen ∨ v ∈ pre) ∧
      e = .duplicateVariant v name := by
  induction vs generalizing seen k with
  | nil => simp [resolveVariants]
  | cons x vs ih =>
    unfold resolveVariants
    by_cases hn : x ∈ seen
    · rw [if_pos hn]
      constructor
      · intro h
        simp only [Except.error.injEq, Fault.err.injEq] at h
        exact ⟨[], x, vs, rfl, by simp, by simp, Or.inl hn, h.symm⟩
      · rintro ⟨pre, v, post, heq, h1, h2, h3, rfl⟩
        cases pre with
        | nil => simp only [List.nil_append, List.cons.injEq] at heq; rw [heq.1]
        | cons g pre =>
          simp only [List.cons_append, List.cons.injEq] at heq
          obtain ⟨rfl, -⟩ := heq
          exact absurd hn (h2 _ List.mem_cons_self)
    · rw [if_neg hn]
      have key : (match resolveVariants name (x :: seen) (k + 1) vs with
          | .error e => .error e
          | .ok rest => .ok (⟨x, k⟩ :: rest) : Except Fault (List EnumVariant)) = .error (.err e) ↔
          resolveVariants name (x :: seen) (k + 1) vs = .error (.err e) := by
        cases resolveVariants name (x :: seen) (k + 1) vs <;> simp
      refine Iff.trans key ?_
      rw [ih]
      constructor
      · rintro ⟨pre, v, post, rfl, h1, h2, h3, rfl⟩
        refine ⟨x :: pre, v, post, rfl, ?_, ?_, ?_, rfl⟩
        · exact List.nodup_cons.2 ⟨fun h => h2 x h List.mem_cons_self, h1⟩
        · intro p hp
          rcases List.mem_cons.1 hp with rfl | hp
          · exact hn
          · exact fun h => h2 p hp (List.mem_cons_of_mem _ h)
        · simp only [List.mem_cons] at h3 ⊢; tauto
      · rintro ⟨pre, v, post, heq, h1, h2, h3, rfl⟩
        cases pre with
        | nil =>
          simp only [List.nil_append, List.cons.injEq] at heq
          obtain ⟨rfl, rfl⟩ := heq
          rcases h3 with h3 | h3
          · exact absurd h3 hn
          · cases h3
        | cons g pre =>
          simp only [List.cons_append, List.cons.injEq] at heq
          obtain ⟨rfl, rfl⟩ := heq
          rw [List.nodup_cons] at h1
          refine ⟨pre, v, post, rfl, h1.2, ?_, ?_, rfl⟩
          · intro p hp hm
            rcases List.mem_cons.1 hm with rfl | hm
            · exact h1.1 hp
            · exact h2 p (List.mem_cons_of_mem _ hp) hm
          · simp only [List.mem_cons] at h3 ⊢; tauto

theorem resolveEnum_exact (name : Str) (vs : List Str) (e : CheckErr) :
    resolveEnum name vs = .error (.err e) ↔ Local name (.enum vs) e := by
  unfold resolveEnum
  have key : ∀ r : EnumRepr, 1 ≤ vs.length → vs.length ≤ 32 →
      ((match resolveVariants name [] 0 vs with
        | .error e => .error e
        | .ok vs => .ok ⟨r, vs⟩ : Except Fault REnum) = .error (.err e) ↔ Local name (.enum vs) e) := by
    intro r h1 h2
    have : (match resolveVariants name [] 0 vs with
        | .error e => .error e
        | .ok vs => .ok ⟨r, vs⟩ : Except Fault REnum) = .error (.err e) ↔
        resolveVariants name [] 0 vs = .error (.err e) := by
      cases resolveVariants name [] 0 vs <;> simp
    rw [this, resolveVariants_exact]
    constructor
    · rintro ⟨pre, v, post, rfl, h3, -, h4, rfl⟩
      exact .duplicateVariant _ v h2 ⟨pre, post, rfl, h3, by simpa using h4⟩
    · intro h
      cases h with
      | emptyEnum => simp at h1
      | tooManyVariants _ h => omega
      | duplicateVariant _ v h h' =>
        obtain ⟨pre, post, rfl, h3, h4⟩ := h'
        exact ⟨pre, v, post, rfl, h3, by simp, Or.inr h4, rfl⟩
  simp only
  by_cases h0 : vs.length = 0
  · rw [if_pos h0]
    have := List.length_eq_zero_iff.1 h0
    subst this
    constructor
    · intro h
      simp only [Except.error.injEq, Fault.err.injEq] at h
      subst h
      exact .emptyEnum
    · intro h
      cases h with
      | emptyEnum => rfl
      | tooManyVariants _ h => simp at h
      | duplicateVariant _ v _ h => obtain ⟨pre, post, h, -⟩ := h; simp at h
  · rw [if_neg h0]
    by_cases h8 : vs.length ≤ 8
    · rw [if_pos h8]; exact key _ (by omega) (by omega)
    · rw [if_neg h8]
      by_cases h16 : vs.length ≤ 16
      · rw [if_pos h16]; exact key _ (by omega) (by omega)
      · rw [if_neg h16]
        by_cases h32 : vs.length ≤ 32
        · rw [if_pos h32]; exact key _ (by omega) (by omega)
        · rw [if_neg h32]
          constructor
          · intro h
            simp only [Except.error.injEq, Fault.err.injEq] at h
            subst h
            exact .tooManyVariants _ (by omega)
          · intro h
            cases h with
            | emptyEnum => simp at h0
            | tooManyVariants _ h => rfl
            | duplicateVariant _ v h _ => omega

theorem resolveOneFirstPass_exact (n : Str) (t : Ty) (st : FirstPass) (e : CheckErr) :
    resolveOneFirstPass n t getBuiltins st = .error (.err e) ↔ Local n t e := by
  cases t with
  | enum vs =>
    rw [← resolveEnum_exact]
    unfold resolveOneFirstPass
    simp only
    cases resolveEnum n vs <;> simp
  | struct fs =>
    have key : resolveOneFirstPass n (.struct fs) getBuiltins st = .error (.err e) ↔
        firstPassFields n getBuiltins [] fs = .error (.err e) := by
      unfold resolveOneFirstPass
      simp only
      cases firstPassFields n getBuiltins [] fs with
      | error x => simp
      | ok fields => simp only; split <;> simp
    rw [key, firstPassFields_exact]
    constructor
    · rintro ⟨pre, f, u, post, rfl, h1, h2, -, ⟨h3, rfl⟩ | ⟨-, h3, h4, h5, rfl⟩⟩
      · exact .duplicateField pre f u post ⟨h1, h2⟩ (by simpa using h3)
      · exact .optionalArray pre f u post ⟨h1, h2⟩ h3 h4 h5
    · intro h
      cases h with
      | duplicateField pre f u post hp hm =>
        exact ⟨pre, f, u, post, rfl, hp.1, hp.2, by simp, Or.inl ⟨Or.inr hm, rfl⟩⟩
      | optionalArray pre f u post hp h1 h2 h3 =>
        exact ⟨pre, f, u, post, rfl, hp.1, hp.2, by simp, Or.inr ⟨by simp, h1, h2, h3, rfl⟩⟩

theorem Local.unique {n : Str} {t : Ty} {e e' : CheckErr} (h : Local n t e) (h' : Local n t e') : e = e' := by
  have h1 := (resolveOneFirstPass_exact n t ⟨[], []⟩ e).2 h
  have h2 := (resolveOneFirstPass_exact n t ⟨[], []⟩ e').2 h'
  rw [h1] at h2
  simpa using h2

theorem resolveOneFirstPass_total (n : Str) (t : Ty) (st : FirstPass) :
    (∃ st', resolveOneFirstPass n t getBuiltins st = .ok st') ∨
      ∃ e, resolveOneFirstPass n t getBuiltins st = .error (.err e) := by
  obtain ⟨r, hr, heq⟩ := resolveOneFirstPass_spec n t st
  rw [heq]
  rcases r with e | _ | r
  · cases hr <;> exact Or.inr ⟨_, rfl⟩
  · exact Or.inl ⟨_, rfl⟩
  · exact Or.inl ⟨_, rfl⟩

theorem resolveFirstPass_exact (ast : AST) (st : FirstPass) :
    ((∃ st', resolveFirstPass getBuiltins ast st = .ok st') ∧ ∀ d ∈ decls ast, ∀ e, ¬ Local d.1 d.2 e) ∨
    ∃ pre n t post e, decls ast = pre ++ (n, t) :: post ∧ (∀ d ∈ pre, ∀ e, ¬ Local d.1 d.2 e) ∧ Local n t e ∧
      resolveFirstPass getBuiltins ast st = .error (.err e) := by
  induction ast generalizing st with
  | nil => exact Or.inl ⟨⟨st, rfl⟩, by simp⟩
  | cons x ast ih =>
    cases x with
    | «export» n => simpa only [resolveFirstPass, decls_export] using ih st
    | decl n t =>
      simp only [resolveFirstPass, decls_decl]
      rcases resolveOneFirstPass_total n t st with ⟨st', hs⟩ | ⟨e, hs⟩
      · have hno : ∀ e, ¬ Local n t e := by
          intro e he
          rw [(resolveOneFirstPass_exact n t st e).2 he] at hs
          cases hs
        rw [hs]
        simp only
        rcases ih st' with ⟨h1, h2⟩ | ⟨pre, n', t', post, e, h1, h2, h3, h4⟩
        · refine Or.inl ⟨h1, fun d hd => ?_⟩
          rcases List.mem_cons.1 hd with rfl | hd
          · exact hno
          · exact h2 d hd
        · refine Or.inr ⟨(n, t) :: pre, n', t', post, e, by rw [h1]; rfl, fun d hd => ?_, h3, h4⟩
          rcases List.mem_cons.1 hd with rfl | hd
          · exact hno
          · exact h2 d hd
      · rw [hs]
        exact Or.inr ⟨[], n, t, decls ast, e, rfl, by simp, (resolveOneFirstPass_exact n t st e).1 hs, rfl⟩

theorem Local.not_wf {ast : AST} {n : Str} {t : Ty} {e : CheckErr} (hd : (n, t) ∈ decls ast) (h : Local n t e) :
    ¬ WF ast := by
  intro hw
  cases h with
  | emptyEnum => have := (hw.enums n _ hd).1; simp at this
  | tooManyVariants vs h => have := (hw.enums n _ hd).2.1; omega
  | duplicateVariant vs v _ h => exact h.not_nodup (hw.enums n _ hd).2.2
  | duplicateField pre f u post hp hm => exact hw.fieldNames n _ hd pre (f, u) post rfl (fun g hg => (hp.1 g hg).1) hm
  | optionalArray pre f u post _ _ _ ho => exact hw.noOptArray n _ hd (f, u) (by simp) ho

/-! ### the whole checker -/

/-- Every error of the checker is one of the possible errors. -/
theorem typeCheck_possible {ast : AST} (hnb : NoBuiltinDecl ast) {ord} (hord : FairOrd ord) {e : CheckErr}
    (h : typeCheck ord ast = .error (.err e)) : Possible ast e := by
  have htruth : Truthful ast e := by
    have := typeCheck_spec ast hord
    rw [h] at this
    cases this with | err _ h _ => exact h
  unfold typeCheck at h
  rw [getExport_eq] at h
  rcases he : exports ast with _ | ⟨x, _ | ⟨y, l⟩⟩
  · rw [he] at h
    simp only [Except.error.injEq, Fault.err.injEq] at h
    subst h
    exact .noExport he
  · have h1 : (exports ast).length = 1 := by rw [he]; rfl
    rw [he] at h
    simp only at h
    cases hu : collectTypes ast with
    | error f =>
      obtain ⟨n, rfl, hf⟩ := collectTypes_err hu
      rw [hu] at h
      simp only [Except.error.injEq, Fault.err.injEq] at h
      subst h
      exact .duplicateDecl n h1 hf
    | ok u =>
      have hun := (collectTypes_ok hu).nodup
      rw [hu] at h
      simp only at h
      rcases resolveFirstPass_exact ast ⟨[], u⟩ with ⟨⟨fp, hf⟩, hl⟩ | ⟨pre, n, t, post, e', h2, h3, h4, h5⟩
      · have hcl : Clean ast := ⟨h1, hun, hl⟩
        rw [hf] at h
        simp only at h
        have hb := between hu hf
        rcases resolveSecondPass_exact hb hnb hord with ⟨hgood, c, hc⟩ | ⟨K, R, e', h2, h3, h4, h5, h6⟩
        · rw [hc] at h
          simp only at h
          have hkind : (∃ n, e = .notAStruct n) ∨ ∃ n, e = .exportUnresolved n := by
            unfold resolveExport at h
            split at h
            · split at h
              · cases h
              · simp only [Except.error.injEq, Fault.err.injEq] at h; exact Or.inl ⟨_, h.symm⟩
            · simp only [Except.error.injEq, Fault.err.injEq] at h; exact Or.inr ⟨_, h.symm⟩
          rcases hkind with ⟨n, rfl⟩ | ⟨n, rfl⟩
          · cases htruth with | notAStruct _ h1 h2 => exact .notAStruct n hcl hgood h1 h2
          · cases htruth with | exportUnresolved _ h1 h2 h3 => exact .exportUnresolved n hcl hgood h1 h2 h3
        · rw [h6] at h
          simp only [Except.error.injEq, Fault.err.injEq] at h
          subst h
          exact .resolving K R e' hcl h2 h3 h4 h5
      · rw [h5] at h
        simp only [Except.error.injEq, Fault.err.injEq] at h
        subst h
        exact .locally pre n t post e' h1 hun h2 h3 h4
  · rw [he] at h
    simp only [Except.error.injEq, Fault.err.injEq] at h
    subst h
    exact .moreThanOneExport (by rw [he]; simp)

theorem fair_id : FairOrd id := fun l => .refl l

/-- A schema with a possible error is not well-formed. -/
theorem Possible.not_wf {ast : AST} (hnb : NoBuiltinDecl ast) {e : CheckErr} (h : Possible ast e) : ¬ WF ast := by
  intro hw
  obtain ⟨x, fs, hx, hfs⟩ := hw.exported
  cases h with
  | noExport h => rw [hx] at h; cases h
  | moreThanOneExport h => rw [hx] at h; simp at h
  | duplicateDecl n _ h => exact h.not_nodup hw.unique
  | locally pre n t post _ _ _ h _ hl => exact Local.not_wf (by rw [h]; simp) hl hw
  | resolving K R _ _ _ hd hb _ =>
    obtain ⟨k, hk, hf⟩ := hb
    cases hf with
    | undeclared h1 h2 =>
      rcases Relation.ReflTransGen.cases_tail hk with rfl | ⟨m, _, hr⟩
      · exact h2 hd
      · exact (hw.closed m k hr).elim h1 h2
    | optArray fs f h1 h2 h3 => exact hw.noOptArray k fs h1 f h2 h3
    | recursive h => exact hw.acyclic k h
  | notAStruct n _ _ h1 h2 =>
    rw [hx] at h1; cases h1
    rcases h2 with h2 | ⟨vs, h2⟩
    · exact hnb _ ⟨_, hfs⟩ h2
    · cases decl_unique hw.unique hfs h2
  | exportUnresolved n _ _ h1 h2 h3 => rw [hx] at h1; cases h1; exact h3 ⟨_, hfs⟩

/-- Every possible error is reported in some run. -/
theorem typeCheck_some {ast : AST} (hnb : NoBuiltinDecl ast) {e : CheckErr} (h : Possible ast e) :
    ∃ ord, FairOrd ord ∧ typeCheck ord ast = .error (.err e) := by
  -- the error for some order
  obtain ⟨e', h1, h2⟩ : ∃ e', typeCheck id ast = .error (.err e') ∧ Possible ast e' := by
    have hs := typeCheck_spec ast fair_id
    cases hr : typeCheck id ast with
    | ok r =>
      rw [hr] at hs
      cases hs with
      | ok x B c u fs he hA hg => exact absurd ((hA.final hnb).wf he hg) (Possible.not_wf hnb h)
    | error f =>
      rw [hr] at hs
      cases hs with
      | err e' _ _ => exact ⟨e', rfl, typeCheck_possible hnb fair_id hr⟩
  have len : ∀ {n}, exports ast = [n] → (exports ast).length = 1 := fun h => by rw [h]; rfl
  cases h with
  | noExport h =>
    refine ⟨id, fair_id, ?_⟩
    rw [h1]
    cases h2 with
    | noExport => rfl
    | moreThanOneExport h' => rw [h] at h'; simp at h'
    | duplicateDecl _ h' _ => rw [h] at h'; cases h'
    | locally _ _ _ _ _ h' => rw [h] at h'; cases h'
    | resolving _ _ _ h' => have := h'.oneExport; rw [h] at this; cases this
    | notAStruct _ h' => have := h'.oneExport; rw [h] at this; cases this
    | exportUnresolved _ h' => have := h'.oneExport; rw [h] at this; cases this
  | moreThanOneExport h =>
    refine ⟨id, fair_id, ?_⟩
    rw [h1]
    cases h2 with
    | noExport h' => rw [h'] at h; simp at h
    | moreThanOneExport h' => rfl
    | duplicateDecl _ h' _ => omega
    | locally _ _ _ _ _ h' => omega
    | resolving _ _ _ h' => have := h'.oneExport; omega
    | notAStruct _ h' => have := h'.oneExport; omega
    | exportUnresolved _ h' => have := h'.oneExport; omega
  | duplicateDecl n h hf =>
    refine ⟨id, fair_id, ?_⟩
    rw [h1]
    cases h2 with
    | noExport h' => rw [h'] at h; cases h
    | moreThanOneExport h' => omega
    | duplicateDecl m _ hf' => rw [hf.unique hf']
    | locally _ _ _ _ _ _ h' => exact absurd h' hf.not_nodup
    | resolving _ _ _ h' => exact absurd h'.unique hf.not_nodup
    | notAStruct _ h' => exact absurd h'.unique hf.not_nodup
    | exportUnresolved _ h' => exact absurd h'.unique hf.not_nodup
  | locally pre n t post _ h hu hd hp hl =>
    refine ⟨id, fair_id, ?_⟩
    rw [h1]
    have hmem : (n, t) ∈ decls ast := by rw [hd]; simp
    cases h2 with
    | noExport h' => rw [h'] at h; cases h
    | moreThanOneExport h' => omega
    | duplicateDecl m _ hf' => exact absurd hu hf'.not_nodup
    | locally pre' n' t' post' _ _ _ hd' hp' hl' =>
      rw [hd] at hd'
      obtain ⟨-, h3, -⟩ := first_unique (P := fun d : Str × Ty => ∃ e, Local d.1 d.2 e) hd' ⟨_, hl⟩ ⟨_, hl'⟩
        (fun d hd h => h.elim (hp d hd)) (fun d hd h => h.elim (hp' d hd))
      cases h3
      rw [Local.unique hl hl']
    | resolving _ _ _ h' => exact absurd hl (h'.locally _ hmem _)
    | notAStruct _ h' => exact absurd hl (h'.locally _ hmem _)
    | exportUnresolved _ h' => exact absurd hl (h'.locally _ hmem _)
  | resolving K R _ hcl hK hR hb hrep =>
    have hone := hcl.oneExport
    obtain ⟨x, hx⟩ := List.length_eq_one_iff.1 hone
    obtain ⟨u, hu⟩ := (collectTypes_ok_iff ast).2 hcl.unique
    rcases resolveFirstPass_exact ast ⟨[], u⟩ with ⟨⟨fp, hf⟩, hl⟩ | ⟨pre, n, t, post, e', h2, h3, h4, h5⟩
    · have hbt := between hu hf
      obtain ⟨ord, hord, hs⟩ := resolveSecondPass_some hbt hnb hK hR hb hrep
      refine ⟨ord, hord, ?_⟩
      unfold typeCheck
      rw [getExport_eq, hx]
      simp only [hu, hf, hs]
    · exact absurd h4 (hcl.locally (n, t) (by rw [h2]; simp) e')
  | notAStruct n hcl hgood he hn =>
    refine ⟨id, fair_id, ?_⟩
    rw [h1]
    have hone := hcl.oneExport
    cases h2 with
    | noExport h' => rw [h'] at he; cases he
    | moreThanOneExport h' => omega
    | duplicateDecl m _ hf' => exact absurd hcl.unique hf'.not_nodup
    | locally pre n t post _ _ _ h' _ hl' => exact absurd hl' (hcl.locally (n, t) (by rw [h']; simp) _)
    | resolving _ R _ _ _ h' h'' => exact absurd h'' (hgood R h')
    | notAStruct _ _ _ h' => rw [he] at h'; cases h'; rfl
    | exportUnresolved _ _ _ h' h3 h4 =>
      rw [he] at h'; cases h'
      rcases hn with hn | ⟨vs, hn⟩
      · exact absurd hn h3
      · exact absurd ⟨_, hn⟩ h4
  | exportUnresolved n hcl hgood he hn1 hn2 =>
    refine ⟨id, fair_id, ?_⟩
    rw [h1]
    have hone := hcl.oneExport
    cases h2 with
    | noExport h' => rw [h'] at he; cases he
    | moreThanOneExport h' => omega
    | duplicateDecl m _ hf' => exact absurd hcl.unique hf'.not_nodup
    | locally pre n t post _ _ _ h' _ hl' => exact absurd hl' (hcl.locally (n, t) (by rw [h']; simp) _)
    | resolving _ R _ _ _ h' h'' => exact absurd h'' (hgood R h')
    | notAStruct _ _ _ h' hn =>
      rw [he] at h'; cases h'
      rcases hn with hn | ⟨vs, hn⟩
      · exact absurd hn hn1
      · exact absurd ⟨_, hn⟩ hn2
    | exportUnresolved _ _ _ h' => rw [he] at h'; cases h'; rfl

/-- In a clean schema some settled set exists, and resolving a broken declaration reports something. -/
theorem report_exists {ast : AST} (hnb : NoBuiltinDecl ast) (hcl : Clean ast) {R : Str} (hR : Declared ast R)
    (hb : Broken ast R) : ∃ K e, Settled ast K ∧ Report ast R K [R] R e := by
  obtain ⟨u, hu⟩ := (collectTypes_ok_iff ast).2 hcl.unique
  rcases resolveFirstPass_exact ast ⟨[], u⟩ with ⟨⟨fp, hf⟩, hl⟩ | ⟨pre, n, t, post, e', h2, h3, h4, h5⟩
  · have hbt := between hu hf
    obtain ⟨ord, e, -, -, h⟩ := resolveSecondPass_reach hbt hnb (hbt.settled hnb) hR hb
    exact ⟨_, e, hbt.settled hnb, h⟩
  · exact absurd h4 (hcl.locally (n, t) (by rw [h2]; simp) e')

/-! ### schemas whose only defect is recursion -/

theorem _root_.Packetc.WellFormed.OnlyRecursive.clean {ast : AST} (ho : OnlyRecursive ast) : Clean ast := by
  obtain ⟨x, xs, hx, hxs⟩ := ho.exported
  refine ⟨by rw [hx]; rfl, ho.unique, ?_⟩
  rintro ⟨n, t⟩ hd e hl
  cases hl with
  | emptyEnum => have := (ho.enums n _ hd).1; simp at this
  | tooManyVariants vs h => have := (ho.enums n _ hd).2.1; omega
  | duplicateVariant vs v _ h => exact h.not_nodup (ho.enums n _ hd).2.2
  | duplicateField pre f u post hp hm =>
    have := ho.fieldNames n _ hd
    rw [List.map_append, List.nodup_append] at this
    exact this.2.2 f hm f (by simp) rfl
  | optionalArray pre f u post _ _ _ h => exact ho.noOptArray n _ hd (f, u) (by simp) h

theorem Loops.declared {ast : AST} {n : Str} (h : Loops ast n) : Declared ast n := by
  obtain ⟨k, h1, h2⟩ := h
  rcases Relation.ReflTransGen.cases_head h1 with rfl | ⟨m, ⟨fs, hd, _⟩, _⟩
  · obtain ⟨m, ⟨fs, hd, _⟩, _⟩ := (Relation.TransGen.head'_iff).1 h2
    exact ⟨_, hd⟩
  · exact ⟨_, hd⟩

theorem Loops.broken {ast : AST} {n : Str} (h : Loops ast n) : Broken ast n := by
  obtain ⟨k, h1, h2⟩ := h
  exact ⟨k, h1, .recursive h2⟩

theorem _root_.Packetc.WellFormed.OnlyRecursive.broken {ast : AST} (ho : OnlyRecursive ast) {n : Str}
    (hd : n ∈ builtinNames ∨ Declared ast n) : Broken ast n ↔ Loops ast n := by
  refine ⟨?_, Loops.broken⟩
  rintro ⟨k, h1, h2⟩
  cases h2 with
  | undeclared h3 h4 =>
    exfalso
    rcases Relation.ReflTransGen.cases_tail h1 with rfl | ⟨m, _, hr⟩
    · exact hd.elim h3 h4
    · exact (ho.closed m k hr).elim h3 h4
  | optArray fs f h3 h4 h5 => exact absurd h5 (ho.noOptArray k fs h3 f h4)
  | recursive h => exact ⟨k, h1, h⟩

theorem Leads.refers {ast : AST} {n m : Str} (h : Leads ast n m) : Refers ast n m := by
  obtain ⟨pre, f, post, hd, rfl, -, -⟩ := h
  exact ⟨_, hd, f, by simp, rfl⟩

theorem Leads.unique {ast : AST} (hu : ((decls ast).map Prod.fst).Nodup) {n m m' : Str} (h : Leads ast n m)
    (h' : Leads ast n m') : m = m' := by
  obtain ⟨pre, f, post, hd, rfl, h1, h2⟩ := h
  obtain ⟨pre', f', post', hd', rfl, h1', h2'⟩ := h'
  have := decl_unique hu hd hd'
  simp only [Ty.struct.injEq] at this
  obtain ⟨-, rfl, -⟩ := first_unique (P := fun g : Str × Unresolved => Loops ast g.2.name) this h1 h1' h2 h2'
  rfl

/-- One step of a report. -/
theorem _root_.Packetc.WellFormed.OnlyRecursive.leads {ast : AST} (ho : OnlyRecursive ast) {n f : Str}
    {u : Unresolved} {pre post : List (Str × Unresolved)} (hd : (n, .struct (pre ++ (f, u) :: post)) ∈ decls ast)
    (hb : Broken ast u.name) (hp : ∀ g ∈ pre, ¬ Broken ast g.2.name) : Leads ast n u.name := by
  have hcl : ∀ g ∈ pre ++ (f, u) :: post, g.2.name ∈ builtinNames ∨ Declared ast g.2.name := fun g hg =>
    ho.closed n _ ⟨_, hd, g, hg, rfl⟩
  refine ⟨pre, (f, u), post, hd, rfl, (ho.broken (hcl (f, u) (by simp))).1 hb, ?_⟩
  intro g hg hl
  exact hp g hg (Loops.broken hl)

/-- `n` leads to `m`, and neither is `R`. -/
def LeadsAvoiding (ast : AST) (R n m : Str) : Prop := Leads ast n m ∧ n ≠ R ∧ m ≠ R

/-- Going round without passing `R`, one never comes to `R`. -/
theorem trapped {ast : AST} (hu : ((decls ast).map Prod.fst).Nodup) {R n m : Str}
    (hn : Relation.TransGen (LeadsAvoiding ast R) n n) (h : Relation.ReflTransGen (Leads ast) n m) :
    Relation.TransGen (LeadsAvoiding ast R) m m := by
  induction h with
  | refl => exact hn
  | tail _ hl ih =>
    obtain ⟨k, hk, hr⟩ := (Relation.TransGen.head'_iff).1 ih
    have := Leads.unique hu hk.1 hl
    subst this
    exact Relation.TransGen.tail' hr hk

theorem avoiding_ne {ast : AST} {R n m : Str} (h : Relation.TransGen (LeadsAvoiding ast R) n m) : m ≠ R := by
  obtain ⟨k, -, hk⟩ := (Relation.TransGen.tail'_iff).1 h
  exact hk.2.2

/-- What is reported when recursion is the only defect. -/
theorem report_recursive {ast : AST} (ho : OnlyRecursive ast) {R : Str} {K : Str → Prop} {stack : List Str}
    {n : Str} {e : CheckErr} (h : Report ast R K stack n e) (hc : Chain ast R stack n)
    (hs : ∀ s ∈ stack, s = n ∨ Relation.TransGen (Leads ast) s n)
    (ha : ∀ s ∈ stack, s ≠ R → (s = n ∨ Relation.TransGen (LeadsAvoiding ast R) s n))
    (hroot : n = R → stack = [R]) :
    (e = .cycle R ∧ Relation.TransGen (Leads ast) n R) ∨
    ∃ m, e = .missingType m ∧ Relation.TransGen (Leads ast) m m ∧ Relation.TransGen (LeadsAvoiding ast R) m m ∧
      Relation.TransGen (Leads ast) n m := by
  induction h with
  | early hd h1 h2 h3 => exact absurd h2 (ho.noOptArray _ _ hd _ mem_mid)
  | late hd h1 h2 h3 => exact absurd h3 (ho.noOptArray _ _ hd _ mem_mid)
  | cycle hd h1 h2 h3 =>
    have hl := ho.leads hd (hc.broken (refers_mid hd) (h3 ▸ hc.root)) h2
    rw [h3] at hl
    exact Or.inl ⟨rfl, .single hl⟩
  | @missing K stack n pre f u post hd h1 h2 h3 h4 =>
    have h4 : u.name ∈ stack := by
      rcases h4 with h4 | ⟨h4, h5⟩
      · exact h4
      · exact ((ho.closed _ _ (refers_mid hd)).elim h4 h5).elim
    have hl := ho.leads hd (hc.broken (refers_mid hd) h4) h2
    refine Or.inr ⟨u.name, rfl, ?_, ?_, .single hl⟩
    · rcases hs _ h4 with h5 | h5
      · rw [h5] at hl ⊢; exact .single hl
      · exact .tail h5 hl
    · have hn : n ≠ R := by
        intro h5
        rw [hroot h5] at h4
        simp only [List.mem_singleton] at h4
        exact h3 h4
      rcases ha _ h4 h3 with h5 | h5
      · rw [← h5] at hl hn
        exact .single ⟨hl, hn, h3⟩
      · exact .tail h5 ⟨hl, hn, h3⟩
  | @inside K stack n pre f u post e hd h1 h2 h3 h4 h5 ih =>
    have hl := ho.leads hd h3 h2
    have hur : u.name ≠ R := fun h => h4 (h ▸ hc.root)
    have hs2 : ∀ s ∈ u.name :: stack, s = u.name ∨ Relation.TransGen (Leads ast) s u.name := by
      intro s hs'
      rcases List.mem_cons.1 hs' with rfl | hs'
      · exact Or.inl rfl
      · rcases hs s hs' with rfl | h6
        · exact Or.inr (.single hl)
        · exact Or.inr (.tail h6 hl)
    have ha2 : ∀ s ∈ u.name :: stack, s ≠ R → (s = u.name ∨ Relation.TransGen (LeadsAvoiding ast R) s u.name) := by
      intro s hs' hsR
      rcases List.mem_cons.1 hs' with rfl | hs'
      · exact Or.inl rfl
      · have hn : n ≠ R := by
          intro h6
          rw [hroot h6] at hs'
          simp only [List.mem_singleton] at hs'
          exact hsR hs'
        rcases ha s hs' hsR with rfl | h6
        · exact Or.inr (.single ⟨hl, hn, hur⟩)
        · exact Or.inr (.tail h6 ⟨hl, hn, hur⟩)
    rcases ih (hc.next (refers_mid hd)) hs2 ha2 (fun h => absurd h hur) with ⟨h6, h7⟩ | ⟨m, h6, h7, h8, h9⟩
    · exact Or.inl ⟨h6, .head hl h7⟩
    · exact Or.inr ⟨m, h6, h7, h8, .head hl h9⟩

/-- A cycle is reported for an entry from which following the first recursive fields leads back to it; otherwise the
type at which this path closes is reported as missing. -/
theorem report_entry {ast : AST} (ho : OnlyRecursive ast) {R : Str} {K : Str → Prop} {e : CheckErr}
    (h : Report ast R K [R] R e) :
    (e = .cycle R ∧ Relation.TransGen (Leads ast) R R) ∨
    ∃ m, e = .missingType m ∧ ¬ Relation.TransGen (Leads ast) R R ∧ Relation.TransGen (Leads ast) m m := by
  rcases report_recursive ho h ⟨[], rfl, by simp, by simp⟩ (by simp) (by simp) (fun _ => rfl) with
    h1 | ⟨m, h1, h2, h3, h4⟩
  · exact Or.inl h1
  · refine Or.inr ⟨m, h1, ?_, h2⟩
    intro hR
    -- every type on the path from `R` leads back to `R`
    have back : ∀ {c}, Relation.ReflTransGen (Leads ast) R c → Relation.TransGen (Leads ast) c R := by
      intro c hc
      induction hc with
      | refl => exact hR
      | tail _ hl ih =>
        obtain ⟨k, hk, hr⟩ := (Relation.TransGen.head'_iff).1 ih
        rw [Leads.unique ho.unique hk hl] at hr
        rcases Relation.ReflTransGen.cases_head hr with rfl | ⟨k', hk', hr'⟩
        · exact hR
        · exact Relation.TransGen.head' hk' hr'
    exact avoiding_ne (trapped ho.unique h3 (back h4.to_reflTransGen).to_reflTransGen) rfl

end Packetc.Check
