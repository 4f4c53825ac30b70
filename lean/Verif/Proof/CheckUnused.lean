import Verif.Proof.CheckOrder
import Mathlib.Data.List.Perm.Subperm
/-!
# Declarations that are not used do not influence resolution

Two schemas that agree on a set of names closed under "contains" are resolved alike on that set: for every order of the
first there is an order of the second with the same result.
-/

namespace Packetc.Check
open Ast WellFormed

/-- The caches agree on `U`. -/
def Agree (U : Str → Prop) (c d : TypeMap) : Prop := ∀ n, U n → c.get n = d.get n

/-- The two schemas declare the names in `U` alike, and `U` is closed. -/
structure SameOn (U : Str → Prop) (a b : AST) : Prop where
  decl : ∀ n, U n → ∀ t, (n, t) ∈ decls a ↔ (n, t) ∈ decls b
  closed : ∀ n fs, U n → (n, .struct fs) ∈ decls a → ∀ f ∈ fs, U f.2.name

/-- What is unresolved is declared. -/
def UnresIn (a : AST) (st : SecondPass) : Prop := ∀ n t, st.unresolved.get n = some t → (n, t) ∈ decls a

theorem Agree.has {U c d} (h : Agree U c d) {n} (hn : U n) : c.has n = d.has n := by
  unfold Map.has; rw [h n hn]

theorem Agree.insert {U c d} (h : Agree U c d) (n e) : Agree U (c.insert n e) (d.insert n e) := by
  intro m hm
  rw [Map.get_insert, Map.get_insert, h m hm]

theorem Agree.insert_left {U c d} (h : Agree U c d) {n} (e) (hn : ¬ U n) : Agree U (c.insert n e) d := by
  intro m hm
  have : n ≠ m := by rintro rfl; exact hn hm
  rw [Map.get_insert, if_neg this, h m hm]

theorem UnresIn.erase {a : AST} {st : SecondPass} (h : UnresIn a st) (n : Str) :
    UnresIn a { st with unresolved := st.unresolved.erase n } := by
  intro m t hm
  simp only [Map.get_erase] at hm
  split at hm
  · cases hm
  · exact h _ _ hm

theorem resolveStructField_agree {U c d} (h : Agree U c d) {f : Str} {u : Unresolved} (hu : U u.name) (n : Str) :
    resolveStructField f u c n = resolveStructField f u d n := by
  unfold resolveStructField; rw [h _ hu]

theorem splitFields_agree {U c d} (h : Agree U c d) (n : Str) (fs : List (Str × Unresolved)) (hf : ∀ f ∈ fs, U f.2.name) :
    splitFields c n fs = splitFields d n fs := by
  induction fs with
  | nil => rfl
  | cons x fs ih =>
    obtain ⟨f, u⟩ := x
    unfold splitFields
    rw [resolveStructField_agree h (hf _ List.mem_cons_self), ih fun f hf' => hf f (List.mem_cons_of_mem _ hf')]

theorem finishFields_agree {U c d} (h : Agree U c d) (n : Str) (fs : List (Str × Unresolved)) (hf : ∀ f ∈ fs, U f.2.name) :
    finishFields c n fs = finishFields d n fs := by
  induction fs with
  | nil => rfl
  | cons x fs ih =>
    obtain ⟨f, u⟩ := x
    unfold finishFields
    rw [resolveStructField_agree h (hf _ List.mem_cons_self), ih fun f hf' => hf f (List.mem_cons_of_mem _ hf')]

theorem resolveOne_cached {fuel n t st st'} (h : resolveOneSecondPass fuel n t st = .ok st') (hc : st.cache.has n = true) :
    st' = st := by
  cases fuel with
  | zero => cases h
  | succ fuel => unfold resolveOneSecondPass at h; rw [if_pos hc] at h; cases h; rfl

theorem splitFields_mem {c : TypeMap} {n : Str} {fs fields nots} (h : splitFields c n fs = .ok (fields, nots)) :
    ∀ f ∈ nots, f ∈ fs := by
  have hs := splitFields_spec c n fs
  rw [h] at hs
  cases hs
  exact fun f hf => List.mem_of_mem_filter hf

/-- After a success the type is resolved. -/
theorem resolveOne_has {fuel n t st st'} (h : resolveOneSecondPass fuel n t st = .ok st') : st'.cache.has n = true := by
  cases fuel with
  | zero => cases h
  | succ fuel =>
    by_cases hc : st.cache.has n = true
    · rw [resolveOne_cached h hc, hc]
    · unfold resolveOneSecondPass at h
      rw [if_neg hc] at h
      cases t with
      | enum vs => cases h
      | struct fs =>
        simp only at h
        split at h
        · cases h
        · split at h
          · cases h
          · split at h
            · cases h; exact has_insert.2 (Or.inl rfl)
            · split at h
              · cases h
              · split at h
                · cases h
                · cases h; exact has_insert.2 (Or.inl rfl)

/-! ### the same step on both sides -/

theorem depsLoop_agree {U : Str → Prop} {a b : AST} (hs : SameOn U a b)
    (hda : ((decls a).map Prod.fst).Nodup)
    {rec rec' : Str → Ty → SecondPass → Except Fault SecondPass}
    (hrec : ∀ m t s s' r r', U m → (m, t) ∈ decls a → UnresIn a s → UnresIn b r → Agree U s.cache r.cache →
      rec m t s = .ok s' → rec' m t r = .ok r' → UnresIn a s' ∧ UnresIn b r' ∧ Agree U s'.cache r'.cache)
    (hca : ∀ m t s s', rec m t s = .ok s' → s.cache.has m = true → s' = s)
    (hcb : ∀ m t s s', rec' m t s = .ok s' → s.cache.has m = true → s' = s)
    (nots : List (Str × Unresolved)) (hn : ∀ f ∈ nots, U f.2.name) (s s' r r' : SecondPass)
    (hua : UnresIn a s) (hub : UnresIn b r) (hag : Agree U s.cache r.cache)
    (h : depsLoop rec nots s = .ok s') (h' : depsLoop rec' nots r = .ok r') :
    UnresIn a s' ∧ UnresIn b r' ∧ Agree U s'.cache r'.cache := by
  induction nots generalizing s r with
  | nil => simp only [depsLoop] at h h'; cases h; cases h'; exact ⟨hua, hub, hag⟩
  | cons x nots ih =>
    obtain ⟨fn, u⟩ := x
    have hU : U u.name := hn _ List.mem_cons_self
    have ih := ih fun f hf => hn f (List.mem_cons_of_mem _ hf)
    by_cases hc : s.cache.has u.name = true
    · have hc' : r.cache.has u.name = true := by rw [← hag.has hU]; exact hc
      have ea : ∃ s1, UnresIn a s1 ∧ s1.cache = s.cache ∧ depsLoop rec nots s1 = .ok s' := by
        simp only [depsLoop] at h
        split at h
        · split at h
          · cases h
          · rename_i s1 h1
            cases hca _ _ _ _ h1 hc
            exact ⟨_, hua.erase _, rfl, h⟩
        · rw [if_pos hc] at h
          exact ⟨s, hua, rfl, h⟩
      have eb : ∃ s1, UnresIn b s1 ∧ s1.cache = r.cache ∧ depsLoop rec' nots s1 = .ok r' := by
        simp only [depsLoop] at h'
        split at h'
        · split at h'
          · cases h'
          · rename_i s1 h1
            cases hcb _ _ _ _ h1 hc'
            exact ⟨_, hub.erase _, rfl, h'⟩
        · rw [if_pos hc'] at h'
          exact ⟨r, hub, rfl, h'⟩
      obtain ⟨s1, a1, a2, a3⟩ := ea
      obtain ⟨r1, b1, b2, b3⟩ := eb
      exact ih s1 r1 a1 b1 (by rw [a2, b2]; exact hag) a3 b3
    · have hc' : ¬ r.cache.has u.name = true := by rw [← hag.has hU]; exact hc
      simp only [depsLoop] at h h'
      cases hg : s.unresolved.get u.name with
      | none => rw [hg] at h; simp only [if_neg hc] at h; cases h
      | some t =>
        rw [hg] at h
        cases hg' : r.unresolved.get u.name with
        | none => rw [hg'] at h'; simp only [if_neg hc'] at h'; cases h'
        | some t' =>
          rw [hg'] at h'
          have hdt := hua _ _ hg
          have hdt' := (hs.decl _ hU _).2 (hub _ _ hg')
          cases decl_unique hda hdt hdt'
          simp only at h h'
          split at h
          · cases h
          · rename_i s1 h1
            split at h'
            · cases h'
            · rename_i r1 h2
              obtain ⟨i1, i2, i3⟩ := hrec _ _ _ _ _ _ hU hdt (hua.erase _) (hub.erase _) hag h1 h2
              exact ih s1 r1 i1 i2 i3 h h'

theorem resolveOne_agree {U : Str → Prop} {a b : AST} (hs : SameOn U a b) (hda : ((decls a).map Prod.fst).Nodup)
    (fuel fuel' : Nat) (n : Str) (t : Ty) (s s' r r' : SecondPass) (hn : U n) (hd : (n, t) ∈ decls a)
    (hua : UnresIn a s) (hub : UnresIn b r) (hag : Agree U s.cache r.cache)
    (h : resolveOneSecondPass fuel n t s = .ok s') (h' : resolveOneSecondPass fuel' n t r = .ok r') :
    UnresIn a s' ∧ UnresIn b r' ∧ Agree U s'.cache r'.cache := by
  induction fuel generalizing fuel' n t s s' r r' with
  | zero => cases h
  | succ fuel ih =>
    cases fuel' with
    | zero => cases h'
    | succ fuel' =>
      by_cases hc : s.cache.has n = true
      · have hc' : r.cache.has n = true := by rw [← hag.has hn]; exact hc
        rw [resolveOne_cached h hc, resolveOne_cached h' hc']
        exact ⟨hua, hub, hag⟩
      · have hc' : ¬ r.cache.has n = true := by rw [← hag.has hn]; exact hc
        unfold resolveOneSecondPass at h h'
        rw [if_neg hc] at h
        rw [if_neg hc'] at h'
        cases t with
        | enum vs => cases h
        | struct fs =>
          simp only at h h'
          split at h
          · cases h
          · split at h'
            · cases h'
            · have hfs := hs.closed _ _ hn hd
              rw [← splitFields_agree hag n fs hfs] at h'
              cases hsp : splitFields s.cache n fs with
              | error e => rw [hsp] at h; cases h
              | ok x =>
                obtain ⟨fields, nots⟩ := x
                rw [hsp] at h h'
                simp only at h h'
                have hnots : ∀ f ∈ nots, U f.2.name := fun f hf => hfs f (splitFields_mem hsp f hf)
                by_cases he : nots.isEmpty = true
                · rw [if_pos he] at h h'
                  cases h; cases h'
                  exact ⟨hua, hub, hag.insert _ _⟩
                · rw [if_neg he] at h h'
                  split at h
                  · cases h
                  · rename_i s1 h1
                    split at h'
                    · cases h'
                    · rename_i r1 h2
                      obtain ⟨i1, i2, i3⟩ := depsLoop_agree hs hda
                        (fun m t s s' r r' a1 a2 a3 a4 a5 a6 a7 => ih fuel' m t s s' r r' a1 a2 a3 a4 a5 a6 a7)
                        (fun _ _ _ _ h h' => resolveOne_cached h h') (fun _ _ _ _ h h' => resolveOne_cached h h')
                        nots hnots { s with visited := n :: s.visited } _ { r with visited := n :: r.visited } _ hua hub hag h1 h2
                      rw [← finishFields_agree i3 n nots hnots] at h'
                      split at h
                      · cases h
                      · split at h'
                        · cases h'
                        · rename_i x1 hx1 _ x2 hx2
                          rw [hx1] at hx2
                          cases hx2
                          cases h; cases h'
                          exact ⟨i1, i2, i3.insert _ _⟩

/-! ### the steps of one side, followed by the other -/

/-- `l` are steps that do, on names in `U`, what led from `s` to `s'`. -/
structure Follows (U : Str → Prop) (a b : AST) (s s' : SecondPass) (l : List (Str × Ty)) : Prop where
  used : ∀ e ∈ l, U e.1 ∧ e ∈ decls a
  before : ∀ e ∈ l, s.cache.has e.1 = false
  after : ∀ e ∈ l, s'.cache.has e.1 = true
  nodup : (l.map Prod.fst).Nodup
  unres : UnresIn a s'
  ext : Ext s.cache s'.cache
  run : ∀ fuel r r', UnresIn b r → Agree U s.cache r.cache → secondPassLoop fuel l r = .ok r' →
    UnresIn b r' ∧ Agree U s'.cache r'.cache

theorem Follows.refl {U a b s} (hs : UnresIn a s) : Follows U a b s s [] :=
  ⟨by simp, by simp, by simp, by simp, hs, .refl _, fun _ _ _ hu hag h => by cases h; exact ⟨hu, hag⟩⟩

theorem Follows.trans {U a b s s' s'' l l'} (h : Follows U a b s s' l) (h' : Follows U a b s' s'' l') :
    Follows U a b s s'' (l ++ l') := by
  refine ⟨?_, ?_, ?_, ?_, h'.unres, h.ext.trans h'.ext, ?_⟩
  · intro e he
    rcases List.mem_append.1 he with he | he
    · exact h.used e he
    · exact h'.used e he
  · intro e he
    rcases List.mem_append.1 he with he | he
    · exact h.before e he
    · have := h'.before e he
      cases hb : s.cache.has e.1 with
      | false => rfl
      | true => rw [h.ext.has hb] at this; cases this
  · intro e he
    rcases List.mem_append.1 he with he | he
    · exact h'.ext.has (h.after e he)
    · exact h'.after e he
  · rw [List.map_append, List.nodup_append]
    refine ⟨h.nodup, h'.nodup, ?_⟩
    intro x hx y hy hxy
    obtain ⟨e, he, rfl⟩ := List.mem_map.1 hx
    obtain ⟨e', he', rfl⟩ := List.mem_map.1 hy
    have h1 := h.after e he
    have h2 := h'.before e' he'
    rw [← hxy, h1] at h2
    cases h2
  · intro fuel r r' hu hag hr
    obtain ⟨r1, h1, h2⟩ := secondPassLoop_append hr
    obtain ⟨i1, i2⟩ := h.run _ _ _ hu hag h1
    exact h'.run _ _ _ i1 i2 h2

theorem Follows.congr {U a b s s' t l} (h : Follows U a b s s' l) (hc : t.cache = s.cache) : Follows U a b t s' l :=
  ⟨h.used, by rw [hc]; exact h.before, h.after, h.nodup, h.unres, by rw [hc]; exact h.ext, by rw [hc]; exact h.run⟩

theorem depsLoop_follow {U : Str → Prop} {a b : AST}
    {rec : Str → Ty → SecondPass → Except Fault SecondPass}
    (hrec : ∀ m t s s', (m, t) ∈ decls a → UnresIn a s → rec m t s = .ok s' → ∃ l, Follows U a b s s' l)
    (nots : List (Str × Unresolved)) (s s' : SecondPass) (hua : UnresIn a s) (h : depsLoop rec nots s = .ok s') :
    ∃ l, Follows U a b s s' l := by
  induction nots generalizing s with
  | nil => simp only [depsLoop] at h; cases h; exact ⟨_, .refl hua⟩
  | cons x nots ih =>
    obtain ⟨fn, u⟩ := x
    simp only [depsLoop] at h
    split at h
    · rename_i t hg
      split at h
      · cases h
      · rename_i s1 h1
        obtain ⟨l, hl⟩ := hrec _ _ _ _ (hua _ _ hg) (hua.erase _) h1
        obtain ⟨l', hl'⟩ := ih s1 hl.unres h
        exact ⟨_, (hl.congr (t := s) rfl).trans hl'⟩
    · split at h
      · exact ih s hua h
      · cases h

theorem resolveOne_follow {U : Str → Prop} {a b : AST} (hs : SameOn U a b) (hda : ((decls a).map Prod.fst).Nodup)
    (fuel : Nat) (n : Str) (t : Ty) (s s' : SecondPass) (hd : (n, t) ∈ decls a) (hua : UnresIn a s)
    (h : resolveOneSecondPass fuel n t s = .ok s') : ∃ l, Follows U a b s s' l := by
  induction fuel generalizing n t s s' with
  | zero => cases h
  | succ fuel ih =>
    by_cases hc : s.cache.has n = true
    · rw [resolveOne_cached h hc]; exact ⟨_, .refl hua⟩
    · by_cases hn : U n
      · have hD := resolveOne_data (ast := a) (B := s.cache) _ _ _ _ _ h hd hua
        refine ⟨[(n, t)], ⟨by simpa using ⟨hn, hd⟩, by simpa using hc, by simpa using resolveOne_has h, by simp,
          (resolveOne_reach _ _ _ _ _ h hd hua).1, hD.ext, ?_⟩⟩
        intro fuel' r r' hub hag hr
        unfold secondPassLoop at hr
        split at hr
        · cases hr
        · rename_i r1 h1
          simp only [secondPassLoop] at hr
          cases hr
          exact (resolveOne_agree hs hda _ _ _ _ _ _ _ _ hn hd hua hub hag h h1).2
      · have hcf : s.cache.has n = false := by simpa using hc
        unfold resolveOneSecondPass at h
        rw [if_neg hc] at h
        have ins : ∀ l (s1 : SecondPass) e, Follows U a b s s1 l → s1.cache.has n = false →
            Follows U a b s { s1 with cache := s1.cache.insert n e } l := by
          intro l s1 e hf h1
          have hE : Ext s1.cache (s1.cache.insert n e) := Ext.insert h1
          exact ⟨hf.used, hf.before, fun e he => hE.has (hf.after e he), hf.nodup, hf.unres, hf.ext.trans hE,
            fun fuel r r' hu hag hr => ⟨(hf.run fuel r r' hu hag hr).1, (hf.run fuel r r' hu hag hr).2.insert_left _ hn⟩⟩
        cases t with
        | enum vs => cases h
        | struct fs =>
          simp only at h
          split at h
          · cases h
          · split at h
            · cases h
            · split at h
              · cases h
                exact ⟨[], ins [] { s with visited := n :: s.visited } _ ((Follows.refl (s := { s with visited := n :: s.visited }) hua).congr rfl) hcf⟩
              · split at h
                · cases h
                · rename_i s1 h1
                  obtain ⟨l, hl⟩ := depsLoop_follow (fun m t s s' x y z => ih m t s s' x y z) _ _ _ (by exact hua) h1
                  have hD := depsLoop_data (B := s.cache) (ast := a)
                    (fun m t st st' hh hm hu' => resolveOne_data fuel m t st st' hh hm hu') _
                    { s with visited := n :: s.visited } _ hua h1
                  split at h
                  · cases h
                  · cases h
                    exact ⟨l, ins l s1 _ (hl.congr rfl) (hD.frozen n (by simp) hcf)⟩

theorem secondPassLoop_follow {U : Str → Prop} {a b : AST} (hs : SameOn U a b) (hda : ((decls a).map Prod.fst).Nodup)
    (fuel : Nat) (k : List (Str × Ty)) (s s' : SecondPass) (hk : ∀ e ∈ k, e ∈ decls a) (hua : UnresIn a s)
    (h : secondPassLoop fuel k s = .ok s') : ∃ l, Follows U a b s s' l := by
  induction k generalizing s with
  | nil => simp only [secondPassLoop] at h; cases h; exact ⟨_, .refl hua⟩
  | cons x k ih =>
    obtain ⟨n, t⟩ := x
    simp only [secondPassLoop] at h
    split at h
    · cases h
    · rename_i s1 h1
      obtain ⟨l, hl⟩ := resolveOne_follow (b := b) hs hda _ _ _ _ _ (hk _ List.mem_cons_self) hua h1
      obtain ⟨l', hl'⟩ := ih s1 (fun e he => hk e (List.mem_cons_of_mem _ he)) hl.unres h
      exact ⟨_, hl.trans hl'⟩

/-! ### whole runs -/

theorem FP.unique {n : Str} {t : Ty} {x y : Option RType} (h : FP n t (.ok x)) (h' : FP n t (.ok y)) : x = y := by
  have forall_unique : ∀ {fs : List (Str × Unresolved)} {rs rs' : List RField}, List.Forall₂ (FieldOk getBuiltins) fs rs →
      List.Forall₂ (FieldOk getBuiltins) fs rs' → rs = rs' := by
    intro fs rs rs' h
    induction h generalizing rs' with
    | nil => intro h; cases h; rfl
    | cons hr _ ih =>
      intro h'
      cases h' with
      | cons hr' ht =>
        rw [ih ht]
        congr 1
        have := hr.ty.symm.trans hr'.ty
        simp only [Option.some.injEq, Prod.mk.injEq, true_and] at this
        have e1 := hr.name.trans hr'.name.symm
        have e2 := hr.tyName.trans hr'.tyName.symm
        have e3 := hr.array.trans hr'.array.symm
        have e4 := hr.optional.trans hr'.optional.symm
        clear hr hr'
        rename_i x y _ _ _ z _
        cases y; cases z
        simp only at e1 e2 e3 e4 this
        subst e1 e2 e3 e4 this
        rfl
  have full_part : ∀ {fs : List (Str × Unresolved)} {rs : List RField}, List.Forall₂ (FieldOk getBuiltins) fs rs →
      ¬ ∃ f ∈ fs, f.2.name ∉ builtinNames := by
    rintro fs rs h ⟨f, hf, hb⟩
    induction h with
    | nil => cases hf
    | cons hr _ ih =>
      rcases List.mem_cons.1 hf with rfl | hf
      · exact hb ((builtins_has _).1 ((Map.has_iff _ _).2 ⟨_, hr.ty⟩))
      · exact ih hf
  cases h with
  | enumOk vs _ => cases h' with | enumOk => rfl
  | structFull fs rfs _ h1 =>
    cases h' with
    | structFull _ rfs' _ h2 => rw [forall_unique h1 h2]
    | structPart _ _ h2 => exact absurd h2 (full_part h1)
  | structPart fs _ h1 =>
    cases h' with
    | structFull _ rfs' _ h2 => exact absurd h1 (full_part h2)
    | structPart => rfl

theorem Between.agree {U : Str → Prop} {a b : AST} (hs : SameOn U a b) {A B : TypeMap} {u v : Map Ty} (ha : Between a A u)
    (hb : Between b B v) : Agree U A B := by
  intro n hn
  by_cases hd : Declared a n
  · obtain ⟨t, ht⟩ := hd
    rcases ha.decl n t ht with ⟨r, h1, h2, -⟩ | ⟨h1, h2, -⟩ <;>
    rcases hb.decl n t ((hs.decl n hn t).1 ht) with ⟨r', h3, h4, -⟩ | ⟨h3, h4, -⟩ <;>
    · cases FP.unique h1 h3
      all_goals rw [h2, h4]
  · rw [(ha.other n hd).1, (hb.other n (fun ⟨t, ht⟩ => hd ⟨t, (hs.decl n hn t).2 ht⟩)).1]

/-- First the entries of `l`, then the others. -/
noncomputable def firstThese (l k : List (Str × Ty)) : List (Str × Ty) :=
  open Classical in if l.Subperm k then l ++ k.diff l else k

theorem firstThese_fair (l : List (Str × Ty)) : FairOrd (firstThese l) := by
  intro k
  unfold firstThese
  split
  · rename_i h
    exact List.subperm_append_diff_self_of_count_le (List.subperm_ext_iff.1 h)
  · exact .refl _

/-- The second schema can be resolved as the first, on the names on which they agree. -/
theorem typeCheck_follow {U : Str → Prop} {a b : AST} (hs : SameOn U a b) (hcl : ∀ n, U n → Declared a n ∨ n ∈ builtinNames)
    {ord} (hord : FairOrd ord) {r} (h : typeCheck ord a = .ok r) : ∃ (c : TypeMap) (l : List (Str × Ty)),
      (∃ B u, After a B c u) ∧ r.types = removeUnused (exportVisited [r.export.name] r.export.fields) c ∧
      c.get r.export.name = some (r.export.name, .struct r.export.fields) ∧
      ∀ r', typeCheck (firstThese l) b = .ok r' → ∃ d, (∃ B u, After b B d u) ∧
        r'.types = removeUnused (exportVisited [r'.export.name] r'.export.fields) d ∧
        d.get r'.export.name = some (r'.export.name, .struct r'.export.fields) ∧ Agree U c d := by
  obtain ⟨A, u, st, hA, hrun, hex, hge, hty⟩ := typeCheck_run hord h
  have hBa := hA.between
  have hua : UnresIn a ⟨A, [], u⟩ := fun n t hn => (hBa.J.unres n t hn).1
  obtain ⟨l, hl⟩ := secondPassLoop_follow (b := b) hs hBa.nodup _ _ _ _ (by
    intro e he
    exact hua e.1 e.2 (Map.mem_get hBa.ukeys ((hord u).mem_iff.1 he))) hua hrun
  refine ⟨st.cache, l, ⟨A, u, hA⟩, hty, hge, ?_⟩
  intro r' h'
  obtain ⟨B, v, st', hB, hrun', hex', hge', hty'⟩ := typeCheck_run (firstThese_fair l) h'
  have hBb := hB.between
  have hag := Between.agree hs hBa hBb
  have hub : UnresIn b ⟨B, [], v⟩ := fun n t hn => (hBb.J.unres n t hn).1
  refine ⟨st'.cache, ⟨B, v, hB⟩, hty', hge', ?_⟩
  have hsub : l.Subperm v := by
    refine List.subperm_of_subset (List.Nodup.of_map _ hl.nodup) ?_
    intro e he
    obtain ⟨h1, h2⟩ := hl.used e he
    rcases hBb.decl e.1 e.2 ((hs.decl _ h1 _).1 h2) with ⟨x, -, h3, -⟩ | ⟨-, -, h3⟩
    · have := hl.before e he
      rw [hag.has h1] at this
      rw [(Map.has_iff _ _).2 ⟨_, h3⟩] at this
      cases this
    · exact Map.get_mem h3
  have he : firstThese l v = l ++ v.diff l := by unfold firstThese; exact if_pos hsub
  rw [he] at hrun'
  obtain ⟨st1, h1, h2⟩ := secondPassLoop_append hrun'
  obtain ⟨i1, i2⟩ := hl.run _ _ _ hub hag h1
  have hD := secondPassLoop_data (ast := b) (B := B) _ _ _ _ h2 (by
    intro e he
    exact hub e.1 e.2 (Map.mem_get hBb.ukeys ((List.diff_sublist _ _).subset he))) i1
  intro n hn
  have hhas : st.cache.has n = true := by
    rcases hcl n hn with h3 | h3
    · exact hA.decl n h3
    · exact hA.builtin n h3
  obtain ⟨e, he⟩ := (Map.has_iff _ _).1 hhas
  have := i2 n hn
  rw [he] at this
  rw [he, hD.ext _ _ this.symm]

end Packetc.Check
