import Verif.Proof.Fuzz
import Verif.Props.Gen
/-!
# C83: the files written by `scripts/gen_random_pkt.py`
-/

namespace Packetc.Props
open Ast Grammar WellFormed Fuzz

/-- Every run of the script ends normally, and the file it leaves compiles. -/
def C83_claim : Prop :=
  ∀ ds s, MainRun ds s → ∀ env : Env, env.Fair → ∃ file code, s.finish = .finished file ∧ compile env file = .ok code

theorem C83_lines {ds : List Def} {s : State} (hr : MainRun ds s) (hu : ∀ d ∈ ds, d.Unreserved) :
    Lines (astOf ds) s.text := by
  obtain ⟨h1, h2, -⟩ := loop_facts hr
  rw [h2]
  have := lines_defs (by decide) words_pkt h1 hu Lines.nil
  simpa [State.init] using this

/-- The export line that the script writes at the end. -/
theorem C83_export {ds : List Def} {s : State} (hr : MainRun ds s) (hu : ∀ d ∈ ds, d.Unreserved) (hne : s.text ≠ [])
    {n : Str} (hn : Word n) : Schema (astOf ds ++ [n].map .export) (s.text ++ ("\n export ".toList ++ n)) := by
  refine ⟨[], s.text ++ ("\n export ".toList ++ n), rfl, (by intro c hc; cases hc), ?_⟩
  have hx : Lines [.export n] (" export ".toList ++ n) := by
    have := Lines.export (b₁ := " ".toList) (b₂ := " ".toList) (name := n) (l := []) (ts := [])
      Parser.blank_sp Parser.blank_sp hn (by intro c hc; cases hc)
      (by rw [List.append_nil]; exact Parser.blankEnd_word hn (by intro c cs h; cases h))
      (by intro c cs h; cases h) .nil
    have e : " export ".toList = " ".toList ++ "export".toList ++ " ".toList := rfl
    rw [e]
    simpa using this
  have := Parser.lines_append (nl := []) (C83_lines hr hu) hx hne
    (by intro c hc; rw [List.mem_singleton] at hc; exact Or.inl hc)
  have e : s.text ++ ("\n export ".toList ++ n) = s.text ++ '\n' :: [] ++ (" export ".toList ++ n) := by
    rw [show "\n export ".toList = '\n' :: " export ".toList from rfl]; simp
  rw [e]; exact this

theorem C83_noExport {ds : List Def} {s : State} (hr : MainRun ds s) (hu : ∀ d ∈ ds, d.Unreserved) :
    Schema (astOf ds ++ ([] : List Str).map .export) s.text :=
  ⟨[], s.text, rfl, (by intro c hc; cases hc), by
    rw [List.map_nil, List.append_nil]; exact C83_lines hr hu⟩

/-- **Exactly which runs are useful.** A run of the script ends normally with a file that compiles if and only if the
choices were lucky: no name drawn twice, no variant drawn twice in an enum, no variant beginning with a reserved
word, no field name drawn twice in the leading builtin fields of a struct (and the field after them), and the last
line containing the letters `struct` is the definition of a struct. If the script ends with an exception, the file
it leaves behind does not compile.

What is missing: the claim for all runs; it is false (`C83_false`). -/
theorem C83_exact_partial {ds : List Def} {s : State} (hr : MainRun ds s) {env : Env} (hf : env.Fair) :
    ((∃ file code, s.finish = .finished file ∧ compile env file = .ok code) ↔ Good ds) ∧
    ∀ file, s.finish = .exception file → ¬ ∃ code, compile env file = .ok code := by
  obtain ⟨hok, htext, hexp⟩ := loop_facts hr
  have htext : s.text = ds.flatMap Def.line := htext
  have hexp : s.export = exportAfter none ds := hexp
  have hbad : ∀ rest, (¬ ∀ d ∈ ds, d.Unreserved) → ¬ ∃ code, compile env (s.text ++ rest) = .ok code := by
    intro rest hu hc
    obtain ⟨ast, h1, -⟩ := ((C45_outcome hf _).2.2).mp hc
    rw [htext] at h1
    exact defs_bad_schema (by decide) words_pkt hok hu rest ⟨ast, h1⟩
  have huniq : ∀ {t ast}, Schema ast t → ((∃ code, compile env t = .ok code) ↔ WF ast) := by
    intro t ast hs
    rw [(C45_outcome hf _).2.2]
    exact ⟨fun ⟨a, h1, h2⟩ => C01_grammar_unambiguous h1 hs ▸ h2, fun h => ⟨ast, hs, h⟩⟩
  rcases exportAfter_last none ds with hno | ⟨pre, d, post, hds, hd, hpost, hlast⟩
  · -- no line contains `struct`
    have he : s.export = none := by rw [hexp, exportAfter_none hno]
    have hfin : s.finish = .exception s.text := by unfold State.finish; rw [he]
    refine ⟨⟨?_, ?_⟩, ?_⟩
    · rintro ⟨file, code, h, -⟩; rw [hfin] at h; cases h
    · intro hg
      obtain ⟨pre, post, i, w₁, w₂, op, cl, fs, rfl, -⟩ := hg.last
      exact absurd (struct_contains i w₁ w₂ op cl fs) (hno _ (by simp))
    · intro file h
      rw [hfin] at h; injection h with h; subst h
      by_cases hu : ∀ d ∈ ds, d.Unreserved
      · rw [huniq (C83_noExport hr hu), wf_iff hok]
        rintro ⟨-, -, -, _, _, _, _, _, _, -, h⟩; cases h
      · have := hbad [] hu; rwa [List.append_nil] at this
  · have hmem : d ∈ ds := by rw [hds]; simp
    obtain ⟨_, hdok⟩ := allOk_mem hok hmem
    have he : s.export = some d.name := by rw [hexp, hlast]
    have hgl : Good ds → ∃ i w₁ w₂ op cl fs, d = .struct i w₁ w₂ op cl fs := by
      intro hg
      obtain ⟨pre', post', i, w₁, w₂, op, cl, fs, hds', hpost'⟩ := hg.last
      have hst := struct_contains i w₁ w₂ op cl fs
      rw [hds'] at hds
      rcases List.append_eq_append_iff.mp hds with ⟨a, h1, h2⟩ | ⟨a, h1, h2⟩
      · cases a with
        | nil => injection h2 with h2 _; exact ⟨_, _, _, _, _, _, h2.symm⟩
        | cons x a =>
          injection h2 with h2 h3; subst h2
          exact absurd hd (hpost' d (by rw [h3]; simp))
      · cases a with
        | nil => injection h2 with h2 _; exact ⟨_, _, _, _, _, _, h2⟩
        | cons x a =>
          injection h2 with h2 h3; subst h2
          exact absurd hst (hpost _ (by rw [h3]; simp))
    cases hname : d.name with
    | none =>
      have hfin : s.finish = .exception s.text := by unfold State.finish; rw [he, hname]
      refine ⟨⟨?_, ?_⟩, ?_⟩
      · rintro ⟨file, code, h, -⟩; rw [hfin] at h; cases h
      · intro hg
        obtain ⟨i, w₁, w₂, op, cl, fs, rfl⟩ := hgl hg
        cases hname
      · intro file h
        rw [hfin] at h; injection h with h; subst h
        by_cases hu : ∀ d ∈ ds, d.Unreserved
        · rw [huniq (C83_noExport hr hu), wf_iff hok]
          rintro ⟨-, -, -, _, _, _, _, _, _, -, h⟩; cases h
        · have := hbad [] hu; rwa [List.append_nil] at this
    | some n =>
      have hfin : s.finish = .finished (s.text ++ ("\n export ".toList ++ n)) := by
        unfold State.finish; rw [he, hname]
      refine ⟨?_, fun file h => by rw [hfin] at h; cases h⟩
      have e : (∃ file code, s.finish = .finished file ∧ compile env file = .ok code) ↔
          ∃ code, compile env (s.text ++ ("\n export ".toList ++ n)) = .ok code := by
        rw [hfin]
        constructor
        · rintro ⟨file, code, h, hc⟩; injection h with h; subst h; exact ⟨code, hc⟩
        · rintro ⟨code, hc⟩; exact ⟨_, code, rfl, hc⟩
      rw [e]
      by_cases hu : ∀ d ∈ ds, d.Unreserved
      · have hne : s.text ≠ [] := by
          rw [htext, hds]
          intro h0
          rw [List.flatMap_append, List.flatMap_cons, List.append_eq_nil_iff, List.append_eq_nil_iff] at h0
          rw [h0.2.1] at hd
          have := List.IsInfix.length_le hd
          simp at this
        rw [huniq (C83_export hr hu hne (ident_word (name_ident hdok hname).1)), wf_iff hok]
        constructor
        · rintro ⟨g1, g2, g3, i, w₁, w₂, op, cl, fs, hm, hin⟩
          refine ⟨g1, g2, (unreserved_iff ds).mp hu, g3, ?_⟩
          -- the exported name is that of a struct, and names are distinct
          have hdn : d = .struct i w₁ w₂ op cl fs := by
            injection hin with hin _
            obtain ⟨p, q, hpq⟩ := List.append_of_mem hm
            have hcap : (Def.struct i w₁ w₂ op cl fs).name = some n := by rw [hin]; rfl
            rw [hds] at hpq
            have e1 : ds.filterMap Def.name = pre.filterMap Def.name ++ n :: post.filterMap Def.name := by
              rw [hds, List.filterMap_append, List.filterMap_cons, hname]
            rw [e1] at g1
            rcases List.append_eq_append_iff.mp hpq with ⟨a, h1, h2⟩ | ⟨a, h1, h2⟩
            · cases a with
              | nil => injection h2
              | cons x a =>
                injection h2 with h2 h3
                have : n ∈ post.filterMap Def.name :=
                  List.mem_filterMap.mpr ⟨_, by rw [h3]; exact List.mem_append_right _ List.mem_cons_self, hcap⟩
                rw [List.nodup_append] at g1
                exact absurd this (List.nodup_cons.mp g1.2.1).1
            · cases a with
              | nil => injection h2 with h2 _; exact h2.symm
              | cons x a =>
                injection h2 with h2 h3
                have : n ∈ pre.filterMap Def.name :=
                  List.mem_filterMap.mpr ⟨_, by rw [h1, ← h2]; exact List.mem_append_right _ List.mem_cons_self, hcap⟩
                rw [List.nodup_append] at g1
                exact absurd rfl (g1.2.2 n this n (by simp))
          subst hdn
          exact ⟨pre, post, i, w₁, w₂, op, cl, fs, hds, hpost⟩
        · intro hg
          refine ⟨hg.names, hg.distinct, hg.fields, ?_⟩
          obtain ⟨i, w₁, w₂, op, cl, fs, rfl⟩ := hgl hg
          injection hname with hname
          exact ⟨i, w₁, w₂, op, cl, fs, hmem, by rw [← hname]⟩
      · constructor
        · intro h; exact absurd h (hbad _ hu)
        · intro hg; exact absurd ((unreserved_iff ds).mpr hg.unreserved) hu

/-! ### Examples of runs -/

instance : DecidablePred Identifier
  | [] => isFalse id
  | _ :: _ => inferInstanceAs (Decidable (_ ∧ _ ∧ _))

/-- Definitions drawn one after the other, followed by empty comments, make a run. -/
theorem loop_pad (k : Nat) {ds : List Def} {s : State} (h : AllOk s.types ds)
    (hs : s.size + (ds.flatMap Def.line).length + 2 * k < 1048576) :
    ∃ s', Loop (ds.length + k) s (ds ++ List.replicate k (.comment [])) s' := by
  induction ds generalizing s with
  | cons d ds ih =>
    rw [List.flatMap_cons, List.length_append] at hs
    have hsz : (step s d).size = s.size + d.line.length := rfl
    obtain ⟨s', h'⟩ := ih (s := step s d) h.2 (by rw [hsz]; omega)
    refine ⟨s', ?_⟩
    rw [show (d :: ds).length + k = (ds.length + k) + 1 by simp; omega]
    exact .next (by omega) h.1 h'
  | nil =>
    induction k generalizing s with
    | zero => exact ⟨s, .done⟩
    | succ k ih =>
      simp only [List.flatMap_nil, List.length_nil, Nat.add_zero] at hs ih
      have hsz : (step s (.comment [])).size = s.size + 2 := rfl
      obtain ⟨s', h'⟩ := ih (s := step s (.comment [])) trivial (by rw [hsz]; omega)
      refine ⟨s', ?_⟩
      rw [show ([] : List Def).length + (k + 1) = (([] : List Def).length + k) + 1 by omega]
      exact .next (by omega) ⟨by simp, by simp⟩ h'

theorem C83_false : ¬ C83_claim := by
  intro h
  obtain ⟨s, hs⟩ := loop_pad 100 (ds := []) (s := State.init) trivial (by decide)
  obtain ⟨file, code, hfin, -⟩ := h _ s hs ⟨[], [], id, id⟩ (fair_id _ _)
  obtain ⟨-, -, hexp⟩ := loop_facts hs
  rw [exportAfter_none (by
    intro d hd
    have hd := List.eq_of_mem_replicate (n := 100) hd
    subst hd
    rw [← contains_iff]; decide)] at hexp
  unfold State.finish at hfin
  rw [hexp] at hfin
  cases hfin

/-- An enum and a struct that uses it, as the script may draw them, and 98 empty comments. -/
def luckyDefs : List Def :=
  [.enum "ea".toList " ".toList [] "\n".toList [] [("xa".toList, []), ("yB".toList, "\n".toList)],
   .struct "p_Q".toList [] "  ".toList "\n".toList " ".toList [⟨"fa".toList, "Ea".toList, true⟩]]

/-- The same with a variant that begins with a reserved word. -/
def unluckyDefs : List Def :=
  [.enum "ea".toList " ".toList [] "\n".toList [] [("xa".toList, []), ("enumB".toList, "\n".toList)],
   .struct "p_Q".toList [] "  ".toList "\n".toList " ".toList [⟨"fa".toList, "Ea".toList, true⟩]]

example : ∃ s, MainRun (luckyDefs ++ List.replicate 98 (.comment [])) s ∧
    Good (luckyDefs ++ List.replicate 98 (.comment [])) ∧
    ∃ file code, s.finish = .finished file ∧ compile ⟨[], [], id, id⟩ file = .ok code := by
  have hok : AllOk State.init.types luckyDefs := by
    refine ⟨⟨by decide, ⟨1, by decide, rfl⟩, ⟨0, by decide, rfl⟩, by unfold WhitespaceNl; decide,
      by unfold WhitespaceNl; decide, by decide, by unfold WhitespaceNl; decide⟩,
      ⟨by decide, ⟨0, by decide, rfl⟩, ⟨2, by decide, rfl⟩, by unfold WhitespaceNl; decide,
      by unfold WhitespaceNl; decide, ⟨1, by decide, by decide⟩, by decide, ?_⟩, trivial⟩
    intro f hf
    rw [List.mem_singleton] at hf; subst hf
    exact ⟨by decide, by decide +kernel⟩
  obtain ⟨s, hs⟩ := loop_pad 98 hok (by decide +kernel)
  have hmem : ∀ d ∈ luckyDefs ++ List.replicate 98 (.comment []), d ∈ luckyDefs ∨ d = .comment [] := by
    intro d hd
    rcases List.mem_append.mp hd with h | h
    · exact Or.inl h
    · exact Or.inr (List.eq_of_mem_replicate h)
  have hg : Good (luckyDefs ++ List.replicate 98 (.comment [])) := by
    refine ⟨by decide +kernel, ?_, ?_, ?_, ?_⟩
    · intro i w₁ w₂ op cl vs hm
      rcases hmem _ hm with h | h
      · simp only [luckyDefs, List.mem_cons, List.not_mem_nil, or_false, reduceCtorEq] at h
        injection h with _ _ _ _ _ h; subst h; decide
      · cases h
    · intro i w₁ w₂ op cl vs hm
      rcases hmem _ hm with h | h
      · simp only [luckyDefs, List.mem_cons, List.not_mem_nil, or_false, reduceCtorEq] at h
        injection h with _ _ _ _ _ h; subst h; decide +kernel
      · cases h
    · intro i w₁ w₂ op cl fs hm pre f post e _
      rcases hmem _ hm with h | h
      · simp only [luckyDefs, List.mem_cons, List.not_mem_nil, or_false, reduceCtorEq, false_or] at h
        injection h with _ _ _ _ _ h; subst h
        cases pre with
        | nil => simp
        | cons x pre => injection e with _ e; cases pre <;> cases e
      · cases h
    · refine ⟨[luckyDefs.head (by decide)], List.replicate 98 (.comment []), _, _, _, _, _, _, rfl, ?_⟩
      intro d hd
      have hd := List.eq_of_mem_replicate hd
      subst hd
      rw [← contains_iff]; decide
  exact ⟨s, hs, hg, (C83_exact_partial hs (fair_id _ _)).1.mpr hg⟩

example : ∃ s, MainRun (unluckyDefs ++ List.replicate 98 (.comment [])) s ∧
    ¬ ∃ file code, s.finish = .finished file ∧ compile ⟨[], [], id, id⟩ file = .ok code := by
  have hok : AllOk State.init.types unluckyDefs := by
    refine ⟨⟨by decide, ⟨1, by decide, rfl⟩, ⟨0, by decide, rfl⟩, by unfold WhitespaceNl; decide,
      by unfold WhitespaceNl; decide, by decide, by unfold WhitespaceNl; decide⟩,
      ⟨by decide, ⟨0, by decide, rfl⟩, ⟨2, by decide, rfl⟩, by unfold WhitespaceNl; decide,
      by unfold WhitespaceNl; decide, ⟨1, by decide, by decide⟩, by decide, ?_⟩, trivial⟩
    intro f hf
    rw [List.mem_singleton] at hf; subst hf
    exact ⟨by decide, by decide +kernel⟩
  obtain ⟨s, hs⟩ := loop_pad 98 hok (by decide +kernel)
  refine ⟨s, hs, ?_⟩
  rw [(C83_exact_partial hs (fair_id _ _)).1]
  intro hg
  exact hg.unreserved _ _ _ _ _ _ (List.mem_append_left _ List.mem_cons_self) ("enumB".toList, "\n".toList)
    (by simp) "enum".toList (by decide) (by decide)

end Packetc.Props
