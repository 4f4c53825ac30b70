import Verif.Proof.RustLayout
import Verif.Props.RustInverse
import Verif.Props.Gen
/-!
# C123: generated code is indented by its brackets
-/

namespace Packetc.Layout
open Module (scan Balanced)

theorem layout_scan (s : Str) : ∀ st l p, layout st l s = some p → scan st s = some p.1 := by
  induction s with
  | nil => intro st l p h; obtain rfl := Option.some.inj h; rfl
  | cons c cs ih =>
    intro st l p h
    have hb : ∀ d : Char, d = ' ' ∨ d = '\n' → scan st [d] = some st := by rintro d (rfl | rfl) <;> rfl
    have step : ∀ st₁ l₁, scan st [c] = some st₁ → layout st₁ l₁ cs = some p → scan st (c :: cs) = some p.1 := by
      intro st₁ l₁ h1 h2
      rw [show c :: cs = [c] ++ cs from rfl, Module.scan_append, h1, Option.bind_some]
      exact ih _ _ _ h2
    cases l with
    | start n =>
      unfold layout at h
      split_ifs at h with h1 h2 h3
      · exact step _ _ (hb _ (.inl h1)) h
      · cases hs : scan st [c] with
        | none => rw [hs] at h; exact nomatch h
        | some st₁ => rw [hs] at h; exact step _ _ hs h
    | inside =>
      unfold layout at h
      split_ifs at h with h1
      · exact step _ _ (hb _ (.inr h1)) h
      · cases hs : scan st [c] with
        | none => rw [hs] at h; exact nomatch h
        | some st₁ => rw [hs] at h; exact step _ _ hs h

/-- After complete lines, a line begins. -/
theorem layout_newline {s : Str} {st l p} (h : layout st l (s ++ ['\n']) = some p) : p.2 = .start 0 := by
  rw [layout_append] at h
  cases hs : layout st l s with
  | none => rw [hs] at h; exact nomatch h
  | some q =>
    rw [hs, Option.bind_some] at h
    obtain ⟨st', l'⟩ := q
    cases l' with
    | start k =>
      have : layout st' (.start k) ['\n'] = none := rfl
      rw [this] at h
      exact nomatch h
    | inside =>
      have : layout st' .inside ['\n'] = some (st', .start 0) := rfl
      rw [this] at h
      obtain rfl := Option.some.inj h
      rfl

theorem layout_blanks (st : List Char) (n : Nat) : ∀ k, layout st (.start k) (List.replicate n ' ') = some (st, .start (k + n)) := by
  induction n with
  | zero => exact fun _ => rfl
  | succ n ih =>
    intro k
    have : layout st (.start k) (List.replicate (n + 1) ' ') = layout st (.start (k + 1)) (List.replicate n ' ') := rfl
    rw [this, ih, Nat.add_right_comm, Nat.add_assoc]

end Packetc.Layout

namespace Packetc.Props
open Ast Check Gen WellFormed Rs RustGen Module Layout

/-- C123: what the layout means: brackets match, the text consists of complete lines, and every line has as many blanks before its first
other character as there are brackets open, four for each, where a closing bracket at the beginning counts as closed. -/
theorem C123_meaning {text : Str} (h : LaidOut text) : Balanced text ∧ (text = [] ∨ ∃ s, text = s ++ ['\n']) ∧
    ∀ (pre : Str) (k : Nat) (c : Char) (post : Str), text = pre ++ (List.replicate k ' ' ++ c :: post) →
      (pre = [] ∨ ∃ s, pre = s ++ ['\n']) → c ≠ ' ' →
      c ≠ '\n' ∧ ∃ st, scan [] pre = some st ∧ k = 4 * (st.length - if c = ')' ∨ c = ']' ∨ c = '}' then 1 else 0) := by
  refine ⟨layout_scan _ _ _ _ h, ?_, ?_⟩
  · rcases List.eq_nil_or_concat text with e | ⟨s, c, e⟩
    · exact .inl e
    · refine .inr ⟨s, ?_⟩
      rw [List.concat_eq_append] at e
      subst e
      unfold LaidOut at h
      rw [layout_append] at h
      cases hs : layout [] (.start 0) s with
      | none => rw [hs] at h; exact nomatch h
      | some q =>
        rw [hs, Option.bind_some] at h
        obtain ⟨st', l'⟩ := q
        have hc : c = '\n' := by
          cases l' with
          | start k =>
            simp only [layout] at h
            split_ifs at h with h1
            · exact nomatch congrArg (fun p => (Option.map Prod.snd p)) h
            · cases hs : scan st' [c] with
              | none => rw [hs] at h; exact nomatch h
              | some _ => rw [hs] at h; exact nomatch congrArg (fun p => (Option.map Prod.snd p)) h
          | inside =>
            simp only [layout] at h
            split_ifs at h with h1
            · exact h1
            · cases hs : scan st' [c] with
              | none => rw [hs] at h; exact nomatch h
              | some _ => rw [hs] at h; exact nomatch congrArg (fun p => (Option.map Prod.snd p)) h
        rw [hc]
  · rintro pre k c post rfl hpre hc
    unfold LaidOut at h
    rw [layout_append] at h
    cases hs : layout [] (.start 0) pre with
    | none => rw [hs] at h; exact nomatch h
    | some q =>
      have hq : q.2 = .start 0 := by
        rcases hpre with rfl | ⟨s, rfl⟩
        · obtain rfl := Option.some.inj hs; rfl
        · exact layout_newline hs
      have hsc := layout_scan _ _ _ _ hs
      rw [hs, Option.bind_some, hq, layout_append, layout_blanks, Option.bind_some, Nat.zero_add] at h
      simp only [layout, if_neg hc] at h
      split_ifs at h with h1 h2
      exact ⟨h1, _, hsc, h2⟩

/-- C123: everything that is generated after the header is indented by its brackets, for every schema. -/
theorem C123_typescript {env : Env} (hf : env.Fair) {text code : Str} (h : compile env text = .ok code) :
    ∃ rest, code = header env.version env.now ++ rest ∧ LaidOut rest := by
  obtain ⟨ast, r, hp, ht, rfl⟩ := compile_ok hf h
  refine ⟨_, ?_, module_laidOut hp hf.1 ht (hf.2 _)⟩
  simp only [List.append_assoc]

/-- C123 for the Rust file. -/
theorem C123_rust {ast : AST} {r : Resolved} (hc : Checked ast r) {text : Str} (h : rustFile r = some text) : LaidOut text :=
  rust_laidOut hc h

/-- C123 in words: a line of the Rust file that does not begin with a closing bracket begins with four blanks for each bracket that is open;
there are no empty lines. -/
theorem C123_lines {ast : AST} {r : Resolved} (hc : Checked ast r) {text : Str} (h : rustFile r = some text)
    {pre : Str} {k : Nat} {c : Char} {post : Str} (e : text = pre ++ '\n' :: (List.replicate k ' ' ++ c :: post)) (hb : c ≠ ' ')
    (h1 : c ≠ ')') (h2 : c ≠ ']') (h3 : c ≠ '}') :
    c ≠ '\n' ∧ ∃ st, scan [] pre = some st ∧ k = 4 * st.length := by
  obtain ⟨hn, st, hs, hk⟩ := (C123_meaning (C123_rust hc h)).2.2 (pre ++ ['\n']) k c post (by rw [e]; simp) (.inr ⟨_, rfl⟩) hb
  refine ⟨hn, st, ?_, ?_⟩
  · rw [Module.scan_append] at hs
    cases hp : scan [] pre with
    | none => rw [hp] at hs; exact nomatch hs
    | some st' => rw [hp] at hs; exact hs
  · rw [if_neg (by simp [h1, h2, h3])] at hk
    exact hk

/-- A line that is indented too little, one that is indented too much, and an empty line are told from one that is indented. -/
example : LaidOut "if (a) {\n    b();\n}\n".toList ∧ ¬ LaidOut "if (a) {\nb();\n}\n".toList ∧ ¬ LaidOut "if (a) {\n    b();\n    }\n".toList ∧
    ¬ LaidOut "if (a) {\n    b();\n\n}\n".toList ∧ ¬ LaidOut "if (a) {\n    b();\n}".toList := by
  unfold LaidOut
  decide

/-- The hypotheses are met by an example schema, for both languages. -/
example : (∃ env code, Env.Fair env ∧ compile env exampleText = .ok code) ∧ ∃ r text, Checked orderedAst r ∧ rustFile r = some text :=
  ⟨⟨_, _, fair_id _ _, example_compiles.choose_spec⟩, _, _, ordered_checked, textFor_eq ordered_checked⟩

end Packetc.Props
