import Verif.Spec.EndToEnd
import Verif.Props.FolderFail
import Verif.Props.Interop
/-!
# From schemas in files to programs in files (C113)
-/

namespace Packetc.Props
open Ast Check WellFormed Js Gen Cli

theorem produced_compiles {env : Str → Env} {fs fs' : Files} {text : Str} {q : List Str} (h : Produced env fs fs' text q) :
    ∃ p code, fs' q = some (.file (some code)) ∧ compile (env p) text = .ok code := by
  cases h with
  | folder cwd path out dir place es b r hs hc hf hl hm hsc ho =>
    obtain ⟨ha, hcw⟩ := (C107_exact hs hc hf hl).1 ⟨fs', hm⟩
    obtain ⟨o, fs1, h1, _, _, h2, _⟩ := folder_run (env := env) (path := path) hs hc hf.2.2 hl
    rw [hm] at h1
    obtain ⟨-, rfl⟩ := Prod.mk.inj h1
    have hafter := (h2 ha hcw).2
    obtain ⟨code, hcode⟩ := ha r _ hsc
    have h3 := (hafter q).1 r _ code hsc ho hcode
    obtain ⟨_, h4, h5⟩ := hcode
    exact ⟨_, code, h3, Option.some.inj h4 ▸ h5⟩
  | single cwd path out dir place cs stem hs hc hf hl hp h1 h2 hm hq =>
    have hst : fileStem stem = stem := fileStem_plain h2
    have k := single_file (env := env) (c := some text) hs hc hl hp h1 (by rintro rfl; exact h2 (by decide))
      (by rintro rfl; exact h2 (by decide))
    obtain ⟨⟨text', code, e1, e2⟩, e3⟩ := k.2 fs' hm
    obtain rfl := Option.some.inj e1
    obtain ⟨fs1, h3, h4⟩ := k.1 text code rfl e2 e3
    rw [hm] at h3
    obtain ⟨-, rfl⟩ := Prod.mk.inj h3
    rw [hst] at h4
    exact ⟨path, code, by rw [hq]; exact h4.1, e2⟩

theorem compiled_from {env : Str → Env} (hr : Runnable env) {p text code : Str} {ast : AST} (hg : Grammar.Schema ast text)
    (h : compile (env p) text = .ok code) : ∃ x, Compiled ast ⟨x, code⟩ := by
  obtain ⟨ast', r, h1, h2, -⟩ := compile_ok (hr p).1 h
  have h3 := (C01_accepts_iff_grammar text ast).2 hg
  rw [h3] at h1
  cases h1
  exact ⟨r.export, env p, text, r, (hr p).1, (hr p).2, h3, h, h2, rfl⟩

/-- C113, full statement: a schema is compiled on two machines. What the program in the output file of one machine writes, the
program in the output file of the other machine reads. -/
def C113_claim : Prop :=
  ∀ (rt : Runtime) (env₁ env₂ : Str → Env) (fs₁ fs₁' fs₂ fs₂' : Files) (text : Str) (q₁ q₂ : List Str) (ast : AST),
  Runnable env₁ → Runnable env₂ → Produced env₁ fs₁ fs₁' text q₁ → Produced env₂ fs₂ fs₂' text q₂ → Grammar.Schema ast text →
  PlainSchema ast → SmallEnums ast → ∀ code₁ code₂, fs₁' q₁ = some (.file (some code₁)) → fs₂' q₂ = some (.file (some code₂)) →
  ∀ x ps, Compiled ast ⟨x, code₁⟩ → TypedFs (FaithfulStr rt) IsVariant x.fields ps →
    ∃ bytes, Writes rt ⟨x, code₁⟩ ps bytes ∧ Reads rt ⟨x, code₂⟩ bytes ps

/-- C113: in any case there are programs in the output files, which describe the schema. Nothing is assumed here but that the
run has succeeded (see C107) and that the names can be used. -/
theorem C113_program {env : Str → Env} {fs fs' : Files} {text : Str} {q : List Str} {ast : AST} (hr : Runnable env)
    (hp : Produced env fs fs' text q) (hg : Grammar.Schema ast text) :
    ∃ code, fs' q = some (.file (some code)) ∧ (∃ x, Compiled ast ⟨x, code⟩) ∧
      ((∃ m, load code = some m ∧ Describes ast m) ↔ NamesOk ast) := by
  obtain ⟨p, code, h1, h2⟩ := produced_compiles hp
  obtain ⟨x, hx⟩ := compiled_from hr hg h2
  exact ⟨code, h1, ⟨x, hx⟩, C60_describes_iff hx⟩

/-- C113 for one machine: the program reads what it writes, whatever the order of fields. What is missing: names that cannot
be used, enums with 32 variants, strings whose encoding is longer (see C80, C31). -/
theorem C113_one_partial (rt : Runtime) {env : Str → Env} {fs fs' : Files} {text : Str} {q : List Str} {ast : AST} (hr : Runnable env)
    (hp : Produced env fs fs' text q) (hg : Grammar.Schema ast text) (hu : UsableSchema ast) (hs : SmallEnums ast) :
    ∃ code x, fs' q = some (.file (some code)) ∧ Compiled ast ⟨x, code⟩ ∧
      ∀ ps, TypedFs (FaithfulStr rt) IsVariant x.fields ps → ∃ bytes, Writes rt ⟨x, code⟩ ps bytes ∧ Reads rt ⟨x, code⟩ bytes ps := by
  obtain ⟨p, code, h1, h2⟩ := produced_compiles hp
  obtain ⟨x, hx⟩ := compiled_from hr hg h2
  exact ⟨code, x, h1, hx, fun ps hty => C31_read_inverts_write_partial rt hx ((C80_usable_iff hx).2 hu) hs hty⟩

/-- C113 for schemas in which no field can be overtaken by a later one (see C61), whatever the directories, paths, versions and
times on the two machines. What is missing: fields that can be overtaken, for which it is false. -/
theorem C113_machines_partial (rt : Runtime) {env₁ env₂ : Str → Env} {fs₁ fs₁' fs₂ fs₂' : Files} {text : Str} {q₁ q₂ : List Str}
    {ast : AST} (hr₁ : Runnable env₁) (hr₂ : Runnable env₂) (hp₁ : Produced env₁ fs₁ fs₁' text q₁)
    (hp₂ : Produced env₂ fs₂ fs₂' text q₂) (hg : Grammar.Schema ast text) (hu : UsableSchema ast) (hs : SmallEnums ast)
    (hi : AllInOrder ast) :
    ∃ code₁ code₂ x, fs₁' q₁ = some (.file (some code₁)) ∧ fs₂' q₂ = some (.file (some code₂)) ∧
      Compiled ast ⟨x, code₁⟩ ∧ Compiled ast ⟨x, code₂⟩ ∧
      ∀ ps, TypedFs (FaithfulStr rt) IsVariant x.fields ps →
        ∃ bytes, Writes rt ⟨x, code₁⟩ ps bytes ∧ Writes rt ⟨x, code₂⟩ ps bytes ∧ Reads rt ⟨x, code₁⟩ bytes ps ∧
          Reads rt ⟨x, code₂⟩ bytes ps := by
  obtain ⟨p₁, code₁, a1, a2⟩ := produced_compiles hp₁
  obtain ⟨p₂, code₂, b1, b2⟩ := produced_compiles hp₂
  obtain ⟨x, hx⟩ := compiled_from hr₁ hg a2
  obtain ⟨y, hy⟩ := compiled_from hr₂ hg b2
  have hxy : x = y := compiled_eq_of_inOrder hi hx hy
  subst hxy
  have u₁ := (C80_usable_iff hx).2 hu
  have u₂ := (C80_usable_iff hy).2 hu
  refine ⟨code₁, code₂, x, a1, b1, hx, hy, fun ps hty => ?_⟩
  obtain ⟨bytes, w1, r1⟩ := C31_read_inverts_write_partial rt hx u₁ hs hty
  have hf := faithful_hasFields rt (trueEnums hx) hty
  have e := writes_unique rt hx u₁ hf w1 (C30_write_format rt hx u₁.loads hf)
  refine ⟨bytes, w1, ?_, r1, reads_congr hx hy u₁.loads u₂.loads rfl r1⟩
  rw [e]
  exact C30_write_format rt hy u₂.loads hf

/-! ### one schema in a file system -/

/-- A file `a.pkt` in the root directory. -/
def oneList (text : Str) : List (List Str × Item) := [([], .dir), (["a.pkt".toList], .file (some text))]

theorem one_sound (text : Str) : (ofList (oneList text)).Sound := by
  refine ofList_sound rfl (fun e he => ?_) fun e he n hn => ?_
  · simp only [oneList, List.mem_cons, List.not_mem_nil, or_false] at he
    rcases he with rfl | rfl
    · exact .inl rfl
    · exact .inr rfl
  · simp only [oneList, List.mem_cons, List.not_mem_nil, or_false] at he
    rcases he with rfl | rfl <;> simp only [List.mem_cons, List.not_mem_nil, or_false] at hn
    subst hn
    refine ⟨?_, ?_, ?_, ?_⟩ <;> decide

/-- Running `packetc ts a.pkt out` gives a file `out/a.ts`. -/
theorem one_produced {env : Str → Env} {text code : Str} (h : compile (env "a.pkt".toList) text = .ok code) :
    ∃ fs', Produced env (ofList (oneList text)) fs' text ["out".toList, "a.ts".toList] ∧
      fs' ["out".toList, "a.ts".toList] = some (.file (some code)) := by
  have hs := one_sound text
  have hl : Leads [] "out".toList ["out".toList] := ⟨.name _ _ _ _ True.intro (.here _), [], ["out".toList], by decide, by simp⟩
  have hf : Found (ofList (oneList text)) [] "a.pkt".toList ["a.pkt".toList] (.file (some text)) := by
    refine ⟨by decide, ?_, .file _ _ rfl⟩
    rw [show components "a.pkt".toList = [.normal "a.pkt".toList] by decide]
    exact .name _ _ _ _ rfl (.here _)
  have hp : components "a.pkt".toList = [] ++ [.normal ("a".toList ++ ".pkt".toList)] := by decide
  have hfree : Free (ofList (oneList text)) ["out".toList, "a.ts".toList] := by
    refine ⟨fun p hpp hne c => ?_, ?_⟩
    · rcases List.prefix_concat_iff.1 (show p <+: ["out".toList] ++ ["a.ts".toList] from hpp) with rfl | hpp
      · exact absurd rfl hne
      · rcases List.prefix_concat_iff.1 (show p <+: [] ++ ["out".toList] from hpp) with rfl | hpp
        · rw [show ofList (oneList text) ([] ++ ["out".toList]) = none from rfl]; simp
        · rw [List.prefix_nil.1 hpp, hs.root]; simp
    · rw [show ofList (oneList text) _ = none from rfl]; simp
  obtain ⟨fs', h1, h2⟩ := (single_file (env := env) (c := some text) hs rfl hl hp (by decide) (by decide) (by decide)).1 text code rfl h hfree
  exact ⟨fs', .single [] _ _ _ _ [] "a".toList hs rfl hf hl hp (by decide) (by decide) h1 rfl, h2.1⟩

theorem sample_runnable {ord : List (Str × Ty) → List (Str × Ty)} (h : ∀ l, (ord l).Perm l) : Runnable fun _ => sampleEnv ord :=
  fun _ => ⟨⟨h, fun _ => .refl _⟩, sampleEnv_oneLine ord⟩

/-- C113 is false: the order of the fields is not the same on both machines. -/
theorem C113_false : ¬ C113_claim := by
  intro h
  have key : ∀ {ord : List (Str × Ty) → List (Str × Ty)} {r : Resolved}, (∀ l, (ord l).Perm l) → typeCheck ord reorderAst = .ok r →
      compile (sampleEnv ord) reorderText = .ok (exampleCode ord reorderText) := by
    intro ord r ho ht
    have hc := compile_of (env := sampleEnv ord) ⟨ho, fun _ => .refl _⟩ reorder_parses ht
    unfold exampleCode
    rw [hc]
  obtain ⟨fs₁, p₁, c₁⟩ := one_produced (env := fun _ => sampleEnv id) (key (ord := id) (fun _ => .refl _) rfl)
  obtain ⟨fs₂, p₂, c₂⟩ := one_produced (env := fun _ => sampleEnv List.reverse) (key (ord := List.reverse) List.reverse_perm rfl)
  exact runs_differ (h leUtf8 _ _ _ _ _ _ _ _ _ _ (sample_runnable fun _ => .refl _) (sample_runnable List.reverse_perm) p₁ p₂
    ((C01_accepts_iff_grammar _ _).1 reorder_parses) reorder_plain reorder_small _ _ c₁ c₂ runOne.toExport [propN 1, propA 2]
    runOne_compiled (one_typed _ _ ⟨by decide, by decide⟩ ⟨by decide, by decide⟩))

/-- A schema that is compiled on two machines, with different hash orders, and meets all conditions. -/
example : ∃ fs₁ fs₂, Produced (fun _ => sampleEnv id) (ofList (oneList stringText)) fs₁ stringText ["out".toList, "a.ts".toList] ∧
    Produced (fun _ => sampleEnv List.reverse) (ofList (oneList stringText)) fs₂ stringText ["out".toList, "a.ts".toList] ∧
    Grammar.Schema stringAst stringText ∧ UsableSchema stringAst ∧ SmallEnums stringAst ∧ AllInOrder stringAst := by
  have hp : Parser.schema stringText = .ok stringAst := by decide +kernel
  obtain ⟨fs₁, p₁, -⟩ := one_produced (env := fun _ => sampleEnv id)
    (compile_of (env := sampleEnv id) ⟨fun _ => .refl _, fun _ => .refl _⟩ hp rfl)
  obtain ⟨fs₂, p₂, -⟩ := one_produced (env := fun _ => sampleEnv List.reverse)
    (compile_of (env := sampleEnv List.reverse) ⟨List.reverse_perm, fun _ => .refl _⟩ hp rfl)
  refine ⟨fs₁, fs₂, p₁, p₂, (C01_accepts_iff_grammar _ _).1 hp, plain_usableSchema string_compiled string_plain, ?_,
    single_inOrder _ _ (by decide)⟩
  intro n vs h
  unfold stringAst at h
  simp only [List.mem_cons, Node.decl.injEq, reduceCtorEq, and_false, or_false, List.not_mem_nil] at h

end Packetc.Props
