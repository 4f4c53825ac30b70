import Verif.Proof.GenWork
import Verif.Proof.RustFits
import Verif.Props.Work
import Verif.Props.Size
/-!
# C121: how many steps the generator takes, and a whole compilation
-/

namespace Packetc.Props
open Ast Check WellFormed Gen

/-- The steps are counted for the generator that all other theorems are about: it gives the same results. -/
theorem C121_same_generator (version now : Str) (ord : TypeMap → TypeMap) (r : Resolved) :
    (GenW.generateRun version now ord r).1 = generate version now ord r := GenW.same_generate version now ord r

theorem builtins_count : builtinNames.length = 8 := by decide

/-- At most nine entries of the type map are passed over: the exported struct and the builtin types. -/
theorem quiet_count {ast : AST} {r : Resolved} (hc : Rs.Checked ast r) {l : TypeMap} (hl : l.Perm r.types) : (l.filter (GenW.quiet r.export.name)).length ≤ 9 := by
  obtain ⟨hk, -, he⟩ := Rs.checked_entries hc
  have hp := hl.filter (GenW.quiet r.export.name)
  rw [hp.length_eq]
  have hsub : (((r.types.filter (GenW.quiet r.export.name)).map Prod.fst)) ⊆ r.export.name :: builtinNames := by
    intro n hn
    obtain ⟨⟨n', m, t⟩, hm, rfl⟩ := List.mem_map.1 hn
    obtain ⟨hm1, hm2⟩ := List.mem_filter.1 hm
    obtain ⟨-, -, hent⟩ := he _ _ _ (Map.mem_get hk hm1)
    unfold GenW.quiet at hm2
    rcases Bool.or_eq_true _ _ ▸ hm2 with h | h
    · exact List.mem_cons.2 (Or.inl (of_decide_eq_true h))
    · cases hent with
      | builtin b hb =>
        refine List.mem_cons.2 (Or.inr ?_)
        show n' ∈ _
        rw [hb]
        exact Rs.builtin_mem b
      | enum => cases h
      | struct => cases h
  have hnd : ((r.types.filter (GenW.quiet r.export.name)).map Prod.fst).Nodup :=
    List.Nodup.sublist (List.Sublist.map _ List.filter_sublist) hk
  have := (hnd.subperm hsub).length_le
  rw [List.length_map, List.length_cons, builtins_count] at this
  exact this

/-- C121: for an accepted schema the generator takes at most eight steps for each character of the code, whatever the order of the hash maps; and at least one. -/
theorem C121_generator {env : Env} (hf : env.Fair) {text code : Str} {ast : AST} {r : Resolved} (hp : Parser.schema text = .ok ast)
    (ht : typeCheck env.ordTypes ast = .ok r) (hg : generate env.version env.now env.ordDecls r = some code) :
    code.length ≤ (GenW.generateRun env.version env.now env.ordDecls r).2 ∧ (GenW.generateRun env.version env.now env.ordDecls r).2 ≤ 8 * code.length :=
  ⟨GenW.generate_writes hg, GenW.generate_pays (Js.sound_boundsFs _ (Js.accepted_sound hf.1 (parsed_noBuiltinDecl hp) ht).1)
    (quiet_count ⟨_, _, hf.1, hp, ht⟩ (hf.2 r.types)) hg⟩

/-- C121: a compilation that succeeds takes steps quadratic in the length of the schema and linear in the length of the code. -/
theorem C121_compile {env : Env} (hf : env.Fair) {text code : Str} (h : compile env text = .ok code) :
    code.length ≤ GenW.compileSteps env text ∧
    GenW.compileSteps env text ≤ 3 * text.length ^ 2 + 1580 * text.length + 7257 + 8 * code.length := by
  unfold compile at h
  cases hp : Parser.schema text with
  | diverge => rw [hp] at h; cases h
  | err off =>
    rw [hp] at h
    simp only at h
    split at h
    · cases h
    · split at h <;> cases h
  | ok ast =>
    rw [hp] at h
    simp only at h
    cases ht : typeCheck env.ordTypes ast with
    | error e => rw [ht] at h; cases e <;> cases h
    | ok r =>
      rw [ht] at h
      simp only at h
      cases hg : generate env.version env.now env.ordDecls r with
      | none => rw [hg] at h; cases h
      | some code' =>
        rw [hg] at h
        cases h
        obtain ⟨h1, h2⟩ := C121_generator hf hp ht hg
        have h3 := C82_quadratic hf.1 hp
        have h4 := C81_linear text
        unfold GenW.compileSteps
        rw [hp]
        simp only [ht]
        omega

/-- C121: and one that fails takes steps quadratic in the length of the schema. -/
theorem C121_rejected {env : Env} (hf : env.Fair) {text : Str} (h : ∀ code, compile env text ≠ .ok code) :
    GenW.compileSteps env text ≤ 3 * text.length ^ 2 + 1580 * text.length + 7257 := by
  have h4 := C81_linear text
  unfold GenW.compileSteps
  cases hp : Parser.schema text with
  | diverge => simp only; omega
  | err off => simp only; omega
  | ok ast =>
    have h3 := C82_quadratic hf.1 hp
    simp only
    cases ht : typeCheck env.ordTypes ast with
    | error e => simp only; omega
    | ok r =>
      exfalso
      obtain ⟨code, hg⟩ : ∃ code, generate env.version env.now env.ordDecls r = some code :=
        ⟨_, Module.generate_eq hf.1 (parsed_noBuiltinDecl hp) ht env.version env.now env.ordDecls⟩
      refine h code ?_
      unfold compile
      rw [hp]
      simp only [ht, hg]

/-- C121: the code may be exponentially longer than the schema (C78), and so may be the time: no polynomial bounds the steps. -/
theorem C121_not_polynomial : ¬ ∃ c k : Nat, ∀ (env : Env) (text : Str), env.Fair →
    GenW.compileSteps env text ≤ c * (env.version.length + env.now.length + text.length + 1) ^ k := by
  rintro ⟨c, k, h⟩
  exact C78_false ⟨c, k, fun env text code hf hc => Nat.le_trans (C121_compile hf hc).1 (h env text hf)⟩

/-- A schema with a field of 31 characters, the steps for it, and the length of the code. -/
example : GenW.compileSteps ⟨"0.1".toList, "now".toList, id, id⟩ "A: struct { a: uint8 }\nexport A".toList = 1785 ∧
    compile ⟨"0.1".toList, "now".toList, id, id⟩ "A: struct { a: uint8 }\nexport A".toList ≠ .panic := by decide +kernel

end Packetc.Props
