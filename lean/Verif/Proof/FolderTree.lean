import Verif.Proof.FolderRun
import Mathlib.Data.Set.Finite.Lattice
/-!
# The tree at a place of a finite file system (for C108)
-/

namespace Packetc.Cli

theorem shows_exists {fs : Files} (h : fs.Sound) (hfin : {p | fs p ≠ none}.Finite) : (k : Nat) → (dir : List Str) →
    (∀ p, fs p ≠ none → p.length ≤ dir.length + k) → fs dir ≠ none → ∃ t, Shows fs dir t := by
  intro k
  induction k with
  | zero =>
    intro dir hb hd
    cases hi : fs dir with
    | none => exact absurd hi hd
    | some i =>
      cases i with
      | file c => exact ⟨_, .file _ c hi⟩
      | dir =>
        refine ⟨_, .dir dir [] hi List.nodup_nil (fun n => ⟨fun hn => by simp at hn, fun hn => ?_⟩) (by simp) (by simp)⟩
        have := hb _ hn
        simp only [List.length_append, List.length_cons, List.length_nil] at this
        omega
  | succ k ih =>
    intro dir hb hd
    cases hi : fs dir with
    | none => exact absurd hi hd
    | some i =>
      cases i with
      | file c => exact ⟨_, .file _ c hi⟩
      | dir =>
        have hN : {n | fs (dir ++ [n]) ≠ none}.Finite :=
          hfin.preimage (f := fun n => dir ++ [n]) fun a _ b _ hab => by simpa using hab
        have hch : ∀ n, ∃ t, fs (dir ++ [n]) ≠ none → Shows fs (dir ++ [n]) t := by
          intro n
          by_cases hn : fs (dir ++ [n]) ≠ none
          · obtain ⟨t, ht⟩ := ih (dir ++ [n]) (fun p hp => by
              have := hb p hp
              simp only [List.length_append, List.length_cons, List.length_nil]
              omega) hn
            exact ⟨t, fun _ => ht⟩
          · exact ⟨.file none, fun h => absurd h hn⟩
        choose f hf using hch
        have hmap : (hN.toFinset.toList.map fun n => (⟨n, true, f n⟩ : EntryOf Tree)).map EntryOf.name = hN.toFinset.toList := by
          rw [List.map_map]
          exact List.map_id _
        refine ⟨_, .dir dir (hN.toFinset.toList.map fun n => ⟨n, true, f n⟩) hi ?_ (fun n => ?_) ?_ ?_⟩
        · rw [hmap]
          exact Finset.nodup_toList _
        · rw [hmap, Finset.mem_toList, Set.Finite.mem_toFinset]
          rfl
        · intro e he
          obtain ⟨n, _, rfl⟩ := List.mem_map.1 he
          rfl
        · intro e he
          obtain ⟨n, hn, rfl⟩ := List.mem_map.1 he
          rw [Finset.mem_toList, Set.Finite.mem_toFinset] at hn
          exact hf n hn

/-- In a finite file system, a walk finds a tree at each place. -/
theorem shows_tree {fs : Files} (h : fs.Sound) (hfin : {p | fs p ≠ none}.Finite) {dir : List Str} (hd : fs dir ≠ none) :
    ∃ t, Shows fs dir t := by
  refine shows_exists h hfin (hfin.toFinset.sup List.length) dir (fun p hp => ?_) hd
  have : p.length ≤ hfin.toFinset.sup List.length := Finset.le_sup (f := List.length) ((Set.Finite.mem_toFinset _).2 hp)
  omega

theorem prefixes_finite (q : List Str) : {p | p <+: q}.Finite := by
  refine Set.Finite.subset (List.finite_toSet q.inits) fun p hp => ?_
  exact (List.mem_inits p q).2 hp

/-- After a run, the file system is finite again. -/
theorem after_finite {env : Str → Env} {path : Str} {dir place : List Str} {fs fs' : Files} (hfin : {p | fs p ≠ none}.Finite)
    (ha : After env path dir place fs fs') : {p | fs' p ≠ none}.Finite := by
  have h1 : (⋃ x ∈ {p | fs p ≠ none}, ⋃ q ∈ {q | ∃ r, dir ++ r = x ∧ OutFile place r q}, {p | p <+: q}).Finite := by
    refine hfin.biUnion fun x _ => Set.Finite.biUnion (Set.Subsingleton.finite ?_) fun q _ => prefixes_finite q
    rintro q ⟨r, hr, hq⟩ q' ⟨r', hr', hq'⟩
    have : r = r' := List.append_cancel_left (hr.trans hr'.symm)
    exact outFile_unique hq (this ▸ hq')
  refine Set.Finite.subset (hfin.union h1) fun p hp => ?_
  by_cases hq : ∃ r c q, fs.Schema dir r c ∧ OutFile place r q ∧ p <+: q
  · obtain ⟨r, c, q, k1, k2, k3⟩ := hq
    refine .inr (Set.mem_biUnion (x := dir ++ r) (by show fs _ ≠ none; rw [k1.1]; simp) ?_)
    exact Set.mem_biUnion (x := q) ⟨r, rfl, k2⟩ k3
  · refine .inl ?_
    show fs p ≠ none
    rw [← (ha p).2.2 hq]
    exact hp

end Packetc.Cli
