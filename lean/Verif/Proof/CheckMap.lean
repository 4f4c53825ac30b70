import Verif.Model.Check
import Mathlib.Data.List.Nodup
/-!
# Association lists as maps
-/

namespace Packetc.Check
open Ast

variable {V : Type}

namespace Map

@[simp] theorem get_nil (k : Str) : Map.get ([] : Map V) k = none := rfl

theorem get_cons (k' : Str) (v : V) (m : Map V) (k : Str) :
    Map.get ((k', v) :: m) k = if k' = k then some v else Map.get m k := rfl

theorem has_iff (m : Map V) (k : Str) : m.has k = true ↔ ∃ v, m.get k = some v := by
  unfold Map.has; exact Option.isSome_iff_exists

theorem has_false (m : Map V) (k : Str) : m.has k = false ↔ m.get k = none := by
  unfold Map.has; cases m.get k <;> simp

theorem get_erase (m : Map V) (k k' : Str) :
    (m.erase k).get k' = if k = k' then none else m.get k' := by
  induction m with
  | nil => simp [Map.erase]
  | cons e m ih =>
    obtain ⟨a, v⟩ := e
    unfold Map.erase at ih ⊢
    by_cases ha : a = k
    · subst ha
      rw [List.filter_cons_of_neg (by simp), ih, get_cons]
      by_cases h : a = k' <;> simp [h]
    · rw [List.filter_cons_of_pos (by simpa using ha), get_cons, ih, get_cons]
      by_cases h : a = k'
      · subst h; simp [Ne.symm ha]
      · simp [h]

theorem get_insert (m : Map V) (k : Str) (v : V) (k' : Str) :
    (m.insert k v).get k' = if k = k' then some v else m.get k' := by
  unfold Map.insert
  rw [get_cons, get_erase]
  by_cases h : k = k' <;> simp [h]

theorem length_erase_le (m : Map V) (k : Str) : (m.erase k).length ≤ m.length :=
  List.length_filter_le _ _

theorem get_mem {m : Map V} {k : Str} {v : V} (h : m.get k = some v) : (k, v) ∈ m := by
  induction m with
  | nil => simp at h
  | cons e m ih =>
    obtain ⟨a, w⟩ := e
    rw [get_cons] at h
    by_cases ha : a = k
    · simp [ha] at h; simp [ha, h]
    · simp [ha] at h; exact List.mem_cons_of_mem _ (ih h)

theorem length_erase_lt {m : Map V} {k : Str} {v : V} (h : m.get k = some v) :
    (m.erase k).length < m.length := by
  have := get_mem h
  unfold Map.erase
  exact List.length_filter_lt_length_iff_exists.2 ⟨_, this, by simp⟩

/-- the keys -/
def keys (m : Map V) : List Str := m.map Prod.fst

theorem mem_get {m : Map V} (hm : m.keys.Nodup) {k : Str} {v : V} (h : (k, v) ∈ m) : m.get k = some v := by
  induction m with
  | nil => simp at h
  | cons e m ih =>
    obtain ⟨a, w⟩ := e
    simp only [keys, List.map_cons, List.nodup_cons] at hm
    rw [get_cons]
    rcases List.mem_cons.1 h with h | h
    · cases h; simp
    · have : a ≠ k := fun hak => hm.1 (hak ▸ List.mem_map_of_mem (f := Prod.fst) h)
      rw [if_neg this]; exact ih hm.2 h

theorem mem_iff_get {m : Map V} (hm : m.keys.Nodup) (k : Str) (v : V) : (k, v) ∈ m ↔ m.get k = some v :=
  ⟨mem_get hm, get_mem⟩

theorem nodup_erase {m : Map V} (hm : m.keys.Nodup) (k : Str) : (m.erase k).keys.Nodup := by
  unfold keys Map.erase at *
  exact (List.Nodup.sublist (List.Sublist.map _ List.filter_sublist) hm)

theorem nodup_insert {m : Map V} (hm : m.keys.Nodup) (k : Str) (v : V) : (m.insert k v).keys.Nodup := by
  have := nodup_erase hm k
  unfold Map.insert
  simp only [keys, List.map_cons, List.nodup_cons]
  refine ⟨?_, this⟩
  unfold Map.erase
  simp

theorem get_foldl_insert (b : Map V) (a : Map V) (hb : b.keys.Nodup) (k : Str) :
    (b.foldl (fun m e => m.insert e.1 e.2) a).get k = (b.get k).orElse (fun _ => a.get k) := by
  induction b generalizing a with
  | nil => simp
  | cons e b ih =>
    obtain ⟨x, v⟩ := e
    simp only [keys, List.map_cons, List.nodup_cons] at hb
    rw [List.foldl_cons, ih _ hb.2, get_insert, get_cons]
    by_cases h : x = k
    · subst h
      have : Map.get b x = none := by
        cases hg : Map.get b x with
        | none => rfl
        | some w => exact absurd (List.mem_map_of_mem (f := Prod.fst) (get_mem hg)) hb.1
      simp [this]
    · simp [h]

theorem get_filter (m : Map V) (p : Str → Bool) (k : Str) :
    Map.get (m.filter (fun e => p e.1)) k = if p k then m.get k else none := by
  induction m with
  | nil => simp
  | cons e m ih =>
    obtain ⟨a, v⟩ := e
    by_cases hp : p a
    · rw [List.filter_cons_of_pos (by simpa using hp), get_cons, ih, get_cons]
      by_cases h : a = k
      · subst h; simp [hp]
      · simp [h]
    · rw [List.filter_cons_of_neg (by simpa using hp), ih, get_cons]
      by_cases h : a = k
      · subst h; simp [hp]
      · simp [h]

end Map
end Packetc.Check
