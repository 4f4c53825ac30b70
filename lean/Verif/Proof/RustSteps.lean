import Verif.Rust.Steps
import Verif.Proof.RustRead
/-!
# Running time of programs of the Rust subset

Whatever the program: if each round of each loop reads or writes at least a byte, the number of statements executed is at most the number of
statements in the text times the number of bytes.
-/

namespace Packetc.Rs
open Js (Num Scalar utf8Enc)

/-- Evaluation reads at least a byte. -/
def Expr.eats : Expr → Bool
  | .read _ => true
  | .len e => e.eats
  | .cast e _ => e.eats
  | .addr e => e.eats
  | .readString e => e.eats
  | .some e => e.eats
  | .tryFrom _ e => e.eats
  | _ => false

/-- `write_t` may write nothing. -/
def textual (t : Str) : Bool := decide (t = "string".toList)

mutual
/-- Execution reads or writes at least a byte. -/
def Stmt.eats : Stmt → Bool
  | .write t e => !textual t || e.eats
  | .matchOpt _ e t _ _ body => e.eats || (!textual t && someEats body)
  | .forIter _ e _ => e.eats
  | .letS _ _ e => e.eats
  | .assign _ e => e.eats
  | .ifGt e _ _ => e.eats
  | .reserve _ e => e.eats
  | .push _ e => e.eats
  | .forRange e _ => e.eats
def someEats : List Stmt → Bool
  | [] => false
  | s :: ss => s.eats || someEats ss
end

mutual
/-- Each round of each loop reads or writes at least a byte. -/
def Stmt.calm : Stmt → Bool
  | .matchOpt _ _ _ _ _ body => calmAll body
  | .forIter _ _ body => someEats body && calmAll body
  | .ifGt _ _ body => calmAll body
  | .forRange _ body => someEats body && calmAll body
  | _ => true
def calmAll : List Stmt → Bool
  | [] => true
  | s :: ss => s.calm && calmAll ss
end

mutual
/-- Nothing is written. -/
def Stmt.reader : Stmt → Bool
  | .write _ _ => false
  | .matchOpt _ _ _ _ _ _ => false
  | .forIter _ _ body => readers body
  | .ifGt _ _ body => readers body
  | .forRange _ body => readers body
  | _ => true
def readers : List Stmt → Bool
  | [] => true
  | s :: ss => s.reader && readers ss
end

/-- Bytes are only read and written. -/
def Le (s s' : St) : Prop := s.out.length ≤ s'.out.length ∧ s'.rest.length ≤ s.rest.length

/-- Bytes read and written. -/
def used (s s' : St) : Nat := (s'.out.length - s.out.length) + (s.rest.length - s'.rest.length)

theorem Le.refl (s : St) : Le s s := ⟨Nat.le_refl _, Nat.le_refl _⟩
theorem Le.trans {a b c : St} (h : Le a b) (h' : Le b c) : Le a c := ⟨Nat.le_trans h.1 h'.1, Nat.le_trans h'.2 h.2⟩
theorem used_add {a b c : St} (h : Le a b) (h' : Le b c) : used a c = used a b + used b c := by
  obtain ⟨h1, h2⟩ := h
  obtain ⟨h3, h4⟩ := h'
  unfold used
  omega

section
variable (lib : Lib) (P : Prog)

theorem width_pos (sc : Scalar) : 1 ≤ sc.width := by cases sc <;> decide

/-- `m` does not write, and reads at least `k` bytes. -/
def Reads {α} (k : Nat) (m : M α) : Prop := ∀ s a s', m s = .ok a s' → s'.out = s.out ∧ s'.rest.length + k ≤ s.rest.length

theorem reads_pure {α} (a : α) : Reads 0 (pure a : M α) := by
  intro s b s' h
  cases h
  exact ⟨rfl, Nat.le_refl _⟩

theorem reads_stuck {α} (k : Nat) : Reads k (stuck : M α) := by
  intro s b s' h
  cases h

theorem Reads.bind {α β} {k : Nat} {m : M α} {f : α → M β} (hm : Reads k m) (hf : ∀ a, Reads 0 (f a)) : Reads k (m >>= f) := by
  intro s b s' h
  rw [bind_apply] at h
  cases hm' : m s with
  | ok a s1 =>
    rw [hm'] at h
    have h1 := hm _ _ _ hm'
    have h2 := hf a _ _ _ h
    exact ⟨h2.1.trans h1.1, by omega⟩
  | err => rw [hm'] at h; cases h
  | abort => rw [hm'] at h; cases h
  | stuck => rw [hm'] at h; cases h

theorem reads_load (e : Expr) : Reads 0 (load e) := by
  intro s a s' h
  unfold load at h
  split at h
  · cases h
    exact ⟨rfl, Nat.le_refl _⟩
  · cases h

theorem reads_castTo (t : Str) (v : Val) : Reads 0 (castTo P t v) := by
  unfold castTo
  split
  · split
    · exact reads_pure _
    · exact reads_stuck _
  · split
    · exact reads_pure _
    · exact reads_stuck _
  · exact reads_stuck _

theorem reads_convert (t : Str) (i : Int) : Reads 0 (convert P t i) := by
  unfold convert
  split
  · split
    · exact reads_pure _
    · intro s a s' h
      cases h
  · exact reads_stuck _

theorem reads_readText (n : Nat) : Reads 0 (readText n) := by
  intro s a s' h
  unfold readText at h
  split at h
  · split at h
    · cases h
      exact ⟨rfl, by simp⟩
    · cases h
  · cases h

theorem reads_readNum (t : Str) : Reads 1 (readNum lib t) := by
  intro s a s' h
  unfold readNum at h
  split at h
  · rename_i sc _
    split at h
    · cases h
      have := width_pos sc
      refine ⟨rfl, ?_⟩
      simp only [List.length_drop]
      omega
    · cases h
  · cases h

theorem reads_eval : (e : Expr) → Reads (if e.eats then 1 else 0) (eval lib P e)
  | .var x => reads_load _
  | .field e f => reads_load _
  | .u8 n => reads_pure _
  | .len e => by
    refine (reads_eval e).bind fun v => ?_
    cases v <;> first | exact reads_pure _ | exact reads_stuck _
  | .cast e t => (reads_eval e).bind fun v => reads_castTo P t v
  | .addr e => reads_eval e
  | .read t => reads_readNum lib t
  | .readString e => by
    refine (reads_eval e).bind fun v => ?_
    cases v with
    | num n => cases n <;> first | exact reads_readText _ | exact reads_stuck _
    | _ => exact reads_stuck _
  | .dflt t => reads_pure _
  | .some e => (reads_eval e).bind fun v => reads_pure _
  | .tryFrom t e => by
    refine (reads_eval e).bind fun v => ?_
    cases v with
    | num n => cases n <;> first | exact reads_convert P _ _ | exact reads_stuck _
    | _ => exact reads_stuck _

/-- `m` reads or writes at least `k` bytes. -/
def Moves {α} (k : Nat) (m : M α) : Prop := ∀ s a s', m s = .ok a s' → Le s s' ∧ k ≤ used s s'

theorem Reads.moves {α} {k : Nat} {m : M α} (h : Reads k m) : Moves k m := by
  intro s a s' hs
  obtain ⟨h1, h2⟩ := h s a s' hs
  refine ⟨⟨by rw [h1]; exact Nat.le_refl _, by omega⟩, ?_⟩
  unfold used
  omega

theorem Moves.mono {α} {k l : Nat} {m : M α} (h : Moves k m) (hl : l ≤ k) : Moves l m :=
  fun s a s' hs => ⟨(h s a s' hs).1, Nat.le_trans hl (h s a s' hs).2⟩

theorem Moves.bind {α β} {k l : Nat} {m : M α} {f : α → M β} (hm : Moves k m) (hf : ∀ a, Moves l (f a)) : Moves (k + l) (m >>= f) := by
  intro s b s' h
  rw [bind_apply] at h
  cases hm' : m s with
  | ok a s1 =>
    rw [hm'] at h
    have h1 := hm _ _ _ hm'
    have h2 := hf a _ _ _ h
    exact ⟨h1.1.trans h2.1, by rw [used_add h1.1 h2.1]; omega⟩
  | err => rw [hm'] at h; cases h
  | abort => rw [hm'] at h; cases h
  | stuck => rw [hm'] at h; cases h

theorem moves_emit (t : Str) (v : Val) : Moves (if textual t then 0 else 1) (emit lib t v) := by
  intro s a s' h
  unfold emit at h
  split at h
  · split at h
    · rename_i sc _
      cases h
      have := width_pos sc
      have := lib.enc_len sc ‹Num›
      refine ⟨⟨by simp, Nat.le_refl _⟩, ?_⟩
      unfold used
      simp only [List.length_append]
      split <;> omega
    · cases h
  · split at h
    · rename_i ht
      cases h
      refine ⟨⟨by simp, Nat.le_refl _⟩, ?_⟩
      have : textual t = true := decide_eq_true ht
      rw [this]
      exact Nat.zero_le _
    · cases h
  · cases h

theorem moves_store (e : Expr) (v : Val) : Moves 0 (store e v) := by
  intro s a s' h
  unfold store at h
  split at h
  · cases h
    exact ⟨Le.refl _, Nat.zero_le _⟩
  · cases h

theorem moves_declare (x : Str) (v : Val) : Moves 0 (declare x v) := by
  intro s a s' h
  cases h
  exact ⟨Le.refl _, Nat.zero_le _⟩

theorem Moves.block {k : Nat} {m : M Unit} (h : Moves k m) : Moves k (block m) := by
  intro s a s' hs
  unfold Rs.block at hs
  cases hm : m s with
  | ok u s1 =>
    rw [hm] at hs
    cases hs
    have := h _ _ _ hm
    exact this
  | err => rw [hm] at hs; cases hs
  | abort => rw [hm] at hs; cases hs
  | stuck => rw [hm] at hs; cases hs

theorem moves_stuck {α} (k : Nat) : Moves k (stuck : M α) := by
  intro s b s' h
  cases h

theorem moves_pure {α} (a : α) : Moves 0 (pure a : M α) := (reads_pure a).moves

theorem moves_ite {α} {c : Prop} [Decidable c] {k : Nat} {a b : M α} (ha : Moves k a) (hb : Moves k b) : Moves k (if c then a else b) := by
  split <;> assumption

theorem moves_rounds {m : M Unit} (h : Moves 0 m) (n : Nat) : Moves 0 (rounds m n) := by
  induction n with
  | zero => exact moves_pure ()
  | succ n ih => exact h.bind fun _ => ih

theorem moves_forEach {m : Val → M Unit} (h : ∀ v, Moves 0 (m v)) (l : List Val) : Moves 0 (forEach m l) := by
  induction l with
  | nil => exact moves_pure ()
  | cons v l ih => exact (h v).bind fun _ => ih

mutual
theorem moves_exec : (t : Stmt) → Moves (if t.eats then 1 else 0) (exec lib P t)
  | .write t e => by
    refine ((reads_eval lib P e).moves.bind fun v => moves_emit lib t v).mono ?_
    unfold Stmt.eats
    cases textual t <;> cases e.eats <;> decide
  | .matchOpt r e t n x body => by
    have hb := (moves_execAll body).block
    refine ((reads_eval lib P e).moves.bind (l := if !textual t && someEats body then 1 else 0) fun v => ?_).mono ?_
    · cases v with
      | none =>
        refine ((reads_eval lib P n).moves.bind fun v => moves_emit lib t v).mono ?_
        cases textual t <;> cases someEats body <;> cases n.eats <;> decide
      | some v =>
        refine Moves.block (((moves_declare x v).bind fun _ => moves_execAll body).mono ?_)
        cases textual t <;> cases someEats body <;> decide
      | _ => exact moves_stuck _
    · unfold Stmt.eats
      cases e.eats <;> cases textual t <;> cases someEats body <;> decide
  | .forIter x e body => by
    refine ((reads_eval lib P e).moves.bind (l := 0) fun v => ?_)
    cases v with
    | vec l =>
      refine moves_forEach (fun v => ?_) l
      exact Moves.block (((moves_declare x v).bind fun _ => moves_execAll body).mono (Nat.zero_le _))
    | _ => exact moves_stuck _
  | .letS _ x e => (reads_eval lib P e).moves.bind fun v => moves_declare x v
  | .assign l e => (reads_eval lib P e).moves.bind fun v => moves_store l v
  | .ifGt e n body => by
    refine ((reads_eval lib P e).moves.bind (l := 0) fun v => ?_)
    cases v with
    | num m =>
      cases m with
      | int i =>
        show Moves 0 (if _ then _ else _)
        split
        · exact ((moves_execAll body).mono (Nat.zero_le _)).block
        · exact moves_pure ()
      | _ => exact moves_stuck _
    | _ => exact moves_stuck _
  | .reserve e n => by
    have h : Moves (0 + ((if n.eats then 1 else 0) + 0)) (exec lib P (.reserve e n)) := by
      refine (reads_load e).moves.bind fun v => (reads_eval lib P n).moves.bind fun w => ?_
      split
      · exact moves_ite (moves_pure ()) (fun s a s' h => by cases h)
      · exact moves_stuck _
    exact h.mono (by unfold Stmt.eats; omega)
  | .push e v => by
    refine (reads_eval lib P v).moves.bind (l := 0 + 0) fun w => (reads_load e).moves.bind fun u => ?_
    cases u with
    | vec l => exact moves_store _ _
    | _ => exact moves_stuck _
  | .forRange n body => by
    refine ((reads_eval lib P n).moves.bind (l := 0) fun v => ?_)
    cases v with
    | num m =>
      cases m with
      | int i => exact moves_rounds ((moves_execAll body).mono (Nat.zero_le _)).block _
      | _ => exact moves_stuck _
    | _ => exact moves_stuck _
theorem moves_execAll : (ts : List Stmt) → Moves (if someEats ts then 1 else 0) (execAll lib P ts)
  | [] => moves_pure ()
  | t :: ts => by
    refine ((moves_exec t).bind fun _ => moves_execAll ts).mono ?_
    show (if t.eats || someEats ts then 1 else 0) ≤ _
    cases t.eats <;> cases someEats ts <;> decide
end

/-! ### Programs that do not write -/

theorem reads_store (e : Expr) (v : Val) : Reads 0 (store e v) := by
  intro s a s' h
  unfold store at h
  split at h
  · cases h
    exact ⟨rfl, Nat.le_refl _⟩
  · cases h

theorem reads_declare (x : Str) (v : Val) : Reads 0 (declare x v) := by
  intro s a s' h
  cases h
  exact ⟨rfl, Nat.le_refl _⟩

theorem Reads.block {k : Nat} {m : M Unit} (h : Reads k m) : Reads k (block m) := by
  intro s a s' hs
  unfold Rs.block at hs
  cases hm : m s with
  | ok u s1 =>
    rw [hm] at hs
    cases hs
    have := h _ _ _ hm
    exact this
  | err => rw [hm] at hs; cases hs
  | abort => rw [hm] at hs; cases hs
  | stuck => rw [hm] at hs; cases hs

theorem reads_ite {α} {c : Prop} [Decidable c] {k : Nat} {a b : M α} (ha : Reads k a) (hb : Reads k b) : Reads k (if c then a else b) := by
  split <;> assumption

theorem reads_rounds {m : M Unit} (h : Reads 0 m) (n : Nat) : Reads 0 (rounds m n) := by
  induction n with
  | zero => exact reads_pure ()
  | succ n ih => exact h.bind fun _ => ih

theorem reads_forEach {m : Val → M Unit} (h : ∀ v, Reads 0 (m v)) (l : List Val) : Reads 0 (forEach m l) := by
  induction l with
  | nil => exact reads_pure ()
  | cons v l ih => exact (h v).bind fun _ => ih

theorem Reads.weaken {α} {k : Nat} {m : M α} (h : Reads k m) : Reads 0 m :=
  fun s a s' hs => ⟨(h s a s' hs).1, by have := (h s a s' hs).2; omega⟩

theorem and_split {a b : Bool} (h : (a && b) = true) : a = true ∧ b = true := by simpa using h

mutual
theorem reads_exec : (t : Stmt) → t.reader = true → Reads 0 (exec lib P t)
  | .write _ _, h => by cases h
  | .matchOpt _ _ _ _ _ _, h => by cases h
  | .forIter x e body, h => by
    refine (reads_eval lib P e).weaken.bind fun v => ?_
    cases v with
    | vec l => exact reads_forEach (fun v => ((reads_declare x v).bind fun _ => reads_execAll body h).block) l
    | _ => exact reads_stuck _
  | .letS _ x e, _ => (reads_eval lib P e).weaken.bind fun v => reads_declare x v
  | .assign l e, _ => (reads_eval lib P e).weaken.bind fun v => reads_store l v
  | .ifGt e n body, h => by
    refine (reads_eval lib P e).weaken.bind fun v => ?_
    cases v with
    | num m =>
      cases m with
      | int i =>
        show Reads 0 (if _ then _ else _)
        split
        · exact (reads_execAll body h).block
        · exact reads_pure ()
      | _ => exact reads_stuck _
    | _ => exact reads_stuck _
  | .reserve e n, _ => by
    refine (reads_load e).bind fun v => (reads_eval lib P n).weaken.bind fun w => ?_
    split
    · exact reads_ite (reads_pure ()) (fun s a s' h => by cases h)
    · exact reads_stuck _
  | .push e v, _ => by
    refine (reads_eval lib P v).weaken.bind fun w => (reads_load e).bind fun u => ?_
    cases u with
    | vec l => exact reads_store _ _
    | _ => exact reads_stuck _
  | .forRange n body, h => by
    refine (reads_eval lib P n).weaken.bind fun v => ?_
    cases v with
    | num m =>
      cases m with
      | int i => exact reads_rounds (reads_execAll body h).block _
      | _ => exact reads_stuck _
    | _ => exact reads_stuck _
theorem reads_execAll : (ts : List Stmt) → readers ts = true → Reads 0 (execAll lib P ts)
  | [], _ => reads_pure ()
  | t :: ts, h => (reads_exec t (and_split h).1).bind fun _ => reads_execAll ts (and_split h).2
end

/-! ### The bound -/

/-- If `m` ends, `n` is at most `k` for each byte moved. -/
def Ends (k : Nat) (m : M Unit) (s : St) (n : Nat) : Prop := ∀ s', m s = .ok () s' → n ≤ k * max (used s s') 1

/-- `n` is at most `k` for each byte that can be read. -/
def Stops (k : Nat) (s : St) (n : Nat) : Prop := n ≤ k * (s.rest.length + 1)

theorem max_mono {a b : Nat} (h : a ≤ b) : max a 1 ≤ max b 1 := by omega

theorem Ends.seq {k l : Nat} {m : M Unit} {m' : M Unit} {s : St} {n : Nat} {n' : St → Nat} (hm : Moves 0 m) (hm' : Moves 0 m')
    (h : Ends k m s n) (h' : ∀ s1, m s = .ok () s1 → Ends l m' s1 (n' s1)) :
    Ends (k + l) (m >>= fun _ => m') s (n + (m s).count fun _ s1 => n' s1) := by
  intro s2 hs
  rw [bind_apply] at hs
  cases he : m s with
  | ok u s1 =>
    rw [he] at hs
    have h1 := h _ he
    have h2 := h' _ he _ hs
    have h3 := used_add (hm _ _ _ he).1 (hm' _ _ _ hs).1
    have h4 : k * max (used s s1) 1 ≤ k * max (used s s2) 1 := Nat.mul_le_mul_left _ (max_mono (by omega))
    have h5 : l * max (used s1 s2) 1 ≤ l * max (used s s2) 1 := Nat.mul_le_mul_left _ (max_mono (by omega))
    rw [Nat.add_mul]
    show n + n' s1 ≤ _
    omega
  | err => rw [he] at hs; cases hs
  | abort => rw [he] at hs; cases hs
  | stuck => rw [he] at hs; cases hs

theorem Stops.mono {k l : Nat} {s s' : St} {n : Nat} (h : Stops k s n) (hk : k ≤ l) (hs : s.rest.length ≤ s'.rest.length) : Stops l s' n :=
  Nat.le_trans h (Nat.mul_le_mul hk (by omega))

theorem Stops.seq {k l : Nat} {m : M Unit} {s : St} {n : Nat} {n' : St → Nat} (hm : Reads 0 m)
    (h : Stops k s n) (h' : ∀ s1, m s = .ok () s1 → Stops l s1 (n' s1)) :
    Stops (k + l) s (n + (m s).count fun _ s1 => n' s1) := by
  unfold Stops at *
  rw [Nat.add_mul]
  cases he : m s with
  | ok u s1 =>
    have h2 := h' _ he
    have h3 := (hm _ _ _ he).2
    have h4 : l * (s1.rest.length + 1) ≤ l * (s.rest.length + 1) := Nat.mul_le_mul_left _ (by omega)
    show n + n' s1 ≤ _
    omega
  | err => show n + 0 ≤ _; omega
  | abort => show n + 0 ≤ _; omega
  | stuck => show n + 0 ≤ _; omega

/-- Rounds each of which moves a byte. -/
theorem rounds_ends {k : Nat} {m : M Unit} {count : St → Nat} (hm : Moves 1 m) (h : ∀ s, Ends k m s (count s)) (n : Nat) :
    ∀ s s', rounds m n s = .ok () s' → stepsRounds count m n s ≤ k * used s s' := by
  induction n with
  | zero => intro s s' _; exact Nat.zero_le _
  | succ n ih =>
    intro s s' hs
    have hs' : (m >>= fun _ => rounds m n) s = .ok () s' := hs
    rw [bind_apply] at hs'
    unfold stepsRounds
    cases he : m s with
    | ok u s1 =>
      rw [he] at hs'
      have h1 := h s s1 he
      have h2 := ih s1 s' hs'
      have h3 := hm _ _ _ he
      rw [used_add h3.1 (moves_rounds (hm.mono (Nat.zero_le _)) n _ _ _ hs').1, Nat.mul_add]
      rw [Nat.max_eq_left h3.2] at h1
      show count s + stepsRounds count m n s1 ≤ _
      omega
    | err => rw [he] at hs'; cases hs'
    | abort => rw [he] at hs'; cases hs'
    | stuck => rw [he] at hs'; cases hs'

theorem rounds_stops {k : Nat} {m : M Unit} {count : St → Nat} (hm : Moves 1 m) (hr : Reads 0 m) (h : ∀ s, Ends k m s (count s))
    (h' : ∀ s, Stops k s (count s)) (n : Nat) : ∀ s, Stops k s (stepsRounds count m n s) := by
  induction n with
  | zero => intro s; exact Nat.zero_le _
  | succ n ih =>
    intro s
    unfold stepsRounds
    have h1 := h' s
    unfold Stops at *
    cases he : m s with
    | ok u s1 =>
      have h2 := h s s1 he
      have h3 := hm _ _ _ he
      rw [Nat.max_eq_left h3.2] at h2
      have h4 := ih s1
      have h5 : used s s1 + s1.rest.length = s.rest.length := by
        have h6 := hr _ _ _ he
        unfold used
        rw [h6.1]
        omega
      show count s + stepsRounds count m n s1 ≤ _
      have : k * used s s1 + k * (s1.rest.length + 1) = k * (s.rest.length + 1) := by rw [← Nat.mul_add, ← h5, Nat.add_assoc]
      omega
    | err => exact h1
    | abort => exact h1
    | stuck => exact h1

theorem each_ends {k : Nat} {m : Val → M Unit} {count : Val → St → Nat} (hm : ∀ v, Moves 1 (m v)) (h : ∀ v s, Ends k (m v) s (count v s))
    (l : List Val) : ∀ s s', forEach m l s = .ok () s' → stepsEach count m l s ≤ k * used s s' := by
  induction l with
  | nil => intro s s' _; exact Nat.zero_le _
  | cons v l ih =>
    intro s s' hs
    have hs' : (m v >>= fun _ => forEach m l) s = .ok () s' := hs
    rw [bind_apply] at hs'
    unfold stepsEach
    cases he : m v s with
    | ok u s1 =>
      rw [he] at hs'
      have h1 := h v s s1 he
      have h2 := ih s1 s' hs'
      have h3 := hm v _ _ _ he
      rw [used_add h3.1 (moves_forEach (fun v => (hm v).mono (Nat.zero_le _)) l _ _ _ hs').1, Nat.mul_add]
      rw [Nat.max_eq_left h3.2] at h1
      show count v s + stepsEach count m l s1 ≤ _
      omega
    | err => rw [he] at hs'; cases hs'
    | abort => rw [he] at hs'; cases hs'
    | stuck => rw [he] at hs'; cases hs'

theorem each_stops {k : Nat} {m : Val → M Unit} {count : Val → St → Nat} (hm : ∀ v, Moves 1 (m v)) (hr : ∀ v, Reads 0 (m v))
    (h : ∀ v s, Ends k (m v) s (count v s)) (h' : ∀ v s, Stops k s (count v s)) (l : List Val) : ∀ s, Stops k s (stepsEach count m l s) := by
  induction l with
  | nil => intro s; exact Nat.zero_le _
  | cons v l ih =>
    intro s
    unfold stepsEach
    have h1 := h' v s
    unfold Stops at *
    cases he : m v s with
    | ok u s1 =>
      have h2 := h v s s1 he
      have h3 := hm v _ _ _ he
      rw [Nat.max_eq_left h3.2] at h2
      have h4 := ih s1
      have h5 : used s s1 + s1.rest.length = s.rest.length := by
        have h6 := hr v _ _ _ he
        unfold used
        rw [h6.1]
        omega
      show count v s + stepsEach count m l s1 ≤ _
      have : k * used s s1 + k * (s1.rest.length + 1) = k * (s.rest.length + 1) := by rw [← Nat.mul_add, ← h5, Nat.add_assoc]
      omega
    | err => exact h1
    | abort => exact h1
    | stuck => exact h1

theorem Ends.block {k : Nat} {m : M Unit} {s : St} {n : Nat} (h : Ends k m s n) : Ends k (block m) s n := by
  intro s' hs
  unfold Rs.block at hs
  cases hm : m s with
  | ok u s1 =>
    rw [hm] at hs
    cases hs
    have := h _ hm
    exact this
  | err => rw [hm] at hs; cases hs
  | abort => rw [hm] at hs; cases hs
  | stuck => rw [hm] at hs; cases hs

/-- Evaluation of the expression a statement begins with, and the rest of it. -/
theorem Ends.after {k : Nat} {m : M Val} {f : Val → M Unit} {s : St} {n : Val → St → Nat} (hm : Reads 0 m) (hf : ∀ v, Moves 0 (f v))
    (h : ∀ v s1, m s = .ok v s1 → Ends k (f v) s1 (n v s1)) :
    Ends (1 + k) (m >>= f) s (1 + (m s).count n) := by
  intro s2 hs
  rw [bind_apply] at hs
  cases he : m s with
  | ok v s1 =>
    rw [he] at hs
    have h2 := h _ _ he _ hs
    have h3 := used_add (hm.moves _ _ _ he).1 (hf v _ _ _ hs).1
    have h5 : k * max (used s1 s2) 1 ≤ k * max (used s s2) 1 := Nat.mul_le_mul_left _ (max_mono (by omega))
    rw [Nat.add_mul]
    show 1 + n v s1 ≤ _
    omega
  | err => rw [he] at hs; cases hs
  | abort => rw [he] at hs; cases hs
  | stuck => rw [he] at hs; cases hs

theorem Stops.after {k : Nat} {m : M Val} {s : St} {n : Val → St → Nat} (hm : Reads 0 m)
    (h : ∀ v s1, m s = .ok v s1 → Stops k s1 (n v s1)) : Stops (1 + k) s (1 + (m s).count n) := by
  unfold Stops at *
  rw [Nat.add_mul]
  cases he : m s with
  | ok v s1 =>
    have h2 := h _ _ he
    have h3 := (hm _ _ _ he).2
    have h4 : k * (s1.rest.length + 1) ≤ k * (s.rest.length + 1) := Nat.mul_le_mul_left _ (by omega)
    show 1 + n v s1 ≤ _
    omega
  | err => show 1 + 0 ≤ _; omega
  | abort => show 1 + 0 ≤ _; omega
  | stuck => show 1 + 0 ≤ _; omega

theorem ends_zero (k : Nat) (m : M Unit) (s : St) : Ends k m s 0 := fun _ _ => Nat.zero_le _
theorem stops_zero (k : Nat) (s : St) : Stops k s 0 := Nat.zero_le _
theorem ends_one (m : M Unit) (s : St) : Ends 1 m s 1 := fun s' _ => by omega
theorem stops_one (s : St) : Stops 1 s 1 := by unfold Stops; omega

theorem ends_stuck (k n : Nat) (s : St) : Ends k stuck s n := fun _ h => by cases h

theorem eats_moves {body : List Stmt} (h : someEats body = true) : Moves 1 (block (execAll lib P body)) := by
  have := (moves_execAll lib P body).block
  rwa [if_pos h] at this

theorem eats_moves' {body : List Stmt} (h : someEats body = true) (x : Str) (v : Val) : Moves 1 (block do declare x v; execAll lib P body) := by
  have := ((moves_declare x v).bind fun _ => moves_execAll lib P body).block
  rwa [if_pos h] at this

theorem ends_declare {k : Nat} {x : Str} {v : Val} {body : List Stmt} {s : St} {n : Nat}
    (h : Ends k (execAll lib P body) { s with env := (x, v) :: s.env } n) : Ends k (block do declare x v; execAll lib P body) s n := by
  refine Ends.block ?_
  intro s' hs
  exact h s' hs

mutual
theorem steps_ends : (t : Stmt) → t.calm = true → ∀ s, Ends t.size (exec lib P t) s (steps lib P t s)
  | .write _ _, _, s => ends_one _ _
  | .letS _ _ _, _, s => ends_one _ _
  | .assign _ _, _, s => ends_one _ _
  | .reserve _ _, _, s => ends_one _ _
  | .push _ _, _, s => ends_one _ _
  | .matchOpt r e t n x body, hc, s => by
    refine Ends.after (reads_eval lib P e).weaken (fun v => ?_) (fun v s1 _ => ?_)
    · cases v with
      | none => exact ((reads_eval lib P n).moves.bind fun v => moves_emit lib t v).mono (Nat.zero_le _)
      | some v => exact (((moves_declare x v).bind fun _ => moves_execAll lib P body).mono (Nat.zero_le _)).block
      | _ => exact moves_stuck _
    · cases v with
      | some v => exact ends_declare lib P (stepsAll_ends body hc _)
      | _ => exact ends_zero _ _ _
  | .forIter x e body, hc, s => by
    have hb : ∀ v, Moves 1 (block do declare x v; execAll lib P body) := eats_moves' lib P (and_split hc).1 x
    refine Ends.after (reads_eval lib P e).weaken (fun v => ?_) (fun v s1 _ => ?_)
    · cases v with
      | vec l => exact moves_forEach (fun v => (hb v).mono (Nat.zero_le _)) l
      | _ => exact moves_stuck _
    · cases v with
      | vec l =>
        intro s' hs
        refine Nat.le_trans (each_ends hb (fun v s => ends_declare lib P (stepsAll_ends body (and_split hc).2 _)) l s1 s' hs) ?_
        exact Nat.mul_le_mul_left _ (Nat.le_max_left _ _)
      | _ => exact ends_zero _ _ _
  | .ifGt e n body, hc, s => by
    have hb : Moves 0 (block (execAll lib P body)) := ((moves_execAll lib P body).mono (Nat.zero_le _)).block
    refine Ends.after (reads_eval lib P e).weaken (fun v => ?_) (fun v s1 _ => ?_)
    · cases v with
      | num m => cases m with | int i => exact moves_ite hb (moves_pure ()) | _ => exact moves_stuck _
      | _ => exact moves_stuck _
    · cases v with
      | num m =>
        cases m with
        | int i =>
          show Ends _ (if _ then _ else _) _ (if _ then _ else _)
          split
          · exact (stepsAll_ends body hc _).block
          · exact ends_zero _ _ _
        | _ => exact ends_zero _ _ _
      | _ => exact ends_zero _ _ _
  | .forRange e body, hc, s => by
    have hb : Moves 1 (block (execAll lib P body)) := eats_moves lib P (and_split hc).1
    refine Ends.after (reads_eval lib P e).weaken (fun v => ?_) (fun v s1 _ => ?_)
    · cases v with
      | num m => cases m with | int i => exact moves_rounds (hb.mono (Nat.zero_le _)) _ | _ => exact moves_stuck _
      | _ => exact moves_stuck _
    · cases v with
      | num m =>
        cases m with
        | int i =>
          intro s' hs
          refine Nat.le_trans (rounds_ends hb (fun s => (stepsAll_ends body (and_split hc).2 s).block) _ s1 s' hs) ?_
          exact Nat.mul_le_mul_left _ (Nat.le_max_left _ _)
        | _ => exact ends_zero _ _ _
      | _ => exact ends_zero _ _ _
theorem stepsAll_ends : (ts : List Stmt) → calmAll ts = true → ∀ s, Ends (sizes ts) (execAll lib P ts) s (stepsAll lib P ts s)
  | [], _, _ => ends_zero _ _ _
  | t :: ts, hc, s => Ends.seq ((moves_exec lib P t).mono (Nat.zero_le _)) ((moves_execAll lib P ts).mono (Nat.zero_le _))
      (steps_ends t (and_split hc).1 s) fun s1 _ => stepsAll_ends ts (and_split hc).2 s1
end

mutual
theorem steps_stops : (t : Stmt) → t.calm = true → t.reader = true → ∀ s, Stops t.size s (steps lib P t s)
  | .write _ _, _, hr, s => by cases hr
  | .matchOpt _ _ _ _ _ _, _, hr, s => by cases hr
  | .letS _ _ _, _, _, s => stops_one _
  | .assign _ _, _, _, s => stops_one _
  | .reserve _ _, _, _, s => stops_one _
  | .push _ _, _, _, s => stops_one _
  | .forIter x e body, hc, hr, s => by
    have hb : ∀ v, Moves 1 (block do declare x v; execAll lib P body) := eats_moves' lib P (and_split hc).1 x
    refine Stops.after (reads_eval lib P e).weaken (fun v s1 _ => ?_)
    cases v with
    | vec l =>
      refine each_stops hb (fun v => ((reads_declare x v).bind fun _ => reads_execAll lib P body hr).block)
        (fun v s => ends_declare lib P (stepsAll_ends lib P body (and_split hc).2 _))
        (fun v s => stepsAll_stops body (and_split hc).2 hr { s with env := (x, v) :: s.env }) l s1
    | _ => exact stops_zero _ _
  | .ifGt e n body, hc, hr, s => by
    refine Stops.after (reads_eval lib P e).weaken (fun v s1 _ => ?_)
    cases v with
    | num m =>
      cases m with
      | int i =>
        show Stops _ _ (if _ then _ else _)
        split
        · exact stepsAll_stops body hc hr _
        · exact stops_zero _ _
      | _ => exact stops_zero _ _
    | _ => exact stops_zero _ _
  | .forRange e body, hc, hr, s => by
    have hb : Moves 1 (block (execAll lib P body)) := eats_moves lib P (and_split hc).1
    refine Stops.after (reads_eval lib P e).weaken (fun v s1 _ => ?_)
    cases v with
    | num m =>
      cases m with
      | int i =>
        exact rounds_stops hb (reads_execAll lib P body hr).block (fun s => (stepsAll_ends lib P body (and_split hc).2 s).block)
          (fun s => stepsAll_stops body (and_split hc).2 hr s) _ s1
      | _ => exact stops_zero _ _
    | _ => exact stops_zero _ _
theorem stepsAll_stops : (ts : List Stmt) → calmAll ts = true → readers ts = true → ∀ s, Stops (sizes ts) s (stepsAll lib P ts s)
  | [], _, _, _ => stops_zero _ _
  | t :: ts, hc, hr, s => Stops.seq (reads_exec lib P t (and_split hr).1) (steps_stops t (and_split hc).1 (and_split hr).1 s)
      fun s1 _ => stepsAll_stops ts (and_split hc).2 (and_split hr).2 s1
end

end

end Packetc.Rs
