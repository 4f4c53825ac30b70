import Verif.Proof.JsVars
/-!
# If two runs give the same `read`, they have resolved the types in the same way
-/

namespace Packetc.Js
open Ast Check Gen WellFormed

/-- The first statement for a field tells its name. -/
inductive IsHead (s n : Str) : Stmt → Prop
  | assign (r) : IsHead s n (.assign (.prop (.var s) n) r)
  | len (e) : IsHead s n (.letS (s ++ "_".toList ++ (n ++ "_".toList ++ "len".toList)) false e)
  | temp (e) : IsHead s n (.letS (s ++ "_".toList ++ (n ++ "_".toList ++ "temp".toList)) false e)
  | obj (e) : IsHead s n (.letS (s ++ "_".toList ++ n) true e)
  | opt (c b) : IsHead s n (.ifElse c b [.assign (.prop (.var s) n) .undef])

theorem len_ne_temp {s n m : Str} (h : s ++ "_".toList ++ (n ++ "_".toList ++ "len".toList) =
    s ++ "_".toList ++ (m ++ "_".toList ++ "temp".toList)) : False := by
  have h1 := congrArg (fun l => l.reverse.take 1) (under_inj s h)
  simp at h1

theorem IsHead.name {s n m : Str} {st : Stmt} (h : IsHead s n st) (h' : IsHead s m st) : n = m := by
  generalize hs : st = st' at h'
  cases h <;> cases h' <;> simp only [reduceCtorEq, Stmt.assign.injEq, Stmt.letS.injEq, Stmt.ifElse.injEq, List.cons.injEq,
    Expr.prop.injEq, true_and, and_true, false_and, and_false] at hs
  · exact hs.1
  · exact List.append_cancel_right (List.append_cancel_right (under_inj s hs.1))
  · exact (len_ne_temp hs.1).elim
  · exact (len_ne_temp hs.1.symm).elim
  · exact List.append_cancel_right (List.append_cancel_right (under_inj s hs.1))
  · exact under_inj s hs.1
  · exact hs.2.2

theorem path2 (s n : Str) : path [s, n] = .prop (.var s) n := rfl

theorem readType_head (s n tn : Str) (ty : RType) : ∃ st rest, readType true [s, n] tn ty = st :: rest ∧ IsHead s n st := by
  cases ty with
  | builtin b =>
    cases b
    case string => exact ⟨_, _, rfl, by rw [var2]; exact .len _⟩
    all_goals exact ⟨_, _, rfl, .assign _⟩
  | enum e => exact ⟨_, _, rfl, by rw [var2]; exact .temp _⟩
  | struct fs => exact ⟨_, _, rfl, by rw [bind2]; exact .obj _⟩

theorem readField_head (s : Str) (f : FieldOf RType) : ∃ st rest, readField [s] f = st :: rest ∧ IsHead s f.name st := by
  obtain ⟨n, tn, ty, a, o⟩ := f
  cases o with
  | true => exact ⟨_, _, rfl, .opt _ _⟩
  | false =>
    cases a with
    | true =>
      refine ⟨.letS (varname [s, n] "len".toList) false (readCall "uint32".toList), _, rfl, ?_⟩
      rw [var2]
      exact .len _
    | false => exact readType_head s n tn ty

theorem readField_name {s : Str} {f g : FieldOf RType} {t t' : List Stmt} (h : readField [s] f ++ t = readField [s] g ++ t') :
    f.name = g.name := by
  obtain ⟨a, x, h1, h2⟩ := readField_head s f
  obtain ⟨b, y, h3, h4⟩ := readField_head s g
  rw [h1, h3] at h
  injection h with h
  subst h
  exact h2.name h4

variable {ast : AST} {c₁ c₂ : TypeMap}

/-- The same for one type. -/
def SameCode (c₁ c₂ : TypeMap) (n : Str) : Prop := ∀ init st t₁ t₂,
  (init = true ∧ (∃ s m, st = [s, m]) ∨ init = false ∧ ∃ s, st = [s]) →
  readType init st n (typeOf c₁ n) ++ t₁ = readType init st n (typeOf c₂ n) ++ t₂ → c₁.get n = c₂.get n ∧ t₁ = t₂

theorem typeOf_get {c : TypeMap} {n : Str} {x : Str × RType} (h : c.get n = some x) : typeOf c n = x.2 := by
  unfold typeOf
  rw [h]
  rfl

theorem same_field {s n tn : Str} {ty ty' : RType} {a o : Bool} {t₁ t₂ : List Stmt} (g₁ : c₁.get tn = some (tn, ty))
    (g₂ : c₂.get tn = some (tn, ty')) (ih : SameCode c₁ c₂ tn)
    (h : readField [s] ⟨n, tn, ty, a, o⟩ ++ t₁ = readField [s] ⟨n, tn, ty', a, o⟩ ++ t₂) : ty = ty' ∧ t₁ = t₂ := by
  have key : ∀ init st t₁ t₂, (init = true ∧ (∃ s m, st = [s, m]) ∨ init = false ∧ ∃ s, st = [s]) →
      readType init st tn ty ++ t₁ = readType init st tn ty' ++ t₂ → ty = ty' ∧ t₁ = t₂ := by
    intro init st t₁ t₂ hs h
    obtain ⟨h1, h2⟩ := ih init st t₁ t₂ hs (by rw [typeOf_get g₁, typeOf_get g₂]; exact h)
    rw [g₁, g₂] at h1
    simp only [Option.some.injEq, Prod.mk.injEq, true_and] at h1
    exact ⟨h1, h2⟩
  cases a with
  | false =>
    cases o with
    | false => exact key true [s, n] _ _ (Or.inl ⟨rfl, _, _, rfl⟩) h
    | true =>
      injection h with h1 h2
      injection h1 with _ h1 _
      exact ⟨(key true [s, n] [] [] (Or.inl ⟨rfl, _, _, rfl⟩) (by rw [List.append_nil, List.append_nil]; exact h1)).1, h2⟩
  | true =>
    have inner : ∀ (i : Stmt) (j : Stmt) (x y : List Stmt), [i] ++ readType false [varname [s, n] "item".toList] tn ty ++ x =
        [j] ++ readType false [varname [s, n] "item".toList] tn ty' ++ y → ty = ty' := by
      intro i j x y h
      rw [List.append_assoc, List.append_assoc] at h
      injection h with _ h
      exact (key false _ _ _ (Or.inr ⟨rfl, _, rfl⟩) h).1
    cases o with
    | false =>
      injection h with _ h
      injection h with _ h
      injection h with h1 h2
      injection h1 with _ _ h1
      exact ⟨inner _ _ _ _ h1, h2⟩
    | true =>
      injection h with h1 h2
      injection h1 with _ h1 _
      injection h1 with _ h1
      injection h1 with _ h1
      injection h1 with h1 _
      injection h1 with _ _ h1
      exact ⟨inner _ _ _ _ h1, h2⟩

theorem same_fields {fs : List (Str × Unresolved)} (hd : (fs.map Prod.fst).Nodup) {s : Str} {ds₁ : List (Str × Unresolved)}
    {r₁ : List RField} (f₁ : List.Forall₂ (FieldOk c₁) ds₁ r₁) : ∀ {ds₂ r₂} {t₁ t₂ : List Stmt},
    List.Forall₂ (FieldOk c₂) ds₂ r₂ → (∀ d ∈ ds₁, d ∈ fs) → (∀ d ∈ ds₂, d ∈ fs) → ds₁.length = ds₂.length →
    (∀ d ∈ ds₁, SameCode c₁ c₂ d.2.name) → readFields [s] r₁ ++ t₁ = readFields [s] r₂ ++ t₂ → r₁ = r₂ ∧ t₁ = t₂ := by
  induction f₁ with
  | nil =>
    intro ds₂ r₂ t₁ t₂ f₂ _ _ hl _ h
    cases f₂ with
    | nil => exact ⟨rfl, h⟩
    | cons _ _ => cases hl
  | @cons d b ds l hR _ ih =>
    intro ds₂ r₂ t₁ t₂ f₂ m₁ m₂ hl hc h
    cases f₂ with
    | nil => cases hl
    | @cons d' b' ds' l' hR' f₂ =>
      have h' : readField [s] b ++ (readFields [s] l ++ t₁) = readField [s] b' ++ (readFields [s] l' ++ t₂) := by
        rw [readFields, readFields, List.append_assoc, List.append_assoc] at h
        exact h
      have hn := readField_name h'
      rw [hR.name, hR'.name] at hn
      have hdd : d = d' := List.inj_on_of_nodup_map hd (m₁ _ List.mem_cons_self) (m₂ _ List.mem_cons_self) hn
      subst hdd
      obtain ⟨x1, x2, x3, x4, x5⟩ := b
      obtain ⟨y1, y2, y3, y4, y5⟩ := b'
      have e1 := hR.name.trans hR'.name.symm
      have e2 := hR.tyName.trans hR'.tyName.symm
      have e3 := hR.array.trans hR'.array.symm
      have e4 := hR.optional.trans hR'.optional.symm
      have e5 := hR.tyName
      have g₁ := hR.ty
      have g₂ := hR'.ty
      simp only at e1 e2 e3 e4 e5 g₁ g₂
      subst e1 e2 e3 e4
      rw [← e5] at g₁ g₂
      obtain ⟨h1, h2⟩ := same_field g₁ g₂ (e5 ▸ hc _ List.mem_cons_self) h'
      subst h1
      obtain ⟨h3, h4⟩ := ih f₂ (fun d hd => m₁ d (List.mem_cons_of_mem _ hd)) (fun d hd => m₂ d (List.mem_cons_of_mem _ hd))
        (Nat.succ.inj hl) (fun d hd => hc d (List.mem_cons_of_mem _ hd)) h2
      exact ⟨by rw [h3], h4⟩

theorem same_code (h₁ : Final ast c₁) (h₂ : Final ast c₂)
    (hd : ∀ n fs, Used ast n → (n, .struct fs) ∈ decls ast → (fs.map Prod.fst).Nodup) (k : Nat) :
    ∀ n, Used ast n → sizeOf (typeOf c₁ n) ≤ k → SameCode c₁ c₂ n := by
  have easy : ∀ n, c₁.get n = c₂.get n → SameCode c₁ c₂ n := by
    intro n hg init st t₁ t₂ _ h
    have : typeOf c₁ n = typeOf c₂ n := by unfold typeOf; rw [hg]
    rw [this] at h
    exact ⟨hg, List.append_cancel_left h⟩
  induction k with
  | zero =>
    intro n _ hn
    have : 0 < sizeOf (typeOf c₁ n) := by cases typeOf c₁ n <;> simp
    omega
  | succ k ih =>
    intro n hus hn
    by_cases hb : n ∈ builtinNames
    · exact easy n (by rw [h₁.builtin n hb, h₂.builtin n hb])
    · by_cases hdec : Declared ast n
      · obtain ⟨t, ht⟩ := hdec
        cases t with
        | enum vs => exact easy n (by rw [(h₁.enum n vs ht).2, (h₂.enum n vs ht).2])
        | struct fs =>
          obtain ⟨-, r₁, p₁, g₁, -, -, f₁⟩ := h₁.struct n fs ht
          obtain ⟨-, r₂, p₂, g₂, -, -, f₂⟩ := h₂.struct n fs ht
          have q₁ := perm_partition (fun f : Str × Unresolved => p₁ f.2.name) fs
          have q₂ := perm_partition (fun f : Str × Unresolved => p₂ f.2.name) fs
          have hsz : ∀ d ∈ fs, SameCode c₁ c₂ d.2.name := by
            intro d hdm
            obtain ⟨b, hb1, hR⟩ : ∃ b ∈ r₁, FieldOk c₁ d b := by
              obtain ⟨b, hb1, hb2⟩ := (List.forall₂_iff_get.1 f₁ |> fun ⟨hl, hg⟩ => by
                obtain ⟨i, hi, he⟩ := List.getElem_of_mem (q₁.mem_iff.2 hdm)
                exact ⟨r₁[i]'(hl ▸ hi), List.getElem_mem _, he ▸ hg i hi (hl ▸ hi)⟩ : ∃ b, b ∈ r₁ ∧ FieldOk c₁ d b)
              exact ⟨b, hb1, hb2⟩
            have h1 := sizeOf_field hb1
            rw [typeOf_get g₁] at hn
            refine ih _ (Props.used_field hus ht hdm) ?_
            rw [typeOf_get hR.ty]
            show sizeOf b.ty ≤ k
            have : sizeOf (RType.struct r₁) ≤ k + 1 := hn
            omega
          have core : ∀ s t₁ t₂, readFields [s] r₁ ++ t₁ = readFields [s] r₂ ++ t₂ → r₁ = r₂ ∧ t₁ = t₂ := fun s t₁ t₂ h =>
            same_fields (hd n fs hus ht) f₁ f₂ (fun d => q₁.mem_iff.1) (fun d => q₂.mem_iff.1)
              (q₁.length_eq.trans q₂.length_eq.symm) (fun d hdm => hsz d (q₁.mem_iff.1 hdm)) h
          intro init st t₁ t₂ hs h
          rw [typeOf_get g₁, typeOf_get g₂] at h
          rw [g₁, g₂]
          rcases hs with ⟨rfl, s, m, rfl⟩ | ⟨rfl, s, rfl⟩
          · have h' : [Stmt.letS (bindname [s, m]) true .obj] ++ readFields [bindname [s, m]] r₁ ++
                [.assign (path [s, m]) (.var (bindname [s, m]))] ++ t₁ = [Stmt.letS (bindname [s, m]) true .obj] ++
                readFields [bindname [s, m]] r₂ ++ [.assign (path [s, m]) (.var (bindname [s, m]))] ++ t₂ := h
            simp only [List.append_assoc] at h'
            obtain ⟨h3, h4⟩ := core _ _ _ (List.append_cancel_left h')
            exact ⟨by rw [h3], List.append_cancel_left h4⟩
          · obtain ⟨h3, h4⟩ := core s t₁ t₂ h
            exact ⟨by rw [h3], h4⟩
      · exact easy n (by rw [h₁.other n hb hdec, h₂.other n hb hdec])

end Packetc.Js
