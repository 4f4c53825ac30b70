import Verif.Proof.JsNames
import Verif.Spec.Plain
/-!
# Plain schemas give modules that parse, with ordinary field names
-/

namespace Packetc.Js
open Ast Check Gen WellFormed

section
variable {Q : List Str → Prop} {P : REnum → Prop}

theorem deepFs_iff (fs : List (FieldOf RType)) : DeepFs Q P fs ↔ ∀ f ∈ fs, DeepT Q P f.ty := by
  induction fs with
  | nil => simp [DeepFs]
  | cons f fs ih =>
    have : DeepF Q P f ↔ DeepT Q P f.ty := by cases f; rfl
    simp [DeepFs, ih, this]

theorem forall2_names {c : TypeMap} {l : List (Str × Unresolved)} {rfs : List RField}
    (h : List.Forall₂ (FieldOk c) l rfs) : rfs.map FieldOf.name = l.map Prod.fst := by
  induction h with
  | nil => rfl
  | cons hR _ ih => simp only [List.map_cons, ih, hR.name]

theorem forall2_right {α β : Type} {R : α → β → Prop} {l : List α} {m : List β} (h : List.Forall₂ R l m) :
    ∀ b ∈ m, ∃ a ∈ l, R a b := by
  induction h with
  | nil => simp
  | cons hR _ ih =>
    intro b hb
    rcases List.mem_cons.1 hb with rfl | hb
    · exact ⟨_, List.mem_cons_self, hR⟩
    · obtain ⟨a, ha, hr⟩ := ih b hb
      exact ⟨a, List.mem_cons_of_mem _ ha, hr⟩

theorem filter_split_perm {α : Type} (p : α → Bool) (l : List α) :
    (l.filter p ++ l.filter (fun x => !p x)).Perm l := List.filter_append_perm p l

theorem final_deep {ast : AST} {c : TypeMap} (hf : Final ast c) (hperm : ∀ l m, l.Perm m → Q l → Q m)
    (hQ : ∀ n fs, (n, .struct fs) ∈ decls ast → Q (fs.map Prod.fst))
    (hP : ∀ n vs e, (n, .enum vs) ∈ decls ast → EnumResolved vs e → P e) (k : Nat) : ∀ n m t, sizeOf t ≤ k →
    c.get n = some (m, t) → DeepT Q P t := by
  induction k with
  | zero =>
    intro n m t hn
    have : 0 < sizeOf t := by cases t <;> simp
    omega
  | succ k ih =>
    intro n m t hn hg
    by_cases hb : n ∈ builtinNames
    · rw [hf.builtin n hb] at hg
      obtain ⟨b, rfl, hb⟩ := builtin_entry hg
      trivial
    · by_cases hd : Declared ast n
      · obtain ⟨ty, hty⟩ := hd
        cases ty with
        | enum vs =>
          obtain ⟨h1, h2⟩ := hf.enum n vs hty
          rw [h2] at hg
          cases hg
          exact hP n vs _ hty (Props.enumSpec_resolved h1)
        | struct fs =>
          obtain ⟨_, rfs, p, h1, h2, _, h3⟩ := hf.struct n fs hty
          rw [h1] at hg
          cases hg
          refine ⟨?_, ?_⟩
          · rw [forall2_names h3]
            exact hperm _ _ ((filter_split_perm (fun f : Str × Unresolved => p f.2.name) fs).map _).symm (hQ n fs hty)
          · rw [deepFs_iff]
            intro rf hrf
            obtain ⟨f, _, hR⟩ := forall2_right h3 rf hrf
            have hsz := sizeOf_field hrf
            exact ih f.2.name f.2.name rf.ty (by omega) hR.ty
      · rw [hf.other n hb hd] at hg
        cases hg

theorem mem_decls {ast : AST} {n : Str} {t : Ty} : (n, t) ∈ decls ast ↔ .decl n t ∈ ast := by
  unfold decls
  rw [List.mem_filterMap]
  constructor
  · rintro ⟨x, hx, h⟩
    cases x with
    | decl n' t' => simp only [Option.some.injEq, Prod.mk.injEq] at h; obtain ⟨rfl, rfl⟩ := h; exact hx
    | «export» n' => simp at h
  · intro h
    exact ⟨_, h, rfl⟩

/-- The declared struct behind the export. -/
theorem export_struct {ord} (hord : FairOrd ord) {ast : AST} (hnb : NoBuiltinDecl ast) {r}
    (h : typeCheck ord ast = .ok r) : .export r.export.name ∈ ast ∧
      ∃ fs, .decl r.export.name (.struct fs) ∈ ast ∧ (r.export.fields.map FieldOf.name).Perm (fs.map Prod.fst) := by
  obtain ⟨c, hf, he, hg, hk, h1, h2⟩ := Props.typeCheck_final hord hnb h
  obtain ⟨he', fs, hd⟩ := Props.C21_export_is_struct hord h
  have hex : .export r.export.name ∈ ast := by
    have : r.export.name ∈ exports ast := by rw [he]; exact List.mem_singleton_self _
    unfold exports at this
    obtain ⟨x, hx, hxe⟩ := List.mem_filterMap.1 this
    cases x with
    | decl n' t' => simp at hxe
    | «export» n' => simp only [Option.some.injEq] at hxe; subst hxe; exact hx
  refine ⟨hex, fs, hd, ?_⟩
  obtain ⟨_, rfs, p, h4, h5, _, h6⟩ := hf.struct _ fs (mem_decls.2 hd)
  rw [h4] at hg
  cases hg
  rw [forall2_names h6]
  exact (filter_split_perm (fun f : Str × Unresolved => p f.2.name) fs).map _

theorem accepted_deep {ord} (hord : FairOrd ord) {ast : AST} (hnb : NoBuiltinDecl ast) {r}
    (h : typeCheck ord ast = .ok r) (hperm : ∀ l m, l.Perm m → Q l → Q m)
    (hQ : ∀ n fs, .decl n (.struct fs) ∈ ast → Q (fs.map Prod.fst))
    (hP : ∀ n vs e, .decl n (.enum vs) ∈ ast → EnumResolved vs e → P e) :
    Q (r.export.fields.map FieldOf.name) ∧ DeepFs Q P r.export.fields := by
  obtain ⟨c, hf, he, hg, hk, h1, h2⟩ := Props.typeCheck_final hord hnb h
  exact final_deep hf hperm (fun n fs hd => hQ n fs (mem_decls.1 hd)) (fun n vs e hd => hP n vs e (mem_decls.1 hd)) _ _ _ _
    (Nat.le_refl _) hg

end

theorem plainNames_perm (l m : List Str) (h : l.Perm m) (hl : PlainNames l) : PlainNames m :=
  ⟨h.nodup_iff.1 hl.nodup, fun a ha b hb => hl.apart a (h.mem_iff.2 ha) b (h.mem_iff.2 hb),
    fun hp => hl.proto (h.mem_iff.2 hp)⟩

mutual
theorem deep_mono {Q Q' : List Str → Prop} {P P' : REnum → Prop} (hQ : ∀ l, Q l → Q' l) (hP : ∀ e, P e → P' e) :
    (t : RType) → DeepT Q P t → DeepT Q' P' t
  | .builtin _, _ => trivial
  | .enum e, h => hP e h
  | .struct fs, h => ⟨hQ _ h.1, deepFs_mono hQ hP fs h.2⟩
theorem deepFs_mono {Q Q' : List Str → Prop} {P P' : REnum → Prop} (hQ : ∀ l, Q l → Q' l) (hP : ∀ e, P e → P' e) :
    (fs : List (FieldOf RType)) → DeepFs Q P fs → DeepFs Q' P' fs
  | [], _ => trivial
  | f :: fs, h => ⟨deepF_mono hQ hP f h.1, deepFs_mono hQ hP fs h.2⟩
theorem deepF_mono {Q Q' : List Str → Prop} {P P' : REnum → Prop} (hQ : ∀ l, Q l → Q' l) (hP : ∀ e, P e → P' e) :
    (f : FieldOf RType) → DeepF Q P f → DeepF Q' P' f
  | ⟨_, _, t, _, _⟩, h => deep_mono hQ hP t h
end

mutual
theorem deep_enums {P : REnum → Prop} : (t : RType) → DeepT (fun _ => True) P t → EnumsT P t
  | .builtin _, _ => trivial
  | .enum _, h => h
  | .struct fs, h => deepFs_enums fs h.2
theorem deepFs_enums {P : REnum → Prop} : (fs : List (FieldOf RType)) → DeepFs (fun _ => True) P fs → EnumsFs P fs
  | [], _ => trivial
  | f :: fs, h => ⟨deepF_enums f h.1, deepFs_enums fs h.2⟩
theorem deepF_enums {P : REnum → Prop} : (f : FieldOf RType) → DeepF (fun _ => True) P f → EnumsF P f
  | ⟨_, _, t, _, _⟩, h => deep_enums t h
end

mutual
theorem plain_ordinaryT : (t : RType) → DeepT PlainNames (fun _ => True) t → OrdinaryT t
  | .builtin _, _ => trivial
  | .enum _, _ => trivial
  | .struct fs, h => ⟨h.1.nodup, plain_ordinaryFs fs (fun _ hn he => h.1.proto (he ▸ hn)) h.2⟩
theorem plain_ordinaryFs : (fs : List (FieldOf RType)) → (∀ n ∈ fs.map FieldOf.name, n ≠ "__proto__".toList) →
    DeepFs PlainNames (fun _ => True) fs → OrdinaryFs fs
  | [], _, _ => trivial
  | f :: fs, hn, h => ⟨plain_ordinaryF f (hn _ (List.mem_map_of_mem List.mem_cons_self)) h.1,
      plain_ordinaryFs fs (fun n hm => hn n (List.mem_cons_of_mem _ hm)) h.2⟩
theorem plain_ordinaryF : (f : FieldOf RType) → f.name ≠ "__proto__".toList → DeepF PlainNames (fun _ => True) f →
    OrdinaryF f
  | ⟨_, _, t, _, _⟩, hn, h => ⟨hn, plain_ordinaryT t h⟩
end

/-! ### identifiers -/

theorem isIdent_of_legal {n : Str} (h : Grammar.Ident n) : isIdent n = true := by
  obtain ⟨⟨c, cs, rfl, hc, hcs⟩, -⟩ := h
  have hL : ∀ c, Grammar.Letter c → c.isAlpha = true := by
    intro c hc
    unfold Char.isAlpha Char.isUpper Char.isLower
    simp only [Bool.or_eq_true, Bool.and_eq_true, decide_eq_true_eq]
    rcases hc with ⟨h1, h2⟩ | ⟨h1, h2⟩
    · exact Or.inr ⟨h1, h2⟩
    · exact Or.inl ⟨h1, h2⟩
  have hD : ∀ c, Grammar.Digit c → c.isDigit = true := by
    intro c hc
    unfold Char.isDigit
    simp only [Bool.and_eq_true, decide_eq_true_eq]
    exact hc
  unfold isIdent
  simp only [Bool.and_eq_true, Bool.or_eq_true, decide_eq_true_eq, List.all_eq_true]
  refine ⟨hc.imp (hL c) id, fun d hd => ?_⟩
  rcases hcs d hd with h | h | h
  · left
    unfold Char.isAlphanum
    rw [hL d h]
    rfl
  · left
    unfold Char.isAlphanum
    rw [hD d h, Bool.or_true]
  · exact Or.inr h

mutual
theorem deep_identT : (t : RType) → DeepT (fun l => ∀ n ∈ l, isIdent n = true) (fun _ => True) t → identType t = true
  | .builtin _, _ => rfl
  | .enum _, _ => rfl
  | .struct fs, h => deep_identFs fs h.1 h.2
theorem deep_identFs : (fs : List (FieldOf RType)) → (∀ n ∈ fs.map FieldOf.name, isIdent n = true) →
    DeepFs (fun l => ∀ n ∈ l, isIdent n = true) (fun _ => True) fs → identFields fs = true
  | [], _, _ => rfl
  | f :: fs, hn, h => by
    have h1 := deep_identF f (hn _ (List.mem_map_of_mem List.mem_cons_self)) h.1
    have h2 := deep_identFs fs (fun n hm => hn n (List.mem_cons_of_mem _ hm)) h.2
    simp [identFields, h1, h2]
theorem deep_identF : (f : FieldOf RType) → isIdent f.name = true →
    DeepF (fun l => ∀ n ∈ l, isIdent n = true) (fun _ => True) f → identField f = true
  | ⟨_, _, t, _, _⟩, hn, h => by
    have h1 := deep_identT t h
    simp only at hn
    simp [identField, hn, h1]
end

/-- The names in an accepted schema are identifiers. -/
theorem accepted_ident {text : Str} {ast : AST} (hp : Parser.schema text = .ok ast) {ord} (hord : FairOrd ord) {r}
    (h : typeCheck ord ast = .ok r) : isIdent r.export.name = true ∧ identFields r.export.fields = true := by
  have hnb := Props.parsed_noBuiltinDecl hp
  have hl := Parser.schema_legal ((Parser.schema_iff _ _).mp hp)
  obtain ⟨-, fs, hd, -⟩ := export_struct hord hnb h
  refine ⟨isIdent_of_legal (hl _ hd).1, ?_⟩
  have := accepted_deep hord hnb h (Q := fun l => ∀ n ∈ l, isIdent n = true) (P := fun _ => True)
    (fun l m hp h n hn => h n (hp.mem_iff.2 hn)) ?_ (fun _ _ _ _ _ => trivial)
  · exact deep_identFs _ this.1 this.2
  · intro n fs hd m hm
    obtain ⟨f, hf, rfl⟩ := List.mem_map.1 hm
    exact isIdent_of_legal ((hl _ hd).2.2 f hf).1

/-- The module generated for a plain schema passes the parser, and its names are ordinary. -/
theorem plain_export {e : Export} (hi1 : isIdent e.name = true) (hi2 : identFields e.fields = true)
    (hn : PlainNames (e.fields.map FieldOf.name)) (hdeep : DeepFs PlainNames (fun _ => True) e.fields)
    (hc : ClassNameOk e.name ∧ e.name ∉ reservedWords ∧ e.name ∉ reservedTypeNames)
    (htop : ∀ n ∈ e.fields.map FieldOf.name, n ∉ reservedWords ∧ n ∉ readOnlyNames ∧ n ∉ poisonedNames) :
    moduleOk e = true ∧ ClassNameOk e.name ∧ OrdinaryFs e.fields ∧ TopNamesOk e.fields := by
  obtain ⟨hc1, hc2, hc3⟩ := hc
  obtain ⟨hr1, hr2⟩ := plain_readBody hn hdeep
  obtain ⟨hw1, hw2⟩ := plain_writeBody hn hdeep
  refine ⟨?_, hc1, plain_ordinaryFs _ (fun n hm he => hn.proto (he ▸ hm)) hdeep, fun f hf => ?_⟩
  · have hR : e.name ≠ "Reader".toList := fun he => hc1.1 (by rw [he]; decide)
    have hW : e.name ≠ "Writer".toList := fun he => hc1.1 (by rw [he]; decide)
    unfold moduleOk
    simp only [Bool.and_eq_true, Bool.not_eq_true', decide_eq_true_eq, decide_eq_false_iff_not,
      List.contains_eq_mem, List.all_eq_true]
    exact ⟨⟨⟨⟨⟨⟨⟨⟨⟨⟨⟨hi1, hc2⟩, hc3⟩, hR⟩, hW⟩, hn.nodup⟩, hi2⟩, fun n hm => (htop n hm).1⟩, hr1⟩, hr2⟩, hw1⟩, hw2⟩
  · exact (htop _ (List.mem_map_of_mem hf)).2

theorem plain_module {text : Str} {ast : AST} (hp : Parser.schema text = .ok ast) {ord} (hord : FairOrd ord) {r}
    (h : typeCheck ord ast = .ok r) (hpl : PlainSchema ast) :
    moduleOk r.export = true ∧ ClassNameOk r.export.name ∧ OrdinaryFs r.export.fields ∧ TopNamesOk r.export.fields := by
  have hnb := Props.parsed_noBuiltinDecl hp
  obtain ⟨hex, fs, hd, hperm⟩ := export_struct hord hnb h
  obtain ⟨hi1, hi2⟩ := accepted_ident hp hord h
  obtain ⟨hn, hdeep⟩ := accepted_deep hord hnb h (Q := PlainNames) (P := fun _ => True) plainNames_perm hpl.fields
    (fun _ _ _ _ _ => trivial)
  refine plain_export hi1 hi2 hn hdeep (hpl.className _ hex) ?_
  intro n hm
  obtain ⟨f, hf, rfl⟩ := List.mem_map.1 (hperm.mem_iff.1 hm)
  exact hpl.top _ fs hex hd f hf

/-- Without 32-variant enums in the schema there are none in the export. -/
theorem small_enums {text : Str} {ast : AST} (hp : Parser.schema text = .ok ast) {ord} (hord : FairOrd ord) {r}
    (h : typeCheck ord ast = .ok r) {k : Nat} (hs : EnumsAtMost k ast) :
    EnumsFs (fun e => SoundEnum e ∧ e.variants.length ≤ k) r.export.fields := by
  have hnb := Props.parsed_noBuiltinDecl hp
  refine enumsFs_and _ (soundFs_enums _ (accepted_sound hord hnb h).1) (deepFs_enums _ ?_)
  refine (accepted_deep hord hnb h (Q := fun _ => True) (fun _ _ _ _ => trivial) (fun _ _ _ => trivial) ?_).2
  intro n vs e hd he
  have : e.variants.length = vs.length := by
    rw [← List.length_map (f := EnumVariant.name), he.names]
  rw [this]
  exact hs n vs hd


end Packetc.Js
