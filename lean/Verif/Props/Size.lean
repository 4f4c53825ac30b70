import Verif.Proof.Size
import Verif.Props.Nested
import Mathlib.Algebra.Order.BigOperators.Group.List
import Mathlib.Tactic.Linarith
import Mathlib.Tactic.Ring
/-!
# C78, C79: how much code is generated, and how deep types are nested
-/

namespace Packetc.Props
open Ast Check WellFormed Js Gen Module

/-! ### texts -/

/-- What a type takes at least in a schema text. -/
def tyWeight : Ty → Nat
  | .enum vs => (vs.map List.length).sum
  | .struct fs => (fs.map fun f => f.1.length + f.2.name.length + 1).sum

/-- What a line takes at least in a schema text. -/
def nodeWeight : Node → Nat
  | .decl n t => n.length + tyWeight t + 1
  | .export n => n.length

theorem weight_variants {vs t rest} (h : Grammar.Variants vs t rest) : (vs.map List.length).sum ≤ t.length := by
  induction h with
  | nil => simp
  | cons h _ ih =>
    obtain ⟨l₁, c, l₂, rfl, -⟩ := h
    simp only [List.map_cons, List.sum_cons, List.length_append]
    omega

theorem weight_fields {fs t rest} (h : Grammar.Fields fs t rest) :
    (fs.map fun f => f.1.length + f.2.name.length + 1).sum ≤ t.length := by
  induction h with
  | nil => simp
  | field h _ ih =>
    obtain ⟨b₁, q, b₂, a, l₁, comma, l₂, rfl, -⟩ := h
    simp only [List.map_cons, List.sum_cons, List.length_append, show (":".toList).length = 1 from rfl]
    omega
  | comment h _ _ ih =>
    simp only [List.length_append]
    omega

theorem weight_type {ty t} (h : Grammar.Type' ty t) : tyWeight ty ≤ t.length := by
  cases h with
  | enum _ _ _ h =>
    have := weight_variants h
    simp only [tyWeight, List.length_append]
    omega
  | struct _ _ _ h =>
    have := weight_fields h
    simp only [tyWeight, List.length_append]
    omega

theorem weight_lines {ast t} (h : Grammar.Lines ast t) : (ast.map nodeWeight).sum ≤ t.length := by
  induction h with
  | nil => simp
  | comment _ _ _ _ ih =>
    simp only [List.length_append]
    omega
  | «export» _ _ _ _ _ _ _ ih =>
    simp only [List.map_cons, List.sum_cons, List.length_append, nodeWeight]
    omega
  | decl _ _ _ _ _ h _ _ ih =>
    have := weight_type h
    simp only [List.map_cons, List.sum_cons, List.length_append, nodeWeight, show (":".toList).length = 1 from rfl]
    omega

theorem weight_text {text ast} (h : Parser.schema text = .ok ast) : (ast.map nodeWeight).sum ≤ text.length := by
  obtain ⟨l, t, rfl, -, h⟩ := (Parser.schema_iff _ _).mp h
  have := weight_lines h
  rw [List.length_append]
  omega

/-! ### nesting -/

section
variable {ord : List (Str × Ty) → List (Str × Ty)} (hord : FairOrd ord) {ast : AST} (hnb : NoBuiltinDecl ast)
  {r : Resolved} (h : typeCheck ord ast = .ok r)

/-- A chain of structs, each containing the next, as long as the type is deep. -/
def ChainFor (ast : AST) (n : Str) (k : Nat) : Prop :=
  ∃ l : List Str, l.length = k ∧ List.IsChain (Refers ast) l ∧ (∀ m ∈ l, Declared ast m) ∧ ∀ m ∈ l.head?, m = n

theorem depth_mem : (fs : List (FieldOf RType)) → fieldsDepth fs = 0 ∨ ∃ f ∈ fs, fieldsDepth fs = fieldDepth f
  | [] => Or.inl rfl
  | f :: fs => by
    right
    show ∃ g ∈ f :: fs, max (fieldDepth f) (fieldsDepth fs) = fieldDepth g
    rcases Nat.le_total (fieldDepth f) (fieldsDepth fs) with hl | hl
    · rcases depth_mem fs with h | ⟨g, h1, h2⟩
      · exact ⟨f, List.mem_cons_self, by omega⟩
      · exact ⟨g, List.mem_cons_of_mem _ h1, by omega⟩
    · exact ⟨f, List.mem_cons_self, by omega⟩

theorem depth_le_of_mem : (fs : List (FieldOf RType)) → ∀ {f}, f ∈ fs → fieldDepth f ≤ fieldsDepth fs
  | g :: gs, f, h => by
    show fieldDepth f ≤ max (fieldDepth g) (fieldsDepth gs)
    rcases List.mem_cons.1 h with rfl | h
    · exact Nat.le_max_left _ _
    · exact Nat.le_trans (depth_le_of_mem gs h) (Nat.le_max_right _ _)

theorem forall₂_mem {α β : Type} {R : α → β → Prop} {l : List α} {m : List β} (h : List.Forall₂ R l m) {b : β} (hb : b ∈ m) :
    ∃ a ∈ l, R a b := by
  induction h with
  | nil => cases hb
  | cons hR _ ih =>
    rcases List.mem_cons.1 hb with rfl | hb
    · exact ⟨_, List.mem_cons_self, hR⟩
    · obtain ⟨a, h3, h4⟩ := ih hb
      exact ⟨a, List.mem_cons_of_mem _ h3, h4⟩

include hord hnb h in
theorem chain_for : (k : Nat) → ∀ (t : RType), typeDepth t = k → ∀ n m, r.types.get n = some (m, t) → ChainFor ast n k := by
  intro k
  induction k using Nat.strong_induction_on with
  | _ k ih =>
    intro t hk n m hg
    obtain ⟨-, hm⟩ := meaning hord hnb h hg
    rcases Nat.eq_zero_or_pos k with h0 | h0
    · subst h0
      exact ⟨[], rfl, List.IsChain.nil, by simp, by simp⟩
    cases hm with
    | builtin => simp only [typeDepth] at hk; omega
    | enum => simp only [typeDepth] at hk; omega
    | struct fs fs' rfs hn hd hp hf =>
      have hk : fieldsDepth rfs = k := hk
      rcases depth_mem rfs with h1 | ⟨f, h1, h2⟩
      · omega
      · obtain ⟨g, hgm, hR⟩ := forall₂_mem hf h1
        have h3 : fieldDepth f = 1 + typeDepth f.ty := by cases f; rfl
        obtain ⟨l, e1, e2, e3, e4⟩ := ih (typeDepth f.ty) (by omega) f.ty rfl _ _ hR.ty
        have hdn : (n, Ty.struct fs) ∈ decls ast := mem_decls.2 hd
        refine ⟨n :: l, by rw [List.length_cons]; omega, ?_, ?_, by simp⟩
        · cases l with
          | nil => exact List.IsChain.singleton _
          | cons a l =>
            refine List.IsChain.cons_cons ?_ e2
            have := e4 a rfl
            subst this
            exact ⟨fs, hdn, g, hp.mem_iff.1 hgm, rfl⟩
        · intro a ha
          rcases List.mem_cons.1 ha with rfl | ha
          · exact ⟨_, hdn⟩
          · exact e3 a ha

include hord hnb h in
/-- Structs are nested at most as deep as there are declarations. -/
theorem depth_le : fieldsDepth r.export.fields ≤ (decls ast).length := by
  have hw := (C12_accepts_iff_wellformed hord ast hnb).1 ⟨r, h⟩
  obtain ⟨l, e1, e2, e3, -⟩ := chain_for hord hnb h _ (.struct r.export.fields) rfl _ _ (C23_faithful hord hnb h).1
  have hnd : l.Nodup := by
    have h1 : List.IsChain (Relation.TransGen (Refers ast)) l := e2.imp fun _ _ h => .single h
    have h2 := List.isChain_iff_pairwise.1 h1
    refine h2.imp ?_
    rintro a b hab rfl
    exact hw.acyclic a hab
  have hs : l ⊆ (decls ast).map Prod.fst := by
    intro a ha
    obtain ⟨t, ht⟩ := e3 a ha
    exact List.mem_map.2 ⟨_, ht, rfl⟩
  have := (List.subperm_of_subset hnd hs).length_le
  rw [List.length_map] at this
  show typeDepth (.struct r.export.fields) ≤ _
  omega

/-! ### names -/

variable {N : Nat} (hN : ∀ n fs, .decl n (.struct fs) ∈ ast → ∀ f ∈ fs, f.1.length ≤ N ∧ f.2.name.length ≤ N)

theorem names_fs {fs : List (FieldOf RType)} (h : ∀ f ∈ fs, NamesLeF N f) : NamesLeFs N fs := by
  induction fs with
  | nil => trivial
  | cons f fs ih => exact ⟨h f List.mem_cons_self, ih fun g hg => h g (List.mem_cons_of_mem _ hg)⟩

include hord hnb h hN in
theorem names_le : (k : Nat) → ∀ (t : RType), typeDepth t = k → ∀ n m, r.types.get n = some (m, t) → NamesLeT N t := by
  intro k
  induction k using Nat.strong_induction_on with
  | _ k ih =>
    intro t hk n m hg
    obtain ⟨-, hm⟩ := meaning hord hnb h hg
    cases hm with
    | builtin => trivial
    | enum => trivial
    | struct fs fs' rfs hn hd hp hf =>
      have hk : fieldsDepth rfs = k := hk
      refine names_fs (fun f h1 => ?_)
      obtain ⟨g, hgm, hR⟩ := forall₂_mem hf h1
      have h2 := depth_le_of_mem rfs h1
      have h3 : fieldDepth f = 1 + typeDepth f.ty := by cases f; rfl
      obtain ⟨n1, n2⟩ := hN n fs hd g (hp.mem_iff.1 hgm)
      have h4 := ih (typeDepth f.ty) (by omega) f.ty rfl _ _ hR.ty
      rw [← hR.name] at n1
      rw [← hR.tyName] at n2
      obtain ⟨_, _, _, _, _⟩ := f
      exact ⟨n1, n2, h4⟩
end

/-! ### declarations -/

theorem length_flatMap_le {α : Type} {l : List α} {g : α → Str} {w : α → Nat} (h : ∀ a ∈ l, (g a).length ≤ w a) :
    (l.flatMap g).length ≤ (l.map w).sum := by
  induction l with
  | nil => simp
  | cons a l ih =>
    have h1 := h a List.mem_cons_self
    have h2 := ih fun b hb => h b (List.mem_cons_of_mem _ hb)
    rw [List.flatMap_cons, List.length_append, List.map_cons, List.sum_cons]
    omega

theorem sum_mul {α : Type} (l : List α) (w : α → Nat) (c : Nat) : (l.map fun a => c * w a).sum = c * (l.map w).sum := by
  induction l with
  | nil => simp
  | cons a l ih => rw [List.map_cons, List.sum_cons, List.map_cons, List.sum_cons, ih, Nat.mul_add]

theorem length_tsType (n : Str) : (tsType n).length ≤ n.length + 6 := by
  unfold tsType
  split
  · exact Nat.le_trans (by decide : ("string".toList).length ≤ 6) (by omega)
  · split
    · exact Nat.le_trans (by decide : ("number".toList).length ≤ 6) (by omega)
    · omega

theorem length_ite_le {c : Prop} [Decidable c] {a : Str} {k : Nat} (h : a.length ≤ k) : (if c then a else []).length ≤ k := by
  split
  · exact h
  · exact Nat.zero_le _

theorem length_member (f : Str × Unresolved) : (memberLine f).length ≤ 30 * (f.1.length + f.2.name.length + 1) := by
  have h1 := length_tsType f.2.name
  have h2 : (if f.2.optional then "?".toList else []).length ≤ 1 := length_ite_le (by decide)
  have h3 : (if f.2.array then "[]".toList else []).length ≤ 2 := length_ite_le (by decide)
  unfold memberLine
  simp only [List.length_append]
  simp only [String.reduceToList, List.length_cons, List.length_nil, Nat.reduceAdd] at h2 h3 ⊢
  omega

theorem length_small {k : Nat} (h : k < 32) : ((toString k).toList).length ≤ 2 := by
  have : ∀ k < 32, ((toString k).toList).length ≤ 2 := by decide +kernel
  exact this k h

theorem length_variant {v : Str × Nat} (h : v.2 < 32) (h' : 1 ≤ v.1.length) : (variantLine v).length ≤ 30 * v.1.length := by
  have h1 := length_small h
  unfold variantLine
  simp only [List.length_append]
  simp only [String.reduceToList, List.length_cons, List.length_nil, Nat.reduceAdd] at h1 ⊢
  omega

theorem length_interface {n : Str} {fs fs' : List (Str × Unresolved)} (hp : fs'.Perm fs) :
    (interfaceText n fs').length ≤ 40 * nodeWeight (.decl n (.struct fs)) := by
  have h1 : (fs'.flatMap memberLine).length ≤ _ := length_flatMap_le fun f _ => length_member f
  rw [sum_mul, (hp.map _).sum_eq] at h1
  unfold interfaceText nodeWeight tyWeight
  simp only [List.length_append]
  simp only [String.reduceToList, List.length_cons, List.length_nil, Nat.reduceAdd] at h1 ⊢
  omega

theorem length_enum {n : Str} {vs : List Str} (hl : vs.length ≤ 32) (h' : ∀ v ∈ vs, 1 ≤ v.length) :
    (Module.enumText n vs).length ≤ 40 * nodeWeight (.decl n (.enum vs)) := by
  have h1 : (vs.zipIdx.flatMap variantLine).length ≤ ((vs.zipIdx).map fun v => 30 * v.1.length).sum := by
    refine length_flatMap_le fun v hv => length_variant ?_ ?_
    · have := List.snd_lt_of_mem_zipIdx hv
      omega
    · exact h' _ (List.fst_mem_of_mem_zipIdx hv)
  rw [sum_mul, show (vs.zipIdx.map fun v => v.1.length) = (vs.zipIdx.map Prod.fst).map List.length by rw [List.map_map]; rfl,
    List.zipIdx_map_fst] at h1
  unfold Module.enumText nodeWeight tyWeight
  simp only [List.length_append]
  simp only [String.reduceToList, List.length_cons, List.length_nil, Nat.reduceAdd] at h1 ⊢
  omega

theorem sum_le_of_subset {α : Type} {l m : List α} (hn : l.Nodup) (hs : l ⊆ m) (w : α → Nat) : (l.map w).sum ≤ (m.map w).sum := by
  obtain ⟨k, h1, h2⟩ := List.subperm_of_subset hn hs
  rw [← (h1.map w).sum_eq]
  exact (h2.map w).sum_le_sum (by simp)

theorem length_decls {ast : AST} (hw : WF ast) (hl : Print.Legal ast) {exp : Str} {ds : List (Str × Str)} (hc : Complete ast exp ds) :
    (ds.flatMap Prod.snd).length ≤ 40 * (ast.map nodeWeight).sum := by
  have key : ∀ ds : List (Str × Str), (∀ d ∈ ds, DeclText ast d.1 d.2) → ∃ ns : List Node,
      (ds.flatMap Prod.snd).length ≤ (ns.map fun n => 40 * nodeWeight n).sum ∧ ns ⊆ ast ∧
      ns.map (fun | .decl n _ => n | .export n => n) = ds.map Prod.fst := by
    intro ds
    induction ds with
    | nil => intro _; exact ⟨[], by simp, by simp, rfl⟩
    | cons d ds ih =>
      intro h
      obtain ⟨ns, h1, h2, h3⟩ := ih fun e he => h e (List.mem_cons_of_mem _ he)
      obtain ⟨nd, hm, hn, hle⟩ : ∃ nd ∈ ast, (match nd with | .decl n _ => n | .export n => n) = d.1 ∧ d.2.length ≤ 40 * nodeWeight nd := by
        rcases h d List.mem_cons_self with ⟨vs, hm, e⟩ | ⟨fs, fs', hm, hp, e⟩
        · refine ⟨_, hm, rfl, ?_⟩
          rw [e]
          refine length_enum (hw.enums _ _ (mem_decls.2 hm)).2.1 fun v hv => ?_
          obtain ⟨⟨c, cs, hc, -⟩, -⟩ := (hl _ hm).2.2 v hv
          rw [hc]
          simp
        · refine ⟨_, hm, rfl, ?_⟩
          rw [e]
          exact length_interface hp
      refine ⟨nd :: ns, ?_, List.cons_subset.2 ⟨hm, h2⟩, ?_⟩
      · rw [List.flatMap_cons, List.length_append, List.map_cons, List.sum_cons]
        omega
      · rw [List.map_cons, List.map_cons, h3]
        exact congrArg (· :: _) hn
  obtain ⟨ns, h1, h2, h3⟩ := key ds hc.right
  have hn : ns.Nodup := by
    have := hc.once
    rw [← h3] at this
    exact List.Nodup.of_map _ this
  have := sum_le_of_subset hn h2 nodeWeight
  rw [sum_mul] at h1
  omega

/-! ### the class -/

theorem length_ctorType (tn : Str) (t : RType) (exp : Str) (a o : Bool) : (fieldCtorType tn t exp a o).length ≤ exp.length + tn.length + 21 := by
  have h2 : (if o then " | undefined".toList else []).length ≤ 12 := length_ite_le (by decide)
  have h3 : (if a then "[]".toList else []).length ≤ 2 := length_ite_le (by decide)
  have hb : ∀ b, (fieldCtorType tn (.builtin b) exp a o).length ≤ 6 + 14 := by
    have : ∀ x : Str, x.length ≤ 6 → ([] ++ [] ++ x ++ (if a then "[]".toList else []) ++ (if o then " | undefined".toList else [])).length ≤ 6 + 14 := by
      intro x hx
      simp only [List.length_append, List.length_nil]
      omega
    intro b
    cases b with
    | string => exact this "string".toList (by decide)
    | _ => exact this "number".toList (by decide)
  have hd : (exp ++ ".".toList ++ tn ++ (if a then "[]".toList else []) ++ (if o then " | undefined".toList else [])).length ≤
      exp.length + tn.length + 21 := by
    simp only [List.length_append, show (".".toList).length = 1 from rfl]
    omega
  cases t with
  | builtin b => have := hb b; omega
  | enum e => exact hd
  | struct fs => exact hd

theorem length_ctorFields {N : Nat} (ind exp : Str) : (fs : List (FieldOf RType)) → NamesLeFs N fs →
    (printCtorFields ind exp fs).length ≤ fieldsAll fs * (ind.length + exp.length + 2 * N + 40)
  | [], _ => Nat.zero_le _
  | ⟨n, tn, t, a, o⟩ :: fs, h => by
    have h1 := length_ctorFields ind exp fs h.2
    obtain ⟨⟨h2, h3, -⟩, -⟩ := h
    have h4 := length_ctorType tn t exp a o
    show (ind ++ ("public ".toList ++ n ++ ": ".toList ++ fieldCtorType tn t exp a o ++ ",\n".toList) ++ printCtorFields ind exp fs).length ≤
      (1 + typeAll t + fieldsAll fs) * (ind.length + exp.length + 2 * N + 40)
    simp only [List.length_append]
    rw [Nat.add_mul, Nat.add_mul]
    simp only [String.reduceToList, List.length_cons, List.length_nil, Nat.reduceAdd, Nat.one_mul]
    omega

theorem length_class {N : Nat} (e : Export) (h : NamesLeFs N e.fields) :
    (printClass e).length ≤ 500 + 5 * e.name.length + fieldsAll e.fields * (e.name.length + 2 * N + 48) +
      2 * (fieldsAll e.fields * 100 * (14 + (fieldsDepth e.fields * (N + 20) + N + 20))) := by
  have h1 := length_ctorFields (deeper (deeper [])) e.name e.fields h
  have hi : (deeper (deeper [])).length = 8 := by decide
  have h2 := cost_readFields (T := 14 + (fieldsDepth e.fields * (N + 20) + N + 20)) e.fields h ["output".toList] (by simp) (deeper (deeper []))
    (by rw [hi, show (fname ["output".toList]).length = 6 by decide])
  have h3 := cost_writeStruct (T := 14 + (fieldsDepth e.fields * (N + 20) + N + 20)) e.fields h ["this".toList] (by simp) (deeper (deeper []))
    (by rw [hi, show (fname ["this".toList]).length = 4 by decide]; omega)
  rw [hi] at h1
  simp only at h2 h3
  delta printClass
  simp only [readBody, writeBody, printStmts_append, ps_cons, ps_nil, ps_let, ps_ret, ps_ifRet, pr_new1, pr_var, pr_call1, pr_prop, pr_null,
    pr_cond, pr_new0, pr_call0, List.length_append, hi, length_deeper]
  generalize (printCtorFields (deeper (deeper [])) e.name e.fields).length = x1 at *
  generalize (printStmts (deeper (deeper [])) (readFields ["output".toList] e.fields)).length = x2 at *
  generalize (printStmts (deeper (deeper [])) (writeStruct ["this".toList] e.fields)).length = x3 at *
  simp only [String.reduceToList, List.length_cons, List.length_nil, Nat.reduceAdd]
  have : 8 + e.name.length + 2 * N + 40 = e.name.length + 2 * N + 48 := by omega
  rw [this] at h1
  omega

/-! ### C78 -/

theorem name_in_text {text ast} (h : Parser.schema text = .ok ast) {nd : Node} (hm : nd ∈ ast) : nodeWeight nd ≤ text.length :=
  Nat.le_trans (List.single_le_sum (by simp) _ (List.mem_map.2 ⟨nd, hm, rfl⟩)) (weight_text h)

/-- C78, both bounds: the code is at least as long as the schema has fields when written out (each use of a struct replaced by its
fields), and at most that number times a quadratic term in the length of the schema. -/
theorem size_bounds {env : Env} (hf : env.Fair) {text code : Str} (h : compile env text = .ok code) :
    ∃ ast r, Parser.schema text = .ok ast ∧ typeCheck env.ordTypes ast = .ok r ∧ fieldsAll r.export.fields ≤ code.length ∧
      code.length ≤ env.version.length + env.now.length + 7000 * (fieldsAll r.export.fields + 1) * (text.length + 1) ^ 2 := by
  obtain ⟨ast, r, hp, ht, hcode⟩ := compile_ok hf h
  have hnb := parsed_noBuiltinDecl hp
  have hwf := (C12_text hf.1 hp).1 ⟨r, ht⟩
  refine ⟨ast, r, hp, ht, ?_, ?_⟩
  · have h1 := least_readFields r.export.fields ["output".toList] (deeper (deeper []))
    have h2 : (printStmts (deeper (deeper [])) (readFields ["output".toList] r.export.fields)).length ≤ (printClass r.export).length := by
      delta printClass
      simp only [readBody, printStmts_append, List.length_append]
      omega
    rw [hcode, List.length_append]
    omega
  · have hw := weight_text hp
    have hN : ∀ n fs, .decl n (.struct fs) ∈ ast → ∀ f ∈ fs, f.1.length ≤ text.length ∧ f.2.name.length ≤ text.length := by
      intro n fs hm f hfm
      have h1 := name_in_text hp hm
      have h2 : f.1.length + f.2.name.length + 1 ≤ tyWeight (.struct fs) :=
        List.single_le_sum (l := fs.map fun f => f.1.length + f.2.name.length + 1) (by simp) _ (List.mem_map.2 ⟨f, hfm, rfl⟩)
      simp only [nodeWeight] at h1
      omega
    have hnames : NamesLeFs text.length r.export.fields :=
      names_le hf.1 hnb ht hN _ (.struct r.export.fields) rfl _ _ (C23_faithful hf.1 hnb ht).1
    have hd := depth_le hf.1 hnb ht
    have hdl : (decls ast).length ≤ text.length := by
      have : ∀ l : AST, (decls l).length ≤ (l.map nodeWeight).sum := by
        intro l
        induction l with
        | nil => simp [decls]
        | cons a l ih =>
          cases a with
          | decl n t =>
            show (decls l).length + 1 ≤ _
            simp only [List.map_cons, List.sum_cons, nodeWeight]
            omega
          | «export» n =>
            show (decls l).length ≤ _
            simp only [List.map_cons, List.sum_cons, nodeWeight]
            omega
      exact Nat.le_trans (this ast) hw
    have hexp : r.export.name.length ≤ text.length := by
      obtain ⟨-, fs, hm⟩ := C21_export_is_struct hf.1 ht
      have := name_in_text hp hm
      simp only [nodeWeight] at this
      omega
    have hcl := length_class r.export hnames
    have hds := length_decls hwf (Parser.schema_legal ((Parser.schema_iff _ _).mp hp)) (entries_complete hf.1 hnb ht (hf.2 r.types))
    have hlen : code.length = (header env.version env.now).length + importLine.length +
        (namespaceText r.export.name ((env.ordDecls r.types).filterMap (entry r.export.name))).length + (printClass r.export).length := by
      rw [hcode]
      simp only [List.length_append]
    have hh : (header env.version env.now).length ≤ 40 + env.version.length + env.now.length := by
      unfold header
      simp only [List.length_append]
      simp only [String.reduceToList, List.length_cons, List.length_nil, Nat.reduceAdd]
      omega
    have hi : importLine.length ≤ 60 := by decide
    have hns : (namespaceText r.export.name ((env.ordDecls r.types).filterMap (entry r.export.name))).length ≤
        40 + text.length + 40 * text.length := by
      unfold namespaceText
      simp only [List.length_append]
      generalize (List.flatMap Prod.snd (List.filterMap (entry r.export.name) (env.ordDecls r.types))).length = x at *
      simp only [String.reduceToList, List.length_cons, List.length_nil, Nat.reduceAdd]
      omega
    generalize fieldsAll r.export.fields = U at *
    generalize hL : text.length = L at *
    have hT : 14 + (fieldsDepth r.export.fields * (L + 20) + L + 20) ≤ 34 * (L + 1) ^ 2 := by
      have : fieldsDepth r.export.fields * (L + 20) ≤ L * (L + 20) := Nat.mul_le_mul_right _ (by omega)
      nlinarith
    have h1 : U * 100 * (14 + (fieldsDepth r.export.fields * (L + 20) + L + 20)) ≤ U * 100 * (34 * (L + 1) ^ 2) := Nat.mul_le_mul_left _ hT
    have hQ : L + 1 ≤ (L + 1) ^ 2 := by nlinarith
    have h2 : U * (r.export.name.length + 2 * L + 48) ≤ U * (48 * (L + 1) ^ 2) := Nat.mul_le_mul_left _ (by nlinarith)
    generalize (L + 1) ^ 2 = Q at *
    have h3 : 7000 * (U + 1) * Q = 7000 * (U * Q) + 7000 * Q := by ring
    have h4 : U * 100 * (34 * Q) = 3400 * (U * Q) := by ring
    have h5 : U * (48 * Q) = 48 * (U * Q) := by ring
    omega

/-- C78 as one would like it: the generated code is at most polynomially longer than the schema. -/
def C78_claim : Prop := ∃ c k : Nat, ∀ (env : Env) (text code : Str), env.Fair → compile env text = .ok code →
  code.length ≤ c * (env.version.length + env.now.length + text.length + 1) ^ k

/-- `A`, `Aa`, `Aaa`, ... -/
def towerName (i : Nat) : Str := 'A' :: List.replicate i 'a'

/-- The type of the fields of struct number `i`. -/
def towerField : Nat → Str
  | 0 => "uint8".toList
  | i + 1 => towerName i

/-- `A: struct { x: uint8, y: uint8 }`, `Aa: struct { x: A, y: A }`, `Aaa: struct { x: Aa, y: Aa }`, ... -/
def towerFields (i : Nat) : List (Str × Unresolved) :=
  [("x".toList, ⟨towerField i, false, false⟩), ("y".toList, ⟨towerField i, false, false⟩)]

def tower (n : Nat) : AST := (List.range (n + 1)).map (fun i => .decl (towerName i) (.struct (towerFields i))) ++ [.export (towerName n)]

theorem towerName_length (i : Nat) : (towerName i).length = i + 1 := by simp [towerName]
theorem towerName_inj {i j : Nat} (h : towerName i = towerName j) : i = j := by
  have := congrArg List.length h
  rw [towerName_length, towerName_length] at this
  omega
theorem towerName_word (i : Nat) : Grammar.Word (towerName i) := by
  intro c hc
  rcases List.mem_cons.1 hc with rfl | hc
  · exact Or.inl (Or.inr (by decide))
  · rw [(List.mem_replicate.1 hc).2]
    exact Or.inl (Or.inl (by decide))
theorem towerName_not {c : Char} {cs : Str} (i : Nat) (h : c ≠ 'A') : ¬ (c :: cs) <+: towerName i := by
  intro hp
  exact h (List.cons_prefix_cons.1 hp).1
theorem towerName_ident (i : Nat) : Grammar.Ident (towerName i) := by
  refine ⟨⟨'A', _, rfl, Or.inl (Or.inr (by decide)), fun c hc => towerName_word i c (List.mem_cons_of_mem _ hc)⟩, ?_⟩
  intro r hr
  simp only [Grammar.reservedWords, List.mem_cons, List.not_mem_nil, or_false] at hr
  rcases hr with rfl | rfl | rfl | rfl | rfl | rfl | rfl | rfl | rfl | rfl <;> exact towerName_not i (by decide)
theorem tower_ident {c : Char} (h : c = 'x' ∨ c = 'y') : Grammar.Ident [c] := by
  rcases h with rfl | rfl
  · exact ⟨⟨'x', [], rfl, Or.inl (Or.inl (by decide)), by intro c hc; cases hc⟩, by decide⟩
  · exact ⟨⟨'y', [], rfl, Or.inl (Or.inl (by decide)), by intro c hc; cases hc⟩, by decide⟩
theorem towerField_word (i : Nat) : Grammar.Word (towerField i) := by
  cases i with
  | zero =>
    have : ∀ c ∈ "uint8".toList, ('a' ≤ c ∧ c ≤ 'z') ∨ ('0' ≤ c ∧ c ≤ '9') := by decide
    intro c hc
    rcases this c hc with h | h
    · exact Or.inl (Or.inl h)
    · exact Or.inr (Or.inl h)
  | succ i => exact towerName_word i

theorem tower_legal (n : Nat) : Print.Legal (tower n) := by
  intro nd h
  rcases List.mem_append.1 h with h | h
  · obtain ⟨i, -, rfl⟩ := List.mem_map.1 h
    refine ⟨towerName_ident i, towerName_not i (by decide), ?_⟩
    intro f hf
    rcases List.mem_cons.1 hf with rfl | hf
    · exact ⟨tower_ident (Or.inl rfl), towerField_word i⟩
    · cases List.mem_singleton.1 hf
      exact ⟨tower_ident (Or.inr rfl), towerField_word i⟩
  · cases List.mem_singleton.1 h
    exact towerName_word n

theorem tower_decls (n : Nat) : decls (tower n) = (List.range (n + 1)).map fun i => (towerName i, .struct (towerFields i)) := by
  unfold tower decls
  rw [List.filterMap_append, List.filterMap_map]
  show List.filterMap (fun i => some (towerName i, Ty.struct (towerFields i))) _ ++ [] = _
  rw [List.append_nil, List.filterMap_eq_map']

theorem tower_mem {n : Nat} {m : Str} {t : Ty} (h : (m, t) ∈ decls (tower n)) : ∃ i ≤ n, m = towerName i ∧ t = .struct (towerFields i) := by
  rw [tower_decls] at h
  obtain ⟨i, hi, h⟩ := List.mem_map.1 h
  cases h
  exact ⟨i, by have := List.mem_range.1 hi; omega, rfl, rfl⟩

theorem tower_exports (n : Nat) : exports (tower n) = [towerName n] := by
  unfold tower exports
  rw [List.filterMap_append, List.filterMap_map]
  show List.filterMap (fun _ => none) _ ++ [towerName n] = _
  simp

theorem towerField_of_mem {i : Nat} {f : Str × Unresolved} (h : f ∈ towerFields i) : f.2 = ⟨towerField i, false, false⟩ := by
  rcases List.mem_cons.1 h with rfl | h
  · rfl
  · cases List.mem_singleton.1 h
    rfl

theorem tower_refers {n : Nat} {a b : Str} (h : Refers (tower n) a b) : ∃ i ≤ n, a = towerName i ∧ b = towerField i := by
  obtain ⟨fs, hd, f, hf, rfl⟩ := h
  obtain ⟨i, hi, rfl, h⟩ := tower_mem hd
  cases h
  exact ⟨i, hi, rfl, by rw [towerField_of_mem hf]⟩

theorem tower_wf (n : Nat) : WF (tower n) where
  exported := ⟨_, towerFields n, tower_exports n, by
    rw [tower_decls]
    exact List.mem_map.2 ⟨n, List.mem_range.2 (by omega), rfl⟩⟩
  unique := by
    rw [tower_decls, List.map_map]
    exact List.nodup_range.map fun _ _ h => towerName_inj h
  enums := by
    intro m vs h
    obtain ⟨i, -, -, h⟩ := tower_mem h
    cases h
  closed := by
    intro a b h
    obtain ⟨i, hi, -, rfl⟩ := tower_refers h
    cases i with
    | zero => exact Or.inl (by decide)
    | succ i =>
      refine Or.inr ⟨.struct (towerFields i), ?_⟩
      rw [tower_decls]
      exact List.mem_map.2 ⟨i, List.mem_range.2 (by omega), rfl⟩
  noOptArray := by
    intro m fs h f hf
    obtain ⟨i, -, -, h⟩ := tower_mem h
    cases h
    rw [towerField_of_mem hf]
    simp
  acyclic := by
    have key : ∀ a b, Relation.TransGen (Refers (tower n)) a b → ∃ i j, i ≤ j ∧ a = towerName j ∧ b = towerField i := by
      intro a b h
      induction h with
      | single h =>
        obtain ⟨i, -, rfl, rfl⟩ := tower_refers h
        exact ⟨i, i, Nat.le_refl _, rfl, rfl⟩
      | tail _ h ih =>
        obtain ⟨i, j, hij, rfl, rfl⟩ := ih
        obtain ⟨k, -, h1, rfl⟩ := tower_refers h
        cases i with
        | zero => exact absurd h1 (by unfold towerField towerName; intro h; cases h)
        | succ i =>
          obtain rfl := towerName_inj h1
          exact ⟨_, j, by omega, rfl, rfl⟩
    intro a h
    obtain ⟨i, j, hij, rfl, h⟩ := key a a h
    cases i with
    | zero => exact absurd h (by unfold towerField towerName; intro h; cases h)
    | succ i =>
      cases towerName_inj h
      omega
  fieldNames := by
    intro m fs h
    obtain ⟨i, -, -, h⟩ := tower_mem h
    cases h
    intro pre f post h _
    have h' : towerFields i = pre ++ f :: post := h
    cases pre with
    | nil => simp
    | cons a pre =>
      cases pre with
      | nil =>
        cases h'
        exact (by decide : "y".toList ∉ ["x".toList])
      | cons b pre =>
        have := congrArg List.length h'
        simp [towerFields] at this

theorem tower_length (n : Nat) : (Print.schema (tower n)).length ≤ 80 * (n + 1) ^ 2 := by
  have h1 : (Print.schema (tower n)).length ≤ ((tower n).map fun _ => 3 * n + 40).sum := by
    refine length_flatMap_le fun nd h => ?_
    rcases List.mem_append.1 h with h | h
    · obtain ⟨i, hi, rfl⟩ := List.mem_map.1 h
      have hi := List.mem_range.1 hi
      have hf : (towerField i).length ≤ n + 5 := by
        cases i with
        | zero => exact Nat.le_trans (by decide : (towerField 0).length ≤ 5) (by omega)
        | succ i => rw [towerField, towerName_length]; omega
      show (towerName i ++ ": ".toList ++ ("struct {\n".toList ++ ((["x".toList ++ [] ++ ": ".toList ++ towerField i ++ [] ++ ",\n".toList,
        "y".toList ++ [] ++ ": ".toList ++ towerField i ++ [] ++ ",\n".toList]).flatten) ++ "}".toList) ++ "\n".toList).length ≤ _
      simp only [List.flatten_cons, List.flatten_nil, List.length_append, towerName_length, List.length_nil]
      simp only [String.reduceToList, List.length_cons, List.length_nil, Nat.reduceAdd]
      omega
    · cases List.mem_singleton.1 h
      show ("export ".toList ++ towerName n ++ "\n".toList).length ≤ _
      simp only [List.length_append, towerName_length]
      simp only [String.reduceToList, List.length_cons, List.length_nil, Nat.reduceAdd]
      omega
  have h2 : (tower n).length = n + 2 := by simp [tower]
  rw [List.map_const', List.sum_replicate_nat, h2] at h1
  nlinarith

theorem tower_all {ord} (hord : FairOrd ord) {n : Nat} (hnb : NoBuiltinDecl (tower n)) {r} (h : typeCheck ord (tower n) = .ok r) :
    ∀ i m t, r.types.get (towerName i) = some (m, t) → 2 ^ i ≤ typeAll t := by
  have step : ∀ i m t, r.types.get (towerName i) = some (m, t) → ∃ f g, t = .struct [f, g] ∧
      (∃ a, r.types.get (towerField i) = some (a, f.ty)) ∧ ∃ a, r.types.get (towerField i) = some (a, g.ty) := by
    intro i m t hg
    obtain ⟨-, hm⟩ := meaning hord hnb h hg
    cases hm with
    | builtin b hb =>
      have := (builtin_table_get hb).1
      simp [builtinNames, towerName] at this
    | enum vs e _ hd =>
      obtain ⟨_, _, _, h'⟩ := tower_mem (mem_decls.2 hd)
      cases h'
    | struct fs fs' rfs _ hd hp hf =>
      obtain ⟨j, _, h1, h2⟩ := tower_mem (mem_decls.2 hd)
      cases towerName_inj h1
      cases h2
      have hall : ∀ f ∈ fs', f.2 = ⟨towerField i, false, false⟩ := fun f hf => towerField_of_mem (hp.mem_iff.1 hf)
      have hlen : fs'.length = 2 := hp.length_eq
      match fs', rfs, hf, hlen, hall with
      | [a, b], [f, g], .cons ha (.cons hb .nil), _, hall =>
        refine ⟨f, g, rfl, ⟨towerField i, ?_⟩, ⟨towerField i, ?_⟩⟩
        · have := ha.ty
          rw [hall a (by simp)] at this
          exact this
        · have := hb.ty
          rw [hall b (by simp)] at this
          exact this
  intro i
  induction i with
  | zero =>
    intro m t hg
    obtain ⟨⟨_, _, _, _, _⟩, ⟨_, _, _, _, _⟩, rfl, -, -⟩ := step 0 m t hg
    show 1 ≤ 1 + _ + _
    omega
  | succ i ih =>
    intro m t hg
    obtain ⟨⟨_, _, t1, _, _⟩, ⟨_, _, t2, _, _⟩, rfl, ⟨a, ha⟩, ⟨b, hb⟩⟩ := step _ m t hg
    have h1 := ih a t1 ha
    have h2 := ih b t2 hb
    show 2 ^ (i + 1) ≤ (1 + typeAll t1) + ((1 + typeAll t2) + 0)
    rw [Nat.pow_succ]
    omega

/-- The schema of `n` structs, each with two fields of the struct before, has code with at least `2 ^ n` characters. -/
theorem tower_code (env : Env) (hf : env.Fair) (n : Nat) : ∃ code, compile env (Print.schema (tower n)) = .ok code ∧ 2 ^ n ≤ code.length := by
  have hp := C02_print_parse (tower n) (tower_legal n)
  obtain ⟨code, hc⟩ := (C45_outcome hf (Print.schema (tower n))).2.2.2 ⟨_, (Parser.schema_iff _ _).1 hp, tower_wf n⟩
  obtain ⟨ast, r, h1, h2, h3, -⟩ := size_bounds hf hc
  rw [hp] at h1
  cases h1
  refine ⟨code, hc, Nat.le_trans ?_ h3⟩
  have hnb := parsed_noBuiltinDecl hp
  have hg := (C23_faithful hf.1 hnb h2).1
  have hn : r.export.name = towerName n := by
    have := (C21_export_is_struct hf.1 h2).1
    rw [tower_exports] at this
    exact (List.cons.inj this).1.symm
  rw [hn] at hg
  exact tower_all hf.1 hnb h2 n _ _ hg

theorem exceeds (c k : Nat) : ∃ s, c + 9 * k + 2 * s * k < 2 ^ s := by
  refine ⟨(c + 9 * k + 10) + (c + 9 * k + 10), ?_⟩
  have h1 : c + 9 * k + 10 < 2 ^ (c + 9 * k + 10) := Nat.lt_two_pow_self
  generalize hm : c + 9 * k + 10 = m at *
  rw [Nat.pow_add]
  have h2 : (m + 1) * (m + 1) ≤ 2 ^ m * 2 ^ m := Nat.mul_le_mul h1 h1
  have h3 : 9 * k * m ≤ m * m := Nat.mul_le_mul_right _ (by omega)
  nlinarith

/-- C78 is false of the code: structs used twice are written out twice, so the code can be exponentially longer than the schema. -/
theorem C78_false : ¬ C78_claim := by
  rintro ⟨c, k, h⟩
  obtain ⟨s, hs⟩ := exceeds c k
  obtain ⟨code, h1, h2⟩ := tower_code ⟨[], [], id, id⟩ (fair_id _ _) (2 ^ s)
  have hpos : 1 ≤ 2 ^ s := Nat.one_le_two_pow
  have h3 := h _ _ _ (fair_id _ _) h1
  have h4 := tower_length (2 ^ s)
  have h5 : ([] : Str).length + ([] : Str).length + (Print.schema (tower (2 ^ s))).length + 1 ≤ 2 ^ (9 + 2 * s) := by
    simp only [List.length_nil]
    rw [Nat.pow_add, Nat.two_mul, Nat.pow_add]
    nlinarith
  have h6 : c * (([] : Str).length + ([] : Str).length + (Print.schema (tower (2 ^ s))).length + 1) ^ k ≤ 2 ^ (c + 9 * k + 2 * s * k) := by
    have e : 2 ^ (c + 9 * k + 2 * s * k) = 2 ^ c * (2 ^ (9 + 2 * s)) ^ k := by
      rw [← Nat.pow_mul, ← Nat.pow_add]
      congr 1
      ring
    rw [e]
    exact Nat.mul_le_mul (Nat.le_of_lt Nat.lt_two_pow_self) (Nat.pow_le_pow_left h5 k)
  have h7 : 2 ^ (c + 9 * k + 2 * s * k) < 2 ^ 2 ^ s := Nat.pow_lt_pow_right (by decide) hs
  simp only [List.length_nil] at h3 h6
  omega

/-! ### schemas that use no struct twice -/

mutual
/-- The structs met when writing out the fields. -/
def ownFs : List (FieldOf RType) → List Str
  | [] => []
  | f :: fs => ownF f ++ ownFs fs
def ownF : FieldOf RType → List Str
  | ⟨_, tn, t, _, _⟩ => ownT tn t
def ownT (tn : Str) : RType → List Str
  | .builtin _ => []
  | .enum _ => []
  | .struct fs => tn :: ownFs fs
end

theorem ownFs_eq : (fs : List (FieldOf RType)) → ownFs fs = fs.flatMap fun f => ownT f.tyName f.ty
  | [] => rfl
  | ⟨_, tn, t, _, _⟩ :: fs => by
    show ownT tn t ++ ownFs fs = _
    rw [ownFs_eq fs]
    rfl

theorem fieldsAll_eq : (fs : List (FieldOf RType)) → fieldsAll fs = fs.length + (fs.map fun f => typeAll f.ty).sum
  | [] => rfl
  | ⟨_, tn, t, _, _⟩ :: fs => by
    show 1 + typeAll t + fieldsAll fs = _
    rw [fieldsAll_eq fs]
    simp only [List.length_cons, List.map_cons, List.sum_cons]
    omega

theorem uses_sublist {a b : List (Str × Ty)} (h : a.Sublist b) (T : Str) :
    (a.flatMap fun d => usesIn T d.2).length ≤ (b.flatMap fun d => usesIn T d.2).length := by
  induction h with
  | slnil => exact Nat.le_refl _
  | cons a _ ih => rw [List.flatMap_cons, List.length_append]; omega
  | cons_cons a _ ih => rw [List.flatMap_cons, List.flatMap_cons, List.length_append, List.length_append]; omega

/-- The struct containing a field of a given struct type is unique. -/
theorem parent_unique {ast : AST} (hu : UsedOnce ast) {T : Str} {gs} (hT : (T, .struct gs) ∈ decls ast) {a b : Str}
    (ha : Refers ast a T) (hb : Refers ast b T) : a = b := by
  obtain ⟨fs, hd, f, hf, hfT⟩ := ha
  obtain ⟨fs', hd', f', hf', hfT'⟩ := hb
  by_contra hne
  have h1 := hu T gs hT
  have key : ∀ (x y : Str × Ty), [x, y].Sublist (decls ast) → (∃ fs, x.2 = .struct fs ∧ ∃ f ∈ fs, f.2.name = T) →
      (∃ fs, y.2 = .struct fs ∧ ∃ f ∈ fs, f.2.name = T) → False := by
    rintro ⟨x, tx⟩ ⟨y, ty⟩ hs ⟨fs, rfl, f, h2, h3⟩ ⟨fs', rfl, f', h4, h5⟩
    have := uses_sublist hs T
    simp only [List.flatMap_cons, List.flatMap_nil, List.append_nil, List.length_append] at this
    have i1 : 1 ≤ (usesIn T (.struct fs)).length :=
      List.length_pos_of_mem (List.mem_filter.2 ⟨h2, by simp [h3]⟩)
    have i2 : 1 ≤ (usesIn T (.struct fs')).length :=
      List.length_pos_of_mem (List.mem_filter.2 ⟨h4, by simp [h5]⟩)
    unfold usesOf at h1
    omega
  obtain ⟨s, t, e⟩ := List.append_of_mem hd
  rw [e] at hd'
  rcases List.mem_append.1 hd' with h | h
  · refine key (b, .struct fs') (a, .struct fs) ?_ ⟨_, rfl, f', hf', hfT'⟩ ⟨_, rfl, f, hf, hfT⟩
    rw [e]
    exact (List.singleton_sublist.2 h).append (List.singleton_sublist.2 List.mem_cons_self)
  · rcases List.mem_cons.1 h with h | h
    · cases h
      exact hne rfl
    · refine key (a, .struct fs) (b, .struct fs') ?_ ⟨_, rfl, f, hf, hfT⟩ ⟨_, rfl, f', hf', hfT'⟩
      rw [e]
      exact ((List.singleton_sublist.2 h).cons_cons _).trans (List.sublist_append_right _ _)

theorem fields_unique {ast : AST} (hu : UsedOnce ast) {T : Str} {gs} (hT : (T, .struct gs) ∈ decls ast) {n : Str} {fs}
    (hd : (n, .struct fs) ∈ decls ast) : (fs.filter fun f => decide (f.2.name = T)).length ≤ 1 := by
  show (usesIn T (.struct fs)).length ≤ 1
  have h1 := hu T gs hT
  have h2 := uses_sublist (List.singleton_sublist.2 hd) T
  simp only [List.flatMap_cons, List.flatMap_nil, List.append_nil] at h2
  unfold usesOf at h1
  omega

/-- Of two structs containing a third one contains the other. -/
theorem ancestors {ast : AST} (hu : UsedOnce ast) {m c d : Str} {gs} (hm : (m, .struct gs) ∈ decls ast)
    (h1 : Relation.ReflTransGen (Refers ast) c m) (h2 : Relation.ReflTransGen (Refers ast) d m) :
    Relation.ReflTransGen (Refers ast) c d ∨ Relation.ReflTransGen (Refers ast) d c := by
  induction h1 generalizing gs with
  | refl => exact Or.inr h2
  | tail h3 h4 ih =>
    rcases Relation.ReflTransGen.cases_tail h2 with h | ⟨b, h5, h6⟩
    · rw [← h]
      exact Or.inl (h3.tail h4)
    · cases parent_unique hu hm h4 h6
      obtain ⟨fs, hd, -⟩ := h4
      exact ih hd h5

section
variable {ord : List (Str × Ty) → List (Str × Ty)} (hord : FairOrd ord) {ast : AST} (hnb : NoBuiltinDecl ast)
  {r : Resolved} (h : typeCheck ord ast = .ok r)
include hord hnb h

/-- The structs met are reachable structs. -/
theorem own_reach : (k : Nat) → ∀ (t : RType), typeDepth t = k → ∀ n m, r.types.get n = some (m, t) → ∀ x ∈ ownT n t,
    Relation.ReflTransGen (Refers ast) n x ∧ ∃ fs, (x, .struct fs) ∈ decls ast := by
  intro k
  induction k using Nat.strong_induction_on with
  | _ k ih =>
    intro t hk n m hg x hx
    obtain ⟨-, hm⟩ := meaning hord hnb h hg
    cases hm with
    | builtin => cases hx
    | enum => cases hx
    | struct fs fs' rfs hn hd hp hf =>
      have hk : fieldsDepth rfs = k := hk
      have hd := mem_decls.2 hd
      rcases List.mem_cons.1 hx with rfl | hx
      · exact ⟨.refl, _, hd⟩
      rw [ownFs_eq] at hx
      obtain ⟨f, h1, h2⟩ := List.mem_flatMap.1 hx
      obtain ⟨g, hgm, hR⟩ := forall₂_mem hf h1
      have h3 := depth_le_of_mem rfs h1
      have h4 : fieldDepth f = 1 + typeDepth f.ty := by cases f; rfl
      rw [hR.tyName] at h2
      obtain ⟨h5, h6⟩ := ih (typeDepth f.ty) (by omega) f.ty rfl _ _ hR.ty x h2
      exact ⟨h5.head ⟨fs, hd, g, hp.mem_iff.1 hgm, rfl⟩, h6⟩

theorem own_nodup (hu : UsedOnce ast) : (k : Nat) → ∀ (t : RType), typeDepth t = k → ∀ n m, r.types.get n = some (m, t) →
    (ownT n t).Nodup := by
  have hw := (C12_accepts_iff_wellformed hord ast hnb).1 ⟨r, h⟩
  intro k
  induction k using Nat.strong_induction_on with
  | _ k ih =>
    intro t hk n m hg
    obtain ⟨-, hm⟩ := meaning hord hnb h hg
    cases hm with
    | builtin => exact List.nodup_nil
    | enum => exact List.nodup_nil
    | struct fs fs' rfs hn hd hp hf =>
      have hk : fieldsDepth rfs = k := hk
      have hd := mem_decls.2 hd
      have hsub : ∀ f ∈ rfs, Refers ast n f.tyName ∧ r.types.get f.tyName = some (f.tyName, f.ty) ∧ typeDepth f.ty < k := by
        intro f h1
        obtain ⟨g, hgm, hR⟩ := forall₂_mem hf h1
        have h3 := depth_le_of_mem rfs h1
        have h4 : fieldDepth f = 1 + typeDepth f.ty := by cases f; rfl
        refine ⟨⟨fs, hd, g, hp.mem_iff.1 hgm, hR.tyName.symm⟩, ?_, by omega⟩
        rw [hR.tyName]
        exact hR.ty
      show (n :: ownFs rfs).Nodup
      rw [ownFs_eq, List.nodup_cons, List.nodup_flatMap]
      refine ⟨?_, ?_, ?_⟩
      · intro hx
        obtain ⟨f, h1, h2⟩ := List.mem_flatMap.1 hx
        obtain ⟨h3, h4, h5⟩ := hsub f h1
        exact hw.acyclic n (Relation.TransGen.head' h3 (own_reach hord hnb h _ f.ty rfl _ _ h4 n h2).1)
      · intro f h1
        obtain ⟨h3, h4, h5⟩ := hsub f h1
        exact ih _ h5 f.ty rfl _ _ h4
      · -- different fields have different structs in them
        have hne : rfs.Pairwise fun f g => f.tyName ≠ g.tyName ∨ ¬ ∃ gs, (f.tyName, .struct gs) ∈ decls ast := by
          have h1 : fs'.Pairwise fun f g => f.2.name ≠ g.2.name ∨ ¬ ∃ gs, (f.2.name, .struct gs) ∈ decls ast := by
            rw [List.pairwise_iff_forall_sublist]
            intro f g hs
            by_contra hc
            simp only [not_or, ne_eq, not_not] at hc
            obtain ⟨e, gs, hgs⟩ := hc
            have h2 := fields_unique hu hgs hd
            have h3 := ((hp.filter fun f' => decide (f'.2.name = f.2.name))).length_eq
            have h4 := (hs.filter fun f' => decide (f'.2.name = f.2.name)).length_le
            rw [List.filter_cons_of_pos (by simp), List.filter_cons_of_pos (by simp [e])] at h4
            simp only [List.length_cons] at h4
            omega
          have h2 : rfs.map FieldOf.tyName = fs'.map fun f => f.2.name := by
            have key : ∀ (l : List (Str × Unresolved)) (m : List RField), List.Forall₂ (FieldResolved r.types) l m →
                m.map FieldOf.tyName = l.map fun f => f.2.name := by
              intro l m hf
              induction hf with
              | nil => rfl
              | cons hR _ ih => rw [List.map_cons, List.map_cons, ih, hR.tyName]
            exact key _ _ hf
          have h3 : (fs'.map fun f => f.2.name).Pairwise fun a b => a ≠ b ∨ ¬ ∃ gs, (a, .struct gs) ∈ decls ast := List.pairwise_map.2 h1
          rw [← h2] at h3
          exact List.pairwise_map.1 h3
        refine hne.imp_of_mem ?_
        intro f g hfm hgm hne
        rw [Function.onFun, List.disjoint_left]
        intro x hx hy
        obtain ⟨f1, f2, f3⟩ := hsub f hfm
        obtain ⟨g1, g2, g3⟩ := hsub g hgm
        obtain ⟨r1, gs, hxd⟩ := own_reach hord hnb h _ f.ty rfl _ _ f2 x hx
        obtain ⟨r2, -⟩ := own_reach hord hnb h _ g.ty rfl _ _ g2 x hy
        have hdecl : ∀ {c}, Relation.ReflTransGen (Refers ast) c x → ∃ gs, (c, .struct gs) ∈ decls ast := by
          intro c hc
          rcases Relation.ReflTransGen.cases_head hc with rfl | ⟨_, ⟨gs, hd, -⟩, -⟩
          · exact ⟨_, hxd⟩
          · exact ⟨_, hd⟩
        have hne : f.tyName ≠ g.tyName := hne.resolve_right (fun h => h (hdecl r1))
        have key : ∀ {c d}, c ≠ d → Refers ast n c → Refers ast n d → (∃ gs, (d, .struct gs) ∈ decls ast) →
            Relation.ReflTransGen (Refers ast) c d → False := by
          rintro c d hcd hc hd' ⟨gs, hgs⟩ hr
          rcases Relation.ReflTransGen.cases_tail hr with e | ⟨b, hb, hb'⟩
          · exact hcd e.symm
          · cases parent_unique hu hgs hb' hd'
            exact hw.acyclic _ (Relation.TransGen.head' hc hb)
        rcases ancestors hu hxd r1 r2 with hr | hr
        · exact key hne f1 g1 (hdecl r2) hr
        · exact key hne.symm g1 f1 (hdecl r1) hr

theorem own_all : (k : Nat) → ∀ (t : RType), typeDepth t = k → ∀ n m, r.types.get n = some (m, t) →
    ∃ ns : List Node, typeAll t ≤ (ns.map nodeWeight).sum ∧ ns ⊆ ast ∧
      ns.map (fun | .decl n _ => n | .export n => n) = ownT n t := by
  intro k
  induction k using Nat.strong_induction_on with
  | _ k ih =>
    intro t hk n m hg
    obtain ⟨-, hm⟩ := meaning hord hnb h hg
    cases hm with
    | builtin => exact ⟨[], by simp [typeAll], by simp, rfl⟩
    | enum => exact ⟨[], by simp [typeAll], by simp, rfl⟩
    | struct fs fs' rfs hn hd hp hf =>
      have hk : fieldsDepth rfs = k := hk
      have hlen : rfs.length = fs.length := by rw [← hp.length_eq, hf.length_eq]
      have hsub : ∀ f ∈ rfs, r.types.get f.tyName = some (f.tyName, f.ty) ∧ typeDepth f.ty < k := by
        intro f h1
        obtain ⟨g, hgm, hR⟩ := forall₂_mem hf h1
        have h3 := depth_le_of_mem rfs h1
        have h4 : fieldDepth f = 1 + typeDepth f.ty := by cases f; rfl
        refine ⟨?_, by omega⟩
        rw [hR.tyName]
        exact hR.ty
      have hall : ∀ l : List (FieldOf RType), (∀ f ∈ l, r.types.get f.tyName = some (f.tyName, f.ty) ∧ typeDepth f.ty < k) →
          ∃ ns : List Node, (l.map fun f => typeAll f.ty).sum ≤ (ns.map nodeWeight).sum ∧ ns ⊆ ast ∧
            ns.map (fun | .decl n _ => n | .export n => n) = ownFs l := by
        intro l
        induction l with
        | nil => intro _; exact ⟨[], by simp, by simp, rfl⟩
        | cons f l ihl =>
          intro hl
          obtain ⟨ns, h1, h2, h3⟩ := ihl fun g hg => hl g (List.mem_cons_of_mem _ hg)
          obtain ⟨h4, h5⟩ := hl f List.mem_cons_self
          obtain ⟨ms, h6, h7, h8⟩ := ih _ h5 f.ty rfl _ _ h4
          refine ⟨ms ++ ns, ?_, List.append_subset.2 ⟨h7, h2⟩, ?_⟩
          · rw [List.map_cons, List.sum_cons, List.map_append, List.sum_append]
            omega
          · rw [List.map_append, h3, h8]
            obtain ⟨_, _, _, _, _⟩ := f
            rfl
      obtain ⟨ns, h1, h2, h3⟩ := hall rfs hsub
      refine ⟨.decl n (.struct fs) :: ns, ?_, List.cons_subset.2 ⟨hd, h2⟩, ?_⟩
      · show fieldsAll rfs ≤ _
        rw [fieldsAll_eq, List.map_cons, List.sum_cons, hlen]
        have : fs.length ≤ (fs.map fun f => f.1.length + f.2.name.length + 1).sum := by
          have : ∀ l : List (Str × Unresolved), l.length ≤ (l.map fun f => f.1.length + f.2.name.length + 1).sum := by
            intro l
            induction l with
            | nil => simp
            | cons a l ih => rw [List.length_cons, List.map_cons, List.sum_cons]; omega
          exact this fs
        simp only [nodeWeight, tyWeight]
        omega
      · rw [List.map_cons, h3]
        rfl
end

/-- C78, what holds. The code is at least as long as the schema has fields when written out (each use of a struct replaced by its
fields), and at most that number times a quadratic term in the length of the schema. If no struct is used twice the number is at most
the length of the schema, so the code is at most cubic. What is missing is a polynomial bound for schemas in which structs are
used several times; by `C78_false` there is none. -/
theorem C78_size_partial {env : Env} (hf : env.Fair) {text code : Str} (h : compile env text = .ok code) :
    ∃ ast r, Parser.schema text = .ok ast ∧ typeCheck env.ordTypes ast = .ok r ∧
      fieldsAll r.export.fields ≤ code.length ∧
      code.length ≤ env.version.length + env.now.length + 7000 * (fieldsAll r.export.fields + 1) * (text.length + 1) ^ 2 ∧
      (UsedOnce ast → code.length ≤ env.version.length + env.now.length + 7000 * (text.length + 1) ^ 3) := by
  obtain ⟨ast, r, h1, h2, h3, h4⟩ := size_bounds hf h
  refine ⟨ast, r, h1, h2, h3, h4, fun hu => Nat.le_trans h4 ?_⟩
  have hnb := parsed_noBuiltinDecl h1
  have hg := (C23_faithful hf.1 hnb h2).1
  obtain ⟨ns, e1, e2, e3⟩ := own_all hf.1 hnb h2 _ (.struct r.export.fields) rfl _ _ hg
  have hn : ns.Nodup := by
    have := own_nodup hf.1 hnb h2 hu _ (.struct r.export.fields) rfl _ _ hg
    rw [← e3] at this
    exact List.Nodup.of_map _ this
  have e4 := sum_le_of_subset hn e2 nodeWeight
  have e5 := weight_text h1
  have e6 : fieldsAll r.export.fields ≤ text.length := by
    have : typeAll (.struct r.export.fields) = fieldsAll r.export.fields := rfl
    omega
  have : 7000 * (fieldsAll r.export.fields + 1) * (text.length + 1) ^ 2 ≤ 7000 * (text.length + 1) * (text.length + 1) ^ 2 :=
    Nat.mul_le_mul_right _ (Nat.mul_le_mul_left _ (by omega))
  have e7 : 7000 * (text.length + 1) * (text.length + 1) ^ 2 = 7000 * (text.length + 1) ^ 3 := by ring
  omega

/-- The hypotheses are met by the example schema, in which no struct is used twice. -/
example : UsedOnce exampleAst ∧ Parser.schema exampleText = .ok exampleAst ∧ ∃ env code, Env.Fair env ∧ compile env exampleText = .ok code := by
  refine ⟨?_, by decide +kernel, _, _, fair_id _ _, example_compiles.choose_spec⟩
  intro T fs h
  have : ∀ d ∈ decls exampleAst, (usesOf exampleAst d.1).length ≤ 1 := by decide +kernel
  exact this _ h

/-! ## C79 -/

theorem nest_mem : (fs : List (FieldOf RType)) → (fieldsNest fs = 0 ∨ ∃ f ∈ fs, fieldsNest fs = typeNest f.ty) ∧
    ∀ f ∈ fs, typeNest f.ty ≤ fieldsNest fs
  | [] => ⟨Or.inl rfl, by simp⟩
  | ⟨_, _, t, _, _⟩ :: fs => by
    obtain ⟨h1, h2⟩ := nest_mem fs
    constructor
    · show max (typeNest t) (fieldsNest fs) = 0 ∨ ∃ g ∈ (_ : List (FieldOf RType)), max (typeNest t) (fieldsNest fs) = typeNest g.ty
      rcases Nat.le_total (typeNest t) (fieldsNest fs) with hl | hl
      · rcases h1 with h | ⟨g, h3, h4⟩
        · exact Or.inl (by omega)
        · exact Or.inr ⟨g, List.mem_cons_of_mem _ h3, by omega⟩
      · exact Or.inr ⟨_, List.mem_cons_self, Nat.max_eq_left hl⟩
    · intro f hf
      show typeNest f.ty ≤ max (typeNest t) (fieldsNest fs)
      rcases List.mem_cons.1 hf with rfl | hf
      · exact Nat.le_max_left _ _
      · exact Nat.le_trans (h2 f hf) (Nat.le_max_right _ _)

section
variable {ord : List (Str × Ty) → List (Str × Ty)} (hord : FairOrd ord) {ast : AST} (hnb : NoBuiltinDecl ast)
  {r : Resolved} (h : typeCheck ord ast = .ok r)
include hord hnb h

theorem nest_chain : (k : Nat) → ∀ (t : RType), typeNest t = k → ∀ n m, r.types.get n = some (m, t) → (∃ fs, t = .struct fs) →
    ∃ l, StructChain ast n l ∧ l.length = k := by
  intro k
  induction k using Nat.strong_induction_on with
  | _ k ih =>
    rintro t hk n m hg ⟨rfs, rfl⟩
    obtain ⟨-, hm⟩ := meaning hord hnb h hg
    cases hm with
    | struct fs fs' rfs hn hd hp hf =>
      have hk : 1 + fieldsNest rfs = k := hk
      have hd := mem_decls.2 hd
      rcases Nat.eq_zero_or_pos (fieldsNest rfs) with h0 | h0
      · refine ⟨[n], ⟨rfl, List.IsChain.singleton _, ?_⟩, by rw [List.length_singleton]; omega⟩
        intro m hm
        cases List.mem_singleton.1 hm
        exact ⟨_, hd⟩
      · rcases (nest_mem rfs).1 with h1 | ⟨f, h1, h2⟩
        · omega
        obtain ⟨g, hgm, hR⟩ := forall₂_mem hf h1
        have hs : ∃ gs, f.ty = .struct gs := by
          cases hty : f.ty with
          | struct gs => exact ⟨gs, rfl⟩
          | builtin b => rw [hty] at h2; simp only [typeNest] at h2; omega
          | enum e => rw [hty] at h2; simp only [typeNest] at h2; omega
        obtain ⟨l, hl, hlen⟩ := ih (typeNest f.ty) (by omega) f.ty rfl _ _ hR.ty hs
        obtain ⟨l', rfl⟩ : ∃ l', l = g.2.name :: l' := by
          have := hl.first
          cases l with
          | nil => cases this
          | cons a l => cases this; exact ⟨l, rfl⟩
        refine ⟨n :: g.2.name :: l', ⟨rfl, ?_, ?_⟩, by rw [List.length_cons]; omega⟩
        · exact List.IsChain.cons_cons ⟨fs, hd, g, hp.mem_iff.1 hgm, rfl⟩ hl.chain
        · intro m hm
          rcases List.mem_cons.1 hm with rfl | hm
          · exact ⟨_, hd⟩
          · exact hl.struct m hm

theorem chain_nest : (l : List Str) → ∀ n m t, r.types.get n = some (m, t) → StructChain ast n l → l.length ≤ typeNest t := by
  intro l
  induction l with
  | nil => intro _ _ _ _ _; exact Nat.zero_le _
  | cons a l ih =>
    intro n m t hg hl
    have := hl.first
    cases this
    obtain ⟨fs0, hd0⟩ := hl.struct a List.mem_cons_self
    obtain ⟨hu, hm⟩ := meaning hord hnb h hg
    have hw := (C12_accepts_iff_wellformed hord ast hnb).1 ⟨r, h⟩
    cases hm with
    | builtin b hb => exact absurd (builtin_table_get hb).1 (hnb a ⟨_, hd0⟩)
    | enum vs e hn hd => cases decl_unique hw.unique hd0 (mem_decls.2 hd)
    | struct fs fs' rfs hn hd hp hf =>
      show l.length + 1 ≤ 1 + fieldsNest rfs
      cases l with
      | nil => exact Nat.le_add_right _ _
      | cons b l =>
        obtain ⟨hr, hc⟩ := List.isChain_cons_cons.1 hl.chain
        obtain ⟨gs, hgs, g, hgm, rfl⟩ := hr
        cases decl_unique hw.unique hgs (mem_decls.2 hd)
        obtain ⟨f, hfm, hR⟩ := forall₂_mem hf.flip (hp.mem_iff.2 hgm)
        have h1 := ih g.2.name _ f.ty hR.ty ⟨rfl, hc, fun m hm => hl.struct m (List.mem_cons_of_mem _ hm)⟩
        have h2 := (nest_mem rfs).2 f hfm
        omega
end

/-- C79: recursion over the exported type is as deep as the longest chain of structs nested in each other, which is at most the
number of structs declared. -/
theorem C79_nesting {ord} (hord : FairOrd ord) {text : Str} {ast : AST} (hp : Parser.schema text = .ok ast) {r}
    (h : typeCheck ord ast = .ok r) :
    (∃ l, StructChain ast r.export.name l ∧ l.length = typeNest (.struct r.export.fields)) ∧
    (∀ l, StructChain ast r.export.name l → l.length ≤ typeNest (.struct r.export.fields)) ∧
    typeNest (.struct r.export.fields) ≤ ((decls ast).filter fun d => match d.2 with | .struct _ => true | .enum _ => false).length := by
  have hnb := parsed_noBuiltinDecl hp
  have hg := (C23_faithful hord hnb h).1
  obtain ⟨l, hl, hlen⟩ := nest_chain hord hnb h _ (.struct r.export.fields) rfl _ _ hg ⟨_, rfl⟩
  refine ⟨⟨l, hl, hlen⟩, fun l hl => chain_nest hord hnb h l _ _ _ hg hl, ?_⟩
  rw [← hlen]
  have hw := (C12_accepts_iff_wellformed hord ast hnb).1 ⟨r, h⟩
  have hnd : l.Nodup := by
    have h1 : List.IsChain (Relation.TransGen (Refers ast)) l := hl.chain.imp fun _ _ h => .single h
    refine (List.isChain_iff_pairwise.1 h1).imp ?_
    rintro a b hab rfl
    exact hw.acyclic a hab
  have hs : l ⊆ ((decls ast).filter fun d => match d.2 with | .struct _ => true | .enum _ => false).map Prod.fst := by
    intro a ha
    obtain ⟨fs, hd⟩ := hl.struct a ha
    exact List.mem_map.2 ⟨_, List.mem_filter.2 ⟨hd, rfl⟩, rfl⟩
  have := (List.subperm_of_subset hnd hs).length_le
  rw [List.length_map] at this
  exact this

/-- The hypotheses are met by the example schema, whose structs `A` and `B` are nested. -/
example : (∃ r, typeCheck id exampleAst = .ok r) ∧ StructChain exampleAst "A".toList ["A".toList, "B".toList] := by
  refine ⟨⟨_, rfl⟩, rfl, ?_, ?_⟩
  · exact List.IsChain.cons_cons ⟨_, List.mem_cons_of_mem _ (List.mem_cons_of_mem _ List.mem_cons_self), _, List.mem_cons_self, rfl⟩
      (List.IsChain.singleton _)
  · intro m hm
    rcases List.mem_cons.1 hm with rfl | hm
    · exact ⟨_, List.mem_cons_of_mem _ (List.mem_cons_of_mem _ List.mem_cons_self)⟩
    · cases List.mem_singleton.1 hm
      exact ⟨_, List.mem_cons_of_mem _ List.mem_cons_self⟩

end Packetc.Props
