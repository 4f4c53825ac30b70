import Verif.Proof.JsEnums
import Verif.Props.Accept
import Verif.Props.RoundTrip
import Verif.Props.Names
import Verif.Props.Possible
import Verif.Props.Interop
import Verif.Props.Gen
import Verif.Proof.JsSame
/-!
# C25, C36, C37, C39, C57, exactly
-/

namespace Packetc.Props
open Ast Check Gen WellFormed Js Module

variable (rt : Runtime)

/-! ## C36 -/

/-- A property of all enums of the exported type, said of the schema. -/
theorem compiled_enums {ast : AST} {e : Artifact} (hc : Compiled ast e) (P : Nat → Prop) :
    EnumsFs (fun en => P en.variants.length) e.fields ↔ ∀ n vs, Used ast n → .decl n (.enum vs) ∈ ast → P vs.length := by
  obtain ⟨env, text, r, hfair, -, hp, -, ht, he⟩ := hc
  have hnb := parsed_noBuiltinDecl hp
  obtain ⟨c, hf, hex, hg, -, -, -⟩ := typeCheck_final hfair.1 hnb ht
  rw [he] at hg hex
  refine (final_enums hf hnb (fun en => P en.variants.length) _ _ _ _ (Nat.le_refl _) hg).trans ?_
  have hlen : ∀ vs, (enumSpec vs).variants.length = vs.length := by
    intro vs
    simp [enumSpec]
  constructor
  · rintro h n vs ⟨x, hx, hr⟩ hd
    rw [hex] at hx
    cases hx
    rw [← hlen]
    exact h n vs hr hd
  · intro h n vs hr hd
    rw [hlen]
    exact h n vs ⟨_, hex, hr⟩ hd

/-- C36, exactly, for schemas whose used enums have less than 32 variants: every enum in every packet that `read` accepts
is one of the variants if and only if no used enum has more than two variants. What is missing from the full statement:
the other schemas, for which it is false. -/
theorem C36_exact_partial {ast : AST} {e : Artifact} (hc : Compiled ast e) (hu : Usable e)
    (hs : ∀ n vs, Used ast n → .decl n (.enum vs) ∈ ast → vs.length ≤ 31) :
    (∀ data ps, Shaped e.fields ps → Reads rt e data ps → TypedFs (fun _ => True) IsVariant e.fields ps) ↔
    ∀ n vs, Used ast n → .decl n (.enum vs) ∈ ast → vs.length ≤ 2 := by
  have hsound := soundFs_enums _ (compiled_sound hc)
  rw [← compiled_enums hc (· ≤ 2)]
  rw [← compiled_enums hc (· ≤ 31)] at hs
  constructor
  · intro h
    have hh := sampleFs_holds rt e.fields (enumsFs_and _ hsound hs)
    have hsh := C75_shaped rt hc hh
    exact sampleFs_typed rt e.fields hsound
      (h _ _ hsh ((C75_reads rt hc hu hsh).2 ⟨_, List.prefix_rfl, hh⟩))
  · intro h data ps hps hr
    obtain ⟨hb, rfl⟩ := (reads_iff rt hc hu hps).1 hr
    exact typedFs_mono (fun _ _ => trivial) (fun _ _ hp h => between_two hp.1 hp.2 h) _ (enumsFs_and _ hsound h) _
      (typed_fields rt e.fields _ hb)

example : Compiled enumAst enumExport ∧ Usable enumExport ∧
    (∀ n vs, Used enumAst n → .decl n (.enum vs) ∈ enumAst → vs.length ≤ 31) ∧
    ¬ ∀ n vs, Used enumAst n → .decl n (.enum vs) ∈ enumAst → vs.length ≤ 2 := by
  refine ⟨enum_compiled, plain_usable enum_compiled enum_plain, fun n vs _ hd => ?_, fun h => ?_⟩
  · simp only [enumAst, List.mem_cons, Node.decl.injEq, Ty.enum.injEq, reduceCtorEq, and_false, or_false,
      List.not_mem_nil] at hd
    rw [hd.2]
    decide
  · have := h "E".toList _ ⟨"P".toList, rfl, .single ⟨_, List.mem_cons_of_mem _ List.mem_cons_self, _,
      List.mem_cons_self, rfl⟩⟩ List.mem_cons_self
    revert this
    decide

/-! ## C37 -/

/-- C37, exactly: all variants of an enum can be transmitted if and only if there are at most 31, and with 32 none
can. What is missing from the full statement: enums with 32 variants. -/
theorem C37_exact_partial {ast : AST} {e : Artifact} (hc : Compiled ast e) (hu : Usable e) {f tn : Str} {en : REnum}
    (he : e.fields = [⟨f, tn, .enum en, false, false⟩]) {n : Num} (hn : IsVariant en n) :
    (∃ bytes, Writes rt e [⟨f, .num n⟩] bytes ∧ Reads rt e bytes [⟨f, .num n⟩]) ↔ en.variants.length ≤ 31 := by
  have hty : TypedFs (fun s => ShortStr s ∧ False) IsVariant e.fields [⟨f, .num n⟩] := by
    rw [he]
    exact ⟨_, _, rfl, ⟨rfl, Or.inr ⟨_, rfl, hn⟩⟩, rfl⟩
  rw [C31_exact rt (P := fun _ => False) (fun s tail h => h.elim) hc hu hty, he]
  constructor
  · rintro ⟨p, qs, h1, ⟨-, h2⟩, -⟩
    cases h1
    rcases h2 with ⟨h3, -⟩ | ⟨m, h3, h4⟩
    · cases h3
    · exact h4.2
  · intro h
    exact ⟨_, _, rfl, ⟨rfl, Or.inr ⟨_, rfl, hn, h⟩⟩, rfl⟩

example : Compiled enumAst enumExport ∧ Usable enumExport ∧ IsVariant enumABC (.int 4) ∧
    enumExport.fields = [⟨"e".toList, "E".toList, .enum enumABC, false, false⟩] :=
  ⟨enum_compiled, plain_usable enum_compiled enum_plain, ⟨⟨"C".toList, 2⟩, by decide, rfl⟩, rfl⟩

/-! ## C39 -/

/-- The objects and variables after the first two statements of `read`. -/
def readStart (heap : List Obj) (data : List UInt8) : State :=
  ⟨heap ++ [.obj .cls []], [[("output".toList, some (.ref heap.length)), ("reader".toList, some .reader)],
    [("data".toList, some (.buf data))]], ⟨data, false, 0⟩, []⟩

/-- `output.f = reader.read_uint8();` -/
def byteAssign (f : Str) : Stmt := .assign (.prop (.var "output".toList) f) (readCall "uint8".toList)

def byteBody (c f : Str) : List Stmt :=
  [.letS "reader".toList false (.new1 "Reader".toList (.var "data".toList)),
   .letS "output".toList false (.call1 (.var "Object".toList) "create".toList (.var c)), byteAssign f,
   .ifRet (.prop reader "failed".toList) .null, .ret (.var "output".toList)]

theorem byte_start {c : Str} (hc : ClassNameOk c) (f : Str) (fuel : Nat) (heap : List Obj) (data : List UInt8) :
    execs rt c fuel (byteBody c f) ⟨heap, [hoist (byteBody c f), [("data".toList, some (.buf data))]], ⟨[], false, 0⟩, []⟩ =
    execs rt c fuel [byteAssign f, .ifRet (.prop reader "failed".toList) .null, .ret (.var "output".toList)]
      (readStart heap data) := by
  obtain ⟨hc1, hc2⟩ := hc
  simp only [List.mem_cons, List.not_mem_nil, or_false, not_or] at hc1
  obtain ⟨hcR, -, hcO, -, hcr, hcd⟩ := hc1
  have hco : "output".toList ≠ c := fun h => hc2 (h ▸ List.prefix_rfl)
  let sc : List Scope := [[("reader".toList, none), ("output".toList, none)], [("data".toList, some (.buf data))]]
  let sc1 : List Scope := [[("reader".toList, some .reader), ("output".toList, none)], [("data".toList, some (.buf data))]]
  have h1 : exec rt c fuel (.letS "reader".toList false (.new1 "Reader".toList (.var "data".toList)))
      ⟨heap, sc, ⟨[], false, 0⟩, []⟩ = .ok ⟨heap, sc1, ⟨data, false, 0⟩, []⟩ := by
    refine (exec_let_ok (v := .reader) (st' := ⟨heap, sc, ⟨data, false, 0⟩, []⟩) ?_ rfl).trans rfl
    show (getVar c sc "Reader".toList).bind (fun g =>
      (eval rt c (.var "data".toList) ⟨heap, sc, ⟨[], false, 0⟩, []⟩).bind fun r => construct g [r.1] r.2) = _
    have : getVar c sc "Reader".toList = .ok (.glob .reader) := by
      show resolveGlobal c "Reader".toList = _
      unfold resolveGlobal
      rw [if_neg (fun h => hcR h.symm), if_pos rfl]
    rw [this, ok_bind]
    rfl
  have h2 : exec rt c fuel (.letS "output".toList false (.call1 (.var "Object".toList) "create".toList (.var c)))
      ⟨heap, sc1, ⟨data, false, 0⟩, []⟩ = .ok (readStart heap data) := by
    refine (exec_let_ok (v := .ref heap.length) (st' := ⟨heap ++ [.obj .cls []], sc1, ⟨data, false, 0⟩, []⟩) ?_ rfl).trans rfl
    show (eval rt c (.var "Object".toList) ⟨heap, sc1, ⟨data, false, 0⟩, []⟩).bind (fun r =>
      (eval rt c (.var c) r.2).bind fun k => callMethod1 rt r.1 "create".toList k.1 k.2) = _
    have hO : getVar c sc1 "Object".toList = .ok (.glob .object) := by
      show resolveGlobal c "Object".toList = _
      unfold resolveGlobal
      rw [if_neg (fun h => hcO h.symm)]
      rfl
    have hcls : getVar c sc1 c = .ok .cls := by
      have : lookup sc1 c = none := by
        rw [lookup_cons_none (by simp only [Map.get]; rw [if_neg (fun h => hcr h.symm), if_neg hco]),
          lookup_cons_none (by simp only [Map.get]; rw [if_neg (fun h => hcd h.symm)])]
        rfl
      unfold getVar
      rw [this]
      simp only [resolveGlobal, if_true]
    rw [eval_var hO, ok_bind, eval_var hcls]
    rfl
  show execs rt c fuel (_ :: _ :: _) ⟨heap, sc, ⟨[], false, 0⟩, []⟩ = _
  rw [execs_cons, h1, ok_bind, execs_cons, h2, ok_bind]

/-- Setting a special property of a class, on the object that `read` has just made. -/
theorem byte_assign {f : Str} (c : Str) (fuel : Nat) (heap : List Obj) (data : List UInt8) :
    exec rt c fuel (byteAssign f) (readStart heap data) =
      lift ((Obj.set (.obj .cls []) f (.num (rt.readNum .uint8 ⟨data, false, 0⟩).1)).bind fun o' =>
        .ok { readStart heap data with
          heap := (heap ++ [Obj.obj .cls []]).set heap.length o'
          rd := (rt.readNum .uint8 ⟨data, false, 0⟩).2 }) := by
  let st : State := { readStart heap data with rd := (rt.readNum .uint8 ⟨data, false, 0⟩).2 }
  show lift ((State.deref st (.ref heap.length)).bind fun o =>
    (o.set f (.num (rt.readNum .uint8 ⟨data, false, 0⟩).1)).bind fun o' => .ok { st with heap := st.heap.set heap.length o' }) = _
  have : State.deref st (.ref heap.length) = .ok (.obj .cls []) := by
    unfold State.deref
    have : st.heap[heap.length]? = some (.obj .cls []) := by
      show (heap ++ [Obj.obj .cls []])[heap.length]? = _
      simp
    simp only [this]
  rw [this]
  rfl

theorem byte_end (c : Str) (fuel : Nat) (heap h : List Obj) (data : List UInt8) (rd : RState) (wr : List UInt8) :
    execs rt c fuel [.ifRet (.prop reader "failed".toList) .null, .ret (.var "output".toList)]
      ⟨h, (readStart heap data).scopes, rd, wr⟩ =
    if rd.failed = true then .error (.ret .null ⟨h, (readStart heap data).scopes, rd, wr⟩)
    else .error (.ret (.ref heap.length) ⟨h, (readStart heap data).scopes, rd, wr⟩) := by
  obtain ⟨r1, r2, r3⟩ := rd
  cases r2
  · rw [if_neg (by simp)]
    rfl
  · rw [if_pos rfl]
    rfl

/-- C39, exactly: a field of the given name can be read if and only if the name is none of the special ones, and the
class is not called like a keyword or a predefined type. What is missing from the full statement: the other names, for
which it is false. -/
theorem C39_exact_partial {ast : AST} {e : Artifact} (hc : Compiled ast e) (hn : ClassNameOk e.name) {f : Str}
    (he : e.fields = [⟨f, "uint8".toList, .builtin .uint8, false, false⟩]) {n : Num} (hok : Scalar.uint8.Ok n) :
    (∃ bytes, Reads rt e bytes [⟨f, .num n⟩]) ↔
      (e.name ∉ reservedWords ∧ e.name ∉ reservedTypeNames) ∧
      f ∉ readOnlyNames ∧ f ∉ poisonedNames ∧ f ∉ reservedWords ∧ f ≠ "__proto__".toList ∧ f ≠ "write".toList := by
  constructor
  · rintro ⟨bytes, h⟩
    obtain ⟨v, st, ext, hr, -, hrep⟩ := h [] (2 ^ 32) (Nat.le_refl _)
    have hload : load e.code ≠ none := by
      intro h0
      unfold readText at hr
      rw [h0] at hr
      cases hr
    obtain ⟨hm, hrun⟩ := compiled_text hc hload
    obtain ⟨hl, -, -, hres⟩ := C60_needs hc hload
    obtain ⟨hx, hxu, hused, fs0, hd0⟩ := export_name hc
    obtain ⟨ds, tds, fs, fs', R⟩ := compiled_run hc
    have hmem : f ∈ fs.map Prod.fst := by
      refine ((R.perm.map Prod.fst).mem_iff).1 ?_
      rw [R.names, he]
      exact List.mem_singleton.2 rfl
    obtain ⟨g, hg, rfl⟩ := List.mem_map.1 hmem
    rw [(hrun rt _ _).1] at hr
    unfold runRead at hr
    rw [if_pos hm] at hr
    unfold call at hr
    have hb : readBody e.toExport = byteBody e.name g.1 := by
      unfold readBody
      rw [he]
      rfl
    rw [hb, byte_start rt hn, execs_cons, byte_assign] at hr
    have hset : ∀ {t : Throw}, Obj.set (.obj .cls []) g.1 (.num (rt.readNum .uint8 ⟨bytes, false, 0⟩).1) ≠ .error t := by
      intro t ht
      rw [ht] at hr
      cases hr
    have hproto : g.1 ≠ "__proto__".toList := by
      intro hp
      rw [hp] at hr hrep
      have e1 : Obj.set (.obj .cls []) "__proto__".toList (.num (rt.readNum .uint8 ⟨bytes, false, 0⟩).1) =
        .ok (.obj .cls []) := rfl
      rw [e1] at hr
      have hr' : (match execs rt e.name (2 ^ 32) [Stmt.ifRet (reader.prop "failed".toList) Expr.null, Stmt.ret (Expr.var "output".toList)]
          ⟨[Obj.obj .cls []], (readStart [] bytes).scopes, (rt.readNum .uint8 ⟨bytes, false, 0⟩).2, []⟩ with
        | .ok st => Outcome.returns .undef st
        | .error (.ret v st) => .returns v st
        | .error (.throw t) => .throws t
        | .error .timeout => .timeout) = Outcome.returns v st := hr
      rw [byte_end] at hr'
      obtain ⟨i, pr, props, hv, -, hi, ⟨w, hw, hw'⟩, -⟩ := hrep
      by_cases hfail : (rt.readNum .uint8 ⟨bytes, false, 0⟩).2.failed = true
      · rw [if_pos hfail] at hr'
        simp only [Outcome.returns.injEq] at hr'
        rw [← hr'.1] at hv
        cases hv
      · rw [if_neg hfail] at hr'
        simp only [Outcome.returns.injEq] at hr'
        rw [← hr'.1] at hv
        cases hv
        rw [← hr'.2] at hi
        simp only [List.length_nil, List.getElem?_cons_zero, Option.some.injEq, Obj.obj.injEq] at hi
        obtain ⟨rfl, rfl⟩ := hi
        have e2 : Obj.get (.obj .cls []) "__proto__".toList = .ok .other := by decide +kernel
        rw [e2] at hw
        cases hw
        cases hw'
    refine ⟨hl.typeNames _ _ hused R.decl, ?_, ?_, hres _ R.decl _ hg, hproto, ?_⟩
    · intro hro
      refine hset (t := .typeError) ?_
      show (if _ then _ else _) = _
      rw [if_neg hproto, if_pos ⟨rfl, Or.inl hro⟩]
    · intro hro
      refine hset (t := .typeError) ?_
      show (if _ then _ else _) = _
      rw [if_neg hproto, if_pos ⟨rfl, Or.inr hro⟩]
    · intro hw
      exact hl.noWrite _ _ hx R.decl (hw ▸ hmem)
  · rintro ⟨h1, h2⟩
    obtain ⟨bytes, -, h3⟩ := C39_field_names_partial rt hc ⟨hn, h1⟩ he h2 hok
    exact ⟨bytes, h3⟩

example : ∃ (ast : AST) (e : Artifact) (f : Str), Compiled ast e ∧ ClassNameOk e.name ∧
    e.fields = [⟨f, "uint8".toList, .builtin .uint8, false, false⟩] ∧ Scalar.uint8.Ok (.int 7) ∧ f = "name".toList :=
  ⟨nameAst, nameExport, _, name_compiled, ⟨by decide, by decide⟩, rfl, ⟨by decide, by decide⟩, rfl⟩

/-! ## C57 -/

theorem recursive_declared {ast : AST} {n : Str} (h : Recursive ast n) : Declared ast n := by
  obtain ⟨m, ⟨fs, h1, -⟩, -⟩ := Relation.TransGen.head'_iff.1 h
  exact ⟨_, h1⟩

/-- C57, exactly: the messages of all runs are true if and only if none of the possible errors is that a declared type is
missing. What is missing from the full statement: the other schemas, for which it is false. -/
theorem C57_exact_partial {text : Str} {ast : AST} (hp : Parser.schema text = .ok ast) :
    (∀ (env : Env) m, env.Fair → compile env text = .checkError m → Says ast m) ↔
    ∀ n, Possible ast (.missingType n) → ¬ Declared ast n := by
  have hnb := parsed_noBuiltinDecl hp
  constructor
  · intro h n hn
    obtain ⟨env, hf, hm⟩ := (C84_messages hp _).2 ⟨_, hn, rfl⟩
    have := h env _ hf hm
    rw [render_missing] at this
    exact says_missing this
  · intro h env m hf hm
    obtain ⟨ast', e, hp', ht, rfl⟩ := compile_checkError hm
    rw [hp] at hp'
    cases hp'
    have he := typeCheck_possible hnb hf.1 ht
    rcases render_says (C54_errors_truthful hf.1 ht) with h1 | ⟨n, hrec, rfl⟩
    · exact h1
    · exact absurd (recursive_declared hrec) (h n he)

example : Parser.schema lassoText = .ok lassoAst ∧
    ¬ ∀ n, Possible lassoAst (.missingType n) → ¬ Declared lassoAst n := by
  have hp : Parser.schema lassoText = .ok lassoAst := by decide +kernel
  refine ⟨hp, fun h => ?_⟩
  exact says_missing ((C57_exact_partial hp).2 h backwards _ backwards_fair lasso_message)
    ⟨_, List.mem_cons_of_mem _ List.mem_cons_self⟩

/-! ## C25 -/

/-- If the exported type is resolved alike, then all used types are. -/
theorem same_used {ast : AST} {c₁ c₂ : TypeMap} (h₁ : Final ast c₁) (h₂ : Final ast c₂) {x n : Str}
    (hx : c₁.get x = c₂.get x) (hr : Relation.ReflTransGen (Refers ast) x n) : c₁.get n = c₂.get n := by
  induction hr with
  | refl => exact hx
  | @tail m k _ href ih =>
    obtain ⟨fs, hd, f, hf, rfl⟩ := href
    obtain ⟨-, r₁, p₁, g₁, -, -, f₁⟩ := h₁.struct m fs hd
    obtain ⟨-, r₂, p₂, g₂, -, -, f₂⟩ := h₂.struct m fs hd
    rw [g₁, g₂] at ih
    simp only [Option.some.injEq, Prod.mk.injEq, RType.struct.injEq, true_and] at ih
    subst ih
    obtain ⟨l₁, k₁⟩ := List.forall₂_iff_get.1 f₁
    obtain ⟨l₂, k₂⟩ := List.forall₂_iff_get.1 f₂
    obtain ⟨i, hi, he⟩ := List.getElem_of_mem ((perm_partition (fun f : Str × Unresolved => p₁ f.2.name) fs).mem_iff.2 hf)
    have a₁ := k₁ i hi (l₁ ▸ hi)
    have a₂ := k₂ i (l₂ ▸ l₁ ▸ hi) (l₁ ▸ hi)
    have e1 := a₁.tyName
    have e2 := a₂.tyName
    have e3 := a₁.ty
    have e4 := a₂.ty
    rw [← e1] at e3
    rw [← e2, ← e3, e1] at e4
    rw [List.get_eq_getElem, he] at e4
    exact e4.symm

/-- The methods can be told from the class text. -/
theorem class_methods {ast : AST} (hb : BindableTypes ast) {e₁ e₂ : Artifact} (h₁ : Compiled ast e₁) (h₂ : Compiled ast e₂)
    (h : printClass e₁.toExport = printClass e₂.toExport) (hn : e₁.name = e₂.name) :
    readBody e₁.toExport = readBody e₂.toExport := by
  obtain ⟨ds, tds, fs₁, fs₁', R₁, c₁⟩ := compiled_run_class h₁
  obtain ⟨ds₂, tds₂, fs₂, fs₂', R₂, c₂⟩ := compiled_run_class h₂
  obtain ⟨hd, k1, k2⟩ := R₁.text
  have R₃ : Run ast ⟨e₂.toExport, e₁.code⟩ ds tds fs₂ fs₂' :=
    ⟨R₂.wf, R₂.noBuiltin, R₂.exp, hn ▸ R₁.complete, R₁.entries, R₂.decl, R₂.perm, R₂.names, R₂.ident, R₂.sound, R₂.fields,
      R₂.shapes, hd, k1, by rw [k2, ← c₁, h, c₂, hn]⟩
  have p₁ := R₁.parses hb
  have p₂ := R₃.parses hb
  have p₃ : parseText e₁.code = some (moduleOf e₂.toExport (tds.map Prod.fst) fs₂') := p₂
  rw [p₁] at p₃
  injection p₃ with p₃
  have p₄ := congrArg (fun m => m.methods.map TsMethod.body) p₃
  injection p₄

/-- The class text tells how the types were resolved, if names are in order. -/
theorem class_resolved {text : Str} {ast : AST} (hp : Parser.schema text = .ok ast) (hl : Loadable ast) {ord₁ ord₂}
    (f₁ : FairOrd ord₁) (f₂ : FairOrd ord₂) {r₁ r₂} (g₁ : typeCheck ord₁ ast = .ok r₁) (g₂ : typeCheck ord₂ ast = .ok r₂)
    (h : classCode r₁ = classCode r₂) : r₁.export = r₂.export ∧ ∀ n, r₁.types.get n = r₂.types.get n := by
  have hnb := parsed_noBuiltinDecl hp
  have hb : BindableTypes ast := fun n t hu hd => bindable_of (hl.typeNames n t hu hd)
  obtain ⟨c₁, F₁, e₁, x₁, _, u₁, v₁⟩ := typeCheck_final f₁ hnb g₁
  obtain ⟨c₂, F₂, e₂, x₂, _, u₂, v₂⟩ := typeCheck_final f₂ hnb g₂
  have hn : r₁.export.name = r₂.export.name := by rw [e₁] at e₂; simpa using e₂
  have hcc : printClass r₁.export = printClass r₂.export := by
    unfold classCode at h
    rw [genImpl_eq _ (sound_boundsFs _ (accepted_sound f₁ hnb g₁).1), genImpl_eq _ (sound_boundsFs _ (accepted_sound f₂ hnb g₂).1)] at h
    exact h
  have hbody := class_methods hb (compiled_of hp f₁ g₁ rfl) (compiled_of hp f₂ g₂ rfl) hcc hn
  have hread : readFields ["output".toList] r₁.export.fields = readFields ["output".toList] r₂.export.fields := by
    unfold readBody at hbody
    rw [hn] at hbody
    simp only [List.append_assoc] at hbody
    exact List.append_cancel_right (List.append_cancel_left hbody)
  have hs := same_code F₁ F₂ (fun n fs hu hd => hl.members n fs hu (mem_decls.1 hd)) _ r₁.export.name ⟨_, e₁, .refl⟩ (Nat.le_refl _)
  have hget : c₁.get r₁.export.name = c₂.get r₁.export.name := by
    refine (hs false ["output".toList] [] [] (Or.inr ⟨rfl, _, rfl⟩) ?_).1
    rw [typeOf_get x₁, hn, typeOf_get x₂, List.append_nil, List.append_nil]
    exact hread
  refine ⟨?_, fun n => ?_⟩
  · rw [hget, hn, x₂] at x₁
    simp only [Option.some.injEq, Prod.mk.injEq, RType.struct.injEq] at x₁
    rcases hr₁ : r₁.export with ⟨a, b⟩
    rcases hr₂ : r₂.export with ⟨a', b'⟩
    rw [hr₁, hr₂] at hn x₁
    simp only at hn x₁
    rw [hn, x₁.2]
  · by_cases hu : Used ast n
    · rw [u₁ n hu, u₂ n hu]
      obtain ⟨x, hx, hxn⟩ := hu
      rw [e₁] at hx
      injection hx with hx
      subst hx
      exact same_used F₁ F₂ hget hxn
    · rw [v₁ n hu, v₂ n hu]

/-- C25, exactly: if type and field names are in order, then the class is the same in every run if and only if no field can
be overtaken by a later one. What is missing from the full statement: schemas in which one can, for which it is false. -/
theorem C25_exact_partial {text : Str} {ast : AST} (hp : Parser.schema text = .ok ast) (hl : Loadable ast) {ord₀}
    (h₀ : FairOrd ord₀) {r₀} (hr₀ : typeCheck ord₀ ast = .ok r₀) :
    (∀ ord₁ ord₂ r₁ r₂, FairOrd ord₁ → FairOrd ord₂ → typeCheck ord₁ ast = .ok r₁ → typeCheck ord₂ ast = .ok r₂ →
      classCode r₁ = classCode r₂) ↔ AllInOrder ast := by
  have hnb := parsed_noBuiltinDecl hp
  rw [← C61_runs_agree_iff hnb h₀ hr₀]
  refine ⟨fun h ord₁ ord₂ r₁ r₂ f₁ f₂ g₁ g₂ => class_resolved hp hl f₁ f₂ g₁ g₂ (h ord₁ ord₂ r₁ r₂ f₁ f₂ g₁ g₂),
    fun h ord₁ ord₂ r₁ r₂ f₁ f₂ g₁ g₂ => ?_⟩
  unfold classCode
  rw [(h ord₁ ord₂ r₁ r₂ f₁ f₂ g₁ g₂).1]

example : ∃ r, Parser.schema reorderText = .ok reorderAst ∧ Loadable reorderAst ∧ typeCheck id reorderAst = .ok r ∧
    ¬ AllInOrder reorderAst := by
  have hl := plain_loadable reorder_plain
  refine ⟨_, reorder_parses, hl, rfl, fun h => ?_⟩
  have h1 := (C25_exact_partial reorder_parses hl (fun l => .refl l) rfl).2 h id List.reverse _ _ (fun l => .refl l)
    (fun l => List.reverse_perm l) rfl rfl
  have h2 := (class_resolved reorder_parses hl (fun l => .refl l) (fun l => List.reverse_perm l) rfl rfl h1).1
  have h3 := congrArg (fun x : Export => x.fields.map FieldOf.name) h2
  revert h3
  decide

end Packetc.Props
