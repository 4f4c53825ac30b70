import Verif.Proof.Construct
import Verif.Props.Interop
/-!
# C115-C117: the constructor of the generated class

C30-C44 are about `C.read(data)` and about `write` applied to any object. Programs make their packets with `new C(..)`, and
call `write` as a method.
-/

namespace Packetc.Props
open Ast Check WellFormed Js Gen

section
variable {ast : AST} {e : Artifact}

/-! ## C115: packets made with the constructor can be sent -/

theorem shaped_get {S : Str → Prop} {E : REnum → Num → Prop} {fs : List (FieldOf RType)} {ps : List (PropOf JVal)}
    (h : TypedFs S E fs ps) {i : Nat} {p : PropOf JVal} (hi : ps[i]? = some p) : (fs.map FieldOf.name)[i]? = some p.name := by
  rw [← shaped_names fs ps h, List.getElem?_map, hi]
  rfl

/-- What `new C(..)` does, in terms of properties. -/
theorem new_ok (hc : Compiled ast e) (hl : load e.code ≠ none) (hp : "__proto__".toList ∉ e.fields.map FieldOf.name)
    (heap : List Obj) (args : List Val) :
    ∃ props, newText e.code heap args = .returns (.ref heap.length) (heap ++ [.obj .inst props]) ∧
      (∀ (i : Nat) (n : Str), (e.fields.map FieldOf.name)[i]? = some n → props.get n = some ((args[i]?).getD .undef)) ∧
      (∀ n, n ∉ e.fields.map FieldOf.name → props.get n = none) ∧ props.has "write".toList = false := by
  obtain ⟨hnd, hw, hnew⟩ := compiled_params hc hl
  obtain ⟨props, h1, h2, h3⟩ := assign_ok (e.fields.map FieldOf.name) [] args hnd hp
  refine ⟨props, ?_, h2, h3, ?_⟩
  · rw [hnew, h1]
  · have h4 := h3 _ hw
    unfold Map.has
    rw [h4]
    rfl

/-- An instance of the class without a property `write` has the method of the class. -/
theorem sends_of (rt : Runtime) (hc : Compiled ast e) (hl : load e.code ≠ none) {S : Str → Prop} {E : REnum → Num → Prop}
    {ps : List (PropOf JVal)} (hty : TypedFs S E e.fields ps) {heap : List Obj} {i : Nat} {props : Map Val}
    (hi : heap[i]? = some (.obj .inst props)) (hw : props.has "write".toList = false) (hr : Rep heap (.obj ps) (.ref i)) :
    Sends rt e heap (.ref i) (encodeFields rt e.fields ps) := by
  intro buffer fuel hfuel hbuf
  obtain ⟨hm, hrun⟩ := compiled_text hc hl
  obtain ⟨st, h1, h2⟩ := runWrite_ok (rt := rt) hm (compiled_sound hc) hfuel heap (.ref i) buffer hbuf hty hr
  refine ⟨st, ?_, h2⟩
  unfold callWrite
  simp only [hi, hw]
  rw [if_neg (by decide), if_pos True.intro, (hrun rt fuel heap).2]
  exact h1

theorem rep_props {heap : List Obj} {ps : List (PropOf JVal)} {props : Map Val}
    (h : ∀ p ∈ ps, ∃ w, props.get p.name = some w ∧ Rep heap p.value w) :
    Rep (heap ++ [.obj .inst props]) (.obj ps) (.ref heap.length) := by
  refine ⟨heap.length, .inst, props, rfl, Nat.zero_le _, by simp, ?_⟩
  rw [repProps_iff]
  intro p hp
  obtain ⟨w, h1, h2⟩ := h p hp
  refine ⟨w, ?_, rep_extend h2⟩
  unfold Obj.get
  simp only [h1]

/-- C115: `new C(..)` with the components of a packet makes an instance of the class that holds the packet, and changes no
other object, exactly if no field is called `__proto__`. -/
theorem C115_constructs_iff (hc : Compiled ast e) (hl : load e.code ≠ none) {ps : List (PropOf JVal)} (hps : Shaped e.fields ps)
    {heap : List Obj} {args : List Val} (ha : ArgsHold heap ps args) :
    Constructs e heap args ps ↔ "__proto__".toList ∉ e.fields.map FieldOf.name := by
  constructor
  · rintro ⟨v, o, h1, -, h3⟩ hmem
    obtain ⟨-, -, hnew⟩ := compiled_params hc hl
    rw [hnew] at h1
    cases h4 : assignParams (.obj .inst []) (e.fields.map FieldOf.name) args with
    | error t => rw [h4] at h1; cases h1
    | ok o' =>
      rw [h4] at h1
      simp only [NewOutcome.returns.injEq, List.append_cancel_left_eq, List.cons.injEq, and_true] at h1
      obtain ⟨rfl, rfl⟩ := h1
      obtain ⟨props, rfl, h5⟩ := assign_proto _ _ _ _ h4 rfl
      obtain ⟨i, pr, props', h6, -, h7, h8⟩ := h3
      cases h6
      simp only [List.getElem?_concat_length, Option.some.injEq, Obj.obj.injEq] at h7
      obtain ⟨rfl, rfl⟩ := h7
      rw [repProps_iff] at h8
      rw [← shaped_names _ _ hps] at hmem
      obtain ⟨p, hp, hn⟩ := List.mem_map.1 hmem
      obtain ⟨w, h9, h10⟩ := h8 p hp
      rw [hn] at h9
      unfold Obj.get at h9
      simp only [h5] at h9
      rw [if_pos (by decide)] at h9
      cases h9
      cases hv : p.value with
      | undef => rw [hv] at h10; rcases h10 with h | h <;> cases h
      | num n => rw [hv] at h10; cases h10
      | str s => rw [hv] at h10; cases h10
      | arr js => rw [hv] at h10; obtain ⟨_, _, h, -⟩ := h10; cases h
      | obj qs => rw [hv] at h10; obtain ⟨_, _, _, h, -⟩ := h10; cases h
  · intro hp
    obtain ⟨props, h1, h2, -⟩ := new_ok hc hl hp heap args
    refine ⟨_, _, h1, ?_, rep_props fun p hpm => ?_⟩
    · unfold isInstance
      simp
    · obtain ⟨i, hi⟩ := List.getElem?_of_mem hpm
      exact ⟨_, h2 i p.name (shaped_get hps hi), ha i p hi⟩

/-- C115: calling `write` on what `new C(..)` returns gives the documented encoding of the packet, for every library. -/
theorem C115_new_write (hc : Compiled ast e) (hl : load e.code ≠ none) (hp : "__proto__".toList ∉ e.fields.map FieldOf.name)
    {ps : List (PropOf JVal)} (hty : HasFields e.fields ps) {heap : List Obj} {args : List Val} (ha : ArgsHold heap ps args) :
    ∃ v o, newText e.code heap args = .returns v (heap ++ [o]) ∧
      ∀ rt, Sends rt e (heap ++ [o]) v (encodeFields rt e.fields ps) := by
  obtain ⟨props, h1, h2, -, h3⟩ := new_ok hc hl hp heap args
  refine ⟨_, _, h1, fun rt => sends_of rt hc hl hty (by simp) h3 (rep_props fun p hpm => ?_)⟩
  obtain ⟨i, hi⟩ := List.getElem?_of_mem hpm
  exact ⟨_, h2 i p.name (shaped_get hty hi), ha i p hi⟩

theorem usable_proto (hu : Usable e) : "__proto__".toList ∉ e.fields.map FieldOf.name := by
  have := hu.nested
  revert this
  generalize e.fields = fs
  induction fs with
  | nil => intro _ h; cases h
  | cons f fs ih =>
    intro h
    obtain ⟨n, _, _, _, _⟩ := f
    rw [List.map_cons, List.mem_cons, not_or]
    exact ⟨Ne.symm h.1.1, ih h.2⟩

/-- C115: what is made with the constructor of one program and sent is read by another one as a packet with the same
contents (strings whose encoding has as many bytes as characters, enums with less than 32 variants, see C31). -/
theorem C115_delivered (rt : Runtime) (hc : Compiled ast e) (hu : Usable e) (hs : SmallEnums ast) {ps : List (PropOf JVal)}
    (hty : TypedFs (FaithfulStr rt) IsVariant e.fields ps) {heap : List Obj} {args : List Val} (ha : ArgsHold heap ps args) :
    ∃ v o bytes, newText e.code heap args = .returns v (heap ++ [o]) ∧ Sends rt e (heap ++ [o]) v bytes ∧ Reads rt e bytes ps := by
  have hf := faithful_hasFields rt (trueEnums hc) hty
  obtain ⟨v, o, h1, h2⟩ := C115_new_write hc hu.loads (usable_proto hu) hf ha
  obtain ⟨b, h3, h4⟩ := C31_read_inverts_write_partial rt hc hu hs hty
  obtain rfl := writes_unique rt hc hu hf h3 (C30_write_format rt hc hu.loads hf)
  exact ⟨v, o, _, h1, h2 rt, h4⟩

/-- The hypotheses are met by `new A(["hi"], ..)`: the example schema with an argument list for its value; the array and the
object in it exist already. -/
example : ∃ (ast : AST) (e : Artifact) (ps : List (PropOf JVal)) (heap : List Obj) (args : List Val), Compiled ast e ∧ Usable e ∧
    SmallEnums ast ∧ TypedFs (FaithfulStr leUtf8) IsVariant e.fields ps ∧ ArgsHold heap ps args ∧ args.length = 2 := by
  obtain ⟨e, h1, -, h3⟩ := example_compiled
  refine ⟨exampleAst, e, exampleValue,
    [.obj .plain [("e".toList, .num (.int 2)), ("n".toList, .num (.int 7))], .arr [.ref 0]], [.str "hi".toList, .ref 1], h1,
    plain_usable h1 example_plain, example_small, example_typed e h3, fun i p hi => ?_, rfl⟩
  match i, hi with
  | 0, hi => cases hi; rfl
  | 1, hi =>
    cases hi
    exact ⟨1, _, rfl, Nat.zero_le _, rfl, _, _, rfl, ⟨0, _, _, rfl, Nat.zero_le _, rfl, ⟨_, rfl, rfl⟩, ⟨_, rfl, rfl⟩, True.intro⟩, rfl⟩
  | i + 2, hi => cases hi

/-- A field called `__proto__`, for which the constructor does not work. -/
def protoText : Str := "P: struct { __proto__: uint8 }\nexport P".toList
def protoAst : AST := [.decl "P".toList (.struct [("__proto__".toList, ⟨"uint8".toList, false, false⟩)]), .export "P".toList]
def protoExport : Artifact :=
  ⟨⟨"P".toList, [⟨"__proto__".toList, "uint8".toList, .builtin .uint8, false, false⟩]⟩, exampleCode id protoText⟩

theorem proto_compiled : Compiled protoAst protoExport :=
  compiled_of (ord := id) (by decide +kernel) (fun _ => .refl _) rfl rfl

theorem proto_loads : load protoExport.code ≠ none := by
  refine compiled_loads proto_compiled (by decide +kernel) ⟨fun n fs _ hd => ?_, fun n t _ hd => ?_, fun n fs _ hd => ?_⟩ <;>
    simp only [protoAst, List.mem_cons, Node.decl.injEq, Ast.Ty.struct.injEq, reduceCtorEq, List.not_mem_nil, or_false] at hd
  · rw [hd.2]; decide
  · rw [hd.1]; decide
  · rw [hd.2]; decide

/-- The argument 5 holds the packet `{ __proto__: 5 }`, but the object that is made of it does not. -/
theorem C115_proto : Shaped protoExport.fields [⟨"__proto__".toList, .num (.int 5)⟩] ∧
    ArgsHold [] [⟨"__proto__".toList, .num (.int 5)⟩] [.num (.int 5)] ∧
    ¬ Constructs protoExport [] [.num (.int 5)] [⟨"__proto__".toList, .num (.int 5)⟩] := by
  have hs : Shaped protoExport.fields [⟨"__proto__".toList, .num (.int 5)⟩] :=
    ⟨_, _, rfl, ⟨rfl, Or.inr ⟨_, rfl, by decide, by decide⟩⟩, rfl⟩
  have ha : ArgsHold [] [⟨"__proto__".toList, .num (.int 5)⟩] [.num (.int 5)] := by
    intro i p hi
    match i, hi with
    | 0, hi => cases hi; rfl
    | i + 1, hi => cases hi
  refine ⟨hs, ha, ?_⟩
  rw [C115_constructs_iff proto_compiled proto_loads hs ha]
  exact fun h => h List.mem_cons_self

/-! ## C116: arguments of the constructor are in the order of the schema -/

/-- The constructor stores its arguments in the fields `ns` if and only if these are the fields, in the order of the run. -/
theorem byPosition_iff (hc : Compiled ast e) (hl : load e.code ≠ none) (hp : "__proto__".toList ∉ e.fields.map FieldOf.name)
    {ns : List Str} (hn : ns.length = (e.fields.map FieldOf.name).length) :
    ByPosition e ns ↔ e.fields.map FieldOf.name = ns := by
  constructor
  · intro h
    obtain ⟨v, o, h1, h2⟩ := h [] ((List.range ns.length).map fun (i : Nat) => Val.num (.int (i : Int))) (by simp)
    obtain ⟨props, h3, h4, h5, -⟩ := new_ok hc hl hp [] ((List.range ns.length).map fun (i : Nat) => Val.num (.int (i : Int)))
    rw [h3] at h1
    simp only [NewOutcome.returns.injEq, List.append_cancel_left_eq, List.cons.injEq, and_true] at h1
    obtain ⟨-, rfl⟩ := h1
    refine List.ext_getElem hn.symm fun i hi hi' => ?_
    have h6 := h2 i ns[i] (.num (.int i)) (List.getElem?_eq_getElem hi') (by simp [hi'])
    have h7 : props.get ns[i] = some (.num (.int i)) := by
      unfold Obj.get at h6
      cases hg : props.get ns[i] with
      | some w =>
        simp only [hg] at h6
        cases h6
        rfl
      | none =>
        simp only [hg] at h6
        split_ifs at h6 <;> cases h6
    by_cases hm : ns[i] ∈ e.fields.map FieldOf.name
    · obtain ⟨j, hj⟩ := List.getElem?_of_mem hm
      have h8 := h4 j _ hj
      have hjl : j < ns.length := hn ▸ (List.getElem?_eq_some_iff.1 hj).1
      rw [h7] at h8
      simp only [List.getElem?_map, List.getElem?_range hjl, Option.map_some, Option.getD_some, Option.some.injEq, Val.num.injEq,
        Num.int.injEq, Nat.cast_inj] at h8
      subst h8
      exact (List.getElem?_eq_some_iff.1 hj).2
    · rw [h5 _ hm] at h7
      cases h7
  · rintro rfl heap args hlen
    obtain ⟨props, h1, h2, -⟩ := new_ok hc hl hp heap args
    refine ⟨_, _, h1, fun i n a hi hai => ?_⟩
    have h3 := h2 i n hi
    rw [hai] at h3
    unfold Obj.get
    simp only [h3]
    rfl

/-- C116, full statement: `new C(a, b, ...)` stores the arguments in the fields of the export in the order of the schema. -/
def C116_claim : Prop := ∀ (ast : AST) (e : Artifact) (fs : List (Str × Unresolved)), Compiled ast e → PlainSchema ast →
  .decl e.name (.struct fs) ∈ ast → ByPosition e (fs.map Prod.fst)

theorem perm_eq_of_map {α β : Type} (g : α → β) {l l' : List α} (hp : l'.Perm l) (hm : l'.map g = l.map g)
    (hn : (l.map g).Nodup) : l' = l := by
  refine List.ext_getElem hp.length_eq fun i h1 h2 => ?_
  refine List.inj_on_of_nodup_map hn (hp.mem_iff.1 (List.getElem_mem h1)) (List.getElem_mem h2) ?_
  have h3 : (l'.map g)[i]? = (l.map g)[i]? := by rw [hm]
  rw [List.getElem?_map, List.getElem?_map, List.getElem?_eq_getElem h1, List.getElem?_eq_getElem h2] at h3
  simpa using h3

theorem resolved_names {types : TypeMap} {fs : List (Str × Unresolved)} {rfs : List RField}
    (h : List.Forall₂ (FieldResolved types) fs rfs) : rfs.map FieldOf.name = fs.map Prod.fst := by
  induction h with
  | nil => rfl
  | cons h1 _ ih => rw [List.map_cons, List.map_cons, ih, h1.name]

/-- C116, exactly: the arguments of the constructor are in the order of the schema in every run of the compiler if and only
if no field of the exported struct can be overtaken by a later one (C61). -/
theorem C116_exact (hc : Compiled ast e) (hl : load e.code ≠ none) {fs : List (Str × Unresolved)}
    (hd : .decl e.name (.struct fs) ∈ ast) (hp : "__proto__".toList ∉ fs.map Prod.fst) :
    (∀ e', Compiled ast e' → ByPosition e' (fs.map Prod.fst)) ↔ InOrder ast fs := by
  have hc0 := hc
  obtain ⟨env, text, r, hf, hline, hpar, hcomp, ht, hx⟩ := hc
  have hnb := parsed_noBuiltinDecl hpar
  have hus : Used ast e.name := (export_name hc0).2.2.1
  have key : ∀ e', Compiled ast e' → ∃ ord r' fs', FairOrd ord ∧ typeCheck ord ast = .ok r' ∧ r'.export = e'.toExport ∧ fs'.Perm fs ∧
      r'.types.get e.name = some (e.name, .struct e'.fields) ∧
      List.Forall₂ (FieldResolved r'.types) fs' e'.fields ∧ (ByPosition e' (fs.map Prod.fst) ↔ e'.fields.map FieldOf.name = fs.map Prod.fst) := by
    intro e' hc'
    have hl' : load e'.code ≠ none := fun h => hl ((C60_every_run hc0 hc').2 h)
    have hname : e'.name = e.name := (export_name hc0).2.1 _ (export_name hc').1
    have hc1 := hc'
    obtain ⟨env', text', r', hf', -, -, -, ht', hx'⟩ := hc'
    obtain ⟨f1, -, -, f4⟩ := C23_faithful hf'.1 hnb ht'
    obtain ⟨rfs, fs', h2, h3, h4⟩ := f4 e.name fs hus (mem_decls.2 hd)
    rw [hx', hname] at f1
    rw [f1] at h2
    cases h2
    have hperm : (e'.fields.map FieldOf.name).Perm (fs.map Prod.fst) := by
      rw [resolved_names h4]
      exact h3.map _
    exact ⟨_, r', fs', hf'.1, ht', hx', h3, f1, h4, byPosition_iff hc1 hl' (fun h => hp (hperm.mem_iff.1 h))
      hperm.length_eq.symm⟩
  rw [← C61_order_exact hnb hf.1 ht hus hd]
  constructor
  · intro h ord r' ho hr'
    have hc' := compiled_of hpar ho hr' rfl
    obtain ⟨f1, -, -, f4⟩ := C23_faithful ho hnb hr'
    obtain ⟨rfs, fs', h2, h3, h4⟩ := f4 e.name fs hus (mem_decls.2 hd)
    refine ⟨rfs, h2, ?_⟩
    have hname : r'.export.name = e.name := (export_name hc0).2.1 _ (export_name hc').1
    obtain ⟨_, _, _, -, -, -, -, -, -, h5⟩ := key _ hc'
    have h6 := h5.1 (h _ hc')
    have h7 : r'.export.fields.map FieldOf.name = fs.map Prod.fst := h6
    rw [hname, h2] at f1
    cases f1
    have hnd : (fs.map Prod.fst).Nodup := by
      rw [← h7]
      exact (compiled_params hc' (fun h => hl ((C60_every_run hc0 hc').2 h))).1
    rwa [perm_eq_of_map Prod.fst h3 (by rw [← resolved_names h4, h7]) hnd] at h4
  · intro h e' hc'
    obtain ⟨ord, r', fs', ho, hr', -, -, h1, -, h5⟩ := key e' hc'
    obtain ⟨rfs, h2, h3⟩ := h ord r' ho hr'
    rw [h1] at h2
    cases h2
    exact h5.2 (resolved_names h3)

/-- C116, what holds: the order is the declared one if no field can be overtaken. What is missing: other schemas; for those
some run of the compiler has another order (`C116_exact`). -/
theorem C116_order_partial (hc : Compiled ast e) (hp : PlainSchema ast) {fs : List (Str × Unresolved)}
    (hd : .decl e.name (.struct fs) ∈ ast) (ho : InOrder ast fs) : ByPosition e (fs.map Prod.fst) :=
  (C116_exact hc (plain_usable hc hp).loads hd (hp.fields _ _ hd).proto).2 ho e hc

end

/-- C116 is false: in one of the two runs, `new S(a, n)` stores `a` in the field `n`. -/
theorem C116_false : ¬ C116_claim := by
  intro h
  have hd : Node.decl "S".toList (.struct [("a".toList, ⟨"A".toList, false, false⟩), ("n".toList, ⟨"uint8".toList, false, false⟩)]) ∈
      reorderAst := List.mem_cons_of_mem _ (List.mem_cons_of_mem _ List.mem_cons_self)
  have h1 := h reorderAst runOne _ runOne_compiled reorder_plain hd
  have h2 := (byPosition_iff runOne_compiled (plain_usable runOne_compiled reorder_plain).loads (by decide) (by rfl)).1 h1
  revert h2
  decide

/-- Fields in the order of the schema: `new S(n, a, b, d)`. -/
example : ∃ (ast : AST) (e : Artifact) (fs : List (Str × Unresolved)), Compiled ast e ∧ PlainSchema ast ∧
    .decl e.name (.struct fs) ∈ ast ∧ InOrder ast fs ∧ fs.length = 4 := by
  have hc := compiled_of (ord := id) ordered_parses (fun _ => .refl _) rfl rfl
  have hd := List.mem_cons_of_mem (Node.decl "E".toList (.struct [("x".toList, ⟨"uint8".toList, false, false⟩)]))
    (List.mem_cons_of_mem (Node.decl "A".toList (.struct [("e".toList, ⟨"E".toList, false, false⟩)]))
      (List.mem_cons_of_mem (Node.decl "D".toList (.struct [("a".toList, ⟨"A".toList, false, false⟩)]))
        (List.mem_cons_self (a := Node.decl "S".toList (.struct [("n".toList, ⟨"uint8".toList, false, false⟩),
          ("a".toList, ⟨"A".toList, false, false⟩), ("b".toList, ⟨"A".toList, true, false⟩), ("d".toList, ⟨"D".toList, false, false⟩)]))
          (l := [.export "S".toList]))))
  exact ⟨orderedAst, _, _, hc, plain_of (by decide), hd, ordered_inOrder _ _ (export_name hc).2.2.1 (mem_decls.2 hd), rfl⟩

/-! ## C117: packets that were read are instances of the class -/

/-- C117, full statement: what `C.read(data)` returns, if not `null`, is an instance of `C`. -/
def C117_claim : Prop := ∀ (rt : Runtime) (ast : AST) (e : Artifact), Compiled ast e → PlainSchema ast →
  ∀ data heap fuel v st, 2 ^ 32 ≤ fuel → readText rt fuel e.code heap data = .returns v st → v ≠ .null →
    isInstance st.heap v = true

section
variable {ast : AST} {e : Artifact} (rt : Runtime)

/-- C117 is false for every schema, library and accepted packet: `Object.create(C)` makes an object whose prototype is the
class, not `C.prototype`. The call `packet.write()` throws a TypeError. -/
theorem C117_false_always (hc : Compiled ast e) (hu : Usable e) {data heap fuel v st} (hfuel : 2 ^ 32 ≤ fuel)
    (h : readText rt fuel e.code heap data = .returns v st) (hv : v ≠ .null) :
    isInstance st.heap v = false ∧ ∀ buffer, callWrite rt fuel e.code st.heap v buffer = .throws .typeError := by
  obtain ⟨st', ext, h1, -, -, ⟨props, h4, -⟩, -⟩ := read_eq rt hc hu hfuel heap data
  rw [h1] at h
  injection h with ha hb
  subst hb
  rw [← ha] at hv ⊢
  split at hv
  · exact absurd rfl hv
  · rename_i hnf
    rw [if_neg hnf]
    refine ⟨?_, fun buffer => ?_⟩
    · unfold isInstance
      simp only [h4]
    · unfold callWrite
      simp only [h4]
      split_ifs with h5 h6
      · rfl
      · cases h6
      · rfl

/-- C117, what holds: a packet that was read can be made an instance, `new C(packet.a, packet.b, ...)`, which holds the same
packet and can be sent; what is sent is the encoding of the packet. What is missing: the packet itself is no instance. -/
theorem C117_copy_partial (hc : Compiled ast e) (hu : Usable e) {data : List UInt8} {ps} (hps : Shaped e.fields ps)
    (h : Reads rt e data ps) {heap fuel} (hfuel : 2 ^ 32 ≤ fuel) :
    ∃ v st args, readText rt fuel e.code heap data = .returns v st ∧
      List.Forall₂ (fun (f : FieldOf RType) a => st.getProp v f.name = .ok a) e.fields args ∧
      ∃ w o, newText e.code st.heap args = .returns w (st.heap ++ [o]) ∧ isInstance (st.heap ++ [o]) w = true ∧
        Rep (st.heap ++ [o]) (.obj ps) w ∧ Sends rt e (st.heap ++ [o]) w (encodeFields rt e.fields ps) := by
  obtain ⟨v, st, ext, h1, -, h3⟩ := h heap fuel hfuel
  obtain ⟨i, pr, props, rfl, -, h4, h5⟩ := rep_of_from h3
  rw [repProps_iff] at h5
  have hargs : ∀ (qs : List (PropOf JVal)) (fs : List (FieldOf RType)), qs.map PropOf.name = fs.map FieldOf.name →
      (∀ p ∈ qs, ∃ w, (Obj.obj pr props).get p.name = .ok w ∧ Rep st.heap p.value w) →
      ∃ args : List Val, List.Forall₂ (fun (f : FieldOf RType) a => (Obj.obj pr props).get f.name = .ok a) fs args ∧ ArgsHold st.heap qs args := by
    intro qs
    induction qs with
    | nil =>
      intro fs hn _
      cases fs with
      | nil => exact ⟨[], .nil, fun i p hi => by simp at hi⟩
      | cons f fs => cases hn
    | cons q qs ih =>
      intro fs hn hq
      cases fs with
      | nil => cases hn
      | cons f fs =>
        rw [List.map_cons, List.map_cons] at hn
        injection hn with hn1 hn2
        obtain ⟨w, hw1, hw2⟩ := hq q List.mem_cons_self
        obtain ⟨args, h6, h7⟩ := ih fs hn2 fun p hp => hq p (List.mem_cons_of_mem _ hp)
        refine ⟨w :: args, .cons (hn1 ▸ hw1) h6, fun i p hi => ?_⟩
        cases i with
        | zero =>
          simp only [List.getElem?_cons_zero, Option.some.injEq] at hi
          subst hi
          exact hw2
        | succ i => exact h7 i p hi
  obtain ⟨args, h6, h7⟩ := hargs ps e.fields (shaped_names _ _ hps) h5
  refine ⟨.ref i, st, args, h1, h6.imp fun f a hfa => ?_, ?_⟩
  · show (State.deref st (.ref i)).bind _ = _
    unfold State.deref
    simp only [h4]
    exact hfa
  · obtain ⟨props', k1, k2, -, k3⟩ := new_ok hc hu.loads (usable_proto hu) st.heap args
    have hrep : Rep (st.heap ++ [.obj .inst props']) (.obj ps) (.ref st.heap.length) := rep_props fun p hpm => by
      obtain ⟨j, hj⟩ := List.getElem?_of_mem hpm
      exact ⟨_, k2 j p.name (shaped_get hps hj), h7 j p hj⟩
    refine ⟨_, _, k1, ?_, hrep, sends_of rt hc hu.loads hps (by simp) k3 hrep⟩
    unfold isInstance
    simp

end

theorem C117_false : ¬ C117_claim := by
  intro h
  obtain ⟨e, h1, h2, h3⟩ := example_compiled
  have hu := plain_usable h1 example_plain
  obtain ⟨b, -, h4⟩ := C31_read_inverts_write_partial leUtf8 h1 hu example_small (example_typed e h3)
  obtain ⟨v, st, ext, h5, -, h6⟩ := h4 [] (2 ^ 32) (Nat.le_refl _)
  have hv : v ≠ .null := by
    rintro rfl
    obtain ⟨i, pr, props, h7, -⟩ := h6
    cases h7
  have h7 := h leUtf8 exampleAst e h1 example_plain b [] _ v st (Nat.le_refl _) h5 hv
  rw [(C117_false_always leUtf8 h1 hu (Nat.le_refl _) h5 hv).1] at h7
  cases h7

/-- A packet that is read. -/
example : ∃ (ast : AST) (e : Artifact) (ps : List (PropOf JVal)) (data : List UInt8), Compiled ast e ∧ Usable e ∧
    Shaped e.fields ps ∧ Reads leUtf8 e data ps ∧ ps ≠ [] := by
  obtain ⟨e, h1, -, h3⟩ := example_compiled
  have hu := plain_usable h1 example_plain
  obtain ⟨b, -, h4⟩ := C31_read_inverts_write_partial leUtf8 h1 hu example_small (example_typed e h3)
  exact ⟨_, e, exampleValue, b, h1, hu, shaped_of h1 (example_typed e h3), h4, by decide⟩

end Packetc.Props
