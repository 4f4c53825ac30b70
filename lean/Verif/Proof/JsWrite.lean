import Verif.Proof.JsBase
import Verif.Spec.Declared
import Mathlib.Tactic.Set
/-!
# The generated `write` produces the wire format
-/

namespace Packetc.Js
open Check Gen

/-- Follow a chain of properties. -/
def walk (st : State) : Val → List Str → Except Throw Val
  | v, [] => .ok v
  | v, p :: ps => (st.getProp v p).bind fun w => walk st w ps

theorem walk_snoc (st : State) (v : Val) (ps : List Str) (p : Str) :
    walk st v (ps ++ [p]) = (walk st v ps).bind fun w => st.getProp w p := by
  induction ps generalizing v with
  | nil =>
    show (st.getProp v p).bind (fun w => walk st w []) = _
    show _ = st.getProp v p
    cases st.getProp v p <;> rfl
  | cons q qs ih =>
    show (st.getProp v q).bind (fun w => walk st w (qs ++ [p])) = ((st.getProp v q).bind fun w => walk st w qs).bind _
    cases st.getProp v q with
    | error e => rfl
    | ok w => exact ih w

theorem deref_congr {st st' : State} (hh : st'.heap = st.heap) (v : Val) : st'.deref v = st.deref v := by
  unfold State.deref; rw [hh]

theorem getProp_congr {st st' : State} (hh : st'.heap = st.heap) (hr : st'.rd = st.rd) (v : Val) (p : Str) :
    st'.getProp v p = st.getProp v p := by
  unfold State.getProp
  cases v <;> simp only [deref_congr hh, hr]

theorem walk_congr {st st' : State} (hh : st'.heap = st.heap) (hr : st'.rd = st.rd) (v : Val) (ps : List Str) :
    walk st' v ps = walk st v ps := by
  induction ps generalizing v with
  | nil => rfl
  | cons p ps ih =>
    show (st'.getProp v p).bind _ = (st.getProp v p).bind _
    rw [getProp_congr hh hr]
    cases st.getProp v p with
    | error e => rfl
    | ok w => exact ih w

theorem walk_of {st st' : State} {v w : Val} {ps : List Str} (hw : walk st v ps = .ok w)
    (hh : st'.heap = st.heap) (hr : st'.rd = st.rd) : walk st' v ps = .ok w := (walk_congr hh hr v ps).trans hw

theorem eval_prop {rt : Runtime} {cls : Str} {st st' : State} {e : Expr} {v w : Val} {p : Str}
    (he : eval rt cls e st = .ok (v, st')) (hp : st'.getProp v p = .ok w) :
    eval rt cls (.prop e p) st = .ok (w, st') := by
  show (eval rt cls e st).bind _ = _
  rw [he]
  simp only [ok_bind, hp]

theorem eval_path {rt : Runtime} {cls : Str} {st : State} {root : Str} {xs : List Str} {v0 v : Val}
    (h0 : lookup st.scopes root = some (some v0)) (hw : walk st v0 xs = .ok v) :
    eval rt cls (path (root :: xs)) st = .ok (v, st) := by
  induction xs using List.reverseRecOn generalizing v with
  | nil =>
    simp only [walk, Except.ok.injEq] at hw
    subst hw
    exact eval_var (getVar_of_lookup h0)
  | append_singleton ys y ih =>
    rw [walk_snoc] at hw
    cases hy : walk st v0 ys with
    | error e => rw [hy] at hw; exact absurd hw (by simp)
    | ok w =>
      rw [hy] at hw
      have : path (root :: (ys ++ [y])) = .prop (path (root :: ys)) y := path_snoc (root :: ys) y (by simp)
      rw [this]
      exact eval_prop (ih hy) hw

/-- `prog` writes the value found at its stack: appends `enc j`, changes nothing else but its own variables. -/
def WProg (rt : Runtime) (cls : Str) (fuel : Nat) (prog : List Str → List Stmt) (ok : JVal → Prop)
    (enc : JVal → List UInt8) : Prop :=
  ∀ (root : Str) (xs : List Str) (st : State) (sc : Scope) (scs : List Scope) (v0 v : Val) (j : JVal),
    "this".toList <+: root → st.scopes = sc :: scs →
    lookup st.scopes "writer".toList = some (some .writer) →
    lookup st.scopes root = some (some v0) → walk st v0 xs = .ok v → ok j → Rep st.heap j v →
    (∀ x ∈ letNames (prog (root :: xs)), sc.get x = some none) → (letNames (prog (root :: xs))).Nodup →
    stmtsOk (prog (root :: xs)) = true →
    ∃ sc' : Scope, execs rt cls fuel (prog (root :: xs)) st =
        .ok { st with scopes := sc' :: scs, wr := st.wr ++ enc j } ∧
      ∀ x, x ∉ letNames (prog (root :: xs)) → sc'.get x = sc.get x

/-- All variables declared by `prog` on a stack with a given root extend the root. -/
def NProg (prog : List Str → List Stmt) : Prop :=
  ∀ (root : Str) (xs : List Str), ∀ x ∈ letNames (prog (root :: xs)), (root ++ "_".toList) <+: x

theorem joinWith_cons_prefix (root y : Str) (ys : List Str) :
    (root ++ "_".toList) <+: joinWith "_".toList (root :: y :: ys) := by
  rw [joinWith]
  exact List.prefix_append _ _

theorem bindname_prefix (root : Str) (xs : List Str) (n : Str) :
    (root ++ "_".toList) <+: bindname (root :: (xs ++ [n])) := by
  unfold bindname
  cases xs with
  | nil => exact joinWith_cons_prefix root n []
  | cons y ys => exact joinWith_cons_prefix root y (ys ++ [n])

theorem varname_prefix (root : Str) (xs : List Str) (n : Str) :
    (root ++ "_".toList) <+: varname (root :: xs) n := by
  unfold varname
  cases xs with
  | nil =>
    simp only [joinWith]
    exact List.prefix_append _ _
  | cons y ys =>
    exact (joinWith_cons_prefix root y ys).trans (by rw [List.append_assoc]; exact List.prefix_append _ _)

theorem not_prefix_self {root : Str} : ¬ (root ++ "_".toList) <+: root := by
  intro h
  have := h.length_le
  rw [List.length_append] at this
  have h1 : "_".toList.length = 1 := by decide
  omega

theorem ne_of_prefix {root x : Str} (h : (root ++ "_".toList) <+: x) : x ≠ root := by
  intro e
  subst e
  exact not_prefix_self h

theorem this_ne_writer {x : Str} (h : "this".toList <+: x) : x ≠ "writer".toList := by
  intro e
  subst e
  revert h
  decide

theorem prefix_root {p root x : Str} (hr : p <+: root) (h : (root ++ "_".toList) <+: x) : p <+: x :=
  (hr.trans (List.prefix_append _ _)).trans h

theorem exec_writeNum {rt : Runtime} {cls : Str} {fuel : Nat} {st : State} {e : Expr} {n : Num} (s : Scalar)
    (h : lookup st.scopes "writer".toList = some (some .writer))
    (he : eval rt cls e st = .ok (.num n, st)) :
    exec rt cls fuel (.expr (writeCall s.name e)) st = .ok { st with wr := st.wr ++ rt.enc s n } := by
  rw [exec_expr, eval_writeCall s h he]; rfl

theorem builtinName_scalar {b : Builtin} {s : Scalar} (h : scalarOf b = some s) : builtinName b = s.name := by
  cases b <;> simp [scalarOf] at h <;> subst h <;> rfl

theorem reprName_scalar (r : EnumRepr) : reprName r = (reprScalar r).name := by cases r <;> rfl

section
variable {rt : Runtime} {cls : Str} {fuel : Nat} {S : Str → Prop} {N : Scalar → Num → Prop} {E : REnum → Num → Prop}

theorem wprog_builtin (b : Builtin) :
    WProg rt cls fuel (fun st => writeType st (builtinName b) (.builtin b)) (DeclaredT S N E (.builtin b))
      (encode rt (.builtin b)) := by
  intro root xs st sc scs v0 v j _ hsc hwr h0 hw hty hrep _ _ _
  have hpath := eval_path (rt := rt) (cls := cls) h0 hw
  cases hs : scalarOf b with
  | none =>
    have hb : b = .string := by cases b <;> first | rfl | simp [scalarOf] at hs
    subst hb
    simp only [DeclaredT, scalarOf] at hty
    obtain ⟨s, rfl, -⟩ := hty
    have hv : v = .str s := hrep
    subst hv
    refine ⟨sc, ?_, fun _ _ => rfl⟩
    show execs rt cls fuel
      [.expr (writeCall Scalar.uint32.name (.prop (path (root :: xs)) "length".toList)),
       .expr (writeCall "string".toList (path (root :: xs)))] st = _
    have hlen : eval rt cls (.prop (path (root :: xs)) "length".toList) st = .ok (.num (.int (utf16Length s)), st) :=
      eval_prop hpath rfl
    rw [execs_cons, exec_writeNum .uint32 hwr hlen]
    simp only [ok_bind]
    rw [execs_cons, exec_expr]
    have h0' : lookup ({ st with wr := st.wr ++ rt.enc .uint32 (.int (utf16Length s)) } : State).scopes root = some (some v0) := h0
    have hpath' := eval_path (rt := rt) (cls := cls) h0'
      (walk_of hw rfl rfl)
    have : eval rt cls (writeCall "string".toList (path (root :: xs)))
        { st with wr := st.wr ++ rt.enc .uint32 (.int (utf16Length s)) } =
        .ok (.undef, { st with wr := st.wr ++ rt.enc .uint32 (.int (utf16Length s)) ++ rt.encS s }) := by
      show (eval rt cls writer _).bind (fun r => (eval rt cls _ r.2).bind fun k =>
        callMethod1 rt r.1 ("write_".toList ++ "string".toList) k.1 k.2) = _
      rw [eval_var (v := .writer) (getVar_of_lookup (by exact hwr))]
      simp only [ok_bind, hpath']
      rfl
    rw [this]
    simp only [lift_ok, ok_bind, execs_nil, encode, scalarOf, List.append_assoc]
    rw [← hsc]
  | some s =>
    simp only [DeclaredT, hs] at hty
    obtain ⟨n, rfl, -⟩ := hty
    have hv : v = .num n := hrep
    subst hv
    refine ⟨sc, ?_, fun _ _ => rfl⟩
    have : writeType (root :: xs) (builtinName b) (.builtin b) = [.expr (writeCall s.name (path (root :: xs)))] := by
      rw [← builtinName_scalar hs]
      cases b <;> first | rfl | simp [scalarOf] at hs
    simp only [this]
    rw [execs_cons, exec_writeNum s hwr hpath]
    simp only [ok_bind, execs_nil, encode, hs]
    rw [← hsc]

theorem wprog_enum (e : REnum) (tn : Str) :
    WProg rt cls fuel (fun st => writeType st tn (.enum e)) (DeclaredT S N E (.enum e)) (encode rt (.enum e)) := by
  intro root xs st sc scs v0 v j _ hsc hwr h0 hw hty hrep _ _ _
  have hpath := eval_path (rt := rt) (cls := cls) h0 hw
  simp only [DeclaredT] at hty
  obtain ⟨n, rfl, -⟩ := hty
  have hv : v = .num n := hrep
  subst hv
  refine ⟨sc, ?_, fun _ _ => rfl⟩
  show execs rt cls fuel [.expr (writeCall (reprName e.repr) (.asNumber (path (root :: xs))))] st = _
  rw [reprName_scalar, execs_cons, exec_writeNum (n := n) _ hwr (by exact hpath)]
  simp only [ok_bind, execs_nil, encode]
  rw [← hsc]


theorem not_item_prefix_index (base : Str) {x : Str} (h : (base ++ "_".toList ++ "item".toList) <+: x) :
    x ≠ base ++ "_".toList ++ "index".toList := by
  intro e
  subst e
  rw [List.prefix_append_right_inj] at h
  revert h
  decide

theorem wprog_array {prog : List Str → List Stmt} {ok : JVal → Prop} {enc : JVal → List UInt8}
    (hp : WProg rt cls fuel prog ok enc) (hn : NProg prog) (hfuel : 2 ^ 32 ≤ fuel) :
    WProg rt cls fuel (wArr prog) (fun j => ∃ js, j = .arr js ∧ js.length < 2 ^ 32 ∧ ∀ x ∈ js, ok x)
      (fun j => match j with
        | .arr js => rt.enc .uint32 (.int js.length) ++ (js.map enc).flatten
        | _ => []) := by
  intro root xs st sc scs v0 v j hthis hsc hwr h0 hw hty hrep _ _ hok
  obtain ⟨js, rfl, hlen, hjs⟩ := hty
  obtain ⟨i, items, rfl, -, hi, hitems⟩ := hrep
  rw [repItems_iff] at hitems
  have hlen' : items.length = js.length := hitems.length_eq.symm
  set item := varname (root :: xs) "item".toList with hitem
  set index := varname (root :: xs) "index".toList with hindex
  have pitem : (root ++ "_".toList) <+: item := varname_prefix _ _ _
  have pindex : (root ++ "_".toList) <+: index := varname_prefix _ _ _
  set body : List Stmt := .letS item false (.index (path (root :: xs)) (.var index)) :: prog [item] with hbody
  have hln : letNames body = item :: letNames (prog [item]) := rfl
  have hnm : ∀ x ∈ letNames body, item <+: x := by
    intro x hx
    rw [hln, List.mem_cons] at hx
    rcases hx with rfl | hx
    · exact List.prefix_rfl
    · exact (List.prefix_append _ _).trans (hn item [] x hx)
  have hokb : (letNames body).Nodup ∧ stmtsOk (prog [item]) = true := by
    have : stmtsOk (wArr prog (root :: xs)) = true := hok
    have h2 : stmtsOk (wArr prog (root :: xs)) = (decide (letNames body).Nodup && stmtsOk body) := by
      show (true && ((decide (letNames body).Nodup && stmtsOk body) && true)) = _
      simp
    rw [h2, Bool.and_eq_true, decide_eq_true_eq] at this
    refine ⟨this.1, ?_⟩
    have h3 := this.2
    have h4 : stmtsOk body = (true && stmtsOk (prog [item])) := rfl
    rw [h4] at h3
    simpa using h3
  have hidx : ∀ x ∈ letNames body, x ≠ index := by
    intro x hx
    have := hnm x hx
    rw [hitem, varname] at this
    rw [hindex, varname]
    exact not_item_prefix_index _ this
  have hroot : ∀ x ∈ letNames body, x ≠ root := by
    intro x hx
    exact ne_of_prefix (pitem.trans (hnm x hx))
  have hwrn : ∀ x ∈ letNames body, x ≠ "writer".toList := by
    intro x hx
    exact this_ne_writer (prefix_root hthis (pitem.trans (hnm x hx)))
  -- the states during the loop
  let w0 := st.wr ++ rt.enc .uint32 (.int js.length)
  let S (k : Nat) : State :=
    { st with scopes := [(index, some (.num (.int k)))] :: sc :: scs, wr := w0 ++ ((js.take k).map enc).flatten }
  have hlook : ∀ k x, x ≠ index → lookup (S k).scopes x = lookup st.scopes x := by
    intro k x hx
    rw [hsc]
    apply lookup_cons_none
    simp only [Map.get]
    rw [if_neg (fun e => hx e.symm)]
  have hrooti : root ≠ index := (ne_of_prefix pindex).symm
  have hpathS : ∀ k, eval rt cls (path (root :: xs)) (S k) = .ok (.ref i, S k) := by
    intro k
    exact eval_path ((hlook k root hrooti).trans h0) (walk_of hw rfl rfl)
  have hlenv : ∀ st' : State, st'.heap = st.heap →
      st'.getProp (.ref i) "length".toList = .ok (.num (.int js.length)) := by
    intro st' hst'
    rw [getProp_ref (o := .arr items) (by rw [hst', hi])]
    unfold Obj.get
    simp [hlen']
  have hloop := forLoop_inv
    (cond := fun st => lift (eval rt cls (.lt (.var index) (.prop (path (root :: xs)) "length".toList)) st))
    (body := inScope (hoist body) (execs rt cls fuel body)) (inc := fun st => lift (increment cls index st))
    (fun k st' => st' = S k) js.length
    (by
      rintro k st' hk rfl
      show lift ((eval rt cls (.var index) (S k)).bind _) = _
      rw [eval_var (v := .num (.int k)) (getVar_of_lookup (lookup_cons_some (by simp [Map.get])))]
      simp only [ok_bind]
      rw [eval_prop (hpathS k) (hlenv _ rfl)]
      simp only [ok_bind, compareInts, lift_ok]
      congr 3
      simpa using hk)
    (by
      rintro st' rfl
      show lift ((eval rt cls (.var index) (S js.length)).bind _) = _
      rw [eval_var (v := .num (.int js.length)) (getVar_of_lookup (lookup_cons_some (by simp [Map.get])))]
      simp only [ok_bind]
      rw [eval_prop (hpathS js.length) (hlenv _ rfl)]
      simp only [ok_bind, compareInts, lift_ok]
      congr 3
      simp)
    (by
      rintro k st' hk rfl
      have hkj : k < js.length := hk
      have hki : k < items.length := by omega
      have hrepk : RepFrom st.heap 0 js[k] items[k] := List.forall₂_iff_get.1 hitems |>.2 k hkj hki
      -- inside the body
      let st1 : State := { S k with scopes := hoist body :: (S k).scopes }
      have hlook1 : ∀ x, x ∉ letNames body → lookup st1.scopes x = lookup (S k).scopes x := by
        intro x hx
        apply lookup_cons_none
        rw [hoist_get, if_neg hx]
      have hroot1 : root ∉ letNames body := fun h => hroot _ h rfl
      have hidx1 : index ∉ letNames body := fun h => hidx _ h rfl
      have hp1 : eval rt cls (path (root :: xs)) st1 = .ok (.ref i, st1) :=
        eval_path ((hlook1 root hroot1).trans ((hlook k root hrooti).trans h0))
          (walk_of hw rfl rfl)
      have hix : eval rt cls (.index (path (root :: xs)) (.var index)) st1 = .ok (items[k], st1) := by
        show (eval rt cls (path (root :: xs)) st1).bind _ = _
        rw [hp1]
        simp only [ok_bind]
        rw [eval_var (v := .num (.int k)) (getVar_of_lookup ((hlook1 index hidx1).trans (lookup_cons_some (by simp [Map.get]))))]
        simp only [ok_bind]
        have : st1.getIndex (.ref i) (.num (.int k)) = .ok items[k] := by
          rw [getIndex_ref (st := st1) (items := items) hi]
          simp [hki]
        rw [this]
        rfl
      let sc1 : Scope := (hoist body).insert item (some items[k])
      let st2 : State := { st1 with scopes := sc1 :: (S k).scopes }
      have hlet : exec rt cls fuel (.letS item false (.index (path (root :: xs)) (.var index))) st1 = .ok st2 := by
        rw [exec_let, hix]
        rfl
      have hget1 : ∀ x, sc1.get x = if item = x then some (some items[k]) else (hoist body).get x := by
        intro x
        simp only [sc1, Map.get_insert]
      have hlook2 : ∀ x, x ∉ letNames body → lookup st2.scopes x = lookup (S k).scopes x := by
        intro x hx
        apply lookup_cons_none
        rw [hget1, if_neg (fun e => hx (by rw [hln, ← e]; exact List.mem_cons_self)), hoist_get, if_neg hx]
      obtain ⟨hnd, hsk⟩ := hokb
      rw [hln, List.nodup_cons] at hnd
      obtain ⟨sc', hex, -⟩ := hp item [] st2 sc1 (S k).scopes items[k] items[k] js[k]
        (prefix_root hthis pitem) rfl
        (by
          rw [hlook2 _ (fun h => hwrn _ h rfl), hlook k _ (fun e => ?_)]
          · exact hwr
          · exact this_ne_writer (prefix_root hthis pindex) e.symm)
        (lookup_cons_some (by rw [hget1, if_pos rfl])) rfl (hjs _ (List.getElem_mem hkj)) hrepk
        (by
          intro x hx
          have hne : ¬ item = x := by rintro rfl; exact hnd.1 hx
          rw [hget1, if_neg hne, hoist_get, if_pos (by rw [hln]; exact List.mem_cons_of_mem _ hx)])
        hnd.2 hsk
      refine ⟨{ S k with wr := (S k).wr ++ enc js[k] }, S (k + 1), ?_, ?_, rfl⟩
      · refine inScope_ok (st' := { st2 with scopes := sc' :: (S k).scopes, wr := st2.wr ++ enc js[k] }) ?_
        show execs rt cls fuel body st1 = _
        rw [hbody, execs_cons, hlet]
        exact hex
      · unfold increment
        rw [getVar_of_lookup (v := .num (.int k)) (lookup_cons_some (by simp [Map.get]))]
        simp only [ok_bind]
        show lift ((assignVar ([(index, some (.num (.int k)))] :: sc :: scs) index (.num (.int (k + 1)))).bind _) = _
        unfold assignVar
        simp only [Map.get, if_true, ok_bind, insert_single, lift_ok]
        congr 1
        simp only [S, List.take_succ_eq_append_getElem hkj, List.map_append, List.flatten_append, List.append_assoc]
        simp)
  obtain ⟨st', hst', rfl⟩ := hloop fuel (S 0) 0 (by omega) (by omega) rfl
  refine ⟨sc, ?_, fun _ _ => rfl⟩
  show execs rt cls fuel [.expr (writeCall Scalar.uint32.name (.prop (path (root :: xs)) "length".toList)),
    .forS index (.prop (path (root :: xs)) "length".toList) body] st = _
  rw [execs_cons, exec_writeNum .uint32 hwr (eval_prop (eval_path h0 hw) (hlenv st rfl))]
  simp only [ok_bind]
  rw [execs_cons, exec_for]
  have hS0 : S 0 = { st with
      scopes := [(index, some (.num (.int 0)))] :: st.scopes, wr := st.wr ++ rt.enc .uint32 (.int js.length) } := by
    simp only [S, w0, List.take_zero, List.map_nil, List.flatten_nil, List.append_nil, hsc]
    rfl
  rw [hS0] at hst'
  rw [inScope_ok hst']
  simp only [ok_bind, execs_nil, S, w0, List.take_length, List.tail_cons, List.append_assoc]

/-- Encoding of an optional. -/
def encOpt (rt : Runtime) (enc : JVal → List UInt8) (j : JVal) : List UInt8 :=
  if j matches .undef then rt.enc .uint8 (.int 0) else rt.enc .uint8 (.int 1) ++ enc j

theorem encOpt_undef (rt : Runtime) (enc : JVal → List UInt8) : encOpt rt enc .undef = rt.enc .uint8 (.int 0) := rfl
theorem encOpt_def (rt : Runtime) (enc : JVal → List UInt8) {j : JVal} (h : j ≠ .undef) :
    encOpt rt enc j = rt.enc .uint8 (.int 1) ++ enc j := by
  cases j <;> first | rfl | exact absurd rfl h

theorem wprog_optional {prog : List Str → List Stmt} {ok : JVal → Prop} {enc : JVal → List UInt8}
    (hp : WProg rt cls fuel prog ok enc) (hn : NProg prog) (hok0 : ∀ j, ok j → j ≠ .undef)
    (root : Str) (xs : List Str) (n : Str) (st : State) (sc : Scope) (scs : List Scope) (v0 v : Val) (j : JVal)
    (hthis : "this".toList <+: root) (hsc : st.scopes = sc :: scs)
    (hwr : lookup st.scopes "writer".toList = some (some .writer))
    (h0 : lookup st.scopes root = some (some v0)) (hw : walk st v0 (xs ++ [n]) = .ok v)
    (hty : j = .undef ∨ ok j) (hrep : Rep st.heap j v) (hrepne : ok j → ∀ w, Rep st.heap j w → w ≠ .undef ∧ w ≠ .null)
    (hok : stmtsOk (wOpt prog (root :: (xs ++ [n]))) = true) :
    ∃ sc' : Scope, execs rt cls fuel (wOpt prog (root :: (xs ++ [n]))) st =
        .ok { st with scopes := sc' :: scs, wr := st.wr ++ encOpt rt enc j } ∧
      ∀ x, x ∉ letNames (wOpt prog (root :: (xs ++ [n]))) → sc'.get x = sc.get x := by
  set b := bindname (root :: (xs ++ [n])) with hb
  have pb : (root ++ "_".toList) <+: b := bindname_prefix _ _ _
  have hthisb : "this".toList <+: b := prefix_root hthis pb
  let sc1 : Scope := sc.insert b (some v)
  have hget1 : ∀ x, sc1.get x = if b = x then some (some v) else sc.get x := by
    intro x
    simp only [sc1, Map.get_insert]
  let st1 : State := { st with scopes := sc1 :: scs }
  have hlet : exec rt cls fuel (.letS b false (path (root :: (xs ++ [n])))) st = .ok st1 := by
    rw [exec_let, eval_path h0 hw]
    simp only [lift_ok, ok_bind, hsc]
    rfl
  have hwr1 : lookup st1.scopes "writer".toList = some (some .writer) := by
    rw [← hwr, hsc]
    apply lookup_congr
    rw [hget1, if_neg (this_ne_writer hthisb)]
  have hvar : eval rt cls (.var b) st1 = .ok (v, st1) :=
    eval_var (getVar_of_lookup (lookup_cons_some (by rw [hget1, if_pos rfl])))
  set dflt : List Stmt := .expr (writeCall "uint8".toList (.num 1)) :: prog [b] with hdflt
  have hframe : ∀ x, x ∉ letNames (wOpt prog (root :: (xs ++ [n]))) → sc1.get x = sc.get x := by
    intro x hx
    have : letNames (wOpt prog (root :: (xs ++ [n]))) = [b] := rfl
    rw [this, List.mem_singleton] at hx
    rw [hget1, if_neg (fun e => hx e.symm)]
  have hexecs : execs rt cls fuel (wOpt prog (root :: (xs ++ [n]))) st =
      exec rt cls fuel (.switchNullish (.var b) (writeCall "uint8".toList (.num 0)) dflt) st1 := by
    show execs rt cls fuel [.letS b false (path (root :: (xs ++ [n]))),
      .switchNullish (.var b) (writeCall "uint8".toList (.num 0)) dflt] st = _
    rw [execs_cons, hlet]
    simp only [ok_bind]
    rw [execs_cons]
    cases exec rt cls fuel (.switchNullish (.var b) (writeCall "uint8".toList (.num 0)) dflt) st1 <;> rfl
  rcases hty with rfl | hj
  · refine ⟨sc1, ?_, hframe⟩
    rw [hexecs, exec_switch, hvar]
    have h0w : eval rt cls (writeCall "uint8".toList (.num 0)) st1 =
        .ok (.undef, { st1 with wr := st1.wr ++ rt.enc .uint8 (.int 0) }) :=
      eval_writeCall .uint8 hwr1 rfl
    have hv : v = .undef ∨ v = .null := hrep
    rcases hv with rfl | rfl <;>
    · simp only [lift_ok, ok_bind, h0w]
      rfl
  · have hvv := hrepne hj v hrep
    have hbok : (letNames (prog [b])).Nodup ∧ stmtsOk (prog [b]) = true := by
      have h2 : stmtsOk (wOpt prog (root :: (xs ++ [n]))) =
          (decide (letNames (prog [b])).Nodup && stmtsOk (prog [b])) := by
        show (true && ((decide (letNames (prog [b])).Nodup && (true && stmtsOk (prog [b]))) && true)) = _
        simp
      rw [h2, Bool.and_eq_true, decide_eq_true_eq] at hok
      exact hok
    have hln : letNames dflt = letNames (prog [b]) := rfl
    have hnm : ∀ x ∈ letNames dflt, (b ++ "_".toList) <+: x := by
      intro x hx
      exact hn b [] x hx
    let st2 : State := { st1 with scopes := hoist dflt :: sc1 :: scs }
    have hlook2 : ∀ x, x ∉ letNames dflt → lookup st2.scopes x = lookup st1.scopes x := by
      intro x hx
      apply lookup_cons_none
      rw [hoist_get, if_neg hx]
    have hwr2 : lookup st2.scopes "writer".toList = some (some .writer) := by
      rw [hlook2 _ (fun h => this_ne_writer (prefix_root hthisb (hnm _ h)) rfl)]
      exact hwr1
    let st3 : State := { st2 with wr := st2.wr ++ rt.enc .uint8 (.int 1) }
    have h1 : exec rt cls fuel (.expr (writeCall "uint8".toList (.num 1))) st2 = .ok st3 :=
      exec_writeNum .uint8 hwr2 rfl
    obtain ⟨sc', hex, -⟩ := hp b [] st3 (hoist dflt) (sc1 :: scs) v v j hthisb rfl hwr2
      (by
        show lookup st2.scopes b = _
        rw [hlook2 _ (fun h => ne_of_prefix (hnm _ h) rfl)]
        exact lookup_cons_some (by rw [hget1, if_pos rfl])) rfl hj hrep
      (by
        intro x hx
        rw [hoist_get, hln, if_pos hx]) hbok.1 hbok.2
    refine ⟨sc1, ?_, hframe⟩
    rw [hexecs, exec_switch, hvar]
    have hin : inScope (hoist dflt) (execs rt cls fuel dflt) st1 =
        .ok { st1 with wr := st1.wr ++ rt.enc .uint8 (.int 1) ++ enc j } := by
      refine inScope_ok (st' := { st3 with scopes := sc' :: sc1 :: scs, wr := st3.wr ++ enc j }) ?_
      show execs rt cls fuel dflt st2 = _
      rw [hdflt, execs_cons, h1]
      exact hex
    rw [encOpt_def rt enc (hok0 j hj)]
    simp only [lift_ok, ok_bind]
    cases v <;> first
      | exact absurd rfl hvv.1
      | exact absurd rfl hvv.2
      | (simp only [hin, List.append_assoc, st1])

end

/-! ### Names -/

mutual
theorem nprog_fields : (fs : List (FieldOf RType)) → NProg (fun st => writeStruct st fs)
  | [] => fun root xs x hx => by simp [writeStruct, letNames] at hx
  | f :: fs => fun root xs x hx => by
    have : letNames (writeStruct (root :: xs) (f :: fs)) =
        letNames (writeField (root :: xs) f) ++ letNames (writeStruct (root :: xs) fs) := letNames_append _ _
    rw [this, List.mem_append] at hx
    rcases hx with hx | hx
    · exact nprog_field f root xs x hx
    · exact nprog_fields fs root xs x hx
theorem nprog_field : (f : FieldOf RType) → NProg (fun st => writeField st f)
  | ⟨n, tn, t, a, o⟩ => fun root xs x hx => by
    simp only [writeField_eq] at hx
    cases o with
    | true =>
      have : x ∈ [bindname (root :: (xs ++ [n]))] := hx
      rw [List.mem_singleton] at this
      subst this
      exact bindname_prefix _ _ _
    | false =>
      cases a with
      | true =>
        have : x ∈ ([] : List Str) := hx
        simp at this
      | false => exact nprog_type tn t root (xs ++ [n]) x hx
theorem nprog_type (tn : Str) : (t : RType) → NProg (fun st => writeType st tn t)
  | .builtin b => fun root xs x hx => by cases b <;> simp [writeType, letNames] at hx
  | .enum e => fun root xs x hx => by simp [writeType, letNames] at hx
  | .struct fs => nprog_fields fs
end

/-! ### Structs -/

theorem typedT_ne_undef {S : Str → Prop} {E : REnum → Num → Prop} {t : RType} {j : JVal} (h : TypedT S E t j) : j ≠ .undef := by
  rintro rfl
  cases t with
  | builtin b =>
    simp only [TypedT] at h
    split at h
    · obtain ⟨s, h, -⟩ := h; exact absurd h (by simp)
    · obtain ⟨s, h, -⟩ := h; exact absurd h (by simp)
  | enum e => obtain ⟨n, h, -⟩ := h; exact absurd h (by simp)
  | struct fs => obtain ⟨n, h, -⟩ := h; exact absurd h (by simp)

theorem rep_ne_nullish {heap : List Obj} {lo : Nat} {j : JVal} (hj : j ≠ .undef) {w : Val} (h : RepFrom heap lo j w) :
    w ≠ .undef ∧ w ≠ .null := by
  cases j with
  | undef => exact absurd rfl hj
  | num n => have : w = .num n := h; subst this; simp
  | str n => have : w = .str n := h; subst this; simp
  | arr js => obtain ⟨i, items, rfl, -⟩ := h; simp
  | obj ps => obtain ⟨i, pr, props, rfl, -⟩ := h; simp

/-- The value part of `HasField`, without the optional. -/
def okB (S : Str → Prop) (E : REnum → Num → Prop) (t : RType) (a : Bool) (j : JVal) : Prop :=
  if a then ∃ js, j = .arr js ∧ js.length < 2 ^ 32 ∧ ∀ x ∈ js, TypedT S E t x else TypedT S E t j

/-- The bytes of a field, without the optional. -/
def encB (rt : Runtime) (t : RType) (a : Bool) (j : JVal) : List UInt8 :=
  if a then
    match j with
    | .arr js => rt.enc .uint32 (.int js.length) ++ (js.map fun x => encode rt t x).flatten
    | _ => []
  else encode rt t j

theorem typedF_iff (S : Str → Prop) (E : REnum → Num → Prop) (f : FieldOf RType) (p : PropOf JVal) :
    TypedF S E f p ↔ p.name = f.name ∧ ((f.optional = true ∧ p.value = .undef) ∨ okB S E f.ty f.array p.value) := by
  obtain ⟨n, tn, t, a, o⟩ := f
  cases a <;> simp [TypedF, okB]

theorem encodeField_eq (rt : Runtime) (f : FieldOf RType) (j : JVal) :
    encodeField rt f j = if f.optional then encOpt rt (encB rt f.ty f.array) j else encB rt f.ty f.array j := by
  obtain ⟨n, tn, t, a, o⟩ := f
  cases o with
  | true => cases a <;> cases j <;> rfl
  | false => cases a <;> cases j <;> rfl

theorem okB_ne_undef {S : Str → Prop} {E : REnum → Num → Prop} {t : RType} {a : Bool} {j : JVal} (h : okB S E t a j) : j ≠ .undef := by
  unfold okB at h
  split at h
  · obtain ⟨js, rfl, -⟩ := h; simp
  · exact typedT_ne_undef h

/-! ### values of the declared types -/

theorem declaredT_ne_undef {S : Str → Prop} {N : Scalar → Num → Prop} {E : REnum → Num → Prop} {t : RType} {j : JVal} (h : DeclaredT S N E t j) : j ≠ .undef := by
  rintro rfl
  cases t with
  | builtin b =>
    simp only [DeclaredT] at h
    split at h
    · obtain ⟨s, h, -⟩ := h; exact absurd h (by simp)
    · obtain ⟨s, h, -⟩ := h; exact absurd h (by simp)
  | enum e => obtain ⟨n, h, -⟩ := h; exact absurd h (by simp)
  | struct fs => obtain ⟨n, h, -⟩ := h; exact absurd h (by simp)

/-- The value part of `DeclaredF`, without the optional. -/
def okD (S : Str → Prop) (N : Scalar → Num → Prop) (E : REnum → Num → Prop) (t : RType) (a : Bool) (j : JVal) : Prop :=
  if a then ∃ js, j = .arr js ∧ js.length < 2 ^ 32 ∧ ∀ x ∈ js, DeclaredT S N E t x else DeclaredT S N E t j

theorem declaredF_iff (S : Str → Prop) (N : Scalar → Num → Prop) (E : REnum → Num → Prop) (f : FieldOf RType) (p : PropOf JVal) :
    DeclaredF S N E f p ↔ p.name = f.name ∧ ((f.optional = true ∧ p.value = .undef) ∨ okD S N E f.ty f.array p.value) := by
  obtain ⟨n, tn, t, a, o⟩ := f
  cases a <;> simp [DeclaredF, okD]

theorem okD_ne_undef {S : Str → Prop} {N : Scalar → Num → Prop} {E : REnum → Num → Prop} {t : RType} {a : Bool} {j : JVal} (h : okD S N E t a j) : j ≠ .undef := by
  unfold okD at h
  split at h
  · obtain ⟨js, rfl, -⟩ := h; simp
  · exact declaredT_ne_undef h

theorem okB_declared {S : Str → Prop} {E : REnum → Num → Prop} {t : RType} (ih : ∀ j, TypedT S E t j → DeclaredT S Scalar.Ok E t j) {a : Bool}
    {j : JVal} (h : okB S E t a j) : okD S Scalar.Ok E t a j := by
  unfold okB at h
  unfold okD
  split_ifs at h ⊢
  · obtain ⟨js, h1, h2, h3⟩ := h
    exact ⟨js, h1, h2, fun x hx => ih x (h3 x hx)⟩
  · exact ih j h

mutual
/-- Values of a type are values of the declared type. -/
theorem typedT_declared {S : Str → Prop} {E : REnum → Num → Prop} : (t : RType) → (j : JVal) → TypedT S E t j → DeclaredT S Scalar.Ok E t j
  | .builtin b, j, h => by
    unfold TypedT at h
    unfold DeclaredT
    cases hs : scalarOf b with
    | none => rw [hs] at h; exact h
    | some sc => rw [hs] at h; exact h
  | .enum e, j, h => h
  | .struct fs, j, h => by obtain ⟨ps, h, h'⟩ := h; exact ⟨ps, h, typedFs_declared fs ps h'⟩
theorem typedFs_declared {S : Str → Prop} {E : REnum → Num → Prop} : (fs : List (FieldOf RType)) → (ps : List (PropOf JVal)) →
    TypedFs S E fs ps → DeclaredFs S Scalar.Ok E fs ps
  | [], _, h => h
  | f :: fs, ps, h => by
    obtain ⟨p, qs, h0, h1, h2⟩ := h
    refine ⟨p, qs, h0, ?_, typedFs_declared fs qs h2⟩
    rw [typedF_iff] at h1
    rw [declaredF_iff]
    exact ⟨h1.1, h1.2.imp_right (okB_declared (typedFt_declared f))⟩
theorem typedFt_declared {S : Str → Prop} {E : REnum → Num → Prop} : (f : FieldOf RType) → (j : JVal) → TypedT S E f.ty j →
    DeclaredT S Scalar.Ok E f.ty j
  | ⟨_, _, t, _, _⟩, j, h => typedT_declared t j h
end

section
variable {rt : Runtime} {cls : Str} {fuel : Nat} {S : Str → Prop} {N : Scalar → Num → Prop} {E : REnum → Num → Prop}

/-- The program for a field without the optional. -/
def progB (tn : Str) (t : RType) (a : Bool) (st : List Str) : List Stmt :=
  if a then wArr (fun st => writeType st tn t) st else writeType st tn t

theorem wprog_body (hfuel : 2 ^ 32 ≤ fuel) (tn : Str) (t : RType) (a : Bool)
    (hp : WProg rt cls fuel (fun st => writeType st tn t) (DeclaredT S N E t) (encode rt t)) :
    WProg rt cls fuel (progB tn t a) (okD S N E t a) (encB rt t a) := by
  cases a with
  | false => exact hp
  | true => exact wprog_array hp (nprog_type tn t) hfuel

theorem nprog_body (tn : Str) (t : RType) (a : Bool) : NProg (progB tn t a) := by
  cases a with
  | false => exact nprog_type tn t
  | true =>
    intro root xs x hx
    have : x ∈ ([] : List Str) := hx
    simp at this

theorem writeField_body (stack : List Str) (f : FieldOf RType) :
    writeField stack f =
      if f.optional then wOpt (progB f.tyName f.ty f.array) (stack ++ [f.name])
      else progB f.tyName f.ty f.array (stack ++ [f.name]) := by
  rw [writeField_eq]
  obtain ⟨n, tn, t, a, o⟩ := f
  cases a <;> cases o <;> rfl

theorem wprog_field (hfuel : 2 ^ 32 ≤ fuel) (f : FieldOf RType)
    (hp : WProg rt cls fuel (fun st => writeType st f.tyName f.ty) (DeclaredT S N E f.ty) (encode rt f.ty))
    (root : Str) (xs : List Str) (st : State) (sc : Scope) (scs : List Scope) (v0 w : Val) (p : PropOf JVal)
    (hthis : "this".toList <+: root) (hsc : st.scopes = sc :: scs)
    (hwr : lookup st.scopes "writer".toList = some (some .writer))
    (h0 : lookup st.scopes root = some (some v0)) (hw : walk st v0 (xs ++ [f.name]) = .ok w)
    (hty : DeclaredF S N E f p) (hrep : Rep st.heap p.value w)
    (hfresh : ∀ x ∈ letNames (writeField (root :: xs) f), sc.get x = some none)
    (hnd : (letNames (writeField (root :: xs) f)).Nodup)
    (hok : stmtsOk (writeField (root :: xs) f) = true) :
    ∃ sc' : Scope, execs rt cls fuel (writeField (root :: xs) f) st =
        .ok { st with scopes := sc' :: scs, wr := st.wr ++ encodeField rt f p.value } ∧
      ∀ x, x ∉ letNames (writeField (root :: xs) f) → sc'.get x = sc.get x := by
  rw [declaredF_iff] at hty
  rw [encodeField_eq]
  have hb := wprog_body hfuel f.tyName f.ty f.array hp
  have hnb := nprog_body f.tyName f.ty f.array
  rw [writeField_body] at *
  cases ho : f.optional with
  | false =>
    rw [ho] at hfresh hnd hok hty
    simp only [Bool.false_eq_true, if_false, false_and, false_or] at *
    exact hb root (xs ++ [f.name]) st sc scs v0 w p.value hthis hsc hwr h0 hw hty.2 hrep hfresh hnd hok
  | true =>
    rw [ho] at hfresh hnd hok hty
    simp only [if_true, true_and] at *
    exact wprog_optional hb hnb (fun j h => okD_ne_undef h) root xs f.name st sc scs v0 w p.value hthis hsc hwr h0 hw
      hty.2 hrep (fun h w hw => rep_ne_nullish (okD_ne_undef h) hw) hok

theorem wprog_cons {f : FieldOf RType} {fs : List (FieldOf RType)} (hfuel : 2 ^ 32 ≤ fuel)
    (hp : WProg rt cls fuel (fun st => writeType st f.tyName f.ty) (DeclaredT S N E f.ty) (encode rt f.ty))
    (ih : WProg rt cls fuel (fun st => writeStruct st fs) (DeclaredT S N E (.struct fs)) (encode rt (.struct fs))) :
    WProg rt cls fuel (fun st => writeStruct st (f :: fs)) (DeclaredT S N E (.struct (f :: fs)))
      (encode rt (.struct (f :: fs))) := by
  intro root xs st sc scs v0 v j hthis hsc hwr h0 hw hty hrep hfresh hnd hok
  obtain ⟨ps, rfl, hps⟩ := hty
  obtain ⟨p, qs, rfl, hf, hfs⟩ := hps
  obtain ⟨i, pr, props, rfl, -, hi, hprops⟩ := hrep
  obtain ⟨hp1, hp2⟩ := hprops
  rw [repProp_iff] at hp1
  obtain ⟨w, hget, hrepw⟩ := hp1
  have hname : p.name = f.name := ((declaredF_iff S N E f p).1 hf).1
  have hln : letNames (writeStruct (root :: xs) (f :: fs)) =
      letNames (writeField (root :: xs) f) ++ letNames (writeStruct (root :: xs) fs) := letNames_append _ _
  simp only at hfresh hnd hok ⊢
  have hok' : stmtsOk (writeField (root :: xs) f) = true ∧ stmtsOk (writeStruct (root :: xs) fs) = true := by
    have : stmtsOk (writeStruct (root :: xs) (f :: fs)) =
      (stmtsOk (writeField (root :: xs) f) && stmtsOk (writeStruct (root :: xs) fs)) := stmtsOk_append _ _
    rw [this, Bool.and_eq_true] at hok
    exact hok
  rw [hln] at hfresh hnd ⊢
  rw [List.nodup_append] at hnd
  obtain ⟨nd1, nd2, nd3⟩ := hnd
  have hww : walk st v0 (xs ++ [f.name]) = .ok w := by
    rw [walk_snoc, hw]
    simp only [ok_bind]
    rw [getProp_ref hi, ← hname, hget]
  obtain ⟨sc1, hex1, hfr1⟩ := wprog_field hfuel f hp root xs st sc scs v0 w p hthis hsc hwr h0 hww hf hrepw
    (fun x hx => hfresh x (List.mem_append_left _ hx)) nd1 hok'.1
  have hn1 := nprog_field f root xs
  have hlk : ∀ x, x ∉ letNames (writeField (root :: xs) f) → lookup (sc1 :: scs) x = lookup st.scopes x := by
    intro x hx
    rw [hsc]
    exact lookup_congr (hfr1 x hx)
  let st1 : State := { st with scopes := sc1 :: scs, wr := st.wr ++ encodeField rt f p.value }
  obtain ⟨sc2, hex2, hfr2⟩ := ih root xs st1 sc1 scs v0 (.ref i) (.obj qs) hthis rfl
    ((hlk _ (fun h => this_ne_writer (prefix_root hthis (hn1 _ h)) rfl)).trans hwr)
    ((hlk _ (fun h => ne_of_prefix (hn1 _ h) rfl)).trans h0)
    (walk_of hw rfl rfl) ⟨qs, rfl, hfs⟩ ⟨i, pr, props, rfl, Nat.zero_le _, hi, hp2⟩
    (by
      intro x hx
      rw [hfr1 x (fun h => nd3 x h x hx rfl)]
      exact hfresh x (List.mem_append_right _ hx))
    nd2 hok'.2
  refine ⟨sc2, ?_, ?_⟩
  · show execs rt cls fuel (writeField (root :: xs) f ++ writeStruct (root :: xs) fs) st = _
    rw [execs_append, hex1]
    simp only [ok_bind]
    rw [hex2]
    simp only [st1, List.append_assoc]
    rfl
  · intro x hx
    rw [List.mem_append, not_or] at hx
    rw [hfr2 x hx.2, hfr1 x hx.1]

mutual
theorem wprog_fields (hfuel : 2 ^ 32 ≤ fuel) : (fs : List (FieldOf RType)) → SoundFs fs →
    WProg rt cls fuel (fun st => writeStruct st fs) (DeclaredT S N E (.struct fs)) (encode rt (.struct fs))
  | [], _ => by
    intro root xs st sc scs v0 v j _ hsc _ _ _ hty _ _ _ _
    obtain ⟨ps, rfl, hps⟩ := hty
    have : ps = [] := hps
    subst this
    refine ⟨sc, ?_, fun _ _ => rfl⟩
    show Except.ok st = _
    rw [← hsc]
    simp [encode, encodeFields]
  | f :: fs, h => wprog_cons hfuel (wprog_ftype hfuel f h.1) (wprog_fields hfuel fs h.2)
theorem wprog_ftype (hfuel : 2 ^ 32 ≤ fuel) : (f : FieldOf RType) → SoundF f →
    WProg rt cls fuel (fun st => writeType st f.tyName f.ty) (DeclaredT S N E f.ty) (encode rt f.ty)
  | ⟨_, tn, t, _, _⟩, h => wprog_type hfuel tn t h.1 h.2
theorem wprog_type (hfuel : 2 ^ 32 ≤ fuel) (tn : Str) : (t : RType) → (∀ b, t = .builtin b → tn = builtinName b) →
    SoundT t → WProg rt cls fuel (fun st => writeType st tn t) (DeclaredT S N E t) (encode rt t)
  | .builtin b, h, _ => by
    rw [h b rfl]
    exact wprog_builtin b
  | .enum e, _, _ => wprog_enum e tn
  | .struct fs, _, h => wprog_fields hfuel fs h
end

end

end Packetc.Js
