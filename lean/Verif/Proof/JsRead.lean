import Verif.Proof.JsDecode
import Verif.Proof.JsWrite
/-!
# The generated `read` computes `rdFields`
-/

namespace Packetc.Js
open Check Gen

/-! ### Representation: frame and extension -/

mutual
theorem repFrom_mono {h h' : List Obj} {lo lo' : Nat} (hle : lo' ≤ lo)
    (hag : ∀ k o, lo ≤ k → h[k]? = some o → h'[k]? = some o) : (j : JVal) → (v : Val) →
    RepFrom h lo j v → RepFrom h' lo' j v
  | .undef, _, hr => hr
  | .num _, _, hr => hr
  | .str _, _, hr => hr
  | .arr js, v, hr => by
    obtain ⟨i, items, rfl, hi, hg, hit⟩ := hr
    exact ⟨i, items, rfl, by omega, hag i _ hi hg, repItems_mono hle hag js items hit⟩
  | .obj ps, v, hr => by
    obtain ⟨i, pr, props, rfl, hi, hg, hit⟩ := hr
    exact ⟨i, pr, props, rfl, by omega, hag i _ hi hg, repProps_mono hle hag ps _ hit⟩
theorem repItems_mono {h h' : List Obj} {lo lo' : Nat} (hle : lo' ≤ lo)
    (hag : ∀ k o, lo ≤ k → h[k]? = some o → h'[k]? = some o) : (js : List JVal) → (vs : List Val) →
    RepItems h lo js vs → RepItems h' lo' js vs
  | [], _, hr => hr
  | j :: js, vs, hr => by
    obtain ⟨w, ws, rfl, h1, h2⟩ := hr
    exact ⟨w, ws, rfl, repFrom_mono hle hag j w h1, repItems_mono hle hag js ws h2⟩
theorem repProps_mono {h h' : List Obj} {lo lo' : Nat} (hle : lo' ≤ lo)
    (hag : ∀ k o, lo ≤ k → h[k]? = some o → h'[k]? = some o) : (ps : List (PropOf JVal)) → (o : Obj) →
    RepProps h lo ps o → RepProps h' lo' ps o
  | [], _, _ => trivial
  | p :: ps, o, hr => ⟨repProp_mono hle hag p o hr.1, repProps_mono hle hag ps o hr.2⟩
theorem repProp_mono {h h' : List Obj} {lo lo' : Nat} (hle : lo' ≤ lo)
    (hag : ∀ k o, lo ≤ k → h[k]? = some o → h'[k]? = some o) : (p : PropOf JVal) → (o : Obj) →
    RepProp h lo p o → RepProp h' lo' p o
  | ⟨n, j⟩, o, hr => by
    obtain ⟨w, hw, h1⟩ := hr
    exact ⟨w, hw, repFrom_mono hle hag j w h1⟩
end

/-- `props'` is `props` after assigning representations of the components `ps` in order. -/
def RepIns (h : List Obj) (lo : Nat) : List (PropOf JVal) → Map Val → Map Val → Prop
  | [], props, props' => props' = props
  | p :: ps, props, props' => ∃ v, RepFrom h lo p.value v ∧ RepIns h lo ps (props.insert p.name v) props'

theorem repIns_mono {h h' : List Obj} {lo lo' : Nat} (hle : lo' ≤ lo)
    (hag : ∀ k o, lo ≤ k → h[k]? = some o → h'[k]? = some o) {ps : List (PropOf JVal)} {props props' : Map Val}
    (hr : RepIns h lo ps props props') : RepIns h' lo' ps props props' := by
  induction ps generalizing props with
  | nil => exact hr
  | cons p ps ih =>
    obtain ⟨v, h1, h2⟩ := hr
    exact ⟨v, repFrom_mono hle hag _ _ h1, ih h2⟩

theorem repIns_append {h : List Obj} {lo : Nat} {ps qs : List (PropOf JVal)} {a b c : Map Val}
    (h1 : RepIns h lo ps a b) (h2 : RepIns h lo qs b c) : RepIns h lo (ps ++ qs) a c := by
  induction ps generalizing a with
  | nil =>
    have : b = a := h1
    subst this
    exact h2
  | cons p ps ih =>
    obtain ⟨v, h3, h4⟩ := h1
    exact ⟨v, h3, ih h4⟩

theorem repIns_get_other {h : List Obj} {lo : Nat} {ps : List (PropOf JVal)} {a b : Map Val}
    (h1 : RepIns h lo ps a b) {n : Str} (hn : n ∉ ps.map (·.name)) : b.get n = a.get n := by
  induction ps generalizing a with
  | nil =>
    have : b = a := h1
    rw [this]
  | cons p ps ih =>
    obtain ⟨v, h3, h4⟩ := h1
    simp only [List.map_cons, List.mem_cons, not_or] at hn
    rw [ih h4 hn.2, Map.get_insert, if_neg (fun e => hn.1 e.symm)]

theorem repIns_get {h : List Obj} {lo : Nat} {ps : List (PropOf JVal)} {a b : Map Val}
    (h1 : RepIns h lo ps a b) (hnd : (ps.map (·.name)).Nodup) :
    ∀ p ∈ ps, ∃ w, b.get p.name = some w ∧ RepFrom h lo p.value w := by
  induction ps generalizing a with
  | nil => simp
  | cons p ps ih =>
    obtain ⟨v, h3, h4⟩ := h1
    simp only [List.map_cons, List.nodup_cons] at hnd
    intro q hq
    rw [List.mem_cons] at hq
    rcases hq with rfl | hq
    · exact ⟨v, by rw [repIns_get_other h4 hnd.1, Map.get_insert, if_pos rfl], h3⟩
    · exact ih h4 hnd.2 q hq

theorem obj_get_some {pr : Proto} {props : Map Val} {n : Str} {w : Val} (h : props.get n = some w) :
    (Obj.obj pr props).get n = .ok w := by
  unfold Obj.get
  simp only [h]

theorem repIns_props {h : List Obj} {lo : Nat} {ps : List (PropOf JVal)} {a b : Map Val}
    (h1 : RepIns h lo ps a b) (hnd : (ps.map (·.name)).Nodup) (pr : Proto) : RepProps h lo ps (.obj pr b) := by
  rw [repProps_iff]
  intro p hp
  obtain ⟨w, h2, h3⟩ := repIns_get h1 hnd p hp
  exact ⟨w, obj_get_some h2, h3⟩

/-! ### Environment -/

/-- The bindings used by `read`. -/
structure REnv (scs : List Scope) : Prop where
  reader : lookup scs "reader".toList = some (some .reader)
  array : lookup scs "Array".toList = none

theorem REnv.mono {s s' : List Scope} (h : REnv s) (he : ∀ x, ¬ "output".toList <+: x → lookup s' x = lookup s x) :
    REnv s' where
  reader := by rw [he _ (by decide)]; exact h.reader
  array := by rw [he _ (by decide)]; exact h.array

/-- A property of this name can be set. -/
def SetOk (pr : Proto) (n : Str) : Prop :=
  n ≠ "__proto__".toList ∧ ¬ (pr = .cls ∧ (n ∈ readOnlyNames ∨ n ∈ poisonedNames))

theorem set_ok {pr : Proto} {n : Str} (h : SetOk pr n) (props : Map Val) (v : Val) :
    (Obj.obj pr props).set n v = .ok (.obj pr (props.insert n v)) := by
  unfold Obj.set
  by_cases h1 : props.has n = true
  · simp only [h1, if_true]
  · simp only [h1, if_neg h.1, if_neg h.2]
    rfl

theorem setProp_ref {st : State} {i : Nat} {pr : Proto} {props : Map Val} {n : Str} {v : Val}
    (h : st.heap[i]? = some (.obj pr props)) (hn : SetOk pr n) :
    st.setProp (.ref i) n v = .ok { st with heap := st.heap.set i (.obj pr (props.insert n v)) } := by
  show (st.deref (.ref i)).bind _ = _
  rw [deref_ref h]
  simp only [ok_bind, set_ok hn]

/-- `root.n = r` -/
theorem assign_prop {rt : Runtime} {cls : Str} {st st' : State} {root n : Str} {r : Expr} {i : Nat} {pr : Proto}
    {props : Map Val} {v : Val} (h0 : lookup st.scopes root = some (some (.ref i)))
    (hr : eval rt cls r st = .ok (v, st')) (h : st'.heap[i]? = some (.obj pr props)) (hn : SetOk pr n) :
    evalAssign rt cls (path [root, n]) r st =
      .ok { st' with heap := st'.heap.set i (.obj pr (props.insert n v)) } := by
  show (eval rt cls (.var root) st).bind (fun o => (eval rt cls r o.2).bind fun v => v.2.setProp o.1 n v.1) = _
  rw [eval_var (getVar_of_lookup h0)]
  simp only [ok_bind, hr]
  exact setProp_ref h hn

/-- `x = r` for a variable of the innermost scope. -/
theorem assign_var {rt : Runtime} {cls : Str} {st st' : State} {x : Str} {r : Expr} {v w : Val} {sc : Scope}
    {scs : List Scope} (hr : eval rt cls r st = .ok (v, st')) (hsc : st'.scopes = sc :: scs)
    (hx : sc.get x = some (some w)) :
    evalAssign rt cls (path [x]) r st = .ok { st' with scopes := sc.insert x (some v) :: scs } := by
  show (eval rt cls r st).bind (fun v => (assignVar v.2.scopes x v.1).bind fun scs => .ok { v.2 with scopes := scs }) = _
  rw [hr]
  simp only [ok_bind, hsc, assignVar, hx]

/-- `let x = e` -/
theorem exec_let_ok {rt : Runtime} {cls : Str} {fuel : Nat} {st st' : State} {x : Str} {any : Bool} {e : Expr}
    {v : Val} {sc : Scope} {scs : List Scope} (he : eval rt cls e st = .ok (v, st')) (hsc : st'.scopes = sc :: scs) :
    exec rt cls fuel (.letS x any e) st = .ok { st' with scopes := sc.insert x (some v) :: scs } := by
  rw [exec_let, he]
  simp only [lift_ok, ok_bind, hsc, initLet]

theorem out_reader {x : Str} (h : "output".toList <+: x) : x ≠ "reader".toList := by
  rintro rfl
  revert h
  decide

theorem out_array {x : Str} (h : "output".toList <+: x) : x ≠ "Array".toList := by
  rintro rfl
  revert h
  decide

section
variable (rt : Runtime) (cls : Str) (fuel : Nat)

/-- `P root` reads components into the object that the variable `root` refers to. -/
def RStep (P : Str → List Stmt) (names : List Str) (rd : RState → List (PropOf JVal) × RState) : Prop :=
  ∀ (root : Str) (st : State) (sc : Scope) (scs : List Scope) (i : Nat) (pr : Proto) (props : Map Val),
    "output".toList <+: root → st.scopes = sc :: scs → REnv st.scopes →
    lookup st.scopes root = some (some (.ref i)) → st.heap[i]? = some (.obj pr props) →
    (∀ n ∈ names, SetOk pr n) → (∀ x ∈ letNames (P root), sc.get x = some none) → (letNames (P root)).Nodup →
    stmtsOk (P root) = true →
    ∃ (sc' : Scope) (ext : List Obj) (props' : Map Val),
      execs rt cls fuel (P root) st =
        .ok { st with heap := (st.heap ++ ext).set i (.obj pr props'), scopes := sc' :: scs, rd := (rd st.rd).2 } ∧
      (∀ x, x ∉ letNames (P root) → sc'.get x = sc.get x) ∧
      RepIns (st.heap ++ ext) st.heap.length (rd st.rd).1 props props'

/-- `P item` declares the variable `item` and reads a value into it. -/
def RItem (P : Str → List Stmt) (rd : RState → Option JVal × RState) : Prop :=
  ∀ (item : Str) (st : State) (sc : Scope) (scs : List Scope),
    "output".toList <+: item → st.scopes = sc :: scs → REnv st.scopes →
    (∀ x ∈ letNames (P item), sc.get x = some none) → (letNames (P item)).Nodup → stmtsOk (P item) = true →
    ∃ (sc' : Scope) (ext : List Obj) (v : Val),
      execs rt cls fuel (P item) st =
        .ok { st with heap := st.heap ++ ext, scopes := sc' :: scs, rd := (rd st.rd).2 } ∧
      (∀ x, x ∉ letNames (P item) → sc'.get x = sc.get x) ∧ sc'.get item = some (some v) ∧
      RepFrom (st.heap ++ ext) st.heap.length ((rd st.rd).1.getD .undef) v

end

section
variable {rt : Runtime} {cls : Str} {fuel : Nat}

/-- A builtin or an enum. -/
def IsLeaf : RType → Prop
  | .struct _ => False
  | _ => True

/-- Everything but the reader unchanged, up to the variables declared by `P`. -/
structure Near (st : State) (sc : Scope) (scs : List Scope) (names : List Str) (s : State) : Prop where
  heap : s.heap = st.heap
  wr : s.wr = st.wr
  scopes : ∃ sc1 : Scope, s.scopes = sc1 :: scs ∧ ∀ x, x ∉ names → sc1.get x = sc.get x

theorem Near.refl {st : State} {sc : Scope} {scs : List Scope} {names : List Str} (h : st.scopes = sc :: scs) :
    Near st sc scs names st := ⟨rfl, rfl, sc, h, fun _ _ => rfl⟩

/-- What a leaf program does, for any kind of target. -/
theorem leaf_exec (t : RType) (hl : IsLeaf t) (hb : ∀ b, t = .builtin b → tn = builtinName b) (init : Bool)
    (root : Str) (xs : List Str) (hout : "output".toList <+: root)
    (st : State) (sc : Scope) (scs : List Scope) (hsc : st.scopes = sc :: scs) (henv : REnv st.scopes)
    (upd : Val → State → State)
    (hassign : ∀ (r : Expr) (s s' : State) (v : Val), Near st sc scs (letNames (readType init (root :: xs) tn t)) s →
      Near st sc scs (letNames (readType init (root :: xs) tn t)) s' → eval rt cls r s = .ok (v, s') →
      evalAssign rt cls (path (root :: xs)) r s = .ok (upd v s')) :
    ∃ s1 : State, Near st sc scs (letNames (readType init (root :: xs) tn t)) s1 ∧ s1.rd = (rdType rt t st.rd).2 ∧
      ((∃ v j, (rdType rt t st.rd).1 = some j ∧ (∀ h lo, RepFrom h lo j v) ∧
          execs rt cls fuel (readType init (root :: xs) tn t) st = .ok (upd v s1)) ∨
        ((rdType rt t st.rd).1 = none ∧ execs rt cls fuel (readType init (root :: xs) tn t) st = .ok s1)) := by
  cases t with
  | struct fs => exact absurd hl (by simp [IsLeaf])
  | builtin b =>
    have htn := hb b rfl
    subst htn
    cases hs : scalarOf b with
    | some s =>
      have hprog : readType init (root :: xs) (builtinName b) (.builtin b) =
          [.assign (path (root :: xs)) (readCall s.name)] := by
        rw [← builtinName_scalar hs]
        cases b <;> first | rfl | simp [scalarOf] at hs
      rw [hprog] at hassign ⊢
      have hrd : rdType rt (.builtin b) st.rd = (some (.num (rt.readNum s st.rd).1), (rt.readNum s st.rd).2) := by
        simp only [rdType, hs]
      have hev := eval_readCall (rt := rt) (cls := cls) s henv.reader
      have hn : Near st sc scs (letNames [Stmt.assign (path (root :: xs)) (readCall s.name)])
          { st with rd := (rt.readNum s st.rd).2 } := ⟨rfl, rfl, sc, hsc, fun _ _ => rfl⟩
      refine ⟨_, hn, by rw [hrd], Or.inl ⟨.num (rt.readNum s st.rd).1, .num (rt.readNum s st.rd).1, by rw [hrd],
        fun _ _ => rfl, ?_⟩⟩
      rw [execs_cons, exec_assign, hassign _ _ _ _ (Near.refl hsc) hn hev]
      rfl
    | none =>
      have hbs : b = .string := by cases b <;> first | rfl | simp [scalarOf] at hs
      subst hbs
      set len := varname (root :: xs) "len".toList with hlen
      have plen : "output".toList <+: len := prefix_root hout (varname_prefix _ _ _)
      have hprog : readType init (root :: xs) (builtinName .string) (.builtin .string) =
          [.letS len false (readCall Scalar.uint32.name),
           .assign (path (root :: xs)) (.call1 reader "read_string".toList (.var len))] := rfl
      rw [hprog] at hassign ⊢
      have hln : letNames [Stmt.letS len false (readCall Scalar.uint32.name),
           .assign (path (root :: xs)) (.call1 reader "read_string".toList (.var len))] = [len] := rfl
      rw [hln] at hassign ⊢
      obtain ⟨k, hk, hkv⟩ := readNum_uint32 rt st.rd
      have hrd : rdType rt (.builtin .string) st.rd =
          (some (.str (rt.readStr k (rt.readNum .uint32 st.rd).2).1), (rt.readStr k (rt.readNum .uint32 st.rd).2).2) := by
        simp only [rdType, scalarOf, hkv, Num.toNat, Int.toNat_natCast]
      have hev := eval_readCall (rt := rt) (cls := cls) .uint32 henv.reader
      rw [hkv] at hev
      let sc1 : Scope := sc.insert len (some (.num (.int k)))
      let s1 : State := { st with rd := (rt.readNum .uint32 st.rd).2, scopes := sc1 :: scs }
      have hlet : exec rt cls fuel (.letS len false (readCall Scalar.uint32.name)) st = .ok s1 :=
        exec_let_ok hev hsc
      have hget1 : ∀ x, sc1.get x = if len = x then some (some (.num (.int k))) else sc.get x := by
        intro x
        simp only [sc1, Map.get_insert]
      have hfr : ∀ x, x ∉ [len] → sc1.get x = sc.get x := by
        intro x hx
        rw [List.mem_singleton] at hx
        rw [hget1, if_neg (fun e => hx e.symm)]
      have hn1 : Near st sc scs [len] s1 := ⟨rfl, rfl, sc1, rfl, hfr⟩
      let s2 : State := { s1 with rd := (rt.readStr k s1.rd).2 }
      have hn2 : Near st sc scs [len] s2 := ⟨rfl, rfl, sc1, rfl, hfr⟩
      have hrdr : lookup s1.scopes "reader".toList = some (some .reader) := by
        rw [← henv.reader, hsc]
        apply lookup_congr
        rw [hget1, if_neg (out_reader plen)]
      have hvar : eval rt cls (.var len) s1 = .ok (.num (.int k), s1) :=
        eval_var (getVar_of_lookup (lookup_cons_some (by rw [hget1, if_pos rfl])))
      have hstr : eval rt cls (.call1 reader "read_string".toList (.var len)) s1 =
          .ok (.str (rt.readStr k s1.rd).1, s2) := by
        show (eval rt cls reader s1).bind (fun r => (eval rt cls (.var len) r.2).bind fun a =>
          callMethod1 rt r.1 "read_string".toList a.1 a.2) = _
        rw [eval_var (getVar_of_lookup hrdr)]
        simp only [ok_bind, hvar]
        show (if "read_string".toList = "read_string".toList ∧ (0 : Int) ≤ k then
          Except.ok (Val.str (rt.readStr (k : Int).toNat s1.rd).1, { s1 with rd := (rt.readStr (k : Int).toNat s1.rd).2 })
          else Except.error Throw.unsupported) = _
        rw [if_pos ⟨rfl, by omega⟩, Int.toNat_natCast]
      refine ⟨s2, hn2, by rw [hrd], Or.inl ⟨.str (rt.readStr k s1.rd).1, .str (rt.readStr k s1.rd).1, by rw [hrd],
        fun _ _ => rfl, ?_⟩⟩
      rw [execs_cons, hlet]
      simp only [ok_bind]
      rw [execs_cons, exec_assign, hassign _ _ _ _ hn1 hn2 hstr]
      rfl
  | enum e =>
    set temp := varname (root :: xs) "temp".toList with htemp
    have ptemp : "output".toList <+: temp := prefix_root hout (varname_prefix _ _ _)
    set b := (enumBounds e.variants).getD (0, 0) with hbd
    have hprog : readType init (root :: xs) tn (.enum e) =
        [.letS temp false (readCall (reprScalar e.repr).name),
         .ifAssign (.and (.le (.num b.1) (.var temp)) (.le (.var temp) (.num b.2))) (path (root :: xs)) (.var temp)
           (.prop reader "failed".toList) .tru] := by
      rw [← reprName_scalar]; rfl
    rw [hprog] at hassign ⊢
    have hln : letNames [Stmt.letS temp false (readCall (reprScalar e.repr).name),
         .ifAssign (.and (.le (.num b.1) (.var temp)) (.le (.var temp) (.num b.2))) (path (root :: xs)) (.var temp)
           (.prop reader "failed".toList) .tru] = [temp] := rfl
    rw [hln] at hassign ⊢
    obtain ⟨k, hk, hkv⟩ := readNum_repr rt e.repr st.rd
    have hib : inBounds e (.int k) = (decide (b.1 ≤ (k : Int)) && decide ((k : Int) ≤ b.2)) := rfl
    have hev := eval_readCall (rt := rt) (cls := cls) (reprScalar e.repr) henv.reader
    rw [hkv] at hev
    let sc1 : Scope := sc.insert temp (some (.num (.int k)))
    let s1 : State := { st with rd := (rt.readNum (reprScalar e.repr) st.rd).2, scopes := sc1 :: scs }
    have hlet : exec rt cls fuel (.letS temp false (readCall (reprScalar e.repr).name)) st = .ok s1 :=
      exec_let_ok hev hsc
    have hget1 : ∀ x, sc1.get x = if temp = x then some (some (.num (.int k))) else sc.get x := by
      intro x
      simp only [sc1, Map.get_insert]
    have hfr : ∀ x, x ∉ [temp] → sc1.get x = sc.get x := by
      intro x hx
      rw [List.mem_singleton] at hx
      rw [hget1, if_neg (fun e => hx e.symm)]
    have hn1 : Near st sc scs [temp] s1 := ⟨rfl, rfl, sc1, rfl, hfr⟩
    have hrdr : lookup s1.scopes "reader".toList = some (some .reader) := by
      rw [← henv.reader, hsc]
      apply lookup_congr
      rw [hget1, if_neg (out_reader ptemp)]
    have hvar : eval rt cls (.var temp) s1 = .ok (.num (.int k), s1) :=
      eval_var (getVar_of_lookup (lookup_cons_some (by rw [hget1, if_pos rfl])))
    have hc1 : eval rt cls (.le (.num b.1) (.var temp)) s1 = .ok (.bool (decide (b.1 ≤ (k : Int))), s1) := by
      show (eval rt cls (.num b.1) s1).bind (fun x => (eval rt cls (.var temp) x.2).bind fun y =>
        (compareInts (fun i j => decide (i ≤ j)) x.1 y.1).bind fun v => .ok (v, y.2)) = _
      show (eval rt cls (.var temp) s1).bind _ = _
      rw [hvar]
      rfl
    have hc2 : eval rt cls (.le (.var temp) (.num b.2)) s1 = .ok (.bool (decide ((k : Int) ≤ b.2)), s1) := by
      show (eval rt cls (.var temp) s1).bind (fun x => (eval rt cls (.num b.2) x.2).bind fun y =>
        (compareInts (fun i j => decide (i ≤ j)) x.1 y.1).bind fun v => .ok (v, y.2)) = _
      rw [hvar]
      rfl
    have hc : eval rt cls (.and (.le (.num b.1) (.var temp)) (.le (.var temp) (.num b.2))) s1 =
        .ok (.bool (inBounds e (.int k)), s1) := by
      show (eval rt cls (.le (.num b.1) (.var temp)) s1).bind (fun x => if x.1.truthy then _ else .ok x) = _
      rw [hc1, hib]
      simp only [ok_bind, Val.truthy]
      by_cases hle : b.1 ≤ (k : Int)
      · simp only [hle, decide_true, if_true, Bool.true_and]
        exact hc2
      · simp only [hle, decide_false, Bool.false_and, Bool.false_eq_true, if_false]
    cases hin : inBounds e (.int k) with
    | true =>
      rw [hin] at hc
      have hrd : rdType rt (.enum e) st.rd = (some (.num (.int k)), (rt.readNum (reprScalar e.repr) st.rd).2) := by
        simp only [rdType, hkv, hin, if_true]
      refine ⟨s1, hn1, by rw [hrd], Or.inl ⟨.num (.int k), .num (.int k), by rw [hrd], fun _ _ => rfl, ?_⟩⟩
      rw [execs_cons, hlet]
      simp only [ok_bind]
      rw [execs_cons, exec_ifAssign, hc]
      simp only [lift_ok, ok_bind, Val.truthy, if_true]
      rw [hassign _ _ _ _ hn1 hn1 hvar]
      rfl
    | false =>
      rw [hin] at hc
      have hrd : rdType rt (.enum e) st.rd =
          (none, { (rt.readNum (reprScalar e.repr) st.rd).2 with failed := true }) := by
        simp only [rdType, hkv, hin, Bool.false_eq_true, if_false]
      let s2 : State := { s1 with rd := { s1.rd with failed := true } }
      refine ⟨s2, ⟨rfl, rfl, sc1, rfl, hfr⟩, by rw [hrd], Or.inr ⟨by rw [hrd], ?_⟩⟩
      rw [execs_cons, hlet]
      simp only [ok_bind]
      rw [execs_cons, exec_ifAssign, hc]
      simp only [lift_ok, ok_bind, Val.truthy, Bool.false_eq_true, if_false]
      have : evalAssign rt cls (.prop reader "failed".toList) .tru s1 = .ok s2 := by
        show (eval rt cls reader s1).bind (fun o => (eval rt cls .tru o.2).bind fun v => v.2.setProp o.1 "failed".toList v.1) = _
        rw [eval_var (getVar_of_lookup hrdr)]
        rfl
      rw [this]
      rfl

/-! ### Names -/

theorem bindname_two (root n : Str) : (root ++ "_".toList) <+: bindname [root, n] := bindname_prefix root [] n

mutual
theorem nread_fields : (fs : List (FieldOf RType)) → (root : Str) → ∀ x ∈ letNames (readFields [root] fs),
    (root ++ "_".toList) <+: x
  | [], root, x, hx => by simp [readFields, letNames] at hx
  | f :: fs, root, x, hx => by
    have : letNames (readFields [root] (f :: fs)) = letNames (readField [root] f) ++ letNames (readFields [root] fs) :=
      letNames_append _ _
    rw [this, List.mem_append] at hx
    rcases hx with hx | hx
    · exact nread_field f root x hx
    · exact nread_fields fs root x hx
theorem nread_field : (f : FieldOf RType) → (root : Str) → ∀ x ∈ letNames (readField [root] f),
    (root ++ "_".toList) <+: x
  | ⟨n, tn, t, a, o⟩, root, x, hx => by
    rw [readField_eq] at hx
    cases o with
    | true =>
      have : x ∈ ([] : List Str) := hx
      simp at this
    | false =>
      cases a with
      | true =>
        have : x ∈ [varname [root, n] "len".toList] := hx
        rw [List.mem_singleton] at this
        subst this
        exact varname_prefix _ _ _
      | false => exact nread_typeA n tn t root x hx
theorem nread_typeA (n tn : Str) : (t : RType) → (root : Str) → ∀ x ∈ letNames (readType true [root, n] tn t),
    (root ++ "_".toList) <+: x
  | .builtin b, root, x, hx => by
    have : x ∈ [varname [root, n] "len".toList] := by
      cases b <;> first | exact hx | (have h : x ∈ ([] : List Str) := hx; simp at h)
    rw [List.mem_singleton] at this
    subst this
    exact varname_prefix _ _ _
  | .enum e, root, x, hx => by
    have : x ∈ [varname [root, n] "temp".toList] := hx
    rw [List.mem_singleton] at this
    subst this
    exact varname_prefix _ _ _
  | .struct fs, root, x, hx => by
    have : x ∈ letNames ([.letS (bindname [root, n]) true .obj] ++ readFields [bindname [root, n]] fs ++
        [.assign (path [root, n]) (.var (bindname [root, n]))]) := hx
    rw [letNames_append, letNames_append] at this
    have h2 : x ∈ bindname [root, n] :: letNames (readFields [bindname [root, n]] fs) := by
      simpa [letNames] using this
    rw [List.mem_cons] at h2
    rcases h2 with rfl | h2
    · exact bindname_two _ _
    · exact (bindname_two _ _).trans ((List.prefix_append _ _).trans (nread_fields fs _ x h2))
end

theorem nread_typeB (tn : Str) (t : RType) (item : Str) : ∀ x ∈ letNames (readType false [item] tn t),
    (item ++ "_".toList) <+: x := by
  intro x hx
  cases t with
  | builtin b =>
    have : x ∈ [varname [item] "len".toList] := by
      cases b <;> first | exact hx | (have h : x ∈ ([] : List Str) := hx; simp at h)
    rw [List.mem_singleton] at this
    subst this
    exact varname_prefix _ _ _
  | enum e =>
    have : x ∈ [varname [item] "temp".toList] := hx
    rw [List.mem_singleton] at this
    subst this
    exact varname_prefix _ _ _
  | struct fs => exact nread_fields fs item x hx

/-! ### Leaves -/

theorem heap_set_self {h : List Obj} {i : Nat} {o : Obj} (hi : h[i]? = some o) : h.set i o = h := by
  apply List.ext_getElem?
  intro k
  rw [List.getElem?_set]
  by_cases e : i = k
  · subst e
    rw [if_pos rfl]
    have : i < h.length := by
      rcases Nat.lt_or_ge i h.length with hl | hl
      · exact hl
      · rw [List.getElem?_eq_none hl] at hi; cases hi
    rw [if_pos this, hi]
  · rw [if_neg e]

theorem rstep_leaf (n tn : Str) (t : RType) (hl : IsLeaf t) (hb : ∀ b, t = .builtin b → tn = builtinName b) :
    RStep rt cls fuel (fun root => readType true [root, n] tn t) [n]
      (fun r => (component n (rdType rt t r).1, (rdType rt t r).2)) := by
  intro root st sc scs i pr props hout hsc henv h0 hi hset hfresh hnd hok
  have hsetn : SetOk pr n := hset n List.mem_cons_self
  have hrootn : root ∉ letNames (readType true [root, n] tn t) := fun h => ne_of_prefix (nread_typeA n tn t root _ h) rfl
  obtain ⟨s1, ⟨hh, hw, sc1, hs1, hfr⟩, hrd, hcase⟩ := leaf_exec (rt := rt) (cls := cls) (fuel := fuel) t hl hb true root [n] hout st sc scs hsc henv
    (fun v s' => { s' with heap := s'.heap.set i (.obj pr (props.insert n v)) })
    (by
      rintro r s s' v ⟨hh, hw, sc1, hs1, hfr⟩ ⟨hh', -, -⟩ hev
      refine assign_prop ?_ hev (by rw [hh', hi]) hsetn
      rw [hs1, ← h0, hsc]
      exact lookup_congr (hfr root hrootn))
  obtain ⟨hp, sp, rp, wp⟩ := s1
  simp only at hh hw hs1 hrd
  subst hh hw hs1 hrd
  rcases hcase with ⟨v, j, hj, hrep, hex⟩ | ⟨hj, hex⟩
  · refine ⟨sc1, [], props.insert n v, ?_, hfr, ?_⟩
    · simp only [List.append_nil]
      exact hex
    · simp only [hj, component]
      exact ⟨v, hrep _ _, rfl⟩
  · refine ⟨sc1, [], props, ?_, hfr, ?_⟩
    · simp only [List.append_nil, heap_set_self hi]
      exact hex
    · simp only [hj, component]
      rfl

/-- The program reading an array item. -/
def itemProg (tn : Str) (t : RType) (item : Str) : List Stmt :=
  [.letS item true (itemInit t)] ++ readType false [item] tn t

theorem letNames_itemProg (tn : Str) (t : RType) (item : Str) :
    letNames (itemProg tn t item) = item :: letNames (readType false [item] tn t) := rfl

theorem stmtsOk_itemProg (tn : Str) (t : RType) (item : Str) :
    stmtsOk (itemProg tn t item) = stmtsOk (readType false [item] tn t) := by
  show (true && stmtsOk (readType false [item] tn t)) = _
  rfl

theorem ritem_leaf (tn : Str) (t : RType) (hl : IsLeaf t) (hb : ∀ b, t = .builtin b → tn = builtinName b) :
    RItem rt cls fuel (itemProg tn t) (rdType rt t) := by
  intro item st sc scs hout hsc henv hfresh hnd hok
  rw [letNames_itemProg] at hfresh hnd ⊢
  rw [List.nodup_cons] at hnd
  let sc0 : Scope := sc.insert item (some .undef)
  let st0 : State := { st with scopes := sc0 :: scs }
  have hget0 : ∀ x, sc0.get x = if item = x then some (some .undef) else sc.get x := by
    intro x
    simp only [sc0, Map.get_insert]
  have hinit : itemInit t = .undef := by cases t <;> first | rfl | exact absurd hl (by simp [IsLeaf])
  have hlet : exec rt cls fuel (.letS item true (itemInit t)) st = .ok st0 := by
    rw [hinit]
    exact exec_let_ok (v := .undef) rfl hsc
  have henv0 : REnv st0.scopes := by
    refine henv.mono (fun x hx => ?_)
    rw [hsc]
    apply lookup_congr
    rw [hget0, if_neg]
    rintro rfl
    exact hx hout
  obtain ⟨s1, ⟨hh, hw, sc1, hs1, hfr⟩, hrd, hcase⟩ := leaf_exec (rt := rt) (cls := cls) (fuel := fuel) t hl hb false item [] hout st0 sc0 scs
    rfl henv0
    (fun v s' => { s' with scopes := (s'.scopes.headD []).insert item (some v) :: scs })
    (by
      rintro r s s' v - ⟨hh', -, sc1, hs1, hfr⟩ hev
      rw [hs1]
      refine assign_var (w := .undef) hev hs1 ?_
      show sc1.get item = _
      rw [hfr item hnd.1, hget0, if_pos rfl])
  obtain ⟨hp, sp, rp, wp⟩ := s1
  simp only at hh hw hs1 hrd
  subst hh hw hs1 hrd
  have hframe1 : ∀ x, x ∉ item :: letNames (readType false [item] tn t) → sc1.get x = sc.get x := by
    intro x hx
    rw [List.mem_cons, not_or] at hx
    rw [hfr x hx.2, hget0, if_neg (fun e => hx.1 e.symm)]
  have hex0 : execs rt cls fuel (itemProg tn t item) st = execs rt cls fuel (readType false [item] tn t) st0 := by
    show execs rt cls fuel (.letS item true (itemInit t) :: readType false [item] tn t) st = _
    rw [execs_cons, hlet]
    rfl
  rcases hcase with ⟨v, j, hj, hrep, hex⟩ | ⟨hj, hex⟩
  · refine ⟨sc1.insert item (some v), [], v, ?_, ?_, ?_, ?_⟩
    · rw [hex0, hex, List.append_nil]
      rfl
    · intro x hx
      rw [Map.get_insert, if_neg, hframe1 x hx]
      rintro rfl
      exact hx List.mem_cons_self
    · rw [Map.get_insert, if_pos rfl]
    · have hj' : (rdType rt t st.rd).1 = some j := hj
      simp only [hj', Option.getD_some]
      exact hrep _ _
  · refine ⟨sc1, [], .undef, ?_, hframe1, ?_, ?_⟩
    · rw [hex0, hex, List.append_nil]
    · rw [hfr item hnd.1, hget0, if_pos rfl]
    · have hj' : (rdType rt t st.rd).1 = none := hj
      simp only [hj', Option.getD_none]
      exact Or.inl rfl

/-! ### Structs -/

theorem ordinary_names {fs : List (FieldOf RType)} (h : OrdinaryFs fs) : ∀ f ∈ fs, f.name ≠ "__proto__".toList := by
  induction fs with
  | nil => simp
  | cons f fs ih =>
    intro g hg
    rw [List.mem_cons] at hg
    rcases hg with rfl | hg
    · obtain ⟨n, tn, t, a, o⟩ := g
      exact h.1.1
    · exact ih h.2 g hg

theorem rdField_names (f : FieldOf RType) (r : RState) : ((rdField rt f r).1.map (·.name)).Sublist [f.name] := by
  rw [rdField_eq]
  have hc : ∀ o, ((component f.name o).map (·.name)).Sublist [f.name] := by
    intro o
    cases o <;> simp [component]
  split
  · split
    · exact hc _
    · simp
  · exact hc _

theorem rdFields_names (fs : List (FieldOf RType)) (r : RState) :
    ((rdFields rt fs r).1.map (·.name)).Sublist (fs.map (·.name)) := by
  induction fs generalizing r with
  | nil => simp [rdFields]
  | cons f fs ih =>
    simp only [rdFields, List.map_append, List.map_cons]
    exact List.Sublist.append (rdField_names f r) (ih _)

theorem lt_of_getElem? {α : Type} {h : List α} {i : Nat} {o : α} (hi : h[i]? = some o) : i < h.length := by
  rcases Nat.lt_or_ge i h.length with hl | hl
  · exact hl
  · rw [List.getElem?_eq_none hl] at hi; cases hi

theorem set_app {α : Type} {h xs : List α} {i : Nat} {o : α} (hi : i < h.length) : (h ++ xs).set i o = h.set i o ++ xs :=
  List.set_append_left _ _ hi

theorem set_mid {α : Type} (h : List α) (x y : α) (xs : List α) : (h ++ x :: xs).set h.length y = h ++ y :: xs := by
  rw [List.set_append_right _ _ (Nat.le_refl _)]
  simp

theorem get_mid {α : Type} (h : List α) (x : α) (xs : List α) : (h ++ x :: xs)[h.length]? = some x := by simp

/-- Heaps that agree above the first object after `h`. -/
theorem agree_after {α : Type} (h : List α) (x y : α) (xs ys : List α) (k : Nat) (o : α) (hk : h.length + 1 ≤ k)
    (hg : (h ++ x :: xs)[k]? = some o) : (h ++ y :: (xs ++ ys))[k]? = some o := by
  obtain ⟨m, rfl⟩ : ∃ m, k = h.length + (m + 1) := ⟨k - h.length - 1, by omega⟩
  rw [List.getElem?_append_right (by omega), Nat.add_sub_cancel_left, List.getElem?_cons_succ] at hg ⊢
  rw [List.getElem?_append_left (lt_of_getElem? hg)]
  exact hg

theorem agree_app {α : Type} (h xs : List α) (k lo : Nat) (o : α) (_ : lo ≤ k)
    (hg : h[k]? = some o) : (h ++ xs)[k]? = some o := by
  rw [List.getElem?_append_left (lt_of_getElem? hg)]
  exact hg

theorem eval_obj (st : State) : eval rt cls .obj st =
    .ok (.ref st.heap.length, { st with heap := st.heap ++ [.obj .plain []] }) := rfl

/-- Reading a struct into a variable that was just declared. -/
theorem struct_var {fs : List (FieldOf RType)}
    (ih : RStep rt cls fuel (fun root => readFields [root] fs) (fs.map (·.name)) (rdFields rt fs))
    (hproto : ∀ f ∈ fs, f.name ≠ "__proto__".toList) (hnames : (fs.map (·.name)).Nodup)
    (b : Str) (st : State) (sc : Scope) (scs : List Scope) (hout : "output".toList <+: b) (hsc : st.scopes = sc :: scs)
    (henv : REnv st.scopes) (hfresh : ∀ x ∈ letNames (readFields [b] fs), sc.get x = some none)
    (hnd : (letNames (readFields [b] fs)).Nodup) (hok : stmtsOk (readFields [b] fs) = true) :
    ∃ (sc' : Scope) (ext : List Obj) (props' : Map Val),
      execs rt cls fuel (.letS b true .obj :: readFields [b] fs) st =
        .ok { st with heap := st.heap ++ .obj .plain props' :: ext, scopes := sc' :: scs, rd := (rdFields rt fs st.rd).2 } ∧
      (∀ x, x ∉ b :: letNames (readFields [b] fs) → sc'.get x = sc.get x) ∧
      sc'.get b = some (some (.ref st.heap.length)) ∧
      RepFrom (st.heap ++ .obj .plain props' :: ext) st.heap.length (.obj (rdFields rt fs st.rd).1)
        (.ref st.heap.length) := by
  let sc1 : Scope := sc.insert b (some (.ref st.heap.length))
  let st1 : State := { st with heap := st.heap ++ [.obj .plain []], scopes := sc1 :: scs }
  have hget1 : ∀ x, sc1.get x = if b = x then some (some (.ref st.heap.length)) else sc.get x := by
    intro x
    simp only [sc1, Map.get_insert]
  have hlet : exec rt cls fuel (.letS b true .obj) st = .ok st1 := exec_let_ok (eval_obj st) hsc
  have hbn : b ∉ letNames (readFields [b] fs) := fun h => ne_of_prefix (nread_fields fs b b h) rfl
  have henv1 : REnv st1.scopes := by
    refine henv.mono (fun x hx => ?_)
    rw [hsc]
    apply lookup_congr
    rw [hget1, if_neg]
    rintro rfl
    exact hx hout
  obtain ⟨sc2, ext, props', hex, hfr, hrep⟩ := ih b st1 sc1 scs st.heap.length .plain [] hout rfl henv1
    (lookup_cons_some (by rw [hget1, if_pos rfl])) (get_mid st.heap _ [])
    (by
      intro n hn
      obtain ⟨f, hf, rfl⟩ := List.mem_map.1 hn
      exact ⟨hproto f hf, fun h => by simp at h⟩)
    (by
      intro x hx
      rw [hget1, if_neg]
      · exact hfresh x hx
      · rintro rfl
        exact hbn hx)
    hnd hok
  refine ⟨sc2, ext, props', ?_, ?_, ?_, ?_⟩
  · rw [execs_cons, hlet]
    simp only [ok_bind]
    rw [hex]
    have : (st1.heap ++ ext).set st.heap.length (.obj .plain props') = st.heap ++ .obj .plain props' :: ext := by
      show ((st.heap ++ [_]) ++ ext).set _ _ = _
      rw [List.append_assoc, List.singleton_append, set_mid]
    rw [this]
  · intro x hx
    rw [List.mem_cons, not_or] at hx
    rw [hfr x hx.2, hget1, if_neg (fun e => hx.1 e.symm)]
  · rw [hfr b hbn, hget1, if_pos rfl]
  · refine ⟨st.heap.length, .plain, props', rfl, Nat.le_refl _, get_mid _ _ _, ?_⟩
    refine repIns_props (a := []) ?_ ((rdFields_names fs st.rd).nodup hnames) .plain
    refine repIns_mono (lo := st.heap.length + 1) (by omega) (h := st1.heap ++ ext) ?_ ?_
    · intro k o hk hg
      have : st1.heap ++ ext = st.heap ++ .obj .plain [] :: ext := by
        show (st.heap ++ [_]) ++ ext = _
        rw [List.append_assoc, List.singleton_append]
      rw [this] at hg
      have := agree_after st.heap (.obj .plain []) (.obj .plain props') ext [] k o hk hg
      rwa [List.append_nil] at this
    · have : st1.heap.length = st.heap.length + 1 := by simp [st1]
      rw [this] at hrep
      exact hrep

theorem rstep_struct (n tn : Str) {fs : List (FieldOf RType)}
    (ih : RStep rt cls fuel (fun root => readFields [root] fs) (fs.map (·.name)) (rdFields rt fs))
    (hproto : ∀ f ∈ fs, f.name ≠ "__proto__".toList) (hnames : (fs.map (·.name)).Nodup) :
    RStep rt cls fuel (fun root => readType true [root, n] tn (.struct fs)) [n]
      (fun r => (component n (rdType rt (.struct fs) r).1, (rdType rt (.struct fs) r).2)) := by
  intro root st sc scs i pr props hout hsc henv h0 hi hset hfresh hnd hok
  set b := bindname [root, n] with hb
  have pb : (root ++ "_".toList) <+: b := bindname_two _ _
  have hprog : readType true [root, n] tn (.struct fs) =
      (.letS b true .obj :: readFields [b] fs) ++ [.assign (path [root, n]) (.var b)] := rfl
  have hln : letNames (readType true [root, n] tn (.struct fs)) = b :: letNames (readFields [b] fs) := by
    rw [hprog, letNames_append]
    simp [letNames]
  have hsk : stmtsOk (readFields [b] fs) = true := by
    have h1 : stmtsOk (readType true [root, n] tn (.struct fs)) = true := hok
    rw [hprog, stmtsOk_append, Bool.and_eq_true] at h1
    have h2 : stmtsOk (.letS b true .obj :: readFields [b] fs) = (true && stmtsOk (readFields [b] fs)) := rfl
    have h3 := h1.1
    rw [h2] at h3
    simpa using h3
  simp only [hln] at hfresh hnd ⊢
  rw [List.nodup_cons] at hnd
  obtain ⟨sc1, ext, props', hex, hfr, hgb, hrep⟩ := struct_var ih hproto hnames b st sc scs (prefix_root hout pb) hsc henv
    (fun x hx => hfresh x (List.mem_cons_of_mem _ hx)) hnd.2 hsk
  have hil : i < st.heap.length := lt_of_getElem? hi
  refine ⟨sc1, .obj .plain props' :: ext, props.insert n (.ref st.heap.length), ?_, hfr, ?_⟩
  · rw [hprog, execs_append, hex]
    simp only [ok_bind]
    rw [execs_cons, exec_assign, assign_prop (i := i) (pr := pr) (props := props) (v := .ref st.heap.length)
      (st' := { st with heap := st.heap ++ .obj .plain props' :: ext, scopes := sc1 :: scs, rd := (rdFields rt fs st.rd).2 })]
    · rfl
    · show lookup (sc1 :: scs) root = _
      rw [← h0, hsc]
      refine lookup_congr (hfr root ?_)
      rw [← hln]
      exact fun h => ne_of_prefix (nread_typeA n tn _ root _ h) rfl
    · exact eval_var (getVar_of_lookup (lookup_cons_some hgb))
    · show (st.heap ++ _)[i]? = _
      rw [List.getElem?_append_left hil]
      exact hi
    · exact hset n List.mem_cons_self
  · simp only [rdType, component]
    exact ⟨_, hrep, rfl⟩

theorem ritem_struct (tn : Str) {fs : List (FieldOf RType)}
    (ih : RStep rt cls fuel (fun root => readFields [root] fs) (fs.map (·.name)) (rdFields rt fs))
    (hproto : ∀ f ∈ fs, f.name ≠ "__proto__".toList) (hnames : (fs.map (·.name)).Nodup) :
    RItem rt cls fuel (itemProg tn (.struct fs)) (rdType rt (.struct fs)) := by
  intro item st sc scs hout hsc henv hfresh hnd hok
  rw [letNames_itemProg] at hfresh hnd ⊢
  rw [List.nodup_cons] at hnd
  obtain ⟨sc1, ext, props', hex, hfr, hgb, hrep⟩ := struct_var ih hproto hnames item st sc scs hout hsc henv
    (fun x hx => hfresh x (List.mem_cons_of_mem _ hx)) hnd.2 (by rw [stmtsOk_itemProg] at hok; exact hok)
  exact ⟨sc1, _, _, hex, hfr, hgb, hrep⟩

/-! ### Arrays -/

theorem construct_array {k : Nat} (h : k < 2 ^ 32) (st : State) :
    construct (.glob .array) [.num (.int k)] st = .ok (st.alloc (.arr (List.replicate k .undef))) := by
  unfold construct
  have : (k : Int) < 4294967296 := by omega
  simp [this]

theorem rstep_array (n tn : Str) (t : RType) (hcls : cls ≠ "Array".toList) (hfuel : 2 ^ 32 ≤ fuel)
    (ih : RItem rt cls fuel (itemProg tn t) (rdType rt t)) :
    RStep rt cls fuel (fun root => rArr (itemInit t) (fun st => readType false st tn t) [root, n]) [n]
      (fun r => (component n (rdB rt t true r).1, (rdB rt t true r).2)) := by
  intro root st sc scs i pr props hout hsc henv h0 hi hset hfresh hnd hok
  have hsetn : SetOk pr n := hset n List.mem_cons_self
  have hil : i < st.heap.length := lt_of_getElem? hi
  set len := varname [root, n] "len".toList with hlen
  set index := varname [root, n] "index".toList with hindex
  set item := varname [root, n] "item".toList with hitem
  have plen : (root ++ "_".toList) <+: len := varname_prefix _ _ _
  have pindex : (root ++ "_".toList) <+: index := varname_prefix _ _ _
  have pitem : (root ++ "_".toList) <+: item := varname_prefix _ _ _
  have olen := prefix_root hout plen
  have oindex := prefix_root hout pindex
  have oitem := prefix_root hout pitem
  have hli : len ≠ index := by
    rw [hlen, hindex]
    intro e
    have := List.append_cancel_left e
    revert this
    decide
  have hlt : ¬ item <+: len := by
    intro h
    rw [hitem, hlen, varname, varname, List.prefix_append_right_inj] at h
    revert h
    decide
  set asg : Stmt := .assign (.index (path [root, n]) (.var index)) (.var item) with hasg
  set body : List Stmt := itemProg tn t item ++ [asg] with hbody
  have hln : letNames body = letNames (itemProg tn t item) := by
    rw [hbody, letNames_append]
    simp [letNames, hasg]
  have hnm : ∀ x ∈ letNames body, item <+: x := by
    intro x hx
    rw [hln, letNames_itemProg, List.mem_cons] at hx
    rcases hx with rfl | hx
    · exact List.prefix_rfl
    · exact (List.prefix_append _ _).trans (nread_typeB tn t item x hx)
  have hidx : index ∉ letNames body := by
    intro h
    have := hnm _ h
    rw [hitem, varname] at this
    exact not_item_prefix_index _ this rfl
  have hroot : root ∉ letNames body := fun h => ne_of_prefix (pitem.trans (hnm _ h)) rfl
  have hlenb : len ∉ letNames body := fun h => hlt (hnm _ h)
  have hprog : rArr (itemInit t) (fun st => readType false st tn t) [root, n] =
      [.letS len false (readCall Scalar.uint32.name), .assign (path [root, n]) (.new1 "Array".toList (.var len)),
       .forS index (.var len) body] := rfl
  simp only [hprog] at hfresh hnd hok ⊢
  have hln' : letNames [.letS len false (readCall Scalar.uint32.name),
      .assign (path [root, n]) (.new1 "Array".toList (.var len)), .forS index (.var len) body] = [len] := rfl
  rw [hln'] at hfresh hnd ⊢
  have hbok : (letNames body).Nodup ∧ stmtsOk (itemProg tn t item) = true := by
    have h2 : stmtsOk [.letS len false (readCall Scalar.uint32.name),
      .assign (path [root, n]) (.new1 "Array".toList (.var len)), .forS index (.var len) body] =
        (decide (letNames body).Nodup && stmtsOk body) := by
      show (true && (true && ((decide (letNames body).Nodup && stmtsOk body) && true))) = _
      simp
    rw [h2, Bool.and_eq_true, decide_eq_true_eq] at hok
    refine ⟨hok.1, ?_⟩
    have := hok.2
    rw [hbody, stmtsOk_append, Bool.and_eq_true] at this
    exact this.1
  obtain ⟨K, hK, hKv⟩ := readNum_uint32 rt st.rd
  set r1 := (rt.readNum .uint32 st.rd).2 with hr1
  have hev := eval_readCall (rt := rt) (cls := cls) .uint32 henv.reader
  rw [hKv] at hev
  let sc1 : Scope := sc.insert len (some (.num (.int K)))
  let st1 : State := { st with rd := r1, scopes := sc1 :: scs }
  have hget1 : ∀ x, sc1.get x = if len = x then some (some (.num (.int K))) else sc.get x := by
    intro x
    simp only [sc1, Map.get_insert]
  have hlet : exec rt cls fuel (.letS len false (readCall Scalar.uint32.name)) st = .ok st1 := exec_let_ok hev hsc
  have hfr1 : ∀ x, x ∉ [len] → sc1.get x = sc.get x := by
    intro x hx
    rw [List.mem_singleton] at hx
    rw [hget1, if_neg (fun e => hx e.symm)]
  have hlk1 : ∀ x, x ≠ len → lookup (sc1 :: scs) x = lookup st.scopes x := by
    intro x hx
    rw [hsc]
    exact lookup_congr (hfr1 x (by simpa using hx))
  have hrootlen : root ≠ len := (ne_of_prefix plen).symm
  have henv1 : REnv (sc1 :: scs) := henv.mono fun x hx => hlk1 x (by rintro rfl; exact hx olen)
  -- allocation of the array
  let P : Map Val := props.insert n (.ref st.heap.length)
  let H (items : List Val) (ext : List Obj) : List Obj := st.heap.set i (.obj pr P) ++ .arr items :: ext
  have hHi : ∀ items ext, (H items ext)[i]? = some (.obj pr P) := by
    intro items ext
    rw [List.getElem?_append_left (by simpa using hil), List.getElem?_set_self hil]
  have hHa : ∀ items ext, (H items ext)[st.heap.length]? = some (.arr items) := by
    intro items ext
    have := get_mid (st.heap.set i (.obj pr P)) (.arr items) ext
    rwa [List.length_set] at this
  have hnew : eval rt cls (.new1 "Array".toList (.var len)) st1 =
      .ok (.ref st.heap.length, { st1 with heap := st.heap ++ [.arr (List.replicate K .undef)] }) := by
    show (getVar cls st1.scopes "Array".toList).bind (fun g => (eval rt cls (.var len) st1).bind fun r => construct g [r.1] r.2) = _
    have hg : getVar cls st1.scopes "Array".toList = .ok (.glob .array) := by
      unfold getVar
      rw [henv1.array]
      unfold resolveGlobal
      rw [if_neg (fun e => hcls e.symm)]
      rfl
    rw [hg, ok_bind, eval_var (v := .num (.int K)) (getVar_of_lookup (lookup_cons_some (by rw [hget1, if_pos rfl]))), ok_bind]
    exact construct_array hK st1
  let st2 : State := { st1 with heap := H (List.replicate K .undef) [] }
  have hasgn : exec rt cls fuel (.assign (path [root, n]) (.new1 "Array".toList (.var len))) st1 = .ok st2 := by
    rw [exec_assign, assign_prop (i := i) (pr := pr) (props := props) ((hlk1 root hrootlen).trans h0) hnew
      (by show (st.heap ++ _)[i]? = _; rw [List.getElem?_append_left hil]; exact hi) hsetn]
    simp only [lift_ok, st2, H, P]
    rw [set_app hil]
  -- the loop
  let f := rdType rt t
  let I (m : Nat) (s : State) : Prop := ∃ (items : List Val) (ext : List Obj),
    s = { st with heap := H (items ++ List.replicate (K - m) .undef) ext,
                  scopes := [(index, some (.num (.int m)))] :: sc1 :: scs, rd := (rdMany f m r1).2 } ∧
    items.length = m ∧
    RepItems (H (items ++ List.replicate (K - m) .undef) ext) (st.heap.length + 1) (rdMany f m r1).1 items
  have hlkI : ∀ (m : Nat) x, x ≠ index →
      lookup ([(index, some (Val.num (.int m)))] :: sc1 :: scs) x = lookup (sc1 :: scs) x := by
    intro m x hx
    apply lookup_cons_none
    simp only [Map.get]
    rw [if_neg (fun e => hx e.symm)]
  have hvarlen : ∀ (m : Nat) (s : State), s.scopes = [(index, some (.num (.int m)))] :: sc1 :: scs →
      eval rt cls (.lt (.var index) (.var len)) s = .ok (.bool (decide ((m : Int) < K)), s) := by
    intro m s hs
    show (eval rt cls (.var index) s).bind (fun x => (eval rt cls (.var len) x.2).bind fun y =>
      (compareInts (fun i j => decide (i < j)) x.1 y.1).bind fun v => .ok (v, y.2)) = _
    rw [eval_var (v := .num (.int m)) (getVar_of_lookup (by rw [hs]; exact lookup_cons_some (by simp [Map.get]))), ok_bind]
    rw [eval_var (v := .num (.int K)) (getVar_of_lookup (by
      rw [hs, hlkI m len hli]; exact lookup_cons_some (by rw [hget1, if_pos rfl])))]
    rfl
  have hloop := forLoop_inv
    (cond := fun st => lift (eval rt cls (.lt (.var index) (.var len)) st))
    (body := inScope (hoist body) (execs rt cls fuel body)) (inc := fun st => lift (increment cls index st))
    I K
    (by
      rintro m s hm ⟨items, ext, rfl, -⟩
      refine (congrArg lift (hvarlen m _ rfl)).trans ?_
      simp only [lift_ok]
      congr 3
      simpa using hm)
    (by
      rintro s ⟨items, ext, rfl, -⟩
      refine (congrArg lift (hvarlen K _ rfl)).trans ?_
      simp only [lift_ok]
      congr 3
      simp)
    (by
      rintro m s hm ⟨items, ext, rfl, hlenm, hrep⟩
      have hmK : m < K := hm
      -- inside the body
      set h0m := H (items ++ List.replicate (K - m) .undef) ext with hh0
      let scm : List Scope := [(index, some (Val.num (.int m)))] :: sc1 :: scs
      let sb : State := { st with heap := h0m, scopes := hoist body :: scm, rd := (rdMany f m r1).2 }
      have hlkb : ∀ x, x ∉ letNames body → lookup sb.scopes x = lookup scm x := by
        intro x hx
        apply lookup_cons_none
        rw [hoist_get, if_neg hx]
      have henvb : REnv sb.scopes := by
        refine henv1.mono fun x hx => ?_
        rw [hlkb x (fun h => hx (oitem.trans (hnm _ h))), hlkI m x (by rintro rfl; exact hx oindex)]
      obtain ⟨sc', ext2, v, hex, hfr, hgi, hrepv⟩ := ih item sb (hoist body) scm oitem rfl henvb
        (by
          intro x hx
          rw [hoist_get, if_pos (by rw [hln]; exact hx)])
        (by rw [← hln]; exact hbok.1) hbok.2
      let s1 : State := { sb with heap := h0m ++ ext2, scopes := sc' :: scm, rd := (f (rdMany f m r1).2).2 }
      have hlk' : ∀ x, x ∉ letNames body → lookup (sc' :: scm) x = lookup scm x := by
        intro x hx
        rw [← hlkb x hx]
        exact lookup_congr (hfr x (by rw [← hln]; exact hx))
      have hr1 : eval rt cls (path [root, n]) s1 = .ok (.ref st.heap.length, s1) := by
        refine eval_path (v0 := .ref i) ?_ ?_
        · show lookup (sc' :: scm) root = _
          rw [hlk' root hroot, hlkI m root (ne_of_prefix pindex).symm, hlk1 root hrootlen, h0]
        · show (s1.getProp (.ref i) n).bind (fun w => walk s1 w []) = _
          rw [getProp_ref (o := .obj pr P) (by
            show (h0m ++ ext2)[i]? = _
            exact agree_app _ _ _ 0 _ (Nat.zero_le _) (hHi _ _))]
          rw [obj_get_some (w := .ref st.heap.length) (by rw [Map.get_insert, if_pos rfl])]
          rfl
      have hr2 : eval rt cls (.var index) s1 = .ok (.num (.int m), s1) :=
        eval_var (getVar_of_lookup (by
          show lookup (sc' :: scm) index = _
          rw [hlk' index hidx]
          exact lookup_cons_some (by simp [Map.get])))
      have hr3 : eval rt cls (.var item) s1 = .ok (v, s1) :=
        eval_var (getVar_of_lookup (lookup_cons_some hgi))
      have hset' : (h0m ++ ext2).set st.heap.length (.arr ((items ++ [v]) ++ List.replicate (K - (m + 1)) .undef)) =
          H ((items ++ [v]) ++ List.replicate (K - (m + 1)) .undef) (ext ++ ext2) := by
        rw [hh0]
        simp only [H]
        rw [List.append_assoc, List.cons_append]
        have := set_mid (st.heap.set i (.obj pr P)) (.arr (items ++ List.replicate (K - m) .undef))
          (.arr ((items ++ [v]) ++ List.replicate (K - (m + 1)) .undef)) (ext ++ ext2)
        rw [List.length_set] at this
        exact this
      have hasg1 : exec rt cls fuel asg s1 =
          .ok { s1 with heap := H ((items ++ [v]) ++ List.replicate (K - (m + 1)) .undef) (ext ++ ext2) } := by
        rw [hasg, exec_assign]
        show lift ((eval rt cls (path [root, n]) s1).bind fun o => (eval rt cls (.var index) o.2).bind fun k =>
          (eval rt cls (.var item) k.2).bind fun v => v.2.setIndex o.1 k.1 v.1) = _
        rw [hr1, ok_bind, hr2, ok_bind, hr3, ok_bind]
        show lift ((s1.deref (.ref st.heap.length)).bind fun o => (o.setIndex (.num (.int m)) v).bind fun o' =>
          .ok { s1 with heap := s1.heap.set st.heap.length o' }) = _
        rw [deref_ref (o := .arr (items ++ List.replicate (K - m) .undef)) (by
          show (h0m ++ ext2)[st.heap.length]? = _
          exact agree_app _ _ _ 0 _ (Nat.zero_le _) (hHa _ _)), ok_bind]
        have : (Obj.arr (items ++ List.replicate (K - m) .undef)).setIndex (.num (.int m)) v =
            .ok (.arr ((items ++ [v]) ++ List.replicate (K - (m + 1)) .undef)) := by
          unfold Obj.setIndex
          simp only [Int.toNat_natCast]
          rw [if_pos (by omega)]
          have hl : (items ++ List.replicate (K - m) Val.undef).length = K := by simp; omega
          rw [hl, show m + 1 - K = 0 by omega, List.replicate_zero, List.append_nil]
          have h1 : List.replicate (K - m) Val.undef = .undef :: List.replicate (K - (m + 1)) .undef := by
            rw [show K - m = (K - (m + 1)) + 1 by omega, List.replicate_succ]
          rw [h1]
          have := set_mid items Val.undef v (List.replicate (K - (m + 1)) .undef)
          rw [hlenm] at this
          rw [this, List.append_assoc, List.singleton_append]
        rw [this, ok_bind, lift_ok]
        show Except.ok ({ s1 with heap := (h0m ++ ext2).set st.heap.length _ } : State) = _
        rw [hset']
      let hN := H ((items ++ [v]) ++ List.replicate (K - (m + 1)) .undef) (ext ++ ext2)
      refine ⟨{ st with heap := hN, scopes := scm, rd := (f (rdMany f m r1).2).2 },
        { st with heap := hN, scopes := [(index, some (.num (.int (m + 1 : Nat))))] :: sc1 :: scs,
                  rd := (f (rdMany f m r1).2).2 }, ?_, ?_, ?_⟩
      · refine inScope_ok (st' := { s1 with heap := hN }) ?_
        show execs rt cls fuel body sb = _
        rw [hbody, execs_append, hex, ok_bind, execs_cons]
        have : exec rt cls fuel asg { sb with heap := sb.heap ++ ext2, scopes := sc' :: scm, rd := (rdType rt t sb.rd).2 }
            = exec rt cls fuel asg s1 := rfl
        rw [this, hasg1]
        rfl
      · unfold increment
        rw [getVar_of_lookup (v := .num (.int m)) (lookup_cons_some (by simp [Map.get]))]
        simp only [ok_bind]
        show lift ((assignVar ([(index, some (.num (.int m)))] :: sc1 :: scs) index (.num (.int (m + 1)))).bind _) = _
        unfold assignVar
        simp only [Map.get, if_true, ok_bind, insert_single, lift_ok]
        rfl
      · refine ⟨items ++ [v], ext ++ ext2, ?_, by simp [hlenm], ?_⟩
        · rw [rdMany_snoc]
        · rw [rdMany_snoc, repItems_iff]
          have hag : ∀ k o, st.heap.length + 1 ≤ k → h0m[k]? = some o → hN[k]? = some o := by
            intro k o hk hg
            exact agree_after (st.heap.set i (.obj pr P)) _ _ ext ext2 k o (by rw [List.length_set]; exact hk) hg
          have h1 := (repItems_iff _ _ _ _).1 (repItems_mono (Nat.le_refl _) hag _ _ hrep)
          refine List.rel_append h1 (List.Forall₂.cons ?_ List.Forall₂.nil)
          have hlen0 : h0m.length = st.heap.length + 1 + ext.length := by
            rw [hh0]
            simp [H]
            omega
          refine repFrom_mono (lo := h0m.length) (by omega) (h := h0m ++ ext2) ?_ _ _ hrepv
          intro k o hk hg
          have hk' : st.heap.length + 1 ≤ k := by omega
          have e1 : h0m ++ ext2 = st.heap.set i (.obj pr P) ++ .arr (items ++ List.replicate (K - m) .undef) :: (ext ++ ext2) := by
            rw [hh0]
            simp [H]
          rw [e1] at hg
          have := agree_after (st.heap.set i (.obj pr P)) _ (.arr ((items ++ [v]) ++ List.replicate (K - (m + 1)) .undef))
            (ext ++ ext2) [] k o (by rw [List.length_set]; exact hk') hg
          rw [List.append_nil] at this
          exact this)
  obtain ⟨s', hs', items, ext, rfl, hlenK, hrep⟩ := hloop fuel
    { st2 with scopes := [(index, some (.num (.int 0)))] :: sc1 :: scs } 0 (by omega) (by omega)
    ⟨[], [], by simp [st2, st1, rdMany], rfl, rfl⟩
  refine ⟨sc1, .arr items :: ext, P, ?_, hfr1, ?_⟩
  · rw [execs_cons, hlet, ok_bind, execs_cons, hasgn, ok_bind, execs_cons, exec_for]
    rw [inScope_ok hs']
    simp only [ok_bind, execs_nil, List.tail_cons, Nat.sub_self, List.replicate_zero, List.append_nil]
    congr 1
    simp only [H, rdB, if_true, hKv, Num.toNat, Int.toNat_natCast]
    rw [set_app hil]
  · simp only [rdB, if_true, component, hKv, Num.toNat, Int.toNat_natCast]
    refine ⟨.ref st.heap.length, ?_, rfl⟩
    refine ⟨st.heap.length, items, rfl, Nat.le_refl _, get_mid _ _ _, ?_⟩
    simp only [Nat.sub_self, List.replicate_zero, List.append_nil] at hrep
    refine repItems_mono (lo := st.heap.length + 1) (by omega) (h := H items ext) ?_ _ _ hrep
    intro k o hk hg
    have hk1 : i ≠ k := by omega
    have : H items ext = (st.heap ++ .arr items :: ext).set i (.obj pr P) := by rw [set_app hil]
    rw [this, List.getElem?_set_ne hk1] at hg
    exact hg

/-! ### Optionals and fields -/

theorem rstep_optional (n : Str) {Q : Str → List Stmt} {rd : RState → List (PropOf JVal) × RState}
    (hQn : ∀ root, ∀ x ∈ letNames (Q root), (root ++ "_".toList) <+: x)
    (ih : RStep rt cls fuel Q [n] rd) :
    RStep rt cls fuel
      (fun root => [.ifElse (.gt (readCall "uint8".toList) (.num 0)) (Q root) [.assign (path [root, n]) .undef]]) [n]
      (fun r => if 0 < (rt.readNum .uint8 r).1.toNat then rd (rt.readNum .uint8 r).2
        else ([⟨n, .undef⟩], (rt.readNum .uint8 r).2)) := by
  intro root st sc scs i pr props hout hsc henv h0 hi hset hfresh hnd hok
  obtain ⟨k, hk, hkv⟩ := readNum_uint8 rt st.rd
  have hev := eval_readCall (rt := rt) (cls := cls) .uint8 henv.reader
  rw [hkv] at hev
  let st1 : State := { st with rd := (rt.readNum .uint8 st.rd).2 }
  have hc : eval rt cls (.gt (readCall "uint8".toList) (.num 0)) st = .ok (.bool (decide (0 < k)), st1) := by
    show (eval rt cls (readCall Scalar.uint8.name) st).bind (fun x => (eval rt cls (.num 0) x.2).bind fun y =>
      (compareInts (fun i j => decide (j < i)) x.1 y.1).bind fun v => .ok (v, y.2)) = _
    rw [hev]
    show Except.ok (Val.bool (decide ((0 : Int) < (k : Int))), st1) = _
    congr 3
    simp
  simp only [hkv, Num.toNat, Int.toNat_natCast]
  have hexec : ∀ s, exec rt cls fuel (.ifElse (.gt (readCall "uint8".toList) (.num 0)) (Q root)
      [.assign (path [root, n]) .undef]) st = .ok s →
      execs rt cls fuel [.ifElse (.gt (readCall "uint8".toList) (.num 0)) (Q root) [.assign (path [root, n]) .undef]] st
        = .ok s := by
    intro s hs
    rw [execs_cons, hs]
    rfl
  by_cases hpos : 0 < k
  · simp only [if_pos hpos]
    have hbok : (letNames (Q root)).Nodup ∧ stmtsOk (Q root) = true := by
      have h2 : stmtsOk [.ifElse (.gt (readCall "uint8".toList) (.num 0)) (Q root) [.assign (path [root, n]) .undef]] =
          (decide (letNames (Q root)).Nodup && stmtsOk (Q root)) := by
        show ((decide (letNames (Q root)).Nodup && stmtsOk (Q root) && (decide (([] : List Str)).Nodup && (true && true))) && true) = _
        simp
      rw [h2, Bool.and_eq_true, decide_eq_true_eq] at hok
      exact hok
    let st2 : State := { st1 with scopes := hoist (Q root) :: sc :: scs }
    have hlk2 : ∀ x, x ∉ letNames (Q root) → lookup st2.scopes x = lookup st.scopes x := by
      intro x hx
      rw [hsc]
      apply lookup_cons_none
      rw [hoist_get, if_neg hx]
    obtain ⟨sc', ext, props', hex, hfr, hrep⟩ := ih root st2 (hoist (Q root)) (sc :: scs) i pr props hout rfl
      (henv.mono fun x hx => hlk2 x fun h => hx (prefix_root hout (hQn root x h)))
      ((hlk2 root fun h => ne_of_prefix (hQn root _ h) rfl).trans h0) hi hset
      (by
        intro x hx
        rw [hoist_get, if_pos hx])
      hbok.1 hbok.2
    refine ⟨sc, ext, props', ?_, fun _ _ => rfl, hrep⟩
    apply hexec
    rw [exec_ifElse, hc]
    simp only [lift_ok, ok_bind, Val.truthy, hpos, decide_true, if_true]
    have hs1 : ({ st1 with scopes := hoist (Q root) :: st1.scopes } : State) = st2 := by
      simp only [st2, st1, hsc]
    rw [inScope_ok (by rw [hs1]; exact hex)]
    simp only [List.tail_cons]
    rfl
  · simp only [if_neg hpos]
    refine ⟨sc, [], props.insert n .undef, ?_, fun _ _ => rfl, ⟨.undef, Or.inl rfl, rfl⟩⟩
    apply hexec
    rw [exec_ifElse, hc]
    simp only [lift_ok, ok_bind, Val.truthy, hpos, decide_false, Bool.false_eq_true, if_false]
    let st2 : State := { st1 with scopes := [] :: st1.scopes }
    have hex : execs rt cls fuel [.assign (path [root, n]) .undef] st2 =
        .ok { st2 with heap := st2.heap.set i (.obj pr (props.insert n .undef)) } := by
      rw [execs_cons, exec_assign, assign_prop (v := .undef) (st' := st2) ((lookup_cons_none rfl).trans h0) rfl hi
        (hset n List.mem_cons_self)]
      rfl
    refine (inScope_ok (sc := []) hex).trans ?_
    simp only [List.append_nil, List.tail_cons, st2, st1, hsc]

theorem rstep_congr {P : Str → List Stmt} {names : List Str} {rd rd' : RState → List (PropOf JVal) × RState}
    (h : RStep rt cls fuel P names rd) (he : rd' = rd) : RStep rt cls fuel P names rd' := he ▸ h

theorem rstep_field (hcls : cls ≠ "Array".toList) (hfuel : 2 ^ 32 ≤ fuel) (f : FieldOf RType)
    (hA : RStep rt cls fuel (fun root => readType true [root, f.name] f.tyName f.ty) [f.name]
      (fun r => (component f.name (rdType rt f.ty r).1, (rdType rt f.ty r).2)))
    (hB : RItem rt cls fuel (itemProg f.tyName f.ty) (rdType rt f.ty)) :
    RStep rt cls fuel (fun root => readField [root] f) [f.name] (rdField rt f) := by
  have hbody : RStep rt cls fuel (fun root => (if f.array then rArr (itemInit f.ty) (fun st => readType false st f.tyName f.ty)
          else fun st => readType true st f.tyName f.ty) [root, f.name]) [f.name]
      (fun r => (component f.name (rdB rt f.ty f.array r).1, (rdB rt f.ty f.array r).2)) := by
    cases f.array with
    | false => exact hA
    | true => exact rstep_array f.name f.tyName f.ty hcls hfuel hB
  have hname : ∀ root, ∀ x ∈ letNames ((if f.array then rArr (itemInit f.ty) (fun st => readType false st f.tyName f.ty)
          else fun st => readType true st f.tyName f.ty) [root, f.name]), (root ++ "_".toList) <+: x := by
    intro root x hx
    cases ha : f.array with
    | false =>
      rw [ha] at hx
      exact nread_typeA f.name f.tyName f.ty root x hx
    | true =>
      rw [ha] at hx
      have : x ∈ [varname [root, f.name] "len".toList] := hx
      rw [List.mem_singleton] at this
      subst this
      exact varname_prefix _ _ _
  cases ho : f.optional with
  | false =>
    have h1 : (fun root => readField [root] f) = (fun root => (if f.array then rArr (itemInit f.ty) (fun st => readType false st f.tyName f.ty)
          else fun st => readType true st f.tyName f.ty) [root, f.name]) := by
      funext root
      rw [readField_eq, ho]
      rfl
    rw [h1]
    refine rstep_congr hbody ?_
    funext r
    rw [rdField_eq, ho]
    rfl
  | true =>
    have h1 : (fun root => readField [root] f) = (fun root => [.ifElse (.gt (readCall "uint8".toList) (.num 0))
        ((if f.array then rArr (itemInit f.ty) (fun st => readType false st f.tyName f.ty)
          else fun st => readType true st f.tyName f.ty) [root, f.name]) [.assign (path [root, f.name]) .undef]]) := by
      funext root
      rw [readField_eq, ho]
      rfl
    rw [h1]
    refine rstep_congr (rstep_optional f.name hname hbody) ?_
    funext r
    rw [rdField_eq, ho]
    rfl

theorem rstep_cons {f : FieldOf RType} {fs : List (FieldOf RType)}
    (h1 : RStep rt cls fuel (fun root => readField [root] f) [f.name] (rdField rt f))
    (h2 : RStep rt cls fuel (fun root => readFields [root] fs) (fs.map (·.name)) (rdFields rt fs)) :
    RStep rt cls fuel (fun root => readFields [root] (f :: fs)) ((f :: fs).map (·.name)) (rdFields rt (f :: fs)) := by
  intro root st sc scs i pr props hout hsc henv h0 hi hset hfresh hnd hok
  have hprog : readFields [root] (f :: fs) = readField [root] f ++ readFields [root] fs := rfl
  simp only [hprog, letNames_append, stmtsOk_append, Bool.and_eq_true] at hfresh hnd hok ⊢
  rw [List.nodup_append] at hnd
  obtain ⟨nd1, nd2, nd3⟩ := hnd
  have hil : i < st.heap.length := lt_of_getElem? hi
  obtain ⟨sc1, ext1, props1, hex1, hfr1, hrep1⟩ := h1 root st sc scs i pr props hout hsc henv h0 hi
    (fun n hn => hset n (by rw [List.mem_singleton] at hn; rw [hn]; exact List.mem_cons_self))
    (fun x hx => hfresh x (List.mem_append_left _ hx)) nd1 hok.1
  let st1 : State := { st with heap := (st.heap ++ ext1).set i (.obj pr props1), scopes := sc1 :: scs,
                               rd := (rdField rt f st.rd).2 }
  have hn1 := nread_field f root
  have hlk : ∀ x, x ∉ letNames (readField [root] f) → lookup (sc1 :: scs) x = lookup st.scopes x := by
    intro x hx
    rw [hsc]
    exact lookup_congr (hfr1 x hx)
  obtain ⟨sc2, ext2, props2, hex2, hfr2, hrep2⟩ := h2 root st1 sc1 scs i pr props1 hout rfl
    (henv.mono fun x hx => hlk x fun h => hx (prefix_root hout (hn1 x h)))
    ((hlk root fun h => ne_of_prefix (hn1 _ h) rfl).trans h0)
    (List.getElem?_set_self (by rw [List.length_append]; omega))
    (fun n hn => hset n (List.mem_cons_of_mem _ hn))
    (by
      intro x hx
      rw [hfr1 x (fun h => nd3 x h x hx rfl)]
      exact hfresh x (List.mem_append_right _ hx))
    nd2 hok.2
  have hheap : (st1.heap ++ ext2).set i (.obj pr props2) = (st.heap ++ (ext1 ++ ext2)).set i (.obj pr props2) := by
    show ((st.heap ++ ext1).set i (.obj pr props1) ++ ext2).set i (.obj pr props2) = _
    rw [set_app (by rw [List.length_set, List.length_append]; omega), List.set_set,
      ← set_app (by rw [List.length_append]; omega), List.append_assoc]
  refine ⟨sc2, ext1 ++ ext2, props2, ?_, ?_, ?_⟩
  · rw [execs_append, hex1, ok_bind, hex2, hheap]
    rfl
  · intro x hx
    rw [List.mem_append, not_or] at hx
    rw [hfr2 x hx.2, hfr1 x hx.1]
  · show RepIns _ _ ((rdField rt f st.rd).1 ++ (rdFields rt fs (rdField rt f st.rd).2).1) _ _
    refine repIns_append (b := props1) ?_ ?_
    · refine repIns_mono (Nat.le_refl _) ?_ hrep1
      intro k o hk hg
      rw [← List.append_assoc]
      exact agree_app _ _ _ 0 _ (Nat.zero_le _) hg
    · refine repIns_mono (lo := st1.heap.length) ?_ (h := st1.heap ++ ext2) ?_ hrep2
      · simp only [st1, List.length_set, List.length_append]
        omega
      · intro k o hk hg
        have hk' : i ≠ k := by
          simp only [st1, List.length_set, List.length_append] at hk
          omega
        rw [← List.append_assoc]
        have e : st1.heap ++ ext2 = ((st.heap ++ ext1) ++ ext2).set i (.obj pr props1) := by
          rw [set_app (by rw [List.length_append]; omega)]
        rw [e, List.getElem?_set_ne hk'] at hg
        exact hg

mutual
theorem rstep_fields (hcls : cls ≠ "Array".toList) (hfuel : 2 ^ 32 ≤ fuel) : (fs : List (FieldOf RType)) →
    SoundFs fs → OrdinaryFs fs →
    RStep rt cls fuel (fun root => readFields [root] fs) (fs.map (·.name)) (rdFields rt fs)
  | [], _, _ => by
    intro root st sc scs i pr props _ hsc _ _ hi _ _ _ _
    refine ⟨sc, [], props, ?_, fun _ _ => rfl, rfl⟩
    rw [List.append_nil, heap_set_self hi, ← hsc]
    rfl
  | f :: fs, h, ho =>
    rstep_cons (rstep_field hcls hfuel f (rstep_F hcls hfuel f h.1 ho.1).1 (rstep_F hcls hfuel f h.1 ho.1).2)
      (rstep_fields hcls hfuel fs h.2 ho.2)
theorem rstep_F (hcls : cls ≠ "Array".toList) (hfuel : 2 ^ 32 ≤ fuel) : (f : FieldOf RType) → SoundF f → OrdinaryF f →
    RStep rt cls fuel (fun root => readType true [root, f.name] f.tyName f.ty) [f.name]
      (fun r => (component f.name (rdType rt f.ty r).1, (rdType rt f.ty r).2)) ∧
    RItem rt cls fuel (itemProg f.tyName f.ty) (rdType rt f.ty)
  | ⟨n, tn, t, _, _⟩, h, ho => rstep_type hcls hfuel n tn t h.1 h.2 ho.2
theorem rstep_type (hcls : cls ≠ "Array".toList) (hfuel : 2 ^ 32 ≤ fuel) (n tn : Str) : (t : RType) →
    (∀ b, t = .builtin b → tn = builtinName b) → SoundT t → OrdinaryT t →
    RStep rt cls fuel (fun root => readType true [root, n] tn t) [n]
      (fun r => (component n (rdType rt t r).1, (rdType rt t r).2)) ∧
    RItem rt cls fuel (itemProg tn t) (rdType rt t)
  | .builtin b, h, _, _ => ⟨rstep_leaf n tn _ trivial h, ritem_leaf tn _ trivial h⟩
  | .enum e, h, _, _ => ⟨rstep_leaf n tn _ trivial h, ritem_leaf tn _ trivial h⟩
  | .struct fs, _, h, ho =>
    ⟨rstep_struct n tn (rstep_fields hcls hfuel fs h ho.2) (ordinary_names ho.2) ho.1,
     ritem_struct tn (rstep_fields hcls hfuel fs h ho.2) (ordinary_names ho.2) ho.1⟩
end

end

end Packetc.Js
