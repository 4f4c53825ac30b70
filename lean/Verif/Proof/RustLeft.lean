import Verif.Rust.Left
import Verif.Spec.RustLeft
import Verif.Proof.RustExact
/-!
# What a failing `read` leaves in its output
-/

namespace Packetc.Rs
open Check
open Js (Num Scalar utf8Enc scalarOf reprScalar SoundEnum EnumsT EnumsFs EnumsF slotsT slotsFs slotsF AllT AllFs AllF)
open Gen (varname bindname reprName)

section
variable (lib : Lib) (P : Prog)

/-! ### Runs that end well -/

theorem cut_block {m : M Unit} {s s' : St} (h : block m s = .ok () s') : ∃ s1, m s = .ok () s1 ∧ cut s.env.length s1.env = s'.env := by
  unfold block at h
  split at h
  · rename_i s1 h1
    cases h
    exact ⟨s1, h1, rfl⟩
  · rename_i r hr
    exact absurd h (hr _ _)

theorem leaveRounds_ok {left : St → List (Str × Val)} {body : M Unit} {n : Nat} : ∀ {s s' : St}, rounds body n s = .ok () s' →
    leaveRounds left body n s = s'.env := by
  induction n with
  | zero =>
    intro s s' h
    cases h
    rfl
  | succ n ih =>
    intro s s' h
    have h : (body >>= fun _ => rounds body n) s = .ok () s' := h
    rw [bind_apply] at h
    unfold leaveRounds
    cases hb : body s with
    | ok a s1 => rw [hb] at h; exact ih h
    | err => rw [hb] at h; cases h
    | abort => rw [hb] at h; cases h
    | stuck => rw [hb] at h; cases h

theorem leaveEach_ok {left : Val → St → List (Str × Val)} {body : Val → M Unit} {l : List Val} : ∀ {s s' : St}, forEach body l s = .ok () s' →
    leaveEach left body l s = s'.env := by
  induction l with
  | nil =>
    intro s s' h
    cases h
    rfl
  | cons v l ih =>
    intro s s' h
    have h : (body v >>= fun _ => forEach body l) s = .ok () s' := h
    rw [bind_apply] at h
    unfold leaveEach
    cases hb : body v s with
    | ok a s1 => rw [hb] at h; exact ih h
    | err => rw [hb] at h; cases h
    | abort => rw [hb] at h; cases h
    | stuck => rw [hb] at h; cases h

/-- The variables after a run that ends well are those of the result. -/
theorem leaveAll_ok : (ts : List Stmt) → ∀ {s s' : St}, execAll lib P ts s = .ok () s' → leaveAll lib P ts s = s'.env
  | [], s, s', h => by cases h; rfl
  | t :: ts, s, s', h => by
    rw [execAll_cons, bind_apply] at h
    unfold leaveAll
    cases hb : exec lib P t s with
    | ok a s1 => rw [hb] at h; exact leaveAll_ok ts h
    | err => rw [hb] at h; cases h
    | abort => rw [hb] at h; cases h
    | stuck => rw [hb] at h; cases h

theorem leaveAll_append (a b : List Stmt) (s : St) : leaveAll lib P (a ++ b) s =
    match execAll lib P a s with | .ok _ s' => leaveAll lib P b s' | _ => leaveAll lib P a s := by
  induction a generalizing s with
  | nil => rfl
  | cons t ts ih =>
    show (match exec lib P t s with | .ok _ s' => leaveAll lib P (ts ++ b) s' | _ => leave lib P t s) = 
      match execAll lib P (t :: ts) s with | .ok _ s' => leaveAll lib P b s' | _ => match exec lib P t s with | .ok _ s' => leaveAll lib P ts s' | _ => leave lib P t s
    rw [execAll_cons, bind_apply]
    cases exec lib P t s with
    | ok a s1 => exact ih s1
    | _ => rfl

theorem leaveAll_ok_append {a b : List Stmt} {s s' : St} (h : execAll lib P a s = .ok () s') : leaveAll lib P (a ++ b) s = leaveAll lib P b s' := by
  rw [leaveAll_append, h]

theorem leaveAll_err_append {a b : List Stmt} {s : St} (h : execAll lib P a s = .err) : leaveAll lib P (a ++ b) s = leaveAll lib P a s := by
  rw [leaveAll_append, h]

theorem leaveAll_cons_ok {t : Stmt} {ts : List Stmt} {s s' : St} (h : exec lib P t s = .ok () s') : leaveAll lib P (t :: ts) s = leaveAll lib P ts s' := by
  show (match exec lib P t s with | .ok _ s' => _ | _ => _) = _
  rw [h]

theorem leaveAll_cons_err {t : Stmt} {ts : List Stmt} {s : St} (h : exec lib P t s = .err) : leaveAll lib P (t :: ts) s = leave lib P t s := by
  show (match exec lib P t s with | .ok _ s' => _ | _ => _) = _
  rw [h]

theorem leaveSimple_err {t : Stmt} {s : St} (h : exec lib P t s = .err) : leaveSimple lib P t s = s.env := by
  unfold leaveSimple
  rw [h]

/-! ### What is left of each type -/

/-- The items read before the first that cannot be read. -/
def leftItems (one : List UInt8 → Got Val) : Nat → List Val → List UInt8 → List Val
  | 0, l, _ => l
  | n + 1, l, r => match one r with
    | .ok v r' => leftItems one n (l ++ [v]) r'
    | _ => l

mutual
def leftT : RType → Val → List UInt8 → Val
  | .struct fs, .struct ps, r => .struct (leftFs fs ps r)
  | _, old, _ => old
def leftFs : List (FieldOf RType) → List (Str × Val) → List UInt8 → List (Str × Val)
  | f :: fs, p :: ps, r => match rdF lib f p.2 r with
    | .ok v r' => (f.name, v) :: leftFs fs ps r'
    | _ => (f.name, leftF f p.2 r) :: ps
  | _, ps, _ => ps
def leftF : FieldOf RType → Val → List UInt8 → Val
  | ⟨_, tn, ty, array, optional⟩, old, r =>
    if optional then old
    else if array then
      match old, rdNum lib .uint32 r with
      | .vec l, .ok n r' => .vec (leftItems (fun r => rdT lib tn ty (dfltT tn ty) r) (toInt n).toNat l r')
      | _, _ => old
    else leftT ty old r
end

/-- Where reading fails, `g` is left in the place. -/
def LeavesAt (ok : List Str → Prop) (prog : List Str → List Stmt) (shape : Val → Prop) (f : Val → List UInt8 → Got Val)
    (g : Val → List UInt8 → Val) : Prop :=
  ∀ env x fs r old out rest, ok fs → get env x = some r → getV r fs = some old → shape old → f old rest = .err →
    ∃ pre r' env', setV r fs (g old rest) = some r' ∧ set env x r' = some env' ∧ (∀ p ∈ pre, x.length < p.1.length) ∧
      leaveAll lib P (prog (x :: fs)) ⟨env, out, rest⟩ = pre ++ env'

/-- Nothing is left of a single statement that fails. -/
theorem leaves_simple {prog : List Str → List Stmt} {f : Val → List UInt8 → Got Val} {shape : Val → Prop}
    (hp : ReadsAt lib P (fun _ => True) prog shape f) (h1 : ∀ st, ∃ t, prog st = [t] ∧ ∀ s, leave lib P t s = leaveSimple lib P t s) :
    LeavesAt lib P (fun _ => True) prog shape f (fun old _ => old) := by
  intro env x fs r old out rest ht h2 h3 h4 h5
  obtain ⟨t, hpt, hl⟩ := h1 (x :: fs)
  have := hp env x fs r old out rest ht h2 h3 h4
  rw [h5, hpt] at this
  have this : execAll lib P [t] ⟨env, out, rest⟩ = .err := this
  rw [execAll_one] at this
  refine ⟨[], r, env, setV_same h3, set_same h2, by simp, ?_⟩
  rw [hpt, leaveAll_cons_err lib P this, hl, leaveSimple_err lib P this]
  rfl

theorem leaves_string : LeavesAt lib P (fun _ => True)
    (fun st => [.letS false (varname st "len".toList) (.cast (.read "uint32".toList) "usize".toList),
      .assign (path st) (.readString (.var (varname st "len".toList)))]) (fun _ => True)
    (fun _ r => (rdNum lib .uint32 r).bind fun n r' => (rdStr (toInt n).toNat r').bind fun t r'' => .ok (.str t) r'') (fun old _ => old) := by
  intro env x fs r old out rest _ h1 h2 _ h5
  have hall := reads_string lib P env x fs r old out rest True.intro h1 h2 True.intro
  dsimp only at hall h5 ⊢
  rw [h5] at hall
  have hall : execAll lib P [_, _] _ = .err := hall
  have hl := exec_readLen lib P (varname (x :: fs) "len".toList) env out rest
  cases hn : rdNum lib .uint32 rest with
  | err =>
    rw [hn] at hl
    refine ⟨[], r, env, setV_same h2, set_same h1, by simp, ?_⟩
    rw [leaveAll_cons_err lib P hl]
    exact leaveSimple_err lib P hl
  | abort => exact absurd hn (rdNum_not_abort lib)
  | ok n r' =>
    rw [hn] at hl
    rw [execAll_two lib P hl] at hall
    refine ⟨[(varname (x :: fs) "len".toList, Val.num (.int (toInt n)))], r, env, setV_same h2, set_same h1, ?_, ?_⟩
    · intro p hp
      simp only [List.mem_singleton] at hp
      rw [hp]
      exact varname_length x fs _
    · rw [leaveAll_cons_ok lib P hl, leaveAll_cons_err lib P hall]
      exact leaveSimple_err lib P hall

/-- A block that begins with a new variable into which is read: if it fails there, it has changed no older variable. -/
theorem leaves_block {tn : Str} {prog : List Str → List Stmt} {shape : Val → Prop} {f : Val → List UInt8 → Got Val} {g : Val → List UInt8 → Val} {d : Val}
    (hp : ReadsAt lib P (fun _ => True) prog shape f) (hl : LeavesAt lib P (fun _ => True) prog shape f g) (hd : P.dflt tn = d) (hs : shape d)
    {env : List (Str × Val)} {out rest : List UInt8} (b : Str) (last : List Stmt) (hf : f d rest = .err) :
    cut env.length (leaveAll lib P ([.letS true b (.dflt tn)] ++ prog [b] ++ last) ⟨env, out, rest⟩) = env := by
  have hlet : exec lib P (.letS true b (.dflt tn)) ⟨env, out, rest⟩ = .ok () ⟨(b, d) :: env, out, rest⟩ := by
    show Res.ok () ⟨(b, P.dflt tn) :: env, out, rest⟩ = _
    rw [hd]
  have hb := hp ((b, d) :: env) b [] d d out rest True.intro (get_head b d env) (getV_nil d) hs
  rw [hf] at hb
  have hb : execAll lib P (prog [b]) ⟨(b, d) :: env, out, rest⟩ = .err := hb
  obtain ⟨pre, r', env', g1, g2, -, g4⟩ := hl ((b, d) :: env) b [] d d out rest True.intro (get_head b d env) (getV_nil d) hs hf
  have : set ((b, d) :: env) b r' = some ((b, r') :: env) := if_pos rfl
  rw [this] at g2
  cases g2
  rw [List.append_assoc]
  show cut env.length (leaveAll lib P (_ :: (prog [b] ++ last)) _) = _
  rw [leaveAll_cons_ok lib P hlet, leaveAll_err_append lib P hb, g4]
  unfold cut
  have : (pre ++ (b, r') :: env) = (pre ++ [(b, r')]) ++ env := by simp
  rw [this, List.length_append, Nat.add_sub_cancel, List.drop_left]

theorem leaves_opt {tn : Str} {prog : List Str → List Stmt} {shape : Val → Prop} {f : Val → List UInt8 → Got Val} {g : Val → List UInt8 → Val} {d : Val}
    (hp : ReadsAt lib P (fun _ => True) prog shape f) (hl : LeavesAt lib P (fun _ => True) prog shape f g) (hd : P.dflt tn = d) (hs : shape d) :
    LeavesAt lib P (fun fs => fs ≠ []) (rOpt tn prog) (fun _ => True) (fun old r =>
      (rdNum lib .uint8 r).bind fun n r' =>
        if 0 < toInt n then (f d r').bind fun v r'' => .ok (.some v) r'' else .ok old r') (fun old _ => old) := by
  intro env x fs r old out rest hfs h1 h2 _ h5
  have hall := reads_opt lib P hp hd hs env x fs r old out rest hfs h1 h2 True.intro
  dsimp only at hall h5 ⊢
  rw [h5] at hall
  have hall : execAll lib P [_] _ = .err := hall
  rw [execAll_one] at hall
  refine ⟨[], r, env, setV_same h2, set_same h1, by simp, ?_⟩
  unfold rOpt
  rw [leaveAll_cons_err lib P hall]
  generalize bindname (x :: fs) = b at *
  have he := eval_read lib P u8_named ⟨env, out, rest⟩
  show (match eval lib P (.read "uint8".toList) ⟨env, out, rest⟩ with | .ok (.num (.int i)) s' => _ | _ => _) = env
  cases hn : rdNum lib .uint8 rest with
  | err =>
    rw [hn] at he
    rw [he]
  | abort => exact absurd hn (rdNum_not_abort lib)
  | ok n r' =>
    rw [hn] at he h5
    have hint : n = .int (toInt n) := num_int (by decide) (rdNum_ok lib hn).1
    replace h5 : (if 0 < toInt n then (f d r').bind _ else Got.ok old r') = .err := h5
    generalize toInt n = i at *
    subst hint
    rw [he]
    show (if ((0 : Nat) : Int) < i then cut env.length (leaveAll lib P _ ⟨env, out, r'⟩) else env) = env
    split
    · rename_i h0
      rw [if_pos (by simpa using h0)] at h5
      refine leaves_block lib P hp hl hd hs b _ ?_
      cases hf : f d r' with
      | err => rfl
      | abort => rw [hf] at h5; cases h5
      | ok v r'' => rw [hf] at h5; cases h5
    · rfl

theorem leaves_arr {tn : Str} {prog : List Str → List Stmt} {shape : Val → Prop} {f : Val → List UInt8 → Got Val} {g : Val → List UInt8 → Val} {d : Val}
    (hp : ReadsAt lib P (fun _ => True) prog shape f) (hl : LeavesAt lib P (fun _ => True) prog shape f g) (hd : P.dflt tn = d) (hs : shape d) :
    LeavesAt lib P (fun _ => True) (rArr tn prog) (fun v => ∃ l, v = .vec l) (fun old r =>
      (rdNum lib .uint32 r).bind fun n r' =>
        if (match old with | .vec l => l | _ => []).length + (toInt n).toNat ≤ lib.maxItems then
          (rdItems (f d) (toInt n).toNat (match old with | .vec l => l | _ => []) r').bind fun l' r'' => .ok (.vec l') r''
        else .abort)
      (fun old r => match old, rdNum lib .uint32 r with
        | .vec l, .ok n r' => .vec (leftItems (f d) (toInt n).toNat l r')
        | _, _ => old) := by
  rintro env x fs r old out rest - h1 h2 ⟨l, rfl⟩ h5
  have hr := exec_readLen lib P (varname (x :: fs) "len".toList) env out rest
  have hlen := varname_length x fs "len".toList
  have hitem := varname_length x fs "item".toList
  unfold rArr
  generalize varname (x :: fs) "len".toList = len at *
  generalize varname (x :: fs) "item".toList = item at *
  dsimp only at h5 ⊢
  cases hn : rdNum lib .uint32 rest with
  | err =>
    rw [hn] at hr
    refine ⟨[], r, env, setV_same h2, set_same h1, by simp, ?_⟩
    rw [leaveAll_cons_err lib P hr]
    exact leaveSimple_err lib P hr
  | abort => exact absurd hn (rdNum_not_abort lib)
  | ok n r' =>
    rw [hn] at hr h5
    have hne : x ≠ len := by
      intro e
      rw [← e] at hlen
      omega
    have h5 : (if l.length + (toInt n).toNat ≤ lib.maxItems then (rdItems (f d) (toInt n).toNat l r').bind _ else Got.abort) = .err := h5
    have h1' : get ((len, .num (.int (toInt n))) :: env) x = some r := (if_neg hne).trans h1
    have hm : l.length + (toInt n).toNat ≤ lib.maxItems := by
      by_contra hm
      rw [if_neg hm] at h5
      cases h5
    rw [if_pos hm] at h5
    have hq : rdItems (f d) (toInt n).toNat l r' = .err := by
      cases hq : rdItems (f d) (toInt n).toNat l r' with
      | err => rfl
      | abort => rw [hq] at h5; cases h5
      | ok _ _ => rw [hq] at h5; cases h5
    have hres : exec lib P (.reserve (path (x :: fs)) (.var len)) ⟨(len, .num (.int (toInt n))) :: env, out, r'⟩ =
        .ok () ⟨(len, .num (.int (toInt n))) :: env, out, r'⟩ := by
      show (load (path (x :: fs)) >>= _) _ = _
      rw [bind_ok (At.load ⟨x, fs, r, rfl, h1', h2⟩ out r')]
      show (eval lib P (path [len]) >>= _) _ = _
      rw [bind_ok ((At.head _ _ env).eval lib P out r')]
      show (ite (l.length + (toInt n).toNat ≤ lib.maxItems) (pure () : M Unit) (fun _ => Res.abort : M Unit) : M Unit) _ = _
      exact congrFun (if_pos hm) _
    have hfor : exec lib P (.forRange (.var len) ([.letS true item (.dflt tn)] ++ prog [item] ++ [.push (path (x :: fs)) (.var item)]))
        ⟨(len, .num (.int (toInt n))) :: env, out, r'⟩ =
        rounds (block (execAll lib P ([.letS true item (.dflt tn)] ++ prog [item] ++ [.push (path (x :: fs)) (.var item)]))) (toInt n).toNat
          ⟨(len, .num (.int (toInt n))) :: env, out, r'⟩ := by
      show (eval lib P (path [len]) >>= _) _ = _
      rw [bind_ok ((At.head _ _ env).eval lib P out r')]
    have hloop := loop_items lib P hp hd hs hitem (fs := fs) out (toInt n).toNat ((len, .num (.int (toInt n))) :: env) r l r' h1' h2
    rw [hq] at hloop
    rw [leaveAll_cons_ok lib P hr, leaveAll_cons_ok lib P hres, leaveAll_cons_err lib P (hfor.trans hloop)]
    have hleave : leave lib P (.forRange (.var len) ([.letS true item (.dflt tn)] ++ prog [item] ++ [.push (path (x :: fs)) (.var item)]))
        ⟨(len, .num (.int (toInt n))) :: env, out, r'⟩ =
        leaveRounds (fun s => cut s.env.length (leaveAll lib P ([.letS true item (.dflt tn)] ++ prog [item] ++ [.push (path (x :: fs)) (.var item)]) s))
          (block (execAll lib P ([.letS true item (.dflt tn)] ++ prog [item] ++ [.push (path (x :: fs)) (.var item)]))) (toInt n).toNat
          ⟨(len, .num (.int (toInt n))) :: env, out, r'⟩ := by
      show (match eval lib P (path [len]) ⟨(len, .num (.int (toInt n))) :: env, out, r'⟩ with | .ok (.num (.int k)) s' => _ | _ => _) = _
      rw [(At.head _ _ env).eval lib P out r']
    rw [hleave]
    have key : ∀ (n : Nat) (env : List (Str × Val)) (r : Val) (l : List Val) (rest : List UInt8), get env x = some r →
        getV r fs = some (.vec l) → rdItems (f d) n l rest = .err →
        ∃ r' env', setV r fs (.vec (leftItems (f d) n l rest)) = some r' ∧ set env x r' = some env' ∧
          leaveRounds (fun s => cut s.env.length (leaveAll lib P ([.letS true item (.dflt tn)] ++ prog [item] ++ [.push (path (x :: fs)) (.var item)]) s))
            (block (execAll lib P ([.letS true item (.dflt tn)] ++ prog [item] ++ [.push (path (x :: fs)) (.var item)]))) n ⟨env, out, rest⟩ = env' := by
      intro n
      induction n with
      | zero =>
        intro env r l rest h1 h2 h
        cases h
      | succ n ih =>
        intro env r l rest h1 h2 h
        have h : (f d rest).bind (fun v r' => rdItems (f d) n (l ++ [v]) r') = .err := h
        have hr := round_item lib P hp hd hs hitem h1 h2 out rest
        unfold leaveRounds leftItems
        cases hf : f d rest with
        | abort => rw [hf] at h; cases h
        | err =>
          rw [hf] at hr
          dsimp only at hr
          refine ⟨r, env, setV_same h2, set_same h1, ?_⟩
          rw [hr]
          exact leaves_block lib P hp hl hd hs item _ hf
        | ok v rest' =>
          rw [hf] at hr h
          obtain ⟨r1, env1, g1, g2, g3⟩ := hr
          obtain ⟨r1', k1, k2, k3⟩ := setV_some h2 (.vec (l ++ [v]))
          rw [k1] at g1
          cases g1
          obtain ⟨env1', m1, m2, -, -, m5⟩ := set_some h1 r1
          rw [m1] at g2
          cases g2
          obtain ⟨r2, env2, n1, n2, n3⟩ := ih env1 r1 (l ++ [v]) rest' m2 k2 h
          refine ⟨r2, env2, ?_, ?_, ?_⟩
          · rw [← k3]; exact n1
          · rw [← m5]; exact n2
          · rw [g3]; exact n3
    obtain ⟨r2, env2, g1, g2, g3⟩ := key _ _ r l r' h1' h2 hq
    have g2' : set ([(len, Val.num (.int (toInt n)))] ++ env) x r2 = some env2 := g2
    rw [set_skip (by intro p hp; simp only [List.mem_singleton] at hp; rw [hp]; exact fun e => hne e.symm)] at g2'
    obtain ⟨env3, h6, h7⟩ := Option.map_eq_some_iff.1 g2'
    refine ⟨[(len, Val.num (.int (toInt n)))], r2, env3, g1, h6, ?_, ?_⟩
    · intro p hp
      simp only [List.mem_singleton] at hp
      rw [hp]
      exact hlen
    · rw [g3, h7]

mutual
theorem leave_type (tn : Str) : (t : RType) → FitsT P tn t → DefT P tn t →
    LeavesAt lib P (fun _ => True) (fun st => readType st tn t) (ShapeT t) (rdT lib tn t) (leftT lib t)
  | .builtin b, hf, hd => by
    cases hb : scalarOf b with
    | none =>
      have : b = .string := by cases b <;> first | rfl | cases hb
      subst this
      exact leaves_string lib P
    | some sc =>
      have hp : ∀ st, readType st tn (.builtin b) = [.assign (path st) (.read tn)] := by intro st; cases b <;> first | rfl | cases hb
      exact leaves_simple lib P (read_type lib P tn (.builtin b) hf hd) (fun st => ⟨_, hp st, fun _ => rfl⟩)
  | .enum e, hf, hd => leaves_simple lib P (read_type lib P tn (.enum e) hf hd) (fun st => ⟨_, rfl, fun _ => rfl⟩)
  | .struct gs, hf, hd => by
    rintro env x fs r old out rest - h1 h2 ⟨ps, rfl, hps⟩ h5
    have hn : (([] ++ ps).map Prod.fst).Nodup := by
      rw [List.nil_append, shapeFs_names hps]
      exact hf.1
    refine leave_fields gs hf.2 hd.2 [] ps hps hn env x fs r out rest h1 h2 ?_
    have h5 : (rdFs lib gs ps rest).bind _ = .err := h5
    cases hq : rdFs lib gs ps rest with
    | err => rfl
    | ok qs rest' => rw [hq] at h5; cases h5
    | abort => rw [hq] at h5; cases h5
theorem leave_fields : (gs : List (FieldOf RType)) → FitsFs P gs → DefFs P gs → ∀ done ps, ShapeFs gs ps →
    ((done ++ ps).map Prod.fst).Nodup → ∀ env x fs r out rest, get env x = some r → getV r fs = some (.struct (done ++ ps)) →
    rdFs lib gs ps rest = .err →
    ∃ pre r' env', setV r fs (.struct (done ++ leftFs lib gs ps rest)) = some r' ∧ set env x r' = some env' ∧ (∀ p ∈ pre, x.length < p.1.length) ∧
      leaveAll lib P (readStruct (x :: fs) gs) ⟨env, out, rest⟩ = pre ++ env'
  | [], _, _, done, ps, hps, _, env, x, fs, r, out, rest, h1, h2, h5 => by cases h5
  | f :: gs, hf, hd, done, ps, hps, hn, env, x, fs, r, out, rest, h1, h2, h5 => by
    obtain ⟨⟨n, old⟩, qs, rfl, hp, hqs⟩ := hps
    have hname : n = f.name := by
      obtain ⟨n, tn, t, a, o⟩ := f
      exact hp.1
    subst hname
    have hnd : f.name ∉ done.map Prod.fst := by
      rw [List.map_append, List.map_cons, List.nodup_append] at hn
      intro hm
      exact hn.2.2 _ hm _ (List.mem_cons_self) rfl
    have hg : get (done ++ (f.name, old) :: qs) f.name = some old := get_mid hnd
    have hgf : getV r (fs ++ [f.name]) = some old := by
      rw [getV_append, h2, Option.bind_some, getV_struct, hg, Option.bind_some, getV_nil]
    have h := read_field lib P f hf.1 hd.1 env x fs r old out rest h1 hgf hp
    have h5 : (rdF lib f old rest).bind (fun v r' => (rdFs lib gs qs r').bind fun qs r'' => .ok ((f.name, v) :: qs) r'') = .err := h5
    show ∃ pre r' env', setV r fs (.struct (done ++ match rdF lib f old rest with
      | .ok v r' => (f.name, v) :: leftFs lib gs qs r'
      | _ => (f.name, leftF lib f old rest) :: qs)) = some r' ∧ _ ∧ _ ∧ leaveAll lib P (readField (x :: fs) f ++ readStruct (x :: fs) gs) _ = _
    cases hq : rdF lib f old rest with
    | abort => rw [hq] at h5; cases h5
    | err =>
      rw [hq] at h
      obtain ⟨pre, r', env', g1, g2, g3, g4⟩ := leave_field f hf.1 hd.1 env x fs r old out rest h1 hgf hp hq
      have hset : set (done ++ (f.name, old) :: qs) f.name (leftF lib f old rest) = some (done ++ (f.name, leftF lib f old rest) :: qs) := set_mid hnd
      rw [setV_snoc h2 hg hset] at g1
      exact ⟨pre, r', env', g1, g2, g3, (leaveAll_err_append lib P h).trans g4⟩
    | ok v rest' =>
      rw [hq] at h h5
      obtain ⟨pre, r1, env1, g1, g2, g3, g4⟩ := h
      have hset : set (done ++ (f.name, old) :: qs) f.name v = some (done ++ (f.name, v) :: qs) := set_mid hnd
      rw [setV_snoc h2 hg hset] at g1
      obtain ⟨r1', k1, k2, k3⟩ := setV_some h2 (.struct (done ++ (f.name, v) :: qs))
      rw [k1] at g1
      cases g1
      obtain ⟨env1', m1, m2, -, -, m5⟩ := set_some h1 r1
      rw [m1] at g2
      cases g2
      have hn' : (((done ++ [(f.name, v)]) ++ qs).map Prod.fst).Nodup := by
        simpa using hn
      have hq' : rdFs lib gs qs rest' = .err := by
        have h5 : (rdFs lib gs qs rest').bind _ = .err := h5
        cases hq' : rdFs lib gs qs rest' with
        | err => rfl
        | ok _ _ => rw [hq'] at h5; cases h5
        | abort => rw [hq'] at h5; cases h5
      obtain ⟨pre2, r2, env2, n1, n2, n3, n4⟩ := leave_fields gs hf.2 hd.2 (done ++ [(f.name, v)]) qs hqs hn' (pre ++ env1) x fs r1 out rest'
        (by rw [get_skip (longer g3), m2]) (by rw [k2]; simp) hq'
      rw [set_skip (longer g3)] at n2
      obtain ⟨env3, o1, o2⟩ := Option.map_eq_some_iff.1 n2
      refine ⟨pre2 ++ pre, r2, env3, ?_, ?_, ?_, ?_⟩
      · rw [← k3, ← n1]
        simp
      · rw [← m5, o1]
      · intro p hp
        rcases List.mem_append.1 hp with hp | hp
        · exact n3 p hp
        · exact g3 p hp
      · rw [leaveAll_ok_append lib P g4, n4, List.append_assoc, o2]
theorem leave_field : (f : FieldOf RType) → FitsF P f → DefF P f → ∀ env x fs r old out rest, get env x = some r →
    getV r (fs ++ [f.name]) = some old → ShapeF f (f.name, old) → rdF lib f old rest = .err →
    ∃ pre r' env', setV r (fs ++ [f.name]) (leftF lib f old rest) = some r' ∧ set env x r' = some env' ∧ (∀ p ∈ pre, x.length < p.1.length) ∧
      leaveAll lib P (readField (x :: fs) f) ⟨env, out, rest⟩ = pre ++ env'
  | ⟨n, tn, t, a, o⟩, hf, hd, env, x, fs, r, old, out, rest, h1, h2, hs, h5 => by
    have ht := read_type lib P tn t hf hd.1
    have hl := leave_type tn t hf hd.1
    have hdf := hd.1.dflt
    rw [readField_eq]
    cases o with
    | true =>
      cases a with
      | true => exact absurd ⟨rfl, rfl⟩ hd.2
      | false =>
        exact leaves_opt lib P ht hl hdf (dflt_shape tn t) env x (fs ++ [n]) r old out rest (by simp) h1 h2 True.intro h5
    | false =>
      have hs' := hs.2.resolve_left (by simp)
      cases a with
      | true => exact leaves_arr lib P ht hl hdf (dflt_shape tn t) env x (fs ++ [n]) r old out rest True.intro h1 h2 hs' h5
      | false => exact hl env x (fs ++ [n]) r old out rest True.intro h1 h2 hs' h5
end

end

/-! ### Where something is left -/

section
variable (lib : Lib)

mutual
theorem rd_no_slots (tn : Str) : (t : RType) → slotsT t = 0 → ∀ v, ShapeT t v → ∀ r, rdT lib tn t v r = .ok v r
  | .builtin b, h => by cases b <;> cases h
  | .enum _, h => by cases h
  | .struct fs, h => by
    rintro _ ⟨ps, rfl, hs⟩ r
    show (rdFs lib fs ps r).bind _ = _
    rw [rdFs_no_slots fs h ps hs]
    rfl
theorem rdFs_no_slots : (fs : List (FieldOf RType)) → slotsFs fs = 0 → ∀ ps, ShapeFs fs ps → ∀ r, rdFs lib fs ps r = .ok ps r
  | [], _ => by
    rintro _ rfl r
    rfl
  | f :: fs, h => by
    rintro _ ⟨⟨n, v⟩, qs, rfl, h1, h2⟩ r
    have h : slotsF f + slotsFs fs = 0 := h
    show (rdF lib f v r).bind _ = _
    rw [rdF_no_slots f (by omega) _ h1]
    show (rdFs lib fs qs r).bind _ = _
    rw [rdFs_no_slots fs (by omega) qs h2]
    obtain ⟨m, tn, t, a, o⟩ := f
    obtain ⟨h1, -⟩ := h1
    cases h1
    rfl
theorem rdF_no_slots : (f : FieldOf RType) → slotsF f = 0 → ∀ p, ShapeF f p → ∀ r, rdF lib f p.2 r = .ok p.2 r
  | ⟨n, tn, t, a, o⟩, h => by
    rintro ⟨m, v⟩ hs r
    have h : (if o then 1 else 0) + (if a then 1 else 0) + slotsT t = 0 := h
    cases o with
    | true => simp at h
    | false =>
      cases a with
      | true => simp at h
      | false => exact rd_no_slots tn t (by simpa using h) v (hs.2.resolve_left (by simp)) r
end

theorem leftItems_none {one : List UInt8 → Got Val} (h : ∀ r, ∃ v, one r = .ok v r) (n : Nat) : ∀ l r, rdItems one n l r ≠ .err := by
  induction n with
  | zero => intro l r h; cases h
  | succ n ih =>
    intro l r h'
    obtain ⟨v, hv⟩ := h r
    have h' : (one r).bind _ = .err := h'
    rw [hv] at h'
    exact ih _ _ h'

mutual
/-- Reading changes nothing in a type with a single value. -/
theorem rd_single {lim : Nat} (tn : Str) : (t : RType) → ¬ ChangesT t → EnumsT SoundEnum t → ∀ v, ValT lim tn t v → ∀ r w r', rdT lib tn t v r = .ok w r' → w = v
  | .builtin _, h => absurd True.intro h
  | .enum e, h => by
    rintro hs v ⟨u, hu, rfl⟩ r w r' hr
    obtain ⟨n, r1, -, hr⟩ := Got.bind_ok hr
    obtain ⟨u0, us, hv, -⟩ := head_arm hs
    have h : ¬ 2 ≤ e.variants.length := h
    have hus : us = [] := by
      cases us with
      | nil => rfl
      | cons _ _ => rw [hv] at h; simp at h
    rw [hv, hus] at hu hr
    simp only [List.mem_singleton] at hu
    subst hu
    split at hr
    · rename_i x hx
      cases hr
      have hx : (match toInt n == (Gen.i32Shl1 u.value).getD 0 with | true => some u.name | false => none) = some x := hx
      split at hx
      · cases hx; rfl
      · cases hx
    · cases hr
  | .struct fs, h => by
    rintro hs _ ⟨ps, rfl, hv⟩ r w r' hr
    obtain ⟨qs, r1, h1, h2⟩ := Got.bind_ok hr
    cases h2
    rw [rdFs_single fs h hs ps hv r qs _ h1]
theorem rdFs_single {lim : Nat} : (fs : List (FieldOf RType)) → ¬ ChangesFs fs → EnumsFs SoundEnum fs → ∀ ps, ValFs lim fs ps → ∀ r qs r',
    rdFs lib fs ps r = .ok qs r' → qs = ps
  | [], _ => by
    rintro _ _ rfl r qs r' h
    cases h
    rfl
  | f :: fs, h => by
    rintro hs _ ⟨⟨n, v⟩, ps, rfl, h1, h2⟩ r qs r' hr
    obtain ⟨w, r1, h3, h4⟩ := Got.bind_ok hr
    obtain ⟨qs', r2, h5, h6⟩ := Got.bind_ok h4
    cases h6
    have h7 : w = v := rdF_single f (fun h' => h (.inl h')) hs.1 _ h1 r w r1 h3
    rw [rdFs_single fs (fun h' => h (.inr h')) hs.2 ps h2 r1 qs' _ h5, h7]
    obtain ⟨m, tn, t, a, o⟩ := f
    obtain ⟨h1, -⟩ := h1
    cases h1
    rfl
theorem rdF_single {lim : Nat} : (f : FieldOf RType) → ¬ ChangesF f → EnumsF SoundEnum f → ∀ p, ValF lim f p → ∀ r w r',
    rdF lib f p.2 r = .ok w r' → w = p.2
  | ⟨n, tn, t, a, o⟩, h => by
    rintro hs ⟨m, v⟩ ⟨-, hv⟩ r w r' hr
    cases a with
    | true => exact absurd (.inl rfl) h
    | false =>
      cases o with
      | true => exact absurd (.inr (.inl rfl)) h
      | false =>
        rcases hv with ⟨h', -⟩ | ⟨v', h', hv⟩
        · cases h'
        · cases h'
          exact rd_single tn t (fun h' => h (.inr (.inr h'))) hs v hv r w r' hr
end

mutual
/-- Nothing is left of types of the other form. -/
theorem left_same {lim : Nat} (tn : Str) : (t : RType) → ¬ LeavesT t → EnumsT SoundEnum t → ∀ v, ValT lim tn t v → ∀ r, rdT lib tn t v r = .err → leftT lib t v r = v
  | .builtin _, _ => by intro _ v _ r _; unfold leftT; rfl
  | .enum _, _ => by intro _ v _ r _; unfold leftT; rfl
  | .struct fs, h => by
    rintro hs _ ⟨ps, rfl, hv⟩ r hr
    have hr : (rdFs lib fs ps r).bind _ = .err := hr
    unfold leftT
    rw [leftFs_same fs h hs ps hv r]
    cases hq : rdFs lib fs ps r with
    | err => rfl
    | ok _ _ => rw [hq] at hr; cases hr
    | abort => rw [hq] at hr; cases hr
theorem leftFs_same {lim : Nat} : (fs : List (FieldOf RType)) → ¬ LeavesFs fs → EnumsFs SoundEnum fs → ∀ ps, ValFs lim fs ps → ∀ r,
    rdFs lib fs ps r = .err → leftFs lib fs ps r = ps
  | [], _ => by
    rintro _ _ rfl r h
    cases h
  | f :: fs, h => by
    rintro hs _ ⟨⟨n, v⟩, ps, rfl, h1, h2⟩ r hr
    have hr : (rdF lib f v r).bind (fun v r' => (rdFs lib fs ps r').bind _) = .err := hr
    have hn : f.name = n := by
      obtain ⟨m, tn, t, a, o⟩ := f
      exact h1.1.symm
    unfold leftFs
    dsimp only
    cases hq : rdF lib f v r with
    | abort => rw [hq] at hr; cases hr
    | err =>
      dsimp only
      rw [leftF_same f (fun h' => h (.inl h')) hs.1 _ h1 r hq, hn]
    | ok w r' =>
      rw [hq] at hr
      have hr : (rdFs lib fs ps r').bind _ = .err := hr
      have hq' : rdFs lib fs ps r' = .err := by
        cases hq' : rdFs lib fs ps r' with
        | err => rfl
        | ok _ _ => rw [hq'] at hr; cases hr
        | abort => rw [hq'] at hr; cases hr
      have h0 : slotsFs fs ≠ 0 := by
        intro h0
        rw [rdFs_no_slots lib fs h0 ps (valFs_shape _ _ h2)] at hq'
        cases hq'
      have h3 : w = v := rdF_single lib f (fun h' => h (.inr (.inl ⟨h', h0⟩))) hs.1 _ h1 r w r' hq
      dsimp only
      rw [leftFs_same fs (fun h' => h (.inr (.inr h'))) hs.2 ps h2 r' hq', h3, hn]
theorem leftF_same {lim : Nat} : (f : FieldOf RType) → ¬ LeavesF f → EnumsF SoundEnum f → ∀ p, ValF lim f p → ∀ r,
    rdF lib f p.2 r = .err → leftF lib f p.2 r = p.2
  | ⟨n, tn, t, a, o⟩, h => by
    rintro hs ⟨m, v⟩ ⟨-, hv⟩ r hr
    cases o with
    | true => rfl
    | false =>
      rcases hv with ⟨h', -⟩ | ⟨v', h', hv⟩
      · cases h'
      cases h'
      cases a with
      | true =>
        obtain ⟨l, rfl, -, -⟩ := hv
        show (match (Val.vec l), rdNum lib .uint32 r with | .vec l, .ok n r' => _ | _, _ => _) = _
        cases hn : rdNum lib .uint32 r with
        | err => rfl
        | abort => rfl
        | ok k r' =>
          have h0 : slotsT t = 0 := by
            by_contra h0
            exact h ⟨rfl, h0⟩
          have hr : (rdNum lib .uint32 r).bind (fun n r' => if l.length + (toInt n).toNat ≤ lib.maxItems then
              (rdItems (fun r => rdT lib tn t (dfltT tn t) r) (toInt n).toNat l r').bind fun l' r'' => .ok (Val.vec l') r'' else .abort) = .err := hr
          rw [hn] at hr
          have hr : (if l.length + (toInt k).toNat ≤ lib.maxItems then
              (rdItems (fun r => rdT lib tn t (dfltT tn t) r) (toInt k).toNat l r').bind fun l' r'' => .ok (Val.vec l') r'' else .abort) = Got.err := hr
          split at hr
          · cases hq : rdItems (fun r => rdT lib tn t (dfltT tn t) r) (toInt k).toNat l r' with
            | ok _ _ => rw [hq] at hr; cases hr
            | abort => rw [hq] at hr; cases hr
            | err => exact absurd hq (leftItems_none (fun r => ⟨_, rd_no_slots lib tn t h0 _ (dflt_shape tn t) r⟩) _ _ _)
          · cases hr
      | false => exact left_same tn t (fun h' => h ⟨rfl, h'⟩) hs v hv r hr
end

theorem rdNum_empty (sc : Scalar) : rdNum lib sc [] = .err := by
  unfold rdNum
  rw [if_neg]
  cases sc <;> decide

mutual
theorem rd_empty (tn : Str) : (t : RType) → slotsT t ≠ 0 → ∀ v, ShapeT t v → rdT lib tn t v [] = .err
  | .builtin b, _ => by
    intro v _
    unfold rdT
    cases scalarOf b with
    | none => dsimp only; rw [rdNum_empty]; rfl
    | some sc => dsimp only; rw [rdNum_empty]; rfl
  | .enum e, _ => by
    intro v _
    unfold rdT
    rw [rdNum_empty]
    rfl
  | .struct fs, h => by
    rintro _ ⟨ps, rfl, hs⟩
    show (rdFs lib fs ps []).bind _ = _
    rw [rdFs_empty fs h ps hs]
    rfl
theorem rdFs_empty : (fs : List (FieldOf RType)) → slotsFs fs ≠ 0 → ∀ ps, ShapeFs fs ps → rdFs lib fs ps [] = .err
  | [], h => absurd rfl h
  | f :: fs, h => by
    rintro _ ⟨⟨n, v⟩, qs, rfl, h1, h2⟩
    have h : slotsF f + slotsFs fs ≠ 0 := h
    show (rdF lib f v []).bind _ = _
    by_cases h0 : slotsF f = 0
    · have h3 : rdF lib f v [] = .ok v [] := rdF_no_slots lib f h0 _ h1 []
      rw [h3]
      show (rdFs lib fs qs []).bind _ = _
      rw [rdFs_empty fs (by omega) qs h2]
      rfl
    · have h3 : rdF lib f v [] = .err := rdF_empty f h0 _ h1
      rw [h3]
      rfl
theorem rdF_empty : (f : FieldOf RType) → slotsF f ≠ 0 → ∀ p, ShapeF f p → rdF lib f p.2 [] = .err
  | ⟨n, tn, t, a, o⟩, h => by
    rintro ⟨m, v⟩ hs
    cases o with
    | true =>
      unfold rdF
      rw [rdNum_empty]
      rfl
    | false =>
      cases a with
      | true =>
        unfold rdF
        rw [rdNum_empty]
        rfl
      | false =>
        have h : (if false = true then 1 else 0) + (if false = true then 1 else 0) + slotsT t ≠ 0 := h
        exact rd_empty tn t (by simpa using h) v (hs.2.resolve_left (by simp))
end

theorem rd_first (hm : 1 ≤ lib.maxItems) (tn : Str) (t : RType) (h : EnumsT SoundEnum t) (rest : List UInt8) :
    rdT lib tn t (dfltT tn t) (encT lib t (dfltT tn t) ++ rest) = .ok (dfltT tn t) rest := by
  have := rd_dflt lib false hm tn t h rest
  rwa [fillT_false] at this

theorem rdFs_first (hm : 1 ≤ lib.maxItems) (fs : List (FieldOf RType)) (h : EnumsFs SoundEnum fs) (rest : List UInt8) :
    rdFs lib fs (dfltFs fs) (encFs lib fs (dfltFs fs) ++ rest) = .ok (dfltFs fs) rest := by
  have := rd_dfltFs lib false hm fs h rest
  rwa [fillFs_false] at this

theorem rdF_first (hm : 1 ≤ lib.maxItems) (f : FieldOf RType) (h : EnumsF SoundEnum f) (rest : List UInt8) :
    rdF lib f (dfltF f) (encF lib f (dfltF f) ++ rest) = .ok (dfltF f) rest := by
  have := rd_dfltF lib false hm f h rest
  rwa [fillF_false] at this

mutual
theorem changeT {lim : Nat} (hl : 0 < lim) (hm : 1 ≤ lib.maxItems) (tn : Str) : (t : RType) → ChangesT t → EnumsT SoundEnum t →
    ∃ old bytes v, ValT lim tn t old ∧ v ≠ old ∧ ∀ rest, rdT lib tn t old (bytes ++ rest) = .ok v rest
  | .builtin b, _, he => by
    have key : ∃ old, ValT lim tn (.builtin b) old ∧ dfltT tn (.builtin b) ≠ old := by
      cases b <;>
        first
        | exact ⟨.num (.int 1), ⟨_, rfl, by decide, by decide⟩, by intro h; cases h⟩
        | exact ⟨.num (.f32 1#32), ⟨_, rfl, True.intro⟩, by intro h; injection h with h; injection h with h; exact absurd h (by decide)⟩
        | exact ⟨.str ['a'], ⟨_, rfl, by decide⟩, by intro h; cases h⟩
    obtain ⟨old, h1, h2⟩ := key
    exact ⟨old, _, _, h1, h2, fun rest => rd_first lib hm tn (.builtin b) he rest⟩
  | .enum e, h, he => by
    obtain ⟨w, hw, -, h2⟩ := last_variant he
    obtain ⟨u, us, hu, h3⟩ := head_arm he
    have h : 2 ≤ e.variants.length := h
    refine ⟨.variant tn w.name, _, _, ⟨w, hw, rfl⟩, ?_, fun rest => rd_first lib hm tn (.enum e) he rest⟩
    intro hd
    have hd : Val.variant tn ((e.variants.head?.map EnumVariant.name).getD []) = .variant tn w.name := hd
    rw [hu] at hd
    injection hd with _ hd
    have hd : u.name = w.name := hd
    have := sound_name_inj he (by rw [hu]; simp) hw hd
    rw [← this, h3] at h2
    omega
  | .struct fs, h, he => by
    obtain ⟨ps, bytes, qs, h1, h2, h3⟩ := changeFs hl hm fs h he
    refine ⟨.struct ps, bytes, .struct qs, ⟨ps, rfl, h1⟩, fun h => h2 (Val.struct.inj h), fun rest => ?_⟩
    show (rdFs lib fs ps _).bind _ = _
    rw [h3]
    rfl
theorem changeFs {lim : Nat} (hl : 0 < lim) (hm : 1 ≤ lib.maxItems) : (fs : List (FieldOf RType)) → ChangesFs fs → EnumsFs SoundEnum fs →
    ∃ old bytes v, ValFs lim fs old ∧ v ≠ old ∧ ∀ rest, rdFs lib fs old (bytes ++ rest) = .ok v rest
  | [], h, _ => absurd h id
  | f :: fs, h, he => by
    rcases h with h | h
    · obtain ⟨old, bytes, v, h1, h2, h3⟩ := changeF hl hm f h he.1
      refine ⟨(f.name, old) :: dfltFs fs, bytes ++ encFs lib fs (dfltFs fs), (f.name, v) :: dfltFs fs, ⟨_, _, rfl, h1, dfltFs_val hl fs he.2⟩, ?_, fun rest => ?_⟩
      · intro h
        injection h with h _
        exact h2 (Prod.mk.inj h).2
      · show (rdF lib f old _).bind _ = _
        rw [List.append_assoc, h3]
        show (rdFs lib fs (dfltFs fs) _).bind _ = _
        rw [rdFs_first lib hm fs he.2]
        rfl
    · obtain ⟨old, bytes, v, h1, h2, h3⟩ := changeFs hl hm fs h he.2
      refine ⟨(f.name, dfltF f) :: old, encF lib f (dfltF f) ++ bytes, (f.name, dfltF f) :: v, ⟨_, _, rfl, dfltF_val hl f he.1, h1⟩, ?_, fun rest => ?_⟩
      · intro h
        injection h with _ h
        exact h2 h
      · show (rdF lib f (dfltF f) _).bind _ = _
        rw [List.append_assoc, rdF_first lib hm f he.1]
        show (rdFs lib fs old _).bind _ = _
        rw [h3]
        rfl
theorem changeF {lim : Nat} (hl : 0 < lim) (hm : 1 ≤ lib.maxItems) : (f : FieldOf RType) → ChangesF f → EnumsF SoundEnum f →
    ∃ old bytes v, ValF lim f (f.name, old) ∧ v ≠ old ∧ ∀ rest, rdF lib f old (bytes ++ rest) = .ok v rest
  | ⟨n, tn, t, a, o⟩, h, he => by
    cases o with
    | true =>
      refine ⟨.none, lib.enc .uint8 (.int 1) ++ encT lib t (dfltT tn t), .some (dfltT tn t), ⟨rfl, .inl ⟨rfl, rfl⟩⟩, (by intro h; cases h), fun rest => ?_⟩
      show (rdNum lib .uint8 _).bind _ = _
      rw [List.append_assoc, rdNum_enc lib .uint8 (n := .int 1) ⟨by decide, by decide⟩]
      show (rdT lib tn t (dfltT tn t) _).bind _ = _
      rw [rd_first lib hm tn t he]
      rfl
    | false =>
      cases a with
      | true =>
        refine ⟨.vec [], lib.enc .uint32 (.int 1) ++ encT lib t (dfltT tn t), .vec [dfltT tn t],
          ⟨rfl, .inr ⟨_, rfl, [], rfl, hl, fun w hw => by cases hw⟩⟩, (by intro h; cases h), fun rest => ?_⟩
        show (rdNum lib .uint32 _).bind _ = _
        rw [List.append_assoc, rdNum_enc lib .uint32 (n := .int 1) ⟨by decide, by decide⟩]
        show (if 0 + 1 ≤ lib.maxItems then (Got.bind (Got.bind (rdT lib tn t (dfltT tn t) _) _) _) else _) = _
        rw [if_pos (by omega), rd_first lib hm tn t he]
        rfl
      | false =>
        obtain ⟨old, bytes, v, h1, h2, h3⟩ := changeT hl hm tn t (h.resolve_left (by simp) |>.resolve_left (by simp)) he
        exact ⟨old, bytes, v, ⟨rfl, .inr ⟨_, rfl, h1⟩⟩, h2, h3⟩
end

mutual
/-- Something is left of types of this form. -/
theorem left_other {lim : Nat} (hl : 0 < lim) (hm : 2 ≤ lib.maxItems) (tn : Str) : (t : RType) → LeavesT t → EnumsT SoundEnum t →
    ∃ old bytes, ValT lim tn t old ∧ rdT lib tn t old bytes = .err ∧ leftT lib t old bytes ≠ old
  | .builtin _, h, _ => absurd h id
  | .enum _, h, _ => absurd h id
  | .struct fs, h, he => by
    obtain ⟨ps, bytes, h1, h2, h3⟩ := leftFs_other hl hm fs h he
    refine ⟨.struct ps, bytes, ⟨ps, rfl, h1⟩, ?_, fun h => h3 (Val.struct.inj h)⟩
    show (rdFs lib fs ps _).bind _ = _
    rw [h2]
    rfl
theorem leftFs_other {lim : Nat} (hl : 0 < lim) (hm : 2 ≤ lib.maxItems) : (fs : List (FieldOf RType)) → LeavesFs fs → EnumsFs SoundEnum fs →
    ∃ old bytes, ValFs lim fs old ∧ rdFs lib fs old bytes = .err ∧ leftFs lib fs old bytes ≠ old
  | [], h, _ => absurd h id
  | f :: fs, h, he => by
    rcases h with h | ⟨h, h0⟩ | h
    · obtain ⟨old, bytes, h1, h2, h3⟩ := leftF_other hl hm f h he.1
      refine ⟨(f.name, old) :: dfltFs fs, bytes, ⟨_, _, rfl, h1, dfltFs_val hl fs he.2⟩, ?_, ?_⟩
      · show (rdF lib f old _).bind _ = _
        rw [h2]
        rfl
      · unfold leftFs
        dsimp only
        rw [h2]
        intro h
        injection h with h _
        exact h3 (Prod.mk.inj h).2
    · obtain ⟨old, bytes, v, h1, h2, h3⟩ := changeF lib hl (by omega) f h he.1
      have h3 := h3 []
      rw [List.append_nil] at h3
      refine ⟨(f.name, old) :: dfltFs fs, bytes, ⟨_, _, rfl, h1, dfltFs_val hl fs he.2⟩, ?_, ?_⟩
      · show (rdF lib f old _).bind _ = _
        rw [h3]
        show (rdFs lib fs (dfltFs fs) _).bind _ = _
        rw [rdFs_empty lib fs h0 _ (dfltFs_shape fs)]
        rfl
      · unfold leftFs
        dsimp only
        rw [h3]
        intro h
        injection h with h _
        exact h2 (Prod.mk.inj h).2
    · obtain ⟨old, bytes, h1, h2, h3⟩ := leftFs_other hl hm fs h he.2
      have h4 := rdF_first lib (by omega) f he.1 bytes
      refine ⟨(f.name, dfltF f) :: old, encF lib f (dfltF f) ++ bytes, ⟨_, _, rfl, dfltF_val hl f he.1, h1⟩, ?_, ?_⟩
      · show (rdF lib f (dfltF f) _).bind _ = _
        rw [h4]
        show (rdFs lib fs old _).bind _ = _
        rw [h2]
        rfl
      · unfold leftFs
        dsimp only
        rw [h4]
        intro h
        injection h with _ h
        exact h3 h
theorem leftF_other {lim : Nat} (hl : 0 < lim) (hm : 2 ≤ lib.maxItems) : (f : FieldOf RType) → LeavesF f → EnumsF SoundEnum f →
    ∃ old bytes, ValF lim f (f.name, old) ∧ rdF lib f old bytes = .err ∧ leftF lib f old bytes ≠ old
  | ⟨n, tn, t, a, o⟩, h, he => by
    obtain ⟨rfl, h⟩ := h
    cases a with
    | true =>
      have h : slotsT t ≠ 0 := h
      have h1 := rd_first lib (by omega) tn t he []
      rw [List.append_nil] at h1
      have h2 := rd_empty lib tn t h _ (dflt_shape tn t)
      have h3 := rdNum_enc lib .uint32 (n := .int 2) ⟨by decide, by decide⟩ (encT lib t (dfltT tn t))
      refine ⟨.vec [], lib.enc .uint32 (.int 2) ++ encT lib t (dfltT tn t), ⟨rfl, .inr ⟨_, rfl, [], rfl, hl, fun w hw => by cases hw⟩⟩, ?_, ?_⟩
      · show (rdNum lib .uint32 _).bind _ = _
        rw [h3]
        show (if 0 + 2 ≤ lib.maxItems then (Got.bind (Got.bind (rdT lib tn t (dfltT tn t) _) _) _) else _) = _
        rw [if_pos (by omega), h1]
        show (Got.bind (Got.bind (rdT lib tn t (dfltT tn t) _) _) _) = _
        rw [h2]
        rfl
      · unfold leftF
        rw [h3]
        show Val.vec (match rdT lib tn t (dfltT tn t) (encT lib t (dfltT tn t)) with
          | .ok v r' => (match rdT lib tn t (dfltT tn t) r' with
            | .ok v' r' => leftItems (fun r => rdT lib tn t (dfltT tn t) r) 0 (([] ++ [v]) ++ [v']) r'
            | _ => [] ++ [v])
          | _ => []) ≠ _
        rw [h1]
        dsimp only
        rw [h2]
        intro h
        cases h
    | false =>
      obtain ⟨old, bytes, h1, h2, h3⟩ := left_other hl hm tn t h he
      exact ⟨old, bytes, ⟨rfl, .inr ⟨_, rfl, h1⟩⟩, h2, h3⟩
end

end

/-! ### The whole function -/

section
variable {ast : Ast.AST} {r : Resolved} (lib : Lib) {P : Prog}

/-- What is in `output` after `read` has failed. -/
theorem output_after (hc : Checked ast r) (hn : NamesFit ast) (hP : P.HasItems (itemsOf r.types)) {old : List (Str × Val)}
    (ho : ShapeFs r.export.fields old) {data : List UInt8} (h : rdFs lib r.export.fields old data = .err) :
    get (leaveAll lib P (readBody r.export) ⟨[("output".toList, .struct old)], [], data⟩) "output".toList =
      some (.struct (leftFs lib r.export.fields old data)) := by
  obtain ⟨hf, hd⟩ := fits_export hc hn hP
  obtain ⟨pre, r', env', h1, h2, h3, h4⟩ := leave_type lib P r.export.name (.struct r.export.fields) hf hd [("output".toList, .struct old)]
    "output".toList [] (.struct old) (.struct old) [] data True.intro (get_head _ _ []) (getV_nil _) ⟨old, rfl, ho⟩
    (by show (rdFs lib r.export.fields old data).bind _ = _; rw [h]; rfl)
  rw [setV_nil] at h1
  cases h1
  have : set [("output".toList, Val.struct old)] "output".toList (leftT lib (.struct r.export.fields) (.struct old) data) =
      some [("output".toList, leftT lib (.struct r.export.fields) (.struct old) data)] := if_pos rfl
  rw [this] at h2
  cases h2
  have h4 : leaveAll lib P (readBody r.export) _ = _ := h4
  rw [h4, get_skip (longer h3), get_head]
  rfl

end

end Packetc.Rs
