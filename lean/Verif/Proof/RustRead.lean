import Verif.Proof.RustWrite
/-!
# What the emitted `read` does

`rdT` etc. say what is read, given what was in `output` before; the programs do the same.
-/

namespace Packetc.Rs
open Check
open Js (Num Scalar utf8Enc scalarOf reprScalar SoundEnum)
open Gen (varname bindname reprName)
open RustGen (reprType)

/-- Outcome of reading: a value and the unread bytes, an error, or running out of memory. -/
inductive Got (α : Type) where
  | ok (a : α) (rest : List UInt8)
  | err
  | abort

def Got.bind {α β} : Got α → (α → List UInt8 → Got β) → Got β
  | .ok a rest, f => f a rest
  | .err, _ => .err
  | .abort, _ => .abort

section
variable (lib : Lib)

def rdNum (sc : Scalar) (r : List UInt8) : Got Num :=
  if sc.width ≤ r.length then .ok (lib.dec sc (r.take sc.width)) (r.drop sc.width) else .err

/-- The integer (0 for floats, which are not used in this way). -/
def toInt : Num → Int
  | .int i => i
  | .f32 _ => 0

def rdStr (n : Nat) (r : List UInt8) : Got Str :=
  if n ≤ r.length then match utf8Dec? (r.take n) with | some t => .ok t (r.drop n) | none => .err else .err

/-- `n` more items. -/
def rdItems (one : List UInt8 → Got Val) : Nat → List Val → List UInt8 → Got (List Val)
  | 0, l, r => .ok l r
  | n + 1, l, r => (one r).bind fun v r' => rdItems one n (l ++ [v]) r'

mutual
def rdT (tn : Str) : RType → Val → List UInt8 → Got Val
  | .builtin b, _, r =>
    match scalarOf b with
    | some sc => (rdNum lib sc r).bind fun n r' => .ok (.num n) r'
    | none => (rdNum lib .uint32 r).bind fun n r' => (rdStr (toInt n).toNat r').bind fun t r'' => .ok (.str t) r''
  | .enum e, _, r => (rdNum lib (reprScalar e.repr) r).bind fun n r' =>
      match (e.variants.map fun v => ((Gen.i32Shl1 v.value).getD 0, v.name)).lookup (toInt n) with
      | some v => .ok (.variant tn v) r'
      | none => .err
  | .struct fs, old, r => (rdFs fs (match old with | .struct ps => ps | _ => []) r).bind fun ps r' => .ok (.struct ps) r'
def rdFs : List (FieldOf RType) → List (Str × Val) → List UInt8 → Got (List (Str × Val))
  | [], _, r => .ok [] r
  | f :: fs, ps, r =>
    match ps with
    | [] => .err
    | p :: ps => (rdF f p.2 r).bind fun v r' => (rdFs fs ps r').bind fun qs r'' => .ok ((f.name, v) :: qs) r''
def rdF : FieldOf RType → Val → List UInt8 → Got Val
  | ⟨_, tn, ty, array, optional⟩, old, r =>
    if optional then
      (rdNum lib .uint8 r).bind fun n r' =>
        if 0 < toInt n then (rdT tn ty (dfltT tn ty) r').bind fun v r'' => .ok (.some v) r'' else .ok old r'
    else if array then
      let l := match old with | .vec l => l | _ => []
      (rdNum lib .uint32 r).bind fun n r' =>
        if l.length + (toInt n).toNat ≤ lib.maxItems then
          (rdItems (fun r => rdT tn ty (dfltT tn ty) r) (toInt n).toNat l r').bind fun l' r'' => .ok (.vec l') r''
        else .abort
    else rdT tn ty old r
end
end

mutual
/-- What is in `output` has the right form. -/
def ShapeT : RType → Val → Prop
  | .builtin _, _ => True
  | .enum _, _ => True
  | .struct fs, v => ∃ ps, v = .struct ps ∧ ShapeFs fs ps
def ShapeFs : List (FieldOf RType) → List (Str × Val) → Prop
  | [], ps => ps = []
  | f :: fs, ps => ∃ p qs, ps = p :: qs ∧ ShapeF f p ∧ ShapeFs fs qs
def ShapeF : FieldOf RType → Str × Val → Prop
  | ⟨name, _, ty, array, optional⟩, p =>
    p.1 = name ∧ (optional = true ∨ if array then ∃ vs, p.2 = .vec vs else ShapeT ty p.2)
end

variable (lib : Lib) (P : Prog)

mutual
/-- `default()` is as expected, and there are no optional arrays. -/
def DefT (tn : Str) : RType → Prop
  | .builtin b => P.dflt (rustName tn) = dfltT tn (.builtin b)
  | .enum e => P.dflt (rustName tn) = dfltT tn (.enum e)
  | .struct fs => P.dflt (rustName tn) = dfltT tn (.struct fs) ∧ DefFs fs
def DefFs : List (FieldOf RType) → Prop
  | [] => True
  | f :: fs => DefF f ∧ DefFs fs
def DefF : FieldOf RType → Prop
  | ⟨_, tn, t, a, o⟩ => DefT tn t ∧ ¬ (a = true ∧ o = true)
end

theorem DefT.dflt {P : Prog} {tn : Str} {t : RType} (h : DefT P tn t) : P.dflt (rustName tn) = dfltT tn t := by
  cases t with
  | builtin b => exact h
  | enum e => exact h
  | struct fs => exact h.1

mutual
theorem dflt_shape (tn : Str) : (t : RType) → ShapeT t (dfltT tn t)
  | .builtin _ => True.intro
  | .enum _ => True.intro
  | .struct fs => ⟨_, rfl, dfltFs_shape fs⟩
theorem dfltFs_shape : (fs : List (FieldOf RType)) → ShapeFs fs (dfltFs fs)
  | [] => rfl
  | f :: fs => ⟨_, _, rfl, dfltF_shape f, dfltFs_shape fs⟩
theorem dfltF_shape : (f : FieldOf RType) → ShapeF f (f.name, dfltF f)
  | ⟨n, tn, t, a, o⟩ => by
    refine ⟨rfl, ?_⟩
    cases o with
    | true => exact Or.inl rfl
    | false =>
      refine Or.inr ?_
      cases a with
      | true => exact ⟨[], rfl⟩
      | false => exact dflt_shape tn t
end

theorem shapeFs_names {fs : List (FieldOf RType)} {ps} (h : ShapeFs fs ps) : ps.map Prod.fst = fs.map FieldOf.name := by
  induction fs generalizing ps with
  | nil => cases h; rfl
  | cons f fs ih =>
    obtain ⟨p, qs, rfl, h1, h2⟩ := h
    obtain ⟨n, tn, t, a, o⟩ := f
    rw [List.map_cons, List.map_cons, ih h2, h1.1]

/-! ### Getting and setting -/

theorem set_some {l : List (Str × Val)} {x : Str} {o : Val} (h : get l x = some o) (v : Val) :
    ∃ l', set l x v = some l' ∧ get l' x = some v ∧ l'.length = l.length ∧ (∀ y, y ≠ x → get l' y = get l y) ∧
      ∀ w, set l' x w = set l x w := by
  induction l with
  | nil => cases h
  | cons p l ih =>
    obtain ⟨y, u⟩ := p
    by_cases hx : x = y
    · subst hx
      refine ⟨(x, v) :: l, if_pos rfl, if_pos rfl, rfl, fun z hz => ?_, fun w => ?_⟩
      · simp [get, hz]
      · simp [set]
    · have h' : get l x = some o := by simpa [get, hx] using h
      obtain ⟨l', h1, h2, h3, h4, h5⟩ := ih h'
      refine ⟨(y, u) :: l', by simp [set, hx, h1], by simp [get, hx, h2], by simp [h3], fun z hz => ?_, fun w => ?_⟩
      · by_cases hy : z = y
        · simp [get, hy]
        · simp [get, hy, h4 z hz]
      · simp [set, hx, h5]

theorem get_skip {pre l : List (Str × Val)} {x : Str} (h : ∀ p ∈ pre, p.1 ≠ x) : get (pre ++ l) x = get l x := by
  induction pre with
  | nil => rfl
  | cons p pre ih =>
    obtain ⟨y, u⟩ := p
    have : x ≠ y := fun e => h (y, u) (by simp) e.symm
    exact (if_neg this).trans (ih fun q hq => h q (by simp [hq]))

theorem set_skip {pre l : List (Str × Val)} {x : Str} {v : Val} (h : ∀ p ∈ pre, p.1 ≠ x) :
    set (pre ++ l) x v = (set l x v).map (pre ++ ·) := by
  induction pre with
  | nil =>
    show set l x v = (set l x v).map (fun a => a)
    cases set l x v <;> rfl
  | cons p pre ih =>
    obtain ⟨y, u⟩ := p
    have : x ≠ y := fun e => h (y, u) (by simp) e.symm
    refine (if_neg this).trans ?_
    show (set (pre ++ l) x v).map _ = _
    rw [ih fun q hq => h q (by simp [hq])]
    cases set l x v <;> rfl

theorem setV_nil (r v : Val) : setV r [] v = some v := by cases r <;> rfl

theorem setV_struct (l : List (Str × Val)) (f : Str) (fs : List Str) (w : Val) :
    setV (.struct l) (f :: fs) w = (get l f).bind fun o => (setV o fs w).bind fun n => (set l f n).map Val.struct := rfl

theorem setV_some {fs : List Str} {r old : Val} (h : getV r fs = some old) (v : Val) :
    ∃ r', setV r fs v = some r' ∧ getV r' fs = some v ∧ ∀ w, setV r' fs w = setV r fs w := by
  induction fs generalizing r with
  | nil => exact ⟨v, setV_nil r v, getV_nil v, fun w => by rw [setV_nil, setV_nil]⟩
  | cons f fs ih =>
    cases r with
    | struct l =>
      rw [getV_struct] at h
      cases hg : get l f with
      | none => rw [hg] at h; cases h
      | some o =>
        rw [hg, Option.bind_some] at h
        obtain ⟨o', h1, h2, h3⟩ := ih h
        obtain ⟨l', g1, g2, -, -, g5⟩ := set_some hg o'
        refine ⟨.struct l', ?_, ?_, fun w => ?_⟩
        · rw [setV_struct, hg, Option.bind_some, h1, Option.bind_some, g1, Option.map_some]
        · rw [getV_struct, g2, Option.bind_some, h2]
        · rw [setV_struct, g2, Option.bind_some, h3, setV_struct, hg, Option.bind_some]
          simp only [g5]
    | _ => cases h

theorem set_same {l : List (Str × Val)} {x : Str} {o : Val} (h : get l x = some o) : set l x o = some l := by
  induction l with
  | nil => cases h
  | cons p l ih =>
    obtain ⟨y, u⟩ := p
    by_cases hy : x = y
    · subst hy
      have : u = o := by simpa [get] using h
      simp [set, this]
    · have : get l x = some o := by simpa [get, hy] using h
      simp [set, hy, ih this]

theorem setV_same {fs : List Str} {r old : Val} (h : getV r fs = some old) : setV r fs old = some r := by
  induction fs generalizing r with
  | nil =>
    rw [getV_nil] at h
    cases h
    exact setV_nil _ _
  | cons g fs ih =>
    cases r with
    | struct m =>
      rw [getV_struct] at h
      cases hm : get m g with
      | none => rw [hm] at h; cases h
      | some o =>
        rw [hm, Option.bind_some] at h
        rw [setV_struct, hm, Option.bind_some, ih h, Option.bind_some, set_same hm, Option.map_some]
    | _ => cases h

theorem setV_snoc {fs : List Str} {r : Val} {l l' : List (Str × Val)} {f : Str} {o v : Val} (h : getV r fs = some (.struct l))
    (hg : get l f = some o) (hs : set l f v = some l') : setV r (fs ++ [f]) v = setV r fs (.struct l') := by
  induction fs generalizing r with
  | nil =>
    rw [getV_nil] at h
    cases h
    rw [List.nil_append, setV_nil, setV_struct, hg, Option.bind_some, setV_nil, Option.bind_some, hs, Option.map_some]
  | cons g fs ih =>
    cases r with
    | struct m =>
      rw [getV_struct] at h
      cases hm : get m g with
      | none => rw [hm] at h; cases h
      | some o =>
        rw [hm, Option.bind_some] at h
        rw [List.cons_append, setV_struct, setV_struct, hm, Option.bind_some, Option.bind_some, ih h]
    | _ => cases h

theorem get_mid {done ps : List (Str × Val)} {n : Str} {o : Val} (h : n ∉ done.map Prod.fst) :
    get (done ++ (n, o) :: ps) n = some o := by
  rw [get_skip fun p hp e => h (List.mem_map.2 ⟨p, hp, e⟩)]
  exact if_pos rfl

theorem set_mid {done ps : List (Str × Val)} {n : Str} {o v : Val} (h : n ∉ done.map Prod.fst) :
    set (done ++ (n, o) :: ps) n v = some (done ++ (n, v) :: ps) := by
  rw [set_skip fun p hp e => h (List.mem_map.2 ⟨p, hp, e⟩)]
  show ((if n = n then _ else _) : Option _).map _ = _
  rw [if_pos rfl]
  rfl

/-! ### Programs -/

/-- `res` is what running from the environment `env`, where the place is `fs` within the variable `x` with value `r`, must give. New variables
may have been declared, with names longer than `x`. -/
def Outcome (res : Res Unit) (env : List (Str × Val)) (x : Str) (r : Val) (fs : List Str) (out : List UInt8) : Got Val → Prop
  | .ok v rest => ∃ pre r' env', setV r fs v = some r' ∧ set env x r' = some env' ∧ (∀ p ∈ pre, x.length < p.1.length) ∧
      res = .ok () ⟨pre ++ env', out, rest⟩
  | .err => res = .err
  | .abort => res = .abort

/-- The statements read into their place what `f` says. -/
def ReadsAt (ok : List Str → Prop) (prog : List Str → List Stmt) (shape : Val → Prop) (f : Val → List UInt8 → Got Val) : Prop :=
  ∀ env x fs r old out rest, ok fs → get env x = some r → getV r fs = some old → shape old →
    Outcome (execAll lib P (prog (x :: fs)) ⟨env, out, rest⟩) env x r fs out (f old rest)

theorem longer {pre : List (Str × Val)} {x : Str} (h : ∀ p ∈ pre, x.length < p.1.length) : ∀ p ∈ pre, p.1 ≠ x := by
  intro p hp e
  have := h p hp
  rw [e] at this
  omega

theorem joinWith_length (sep : Str) (x : Str) (fs : List Str) : x.length ≤ (joinWith sep (x :: fs)).length := by
  cases fs with
  | nil => simp [joinWith]
  | cons y ys => simp [joinWith]

theorem joinWith_length' (x : Str) {fs : List Str} (h : fs ≠ []) : x.length < (bindname (x :: fs)).length := by
  cases fs with
  | nil => exact absurd rfl h
  | cons y ys =>
    unfold bindname
    simp [joinWith]

theorem varname_length (x : Str) (fs : List Str) (n : Str) : x.length < (varname (x :: fs) n).length := by
  have h := joinWith_length "_".toList x fs
  show x.length < (joinWith "_".toList (x :: fs) ++ "_".toList ++ n).length
  rw [List.length_append, List.length_append]
  have : ("_".toList : Str).length = 1 := rfl
  omega

theorem eval_read {t : Str} {sc : Scalar} (h : scalarNamed t = some sc) (s : St) :
    eval lib P (.read t) s = match rdNum lib sc s.rest with
      | .ok n r => .ok (.num n) { s with rest := r } | .err => .err | .abort => .abort := by
  show readNum lib t s = _
  unfold readNum rdNum
  simp only [h]
  split <;> rfl

theorem rdNum_ok {sc : Scalar} {r r' : List UInt8} {n : Num} (h : rdNum lib sc r = .ok n r') : NumOk sc n ∧ sc.width ≤ r.length ∧
    n = lib.dec sc (r.take sc.width) ∧ r' = r.drop sc.width := by
  unfold rdNum at h
  split at h
  · cases h
    exact ⟨lib.dec_ok _ _, ‹_›, rfl, rfl⟩
  · cases h

theorem rdNum_not_abort {sc : Scalar} {r : List UInt8} : rdNum lib sc r ≠ .abort := by
  unfold rdNum
  split <;> simp

theorem num_int {sc : Scalar} (hs : sc ≠ .float) {n : Num} (h : NumOk sc n) : n = .int (toInt n) := by
  cases n with
  | int i => rfl
  | f32 b =>
    cases sc <;> first | exact absurd rfl hs | exact absurd h (by simp [NumOk, Scalar.Ok])

theorem u32_range {n : Num} (h : NumOk .uint32 n) : 0 ≤ toInt n ∧ toInt n < 2 ^ 32 := by
  cases n with
  | int i => exact h
  | f32 b => exact absurd h (by simp [NumOk, Scalar.Ok])

theorem usize_mod {i : Int} (h : 0 ≤ i ∧ i < 2 ^ 32) : i % 2 ^ 64 = i := by omega

/-- `let x_len = reader.read_uint32()? as usize;` -/
theorem exec_readLen (m : Str) (env out rest) :
    exec lib P (.letS false m (.cast (.read "uint32".toList) "usize".toList)) ⟨env, out, rest⟩ =
      match rdNum lib .uint32 rest with
      | .ok n r => .ok () ⟨(m, .num (.int (toInt n))) :: env, out, r⟩ | .err => .err | .abort => .abort := by
  show ((eval lib P (.read "uint32".toList) >>= fun v => castTo P "usize".toList v) >>= fun v => declare m v) _ = _
  have h := eval_read lib P u32_named ⟨env, out, rest⟩
  cases hn : rdNum lib .uint32 rest with
  | ok n r =>
    have h1 := (rdNum_ok lib hn).1
    rw [hn] at h
    have h2 : (eval lib P (.read "uint32".toList) >>= fun v => castTo P "usize".toList v) ⟨env, out, rest⟩ =
        .ok (.num (.int (toInt n))) ⟨env, out, r⟩ := by
      rw [bind_ok h]
      have hc : ∀ i : Int, castTo P "usize".toList (.num (.int i)) ⟨env, out, r⟩ = .ok (.num (.int (i % 2 ^ 64))) ⟨env, out, r⟩ := fun _ => rfl
      have hi := num_int (by decide) h1
      have hr := u32_range h1
      generalize toInt n = i at *
      rw [hi, hc, usize_mod hr]
    rw [bind_ok h2]
    rfl
  | err =>
    rw [hn] at h
    rw [bind_err (bind_err h)]
  | abort => exact absurd hn (rdNum_not_abort lib)

theorem store_at {env : List (Str × Val)} {x : Str} {fs : List Str} {r r' v : Val} {env' : List (Str × Val)} (h1 : get env x = some r)
    (h2 : setV r fs v = some r') (h3 : set env x r' = some env') (out rest) :
    store (path (x :: fs)) v ⟨env, out, rest⟩ = .ok () ⟨env', out, rest⟩ := by
  unfold store
  rw [place_path]
  simp only [Option.bind_some, h1, h2, h3]

theorem assign_ok {env : List (Str × Val)} {x : Str} {fs : List Str} {r old v : Val} {out rest rest' : List UInt8} {e : Expr}
    (h1 : get env x = some r) (h2 : getV r fs = some old) (he : eval lib P e ⟨env, out, rest⟩ = .ok v ⟨env, out, rest'⟩) :
    ∃ r' env', setV r fs v = some r' ∧ set env x r' = some env' ∧
      exec lib P (.assign (path (x :: fs)) e) ⟨env, out, rest⟩ = .ok () ⟨env', out, rest'⟩ := by
  obtain ⟨r', h3, -⟩ := setV_some h2 v
  obtain ⟨env', h4, -⟩ := set_some h1 r'
  refine ⟨r', env', h3, h4, ?_⟩
  show (eval lib P e >>= fun v => store _ v) _ = _
  rw [bind_ok he, store_at h1 h3 h4]

theorem assign_fail {e l : Expr} {s : St} : (eval lib P e s = .err → exec lib P (.assign l e) s = .err) := by
  intro h
  show (eval lib P e >>= fun v => store _ v) _ = _
  exact bind_err h

/-! ### Types -/

theorem reads_scalar {tn : Str} {sc : Scalar} (h : scalarNamed tn = some sc) : ReadsAt lib P (fun _ => True)
    (fun st => [.assign (path st) (.read tn)]) (fun _ => True)
    (fun _ r => (rdNum lib sc r).bind fun n r' => .ok (.num n) r') := by
  intro env x fs r old out rest _ h1 h2 _
  have he := eval_read lib P h ⟨env, out, rest⟩
  dsimp only
  cases hn : rdNum lib sc rest with
  | ok n r' =>
    rw [hn] at he
    obtain ⟨r1, env', h3, h4, h5⟩ := assign_ok lib P h1 h2 he
    exact ⟨[], r1, env', h3, h4, by simp, by rw [execAll_one, h5]; rfl⟩
  | err =>
    rw [hn] at he
    show execAll lib P [_] _ = .err
    rw [execAll_one, assign_fail lib P he]
  | abort => exact absurd hn (rdNum_not_abort lib)

theorem reads_string : ReadsAt lib P (fun _ => True)
    (fun st => [.letS false (varname st "len".toList) (.cast (.read "uint32".toList) "usize".toList),
      .assign (path st) (.readString (.var (varname st "len".toList)))]) (fun _ => True)
    (fun _ r => (rdNum lib .uint32 r).bind fun n r' => (rdStr (toInt n).toNat r').bind fun t r'' => .ok (.str t) r'') := by
  intro env x fs r old out rest _ h1 h2 _
  have hl := exec_readLen lib P (varname (x :: fs) "len".toList) env out rest
  dsimp only
  cases hn : rdNum lib .uint32 rest with
  | err =>
    rw [hn] at hl
    show execAll lib P [_, _] _ = .err
    rw [execAll_cons, bind_err hl]
  | abort => exact absurd hn (rdNum_not_abort lib)
  | ok n r' =>
    rw [hn] at hl
    rw [execAll_two lib P hl]
    have hne : x ≠ varname (x :: fs) "len".toList := by
      intro e
      have := varname_length x fs "len".toList
      rw [← e] at this
      omega
    have h1' : get ((varname (x :: fs) "len".toList, .num (.int (toInt n))) :: env) x = some r := (if_neg hne).trans h1
    have he : eval lib P (.readString (.var (varname (x :: fs) "len".toList)))
        ⟨(varname (x :: fs) "len".toList, .num (.int (toInt n))) :: env, out, r'⟩ =
        match rdStr (toInt n).toNat r' with
        | .ok t r'' => .ok (.str t) ⟨(varname (x :: fs) "len".toList, .num (.int (toInt n))) :: env, out, r''⟩
        | .err => .err | .abort => .abort := by
      show (eval lib P (path [varname (x :: fs) "len".toList]) >>= _) _ = _
      rw [bind_ok ((At.head _ _ env).eval lib P out r')]
      show readText _ _ = _
      unfold readText rdStr
      dsimp only
      split
      · cases utf8Dec? (r'.take (toInt n).toNat) <;> rfl
      · rfl
    show Outcome _ env x r fs out ((rdStr (toInt n).toNat r').bind _)
    cases hs : rdStr (toInt n).toNat r' with
    | ok t r'' =>
      rw [hs] at he
      obtain ⟨r1, env', h3, h4, h5⟩ := assign_ok lib P h1' h2 he
      have h4' : set ([(varname (x :: fs) "len".toList, Val.num (.int (toInt n)))] ++ env) x r1 = some env' := h4
      rw [set_skip (by intro p hp; simp only [List.mem_singleton] at hp; rw [hp]; exact fun e => hne e.symm)] at h4'
      obtain ⟨env1, h6, h7⟩ := Option.map_eq_some_iff.1 h4'
      refine ⟨[(varname (x :: fs) "len".toList, Val.num (.int (toInt n)))], r1, env1, h3, h6, ?_, ?_⟩
      · intro p hp
        simp only [List.mem_singleton] at hp
        rw [hp]
        exact varname_length x fs _
      · rw [h5, h7]
    | err =>
      rw [hs] at he
      exact assign_fail lib P he
    | abort =>
      unfold rdStr at hs
      split at hs
      · split at hs <;> cases hs
      · cases hs

theorem reads_enum {tn : Str} {e : REnum} (h : FitsT P tn (.enum e)) : ReadsAt lib P (fun _ => True)
    (fun st => readType st tn (.enum e)) (fun _ => True) (rdT lib tn (.enum e)) := by
  intro env x fs r old out rest _ h1 h2 _
  have he := eval_read lib P (scalarNamed_repr e.repr) ⟨env, out, rest⟩
  show Outcome (execAll lib P [.assign (path (x :: fs)) (.tryFrom tn (.read (reprName e.repr)))] _) env x r fs out
    ((rdNum lib (reprScalar e.repr) rest).bind _)
  rw [execAll_one]
  cases hn : rdNum lib (reprScalar e.repr) rest with
  | ok n r' =>
    rw [hn] at he
    have hint : n = .int (toInt n) := num_int (by cases e.repr <;> decide) (rdNum_ok lib hn).1
    have he' : eval lib P (.tryFrom tn (.read (reprName e.repr))) ⟨env, out, rest⟩ = convert P tn (toInt n) ⟨env, out, r'⟩ := by
      show (eval lib P (.read (reprName e.repr)) >>= _) _ = _
      rw [bind_ok he, hint]
      rfl
    have hc : convert P tn (toInt n) ⟨env, out, r'⟩ =
        match (e.variants.map fun v => ((Gen.i32Shl1 v.value).getD 0, v.name)).lookup (toInt n) with
        | some v => .ok (.variant tn v) ⟨env, out, r'⟩ | none => .err := by
      unfold convert
      simp only [h.2]
      cases (e.variants.map fun v => ((Gen.i32Shl1 v.value).getD 0, v.name)).lookup (toInt n) <;> rfl
    show Outcome _ env x r fs out (match (e.variants.map fun v => ((Gen.i32Shl1 v.value).getD 0, v.name)).lookup (toInt n) with
      | some v => .ok (.variant tn v) r'
      | none => .err)
    cases hv : (e.variants.map fun v => ((Gen.i32Shl1 v.value).getD 0, v.name)).lookup (toInt n) with
    | some v =>
      rw [hv] at hc
      obtain ⟨r1, env', h3, h4, h5⟩ := assign_ok lib P h1 h2 (he'.trans hc)
      exact ⟨[], r1, env', h3, h4, by simp, h5⟩
    | none =>
      rw [hv] at hc
      exact assign_fail lib P (he'.trans hc)
  | err =>
    rw [hn] at he
    refine assign_fail lib P ?_
    show (eval lib P (.read (reprName e.repr)) >>= _) _ = _
    exact bind_err he
  | abort => exact absurd hn (rdNum_not_abort lib)

/-! ### Arrays -/

/-- One round of a loop over items. -/
theorem round_item {tn : Str} {prog : List Str → List Stmt} {shape : Val → Prop} {f : Val → List UInt8 → Got Val} {d : Val}
    (hp : ReadsAt lib P (fun _ => True) prog shape f) (hd : P.dflt tn = d) (hs : shape d) {env : List (Str × Val)} {x item : Str}
    (hx : x.length < item.length) {fs : List Str} {r : Val} {l : List Val} (h1 : get env x = some r) (h2 : getV r fs = some (.vec l))
    (out rest : List UInt8) :
    match f d rest with
    | .ok v rest' => ∃ r' env', setV r fs (.vec (l ++ [v])) = some r' ∧ set env x r' = some env' ∧
        block (execAll lib P ([.letS true item (.dflt tn)] ++ prog [item] ++ [.push (path (x :: fs)) (.var item)])) ⟨env, out, rest⟩ =
          .ok () ⟨env', out, rest'⟩
    | .err => block (execAll lib P ([.letS true item (.dflt tn)] ++ prog [item] ++ [.push (path (x :: fs)) (.var item)])) ⟨env, out, rest⟩ = .err
    | .abort => block (execAll lib P ([.letS true item (.dflt tn)] ++ prog [item] ++ [.push (path (x :: fs)) (.var item)])) ⟨env, out, rest⟩ = .abort := by
  have hlet : exec lib P (.letS true item (.dflt tn)) ⟨env, out, rest⟩ = .ok () ⟨(item, d) :: env, out, rest⟩ := by
    show Res.ok () ⟨(item, P.dflt tn) :: env, out, rest⟩ = _
    rw [hd]
  have hrun : execAll lib P ([.letS true item (.dflt tn)] ++ prog [item] ++ [.push (path (x :: fs)) (.var item)]) ⟨env, out, rest⟩ =
      (execAll lib P (prog [item]) >>= fun _ => execAll lib P [.push (path (x :: fs)) (.var item)]) ⟨(item, d) :: env, out, rest⟩ := by
    rw [List.append_assoc]
    show execAll lib P (_ :: (prog [item] ++ _)) _ = _
    rw [execAll_cons, bind_ok hlet, execAll_append]
  have hb := hp ((item, d) :: env) item [] d d out rest True.intro (get_head item d env) (getV_nil d) hs
  cases hf : f d rest with
  | err =>
    rw [hf] at hb
    have hb' : execAll lib P (prog [item]) ⟨(item, d) :: env, out, rest⟩ = .err := hb
    show block _ _ = _
    unfold block
    rw [hrun, bind_err hb']
  | abort =>
    rw [hf] at hb
    have hb' : execAll lib P (prog [item]) ⟨(item, d) :: env, out, rest⟩ = .abort := hb
    show block _ _ = _
    unfold block
    rw [hrun, bind_abort hb']
  | ok v rest' =>
    rw [hf] at hb
    obtain ⟨pre, r1, env1, g1, g2, g3, g4⟩ := hb
    rw [setV_nil] at g1
    cases g1
    have : set ((item, d) :: env) item v = some ((item, v) :: env) := if_pos rfl
    rw [this] at g2
    cases g2
    obtain ⟨r', h3, -, -⟩ := setV_some h2 (.vec (l ++ [v]))
    obtain ⟨env', h4, -, h5, -⟩ := set_some h1 r'
    have hpx : ∀ p ∈ pre ++ [(item, v)], p.1 ≠ x := by
      refine longer fun p hp => ?_
      rcases List.mem_append.1 hp with hp | hp
      · have := g3 p hp
        omega
      · simp only [List.mem_singleton] at hp
        rw [hp]
        exact hx
    have hgx : get (pre ++ (item, v) :: env) x = some r := by
      have := get_skip (l := env) hpx
      rw [List.append_assoc] at this
      exact this.trans h1
    have hsx : set (pre ++ (item, v) :: env) x r' = some ((pre ++ [(item, v)]) ++ env') := by
      have := set_skip (l := env) (v := r') hpx
      rw [h4, Option.map_some, List.append_assoc] at this
      exact this
    have hgi : get (pre ++ (item, v) :: env) item = some v := by
      rw [get_skip (longer g3)]
      exact get_head _ _ _
    have hpush : exec lib P (.push (path (x :: fs)) (.var item)) ⟨pre ++ (item, v) :: env, out, rest'⟩ =
        .ok () ⟨(pre ++ [(item, v)]) ++ env', out, rest'⟩ := by
      show (eval lib P (path [item]) >>= _) _ = _
      rw [bind_ok (At.eval lib P ⟨item, [], v, rfl, hgi, getV_nil v⟩ out rest')]
      show (load (path (x :: fs)) >>= _) _ = _
      rw [bind_ok (At.load ⟨x, fs, r, rfl, hgx, h2⟩ out rest')]
      exact store_at hgx h3 hsx out rest'
    refine ⟨r', env', h3, h4, ?_⟩
    refine block_ok (pre := pre ++ [(item, v)]) ?_ h5
    rw [hrun, bind_ok g4, execAll_one, hpush]

theorem loop_items {tn : Str} {prog : List Str → List Stmt} {shape : Val → Prop} {f : Val → List UInt8 → Got Val} {d : Val}
    (hp : ReadsAt lib P (fun _ => True) prog shape f) (hd : P.dflt tn = d) (hs : shape d) {x item : Str}
    (hx : x.length < item.length) {fs : List Str} (out : List UInt8) (n : Nat) : ∀ (env : List (Str × Val)) (r : Val) (l : List Val)
    (rest : List UInt8), get env x = some r → getV r fs = some (.vec l) →
    match rdItems (f d) n l rest with
    | .ok l' rest' => ∃ r' env', setV r fs (.vec l') = some r' ∧ set env x r' = some env' ∧
        rounds (block (execAll lib P ([.letS true item (.dflt tn)] ++ prog [item] ++ [.push (path (x :: fs)) (.var item)]))) n ⟨env, out, rest⟩ =
          .ok () ⟨env', out, rest'⟩
    | .err => rounds (block (execAll lib P ([.letS true item (.dflt tn)] ++ prog [item] ++ [.push (path (x :: fs)) (.var item)]))) n ⟨env, out, rest⟩ = .err
    | .abort => rounds (block (execAll lib P ([.letS true item (.dflt tn)] ++ prog [item] ++ [.push (path (x :: fs)) (.var item)]))) n ⟨env, out, rest⟩ = .abort := by
  induction n with
  | zero =>
    intro env r l rest h1 h2
    exact ⟨r, env, setV_same h2, set_same h1, rfl⟩
  | succ n ih =>
    intro env r l rest h1 h2
    have h := round_item lib P hp hd hs hx h1 h2 out rest
    generalize hbody : block (execAll lib P ([.letS true item (.dflt tn)] ++ prog [item] ++ [.push (path (x :: fs)) (.var item)])) = body at h ih ⊢
    have hr : rdItems (f d) (n + 1) l rest = (f d rest).bind fun v r' => rdItems (f d) n (l ++ [v]) r' := rfl
    have hb : rounds body (n + 1) = (body >>= fun _ => rounds body n) := rfl
    rw [hr, hb]
    cases hf : f d rest with
    | err =>
      rw [hf] at h
      exact bind_err h
    | abort =>
      rw [hf] at h
      exact bind_abort h
    | ok v rest' =>
      rw [hf] at h
      obtain ⟨r1, env1, g1, g2, g3⟩ := h
      obtain ⟨r1', k1, k2, k3⟩ := setV_some h2 (.vec (l ++ [v]))
      rw [k1] at g1
      cases g1
      obtain ⟨env1', m1, m2, -, -, m5⟩ := set_some h1 r1
      rw [m1] at g2
      cases g2
      have hi := ih env1 r1 (l ++ [v]) rest' m2 k2
      show (match rdItems (f d) n (l ++ [v]) rest' with | .ok l' rest' => _ | .err => _ | .abort => _)
      cases hq : rdItems (f d) n (l ++ [v]) rest' with
      | err =>
        rw [hq] at hi
        show (body >>= fun _ => rounds body n) _ = _
        rw [bind_ok g3]
        exact hi
      | abort =>
        rw [hq] at hi
        show (body >>= fun _ => rounds body n) _ = _
        rw [bind_ok g3]
        exact hi
      | ok l' rest'' =>
        rw [hq] at hi
        obtain ⟨r2, env2, n1, n2, n3⟩ := hi
        refine ⟨r2, env2, ?_, ?_, ?_⟩
        · rw [← k3, n1]
        · rw [← m5, n2]
        · rw [bind_ok g3, n3]

theorem reads_arr {tn : Str} {prog : List Str → List Stmt} {shape : Val → Prop} {f : Val → List UInt8 → Got Val} {d : Val}
    (hp : ReadsAt lib P (fun _ => True) prog shape f) (hd : P.dflt tn = d) (hs : shape d) :
    ReadsAt lib P (fun _ => True) (rArr tn prog) (fun v => ∃ l, v = .vec l) (fun old r =>
      (rdNum lib .uint32 r).bind fun n r' =>
        if (match old with | .vec l => l | _ => []).length + (toInt n).toNat ≤ lib.maxItems then
          (rdItems (f d) (toInt n).toNat (match old with | .vec l => l | _ => []) r').bind fun l' r'' => .ok (.vec l') r''
        else .abort) := by
  rintro env x fs r old out rest - h1 h2 ⟨l, rfl⟩
  have hl := exec_readLen lib P (varname (x :: fs) "len".toList) env out rest
  have hlen := varname_length x fs "len".toList
  have hitem := varname_length x fs "item".toList
  unfold rArr
  generalize varname (x :: fs) "len".toList = len at *
  generalize varname (x :: fs) "item".toList = item at *
  dsimp only
  cases hn : rdNum lib .uint32 rest with
  | err =>
    rw [hn] at hl
    show execAll lib P (_ :: _) _ = .err
    rw [execAll_cons, bind_err hl]
  | abort => exact absurd hn (rdNum_not_abort lib)
  | ok n r' =>
    rw [hn] at hl
    have hne : x ≠ len := by
      intro e
      rw [← e] at hlen
      omega
    have h1' : get ((len, .num (.int (toInt n))) :: env) x = some r := (if_neg hne).trans h1
    show Outcome _ env x r fs out (if l.length + (toInt n).toNat ≤ lib.maxItems then _ else .abort)
    rw [execAll_cons, bind_ok hl, execAll_cons]
    have hres : exec lib P (.reserve (path (x :: fs)) (.var len)) ⟨(len, .num (.int (toInt n))) :: env, out, r'⟩ =
        if l.length + (toInt n).toNat ≤ lib.maxItems then .ok () ⟨(len, .num (.int (toInt n))) :: env, out, r'⟩ else .abort := by
      show (load (path (x :: fs)) >>= _) _ = _
      rw [bind_ok (At.load ⟨x, fs, r, rfl, h1', h2⟩ out r')]
      show (eval lib P (path [len]) >>= _) _ = _
      rw [bind_ok ((At.head _ _ env).eval lib P out r')]
      show (ite (l.length + (toInt n).toNat ≤ lib.maxItems) (pure () : M Unit) (fun _ => Res.abort : M Unit) : M Unit) _ = _
      by_cases hm : l.length + (toInt n).toNat ≤ lib.maxItems
      · rw [if_pos hm]
        exact congrFun (if_pos hm) _
      · rw [if_neg hm]
        exact congrFun (if_neg hm) _
    by_cases hm : l.length + (toInt n).toNat ≤ lib.maxItems
    · rw [if_pos hm] at hres ⊢
      rw [bind_ok hres, execAll_one]
      have hloop := loop_items lib P hp hd hs hitem (fs := fs) out (toInt n).toNat ((len, .num (.int (toInt n))) :: env) r l r' h1' h2
      have hfor : exec lib P (.forRange (.var len) ([.letS true item (.dflt tn)] ++ prog [item] ++ [.push (path (x :: fs)) (.var item)]))
          ⟨(len, .num (.int (toInt n))) :: env, out, r'⟩ =
          rounds (block (execAll lib P ([.letS true item (.dflt tn)] ++ prog [item] ++ [.push (path (x :: fs)) (.var item)]))) (toInt n).toNat
            ⟨(len, .num (.int (toInt n))) :: env, out, r'⟩ := by
        show (eval lib P (path [len]) >>= _) _ = _
        rw [bind_ok ((At.head _ _ env).eval lib P out r')]
      rw [hfor]
      cases hq : rdItems (f d) (toInt n).toNat l r' with
      | err => rw [hq] at hloop; exact hloop
      | abort => rw [hq] at hloop; exact hloop
      | ok l' r'' =>
        rw [hq] at hloop
        obtain ⟨r2, env2, g1, g2, g3⟩ := hloop
        have g2' : set ([(len, Val.num (.int (toInt n)))] ++ env) x r2 = some env2 := g2
        rw [set_skip (by intro p hp; simp only [List.mem_singleton] at hp; rw [hp]; exact fun e => hne e.symm)] at g2'
        obtain ⟨env3, h6, h7⟩ := Option.map_eq_some_iff.1 g2'
        refine ⟨[(len, Val.num (.int (toInt n)))], r2, env3, g1, h6, ?_, ?_⟩
        · intro p hp
          simp only [List.mem_singleton] at hp
          rw [hp]
          exact hlen
        · rw [g3, h7]
    · rw [if_neg hm] at hres ⊢
      exact bind_abort hres

/-! ### Optionals -/

theorem reads_opt {tn : Str} {prog : List Str → List Stmt} {shape : Val → Prop} {f : Val → List UInt8 → Got Val} {d : Val}
    (hp : ReadsAt lib P (fun _ => True) prog shape f) (hd : P.dflt tn = d) (hs : shape d) :
    ReadsAt lib P (fun fs => fs ≠ []) (rOpt tn prog) (fun _ => True) (fun old r =>
      (rdNum lib .uint8 r).bind fun n r' =>
        if 0 < toInt n then (f d r').bind fun v r'' => .ok (.some v) r'' else .ok old r') := by
  rintro env x fs r old out rest hfs h1 h2 -
  have hx := joinWith_length' x hfs
  unfold rOpt
  generalize bindname (x :: fs) = b at *
  rw [execAll_one]
  have he := eval_read lib P u8_named ⟨env, out, rest⟩
  dsimp only
  cases hn : rdNum lib .uint8 rest with
  | err =>
    rw [hn] at he
    show (eval lib P (.read "uint8".toList) >>= _) _ = _
    exact bind_err he
  | abort => exact absurd hn (rdNum_not_abort lib)
  | ok n r' =>
    rw [hn] at he
    have hint : n = .int (toInt n) := num_int (by decide) (rdNum_ok lib hn).1
    have hif : exec lib P (.ifGt (.read "uint8".toList) 0 ([.letS true b (.dflt tn)] ++ prog [b] ++ [.assign (path (x :: fs)) (.some (.var b))]))
        ⟨env, out, rest⟩ = if 0 < toInt n then
          block (execAll lib P ([.letS true b (.dflt tn)] ++ prog [b] ++ [.assign (path (x :: fs)) (.some (.var b))])) ⟨env, out, r'⟩
        else .ok () ⟨env, out, r'⟩ := by
      show (eval lib P (.read "uint8".toList) >>= _) _ = _
      rw [bind_ok he, hint]
      show (if ((0 : Nat) : Int) < toInt n then _ else pure () : M Unit) _ = if 0 < toInt n then _ else _
      split <;> rename_i h0
      · rw [if_pos (by simpa using h0)]
      · rw [if_neg (by simpa using h0)]
        rfl
    rw [hif]
    show Outcome _ env x r fs out (if 0 < toInt n then _ else .ok old r')
    by_cases h0 : 0 < toInt n
    · rw [if_pos h0, if_pos h0]
      have hlet : exec lib P (.letS true b (.dflt tn)) ⟨env, out, r'⟩ = .ok () ⟨(b, d) :: env, out, r'⟩ := by
        show Res.ok () ⟨(b, P.dflt tn) :: env, out, r'⟩ = _
        rw [hd]
      have hrun : execAll lib P ([.letS true b (.dflt tn)] ++ prog [b] ++ [.assign (path (x :: fs)) (.some (.var b))]) ⟨env, out, r'⟩ =
          (execAll lib P (prog [b]) >>= fun _ => execAll lib P [.assign (path (x :: fs)) (.some (.var b))]) ⟨(b, d) :: env, out, r'⟩ := by
        rw [List.append_assoc]
        show execAll lib P (_ :: (prog [b] ++ _)) _ = _
        rw [execAll_cons, bind_ok hlet, execAll_append]
      have hb := hp ((b, d) :: env) b [] d d out r' True.intro (get_head b d env) (getV_nil d) hs
      cases hf : f d r' with
      | err =>
        rw [hf] at hb
        have hb' : execAll lib P (prog [b]) ⟨(b, d) :: env, out, r'⟩ = .err := hb
        show block _ _ = _
        unfold block
        rw [hrun, bind_err hb']
      | abort =>
        rw [hf] at hb
        have hb' : execAll lib P (prog [b]) ⟨(b, d) :: env, out, r'⟩ = .abort := hb
        show block _ _ = _
        unfold block
        rw [hrun, bind_abort hb']
      | ok v rest' =>
        rw [hf] at hb
        obtain ⟨pre, r1, env1, g1, g2, g3, g4⟩ := hb
        rw [setV_nil] at g1
        cases g1
        have : set ((b, d) :: env) b v = some ((b, v) :: env) := if_pos rfl
        rw [this] at g2
        cases g2
        obtain ⟨r2, h3, -, -⟩ := setV_some h2 (.some v)
        obtain ⟨env2, h4, -, h5, -⟩ := set_some h1 r2
        have hpx : ∀ p ∈ pre ++ [(b, v)], p.1 ≠ x := by
          refine longer fun p hp => ?_
          rcases List.mem_append.1 hp with hp | hp
          · have := g3 p hp
            omega
          · simp only [List.mem_singleton] at hp
            rw [hp]
            exact hx
        have hgx : get (pre ++ (b, v) :: env) x = some r := by
          have := get_skip (l := env) hpx
          rw [List.append_assoc] at this
          exact this.trans h1
        have hsx : set (pre ++ (b, v) :: env) x r2 = some ((pre ++ [(b, v)]) ++ env2) := by
          have := set_skip (l := env) (v := r2) hpx
          rw [h4, Option.map_some, List.append_assoc] at this
          exact this
        have hgi : get (pre ++ (b, v) :: env) b = some v := by
          rw [get_skip (longer g3)]
          exact get_head _ _ _
        have hasg : exec lib P (.assign (path (x :: fs)) (.some (.var b))) ⟨pre ++ (b, v) :: env, out, rest'⟩ =
            .ok () ⟨(pre ++ [(b, v)]) ++ env2, out, rest'⟩ := by
          have hev : eval lib P (.some (.var b)) ⟨pre ++ (b, v) :: env, out, rest'⟩ = .ok (.some v) ⟨pre ++ (b, v) :: env, out, rest'⟩ := by
            show (eval lib P (path [b]) >>= _) _ = _
            rw [bind_ok (At.eval lib P ⟨b, [], v, rfl, hgi, getV_nil v⟩ out rest')]
            rfl
          show (eval lib P (.some (.var b)) >>= _) _ = _
          rw [bind_ok hev]
          exact store_at hgx h3 hsx out rest'
        refine ⟨[], r2, env2, h3, h4, by simp, ?_⟩
        rw [List.nil_append]
        refine block_ok (pre := pre ++ [(b, v)]) ?_ h5
        rw [hrun, bind_ok g4, execAll_one, hasg]
    · rw [if_neg h0, if_neg h0]
      exact ⟨[], r, env, setV_same h2, set_same h1, by simp, rfl⟩

/-! ### Everything -/

mutual
theorem read_type (tn : Str) : (t : RType) → FitsT P tn t → DefT P tn t →
    ReadsAt lib P (fun _ => True) (fun st => readType st tn t) (ShapeT t) (rdT lib tn t)
  | .builtin b, hf, _ => by
    intro env x fs r old out rest _ h1 h2 _
    cases hb : scalarOf b with
    | none =>
      have : b = .string := by cases b <;> first | rfl | cases hb
      subst this
      exact reads_string lib P env x fs r old out rest True.intro h1 h2 True.intro
    | some sc =>
      have hp : readType (x :: fs) tn (.builtin b) = [.assign (path (x :: fs)) (.read tn)] := by cases b <;> first | rfl | cases hb
      have hr : rdT lib tn (.builtin b) old rest = (rdNum lib sc rest).bind fun n r' => .ok (.num n) r' := by
        unfold rdT
        rw [hb]
      have htn : tn = Js.builtinName b := hf
      dsimp only
      rw [hp, hr]
      exact reads_scalar lib P (by rw [htn]; exact scalarNamed_builtin hb) env x fs r old out rest True.intro h1 h2 True.intro
  | .enum e, hf, _ => by
    intro env x fs r old out rest _ h1 h2 _
    exact reads_enum lib P hf env x fs r old out rest True.intro h1 h2 True.intro
  | .struct gs, hf, hd => by
    rintro env x fs r old out rest - h1 h2 ⟨ps, rfl, hps⟩
    have hn : (([] ++ ps).map Prod.fst).Nodup := by
      rw [List.nil_append, shapeFs_names hps]
      exact hf.1
    have h := read_fields gs hf.2 hd.2 [] ps hps hn env x fs r out rest h1 h2
    show Outcome _ env x r fs out ((rdFs lib gs ps rest).bind _)
    cases hq : rdFs lib gs ps rest with
    | ok qs rest' => rw [hq] at h; exact h
    | err => rw [hq] at h; exact h
    | abort => rw [hq] at h; exact h
theorem read_fields : (gs : List (FieldOf RType)) → FitsFs P gs → DefFs P gs → ∀ done ps, ShapeFs gs ps →
    ((done ++ ps).map Prod.fst).Nodup → ∀ env x fs r out rest, get env x = some r → getV r fs = some (.struct (done ++ ps)) →
    Outcome (execAll lib P (readStruct (x :: fs) gs) ⟨env, out, rest⟩) env x r fs out
      ((rdFs lib gs ps rest).bind fun qs r' => .ok (.struct (done ++ qs)) r')
  | [], _, _, done, ps, hps, _, env, x, fs, r, out, rest, h1, h2 => by
    cases hps
    exact ⟨[], r, env, setV_same h2, set_same h1, by simp, rfl⟩
  | f :: gs, hf, hd, done, ps, hps, hn, env, x, fs, r, out, rest, h1, h2 => by
    obtain ⟨⟨n, old⟩, qs, rfl, hp, hqs⟩ := hps
    have hname : n = f.name := by
      obtain ⟨n, tn, t, a, o⟩ := f
      exact hp.1
    subst hname
    have hnd : f.name ∉ done.map Prod.fst := by
      rw [List.map_append, List.map_cons, List.nodup_append] at hn
      intro hm
      exact hn.2.2 _ hm _ (List.mem_cons_self) rfl
    have hg : get (done ++ (f.name, old) :: qs) f.name = some old := get_mid hnd
    have hgf : getV r (fs ++ [f.name]) = some old := by
      rw [getV_append, h2, Option.bind_some, getV_struct, hg, Option.bind_some, getV_nil]
    have h := read_field f hf.1 hd.1 env x fs r old out rest h1 hgf hp
    show Outcome (execAll lib P (readField (x :: fs) f ++ readStruct (x :: fs) gs) _) env x r fs out
      (((rdF lib f old rest).bind _).bind _)
    rw [execAll_append]
    cases hq : rdF lib f old rest with
    | err => rw [hq] at h; exact bind_err h
    | abort => rw [hq] at h; exact bind_abort h
    | ok v rest' =>
      rw [hq] at h
      obtain ⟨pre, r1, env1, g1, g2, g3, g4⟩ := h
      have hset : set (done ++ (f.name, old) :: qs) f.name v = some (done ++ (f.name, v) :: qs) := set_mid hnd
      rw [setV_snoc h2 hg hset] at g1
      obtain ⟨r1', k1, k2, k3⟩ := setV_some h2 (.struct (done ++ (f.name, v) :: qs))
      rw [k1] at g1
      cases g1
      obtain ⟨env1', m1, m2, -, -, m5⟩ := set_some h1 r1
      rw [m1] at g2
      cases g2
      have hn' : (((done ++ [(f.name, v)]) ++ qs).map Prod.fst).Nodup := by
        simpa using hn
      have h' := read_fields gs hf.2 hd.2 (done ++ [(f.name, v)]) qs hqs hn' (pre ++ env1) x fs r1 out rest'
        (by rw [get_skip (longer g3), m2]) (by rw [k2]; simp)
      have hrun : (execAll lib P (readField (x :: fs) f) >>= fun _ => execAll lib P (readStruct (x :: fs) gs)) ⟨env, out, rest⟩ =
          execAll lib P (readStruct (x :: fs) gs) ⟨pre ++ env1, out, rest'⟩ := bind_ok g4
      show Outcome _ env x r fs out (((rdFs lib gs qs rest').bind _).bind _)
      cases hq' : rdFs lib gs qs rest' with
      | err => rw [hq'] at h'; exact hrun.trans h'
      | abort => rw [hq'] at h'; exact hrun.trans h'
      | ok qs' rest'' =>
        rw [hq'] at h'
        obtain ⟨pre2, r2, env2, n1, n2, n3, n4⟩ := h'
        rw [set_skip (longer g3)] at n2
        obtain ⟨env3, o1, o2⟩ := Option.map_eq_some_iff.1 n2
        refine ⟨pre2 ++ pre, r2, env3, ?_, ?_, ?_, ?_⟩
        · rw [← k3, ← n1]
          simp
        · rw [← m5, o1]
        · intro p hp
          rcases List.mem_append.1 hp with hp | hp
          · exact n3 p hp
          · exact g3 p hp
        · rw [hrun, n4, List.append_assoc, o2]
theorem read_field : (f : FieldOf RType) → FitsF P f → DefF P f → ∀ env x fs r old out rest, get env x = some r →
    getV r (fs ++ [f.name]) = some old → ShapeF f (f.name, old) →
    Outcome (execAll lib P (readField (x :: fs) f) ⟨env, out, rest⟩) env x r (fs ++ [f.name]) out (rdF lib f old rest)
  | ⟨n, tn, t, a, o⟩, hf, hd, env, x, fs, r, old, out, rest, h1, h2, hs => by
    have ht := read_type tn t hf hd.1
    have hdf := hd.1.dflt
    rw [readField_eq]
    cases o with
    | true =>
      cases a with
      | true => exact absurd ⟨rfl, rfl⟩ hd.2
      | false =>
        exact reads_opt lib P ht hdf (dflt_shape tn t) env x (fs ++ [n]) r old out rest (by simp) h1 h2 True.intro
    | false =>
      have hs' := hs.2.resolve_left (by simp)
      cases a with
      | true => exact reads_arr lib P ht hdf (dflt_shape tn t) env x (fs ++ [n]) r old out rest True.intro h1 h2 hs'
      | false => exact ht env x (fs ++ [n]) r old out rest True.intro h1 h2 hs'
end

end Packetc.Rs
