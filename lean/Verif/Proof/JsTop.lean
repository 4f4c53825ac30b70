import Verif.Proof.JsRead
/-!
# The generated functions as a whole
-/

namespace Packetc.Js
open Check Gen

theorem moduleOk_parts {e : Export} (h : moduleOk e = true) :
    e.name ≠ "Reader".toList ∧ e.name ≠ "Writer".toList ∧ (e.fields.map (·.name)).Nodup ∧
    (letNames (readBody e)).Nodup ∧ stmtsOk (readBody e) = true ∧ "data".toList ∉ letNames (readBody e) ∧
    (letNames (writeBody e)).Nodup ∧ stmtsOk (writeBody e) = true ∧ "buffer".toList ∉ letNames (writeBody e) := by
  unfold moduleOk blockOk at h
  simp only [Bool.and_eq_true, Bool.not_eq_true', decide_eq_true_eq, decide_eq_false_iff_not,
    List.contains_eq_mem] at h
  obtain ⟨⟨⟨⟨⟨⟨⟨⟨⟨⟨⟨h1, h2⟩, h2'⟩, h3⟩, h4⟩, h5⟩, h6⟩, h7⟩, h8, h8'⟩, h9⟩, h10, h10'⟩, h11⟩ := h
  exact ⟨h3, h4, h5, h8, h8', h9, h10, h10', h11⟩

section
variable {rt : Runtime} {fuel : Nat}

theorem letNames_readBody (e : Export) :
    letNames (readBody e) = "reader".toList :: "output".toList :: letNames (readFields ["output".toList] e.fields) := by
  show letNames (([.letS "reader".toList false (.new1 "Reader".toList (.var "data".toList)),
   .letS "output".toList false (.call1 (.var "Object".toList) "create".toList (.var e.name))] ++
  readFields ["output".toList] e.fields) ++
  [.ifRet (.prop reader "failed".toList) .null, .ret (.var "output".toList)]) = _
  rw [letNames_append, letNames_append]
  simp [letNames]

theorem stmtsOk_readBody (e : Export) :
    stmtsOk (readBody e) = stmtsOk (readFields ["output".toList] e.fields) := by
  show stmtsOk (([.letS "reader".toList false (.new1 "Reader".toList (.var "data".toList)),
   .letS "output".toList false (.call1 (.var "Object".toList) "create".toList (.var e.name))] ++
  readFields ["output".toList] e.fields) ++
  [.ifRet (.prop reader "failed".toList) .null, .ret (.var "output".toList)]) = _
  rw [stmtsOk_append, stmtsOk_append]
  have h1 : stmtsOk [.letS "reader".toList false (.new1 "Reader".toList (.var "data".toList)),
   .letS "output".toList false (.call1 (.var "Object".toList) "create".toList (.var e.name))] = true := rfl
  have h2 : stmtsOk [.ifRet (.prop reader "failed".toList) .null, .ret (.var "output".toList)] = true := rfl
  rw [h1, h2, Bool.true_and, Bool.and_true]

theorem letNames_writeBody (e : Export) :
    letNames (writeBody e) = "writer".toList :: letNames (writeStruct ["this".toList] e.fields) := by
  show letNames (([.letS "writer".toList false
    (.cond (.var "buffer".toList) (.new1 "Writer".toList (.var "buffer".toList)) (.new0 "Writer".toList))] ++
  writeStruct ["this".toList] e.fields) ++
  [.ret (.call0 writer "finish".toList)]) = _
  rw [letNames_append, letNames_append]
  simp [letNames]

theorem stmtsOk_writeBody (e : Export) :
    stmtsOk (writeBody e) = stmtsOk (writeStruct ["this".toList] e.fields) := by
  show stmtsOk (([.letS "writer".toList false
    (.cond (.var "buffer".toList) (.new1 "Writer".toList (.var "buffer".toList)) (.new0 "Writer".toList))] ++
  writeStruct ["this".toList] e.fields) ++
  [.ret (.call0 writer "finish".toList)]) = _
  rw [stmtsOk_append, stmtsOk_append]
  have h1 : stmtsOk [.letS "writer".toList false
    (.cond (.var "buffer".toList) (.new1 "Writer".toList (.var "buffer".toList)) (.new0 "Writer".toList))] = true := rfl
  have h2 : stmtsOk [.ret (.call0 writer "finish".toList)] = true := rfl
  rw [h1, h2, Bool.true_and, Bool.and_true]

/-- What `C.prototype.write.call(this, buffer)` does. -/
theorem runWrite_declared {e : Export} (hm : moduleOk e = true) (hs : SoundFs e.fields) (hfuel : 2 ^ 32 ≤ fuel)
    (heap : List Obj) (this buffer : Val) (hbuf : buffer = .undef ∨ ∃ b, buffer = .buf b)
    {ps : List (PropOf JVal)} {S : Str → Prop} {N : Scalar → Num → Prop} {E : REnum → Num → Prop} (hty : DeclaredFs S N E e.fields ps) (hrep : Rep heap (.obj ps) this) :
    ∃ st', runWrite rt fuel e heap this buffer = .returns (.buf (encodeFields rt e.fields ps)) st' ∧ st'.heap = heap := by
  obtain ⟨-, hW, -, -, -, -, hnd, hok, hb⟩ := moduleOk_parts hm
  rw [letNames_writeBody] at hnd hb
  rw [stmtsOk_writeBody] at hok
  rw [List.nodup_cons] at hnd
  set body := writeBody e with hbody
  set params : Scope := [("buffer".toList, some buffer), ("this".toList, some this)] with hparams
  have hpre := nprog_fields e.fields "this".toList []
  let st0 : State := ⟨heap, [hoist body, params], ⟨[], false, 0⟩, []⟩
  have hho : ∀ x, (hoist body).get x = if x ∈ "writer".toList :: letNames (writeStruct ["this".toList] e.fields) then some none else none := by
    intro x
    rw [hoist_get, hbody, letNames_writeBody]
  have hthis0 : "this".toList ∉ "writer".toList :: letNames (writeStruct ["this".toList] e.fields) := by
    intro h
    rw [List.mem_cons] at h
    rcases h with h | h
    · revert h; decide
    · exact ne_of_prefix (hpre _ h) rfl
  have hWn : "Writer".toList ∉ "writer".toList :: letNames (writeStruct ["this".toList] e.fields) := by
    intro h
    rw [List.mem_cons] at h
    rcases h with h | h
    · revert h; decide
    · have := (List.prefix_append _ _).trans (hpre _ h)
      revert this; decide
  have hgetW : getVar e.name st0.scopes "Writer".toList = .ok (.glob .writer) := by
    have : lookup st0.scopes "Writer".toList = none := by
      show lookup [hoist body, params] _ = _
      rw [lookup_cons_none (by rw [hho, if_neg hWn]), lookup_cons_none (by rw [hparams]; simp [Map.get])]
      rfl
    unfold getVar
    rw [this]
    unfold resolveGlobal
    rw [if_neg (fun e => hW e.symm)]
    rfl
  have hgetB : getVar e.name st0.scopes "buffer".toList = .ok buffer := by
    refine getVar_of_lookup ?_
    show lookup [hoist body, params] _ = _
    rw [lookup_cons_none (by rw [hho, if_neg hb])]
    exact lookup_cons_some (by rw [hparams]; simp [Map.get])
  let sc1 : Scope := (hoist body).insert "writer".toList (some .writer)
  have hget1 : ∀ x, sc1.get x = if "writer".toList = x then some (some .writer) else (hoist body).get x := by
    intro x
    simp only [sc1, Map.get_insert]
  let st1 : State := { st0 with scopes := [sc1, params] }
  have hlet : exec rt e.name fuel (.letS "writer".toList false
    (.cond (.var "buffer".toList) (.new1 "Writer".toList (.var "buffer".toList)) (.new0 "Writer".toList))) st0 = .ok st1 := by
    refine exec_let_ok (v := .writer) (st' := st0) ?_ rfl
    show (eval rt e.name (.var "buffer".toList) st0).bind (fun x =>
      if x.1.truthy then eval rt e.name (.new1 "Writer".toList (.var "buffer".toList)) x.2
      else eval rt e.name (.new0 "Writer".toList) x.2) = _
    rw [eval_var hgetB, ok_bind]
    rcases hbuf with rfl | ⟨b, rfl⟩
    · simp only [Val.truthy, Bool.false_eq_true, if_false]
      show (getVar e.name st0.scopes "Writer".toList).bind (fun g => construct g [] st0) = _
      rw [hgetW]
      rfl
    · simp only [Val.truthy, if_true]
      show (getVar e.name st0.scopes "Writer".toList).bind (fun g =>
        (eval rt e.name (.var "buffer".toList) st0).bind fun r => construct g [r.1] r.2) = _
      rw [hgetW, ok_bind, eval_var hgetB]
      rfl
  have hwr1 : lookup st1.scopes "writer".toList = some (some .writer) :=
    lookup_cons_some (by rw [hget1, if_pos rfl])
  have hthis1 : lookup st1.scopes "this".toList = some (some this) := by
    show lookup [sc1, params] _ = _
    rw [lookup_cons_none (by rw [hget1, if_neg (by decide), hho, if_neg hthis0])]
    exact lookup_cons_some (by rw [hparams]; simp [Map.get])
  obtain ⟨sc2, hex, hfr⟩ := wprog_fields (rt := rt) (cls := e.name) hfuel e.fields hs "this".toList [] st1 sc1 [params] this this
    (.obj ps) List.prefix_rfl rfl hwr1 hthis1 rfl ⟨ps, rfl, hty⟩ hrep
    (by
      intro x hx
      rw [hget1, if_neg, hho, if_pos (List.mem_cons_of_mem _ hx)]
      rintro rfl
      exact hnd.1 hx)
    hnd.2 hok
  let st2 : State := { st1 with scopes := [sc2, params], wr := st1.wr ++ encode rt (.struct e.fields) (.obj ps) }
  refine ⟨st2, ?_, rfl⟩
  unfold runWrite
  rw [if_pos hm]
  unfold call
  have hwr2 : lookup st2.scopes "writer".toList = some (some .writer) :=
    (lookup_congr (sc := sc1) (hfr _ hnd.1)).trans hwr1
  have hret : exec rt e.name fuel (.ret (.call0 writer "finish".toList)) st2 =
      .error (.ret (.buf st2.wr) st2) := by
    rw [exec_ret]
    show (lift ((eval rt e.name writer st2).bind fun r => callMethod0 rt r.1 "finish".toList r.2)).bind _ = _
    rw [eval_var (getVar_of_lookup hwr2)]
    rfl
  have hall : execs rt e.name fuel body st0 = .error (.ret (.buf (encodeFields rt e.fields ps)) st2) := by
    have : body = [.letS "writer".toList false
      (.cond (.var "buffer".toList) (.new1 "Writer".toList (.var "buffer".toList)) (.new0 "Writer".toList))] ++
      (writeStruct ["this".toList] e.fields ++ [.ret (.call0 writer "finish".toList)]) := by
      rw [hbody, ← List.append_assoc]; rfl
    rw [this, List.singleton_append, execs_cons, hlet, ok_bind, execs_append, hex, ok_bind, execs_cons]
    have : exec rt e.name fuel (.ret (.call0 writer "finish".toList))
      { st1 with scopes := [sc2, params], wr := st1.wr ++ encode rt (.struct e.fields) (.obj ps) } = _ := hret
    rw [this]
    show Except.error (Stop.ret (.buf ([] ++ encodeFields rt e.fields ps)) st2) = _
    rw [List.nil_append]
  have e0 : (⟨heap, [hoist body, params], ⟨[], false, 0⟩, []⟩ : State) = st0 := rfl
  rw [e0, hall]

/-- The same for the values of the packet, which are values of the declared type. -/
theorem runWrite_ok {e : Export} (hm : moduleOk e = true) (hs : SoundFs e.fields) (hfuel : 2 ^ 32 ≤ fuel)
    (heap : List Obj) (this buffer : Val) (hbuf : buffer = .undef ∨ ∃ b, buffer = .buf b)
    {ps : List (PropOf JVal)} {S : Str → Prop} {E : REnum → Num → Prop} (hty : TypedFs S E e.fields ps) (hrep : Rep heap (.obj ps) this) :
    ∃ st', runWrite rt fuel e heap this buffer = .returns (.buf (encodeFields rt e.fields ps)) st' ∧ st'.heap = heap :=
  runWrite_declared hm hs hfuel heap this buffer hbuf (typedFs_declared _ _ hty) hrep

/-- What `C.read(data)` does. -/
theorem runRead_eq {e : Export} (hm : moduleOk e = true) (hc : ClassNameOk e.name) (hs : SoundFs e.fields)
    (ho : OrdinaryFs e.fields) (ht : TopNamesOk e.fields) (hfuel : 2 ^ 32 ≤ fuel) (heap : List Obj) (data : List UInt8) :
    ∃ (st' : State) (ext : List Obj), runRead rt fuel e heap data =
        .returns (if (rdFields rt e.fields ⟨data, false, 0⟩).2.failed then .null else .ref heap.length) st' ∧
      st'.rd = (rdFields rt e.fields ⟨data, false, 0⟩).2 ∧ st'.heap = heap ++ ext ∧
      (∃ props, st'.heap[heap.length]? = some (.obj .cls props) ∧
        ∀ n, n ∉ e.fields.map (·.name) → props.get n = none) ∧
      RepFrom st'.heap heap.length (.obj (rdFields rt e.fields ⟨data, false, 0⟩).1) (.ref heap.length) := by
  obtain ⟨hR, hW, hnames, hnd, hok, hd, -, -, -⟩ := moduleOk_parts hm
  obtain ⟨hc1, hc2⟩ := hc
  simp only [List.mem_cons, List.not_mem_nil, or_false, not_or] at hc1
  obtain ⟨-, -, hcO, hcA, hcr, hcd⟩ := hc1
  rw [letNames_readBody] at hnd hd
  rw [stmtsOk_readBody] at hok
  rw [List.nodup_cons, List.nodup_cons] at hnd
  set body := readBody e with hbody
  set params : Scope := [("data".toList, some (.buf data))] with hparams
  set names := letNames (readFields ["output".toList] e.fields) with hnamesDef
  have hpre := nread_fields e.fields "output".toList
  have hpre' : ∀ x ∈ names, "output".toList <+: x := fun x hx => (List.prefix_append _ _).trans (hpre x hx)
  let st0 : State := ⟨heap, [hoist body, params], ⟨[], false, 0⟩, []⟩
  have hho : ∀ x, (hoist body).get x = if x ∈ "reader".toList :: "output".toList :: names then some none else none := by
    intro x
    rw [hoist_get, hbody, letNames_readBody]
  have hnone : ∀ x, x ≠ "reader".toList → ¬ "output".toList <+: x → (hoist body).get x = none := by
    intro x h1 h2
    rw [hho, if_neg]
    intro h
    rw [List.mem_cons, List.mem_cons] at h
    rcases h with h | h | h
    · exact h1 h
    · exact h2 (h ▸ List.prefix_rfl)
    · exact h2 (hpre' x h)
  have hglob : ∀ (sc : Scope) (g : Str) (v : Val), sc.get g = none → g ≠ "data".toList → g ≠ e.name →
      resolveGlobal [] g = .ok v → g ≠ [] → getVar e.name [sc, params] g = .ok v := by
    intro sc g v h1 h2 h3 h4 h5
    have : lookup [sc, params] g = none := by
      rw [lookup_cons_none h1, lookup_cons_none (by rw [hparams]; simp only [Map.get]; rw [if_neg (fun e => h2 e.symm)])]
      rfl
    unfold getVar
    rw [this]
    unfold resolveGlobal at h4 ⊢
    rw [if_neg h5] at h4
    simp only
    rw [if_neg h3]
    exact h4
  have hgd : getVar e.name st0.scopes "data".toList = .ok (.buf data) := by
    refine getVar_of_lookup ?_
    show lookup [hoist body, params] _ = _
    rw [lookup_cons_none (by rw [hho, if_neg hd])]
    exact lookup_cons_some (by rw [hparams]; simp [Map.get])
  -- let reader
  let sc1 : Scope := (hoist body).insert "reader".toList (some .reader)
  have hget1 : ∀ x, sc1.get x = if "reader".toList = x then some (some .reader) else (hoist body).get x := by
    intro x
    simp only [sc1, Map.get_insert]
  let st1 : State := { st0 with scopes := [sc1, params], rd := ⟨data, false, 0⟩ }
  have hlet1 : exec rt e.name fuel (.letS "reader".toList false (.new1 "Reader".toList (.var "data".toList))) st0 = .ok st1 := by
    refine exec_let_ok (v := .reader) (st' := { st0 with rd := ⟨data, false, 0⟩ }) ?_ rfl
    show (getVar e.name st0.scopes "Reader".toList).bind (fun g =>
      (eval rt e.name (.var "data".toList) st0).bind fun r => construct g [r.1] r.2) = _
    rw [hglob (hoist body) "Reader".toList (.glob .reader) (hnone _ (by decide) (by decide)) (by decide)
      (fun h => hR h.symm) rfl (by decide), ok_bind, eval_var hgd]
    rfl
  -- let output
  let sc2 : Scope := sc1.insert "output".toList (some (.ref heap.length))
  have hget2 : ∀ x, sc2.get x = if "output".toList = x then some (some (.ref heap.length)) else sc1.get x := by
    intro x
    simp only [sc2, Map.get_insert]
  let st2 : State := { st1 with heap := heap ++ [.obj .cls []], scopes := [sc2, params] }
  have hlet2 : exec rt e.name fuel
      (.letS "output".toList false (.call1 (.var "Object".toList) "create".toList (.var e.name))) st1 = .ok st2 := by
    refine exec_let_ok (v := .ref heap.length) (st' := { st1 with heap := heap ++ [.obj .cls []] }) ?_ rfl
    show (eval rt e.name (.var "Object".toList) st1).bind (fun r => (eval rt e.name (.var e.name) r.2).bind fun k =>
      callMethod1 rt r.1 "create".toList k.1 k.2) = _
    rw [eval_var (hglob sc1 "Object".toList (.glob .object)
      (by rw [hget1, if_neg (by decide), hnone _ (by decide) (by decide)]) (by decide) (fun h => hcO h.symm) rfl (by decide)),
      ok_bind]
    have hcls : getVar e.name st1.scopes e.name = .ok .cls := by
      have : lookup st1.scopes e.name = none := by
        show lookup [sc1, params] e.name = _
        rw [lookup_cons_none (by rw [hget1, if_neg (fun h => hcr h.symm), hnone _ hcr hc2]),
          lookup_cons_none (by rw [hparams]; simp only [Map.get]; rw [if_neg (fun e => hcd e.symm)])]
        rfl
      unfold getVar
      rw [this]
      simp only [resolveGlobal, if_true]
    rw [eval_var hcls]
    rfl
  have henv : REnv st2.scopes := by
    constructor
    · show lookup [sc2, params] _ = _
      exact lookup_cons_some (by rw [hget2, if_neg (by decide), hget1, if_pos rfl])
    · show lookup [sc2, params] _ = _
      rw [lookup_cons_none (by rw [hget2, if_neg (by decide), hget1, if_neg (by decide), hnone _ (by decide) (by decide)]),
        lookup_cons_none (by rw [hparams]; simp [Map.get])]
      rfl
  obtain ⟨sc3, ext, props', hex, hfr, hrep⟩ := rstep_fields (rt := rt) (cls := e.name) hcA hfuel e.fields hs ho
    "output".toList st2 sc2 [params] heap.length .cls [] List.prefix_rfl rfl henv
    (lookup_cons_some (by rw [hget2, if_pos rfl])) (get_mid heap _ [])
    (by
      intro n hn
      obtain ⟨f, hf, rfl⟩ := List.mem_map.1 hn
      exact ⟨ordinary_names ho f hf, fun h => h.2.elim (ht f hf).1 (ht f hf).2⟩)
    (by
      intro x hx
      have h1 : x ≠ "output".toList := fun h => hnd.2.1 (h ▸ hx)
      have h2 : x ≠ "reader".toList := fun h => hnd.1 (List.mem_cons_of_mem _ (h ▸ hx))
      rw [hget2, if_neg (fun h => h1 h.symm), hget1, if_neg (fun h => h2 h.symm), hho,
        if_pos (List.mem_cons_of_mem _ (List.mem_cons_of_mem _ hx))])
    hnd.2.2 hok
  set R := rdFields rt e.fields ⟨data, false, 0⟩ with hR'
  have hheap : (st2.heap ++ ext).set heap.length (.obj .cls props') = heap ++ .obj .cls props' :: ext := by
    show ((heap ++ [_]) ++ ext).set _ _ = _
    rw [List.append_assoc, List.singleton_append, set_mid]
  let st3 : State := { st2 with heap := heap ++ .obj .cls props' :: ext, scopes := [sc3, params], rd := R.2 }
  have hex' : execs rt e.name fuel (readFields ["output".toList] e.fields) st2 = .ok st3 := by
    refine hex.trans ?_
    rw [hheap]
  have hrd3 : lookup st3.scopes "reader".toList = some (some .reader) := by
    refine (lookup_congr (sc := sc2) (hfr _ ?_)).trans henv.reader
    intro h
    exact hnd.1 (List.mem_cons_of_mem _ h)
  have hout3 : lookup st3.scopes "output".toList = some (some (.ref heap.length)) := by
    refine (lookup_congr (sc := sc2) (hfr _ hnd.2.1)).trans ?_
    exact lookup_cons_some (by rw [hget2, if_pos rfl])
  have hfail : eval rt e.name (.prop reader "failed".toList) st3 = .ok (.bool R.2.failed, st3) :=
    eval_prop (eval_var (getVar_of_lookup hrd3)) rfl
  refine ⟨st3, .obj .cls props' :: ext, ?_, rfl, rfl, ⟨props', get_mid _ _ _, ?_⟩, ?_⟩
  · unfold runRead
    rw [if_pos hm]
    unfold call
    have hall : execs rt e.name fuel body st0 = .error (.ret (if R.2.failed then .null else .ref heap.length) st3) := by
      have : body = (.letS "reader".toList false (.new1 "Reader".toList (.var "data".toList))) ::
        (.letS "output".toList false (.call1 (.var "Object".toList) "create".toList (.var e.name))) ::
        (readFields ["output".toList] e.fields ++
          [.ifRet (.prop reader "failed".toList) .null, .ret (.var "output".toList)]) := by
        rw [hbody]; rfl
      rw [this, execs_cons, hlet1, ok_bind, execs_cons, hlet2, ok_bind, execs_append, hex', ok_bind, execs_cons,
        exec_ifRet, hfail]
      simp only [lift_ok, ok_bind, Val.truthy]
      cases R.2.failed with
      | true => rfl
      | false =>
        simp only [Bool.false_eq_true, if_false, ok_bind]
        rw [execs_cons, exec_ret, eval_var (getVar_of_lookup hout3)]
        rfl
    have e0 : (⟨heap, [hoist body, params], ⟨[], false, 0⟩, []⟩ : State) = st0 := rfl
    rw [e0, hall]
  · intro n hn
    have := repIns_get_other hrep (n := n) (fun h => hn ((rdFields_names e.fields _).subset h))
    rw [this]
    rfl
  · refine ⟨heap.length, .cls, props', rfl, Nat.le_refl _, get_mid _ _ _, ?_⟩
    refine repIns_props (a := []) ?_ ((rdFields_names e.fields _).nodup hnames) .cls
    refine repIns_mono (lo := heap.length + 1) (by omega) (h := st2.heap ++ ext) ?_ ?_
    · intro k o hk hg
      have e1 : st2.heap ++ ext = heap ++ .obj .cls [] :: ext := by
        show (heap ++ [_]) ++ ext = _
        rw [List.append_assoc, List.singleton_append]
      rw [e1] at hg
      have := agree_after heap (.obj .cls []) (.obj .cls props') ext [] k o hk hg
      rwa [List.append_nil] at this
    · have : st2.heap.length = heap.length + 1 := by simp [st2]
      rw [this] at hrep
      exact hrep

end

end Packetc.Js
