import Verif.Proofs.SimnetRun

/-! Runs of the network simulator without faults: progress and order. -/

namespace Verif.Simnet

theorem outer_hsteps (sc : Scen) (now : Nat) (n : Node) : ∀ (k : Nat) (rs : List Mop) (st : Net),
    Inv st → Healthy st → Reads st n rs → rs.length ≤ k →
    HSteps now n st (outer sc now n k rs st) ∧
      ((∀ x ∈ st.q (.readQ, n), x.initTm ≤ now) →
        (∃ r ∈ rs, ∃ m ∈ st.q (.preArrQ, n), r.target = m.origin ∧ m.arrivalTm ≤ now) →
        st.done.length < (outer sc now n k rs st).done.length)
  | 0, rs, st, _, _, _, hk => by
    refine ⟨HSteps.refl st, fun _ ⟨r, hr, _⟩ => ?_⟩
    have : rs = [] := List.length_eq_zero_iff.1 (Nat.le_zero.1 hk)
    rw [this] at hr; cases hr
  | _ + 1, [], st, _, _, _, _ => ⟨HSteps.refl st, fun _ ⟨r, hr, _⟩ => by cases hr⟩
  | k + 1, r :: rs, st, hi, hh, hr, hk => by
    have hS : Sends st n (st.q (.preArrQ, n)) := ⟨hi.sorted _ _, fun _ h => h⟩
    have h := inner_hsteps sc now n (st.q (.preArrQ, n)) r rs st hi hh hS hr (fun _ _ => rfl)
    have h0 := inner_steps sc now n (st.q (.preArrQ, n)) r rs st hi hS hr
    unfold outer
    generalize inner sc now n (st.q (.preArrQ, n)) r rs st = res at h h0
    obtain ⟨st', o⟩ := res
    cases o with
    | none =>
      refine ⟨h.1, fun hb _ => ?_⟩
      rcases h.2 hb with g | ⟨g, _⟩
      · exact g
      · cases g
    | some rs' =>
      have hi' := h0.1.inv hi
      have hrs := h0.2 rs' rfl
      have hl : rs'.length ≤ k := by
        have := hrs.2
        simp only [List.length_cons] at hk
        omega
      have ih := outer_hsteps sc now n k rs' st' hi' (h.1.healthy hh) hrs.1 hl
      refine ⟨h.1.trans ih.1, fun hb hex => ?_⟩
      rcases h.2 hb with g | ⟨g, g'⟩
      · exact Nat.lt_of_lt_of_le g (ih.1.steps.length_le hi')
      · have e1 : st' = st := congrArg Prod.fst g
        have e2 : rs' = rs := Option.some.inj (congrArg Prod.snd g)
        subst e1 e2
        refine ih.2 hb ?_
        obtain ⟨r0, hr0, m, hm, hmt, hma⟩ := hex
        rcases List.mem_cons.1 hr0 with rfl | hr0
        · have := g' m hm hmt
          omega
        · exact ⟨r0, hr0, m, hm, hmt, hma⟩

theorem dispatchNode_hsteps (sc : Scen) (now : Nat) {st : Net} (hi : Inv st) (hh : Healthy st) (n : Node) :
    HSteps now n st (st.dispatchNode sc now n) ∧
      ((∀ x ∈ st.q (.readQ, n), x.initTm ≤ now) →
        (∃ r ∈ st.q (.readQ, n), ∃ m ∈ st.q (.preArrQ, n), r.target = m.origin ∧ m.arrivalTm ≤ now) →
        st.done.length < (st.dispatchNode sc now n).done.length) :=
  outer_hsteps sc now n _ _ st hi hh ⟨hi.sorted _ _, fun _ h => h⟩ (Nat.le_refl _)

/-- Either something was delivered or the queues are as before. -/
theorem HSteps.grow {now : Nat} {n : Node} {st st' : Net} (hi : Inv st) (h : HSteps now n st st') :
    st.done.length < st'.done.length ∨ st'.q = st.q := by
  induction h with
  | refl => exact .inr rfl
  | @head a b c h1 h2 ih =>
    have hib := h1.micro.inv hi
    have := ih hib
    cases h1 with
    | aux h => rw [h.q, h.done] at this; exact this
    | deliver r m m' h hc _ =>
      left
      have := h2.steps.length_le hib
      exact Nat.lt_of_lt_of_le (Nat.lt_succ_self _) this

theorem dispatchFold_progress (sc : Scen) (now : Nat) (n : Node) : ∀ (ns : List Node) (st : Net), Inv st → Healthy st → n ∈ ns →
    (∀ x ∈ st.q (.readQ, n), x.initTm ≤ now) →
    (∃ r ∈ st.q (.readQ, n), ∃ m ∈ st.q (.preArrQ, n), r.target = m.origin ∧ m.arrivalTm ≤ now) →
    st.done.length < (ns.foldl (fun st n => st.dispatchNode sc now n) st).done.length
  | [], _, _, _, hn, _, _ => by cases hn
  | k :: ns, st, hi, hh, hn, hb, hex => by
    have h := dispatchNode_hsteps sc now hi hh k
    have hi' := h.1.steps.inv hi
    have hle := (dispatchFold_steps sc now ns _ hi').length_le hi'
    show st.done.length < (ns.foldl _ (st.dispatchNode sc now k)).done.length
    by_cases hk : n = k
    · subst hk
      exact Nat.lt_of_lt_of_le (h.2 hb hex) hle
    · rcases h.1.grow hi with g | g
      · exact Nat.lt_of_lt_of_le g hle
      · have hlen : st.done.length ≤ (st.dispatchNode sc now k).done.length := h.1.steps.length_le hi
        refine Nat.lt_of_le_of_lt hlen (dispatchFold_progress sc now n ns _ hi' (h.1.healthy hh) ?_ ?_ ?_)
        · rcases List.mem_cons.1 hn with e | e
          · exact absurd e hk
          · exact e
        · rw [g]; exact hb
        · rw [g]; exact hex

theorem probs_isSome {st : Net} {o t : Node} (h : (st.probs o t).isSome) : (st.circ o).isSome := by
  unfold Net.probs Net.conn at h
  cases hc : st.circ o with
  | none => rw [hc] at h; cases h
  | some l => rfl

theorem dispatch_progress (sc : Scen) (now : Nat) {st : Net} (hi : Inv st) (hh : Healthy st) {n : Node}
    (hb : ∀ x ∈ st.q (.readQ, n), x.initTm ≤ now)
    (hex : ∃ r ∈ st.q (.readQ, n), ∃ m ∈ st.q (.preArrQ, n), r.target = m.origin ∧ m.arrivalTm ≤ now) :
    st.done.length < (st.dispatch sc now).done.length := by
  refine dispatchFold_progress sc now n _ st hi hh ?_ hb hex
  obtain ⟨r, hr, _⟩ := hex
  have ho := hh.reader hi hr
  have hw := hh.wired _ (hi.route _ r hr)
  have ho' : (r.origin, r.target).1 = n := ho
  rw [ho'] at hw
  exact List.mem_filter.2 ⟨hw.2, probs_isSome hw.1⟩

/-! ### Operations of a healthy run -/

/-- Operations that make nothing faulty. -/
def Op.calm : Op → Bool
  | .addServer _ => true
  | .addClient _ _ _ => true
  | .send _ _ _ _ _ _ => true
  | .read _ _ _ _ => true
  | .dispatch _ => true
  | _ => false

theorem lookup_setConn (t : Node) (c : Conn) (l : List (Node × Conn)) (x : Node) :
    (setConn t c l).lookup x = if x = t then some c else l.lookup x := by
  induction l with
  | nil =>
    unfold setConn
    by_cases h : x = t
    · simp [h]
    · rw [if_neg h, List.lookup_cons]
      have : (x == t) = false := by simpa using h
      rw [this]
  | cons e es ih =>
    obtain ⟨a, d⟩ := e
    unfold setConn
    by_cases h : x = t
    · subst h
      rw [if_pos rfl] at ih ⊢
      split
      · simp
      · split
        · simp
        · rename_i h1 h2
          have hb : (x == a) = false := by simpa using h2
          simp only [List.lookup_cons, hb]
          exact ih
    · have hb : (x == t) = false := by simpa using h
      rw [if_neg h] at ih ⊢
      split
      · simp only [List.lookup_cons, hb]
      · split
        · rename_i h1 h2
          have h2 : t = a := h2
          subst h2
          simp only [List.lookup_cons, hb]
        · simp only [List.lookup_cons]
          split
          · rfl
          · exact ih

theorem Healthy.crash {st : Net} (h : Healthy st) : Healthy { st with crashed := true } :=
  ⟨h.up, h.clean, h.wired, h.dropped, h.deaf, h.noSend, h.wiped⟩

theorem Healthy.addServer {st : Net} (h : Healthy st) (n : Node) : Healthy (st.addServer n) := by
  unfold Net.addServer
  split
  · exact h.crash
  · rename_i hn
    have pr : ∀ (o t : Node) (st' : Net), st'.circ = upd st.circ n (some []) → o ≠ n → st'.probs o t = st.probs o t := by
      intro o t st' hc ho
      unfold Net.probs Net.conn
      rw [hc, upd_other _ _ ho]
    refine ⟨h.up, fun o t pd pp hp => ?_, fun e he => ?_, h.dropped, h.deaf, h.noSend, h.wiped⟩
    · by_cases ho : o = n
      · subst ho
        unfold Net.probs Net.conn at hp
        simp [upd_same] at hp
      · rw [pr o t _ rfl ho] at hp
        exact h.clean o t pd pp hp
    · have := h.wired e he
      have hne : e.1 ≠ n := fun e' => hn (by rw [← e']; exact this.2)
      rw [pr e.1 e.2 _ rfl hne]
      exact ⟨this.1, mem_insNode.2 (.inr this.2)⟩

theorem Healthy.addClient {st : Net} (hi : Inv st) (h : Healthy st) (c s : Node) (b : Option Node) : Healthy (st.addClient c s b) := by
  unfold Net.addClient
  split
  · exact h
  rename_i hs
  split
  · exact h.crash
  rename_i hc
  have hs' : st.inDns s = true := by
    cases h : st.inDns s with
    | true => rfl
    | false => rw [h] at hs; simp at hs
  have hsa := hi.dns s hs'
  have hne : c ≠ s := fun e => hc (by rw [e]; exact hsa)
  have hcirc : ∀ (st' : Net), st'.circ = upd (upd st.circ c (some [(s, Conn.fresh)])) s (some (setConn c Conn.fresh ((st.circ s).getD []))) →
      (∀ o t, o ≠ c → o ≠ s → st'.probs o t = st.probs o t) ∧
      (∀ t, st'.probs c t = if t = s then some (Prob.zero, Prob.zero) else none) ∧
      (∀ t, st'.probs s t = if t = c then some (Prob.zero, Prob.zero) else st.probs s t) := by
    intro st' he
    refine ⟨fun o t h1 h2 => ?_, fun t => ?_, fun t => ?_⟩
    · unfold Net.probs Net.conn
      rw [he, upd_other _ _ h2, upd_other _ _ h1]
    · unfold Net.probs Net.conn
      rw [he, upd_other _ _ hne, upd_same]
      show Option.map _ (List.lookup t [(s, Conn.fresh)]) = _
      rw [List.lookup_cons]
      by_cases ht : t = s
      · subst ht; simp [Conn.fresh]
      · have : (t == s) = false := by simpa using ht
        rw [this, if_neg ht]; rfl
    · unfold Net.probs Net.conn
      rw [he, upd_same]
      show Option.map _ (List.lookup t (setConn c Conn.fresh ((st.circ s).getD []))) = _
      rw [lookup_setConn]
      by_cases ht : t = c
      · rw [if_pos ht, if_pos ht]; rfl
      · rw [if_neg ht, if_neg ht]
        cases st.circ s <;> rfl
  have key : ∀ st' : Net, st'.state = st.state → st'.powerOff = st.powerOff → st'.q = st.q → st'.wiped = st.wiped →
      st'.all = insNode c st.all → st'.handed = (c, s) :: (s, c) :: st.handed →
      st'.circ = upd (upd st.circ c (some [(s, Conn.fresh)])) s (some (setConn c Conn.fresh ((st.circ s).getD []))) → Healthy st' := by
    intro st' e1 e2 e3 e4 e5 e6 e7
    obtain ⟨p1, p2, p3⟩ := hcirc st' e7
    refine ⟨by rw [e1, e2]; exact h.up, fun o t pd pp hp => ?_, fun e he => ?_, by rw [e3]; exact h.dropped,
      by rw [e3]; exact h.deaf, by rw [e3]; exact h.noSend, by rw [e4]; exact h.wiped⟩
    · by_cases h1 : o = s
      · subst h1
        rw [p3] at hp
        split at hp
        · cases hp; exact ⟨rfl, rfl⟩
        · exact h.clean _ _ _ _ hp
      · by_cases h2 : o = c
        · subst h2
          rw [p2] at hp
          split at hp
          · cases hp; exact ⟨rfl, rfl⟩
          · cases hp
        · rw [p1 o t h2 h1] at hp
          exact h.clean _ _ _ _ hp
    · rw [e6] at he
      rw [e5]
      rcases List.mem_cons.1 he with rfl | he
      · exact ⟨by rw [p2, if_pos rfl]; rfl, mem_insNode.2 (.inl rfl)⟩
      · rcases List.mem_cons.1 he with rfl | he
        · exact ⟨by rw [p3, if_pos rfl]; rfl, mem_insNode.2 (.inr hsa)⟩
        · have hw := h.wired e he
          refine ⟨?_, mem_insNode.2 (.inr hw.2)⟩
          by_cases h1 : e.1 = s
          · rw [h1, p3]
            split
            · rfl
            · rw [← h1]; exact hw.1
          · by_cases h2 : e.1 = c
            · exact absurd (by rw [← h2]; exact hw.2) hc
            · rw [p1 _ _ h2 h1]; exact hw.1
  dsimp only
  split
  · exact key _ rfl rfl rfl rfl rfl rfl rfl
  · exact key _ rfl rfl rfl rfl rfl rfl rfl

theorem Healthy.wire {st : Net} (h : Healthy st) {o t : Node} (hh : (o, t) ∈ st.handed) :
    ∃ l c, st.circ o = some l ∧ l.lookup t = some c ∧ c.drop = Prob.zero := by
  have hw := (h.wired _ hh).1
  unfold Net.probs Net.conn at hw
  cases hl : st.circ o with
  | none => rw [hl] at hw; cases hw
  | some l =>
    rw [hl] at hw
    cases hc : l.lookup t with
    | none => simp [hc] at hw
    | some c =>
      exact ⟨l, c, rfl, hc, (h.clean o t c.deaf c.drop (by unfold Net.probs Net.conn; rw [hl]; simp [hc])).2⟩

/-- A send in a healthy network puts the message in flight. -/
theorem handleSend_healthy {sc : Scen} {st : Net} (h : Healthy st) (o t : Node) (pl : List UInt8) (e : Bool) (i tie : Nat)
    (hh : (o, t) ∈ st.handed) :
    st.handleSend sc o t pl e i tie =
      ({ st with next := st.next + 1, pos := st.pos + 1, sent := mkSend sc st o t pl e i tie :: st.sent } : Net).put
        (.preArrQ, t) (mkSend sc st o t pl e i tie) := by
  obtain ⟨l, c, h1, h2, h3⟩ := h.wire hh
  unfold Net.handleSend
  rw [if_neg (fun x => x hh)]
  dsimp only
  rw [h1]
  dsimp only
  rw [h2]
  dsimp only
  rw [if_neg]
  · rfl
  · show ¬ (!(st.connected o t) || c.drop.sure) = true
    rw [h.connected, h3]
    simp [Prob.sure, Prob.zero]

theorem handleRead_healthy {st : Net} (h : Healthy st) (o t : Node) (i tie : Nat) (hh : (o, t) ∈ st.handed) :
    st.handleRead o t i tie =
      ({ st with next := st.next + 1 } : Net).put (.readQ, o) ⟨st.next, false, o, t, [], false, i, 0, tie, false⟩ := by
  obtain ⟨l, c, h1, h2, _⟩ := h.wire hh
  unfold Net.handleRead
  rw [if_neg (fun x => x hh)]
  dsimp only
  rw [h1]
  dsimp only
  rw [h2]

theorem Healthy.put {st st0 : Net} (h : Healthy st) (e1 : st0.state = st.state) (e2 : st0.powerOff = st.powerOff)
    (e3 : st0.q = st.q) (e4 : st0.wiped = st.wiped) (e5 : st0.all = st.all) (e6 : st0.handed = st.handed)
    (e7 : st0.circ = st.circ) {p : Place} {m : Mop} (hp : p.1 = .preArrQ ∨ p.1 = .readQ ∧ m.isSend = false) :
    Healthy (st0.put p m) := by
  have pr : ∀ o t, (st0.put p m).probs o t = st.probs o t := by
    intro o t
    show (((st0.circ o).bind (fun l => l.lookup t)).map _) = _
    rw [e7]; rfl
  have hne : ∀ k n, k ≠ QKind.preArrQ → k ≠ QKind.readQ → (k, n) ≠ p := by
    intro k n h1 h2 he
    rcases hp with h | ⟨h, _⟩
    · exact h1 (by rw [← he] at h; exact h)
    · exact h2 (by rw [← he] at h; exact h)
  refine ⟨by show ∀ n, st0.state n = _ ∧ st0.powerOff n = _; rw [e1, e2]; exact h.up, fun o t => by rw [pr]; exact h.clean o t,
    fun e he => ?_, fun n => ?_, fun n => ?_, fun n x hx => ?_, by show st0.wiped = []; rw [e4]; exact h.wiped⟩
  · rw [pr]
    have he : e ∈ st0.handed := he
    show _ ∧ e.1 ∈ st0.all
    rw [e5]; exact h.wired e (by rw [← e6]; exact he)
  · rw [put_q, if_neg (hne _ _ (by simp) (by simp)), e3]; exact h.dropped n
  · rw [put_q, if_neg (hne _ _ (by simp) (by simp)), e3]; exact h.deaf n
  · rcases added_put (st := st) (st0 := st0) e3 p m (.readQ, n) x hx with rfl | ⟨p', hx'⟩
    · rcases hp with h' | ⟨_, h'⟩
      · rw [put_q, if_neg (by intro he; rw [← he] at h'; cases h'), e3] at hx
        exact h.noSend n x hx
      · exact h'
    · rw [put_q] at hx
      by_cases hq : (QKind.readQ, n) = p
      · rw [if_pos hq] at hx
        unfold addTo at hx
        rw [← hq, e3] at hx
        split at hx
        · exact h.noSend n x hx
        · rcases mem_insertBefore.1 hx with rfl | hx
          · rcases hp with h' | ⟨_, h'⟩
            · rw [← hq] at h'; cases h'
            · exact h'
          · exact h.noSend n x hx
      · rw [if_neg hq, e3] at hx
        exact h.noSend n x hx

theorem dispatchFold_healthy (sc : Scen) (now : Nat) : ∀ (ns : List Node) (st : Net), Inv st → Healthy st →
    Healthy (ns.foldl (fun st n => st.dispatchNode sc now n) st)
  | [], _, _, hh => hh
  | n :: ns, st, hi, hh => by
    have h := (dispatchNode_hsteps sc now hi hh n).1
    exact dispatchFold_healthy sc now ns _ (h.steps.inv hi) (h.healthy hh)

theorem step_healthy (sc : Scen) {st : Net} (hi : Inv st) (hh : Healthy st) {op : Op} (hc : op.calm = true) :
    Healthy (step sc st op) := by
  unfold step
  split
  · exact hh
  · cases op with
    | addServer n => exact hh.addServer n
    | addClient c s b => exact hh.addClient hi c s b
    | send o t pl e i tie =>
      show Healthy (st.handleSend sc o t pl e i tie)
      by_cases h : (o, t) ∈ st.handed
      · rw [handleSend_healthy hh o t pl e i tie h]
        exact Healthy.put (st := st) (st0 := { st with next := st.next + 1, pos := st.pos + 1, sent := mkSend sc st o t pl e i tie :: st.sent }) (p := (.preArrQ, t)) (m := mkSend sc st o t pl e i tie) hh rfl rfl rfl rfl rfl rfl rfl (.inl rfl)
      · have : st.handleSend sc o t pl e i tie = st := if_pos h
        rw [this]; exact hh
    | read o t i tie =>
      show Healthy (st.handleRead o t i tie)
      by_cases h : (o, t) ∈ st.handed
      · rw [handleRead_healthy hh o t i tie h]
        exact Healthy.put (st := st) (st0 := { st with next := st.next + 1 }) (p := (.readQ, o)) (m := ⟨st.next, false, o, t, [], false, i, 0, tie, false⟩) hh rfl rfl rfl rfl rfl rfl rfl (.inr ⟨rfl, rfl⟩)
      · have : st.handleRead o t i tie = st := if_pos h
        rw [this]; exact hh
    | dispatch now => exact dispatchFold_healthy sc now _ st hi hh
    | faultCkt => cases hc
    | repairCkt => cases hc
    | isolate => cases hc
    | unIsolate => cases hc
    | shutdown => cases hc
    | powerOn => cases hc
    | close => cases hc

theorem run_healthy (sc : Scen) (ops : List Op) {st : Net} (hi : Inv st) (hh : Healthy st) (hc : ∀ op ∈ ops, op.calm = true) :
    Healthy (run sc st ops) := by
  induction ops generalizing st with
  | nil => exact hh
  | cons op ops ih =>
    exact ih (step_inv sc hi op) (step_healthy sc hi hh (hc op (List.mem_cons_self ..)))
      (fun x hx => hc x (List.mem_cons_of_mem _ hx))

/-! ### Order at a node with one connection -/

/-- The messages accepted for `c`, the messages delivered at `c`, in order. -/
def Net.sentTo (st : Net) (c : Node) : List Mop := st.sent.reverse.filter (fun m => m.target == c)
def Net.doneAt (st : Net) (c : Node) : List Mop := (st.done.reverse.filter (fun d => d.send.target == c)).map (fun d => d.send.core)

/-- What was sent to `c` is what was delivered there and then what is in flight. -/
def Fifo (st : Net) (c : Node) : Prop := st.sentTo c = st.doneAt c ++ (st.q (.preArrQ, c)).map Mop.core

theorem doneAt_cons (c : Node) (st : Net) (st' : Net) (d : Done) (h : st'.done = d :: st.done) :
    st'.doneAt c = st.doneAt c ++ (if d.send.target = c then [d.send.core] else []) := by
  unfold Net.doneAt
  rw [h, List.reverse_cons, List.filter_append, List.map_append]
  by_cases hc : d.send.target = c
  · simp [hc]
  · have : (d.send.target == c) = false := by simpa using hc
    simp [this, hc]

theorem Fifo.hmicro {now : Nat} {n c s : Node} {st st' : Net} (hi : Inv st) (hs : Single st c s) (hf : Fifo st c)
    (h : HMicro now n st st') : Fifo st' c := by
  cases h with
  | aux h =>
    unfold Fifo Net.sentTo Net.doneAt at hf ⊢
    rw [h.sent, h.done, h.q]; exact hf
  | deliver r m m' h hc hd =>
    have hmt : m.target = n := (hi.fits _ _ m h.send).2
    have he := Mop.core_ext hc
    unfold Fifo at hf ⊢
    rw [doneAt_cons c st _ ⟨r, m', now⟩ rfl]
    show st.sentTo c = _
    rw [hf]
    show _ = _ ++ ((((st.take (.preArrQ, n) m.sn).take (.readQ, n) r.sn).q (.preArrQ, c)).map Mop.core)
    have hq0 : ((st.take (.preArrQ, n) m.sn).take (.readQ, n) r.sn).q (.preArrQ, c) =
        if (QKind.preArrQ, c) = (QKind.preArrQ, n) then delFrom m.sn (st.q (.preArrQ, n)) else st.q (.preArrQ, c) := by
      rw [take_q, if_neg (by simp), take_q]
    rw [hq0]
    by_cases hn : n = c
    · subst hn
      rw [if_pos (show m'.target = n from he.2.2.2.1.trans hmt), if_pos rfl]
      have hh := hd s hs
      cases hq : st.q (.preArrQ, n) with
      | nil => rw [hq] at hh; cases hh
      | cons x xs =>
        rw [hq] at hh
        cases hh
        have := hi.sorted .preArrQ n
        rw [hq] at this
        rw [delFrom_head this]
        show _ ++ (m.core :: _) = _
        rw [hc]; simp
    · rw [if_neg (show ¬ m'.target = c from fun e => hn ((he.2.2.2.1.trans hmt).symm.trans e)),
        if_neg (by intro e; exact hn (congrArg Prod.snd e).symm)]
      simp

theorem Fifo.hsteps {now : Nat} {n c s : Node} {st st' : Net} (h : HSteps now n st st') : Inv st → Single st c s → Fifo st c →
    Fifo st' c := by
  induction h with
  | refl => exact fun _ _ h => h
  | head h1 _ ih =>
    intro hi hs hf
    refine ih (h1.micro.inv hi) ?_ (hf.hmicro hi hs h1)
    unfold Single
    rw [h1.micro.same.handed]; exact hs

theorem Fifo.dispatch (sc : Scen) (now : Nat) {c s : Node} : ∀ (ns : List Node) (st : Net), Inv st → Healthy st → Single st c s →
    Fifo st c → Fifo (ns.foldl (fun st n => st.dispatchNode sc now n) st) c
  | [], _, _, _, _, hf => hf
  | n :: ns, st, hi, hh, hs, hf => by
    have h := (dispatchNode_hsteps sc now hi hh n).1
    refine Fifo.dispatch (s := s) sc now ns _ (h.steps.inv hi) (h.healthy hh) ?_ (Fifo.hsteps h hi hs hf)
    unfold Single
    rw [h.steps.same.handed]; exact hs

/-- With a fixed hop time the arrival time is the time of the send plus a constant. -/
def FixedHop (sc : Scen) (st : Net) : Prop := ∀ m ∈ st.sent, m.arrivalTm = m.initTm + sc.minHop + sc.tick

theorem insertBefore_last {m : Mop} : ∀ {q : List Mop}, (∀ x ∈ q, x.arrivalTm < m.arrivalTm) →
    insertBefore (QKind.before .preArrQ) m q = q ++ [m]
  | [], _ => rfl
  | x :: xs, h => by
    unfold insertBefore
    have := h x (List.mem_cons_self ..)
    rw [if_neg, insertBefore_last (fun y hy => h y (List.mem_cons_of_mem _ hy))]
    · rfl
    · intro hb
      have := of_decide_eq_true (show decide _ = true from hb)
      omega

/-- The time of a send to `c`. -/
def Op.sendTm (c : Node) : Op → Option Nat
  | .send _ t _ _ i _ => if t = c then some i else none
  | _ => none

/-- The connections of a run without faults are those its registrations ask for. -/
theorem step_handed (sc : Scen) {st : Net} (hi : Inv st) (hh : Healthy st) {op : Op} (hc : op.calm = true) :
    ∀ e ∈ (step sc st op).handed, e ∈ st.handed ∨ ∃ b, op = .addClient e.1 e.2 b ∨ op = .addClient e.2 e.1 b := by
  intro e he
  unfold step at he
  split at he
  · exact .inl he
  · cases op with
    | addServer n =>
      left
      have he : e ∈ (st.addServer n).handed := he
      unfold Net.addServer at he
      split at he <;> exact he
    | addClient c s b =>
      have he : e ∈ (st.addClient c s b).handed := he
      unfold Net.addClient at he
      split at he
      · exact .inl he
      · split at he
        · exact .inl he
        · have he : e ∈ (c, s) :: (s, c) :: st.handed := by
            dsimp only at he
            split at he <;> exact he
          rcases List.mem_cons.1 he with rfl | he
          · exact .inr ⟨b, .inl rfl⟩
          · rcases List.mem_cons.1 he with rfl | he
            · exact .inr ⟨b, .inr rfl⟩
            · exact .inl he
    | send o t pl e' i tie =>
      left
      have he : e ∈ (st.handleSend sc o t pl e' i tie).handed := he
      by_cases h : (o, t) ∈ st.handed
      · rw [handleSend_healthy hh o t pl e' i tie h] at he; exact he
      · have : st.handleSend sc o t pl e' i tie = st := if_pos h
        rw [this] at he; exact he
    | read o t i tie =>
      left
      have he : e ∈ (st.handleRead o t i tie).handed := he
      by_cases h : (o, t) ∈ st.handed
      · rw [handleRead_healthy hh o t i tie h] at he; exact he
      · have : st.handleRead o t i tie = st := if_pos h
        rw [this] at he; exact he
    | dispatch now =>
      left
      have he : e ∈ (st.dispatch sc now).handed := he
      rw [(dispatch_steps sc now hi).same.handed] at he
      exact he
    | faultCkt => cases hc
    | repairCkt => cases hc
    | isolate => cases hc
    | unIsolate => cases hc
    | shutdown => cases hc
    | powerOn => cases hc
    | close => cases hc

/-- Everything the order rests on. -/
structure FInv (sc : Scen) (c s : Node) (ops : List Op) (st : Net) : Prop where
  inv : Inv st
  hist : Hist sc ops st
  healthy : Healthy st
  single : Single st c s
  fixed : FixedHop sc st
  fifo : Fifo st c

theorem FInv.step {sc : Scen} (hsc : sc.maxHop ≤ sc.minHop) {c s : Node} {ops : List Op} {st : Net} (h : FInv sc c s ops st)
    {op : Op} (hc : op.calm = true)
    (hone : ∀ a b base, op = .addClient a b base → (a = c → b = s) ∧ (b = c → a = s))
    (htm : ∀ i, op.sendTm c = some i → ∀ j ∈ ops.filterMap (Op.sendTm c), j < i) :
    FInv sc c s (ops ++ [op]) (step sc st op) := by
  have hi := h.inv
  have hh := h.healthy
  have sing : Single (Simnet.step sc st op) c s := by
    intro e he
    rcases step_handed sc hi hh hc e he with he | ⟨b, he | he⟩
    · exact h.single e he
    · exact hone _ _ _ he
    · have := hone _ _ _ he
      exact ⟨this.2, this.1⟩
  refine ⟨step_inv sc hi op, h.hist.step hi op, step_healthy sc hi hh hc, sing, ?_, ?_⟩
  · have hf : ∀ m ∈ st.sent, m.arrivalTm = m.initTm + sc.minHop + sc.tick := h.fixed
    cases step_spec sc hi op with
    | passed now hop hs => unfold FixedHop; rw [hs.same.sent]; exact hf
    | sent o t pl e i tie hop hh inv done sent add =>
      unfold FixedHop
      rw [sent]
      intro m hm
      rcases List.mem_cons.1 hm with rfl | hm
      · show i + sc.hop st.pos + sc.tick = i + sc.minHop + sc.tick
        unfold Scen.hop
        rw [if_pos hsc]
      · exact hf m hm
    | reads o t i tie hop hh inv done sent add => unfold FixedHop; rw [sent]; exact hf
    | keep hk => unfold FixedHop; rw [hk.sent]; exact hf
  · have same : ∀ st' : Net, st'.sent = st.sent → st'.done = st.done → st'.q (.preArrQ, c) = st.q (.preArrQ, c) → Fifo st' c := by
      intro st' e1 e2 e3
      have := h.fifo
      unfold Fifo Net.sentTo Net.doneAt at this ⊢
      rw [e1, e2, e3]; exact this
    unfold Simnet.step
    split
    · exact h.fifo
    · cases op with
      | addServer n =>
        show Fifo (st.addServer n) c
        unfold Net.addServer
        split <;> exact same _ rfl rfl rfl
      | addClient a b base =>
        show Fifo (st.addClient a b base) c
        unfold Net.addClient
        split
        · exact h.fifo
        · split
          · exact same _ rfl rfl rfl
          · dsimp only
            split <;> exact same _ rfl rfl rfl
      | send o t pl e i tie =>
        show Fifo (st.handleSend sc o t pl e i tie) c
        by_cases hd : (o, t) ∈ st.handed
        · rw [handleSend_healthy hh o t pl e i tie hd]
          have hlt : ∀ p, ∀ x ∈ st.q p, x.sn ≠ st.next := fun p x hx => Nat.ne_of_lt (hi.lt p x hx)
          by_cases ht : t = c
          · subst ht
            have hlast : ∀ x ∈ st.q (.preArrQ, t), x.arrivalTm < (mkSend sc st o t pl e i tie).arrivalTm := by
              intro x hx
              have hk := hi.known _ x hx (hi.fits _ _ x hx).1
              have hxa : x.core.arrivalTm = _ := h.fixed _ hk
              have hxa : x.arrivalTm = x.initTm + sc.minHop + sc.tick := hxa
              have hop := h.hist.ofSend_mem (m' := x) hk rfl
              have := htm i (by show (if t = t then some i else none) = some i; rw [if_pos rfl]) x.initTm
                (List.mem_filterMap.2 ⟨_, hop, by
                  show (if x.target = t then some x.initTm else none) = _
                  rw [if_pos (hi.fits _ _ x hx).2]⟩)
              show x.arrivalTm < i + sc.hop st.pos + sc.tick
              unfold Scen.hop
              rw [if_pos hsc, hxa]
              omega
            have hf := h.fifo
            unfold Fifo at hf ⊢
            show ((mkSend sc st o t pl e i tie) :: st.sent).reverse.filter _ = st.doneAt t ++ _
            rw [put_q, if_pos rfl, addTo_new (by exact fun y hy => hlt _ y hy), insertBefore_last hlast]
            rw [List.reverse_cons, List.filter_append, List.map_append, ← List.append_assoc]
            unfold Net.sentTo at hf
            rw [hf]
            congr 1
            have : ((mkSend sc st o t pl e i tie).target == t) = true := by simp [mkSend]
            rw [List.filter_cons_of_pos (p := fun m : Mop => m.target == t) this]
            rfl
          · have hf := h.fifo
            unfold Fifo at hf ⊢
            show ((mkSend sc st o t pl e i tie) :: st.sent).reverse.filter _ = st.doneAt c ++ _
            rw [put_q, if_neg (by intro e; exact ht (congrArg Prod.snd e).symm), List.reverse_cons, List.filter_append]
            have : ¬ ((mkSend sc st o t pl e i tie).target == c) = true := by simpa [mkSend] using ht
            rw [List.filter_cons_of_neg (p := fun m : Mop => m.target == c) this, List.filter_nil, List.append_nil]
            exact hf
        · have : st.handleSend sc o t pl e i tie = st := if_pos hd
          rw [this]; exact h.fifo
      | read o t i tie =>
        show Fifo (st.handleRead o t i tie) c
        by_cases hd : (o, t) ∈ st.handed
        · rw [handleRead_healthy hh o t i tie hd]
          exact same _ rfl rfl (by rw [put_q, if_neg (by simp)])
        · have : st.handleRead o t i tie = st := if_pos hd
          rw [this]; exact h.fifo
      | dispatch now => exact Fifo.dispatch sc now _ st hi hh h.single h.fifo
      | faultCkt => cases hc
      | repairCkt => cases hc
      | isolate => cases hc
      | unIsolate => cases hc
      | shutdown => cases hc
      | powerOn => cases hc
      | close => cases hc

theorem FInv.init (sc : Scen) (c s : Node) : FInv sc c s [] Simnet.init :=
  ⟨Inv.init, Hist.init sc, Healthy.init, (fun _ h => nomatch h), (fun _ h => nomatch h), rfl⟩

theorem FInv.run {sc : Scen} (hsc : sc.maxHop ≤ sc.minHop) {c s : Node} (ops : List Op) (hc : ∀ op ∈ ops, op.calm = true)
    (hone : ∀ a b base, Op.addClient a b base ∈ ops → (a = c → b = s) ∧ (b = c → a = s))
    (htm : (ops.filterMap (Op.sendTm c)).Pairwise (· < ·)) : FInv sc c s ops (run sc Simnet.init ops) := by
  have go : ∀ (ops' done : List Op) (st : Net), FInv sc c s done st → (∀ op ∈ ops', op.calm = true) →
      (∀ a b base, Op.addClient a b base ∈ ops' → (a = c → b = s) ∧ (b = c → a = s)) →
      ((done ++ ops').filterMap (Op.sendTm c)).Pairwise (· < ·) → FInv sc c s (done ++ ops') (Simnet.run sc st ops') := by
    intro ops'
    induction ops' with
    | nil => intro done st h _ _ _; rw [List.append_nil]; exact h
    | cons op ops' ih =>
      intro done st h h1 h2 h3
      have hstep := h.step hsc (h1 op (List.mem_cons_self ..)) (op := op)
        (fun a b base e => h2 a b base (by rw [e]; exact List.mem_cons_self ..))
        (fun i hi j hj => by
          rw [List.filterMap_append] at h3
          refine (List.pairwise_append.1 h3).2.2 j hj i ?_
          exact List.mem_filterMap.2 ⟨op, List.mem_cons_self .., hi⟩)
      have := ih (done ++ [op]) _ hstep (fun x hx => h1 x (List.mem_cons_of_mem _ hx))
        (fun a b base e => h2 a b base (List.mem_cons_of_mem _ e)) (by rw [List.append_assoc]; exact h3)
      rw [List.append_assoc] at this
      exact this
  exact go ops [] Simnet.init (FInv.init sc c s) hc hone htm

end Verif.Simnet
