import Verif.Proofs.SimnetOps

/-! Deliveries of a run of the network simulator: where they come from, and runs without faults. -/

namespace Verif.Simnet

/-! ### Deliveries of one pass, in terms of the network before the pass -/

/-- The conditions of a delivery at time `now`, in the network `st` before the pass. -/
structure Deliv (now : Nat) (st : Net) (d : Done) : Prop where
  at_ : d.at_ = now
  isRead : d.read.isSend = false
  read : d.read ∈ st.q (.readQ, d.read.origin)
  send : ∃ m ∈ st.q (.preArrQ, d.send.target), m.core = d.send.core ∧
    (m.filtered = true ∨ ∃ pd pp, st.probs m.origin m.target = some (pd, pp) ∧ pp.sure = false)
  here : d.read.origin = d.send.target
  there : d.read.target = d.send.origin
  arrived : d.send.arrivalTm ≤ now
  begun : d.read.initTm ≤ now
  conn : st.connected d.read.origin d.read.target = true
  hears : ∃ pd pp, st.probs d.read.origin d.read.target = some (pd, pp) ∧ pd.sure = false

/-- A pass only takes out of the read and pre-arrival queues. -/
theorem DMicro.shrink {now : Nat} {st st' : Net} (h : DMicro now st st') {k : QKind} (hk : k = .readQ ∨ k = .preArrQ)
    {n : Node} {x : Mop} (hx : x ∈ st'.q (k, n)) : x ∈ st.q (k, n) := by
  cases h with
  | aux h => rw [h.q] at hx; exact hx
  | move n' m m' dst hm hc hd _ =>
    rw [put_q, if_neg] at hx
    · exact (mem_take.1 hx).1
    · rcases hd with rfl | rfl <;> rcases hk with rfl | rfl <;> simp
  | deliver n' r m m' h hc => exact (mem_take.1 (mem_take.1 hx).1).1

theorem DSteps.shrink {now : Nat} {st st' : Net} (h : DSteps now st st') {k : QKind} (hk : k = .readQ ∨ k = .preArrQ)
    {n : Node} {x : Mop} (hx : x ∈ st'.q (k, n)) : x ∈ st.q (k, n) := by
  induction h with
  | refl => exact hx
  | tail _ h2 ih => exact ih (h2.shrink hk hx)

theorem DSteps.done {now : Nat} {st st' : Net} (hi : Inv st) (h : DSteps now st st') :
    ∃ new, st'.done = new ++ st.done ∧ ∀ d ∈ new, Deliv now st d := by
  induction h with
  | refl => exact ⟨[], rfl, fun _ h => by cases h⟩
  | @tail b c h1 h2 ih =>
    obtain ⟨new, hn, hd⟩ := ih
    cases h2 with
    | aux h => exact ⟨new, by rw [h.done]; exact hn, hd⟩
    | move n' m m' dst hm hc hd' _ => exact ⟨new, hn, hd⟩
    | deliver n r m m' h hc =>
      refine ⟨⟨r, m', now⟩ :: new, by show _ :: b.done = _; rw [hn]; rfl, ?_⟩
      intro d hdm
      rcases List.mem_cons.1 hdm with rfl | hdm
      · have hib := h1.inv hi
        have hs := h1.same
        have hr := hib.reader h.read h.send h.target
        have hf := hib.fits _ _ m h.send
        have he := Mop.core_ext hc
        have ht : m'.target = n := he.2.2.2.1.trans hf.2
        have ho : m'.origin = m.origin := he.2.2.1
        refine ⟨rfl, hr.1, ?_, ⟨m, ?_, hc.symm, ?_⟩, hr.2.trans ht.symm, h.target.trans ho.symm, ?_, h.begun, ?_, ?_⟩
        · show r ∈ st.q (.readQ, r.origin)
          rw [hr.2]; exact h1.shrink (.inl rfl) h.read
        · show m ∈ st.q (.preArrQ, m'.target)
          rw [ht]; exact h1.shrink (.inr rfl) h.send
        · rcases h.passes with g | ⟨pd, pp, g1, g2⟩
          · exact .inl g
          · exact .inr ⟨pd, pp, by rw [← hs.probs]; exact g1, g2⟩
        · show m'.arrivalTm ≤ now
          rw [he.2.2.2.2.2.2.2.1]; exact h.arrived
        · show st.connected r.origin r.target = true
          rw [← hs.connected]; exact h.conn
        · obtain ⟨pd, pp, g1, g2⟩ := h.hears
          exact ⟨pd, pp, by rw [← hs.probs]; exact g1, g2⟩
      · exact hd d hdm

/-- What a pass does to any message: it stays, or its mark is set on passing the drop decision. -/
theorem DSteps.old {now : Nat} {st st' : Net} (hi : Inv st) (h : DSteps now st st') {p : Place} {x : Mop} (hx : x ∈ st'.q p) :
    ∃ p0 x0, x0 ∈ st.q p0 ∧ x.core = x0.core ∧
      (x.filtered = true → x0.filtered = true ∨ ∃ pd pp, st.probs x.origin x.target = some (pd, pp) ∧ pp.sure = false) := by
  induction h generalizing p x with
  | refl => exact ⟨p, x, hx, rfl, fun h => .inl h⟩
  | @tail b c h1 h2 ih =>
    cases h2 with
    | aux h => rw [h.q] at hx; exact ih hx
    | move n m m' dst hm hc hd hp =>
      rcases (mem_move (h1.inv hi) hm hc).1 hx with ⟨h, _⟩ | ⟨_, rfl⟩
      · exact ih h
      · obtain ⟨p0, x0, g1, g2, g3⟩ := ih hm
        refine ⟨p0, x0, g1, hc.trans g2, fun h => ?_⟩
        have he := Mop.core_ext hc
        rcases hp h with h | ⟨pd, pp, h, h'⟩
        · rw [he.2.2.1, he.2.2.2.1]; exact g3 h
        · right; rw [he.2.2.1, he.2.2.2.1]
          exact ⟨pd, pp, by rw [← h1.same.probs]; exact h, h'⟩
    | deliver n r m m' h hc => exact ih (mem_take.1 (mem_take.1 hx).1).1

/-! ### The record of a run in terms of its operations -/

/-- The operation that sent a message. -/
def Op.ofSend (m : Mop) : Op := .send m.origin m.target m.payload m.eof m.initTm m.tie
/-- The operation that issued a read. -/
def Op.ofRead (r : Mop) : Op := .read r.origin r.target r.initTm r.tie

/-- The record matches the operations. -/
structure Hist (sc : Scen) (ops : List Op) (st : Net) : Prop where
  sent : (st.sent.reverse.map Op.ofSend).Sublist ops
  delay : ∀ m ∈ st.sent, m.initTm + sc.minHop + sc.tick ≤ m.arrivalTm
  reads : ∀ p, ∀ m ∈ st.q p, m.isSend = false → Op.ofRead m ∈ ops
  done : ∀ d ∈ st.done, d.read.isSend = false ∧ d.read.origin = d.send.target ∧ d.read.target = d.send.origin ∧
    d.send.arrivalTm ≤ d.at_ ∧ d.read.initTm ≤ d.at_ ∧
    ∃ pre post, ops = pre ++ Op.dispatch d.at_ :: post ∧ Op.ofSend d.send ∈ pre ∧ Op.ofRead d.read ∈ pre

theorem Scen.le_hop (sc : Scen) (pos : Nat) : sc.minHop ≤ sc.hop pos := by
  unfold Scen.hop; split <;> omega

theorem Op.ofSend_core {m m' : Mop} (h : m.core = m'.core) : Op.ofSend m = Op.ofSend m' := by
  have := Mop.core_ext h
  unfold Op.ofSend
  rw [this.2.2.1, this.2.2.2.1, this.2.2.2.2.1, this.2.2.2.2.2.1, this.2.2.2.2.2.2.1, this.2.2.2.2.2.2.2.2]

theorem Hist.ofSend_mem {sc : Scen} {ops : List Op} {st : Net} (h : Hist sc ops st) {m m' : Mop} (hm : m ∈ st.sent)
    (hc : m'.core = m.core) : Op.ofSend m' ∈ ops := by
  rw [Op.ofSend_core hc]
  exact h.sent.subset (List.mem_map.2 ⟨m, List.mem_reverse.2 hm, rfl⟩)

theorem Hist.step {sc : Scen} {ops : List Op} {st : Net} (hi : Inv st) (h : Hist sc ops st) (op : Op) :
    Hist sc (ops ++ [op]) (step sc st op) := by
  have dn : ∀ d ∈ st.done, d.read.isSend = false ∧ d.read.origin = d.send.target ∧ d.read.target = d.send.origin ∧
      d.send.arrivalTm ≤ d.at_ ∧ d.read.initTm ≤ d.at_ ∧
      ∃ pre post, ops ++ [op] = pre ++ Op.dispatch d.at_ :: post ∧ Op.ofSend d.send ∈ pre ∧ Op.ofRead d.read ∈ pre := by
    intro d hd
    obtain ⟨a, b, c, e, f, pre, post, g1, g2, g3⟩ := h.done d hd
    exact ⟨a, b, c, e, f, pre, post ++ [op], by rw [g1]; simp, g2, g3⟩
  have rd : ∀ p, ∀ m ∈ st.q p, m.isSend = false → Op.ofRead m ∈ ops ++ [op] :=
    fun p m hm hs => List.mem_append_left _ (h.reads p m hm hs)
  have sn : (st.sent.reverse.map Op.ofSend).Sublist (ops ++ [op]) := h.sent.trans (List.sublist_append_left ..)
  cases step_spec sc hi op with
  | passed now hop hs =>
    obtain ⟨new, hn, hd⟩ := hs.done hi
    refine ⟨by rw [hs.same.sent]; exact sn, by rw [hs.same.sent]; exact h.delay, ?_, ?_⟩
    · intro p m hm hf
      obtain ⟨p0, x0, g1, g2, _⟩ := hs.old hi hm
      have he := Mop.core_ext g2
      have := rd p0 x0 g1 (by rw [← he.2.1]; exact hf)
      unfold Op.ofRead at this ⊢
      rw [he.2.2.1, he.2.2.2.1, he.2.2.2.2.2.2.1, he.2.2.2.2.2.2.2.2]
      exact this
    · intro d hdm
      rw [hn] at hdm
      rcases List.mem_append.1 hdm with hdm | hdm
      · have hv := hd d hdm
        refine ⟨hv.isRead, hv.here, hv.there, by rw [hv.at_]; exact hv.arrived, by rw [hv.at_]; exact hv.begun,
          ops, [], by rw [hv.at_, hop], ?_, h.reads _ _ hv.read hv.isRead⟩
        obtain ⟨m, hm, hc, _⟩ := hv.send
        exact h.ofSend_mem (hi.known _ m hm (hi.fits _ _ m hm).1) (hc.symm.trans rfl)
      · exact dn d hdm
  | sent o t pl e i tie hop hh inv done sent add =>
    refine ⟨?_, ?_, ?_, by rw [done]; exact dn⟩
    · rw [sent, List.reverse_cons, List.map_append]
      exact List.Sublist.append h.sent (by rw [hop]; exact List.Sublist.refl _)
    · rw [sent]
      intro m hm
      rcases List.mem_cons.1 hm with rfl | hm
      · show i + sc.minHop + sc.tick ≤ i + sc.hop st.pos + sc.tick
        have := sc.le_hop st.pos
        omega
      · exact h.delay m hm
    · intro p m hm hf
      rcases add p m hm with rfl | ⟨p', hm'⟩
      · cases hf
      · exact rd p' m hm' hf
  | reads o t i tie hop hh inv done sent add =>
    refine ⟨by rw [sent]; exact sn, by rw [sent]; exact h.delay, ?_, by rw [done]; exact dn⟩
    intro p m hm hf
    rcases add p m hm with rfl | ⟨p', hm'⟩
    · rw [hop]; exact List.mem_append_right _ (List.mem_singleton.2 rfl)
    · exact rd p' m hm' hf
  | keep hk =>
    refine ⟨by rw [hk.sent]; exact sn, by rw [hk.sent]; exact h.delay, ?_, by rw [hk.done]; exact dn⟩
    intro p m hm hf
    obtain ⟨p', hm'⟩ := hk.old p m hm
    exact rd p' m hm' hf

theorem Hist.init (sc : Scen) : Hist sc [] Simnet.init :=
  ⟨List.Sublist.refl _, (fun _ h => nomatch h), (fun _ _ h => nomatch h), (fun _ h => nomatch h)⟩

theorem run_hist (sc : Scen) (ops : List Op) : Inv (run sc init ops) ∧ Hist sc ops (run sc init ops) := by
  refine ⟨run_inv sc ops Inv.init, ?_⟩
  have go : ∀ (ops' done : List Op) (st : Net), Inv st → Hist sc done st → Hist sc (done ++ ops') (run sc st ops') := by
    intro ops'
    induction ops' with
    | nil => intro done st _ h; rw [List.append_nil]; exact h
    | cons op ops' ih =>
      intro done st hi h
      have := ih (done ++ [op]) _ (step_inv sc hi op) (h.step hi op)
      rw [List.append_assoc] at this
      exact this
  exact go ops [] init Inv.init (Hist.init sc)

/-! ### Networks without faults -/

/-- Nothing was ever made faulty. -/
structure Healthy (st : Net) : Prop where
  up : ∀ n, st.state n = .healthy ∧ st.powerOff n = false
  clean : ∀ o t pd pp, st.probs o t = some (pd, pp) → pd = Prob.zero ∧ pp = Prob.zero
  wired : ∀ e ∈ st.handed, (st.probs e.1 e.2).isSome ∧ e.1 ∈ st.all
  dropped : ∀ n, st.q (.droppedSendQ, n) = []
  deaf : ∀ n, st.q (.deafReadQ, n) = []
  noSend : ∀ n, ∀ m ∈ st.q (.readQ, n), m.isSend = false
  wiped : st.wiped = []

theorem Healthy.reader {st : Net} (h : Healthy st) (hi : Inv st) {n : Node} {r : Mop} (hr : r ∈ st.q (.readQ, n)) :
    r.origin = n := (hi.fits _ _ r hr).1 (h.noSend n r hr)

theorem Healthy.connected {st : Net} (h : Healthy st) (o t : Node) : st.connected o t = true := by
  unfold Net.connected
  rw [(h.up o).1, (h.up t).1, (h.up o).2, (h.up t).2]
  rfl

theorem Healthy.init : Healthy Simnet.init :=
  ⟨fun _ => ⟨rfl, rfl⟩, (fun _ _ _ _ h => nomatch h), (fun _ h => nomatch h), fun _ => rfl, fun _ => rfl, (fun _ _ h => nomatch h), rfl⟩

theorem Healthy.aux {st st' : Net} (h : Healthy st) (ha : Aux st st') : Healthy st' :=
  ⟨by rw [ha.state, ha.powerOff]; exact h.up, fun o t => by rw [ha.probs]; exact h.clean o t,
    by rw [ha.handed, ha.all]; exact fun e he => by rw [ha.probs]; exact h.wired e he,
    by rw [ha.q]; exact h.dropped, by rw [ha.q]; exact h.deaf, by rw [ha.q]; exact h.noSend, by rw [ha.wiped]; exact h.wiped⟩

/-- The only connection of `n` is to `s`. -/
def Single (st : Net) (n s : Node) : Prop :=
  ∀ e ∈ st.handed, (e.1 = n → e.2 = s) ∧ (e.2 = n → e.1 = s)

theorem Single.origin {st : Net} {n s : Node} (h : Single st n s) (hi : Inv st) {m : Mop} (hm : m ∈ st.q (.preArrQ, n)) :
    m.origin = s := (h _ (hi.route _ m hm)).2 (hi.fits _ _ m hm).2

/-- The moves of a pass over node `n` of a healthy network. -/
inductive HMicro (now : Nat) (n : Node) : Net → Net → Prop
  | aux {st st' : Net} (h : Aux st st') : HMicro now n st st'
  | deliver {st : Net} (r m m' : Mop) (h : Match now st n r m) (hc : m'.core = m.core)
      (hd : ∀ s, Single st n s → (st.q (.preArrQ, n)).head? = some m) :
      HMicro now n st { ((st.take (.preArrQ, n) m.sn).take (.readQ, n) r.sn) with done := ⟨r, m', now⟩ :: st.done }

theorem HMicro.micro {now : Nat} {n : Node} {st st' : Net} (h : HMicro now n st st') : DMicro now st st' := by
  cases h with
  | aux h => exact .aux h
  | deliver r m m' h hc _ => exact .deliver n r m m' h hc

theorem HMicro.healthy {now : Nat} {n : Node} {st st' : Net} (h : HMicro now n st st') (hh : Healthy st) : Healthy st' := by
  cases h with
  | aux h => exact hh.aux h
  | deliver r m m' h hc _ =>
    refine ⟨hh.up, hh.clean, hh.wired, fun k => ?_, fun k => ?_, fun k x hx => ?_, hh.wiped⟩
    · show ((st.take (.preArrQ, n) m.sn).take (.readQ, n) r.sn).q (.droppedSendQ, k) = []
      rw [take_q, if_neg (by simp), take_q, if_neg (by simp)]
      exact hh.dropped k
    · show ((st.take (.preArrQ, n) m.sn).take (.readQ, n) r.sn).q (.deafReadQ, k) = []
      rw [take_q, if_neg (by simp), take_q, if_neg (by simp)]
      exact hh.deaf k
    · exact hh.noSend k x (mem_take.1 (mem_take.1 hx).1).1

inductive HSteps (now : Nat) (n : Node) : Net → Net → Prop
  | refl (st : Net) : HSteps now n st st
  | head {a b c : Net} (h : HMicro now n a b) (h' : HSteps now n b c) : HSteps now n a c

theorem HSteps.trans {now : Nat} {n : Node} {a b c : Net} (h : HSteps now n a b) (h' : HSteps now n b c) : HSteps now n a c := by
  induction h with
  | refl => exact h'
  | head h1 _ ih => exact .head h1 (ih h')

theorem HSteps.steps {now : Nat} {n : Node} {a b : Net} (h : HSteps now n a b) : DSteps now a b := by
  induction h with
  | refl => exact .refl _
  | head h1 _ ih => exact (DSteps.one h1.micro).trans ih

theorem HSteps.healthy {now : Nat} {n : Node} {a b : Net} (h : HSteps now n a b) (hh : Healthy a) : Healthy b := by
  induction h with
  | refl => exact hh
  | head h1 _ ih => exact ih (h1.healthy hh)

theorem Healthy.passes {st : Net} (hi : Inv st) (h : Healthy st) {m : Mop} (hm : m ∈ st.q (.preArrQ, m.target)) :
    (st.localDropSend m).1 = false := by
  have hw := (h.wired _ (hi.route _ m hm)).1
  unfold Net.localDropSend
  unfold Net.probs at hw
  cases hc : st.conn m.origin m.target with
  | none => rw [hc] at hw; cases hw
  | some c =>
    have := (h.clean m.origin m.target c.deaf c.drop (by unfold Net.probs; rw [hc]; rfl)).2
    dsimp only
    refine decide_eq_false ?_
    rw [this]
    simp [Prob.zero]

theorem Healthy.hears {sc : Scen} {st : Net} (h : Healthy st) {r : Mop} (hm : (r.origin, r.target) ∈ st.handed) :
    (st.localDeafRead sc r).1 = false := by
  have hw := (h.wired _ hm).1
  unfold Net.localDeafRead
  unfold Net.probs Net.conn at hw
  cases hl : st.circ r.origin with
  | none => rw [hl] at hw; cases hw
  | some l =>
    rw [hl] at hw
    simp only [Option.bind_some] at hw ⊢
    cases hc : l.lookup r.target with
    | none => rw [hc] at hw; cases hw
    | some c =>
      have := (h.clean r.origin r.target c.deaf c.drop (by unfold Net.probs Net.conn; rw [hl]; simp [hc])).1
      simp only
      rw [this]
      rfl

/-- A delivery in the inner loop of a healthy network. -/
theorem inner_healthy (sc : Scen) (now : Nat) (n : Node) {m : Mop} {ms : List Mop} {r : Mop} {rs : List Mop} {st : Net}
    (hi : Inv st) (hh : Healthy st) (hm : m ∈ st.q (.preArrQ, n)) (hr : r ∈ st.q (.readQ, n))
    (ht : r.target = m.origin) (ha : ¬ now < m.arrivalTm) :
    ∃ st1 m', Aux st st1 ∧ m'.core = m.core ∧
      inner sc now n (m :: ms) r rs st =
        if now < r.initTm then ({ st1 with crashed := true }, none)
        else
          match rs with
          | [] => ({ ((st1.take (.preArrQ, n) m.sn).take (.readQ, n) r.sn) with done := ⟨r, m', now⟩ :: st1.done }, none)
          | r' :: rs' => inner sc now n ms r' rs'
              { ((st1.take (.preArrQ, n) m.sn).take (.readQ, n) r.sn) with done := ⟨r, m', now⟩ :: st1.done } := by
  have hmt : m.target = n := (hi.fits _ _ m hm).2
  generalize hd : (if m.filtered = true then (false, st, m) else st.localDropSend m) = d
  have hda : Aux st d.2.1 := by
    rw [← hd]; split
    · exact Aux.refl _
    · exact localDropSend_aux ..
  have hdc : d.2.2.core = m.core := by
    rw [← hd]; split
    · rfl
    · exact localDropSend_core ..
  have hd1 : d.1 = false := by
    rw [← hd]; split
    · rfl
    · exact hh.passes hi (by rw [hmt]; exact hm)
  have hh1 := hh.aux hda
  have hi1 := hda.inv hi
  have hrd : (r.origin, r.target) ∈ d.2.1.handed := by rw [hda.handed]; exact hi.route _ r hr
  refine ⟨(d.2.1.localDeafRead sc r).2, d.2.2, ?_, hdc, ?_⟩
  · have hx := localDeafRead_aux sc d.2.1 r
    exact ⟨hx.q.trans hda.q, hx.sent.trans hda.sent, hx.done.trans hda.done, hx.wiped.trans hda.wiped, hx.next.trans hda.next,
      hx.handed.trans hda.handed, hx.inDns.trans hda.inDns, hx.all.trans hda.all, hx.state.trans hda.state,
      hx.powerOff.trans hda.powerOff, fun o t => (hx.probs o t).trans (hda.probs o t),
      fun o => (hx.isSome o).trans (hda.isSome o), fun h => hx.counts (hda.counts h)⟩
  · rw [inner, if_neg (fun h => h ht), if_neg ha, hd]
    simp only
    rw [hh1.connected, hd1, hh1.connected]
    simp only [Bool.not_true, Bool.or_self, Bool.and_false, Bool.false_eq_true, if_false]
    rw [hh1.hears hrd]
    simp only [Bool.false_eq_true, if_false]
    cases rs <;> rfl

theorem Healthy.match_ {now : Nat} {st : Net} {n : Node} {r m : Mop} (hi : Inv st) (hh : Healthy st)
    (hm : m ∈ st.q (.preArrQ, n)) (hr : r ∈ st.q (.readQ, n)) (ht : r.target = m.origin) (ha : ¬ now < m.arrivalTm)
    (hb : ¬ now < r.initTm) : Match now st n r m := by
  have clean : ∀ o t, (o, t) ∈ st.handed → ∃ pd pp, st.probs o t = some (pd, pp) ∧ pd.sure = false ∧ pp.sure = false := by
    intro o t ho
    have hw := (hh.wired _ ho).1
    cases hp : st.probs o t with
    | none => rw [hp] at hw; cases hw
    | some x =>
      obtain ⟨pd, pp⟩ := x
      have := hh.clean o t pd pp hp
      exact ⟨pd, pp, rfl, by rw [this.1]; rfl, by rw [this.2]; rfl⟩
  obtain ⟨a, b, h1, h2, _⟩ := clean r.origin r.target (hi.route _ r hr)
  obtain ⟨a', b', h1', _, h2'⟩ := clean m.origin m.target (hi.route _ m hm)
  exact ⟨hr, hm, ht, by omega, by omega, hh.connected _ _, ⟨a, b, h1, h2⟩, .inr ⟨a', b', h1', h2'⟩⟩

theorem DSteps.length_le {now : Nat} {st st' : Net} (hi : Inv st) (h : DSteps now st st') : st.done.length ≤ st'.done.length := by
  obtain ⟨new, hn, _⟩ := h.done hi
  rw [hn, List.length_append]
  omega

theorem delFrom_head {k : QKind} {m : Mop} {ms : List Mop} (h : Sorted k (m :: ms)) : delFrom m.sn (m :: ms) = ms := by
  have hp := List.pairwise_cons.1 h
  unfold delFrom
  rw [List.filter_cons_of_neg (by simp), List.filter_eq_self]
  intro x hx
  have := (hp.1 x hx).2
  simpa using fun e => this e.symm

/-- The inner loop in a healthy network. -/
theorem inner_hsteps (sc : Scen) (now : Nat) (n : Node) : ∀ (ms : List Mop) (r : Mop) (rs : List Mop) (st : Net),
    Inv st → Healthy st → Sends st n ms → Reads st n (r :: rs) →
    (∀ s, Single st n s → st.q (.preArrQ, n) = ms) →
    HSteps now n st (inner sc now n ms r rs st).1 ∧
      ((∀ x ∈ st.q (.readQ, n), x.initTm ≤ now) →
        st.done.length < (inner sc now n ms r rs st).1.done.length ∨
        (inner sc now n ms r rs st = (st, some rs) ∧ ∀ m ∈ ms, r.target = m.origin → now < m.arrivalTm))
  | [], r, rs, st, _, _, _, _, _ => ⟨HSteps.refl _, fun _ => .inr ⟨rfl, fun _ h => nomatch h⟩⟩
  | m :: ms, r, rs, st, hi, hh, hm, hr, hw => by
    have hmq := hm.2 m (List.mem_cons_self ..)
    have hrq := hr.2 r (List.mem_cons_self ..)
    by_cases h1 : r.target ≠ m.origin
    · have : inner sc now n (m :: ms) r rs st = inner sc now n ms r rs st := by rw [inner, if_pos h1]
      rw [this]
      have ih := inner_hsteps sc now n ms r rs st hi hh hm.tail hr
        (fun s hs => absurd (((hs _ (hi.route _ r hrq)).1 (hh.reader hi hrq)).trans (hs.origin hi hmq).symm) h1)
      refine ⟨ih.1, fun hb => ?_⟩
      rcases ih.2 hb with h | ⟨h, h'⟩
      · exact .inl h
      · refine .inr ⟨h, fun x hx hxt => ?_⟩
        rcases List.mem_cons.1 hx with rfl | hx
        · exact absurd hxt h1
        · exact h' x hx hxt
    have ht : r.target = m.origin := Classical.not_not.1 h1
    by_cases h2 : now < m.arrivalTm
    · have : inner sc now n (m :: ms) r rs st = (st, some rs) := by rw [inner, if_neg h1, if_pos h2]
      rw [this]
      refine ⟨HSteps.refl _, fun _ => .inr ⟨rfl, fun x hx _ => ?_⟩⟩
      rcases List.mem_cons.1 hx with rfl | hx
      · exact h2
      · have := ((List.pairwise_cons.1 hm.1).1 x hx).1
        have : m.arrivalTm ≤ x.arrivalTm := by
          have h : Mop.arrBefore m x = true := this
          have := of_decide_eq_true h
          omega
        omega
    obtain ⟨st1, m', ha, hc, he⟩ := inner_healthy sc now n (ms := ms) (rs := rs) hi hh hmq hrq ht h2
    have hi1 := ha.inv hi
    have hh1 := hh.aux ha
    rw [he]
    by_cases h5 : now < r.initTm
    · rw [if_pos h5]
      refine ⟨.head (.aux ha) (.head (.aux ?_) (.refl _)), fun hb => ?_⟩
      · exact ⟨rfl, rfl, rfl, rfl, rfl, rfl, rfl, rfl, rfl, rfl, fun _ _ => rfl, fun _ => rfl, fun h => h⟩
      · have := hb r hrq
        omega
    rw [if_neg h5]
    have hmatch : Match now st1 n r m := hh1.match_ hi1 (by rw [ha.q]; exact hmq) (by rw [ha.q]; exact hrq) ht h2 h5
    have hmv : HMicro now n st1
        { ((st1.take (.preArrQ, n) m.sn).take (.readQ, n) r.sn) with done := ⟨r, m', now⟩ :: st1.done } := by
      refine .deliver r m m' hmatch hc (fun s hs => ?_)
      rw [ha.q]
      rw [hw s (by unfold Single at hs; rw [ha.handed] at hs; exact hs)]
      rfl
    cases rs with
    | nil =>
      refine ⟨.head (.aux ha) (.head hmv (.refl _)), fun _ => .inl ?_⟩
      show st.done.length < (_ :: st1.done).length
      rw [ha.done]; simp
    | cons r' rs' =>
      have hp := List.pairwise_cons.1 hr.1
      have hp' := List.pairwise_cons.1 hm.1
      have hi2 := hmv.micro.inv hi1
      have := inner_hsteps sc now n ms r' rs' _ hi2 (hmv.healthy hh1)
        ⟨hp'.2, fun x hx => by
          show x ∈ ((st1.take (.preArrQ, n) m.sn).take (.readQ, n) r.sn).q (.preArrQ, n)
          rw [mem_take, mem_take, ha.q]
          exact ⟨⟨hm.2 x (List.mem_cons_of_mem _ hx), fun _ h => (hp'.1 x hx).2 h.symm⟩, fun h => by simp at h⟩⟩
        ⟨hp.2, fun x hx => by
          show x ∈ ((st1.take (.preArrQ, n) m.sn).take (.readQ, n) r.sn).q (.readQ, n)
          rw [mem_take, mem_take, ha.q]
          exact ⟨⟨hr.2 x (List.mem_cons_of_mem _ hx), fun h => by simp at h⟩, fun _ h => (hp.1 x hx).2 h.symm⟩⟩
        (fun s hs => by
          have hq : ((st1.take (.preArrQ, n) m.sn).take (.readQ, n) r.sn).q (.preArrQ, n) = delFrom m.sn (st.q (.preArrQ, n)) := by
            rw [take_q, if_neg (by simp), take_q, if_pos rfl, ha.q]
          show ((st1.take (.preArrQ, n) m.sn).take (.readQ, n) r.sn).q (.preArrQ, n) = ms
          rw [hq, hw s (by unfold Single at hs ⊢; rw [← ha.handed]; exact hs)]
          exact delFrom_head hm.1)
      refine ⟨.head (.aux ha) (.head hmv this.1), fun _ => .inl ?_⟩
      have h3 := this.1.steps.length_le hi2
      refine Nat.lt_of_lt_of_le ?_ h3
      show st.done.length < (_ :: st1.done).length
      rw [ha.done]; simp

end Verif.Simnet
