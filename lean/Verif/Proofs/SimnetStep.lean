import Verif.Proofs.Simnet

/-! Every operation of the network simulator keeps the invariant; what a delivery requires. -/

namespace Verif.Simnet

/-! ### Connections -/

theorem lookup_mapConns (l : List (Node × Conn)) (s : Node → Bool) (f : Conn → Conn) (t : Node) :
    (l.map (fun c => if s c.1 then (c.1, f c.2) else c)).lookup t = (l.lookup t).map (fun c => if s t then f c else c) := by
  induction l with
  | nil => rfl
  | cons e es ih =>
    obtain ⟨a, c⟩ := e
    simp only [List.map_cons]
    by_cases h : t = a
    · subst h
      by_cases hs : s t = true
      · simp [hs]
      · simp [hs]
    · have hb : (t == a) = false := by simpa using h
      by_cases hs : s a = true
      · rw [if_pos hs]
        simp only [List.lookup_cons, hb]
        exact ih
      · rw [if_neg hs]
        simp only [List.lookup_cons, hb]
        exact ih

theorem mapConns_conn (st : Net) (o : Node) (s : Node → Bool) (f : Conn → Conn) (o' t : Node) :
    (st.mapConns o s f).conn o' t =
      (st.conn o' t).map (fun c => if o' = o ∧ s t = true then f c else c) := by
  unfold Net.conn Net.mapConns
  by_cases h : o' = o
  · subst h
    simp only [upd_same, true_and]
    cases hc : st.circ o' with
    | none => rfl
    | some l =>
      simp only [Option.map_some, Option.bind_some]
      rw [lookup_mapConns]
  · simp only [upd_other _ _ h, h, false_and, if_false, Option.map_id']

theorem mapConns_isSome (st : Net) (o : Node) (s : Node → Bool) (f : Conn → Conn) (o' : Node) :
    ((st.mapConns o s f).circ o').isSome = (st.circ o').isSome := by
  unfold Net.mapConns
  by_cases h : o' = o
  · subst h
    simp only [upd_same]
    cases st.circ o' <;> rfl
  · simp only [upd_other _ _ h]

theorem mapConns_counts {st : Net} {o : Node} {s : Node → Bool} {f : Conn → Conn}
    (hf : ∀ c : Conn, c.droppedN ≤ c.attempted → (f c).droppedN ≤ (f c).attempted)
    (h : ∀ o l, st.circ o = some l → ∀ e ∈ l, e.2.droppedN ≤ e.2.attempted) :
    ∀ o' l, (st.mapConns o s f).circ o' = some l → ∀ e ∈ l, e.2.droppedN ≤ e.2.attempted := by
  intro o' l hl e he
  unfold Net.mapConns at hl
  by_cases ho : o' = o
  · subst ho
    simp only [upd_same] at hl
    cases hc : st.circ o' with
    | none => rw [hc] at hl; cases hl
    | some l0 =>
      rw [hc] at hl
      simp only [Option.map_some, Option.some.injEq] at hl
      subst hl
      obtain ⟨e0, h0, h1⟩ := List.mem_map.1 he
      have := h _ _ hc e0 h0
      split at h1
      · subst h1; exact hf _ this
      · subst h1; exact this
  · simp only [upd_other _ _ ho] at hl
    exact h _ _ hl e he

/-- The probabilities of a connection: deafness of the local end, loss of what it sends. -/
def Net.probs (st : Net) (o t : Node) : Option (Prob × Prob) := (st.conn o t).map (fun c => (c.deaf, c.drop))

theorem lookup_mem {l : List (Node × Conn)} {t : Node} {c : Conn} (h : l.lookup t = some c) : (t, c) ∈ l := by
  induction l with
  | nil => cases h
  | cons e es ih =>
    obtain ⟨a, d⟩ := e
    rw [List.lookup_cons] at h
    by_cases ht : t = a
    · subst ht
      simp at h
      subst h
      exact List.mem_cons_self ..
    · have hb : (t == a) = false := by simpa using ht
      simp only [hb] at h
      exact List.mem_cons_of_mem _ (ih h)

theorem Prob.hit_of_sure {p : Prob} (h : p.sure = true) (x : Nat) : p.hit x = true := by
  have h1 : p.den + 1 ≤ p.num := of_decide_eq_true h
  refine decide_eq_true ?_
  have h2 : x % 2 ^ 53 < 2 ^ 53 := Nat.mod_lt _ (by decide)
  generalize x % 2 ^ 53 = y at *
  generalize 2 ^ 53 = B at *
  calc y * (p.den + 1) ≤ y * p.num := Nat.mul_le_mul_left _ h1
    _ < B * p.num := Nat.mul_lt_mul_of_pos_right h2 (by omega)
    _ = p.num * B := Nat.mul_comm _ _

/-! ### The moves of a dispatch pass -/

/-- Counters, the position in the random stream and the crash flag may change, nothing else. -/
structure Aux (st st' : Net) : Prop where
  q : st'.q = st.q
  sent : st'.sent = st.sent
  done : st'.done = st.done
  wiped : st'.wiped = st.wiped
  next : st'.next = st.next
  handed : st'.handed = st.handed
  inDns : st'.inDns = st.inDns
  all : st'.all = st.all
  state : st'.state = st.state
  powerOff : st'.powerOff = st.powerOff
  probs : ∀ o t, st'.probs o t = st.probs o t
  isSome : ∀ o, (st'.circ o).isSome = (st.circ o).isSome
  counts : (∀ o l, st.circ o = some l → ∀ e ∈ l, e.2.droppedN ≤ e.2.attempted) →
    ∀ o l, st'.circ o = some l → ∀ e ∈ l, e.2.droppedN ≤ e.2.attempted

theorem Aux.refl (st : Net) : Aux st st :=
  ⟨rfl, rfl, rfl, rfl, rfl, rfl, rfl, rfl, rfl, rfl, fun _ _ => rfl, fun _ => rfl, fun h => h⟩

theorem Aux.inv {st st' : Net} (h : Aux st st') (hi : Inv st) : Inv st' :=
  hi.other h.q (by rw [h.handed]; exact fun _ x => x) (by rw [h.handed]; exact hi.handedNe) (by rw [h.next]; exact Nat.le_refl _)
    h.sent h.done h.wiped (by rw [h.inDns, h.all]; exact hi.dns) (h.counts hi.counts)

/-- What the network requires to hand message `m` to read `r` at time `now`. -/
structure Match (now : Nat) (st : Net) (n : Node) (r m : Mop) : Prop where
  read : r ∈ st.q (.readQ, n)
  send : m ∈ st.q (.preArrQ, n)
  target : r.target = m.origin
  arrived : m.arrivalTm ≤ now
  begun : r.initTm ≤ now
  conn : st.connected r.origin r.target = true
  hears : ∃ pd pp, st.probs r.origin r.target = some (pd, pp) ∧ pd.sure = false
  passes : m.filtered = true ∨ ∃ pd pp, st.probs m.origin m.target = some (pd, pp) ∧ pp.sure = false

/-- The moves of a dispatch pass. -/
inductive DMicro (now : Nat) : Net → Net → Prop
  | aux {st st' : Net} (h : Aux st st') : DMicro now st st'
  | move {st : Net} (n : Node) (m m' : Mop) (dst : Place) (hm : m ∈ st.q (.preArrQ, n)) (hc : m'.core = m.core)
      (hd : dst = (.droppedSendQ, m.origin) ∨ dst = (.deafReadQ, n))
      (hp : m'.filtered = true → m.filtered = true ∨
        ∃ pd pp, st.probs m.origin m.target = some (pd, pp) ∧ pp.sure = false) :
      DMicro now st ((st.take (.preArrQ, n) m.sn).put dst m')
  | deliver {st : Net} (n : Node) (r m m' : Mop) (h : Match now st n r m) (hc : m'.core = m.core) :
      DMicro now st { ((st.take (.preArrQ, n) m.sn).take (.readQ, n) r.sn) with done := ⟨r, m', now⟩ :: st.done }

/-- Any number of moves of a dispatch pass. -/
inductive DSteps (now : Nat) : Net → Net → Prop
  | refl (st : Net) : DSteps now st st
  | tail {a b c : Net} (h : DSteps now a b) (h' : DMicro now b c) : DSteps now a c

theorem DSteps.trans {now : Nat} {a b c : Net} (h : DSteps now a b) (h' : DSteps now b c) : DSteps now a c := by
  induction h' with
  | refl => exact h
  | tail _ h2 ih => exact ih.tail h2

theorem DSteps.one {now : Nat} {a b : Net} (h : DMicro now a b) : DSteps now a b := (DSteps.refl a).tail h

theorem DMicro.inv {now : Nat} {st st' : Net} (h : DMicro now st st') (hi : Inv st) : Inv st' := by
  cases h with
  | aux h => exact h.inv hi
  | move n m m' dst hm hc hd _ =>
    refine hi.move hm hc ?_
    have hf := hi.fits _ _ m hm
    have e := Mop.core_ext hc
    rcases hd with rfl | rfl
    · exact ⟨by rw [e.2.1]; exact hf.1, e.2.2.1⟩
    · refine ⟨fun h => ?_, fun _ => by rw [e.2.2.2.1]; exact hf.2⟩
      rw [e.2.1, hf.1] at h
      cases h
  | deliver n r m m' h hc =>
    exact hi.deliver h.read h.send hc (hi.reader h.read h.send h.target).1

theorem DSteps.inv {now : Nat} {st st' : Net} (h : DSteps now st st') (hi : Inv st) : Inv st' := by
  induction h with
  | refl => exact hi
  | tail _ h2 ih => exact h2.inv ih

/-- A dispatch pass does not change what the faults are. -/
structure SameNet (st st' : Net) : Prop where
  state : st'.state = st.state
  powerOff : st'.powerOff = st.powerOff
  probs : ∀ o t, st'.probs o t = st.probs o t
  isSome : ∀ o, (st'.circ o).isSome = (st.circ o).isSome
  all : st'.all = st.all
  inDns : st'.inDns = st.inDns
  handed : st'.handed = st.handed
  sent : st'.sent = st.sent
  wiped : st'.wiped = st.wiped

theorem SameNet.refl (st : Net) : SameNet st st :=
  ⟨rfl, rfl, fun _ _ => rfl, fun _ => rfl, rfl, rfl, rfl, rfl, rfl⟩

theorem SameNet.trans {a b c : Net} (h : SameNet a b) (h' : SameNet b c) : SameNet a c :=
  ⟨h'.state.trans h.state, h'.powerOff.trans h.powerOff, fun o t => (h'.probs o t).trans (h.probs o t),
    fun o => (h'.isSome o).trans (h.isSome o), h'.all.trans h.all, h'.inDns.trans h.inDns, h'.handed.trans h.handed,
    h'.sent.trans h.sent, h'.wiped.trans h.wiped⟩

theorem Aux.same {st st' : Net} (h : Aux st st') : SameNet st st' :=
  ⟨h.state, h.powerOff, h.probs, h.isSome, h.all, h.inDns, h.handed, h.sent, h.wiped⟩

theorem DMicro.same {now : Nat} {st st' : Net} (h : DMicro now st st') : SameNet st st' := by
  cases h with
  | aux h => exact h.same
  | move => exact ⟨rfl, rfl, fun _ _ => rfl, fun _ => rfl, rfl, rfl, rfl, rfl, rfl⟩
  | deliver => exact ⟨rfl, rfl, fun _ _ => rfl, fun _ => rfl, rfl, rfl, rfl, rfl, rfl⟩

theorem DSteps.same {now : Nat} {st st' : Net} (h : DSteps now st st') : SameNet st st' := by
  induction h with
  | refl => exact SameNet.refl _
  | tail _ h2 ih => exact ih.trans h2.same

theorem SameNet.connected {st st' : Net} (h : SameNet st st') (o t : Node) : st'.connected o t = st.connected o t := by
  unfold Net.connected; rw [h.state, h.powerOff]

/-! ### Decisions -/

theorem localDropSend_aux (st : Net) (m : Mop) : Aux st (st.localDropSend m).2.1 := by
  unfold Net.localDropSend
  split
  · exact Aux.refl st
  · rename_i c _
    dsimp only
    refine ⟨rfl, rfl, rfl, rfl, rfl, rfl, rfl, rfl, rfl, rfl, ?_, ?_, ?_⟩
    · intro o t
      unfold Net.probs
      rw [mapConns_conn, Option.map_map]
      congr 1
      funext c
      simp only [Function.comp]
      split <;> rfl
    · intro o; exact mapConns_isSome ..
    · refine mapConns_counts ?_
      intro c h
      show (if _ then _ else _) ≤ c.attempted + 1
      split
      · exact Nat.succ_le_succ h
      · exact Nat.le_succ_of_le h

theorem localDropSend_core (st : Net) (m : Mop) : (st.localDropSend m).2.2.core = m.core := by
  unfold Net.localDropSend
  split
  · rfl
  · show (if _ then m else { m with filtered := true }).core = _
    split <;> rfl

theorem localDropSend_pass {st : Net} {m : Mop} (hi : Inv st) (h : (st.localDropSend m).1 = false) :
    ∃ pd pp, st.probs m.origin m.target = some (pd, pp) ∧ pp.sure = false := by
  unfold Net.localDropSend at h
  cases hc : st.conn m.origin m.target with
  | none => rw [hc] at h; cases h
  | some c =>
    rw [hc] at h
    refine ⟨c.deaf, c.drop, by unfold Net.probs; rw [hc]; rfl, ?_⟩
    have h1 : ¬ c.droppedN * (c.drop.den + 1) < c.drop.num * (c.attempted + 1) := of_decide_eq_false h
    have h2 : c.droppedN ≤ c.attempted := by
      unfold Net.conn at hc
      cases hl : st.circ m.origin with
      | none => rw [hl] at hc; cases hc
      | some l =>
        rw [hl] at hc
        exact hi.counts _ _ hl _ (lookup_mem hc)
    refine decide_eq_false ?_
    intro h3
    apply h1
    calc c.droppedN * (c.drop.den + 1) ≤ c.attempted * c.drop.num := Nat.mul_le_mul h2 h3
      _ < (c.attempted + 1) * c.drop.num := Nat.mul_lt_mul_of_pos_right (by omega) (by omega)
      _ = c.drop.num * (c.attempted + 1) := Nat.mul_comm _ _

theorem localDropSend_filtered {st : Net} {m : Mop} (hi : Inv st) (h : (st.localDropSend m).2.2.filtered = true) :
    m.filtered = true ∨ ∃ pd pp, st.probs m.origin m.target = some (pd, pp) ∧ pp.sure = false := by
  cases hd : (st.localDropSend m).1 with
  | false => exact .inr (localDropSend_pass hi hd)
  | true =>
    left
    unfold Net.localDropSend at h hd
    split at h
    · exact h
    · rename_i hc
      rw [hc] at hd
      dsimp only at h hd
      rw [if_pos hd] at h
      exact h

theorem localDeafRead_aux (sc : Scen) (st : Net) (r : Mop) : Aux st (st.localDeafRead sc r).2 := by
  unfold Net.localDeafRead
  split
  · exact Aux.refl st
  · split
    · exact ⟨rfl, rfl, rfl, rfl, rfl, rfl, rfl, rfl, rfl, rfl, fun _ _ => rfl, fun _ => rfl, fun h => h⟩
    · split
      · exact Aux.refl st
      · exact ⟨rfl, rfl, rfl, rfl, rfl, rfl, rfl, rfl, rfl, rfl, fun _ _ => rfl, fun _ => rfl, fun h => h⟩

theorem localDeafRead_hears {sc : Scen} {st : Net} {r : Mop} (h : (st.localDeafRead sc r).1 = false) :
    ∃ pd pp, st.probs r.origin r.target = some (pd, pp) ∧ pd.sure = false := by
  unfold Net.localDeafRead at h
  unfold Net.probs Net.conn
  cases hl : st.circ r.origin with
  | none => rw [hl] at h; cases h
  | some l =>
    rw [hl] at h
    simp only [Option.bind_some] at h ⊢
    cases hc : l.lookup r.target with
    | none => rw [hc] at h; cases h
    | some c =>
      rw [hc] at h
      refine ⟨c.deaf, c.drop, rfl, ?_⟩
      simp only at h
      split at h
      · rename_i h0
        refine decide_eq_false ?_
        omega
      · cases hs : c.deaf.sure with
        | false => rfl
        | true =>
          rw [Prob.hit_of_sure hs] at h
          cases h

/-! ### The loops of a dispatch pass -/

/-- The reads still to be looked at are in the read queue. -/
def Reads (st : Net) (n : Node) (rs : List Mop) : Prop := Sorted .readQ rs ∧ ∀ x ∈ rs, x ∈ st.q (.readQ, n)

/-- The messages still to be looked at are in the pre-arrival queue. -/
def Sends (st : Net) (n : Node) (ms : List Mop) : Prop := Sorted .preArrQ ms ∧ ∀ x ∈ ms, x ∈ st.q (.preArrQ, n)

theorem Sends.moved {st st' : Net} {n : Node} {m m' : Mop} {ms : List Mop} {dst : Place} (h : Sends st n (m :: ms))
    (hq : st'.q = st.q) (hd : dst.1 ≠ .preArrQ) : Sends ((st'.take (.preArrQ, n) m.sn).put dst m') n ms := by
  have h1 := List.pairwise_cons.1 h.1
  refine ⟨h1.2, fun x hx => ?_⟩
  rw [put_q, if_neg (by intro e; exact hd (by rw [← e])), take_q, if_pos rfl, mem_delFrom, hq]
  exact ⟨h.2 x (List.mem_cons_of_mem _ hx), fun e => (h1.1 x hx).2 e.symm⟩

theorem Reads.moved {st st' : Net} {n : Node} {m' : Mop} {rs : List Mop} {sn : Nat} {dst : Place} (h : Reads st n rs)
    (hq : st'.q = st.q) (hd : dst.1 ≠ .readQ) : Reads ((st'.take (.preArrQ, n) sn).put dst m') n rs := by
  refine ⟨h.1, fun x hx => ?_⟩
  rw [put_q, if_neg (by intro e; exact hd (by rw [← e])), take_q, if_neg (by simp), hq]
  exact h.2 x hx

theorem Sends.tail {st : Net} {n : Node} {m : Mop} {ms : List Mop} (h : Sends st n (m :: ms)) : Sends st n ms :=
  ⟨(List.pairwise_cons.1 h.1).2, fun x hx => h.2 x (List.mem_cons_of_mem _ hx)⟩

theorem Reads.tail {st : Net} {n : Node} {m : Mop} {ms : List Mop} (h : Reads st n (m :: ms)) : Reads st n ms :=
  ⟨(List.pairwise_cons.1 h.1).2, fun x hx => h.2 x (List.mem_cons_of_mem _ hx)⟩

/-- The inner loop is a sequence of moves, and hands back reads that are still waiting. -/
theorem inner_steps (sc : Scen) (now : Nat) (n : Node) : ∀ (ms : List Mop) (r : Mop) (rs : List Mop) (st : Net),
    Inv st → Sends st n ms → Reads st n (r :: rs) →
    DSteps now st (inner sc now n ms r rs st).1 ∧
      ∀ rs', (inner sc now n ms r rs st).2 = some rs' →
        Reads (inner sc now n ms r rs st).1 n rs' ∧ rs'.length ≤ rs.length
  | [], r, rs, st, _, _, hr => by
    refine ⟨DSteps.refl _, ?_⟩
    intro rs' h
    cases h
    exact ⟨hr.tail, Nat.le_refl _⟩
  | m :: ms, r, rs, st, hi, hm, hr => by
    rw [inner]
    by_cases h1 : r.target ≠ m.origin
    · rw [if_pos h1]
      exact inner_steps sc now n ms r rs st hi hm.tail hr
    rw [if_neg h1]
    have ht : r.target = m.origin := Classical.not_not.1 h1
    by_cases h2 : now < m.arrivalTm
    · rw [if_pos h2]
      refine ⟨DSteps.refl _, ?_⟩
      intro rs' h
      cases h
      exact ⟨hr.tail, Nat.le_refl _⟩
    rw [if_neg h2]
    have hmq := hm.2 m (List.mem_cons_self ..)
    have hrq := hr.2 r (List.mem_cons_self ..)
    -- the drop decision
    generalize hd : (if m.filtered = true then (false, st, m) else st.localDropSend m) = d
    have hda : Aux st d.2.1 := by
      rw [← hd]; split
      · exact Aux.refl _
      · exact localDropSend_aux ..
    have hdc : d.2.2.core = m.core := by
      rw [← hd]; split
      · rfl
      · exact localDropSend_core ..
    have hdp : m.filtered = true ∨ (d.1 = false → ∃ pd pp, st.probs m.origin m.target = some (pd, pp) ∧ pp.sure = false) := by
      rw [← hd]; split
      · rename_i h; exact .inl h
      · exact .inr (localDropSend_pass hi)
    have hdf : d.2.2.filtered = true → m.filtered = true ∨
        ∃ pd pp, d.2.1.probs m.origin m.target = some (pd, pp) ∧ pp.sure = false := by
      rw [hda.probs]
      rw [← hd]; split
      · rename_i h; exact fun _ => .inl h
      · exact localDropSend_filtered hi
    have hi1 := hda.inv hi
    simp only
    by_cases h3 : (!m.filtered && (!(d.2.1.connected m.origin m.target) || d.1)) = true
    · rw [if_pos h3]
      have hmv : DMicro now d.2.1 ((d.2.1.take (.preArrQ, n) m.sn).put (.droppedSendQ, m.origin) d.2.2) :=
        .move n m d.2.2 _ (by rw [hda.q]; exact hmq) hdc (.inl rfl) hdf
      have := inner_steps sc now n ms r rs _ (hmv.inv hi1) (hm.moved hda.q (by simp)) (hr.moved hda.q (by simp))
      exact ⟨((DSteps.one (.aux hda)).tail hmv).trans this.1, this.2⟩
    rw [if_neg h3]
    have h3' : m.filtered = true ∨ d.1 = false := by
      cases hf : m.filtered with
      | true => exact .inl rfl
      | false =>
        right
        rw [hf] at h3
        cases hb : d.1 with
        | false => rfl
        | true => rw [hb] at h3; simp at h3
    -- the deaf decision
    generalize he : (if (!(d.2.1.connected r.origin r.target)) = true then (true, d.2.1) else d.2.1.localDeafRead sc r) = e
    have hea : Aux d.2.1 e.2 := by
      rw [← he]; split
      · exact Aux.refl _
      · exact localDeafRead_aux ..
    have heq : e.2.q = st.q := hea.q.trans hda.q
    have hi2 := hea.inv hi1
    by_cases h4 : e.1 = true
    · rw [if_pos h4]
      have hmv : DMicro now e.2 ((e.2.take (.preArrQ, n) m.sn).put (.deafReadQ, n) d.2.2) :=
        .move n m d.2.2 _ (by rw [heq]; exact hmq) hdc (.inr rfl) (by rw [hea.probs]; exact hdf)
      have := inner_steps sc now n ms r rs _ (hmv.inv hi2) (hm.moved heq (by simp)) (hr.moved heq (by simp))
      exact ⟨(((DSteps.one (.aux hda)).tail (.aux hea)).tail hmv).trans this.1, this.2⟩
    rw [if_neg h4]
    have h4f : e.1 = false := by simpa using h4
    by_cases h5 : now < r.initTm
    · rw [if_pos h5]
      refine ⟨((DSteps.one (.aux hda)).tail (.aux hea)).tail (.aux ?_), fun _ h => by cases h⟩
      exact ⟨rfl, rfl, rfl, rfl, rfl, rfl, rfl, rfl, rfl, rfl, fun _ _ => rfl, fun _ => rfl, fun h => h⟩
    rw [if_neg h5]
    -- the match
    have hconn : d.2.1.connected r.origin r.target = true := by
      cases hx : d.2.1.connected r.origin r.target with
      | true => rfl
      | false =>
        rw [if_pos (by rw [hx]; rfl)] at he
        rw [← he] at h4f
        cases h4f
    have hhears : ∃ pd pp, e.2.probs r.origin r.target = some (pd, pp) ∧ pd.sure = false := by
      rw [if_neg (by rw [hconn]; simp)] at he
      rw [hea.probs]
      rw [← he] at h4f
      exact localDeafRead_hears h4f
    have hmatch : Match now e.2 n r m := by
      refine ⟨by rw [heq]; exact hrq, by rw [heq]; exact hmq, ht, by omega, by omega, ?_, hhears, ?_⟩
      · rw [hea.same.connected]; exact hconn
      · rcases h3' with h | h
        · exact .inl h
        · rcases hdp with h' | h'
          · exact .inl h'
          · right
            obtain ⟨pd, pp, g1, g2⟩ := h' h
            exact ⟨pd, pp, by rw [hea.probs, hda.probs]; exact g1, g2⟩
    have hmv : DMicro now e.2
        { ((e.2.take (.preArrQ, n) m.sn).take (.readQ, n) r.sn) with done := ⟨r, d.2.2, now⟩ :: e.2.done } :=
      .deliver n r m d.2.2 hmatch hdc
    have hst : DSteps now st _ := ((DSteps.one (.aux hda)).tail (.aux hea)).tail hmv
    cases rs with
    | nil => exact ⟨hst, fun _ h => by cases h⟩
    | cons r' rs' =>
      have hp := List.pairwise_cons.1 hr.1
      have hp' := List.pairwise_cons.1 hm.1
      have := inner_steps sc now n ms r' rs' _ (hmv.inv hi2)
        ⟨hp'.2, fun x hx => by
          show x ∈ ((e.2.take (.preArrQ, n) m.sn).take (.readQ, n) r.sn).q (.preArrQ, n)
          rw [mem_take, mem_take, heq]
          exact ⟨⟨hm.2 x (List.mem_cons_of_mem _ hx), fun _ h => (hp'.1 x hx).2 h.symm⟩, fun h => by simp at h⟩⟩
        ⟨hp.2, fun x hx => by
          show x ∈ ((e.2.take (.preArrQ, n) m.sn).take (.readQ, n) r.sn).q (.readQ, n)
          rw [mem_take, mem_take, heq]
          exact ⟨⟨hr.2 x (List.mem_cons_of_mem _ hx), fun h => by simp at h⟩, fun _ h => (hp.1 x hx).2 h.symm⟩⟩
      refine ⟨hst.trans this.1, fun x hx => ⟨(this.2 x hx).1, ?_⟩⟩
      have := (this.2 x hx).2
      simp only [List.length_cons]
      omega

theorem outer_steps (sc : Scen) (now : Nat) (n : Node) : ∀ (k : Nat) (rs : List Mop) (st : Net),
    Inv st → Reads st n rs → DSteps now st (outer sc now n k rs st)
  | 0, _, st, _, _ => DSteps.refl st
  | _ + 1, [], st, _, _ => DSteps.refl st
  | k + 1, r :: rs, st, hi, hr => by
    have h := inner_steps sc now n (st.q (.preArrQ, n)) r rs st hi ⟨hi.sorted _ _, fun _ h => h⟩ hr
    unfold outer
    generalize inner sc now n (st.q (.preArrQ, n)) r rs st = res at h
    obtain ⟨st', o⟩ := res
    cases o with
    | none => exact h.1
    | some rs' => exact h.1.trans (outer_steps sc now n k rs' st' (h.1.inv hi) (h.2 rs' rfl).1)

theorem dispatchNode_steps (sc : Scen) (now : Nat) {st : Net} (hi : Inv st) (n : Node) :
    DSteps now st (st.dispatchNode sc now n) :=
  outer_steps sc now n _ _ st hi ⟨hi.sorted _ _, fun _ h => h⟩

theorem dispatchFold_steps (sc : Scen) (now : Nat) : ∀ (ns : List Node) (st : Net), Inv st →
    DSteps now st (ns.foldl (fun st n => st.dispatchNode sc now n) st)
  | [], st, _ => DSteps.refl st
  | n :: ns, st, hi => by
    have h := dispatchNode_steps sc now hi n
    exact h.trans (dispatchFold_steps sc now ns _ (h.inv hi))

theorem dispatch_steps (sc : Scen) (now : Nat) {st : Net} (hi : Inv st) : DSteps now st (st.dispatch sc now) :=
  dispatchFold_steps sc now _ st hi

end Verif.Simnet
