import Verif.Proofs.SimnetFifo

/-! Faults of the network simulator: deliveries of later operations, repair, the drop rate. -/

namespace Verif.Simnet

/-- A delivery of a later operation happened in one of its passes. -/
theorem run_new (sc : Scen) : ∀ (ops : List Op) {st : Net}, Inv st → ∀ d ∈ (run sc st ops).done, d ∉ st.done →
    ∃ pre now post, ops = pre ++ Op.dispatch now :: post ∧ Deliv now (run sc st pre) d
  | [], _, _, d, hd, hn => absurd hd hn
  | op :: ops, st, hi, d, hd, hn => by
    by_cases h : d ∈ (step sc st op).done
    · have key : ∀ l : List Done, (step sc st op).done = l ++ st.done → d ∈ l := by
        intro l hl
        rw [hl] at h
        rcases List.mem_append.1 h with h | h
        · exact h
        · exact absurd h hn
      cases step_spec sc hi op with
      | passed now hop hs =>
        obtain ⟨new, hnew, hv⟩ := hs.done hi
        exact ⟨[], now, ops, by rw [hop]; rfl, hv d (key new hnew)⟩
      | sent o t pl e i tie hop hh inv done sent add => rw [done] at h; exact absurd h hn
      | reads o t i tie hop hh inv done sent add => rw [done] at h; exact absurd h hn
      | keep hk => rw [hk.done] at h; exact absurd h hn
    · obtain ⟨pre, now, post, h1, h2⟩ := run_new sc ops (step_inv sc hi op) d hd h
      exact ⟨op :: pre, now, post, by rw [h1]; rfl, h2⟩

theorem probs_of_conn {st : Net} {o t : Node} {pd pp : Prob} (h : st.probs o t = some (pd, pp)) :
    ∃ c, st.conn o t = some c ∧ c.deaf = pd ∧ c.drop = pp := by
  unfold Net.probs at h
  cases hc : st.conn o t with
  | none => rw [hc] at h; cases h
  | some c =>
    rw [hc] at h
    cases h
    exact ⟨c, rfl, rfl, rfl⟩

/-- The connection drops everything. -/
def DropsAll (st : Net) (o t : Node) : Prop := ∃ c, st.conn o t = some c ∧ c.drop.sure = true

theorem DropsAll.not {st : Net} {o t : Node} (h : DropsAll st o t) :
    ¬ ∃ pd pp, st.probs o t = some (pd, pp) ∧ pp.sure = false := by
  rintro ⟨pd, pp, h1, h2⟩
  obtain ⟨c, hc, _, hp⟩ := probs_of_conn h1
  obtain ⟨c', hc', hs⟩ := h
  rw [hc] at hc'
  cases hc'
  rw [hp, h2] at hs
  cases hs

/-- While a connection drops everything no message on it comes to bear the mark. -/
theorem step_marks (sc : Scen) {st : Net} (hi : Inv st) (op : Op) {o t : Node} (hd : DropsAll st o t)
    {p : Place} {x : Mop} (hx : x ∈ (step sc st op).q p) (ho : x.origin = o) (ht : x.target = t) (hf : x.filtered = true) :
    ∃ p0, ∃ x0 ∈ st.q p0, x0.sn = x.sn ∧ x0.filtered = true ∧ x0.origin = o ∧ x0.target = t := by
  cases step_spec sc hi op with
  | passed now hop hs =>
    obtain ⟨p0, x0, h1, h2, h3⟩ := hs.old hi hx
    have he := Mop.core_ext h2
    rcases h3 hf with h | h
    · exact ⟨p0, x0, h1, he.1.symm, h, he.2.2.1.symm.trans ho, he.2.2.2.1.symm.trans ht⟩
    · rw [ho, ht] at h
      exact absurd h hd.not
  | sent o' t' pl e i tie hop hh inv done sent add =>
    rcases add p x hx with rfl | ⟨p', h⟩
    · cases hf
    · exact ⟨p', x, h, rfl, hf, ho, ht⟩
  | reads o' t' i tie hop hh inv done sent add =>
    rcases add p x hx with rfl | ⟨p', h⟩
    · cases hf
    · exact ⟨p', x, h, rfl, hf, ho, ht⟩
  | keep hk =>
    obtain ⟨p', h⟩ := hk.old p x hx
    exact ⟨p', x, h, rfl, hf, ho, ht⟩

theorem run_marks (sc : Scen) {o t : Node} : ∀ (ops : List Op) {st : Net}, Inv st →
    (∀ pre post, ops = pre ++ post → DropsAll (run sc st pre) o t) →
    ∀ p, ∀ x ∈ (run sc st ops).q p, x.origin = o → x.target = t → x.filtered = true →
      ∃ p0, ∃ x0 ∈ st.q p0, x0.sn = x.sn ∧ x0.filtered = true ∧ x0.origin = o ∧ x0.target = t
  | [], _, _, _, p, x, hx, ho, ht, hf => ⟨p, x, hx, rfl, hf, ho, ht⟩
  | op :: ops, st, hi, hd, p, x, hx, ho, ht, hf => by
    have ih := run_marks sc (o := o) (t := t) ops (step_inv sc hi op)
      (fun pre post e => hd (op :: pre) post (by rw [e]; rfl))
    obtain ⟨p1, x1, h1, h2, h3, h4, h5⟩ := ih p x hx ho ht hf
    obtain ⟨p2, x2, g1, g2, g3, g4, g5⟩ := step_marks sc hi op (hd [] (op :: ops) rfl) h1 h4 h5 h3
    exact ⟨p2, x2, g1, g2.trans h2, g3, g4, g5⟩

/-! ### Repair -/

theorem moveAll_q {src : Place} {dst : Mop → Place} {p : Place} (hs : p ≠ src) : ∀ (ms : List Mop) (st : Net),
    (∀ m ∈ ms, dst m ≠ p) → (st.moveAll src dst ms).q p = st.q p
  | [], _, _ => rfl
  | m :: ms, st, hd => by
    show ((st.move m src (dst m)).moveAll src dst ms).q p = _
    rw [moveAll_q hs ms _ (fun x hx => hd x (List.mem_cons_of_mem _ hx))]
    unfold Net.move
    rw [put_q, if_neg (fun e => hd m (List.mem_cons_self ..) e.symm), take_q, if_neg hs]

theorem moveAll_fields (src : Place) (dst : Mop → Place) (ms : List Mop) (st : Net) :
    (st.moveAll src dst ms).circ = st.circ ∧ (st.moveAll src dst ms).state = st.state ∧
    (st.moveAll src dst ms).powerOff = st.powerOff := by
  obtain ⟨q', h⟩ := moveAll_eq src dst ms st
  rw [h]
  exact ⟨rfl, rfl, rfl⟩

/-- What repair leaves alone before it brings messages back: the messages dropped and in flight, with
`o` also the queues of other nodes; and no connection goes away. -/
structure Calm (o : Option Node) (st st' : Net) : Prop where
  q : ∀ p : Place, (p.1 = .droppedSendQ ∨ p.1 = .preArrQ ∨ ∃ n, o = some n ∧ p.2 ≠ n) → st'.q p = st.q p
  conn : ∀ a b, (st.conn a b).isSome → (st'.conn a b).isSome

theorem Calm.refl (o : Option Node) (st : Net) : Calm o st st := ⟨fun _ _ => rfl, fun _ _ h => h⟩
theorem Calm.trans {o : Option Node} {a b c : Net} (h : Calm o a b) (h' : Calm o b c) : Calm o a c :=
  ⟨fun p hp => (h'.q p hp).trans (h.q p hp), fun x y hx => h'.conn x y (h.conn x y hx)⟩
theorem Calm.weaken {o : Option Node} {a b : Net} (h : Calm o a b) : Calm none a b :=
  ⟨fun p hp => h.q p (by rcases hp with hp | hp | ⟨n, hn, _⟩
                         · exact .inl hp
                         · exact .inr (.inl hp)
                         · cases hn), h.conn⟩

theorem Calm.moveAll {n : Node} {st : Net} {k k' : QKind} (hk : k = .readQ ∨ k = .deafReadQ) (hk' : k' = .readQ ∨ k' = .deafReadQ)
    (ms : List Mop) : Calm (some n) st (st.moveAll (k, n) (fun _ => (k', n)) ms) := by
  refine ⟨fun p hp => moveAll_q ?_ ms st (fun m _ => ?_), fun a b h => ?_⟩
  · rintro rfl
    rcases hp with h | h | ⟨m, h, h'⟩
    · rcases hk with rfl | rfl <;> cases h
    · rcases hk with rfl | rfl <;> cases h
    · cases h; exact h' rfl
  · rintro rfl
    rcases hp with h | h | ⟨m, h, h'⟩
    · rcases hk' with rfl | rfl <;> cases h
    · rcases hk' with rfl | rfl <;> cases h
    · cases h; exact h' rfl
  · unfold Net.conn
    rw [(moveAll_fields ..).1]; exact h

theorem Calm.fields {o : Option Node} {st : Net} (s : Node → FState) (p : Node → Bool) :
    Calm o st { st with state := s, powerOff := p } := ⟨fun _ _ => rfl, fun _ _ h => h⟩

theorem Calm.mapConns {o : Option Node} (st : Net) (n : Node) (s : Node → Bool) (f : Conn → Conn) : Calm o st (st.mapConns n s f) :=
  ⟨fun _ _ => rfl, fun a b h => by rw [mapConns_conn, Option.isSome_map]; exact h⟩

theorem calm_repairAll (st : Net) (n : Node) : Calm (some n) st (st.repairAll n) := by
  have body : ∀ s, Calm (some n) st ((({ st with state := s } : Net).deafToRead n none).mapConns n (fun _ => true) Conn.repair) := by
    intro s
    have h0 : Calm (some n) st { st with state := s } := ⟨fun _ _ => rfl, fun _ _ h => h⟩
    refine (h0.trans ?_).trans (Calm.mapConns ..)
    exact Calm.moveAll (.inr rfl) (.inl rfl) _
  unfold Net.repairAll
  split
  · exact Calm.refl ..
  · exact Calm.refl ..
  · exact body _
  · exact body _

theorem calm_powerOn (o : Option Node) (st : Net) (n : Node) : Calm o st (st.powerOn n) := ⟨fun _ _ => rfl, fun _ _ h => h⟩

theorem calm_equilibrate (st : Net) (n : Node) (t : Option Node) : Calm (some n) st (st.equilibrate n t) :=
  (Calm.moveAll (.inr rfl) (.inl rfl) _).trans (Calm.moveAll (.inl rfl) (.inr rfl) _)

theorem Calm.foldl {α : Type} {o : Option Node} {f : Net → α → Net} (h : ∀ st a, Calm o st (f st a)) :
    ∀ (l : List α) (st : Net), Calm o st (l.foldl f st)
  | [], _ => Calm.refl ..
  | a :: l, st => (h st a).trans (Calm.foldl h l _)

theorem calm_unIsolate (st : Net) (n : Node) : Calm none st (st.unIsolate n) := by
  have body : ∀ s, Calm none st (({ st with state := s } : Net).unIsolateReads n) := by
    intro s
    refine (Calm.trans (b := { st with state := s }) ⟨fun _ _ => rfl, fun _ _ h => h⟩ ?_)
    exact (calm_equilibrate _ n none).weaken.trans (Calm.foldl (fun st r => (calm_equilibrate st r (some n)).weaken) _ _)
  unfold Net.unIsolate
  split
  · exact body _
  · exact body _
  · exact Calm.refl ..
  · exact Calm.refl ..

/-- A repair with redelivery ends with the redelivery. -/
theorem repair_split {st : Net} (hi : Inv st) (o : Node) (t : Option Node) (u p j : Bool) (ho : st.inDns o = true)
    (ht : ∀ x, t = some x → st.inDns x = true) :
    ∃ st1, st.repairCkt o t u p j true = st1.deliverDropped o t ∧ Inv st1 ∧ Calm none st st1 ∧
      (j = true → Calm (some o) st st1) := by
  have hk := keep_repairCkt hi o t u p j false
  unfold Net.repairCkt at hk ⊢
  have h1 : ¬ (!(st.inDns o)) = true := by rw [ho]; simp
  have h2 : ¬ (!((t.map st.inDns).getD true)) = true := by
    cases t with
    | none => simp
    | some x => simp [ht x rfl]
  rw [if_neg h1, if_neg h2] at hk ⊢
  dsimp only at hk ⊢
  refine ⟨_, if_pos rfl, hk.inv, ?_, ?_⟩
  · have c0 : Calm none st (if p = true then (st.repairAll o).powerOn o else st.repairAll o) := by
      split
      · exact (calm_repairAll st o).weaken.trans (calm_powerOn ..)
      · exact (calm_repairAll st o).weaken
    generalize (if p = true then (st.repairAll o).powerOn o else st.repairAll o) = s1 at c0 ⊢
    split
    · exact c0.trans (calm_equilibrate ..).weaken
    · refine Calm.trans ?_ (calm_equilibrate ..).weaken
      have c1 := c0.trans (Calm.foldl (f := fun st r => if p = true then (st.repairAll r).powerOn r else st.repairAll r)
        (fun s r => by
          split
          · exact (calm_repairAll s r).weaken.trans (calm_powerOn ..)
          · exact (calm_repairAll s r).weaken) ((((s1.circ o).getD []).map Prod.fst).filter (sel t)) s1)
      split
      · exact c1.trans (calm_unIsolate ..)
      · exact c1
  · rintro rfl
    have c0 : Calm (some o) st (if p = true then (st.repairAll o).powerOn o else st.repairAll o) := by
      split
      · exact (calm_repairAll st o).trans (calm_powerOn ..)
      · exact (calm_repairAll st o)
    exact c0.trans (calm_equilibrate ..)

/-- The loop over the remotes keeps messages in flight in flight, and moves those unheard at `r`. -/
theorem deafSends1_spec {st : Net} (hi : Inv st) (r : Node) :
    (∀ n x, x ∈ st.q (.preArrQ, n) → x ∈ (st.deafSendsToPreArr1 r).q (.preArrQ, n)) ∧
    (∀ r', r' ≠ r → (st.deafSendsToPreArr1 r).q (.deafReadQ, r') = st.q (.deafReadQ, r')) ∧
    (∀ x ∈ st.q (.deafReadQ, r), x.isSend = true → st.connected x.origin x.target = true →
      x ∈ (st.deafSendsToPreArr1 r).q (.preArrQ, r)) ∧
    (st.deafSendsToPreArr1 r).state = st.state ∧ (st.deafSendsToPreArr1 r).powerOff = st.powerOff := by
  unfold Net.deafSendsToPreArr1
  dsimp only
  rw [if_neg (by rw [deafSends_ok hi]; simp)]
  have hs := moveAll_spec (.deafReadQ, r) (fun _ => (.preArrQ, r)) _ st hi
    (part_filter (hi.part (.deafReadQ, r) (·.isSend)) (fun m => st.connected m.origin m.target))
    (fun m hm => by
      have h := List.mem_filter.1 (List.mem_filter.1 hm).1
      exact ⟨h.2, (hi.fits _ _ m h.1).2 h.2⟩) (fun _ _ => by simp)
  refine ⟨fun n x hx => (hs.2 _ x).2 (.inl ⟨hx, fun hm => ?_⟩), fun r' hr' => moveAll_q (by simpa using hr') _ _ (fun _ _ => by simp),
    fun x hx h1 h2 => (hs.2 _ x).2 (.inr ⟨List.mem_filter.2 ⟨List.mem_filter.2 ⟨hx, h1⟩, h2⟩, rfl⟩), (moveAll_fields ..).2.1, (moveAll_fields ..).2.2⟩
  have := hi.uniq _ _ _ _ hx (List.mem_filter.1 (List.mem_filter.1 hm).1).1 rfl
  cases this

theorem deafSendsFold_spec : ∀ (rs : List Node) {st : Net}, Inv st →
    (∀ n x, x ∈ st.q (.preArrQ, n) → x ∈ (rs.foldl Net.deafSendsToPreArr1 st).q (.preArrQ, n)) ∧
    (∀ r ∈ rs, ∀ x ∈ st.q (.deafReadQ, r), x.isSend = true → st.connected x.origin x.target = true →
      x ∈ (rs.foldl Net.deafSendsToPreArr1 st).q (.preArrQ, r)) ∧
    (rs.foldl Net.deafSendsToPreArr1 st).state = st.state ∧ (rs.foldl Net.deafSendsToPreArr1 st).powerOff = st.powerOff
  | [], _, _ => ⟨fun _ _ h => h, (fun _ h => nomatch h), rfl, rfl⟩
  | r :: rs, st, hi => by
    have h := deafSends1_spec hi r
    have ih := deafSendsFold_spec rs (keep_deafSends1 hi r).inv
    refine ⟨fun n x hx => ih.1 n x (h.1 n x hx), fun r' hr' x hx h1 h2 => ?_, ih.2.2.1.trans h.2.2.2.1, ih.2.2.2.trans h.2.2.2.2⟩
    by_cases he : r' = r
    · subst he
      exact ih.1 _ x (h.2.2.1 x hx h1 h2)
    · rcases List.mem_cons.1 hr' with e | e
      · exact absurd e he
      · refine ih.2.1 r' e x (by rw [h.2.1 r' he]; exact hx) h1 ?_
        unfold Net.connected at h2 ⊢
        rw [h.2.2.2.1, h.2.2.2.2]; exact h2

theorem deliverDropped_spec {st : Net} (hi : Inv st) (o : Node) (t : Option Node) :
    (∀ x ∈ st.q (.droppedSendQ, o), sel t x.target = true → (st.deliverDropped o t).connected x.origin x.target = true →
      x ∈ (st.deliverDropped o t).q (.preArrQ, x.target)) ∧
    (∀ r, sel t r = true → (st.conn o r).isSome → ∀ x ∈ st.q (.deafReadQ, r), x.isSend = true →
      (st.deliverDropped o t).connected x.origin x.target = true → x ∈ (st.deliverDropped o t).q (.preArrQ, r)) := by
  unfold Net.deliverDropped
  have hk := keep_droppedToPreArr hi o t
  have hs := moveAll_spec (.droppedSendQ, o) (fun m => (.preArrQ, m.target)) _ st hi
    (hi.part (.droppedSendQ, o) (fun m => sel t m.target && st.connected m.origin m.target))
    (fun m hm => ⟨(hi.fits _ _ m (List.mem_filter.1 hm).1).1, rfl⟩) (fun _ _ => by simp)
  have hf : (st.droppedToPreArr o t).circ = st.circ ∧ (st.droppedToPreArr o t).state = st.state ∧
      (st.droppedToPreArr o t).powerOff = st.powerOff := moveAll_fields ..
  have hd := deafSendsFold_spec (((((st.droppedToPreArr o t).circ o).getD []).map Prod.fst).filter (sel t)) hk.inv
  have hc : ∀ a b, ((st.droppedToPreArr o t).deafSendsToPreArr o t).connected a b = st.connected a b := by
    intro a b
    unfold Net.connected
    rw [show ((st.droppedToPreArr o t).deafSendsToPreArr o t).state = st.state from hd.2.2.1.trans hf.2.1,
      show ((st.droppedToPreArr o t).deafSendsToPreArr o t).powerOff = st.powerOff from hd.2.2.2.trans hf.2.2]
  have hc1 : ∀ a b, (st.droppedToPreArr o t).connected a b = st.connected a b := by
    intro a b
    unfold Net.connected
    rw [hf.2.1, hf.2.2]
  refine ⟨fun x hx h1 h2 => ?_, fun r h1 h2 x hx h3 h4 => ?_⟩
  · rw [hc] at h2
    refine hd.1 _ x ((hs.2 _ x).2 (.inr ⟨List.mem_filter.2 ⟨hx, ?_⟩, rfl⟩))
    rw [h1, h2]; rfl
  · rw [hc] at h4
    refine hd.2.1 r ?_ x ?_ h3 (by rw [hc1]; exact h4)
    · refine List.mem_filter.2 ⟨?_, h1⟩
      rw [hf.1]
      unfold Net.conn at h2
      cases hl : st.circ o with
      | none => rw [hl] at h2; cases h2
      | some l =>
        rw [hl] at h2
        simp only [Option.bind_some] at h2
        cases hx : l.lookup r with
        | none => rw [hx] at h2; cases h2
        | some c => exact List.mem_map.2 ⟨(r, c), lookup_mem hx, rfl⟩
    · show x ∈ (st.moveAll _ _ _).q _
      rw [moveAll_q (by simp) _ _ (fun _ _ => by simp)]
      exact hx

/-! ### The drop rate -/

/-- Successive drop decisions for messages on one connection. -/
def decisions (o t : Node) : Nat → Net → List Bool × Net
  | 0, st => ([], st)
  | k + 1, st =>
    let r := st.localDropSend ⟨0, true, o, t, [], false, 0, 0, 0, false⟩
    let rest := decisions o t k r.2.1
    (r.1 :: rest.1, rest.2)

theorem localDropSend_congr (st : Net) (m m' : Mop) (ho : m.origin = m'.origin) (ht : m.target = m'.target) :
    (st.localDropSend m).1 = (st.localDropSend m').1 ∧ (st.localDropSend m).2.1 = (st.localDropSend m').2.1 := by
  unfold Net.localDropSend
  rw [ho, ht]
  split <;> exact ⟨rfl, rfl⟩

theorem localDropSend_conn {st : Net} {m : Mop} {c : Conn} (h : st.conn m.origin m.target = some c) :
    (st.localDropSend m).1 = decide (c.droppedN * (c.drop.den + 1) < c.drop.num * (c.attempted + 1)) ∧
    (st.localDropSend m).2.1.conn m.origin m.target =
      some { c with attempted := c.attempted + 1, droppedN := if (st.localDropSend m).1 then c.droppedN + 1 else c.droppedN } := by
  unfold Net.localDropSend
  rw [h]
  dsimp only
  refine ⟨rfl, ?_⟩
  rw [mapConns_conn, h]
  simp

/-- `p * k` rounded up, at most `k`. -/
theorem rate_step (num D a d : Nat) (hD : 0 < D) (hp : num ≤ D) (hd : d = (num * a + (D - 1)) / D) :
    (if d * D < num * (a + 1) then d + 1 else d) = (num * (a + 1) + (D - 1)) / D := by
  have h1 : d * D ≤ num * a + (D - 1) := by rw [hd]; exact Nat.div_mul_le_self ..
  have h2 : num * a + (D - 1) < d * D + D := by
    have := Nat.lt_div_mul_add (a := num * a + (D - 1)) hD
    rw [← hd] at this
    exact this
  have e : num * (a + 1) = num * a + num := Nat.mul_succ ..
  split
  · rename_i h
    rw [eq_comm, Nat.div_eq_iff hD]
    have e2 : (d + 1) * D = d * D + D := Nat.succ_mul ..
    rw [e2, e]
    rw [e] at h
    omega
  · rename_i h
    rw [eq_comm, Nat.div_eq_iff hD]
    rw [e]
    rw [e] at h
    omega

theorem decisions_rate (o t : Node) : ∀ (k : Nat) {st : Net} {c : Conn}, st.conn o t = some c → c.drop.num ≤ c.drop.den + 1 →
    c.droppedN = (c.drop.num * c.attempted + c.drop.den) / (c.drop.den + 1) →
    ((decisions o t k st).1.count true) + c.droppedN = (c.drop.num * (c.attempted + k) + c.drop.den) / (c.drop.den + 1)
  | 0, _, c, _, _, hc => by simpa [decisions] using hc
  | k + 1, st, c, h, hp, hc => by
    have hl := localDropSend_conn (st := st) (m := ⟨0, true, o, t, [], false, 0, 0, 0, false⟩) h
    have hr := rate_step c.drop.num (c.drop.den + 1) c.attempted c.droppedN (by omega) hp hc
    have ih := decisions_rate o t k hl.2 hp (by
      show (if _ then _ else _) = _
      rw [hl.1]
      simp only [decide_eq_true_eq]
      exact hr)
    show ((_ :: _ : List Bool).count true) + _ = _
    rw [List.count_cons]
    have e : c.attempted + (k + 1) = c.attempted + 1 + k := by omega
    rw [e, ← ih]
    dsimp only
    rw [hl.1]
    by_cases hb : c.droppedN * (c.drop.den + 1) < c.drop.num * (c.attempted + 1)
    · simp [hb]; omega
    · simp [hb]

/-- The drop decisions for a sequence of messages, on whatever connections. -/
def decideAll : List Mop → Net → List (Mop × Bool)
  | [], _ => []
  | m :: ms, st => (m, (st.localDropSend m).1) :: decideAll ms (st.localDropSend m).2.1

theorem localDropSend_other {st : Net} {m : Mop} {o t : Node} (h : ¬ (m.origin = o ∧ m.target = t)) :
    (st.localDropSend m).2.1.conn o t = st.conn o t := by
  unfold Net.localDropSend
  split
  · rfl
  · dsimp only
    rw [mapConns_conn]
    cases st.conn o t with
    | none => rfl
    | some c =>
      simp only [Option.map_some]
      rw [if_neg]
      rintro ⟨h1, h2⟩
      exact h ⟨h1.symm, (beq_iff_eq.1 h2).symm⟩

theorem decideAll_rate (o t : Node) : ∀ (ms : List Mop) {st : Net} {c : Conn}, st.conn o t = some c →
    c.drop.num ≤ c.drop.den + 1 → c.droppedN = (c.drop.num * c.attempted + c.drop.den) / (c.drop.den + 1) →
    (((decideAll ms st).filter fun p => p.1.origin = o ∧ p.1.target = t).countP (·.2)) + c.droppedN =
      (c.drop.num * (c.attempted + ms.countP (fun m => m.origin = o ∧ m.target = t)) + c.drop.den) / (c.drop.den + 1)
  | [], _, c, _, _, hc => by simpa [decideAll] using hc
  | m :: ms, st, c, h, hp, hc => by
    by_cases hm : m.origin = o ∧ m.target = t
    · obtain ⟨rfl, rfl⟩ := hm
      have hl := localDropSend_conn (st := st) (m := m) h
      have hr := rate_step c.drop.num (c.drop.den + 1) c.attempted c.droppedN (by omega) hp hc
      have ih := decideAll_rate m.origin m.target ms hl.2 hp (by
        show (if _ then _ else _) = _
        rw [hl.1]
        simp only [decide_eq_true_eq]
        exact hr)
      unfold decideAll
      rw [List.filter_cons_of_pos (by simp), List.countP_cons, List.countP_cons]
      have e : ∀ x, c.attempted + (x + 1) = c.attempted + 1 + x := fun x => by omega
      rw [if_pos (show decide (m.origin = m.origin ∧ m.target = m.target) = true by simp), e, ← ih]
      dsimp only
      rw [hl.1]
      by_cases hb : c.droppedN * (c.drop.den + 1) < c.drop.num * (c.attempted + 1)
      · simp [hb]; omega
      · simp [hb]
    · unfold decideAll
      rw [List.filter_cons_of_neg (by simpa using hm), List.countP_cons, if_neg (by simpa using hm)]
      exact decideAll_rate o t ms ((localDropSend_other hm).trans h) hp hc

end Verif.Simnet
