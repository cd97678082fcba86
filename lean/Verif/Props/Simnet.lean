import Verif.Proofs.SimnetFault

/-! # The network simulator: C79 to C83 -/

namespace Verif.Simnet

/-! ## C79: deliveries -/

/-- C79.  Every completed read of a run was issued in it, on the connection to the node whose message it
was given; the message was sent in this run, by that node to the reader, with these very bytes; both come
before the pass that completed the read; and that pass is not before the time of the send plus the
minimum hop and a tick, nor before the read began. -/
theorem C79_delivers_only_what_was_sent (sc : Scen) (ops : List Op) (d : Done) (hd : d ∈ (run sc init ops).done) :
    ∃ pre post, ops = pre ++ Op.dispatch d.at_ :: post ∧
      Op.send d.send.origin d.send.target d.send.payload d.send.eof d.send.initTm d.send.tie ∈ pre ∧
      Op.read d.send.target d.send.origin d.read.initTm d.read.tie ∈ pre ∧
      d.send.initTm + sc.minHop + sc.tick ≤ d.at_ ∧ d.read.initTm ≤ d.at_ := by
  obtain ⟨hi, hh⟩ := run_hist sc ops
  obtain ⟨h1, h2, h3, h4, h5, pre, post, g1, g2, g3⟩ := hh.done d hd
  refine ⟨pre, post, g1, g2, ?_, ?_, h5⟩
  · rw [← h2, ← h3]; exact g3
  · have := hh.delay _ (hi.doneKnown d hd).1
    exact Nat.le_trans this h4

/-- C79.  No message is delivered twice and no read is completed twice: messages and reads bear the
serial numbers of their acceptance, which differ; and the messages accepted are, in order, among the
sends of the run, one message for each. -/
theorem C79_at_most_once (sc : Scen) (ops : List Op) :
    ((run sc init ops).done.map (fun d => d.send.sn)).Nodup ∧
    ((run sc init ops).done.map (fun d => d.read.sn)).Nodup ∧
    ((run sc init ops).sent.map Mop.sn).Nodup ∧
    (∀ d ∈ (run sc init ops).done, { d.send with filtered := false } ∈ (run sc init ops).sent) ∧
    ((run sc init ops).sent.reverse.map
      (fun m => Op.send m.origin m.target m.payload m.eof m.initTm m.tie)).Sublist ops := by
  obtain ⟨hi, hh⟩ := run_hist sc ops
  exact ⟨hi.doneNodup, hi.doneRead, hi.sentNodup, fun d hd => (hi.doneKnown d hd).1, hh.sent⟩

/-- Where a message may be: in a queue of a node, delivered, or discarded. -/
inductive Where
  | inQueue (k : QKind) (n : Node)
  | delivered
  | discarded
deriving DecidableEq

/-- The message with serial number `sn` is there. -/
def At (st : Net) (sn : Nat) : Where → Prop
  | .inQueue k n => ∃ m ∈ st.q (k, n), m.sn = sn
  | .delivered => ∃ d ∈ st.done, d.send.sn = sn
  | .discarded => ∃ m ∈ st.wiped, m.sn = sn

/-- C79.  Every message accepted is at any moment in exactly one place: nothing is lost silently and
nothing is duplicated, whatever faults, repairs, shutdowns and closes happen. -/
theorem C79_exactly_one_place (sc : Scen) (ops : List Op) (m : Mop) (hm : m ∈ (run sc init ops).sent) :
    ∃ w, At (run sc init ops) m.sn w ∧ ∀ w', At (run sc init ops) m.sn w' → w' = w := by
  have hi := run_inv sc ops Inv.init
  generalize run sc init ops = st at hm hi
  have sn : ∀ {a b : Mop}, a.core = b → a.sn = b.sn := fun h => by rw [← h]; rfl
  rcases hi.total m hm with ⟨⟨k, n⟩, m', h1, h2⟩ | ⟨d, h1, h2⟩ | ⟨w, h1, h2⟩
  · refine ⟨.inQueue k n, ⟨m', h1, sn h2⟩, fun w' hw' => ?_⟩
    cases w' with
    | inQueue k' n' =>
      obtain ⟨x, hx, hs⟩ := hw'
      have := hi.uniq _ _ _ _ hx h1 (hs.trans (sn h2).symm)
      cases this; rfl
    | delivered =>
      obtain ⟨d, hd, hs⟩ := hw'
      exact absurd ((sn h2).trans hs.symm) (hi.doneGone d hd _ m' h1).1
    | discarded =>
      obtain ⟨x, hx, hs⟩ := hw'
      exact absurd ((sn h2).trans hs.symm) ((hi.wipedGone x hx).1 _ m' h1)
  · refine ⟨.delivered, ⟨d, h1, sn h2⟩, fun w' hw' => ?_⟩
    cases w' with
    | inQueue k' n' =>
      obtain ⟨x, hx, hs⟩ := hw'
      exact absurd (hs.trans (sn h2).symm) (hi.doneGone d h1 _ x hx).1
    | delivered => rfl
    | discarded =>
      obtain ⟨x, hx, hs⟩ := hw'
      exact absurd ((sn h2).trans hs.symm) ((hi.wipedGone x hx).2 d h1)
  · refine ⟨.discarded, ⟨w, h1, sn h2⟩, fun w' hw' => ?_⟩
    cases w' with
    | inQueue k' n' =>
      obtain ⟨x, hx, hs⟩ := hw'
      exact absurd (hs.trans (sn h2).symm) ((hi.wipedGone w h1).1 _ x hx)
    | delivered =>
      obtain ⟨d, hd, hs⟩ := hw'
      exact absurd (hs.trans (sn h2).symm) ((hi.wipedGone w h1).2 d hd)
    | discarded => rfl

/-- An operation that asks for no fault, repair, isolation, shutdown, power or close. -/
def Op.plain : Op → Prop
  | .addServer _ => True
  | .addClient _ _ _ => True
  | .send _ _ _ _ _ _ => True
  | .read _ _ _ _ => True
  | .dispatch _ => True
  | _ => False

theorem Op.plain_calm {op : Op} (h : op.plain) : op.calm = true := by cases op <;> first | rfl | exact h.elim

/-- C79.  In a run without faults, isolation, shutdown and close nothing is dropped, unheard or
discarded: every message is delivered or in flight. -/
theorem C79_healthy_loses_nothing (sc : Scen) (ops : List Op) (hp : ∀ op ∈ ops, op.plain) :
    (∀ n, (run sc init ops).q (.droppedSendQ, n) = [] ∧ (run sc init ops).q (.deafReadQ, n) = []) ∧
    (run sc init ops).wiped = [] ∧
    ∀ m ∈ (run sc init ops).sent,
      At (run sc init ops) m.sn .delivered ∨ At (run sc init ops) m.sn (.inQueue .preArrQ m.target) := by
  have hi := run_inv sc ops Inv.init
  have hh := run_healthy sc ops Inv.init Healthy.init (fun op h => Op.plain_calm (hp op h))
  generalize run sc init ops = st at hi hh
  refine ⟨fun n => ⟨hh.dropped n, hh.deaf n⟩, hh.wiped, fun m hm => ?_⟩
  rcases hi.total m hm with ⟨⟨k, n⟩, m', h1, h2⟩ | ⟨d, h1, h2⟩ | ⟨w, h1, h2⟩
  · right
    have hsn : m'.sn = m.sn := by rw [← h2]; rfl
    have hs : m'.isSend = true := by
      have := (hi.sentLt m hm).2.1
      rw [← h2] at this; exact this
    have ht : m'.target = m.target := by rw [← h2]; rfl
    cases k with
    | readQ => rw [hh.noSend n m' h1] at hs; cases hs
    | deafReadQ => rw [hh.deaf n] at h1; cases h1
    | droppedSendQ => rw [hh.dropped n] at h1; cases h1
    | preArrQ =>
      have := (hi.fits _ _ m' h1).2
      exact ⟨m', by rw [← ht, this]; exact h1, hsn⟩
  · exact .inl ⟨d, h1, by rw [← h2]; rfl⟩
  · rw [hh.wiped] at h1; cases h1

/-- C79.  In a run without faults a pass that finds a read waiting for a node and a message of that node
that has arrived delivers at least one message.  The reads that wait there were issued before the time
of the pass. -/
theorem C79_progress (sc : Scen) (ops : List Op) (hp : ∀ op ∈ ops, op.plain) (now : Nat) (n : Node)
    (hc : (run sc init ops).crashed = false)
    (hb : ∀ x ∈ (run sc init ops).q (.readQ, n), x.initTm ≤ now)
    (r m : Mop) (hr : r ∈ (run sc init ops).q (.readQ, n)) (hm : m ∈ (run sc init ops).q (.preArrQ, n))
    (ht : r.target = m.origin) (ha : m.arrivalTm ≤ now) :
    (run sc init ops).done.length < (run sc init (ops ++ [.dispatch now])).done.length := by
  have hi := run_inv sc ops Inv.init
  have hh := run_healthy sc ops Inv.init Healthy.init (fun op h => Op.plain_calm (hp op h))
  rw [run_snoc]
  unfold step
  rw [if_neg (by rw [hc]; simp)]
  exact dispatch_progress sc now hi hh hb ⟨r, hr, m, hm, ht, ha⟩

/-- Hop time 10 and tick 1. -/
def exScen : Scen := ⟨1, 10, 10, fun _ => 0⟩

/-- A server and two clients; three messages, two reads. -/
def exOps : List Op := [.addServer 0, .addClient 1 0 none, .addClient 2 0 none,
  .send 1 0 [1] false 100 0, .send 2 0 [2] false 101 0, .send 1 0 [3] false 102 0,
  .read 0 2 105 0, .read 0 1 106 0]

-- two messages are delivered, one is in flight
example : (run exScen init (exOps ++ [.dispatch 200])).done.map (fun d => (d.send.origin, d.send.payload)) = [(1, [3]), (2, [2])] ∧
    (run exScen init (exOps ++ [.dispatch 200])).sent.length = 3 := by decide +kernel

-- the hypotheses of progress hold
example : (∀ op ∈ exOps, op.plain) ∧ (run exScen init exOps).crashed = false ∧
    (∀ x ∈ (run exScen init exOps).q (.readQ, 0), x.initTm ≤ 200) ∧
    ∃ r ∈ (run exScen init exOps).q (.readQ, 0), ∃ m ∈ (run exScen init exOps).q (.preArrQ, 0),
      r.target = m.origin ∧ m.arrivalTm ≤ 200 := by
  refine ⟨?_, by decide +kernel, by decide +kernel, by decide +kernel⟩
  intro op h
  simp only [exOps, List.mem_cons, List.not_mem_nil, or_false] at h
  rcases h with rfl | rfl | rfl | rfl | rfl | rfl | rfl | rfl <;> trivial

/-! ## C80: order -/

/-- C80, part.  At a node with a single connection (a client, or a server with one client), with a fixed
hop time and sends to it at increasing times, the messages delivered are, in order and without gaps, the
first of the messages sent.  Missing: a node with several connections, where this is false
(`C80_order_counterexample`). -/
theorem C80_fifo_partial (sc : Scen) (hsc : sc.maxHop ≤ sc.minHop) (ops : List Op) (hp : ∀ op ∈ ops, op.plain) (c s : Node)
    (hone : ∀ a b base, Op.addClient a b base ∈ ops → (a = c → b = s) ∧ (b = c → a = s))
    (htm : (ops.filterMap (fun op => match op with
      | .send _ t _ _ i _ => if t = c then some i else none
      | _ => none)).Pairwise (· < ·)) :
    ∃ rest, ((run sc init ops).sent.reverse.filter (fun m => m.target == c)).map (fun m => (m.origin, m.payload, m.eof)) =
      ((run sc init ops).done.reverse.filter (fun d => d.send.target == c)).map (fun d => (d.send.origin, d.send.payload, d.send.eof)) ++ rest := by
  have h := FInv.run hsc (c := c) (s := s) ops (fun op h => Op.plain_calm (hp op h)) hone
    (by
      have e : Op.sendTm c = (fun op => match op with
          | .send _ t _ _ i _ => if t = c then some i else none
          | _ => none) := by funext op; cases op <;> rfl
      rw [e]; exact htm)
  have hf := h.fifo
  unfold Fifo Net.sentTo Net.doneAt at hf
  refine ⟨(((run sc init ops).q (.preArrQ, c)).map Mop.core).map (fun m => (m.origin, m.payload, m.eof)), ?_⟩
  rw [hf, List.map_append, List.map_map]
  rfl

-- a client that has read two of three messages
example : (∀ a b base, Op.addClient a b base ∈ ([.addServer 0, .addClient 1 0 none, .addClient 2 0 none,
      .send 0 1 [1] false 100 0, .send 0 1 [2] false 101 0, .send 0 1 [3] false 102 0, .read 1 0 105 0, .read 1 0 106 0,
      .dispatch 200] : List Op) → (a = 1 → b = 0) ∧ (b = 1 → a = 0)) ∧
    (run exScen init [.addServer 0, .addClient 1 0 none, .addClient 2 0 none,
      .send 0 1 [1] false 100 0, .send 0 1 [2] false 101 0, .send 0 1 [3] false 102 0, .read 1 0 105 0, .read 1 0 106 0,
      .dispatch 200]).done.reverse.map (fun d => d.send.payload) = [[1], [2]] := by
  refine ⟨?_, by decide +kernel⟩
  intro a b base h
  simp only [List.mem_cons, List.not_mem_nil, or_false, reduceCtorEq, false_or, Op.addClient.injEq] at h
  rcases h with ⟨rfl, rfl, _⟩ | ⟨rfl, rfl, _⟩ <;> decide

/-- C80 fails at a server with two clients: client 1 sent first `[1]` and then `[3]`, 2 ticks apart, with
a fixed hop time and without any fault, and the read on its connection returns `[3]`, while `[1]` is
still in flight.  The inner loop of the pass goes on behind the message it has just delivered. -/
theorem C80_order_counterexample :
    (run exScen init (exOps ++ [.dispatch 200])).done.reverse.map (fun d => (d.read.target, d.send.payload)) = [(2, [2]), (1, [3])] ∧
    ((run exScen init (exOps ++ [.dispatch 200])).q (.preArrQ, 0)).map (fun m => (m.origin, m.payload)) = [(1, [1])] ∧
    (∀ op ∈ exOps, op.calm = true) := by decide +kernel

/-- With varying hop times even one connection reorders: the network has no order of its own. -/
theorem C80_varying_hop_counterexample :
    (run ⟨1, 10, 20, fun n => if n = 0 then 9 else 0⟩ init [.addServer 0, .addClient 1 0 none,
      .send 1 0 [1] false 100 0, .send 1 0 [2] false 101 0, .read 0 1 105 0, .dispatch 200]).done.map (fun d => d.send.payload) = [[2]] := by
  decide +kernel

/-! ## C81: faults hold -/

/-- C81.  As long as a node is isolated or powered off no message from it or to it is delivered. -/
theorem C81_isolated_or_off (sc : Scen) (ops ops' : List Op) (n : Node)
    (hoff : ∀ pre post, ops' = pre ++ post →
      (run sc init (ops ++ pre)).state n = .isolated ∨ (run sc init (ops ++ pre)).state n = .faultyIsolated ∨
        (run sc init (ops ++ pre)).powerOff n = true)
    (d : Done) (hd : d ∈ (run sc init (ops ++ ops')).done) (hn : d ∉ (run sc init ops).done) :
    d.send.origin ≠ n ∧ d.send.target ≠ n := by
  rw [run_append] at hd
  obtain ⟨pre, now, post, h1, hv⟩ := run_new sc ops' (run_inv sc ops Inv.init) d hd hn
  have ho := hoff pre (Op.dispatch now :: post) h1
  rw [run_append] at ho
  have hc := hv.conn
  rw [hv.here, hv.there] at hc
  unfold Net.connected at hc
  simp only [Bool.and_eq_true, Bool.not_eq_true'] at hc
  have key : ∀ x, (run sc (run sc init ops) pre).powerOff x = false →
      ((run sc (run sc init ops) pre).state x).isIsolated = false → x ≠ n := by
    rintro x h1 h2 rfl
    rcases ho with h | h | h
    · rw [h] at h2; cases h2
    · rw [h] at h2; cases h2
    · rw [h] at h1; cases h1
  exact ⟨key _ hc.1.1.2 hc.2, key _ hc.1.1.1 hc.1.2⟩

/-- C81.  As long as an end of a connection is fully deaf no read there gets a message from the other
end. -/
theorem C81_deaf (sc : Scen) (ops ops' : List Op) (o t : Node)
    (hdeaf : ∀ pre post, ops' = pre ++ post → ∃ c, (run sc init (ops ++ pre)).conn o t = some c ∧ c.deaf.sure = true)
    (d : Done) (hd : d ∈ (run sc init (ops ++ ops')).done) (hn : d ∉ (run sc init ops).done) :
    ¬ (d.send.target = o ∧ d.send.origin = t) := by
  rintro ⟨e1, e2⟩
  rw [run_append] at hd
  obtain ⟨pre, now, post, h1, hv⟩ := run_new sc ops' (run_inv sc ops Inv.init) d hd hn
  obtain ⟨c, hc, hs⟩ := hdeaf pre (Op.dispatch now :: post) h1
  rw [run_append] at hc
  obtain ⟨pd, pp, g1, g2⟩ := hv.hears
  rw [hv.here, hv.there, e1, e2] at g1
  obtain ⟨c', hc', hd', _⟩ := probs_of_conn g1
  rw [hc] at hc'
  cases hc'
  rw [hd', g2] at hs
  cases hs

/-- C81, part.  As long as an end of a connection drops all sends, the only messages on it that are
delivered are messages that had passed the drop decision before (and were then unheard): the full claim
is false for these (`C81_drop_counterexample`).  In particular nothing sent from then on is delivered. -/
theorem C81_drop_partial (sc : Scen) (ops ops' : List Op) (o t : Node)
    (hdrop : ∀ pre post, ops' = pre ++ post → ∃ c, (run sc init (ops ++ pre)).conn o t = some c ∧ c.drop.sure = true)
    (d : Done) (hd : d ∈ (run sc init (ops ++ ops')).done) (hn : d ∉ (run sc init ops).done)
    (ho : d.send.origin = o) (ht : d.send.target = t) :
    ∃ p, ∃ m ∈ (run sc init ops).q p, m.sn = d.send.sn ∧ m.filtered = true := by
  rw [run_append] at hd
  have hi := run_inv sc ops Inv.init
  obtain ⟨pre, now, post, h1, hv⟩ := run_new sc ops' hi d hd hn
  have hda : ∀ pre post, ops' = pre ++ post → DropsAll (run sc (run sc init ops) pre) o t := by
    intro pre post e
    have := hdrop pre post e
    rw [run_append] at this
    exact this
  obtain ⟨m, hm, hc, hf⟩ := hv.send
  have he := Mop.core_ext hc
  have hmo : m.origin = o := he.2.2.1.trans ho
  have hmt : m.target = t := he.2.2.2.1.trans ht
  rcases hf with hf | hf
  · obtain ⟨p0, x0, g1, g2, g3, _⟩ := run_marks sc pre hi
      (fun a b e => hda a (b ++ Op.dispatch now :: post) (by rw [h1, e, List.append_assoc])) _ m hm hmo hmt hf
    exact ⟨p0, x0, g1, g2.trans he.1, g3⟩
  · rw [hmo, hmt] at hf
    exact absurd hf (hda pre _ h1).not

/-- The full claim on dropping fails: the message is sent and passes the drop decision, is not heard by
its half-deaf reader, is put back in flight when client 1 is told to drop everything (with redelivery of
lost messages), and is delivered by the next pass although client 1 drops all sends. -/
theorem C81_drop_counterexample :
    ∃ ops ops' : List Op,
      (∀ k, k < ops'.length + 1 → ((run exScen init (ops ++ ops'.take k)).conn 1 0).map (fun c => c.drop) = some Prob.one) ∧
      (run exScen init ops).done = [] ∧
      ((run exScen init (ops ++ ops')).done.map (fun d => (d.send.origin, d.send.target, d.send.payload))) = [(1, 0, [1])] :=
  ⟨[.addServer 0, .addClient 1 0 none, .send 1 0 [1] false 100 0, .read 0 1 101 0,
      .faultCkt 102 0 (some 1) ⟨some ⟨1, 2⟩, none⟩ false, .dispatch 200, .faultCkt 300 1 (some 0) ⟨none, some Prob.one⟩ true],
    [.faultCkt 300 0 (some 1) ⟨some Prob.zero, none⟩ false, .dispatch 400], by decide +kernel⟩

-- faults that meet the hypotheses, with messages in flight; client 2 is not affected by the isolation of client 1
example : (∀ k, k < 2 → (run exScen init (exOps ++ [.isolate 1] ++ ([.dispatch 200] : List Op).take k)).state 1 = .isolated) ∧
    (run exScen init (exOps ++ [.isolate 1] ++ [.dispatch 200])).done.map (fun d => d.send.origin) = [2] := by decide +kernel
example : ∀ k, k < 2 →
    ((run exScen init (exOps ++ [.faultCkt 110 0 (some 1) ⟨some Prob.one, none⟩ false] ++ ([.dispatch 200] : List Op).take k)).conn 0 1).map (fun c => c.deaf) = some Prob.one := by
  decide +kernel

/-! ## C82: repair with redelivery -/

/-- C82, part.  A repair of node `o` (or of its connection to one node) with redelivery, with any other
options, puts every message dropped at `o` on these connections back in flight, if both ends are then
powered on and not isolated. -/
theorem C82_dropped_come_back_partial (sc : Scen) (ops : List Op) (o : Node) (target : Option Node) (unIso power justOrigin : Bool)
    (ho : (run sc init ops).inDns o = true) (ht : ∀ x, target = some x → (run sc init ops).inDns x = true)
    (m : Mop) (hm : m ∈ (run sc init ops).q (.droppedSendQ, o)) (hs : target = none ∨ target = some m.target)
    (hc : ((run sc init ops).repairCkt o target unIso power justOrigin true).connected o m.target = true) :
    m ∈ ((run sc init ops).repairCkt o target unIso power justOrigin true).q (.preArrQ, m.target) := by
  have hi := run_inv sc ops Inv.init
  obtain ⟨st1, h1, h2, h3, _⟩ := repair_split hi o target unIso power justOrigin ho ht
  rw [h1] at hc ⊢
  have hmo : m.origin = o := (hi.fits _ _ m hm).2
  refine (deliverDropped_spec h2 o target).1 m ?_ ?_ (by rw [hmo]; exact hc)
  · rw [h3.q _ (.inl rfl)]; exact hm
  · rcases hs with rfl | rfl
    · rfl
    · simp [sel]

/-- C82, part.  A repair of node `o` alone with redelivery puts every message that `o` sent and that was
not heard back in flight, under the same condition.  Missing: the repair of both ends, where this is
false (`C82_unheard_counterexample`). -/
theorem C82_unheard_come_back_partial (sc : Scen) (ops : List Op) (o : Node) (target : Option Node) (unIso power : Bool)
    (ho : (run sc init ops).inDns o = true) (ht : ∀ x, target = some x → (run sc init ops).inDns x = true)
    (m : Mop) (hm : m ∈ (run sc init ops).q (.deafReadQ, m.target)) (hsend : m.isSend = true) (hmo : m.origin = o)
    (hw : ((run sc init ops).conn o m.target).isSome) (hs : target = none ∨ target = some m.target)
    (hc : ((run sc init ops).repairCkt o target unIso power true true).connected o m.target = true) :
    m ∈ ((run sc init ops).repairCkt o target unIso power true true).q (.preArrQ, m.target) := by
  have hi := run_inv sc ops Inv.init
  obtain ⟨st1, h1, h2, _, h4⟩ := repair_split hi o target unIso power true ho ht
  have hne : m.target ≠ o := by
    have := hi.handedNe _ (hi.route _ m hm)
    rw [← hmo]
    exact fun e => this e.symm
  rw [h1] at hc ⊢
  refine (deliverDropped_spec h2 o target).2 m.target ?_ ((h4 rfl).conn _ _ hw) m ?_ hsend (by rw [hmo]; exact hc)
  · rcases hs with rfl | rfl
    · rfl
    · simp [sel]
  · rw [(h4 rfl).q _ (.inr (.inr ⟨o, rfl, hne⟩))]; exact hm

/-- A message dropped, and a message unheard. -/
def exDrop : List Op := [.addServer 0, .addClient 1 0 none, .read 0 1 99 0,
  .faultCkt 99 1 none ⟨none, some Prob.one⟩ false, .send 1 0 [7] false 100 0, .dispatch 200]
def exDeaf : List Op := [.addServer 0, .addClient 1 0 none, .read 0 1 99 0,
  .faultCkt 99 0 (some 1) ⟨some ⟨1, 2⟩, none⟩ false, .send 1 0 [7] false 100 0, .dispatch 200]

example : (run exScen init exDrop).inDns 1 = true ∧ ((run exScen init exDrop).q (.droppedSendQ, 1)).map (fun m => m.payload) = [[7]] ∧
    ((run exScen init exDrop).repairCkt 1 none true true false true).connected 1 0 = true := by decide +kernel
example : (run exScen init exDeaf).inDns 1 = true ∧
    ((run exScen init exDeaf).q (.deafReadQ, 0)).map (fun m => (m.isSend, m.origin, m.target, m.payload)) = [(true, 1, 0, [7])] ∧
    ((run exScen init exDeaf).repairCkt 1 none true true true true).connected 1 0 = true := by decide +kernel

/-- The full claim fails: the message of client 1 that the half-deaf server did not hear is not brought
back by a full repair of the server with redelivery, nor by one of the client: the first step of the
repair moves it to the queue of waiting reads, where no redelivery looks for it.  Both ends are healthy
afterwards, and later reads and passes do not deliver it. -/
theorem C82_unheard_counterexample :
    ((run exScen init exDeaf).q (.deafReadQ, 0)).map (fun m => m.payload) = [[7]] ∧
    (run exScen init (exDeaf ++ [.repairCkt 0 none true true false true])).connected 0 1 = true ∧
    (run exScen init (exDeaf ++ [.repairCkt 0 none true true false true])).q (.preArrQ, 0) = [] ∧
    (((run exScen init (exDeaf ++ [.repairCkt 0 none true true false true])).q (.readQ, 0)).filter (·.isSend)).map (fun m => m.payload) = [[7]] ∧
    (run exScen init (exDeaf ++ [.repairCkt 0 none true true false true, .repairCkt 1 none true true false true,
      .read 0 1 301 0, .dispatch 400, .dispatch 500])).done = [] := by decide +kernel

/-! ## C83: the drop rate -/

/-- C83, part.  If a connection has drop probability `p = num / (den + 1) ≤ 1` and no drop was decided on
it yet, then of the next `k` messages that reach the drop decision `p * k` rounded up are dropped.
Missing: a connection that has carried messages before, for which this is false
(`C83_rate_counterexample`). -/
theorem C83_rate_partial (st : Net) (o t : Node) (c : Conn) (hc : st.conn o t = some c) (hp : c.drop.num ≤ c.drop.den + 1)
    (h0 : c.attempted = 0 ∧ c.droppedN = 0) (k : Nat) :
    (decisions o t k st).1.count true = (c.drop.num * k + c.drop.den) / (c.drop.den + 1) := by
  have h := decisions_rate o t k hc hp (by
    rw [h0.1, h0.2, Nat.mul_zero, Nat.zero_add, Nat.div_eq_of_lt (Nat.lt_succ_self _)])
  rw [h0.1, h0.2, Nat.zero_add, Nat.add_zero] at h
  exact h

/-- The same while other connections carry messages too: whatever messages `ms` reach the drop decision,
of those on this connection `p` times their number, rounded up, are dropped. -/
theorem C83_rate_among_others_partial (st : Net) (o t : Node) (c : Conn) (hc : st.conn o t = some c)
    (hp : c.drop.num ≤ c.drop.den + 1) (h0 : c.attempted = 0 ∧ c.droppedN = 0) (ms : List Mop) :
    ((decideAll ms st).filter fun p => p.1.origin = o ∧ p.1.target = t).countP (·.2) =
      (c.drop.num * ms.countP (fun m => m.origin = o ∧ m.target = t) + c.drop.den) / (c.drop.den + 1) := by
  have h := decideAll_rate o t ms hc hp (by
    rw [h0.1, h0.2, Nat.mul_zero, Nat.zero_add, Nat.div_eq_of_lt (Nat.lt_succ_self _)])
  rw [h0.1, h0.2, Nat.zero_add, Nat.add_zero] at h
  exact h

/-- More generally the rate is kept over the whole life of the connection: if `⌈p * a⌉` of the first `a`
messages were dropped, `⌈p * (a + k)⌉` of the first `a + k` are. -/
theorem C83_rate_kept (st : Net) (o t : Node) (c : Conn) (hc : st.conn o t = some c) (hp : c.drop.num ≤ c.drop.den + 1)
    (h0 : c.droppedN = (c.drop.num * c.attempted + c.drop.den) / (c.drop.den + 1)) (k : Nat) :
    (decisions o t k st).1.count true + c.droppedN = (c.drop.num * (c.attempted + k) + c.drop.den) / (c.drop.den + 1) :=
  decisions_rate o t k hc hp h0

/-- The decision does not depend on the message. -/
theorem C83_same_for_all (st : Net) (m m' : Mop) (ho : m.origin = m'.origin) (ht : m.target = m'.target) :
    (st.localDropSend m).1 = (st.localDropSend m').1 :=
  (localDropSend_congr st m m' ho ht).1

/-- Probability 0 drops nothing and probability 1 everything, whatever the connection carried before. -/
theorem C83_extremes (sc : Scen) (ops : List Op) (m : Mop) (c : Conn) (hc : (run sc init ops).conn m.origin m.target = some c) :
    (c.drop.num = 0 → ((run sc init ops).localDropSend m).1 = false) ∧
    (c.drop.num = c.drop.den + 1 → ((run sc init ops).localDropSend m).1 = true) := by
  have hi := run_inv sc ops Inv.init
  refine ⟨fun h => ?_, fun h => ?_⟩
  · rw [(localDropSend_conn hc).1, h]
    simp
  · cases hd : ((run sc init ops).localDropSend m).1 with
    | true => rfl
    | false =>
      obtain ⟨pd, pp, h1, h2⟩ := localDropSend_pass hi hd
      obtain ⟨c', hc', _, hp⟩ := probs_of_conn h1
      rw [hc] at hc'
      cases hc'
      rw [← hp] at h2
      have : ¬ c.drop.den + 1 ≤ c.drop.num := of_decide_eq_false h2
      omega

example : (run exScen init exDrop).conn 1 0 = some ⟨Prob.zero, Prob.one, 0, 0⟩ := by decide +kernel

-- 7 decisions at probability 1/3
example : (decisions 1 0 7 (run exScen init [.addServer 0, .addClient 1 0 none,
    .faultCkt 99 1 none ⟨none, some ⟨1, 2⟩⟩ false])).1 = [true, false, false, true, false, false, true] := by decide +kernel

/-- Two clients of one server, messages in turn; the connection of client 1 loses one in three. -/
example : let st := run exScen init [.addServer 0, .addClient 1 0 none, .addClient 2 0 none,
      .faultCkt 99 1 none ⟨none, some ⟨1, 2⟩⟩ false]
    let m (o : Node) : Mop := ⟨0, true, o, 0, [], false, 0, 0, 0, false⟩
    (decideAll [m 1, m 2, m 2, m 1, m 1, m 2, m 1] st).map (fun p => (p.1.origin, p.2)) =
      [(1, true), (2, false), (2, false), (1, false), (1, false), (2, false), (1, true)] := by decide +kernel

/-- The claim fails on a connection that has carried messages: the counters are not reset when the
probability is set.  Here two messages were delivered, then the probability is set to 1/2, and both of
the next two messages are dropped; in general as many as were delivered before. -/
theorem C83_rate_counterexample :
    let ops : List Op := [.addServer 0, .addClient 1 0 none, .read 0 1 1 0, .read 0 1 2 0, .send 1 0 [1] false 3 0,
      .send 1 0 [2] false 4 0, .dispatch 100, .faultCkt 101 1 none ⟨none, some ⟨1, 1⟩⟩ false]
    let later : List Op := [.read 0 1 111 0, .read 0 1 112 0, .send 1 0 [3] false 113 0, .send 1 0 [4] false 114 0, .dispatch 200]
    ((run exScen init ops).conn 1 0).map (fun c => c.drop) = some ⟨1, 1⟩ ∧
    ((run exScen init (ops ++ later)).q (.droppedSendQ, 1)).map (fun m => m.payload) = [[3], [4]] ∧
    (run exScen init (ops ++ later)).done.length = 2 := by decide +kernel

/-- The burst in general: after `a` messages without a loss, set to 1/2, the next `a` are all dropped. -/
theorem C83_burst_counterexample (st : Net) (o t : Node) (a : Nat) (c : Conn) (hc : st.conn o t = some c)
    (h : c.attempted = a ∧ c.droppedN = 0 ∧ c.drop = ⟨1, 1⟩) : (decisions o t a st).1.count true = a := by
  have go : ∀ (k d : Nat) (st : Net) (c : Conn), st.conn o t = some c → c.drop = ⟨1, 1⟩ → c.attempted = a + d → c.droppedN = d →
      d + k ≤ a → (decisions o t k st).1.count true = k := by
    intro k
    induction k with
    | zero => intro d st c _ _ _ _ _; rfl
    | succ k ih =>
      intro d st c hc hp h1 h2 hle
      have hl := localDropSend_conn (st := st) (m := ⟨0, true, o, t, [], false, 0, 0, 0, false⟩) hc
      have ht : (st.localDropSend ⟨0, true, o, t, [], false, 0, 0, 0, false⟩).1 = true := by
        rw [hl.1, hp, h1, h2]
        refine decide_eq_true ?_
        show d * 2 < 1 * (a + d + 1)
        omega
      show ((_ :: _ : List Bool).count true) = _
      rw [List.count_cons, ih (d + 1) _ _ hl.2 hp (by show c.attempted + 1 = _; omega) (by
        show (if _ then _ else _) = _
        rw [ht, if_pos rfl, h2]) (by omega)]
      rw [ht]
      rfl
  exact go a 0 st c hc h.2.2 (by rw [h.1]; rfl) h.2.1 (by omega)

end Verif.Simnet
