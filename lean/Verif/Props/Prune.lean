import Verif.Proofs.Prune2
/-
C128 and C129: pruning of surplus circuits between two nodes.
-/
namespace Verif.Prune

/-! ## C128 -/

/-- C128, what holds: as long as the nodes do not run the closing loop at the end of the periodic check (`tick` is `check`
with that loop), no notice of a departed peer is acted on, and nothing else closes circuits, one circuit stays open at
both ends, and each node that has learned of it still has it in its tables: the one with the smallest id. Missing: the three
exceptions, each of which can leave the nodes with nothing, see the counterexamples. -/
theorem C128_one_circuit_stays_partial (r : Bool) (l : List Action) (s : Sys) (hl : ∀ a ∈ l, a.gentle = true)
    (hs : run { replicas := r } l = some s) (hm : s.made ≠ []) :
    ∃ c ∈ s.made, (∀ d ∈ s.made, c ≤ d) ∧ ∀ x, s.open_ x c = true ∧ (c ∈ (s.side x).came → c ∈ (s.side x).audit) := by
  have h := (inv_init r).run hl hs
  obtain ⟨k, hk, hle⟩ := exists_least hm
  refine ⟨k, hk, hle, fun x => ⟨?_, ?_⟩⟩
  · cases ho : s.open_ x k with
    | true => rfl
    | false =>
      obtain ⟨j, hj, hlt⟩ := h.shut x k ho
      exact absurd (hle j hj) (Nat.not_le.2 hlt)
  · intro hc
    refine Decidable.byContradiction fun hn => ?_
    obtain ⟨j, hj, hlt⟩ := (h.side x).reg k hc hn
    exact absurd (hle j hj) (Nat.not_le.2 hlt)

/-- Three circuits, two of them pruned by request. -/
def gentleRun : List Action :=
  [.create 5, .create 3, .create 8, .arrive false 5 0, .arrive false 3 1, .arrive false 8 2, .arrive true 3 0,
   .arrive true 8 1, .arrive true 5 2, .check false 20, .deliver true 0, .deliver true 0, .deliver true 0, .deliver true 0,
   .hear false 5, .gone false 5, .hear false 8, .gone false 8]

example : (∀ a ∈ gentleRun, a.gentle = true) ∧
    (run {} gentleRun).map (fun s => ([3, 5, 8].map (s.open_ true), [3, 5, 8].map (s.open_ false), (s.side true).cur,
      (s.side true).audit, (s.side false).audit)) =
    some ([true, false, false], [true, false, false], some 3, [3], [3]) := by
  constructor
  · decide
  · decide +kernel

/-- C128, what holds of the whole periodic check: two replicas that send on the same circuit keep it, however often either
of them checks, and whatever they hear of other circuits, as long as they learn of no new circuit. Missing: nodes that are
not both replicas, and replicas whose tables name different circuits. -/
theorem C128_agreed_circuit_stays_partial (c : Cid) (s t : Sys) (l : List Action) (hl : ∀ a ∈ l, a.calm = true)
    (hr : s.replicas = true) (hw : ∀ x, s.wire x = []) (hc : ∀ x, (s.side x).cur = some c)
    (ho : ∀ x, s.open_ x c = true) (ht : run s l = some t) :
    ∀ x, (t.side x).cur = some c ∧ t.open_ x c = true := by
  have h := Agreed.run ⟨hr, hw, hc, ho⟩ hl ht
  exact fun x => ⟨h.cur x, h.live x⟩

def agreedRun : List Action :=
  [.create 3, .create 5, .arrive false 3 0, .arrive false 5 1, .arrive true 3 0, .arrive true 5 1]

example : (run { replicas := true } (agreedRun ++ [.tick false 2, .tick true 2, .hear true 3, .gone true 3, .tick false 22])).map
    (fun s => ((s.side true).cur, s.open_ true 5, s.open_ false 5, s.open_ true 3)) = some (some 5, true, true, false) := by
  decide +kernel

example : (run { replicas := true } agreedRun).map (fun s => ((s.wire true ++ s.wire false).length, (s.side false).cur,
    (s.side true).cur, s.open_ true 5, s.open_ false 5)) = some (0, some 5, some 5, true, true) := by decide +kernel

/-- Two circuits opened at the same time from the two ends. -/
def crossing (c d : Cid) : List Action :=
  [.create c, .create d, .arrive false c 0, .arrive false d 0, .arrive true d 0, .arrive true c 0]

/-- C128 fails, first case: each of two replicas opens a circuit to the other at about the same time, so that each
learns of its own first. The next check of each of them closes the first one. No circuit is left, at any ids and any times. -/
theorem C128_crossing_counterexample (c d : Cid) (hcd : c ≠ d) (t1 t2 : Nat) :
    ∃ s, run { replicas := true } (crossing c d ++ [.tick false t1, .tick true t2]) = some s ∧
      s.open_ false c = false ∧ s.open_ true d = false ∧
      ∀ e ∈ s.made, ¬ (s.open_ false e = true ∧ s.open_ true e = true) := by
  have hdc : d ≠ c := Ne.symm hcd
  have key : run { replicas := true } (crossing c d ++ [.tick false t1, .tick true t2]) =
      some { replicas := true
             made := [d, c]
             side := upd (upd (fun _ => {}) false (arrive (arrive {} c 0) d 0)) true (arrive (arrive {} d 0) c 0)
             open_ := upd (upd (fun _ _ => true) false (upd (fun _ => true) c false)) true (upd (fun _ => true) d false) } := by
    simp [crossing, run, step, Sys.setSide, arrive, upd, hcd, hdc, tick, check, Sys.shut]
    funext x
    cases x <;> simp [upd]
  refine ⟨_, key, by simp [upd], by simp [upd], ?_⟩
  intro e he
  have : e = d ∨ e = c := by simpa using he
  rcases this with rfl | rfl <;> simp [upd]

/-- C128 fails, second case: no crossing, one of the nodes is a client. The node has known the second circuit for ten seconds when
it checks (it checks every twenty), and it happens to have the larger id. It asks for the second one to be closed, and
closes the first one, which it asked to keep. -/
theorem C128_window_counterexample (now : Nat) (h1 : 10 ≤ now) (h2 : now < 20) :
    ∃ s, run {} [.create 1, .create 2, .arrive false 1 0, .arrive true 1 0, .arrive false 2 0, .arrive true 2 0,
        .tick false now, .deliver true 0, .deliver true 0, .hear true 1, .hear false 2] = some s ∧
      ∀ e ∈ s.made, s.open_ false e = false ∧ s.open_ true e = false := by
  have hc : ∀ now, 10 ≤ now → now < 20 → (match run {} [.create 1, .create 2, .arrive false 1 0, .arrive true 1 0,
        .arrive false 2 0, .arrive true 2 0, .tick false now, .deliver true 0, .deliver true 0, .hear true 1, .hear false 2] with
      | none => false
      | some s => s.made.all (fun e => !s.open_ false e && !s.open_ true e)) = true := by
    intro now a b
    have : now = 10 ∨ now = 11 ∨ now = 12 ∨ now = 13 ∨ now = 14 ∨ now = 15 ∨ now = 16 ∨ now = 17 ∨ now = 18 ∨ now = 19 := by
      omega
    rcases this with rfl | rfl | rfl | rfl | rfl | rfl | rfl | rfl | rfl | rfl <;> decide +kernel
  have h := hc now h1 h2
  clear hc
  split at h
  · cases h
  · next s hs =>
    refine ⟨s, hs, ?_⟩
    intro e he
    have := List.all_eq_true.1 h e he
    simpa using this

/-- C128 fails, third case: the network closes the only circuit, the peer connects anew at once, and the notice that it
had left is acted on after that: the new circuit is closed. -/
theorem C128_reconnect_counterexample (r : Bool) (c d : Cid) (hcd : c ≠ d) (x : Bool) :
    ∃ s, run { replicas := r } [.create c, .arrive x c 0, .lost x c, .gone x c, .create d, .arrive x d 1, .peerLeft x] = some s ∧
      s.open_ x d = false ∧ (s.side x).cur = none := by
  have hdc : d ≠ c := Ne.symm hcd
  refine ⟨_, by
    simp [run, step, Sys.setSide, arrive, upd, hdc, Sys.shut, cleanup]
    rfl, ?_, ?_⟩
  · simp [upd]
  · simp [upd]

/-- The same in any state: whichever circuit is in use when a notice is acted on is closed, and no other one, whether or not
the notice was about it. -/
theorem C128_late_notice_counterexample (s : Sys) (x : Bool) (c : Cid) (hl : (s.side x).left ≠ 0) (hc : (s.side x).cur = some c) :
    ∃ t, step s (.peerLeft x) = some t ∧ t.open_ x c = false ∧ (t.side x).cur = none ∧
      ∀ d, d ≠ c → t.open_ x d = s.open_ x d := by
  refine ⟨_, by simp only [step, if_neg hl, hc]; rfl, ?_, ?_, ?_⟩
  · simp [Sys.setSide, Sys.shut, upd]
  · simp [Sys.setSide, upd]
  · intro d hd
    simp [Sys.setSide, Sys.shut, upd, hd]

/-! ## C129 -/

/-- C129, of the node that is asked: whatever has happened, when a request makes a node close its end of a circuit, then
that request has come over this circuit, and the same one over another, smaller, circuit; the other node had sent both;
the other circuit is kept, and is the one that is used from then on. Missing: the node that does the checking
closes circuits without any of this, see `C129_closing_loop_counterexample`. -/
theorem C129_closed_on_evidence_partial (r : Bool) (l : List Action) (s t : Sys) (x : Bool) (k : Nat) (c : Cid)
    (hs : run { replicas := r } l = some s) (ht : step s (.deliver x k) = some t)
    (hb : s.open_ x c = true) (ha : t.open_ x c = false) :
    ∃ keeper nonce, keeper < c ∧
      (⟨c, c, keeper, nonce⟩ : Pkt) ∈ t.got x ∧ (⟨keeper, c, keeper, nonce⟩ : Pkt) ∈ t.got x ∧
      (⟨c, c, keeper, nonce⟩ : Pkt) ∈ s.sent x ∧ (⟨keeper, c, keeper, nonce⟩ : Pkt) ∈ s.sent x ∧
      keeper ∈ (t.side x).audit ∧ (t.side x).cur = some keeper ∧ t.open_ x keeper = s.open_ x keeper := by
  have h := (einv_init r).run hs
  simp only [step] at ht
  split at ht
  · cases ht
  · next p hp =>
    have h1 := h.receive hp
    have hp1 : p ∈ upd s.got x (p :: s.got x) x := by rw [upd_same]; exact List.mem_cons_self
    have hnon := handle_non h1 hp1
    have hlow := h1.low x p (h1.got x p hp1)
    have hne : p.keeper ≠ p.victim := Nat.ne_of_lt hlow.2
    have hsent : ∀ q ∈ upd s.got x (p :: s.got x) x, q ∈ s.sent x := fun q hq => h1.got x q hq
    rcases handle_cases ht with rfl | ⟨hk, hv, hon, rfl | ⟨hn, rfl⟩⟩
    · rw [hb] at ha; cases ha
    · replace ha : s.open_ x c = false := ha
      rw [hb] at ha; cases ha
    · have hcv : c = p.victim := by
        refine Decidable.byContradiction fun e => ?_
        replace ha : (Sys.shut { s with wire := upd s.wire x ((s.wire x).eraseIdx k), got := upd s.got x (p :: s.got x) }
          x p.victim).open_ x c = false := ha
        rw [shut_open, if_neg (fun h => e h.2)] at ha
        replace ha : s.open_ x c = false := ha
        rw [hb] at ha; cases ha
      obtain ⟨q, hq, hqo, hqn⟩ := hnon _ _ hn
      have hu := h1.uniq x x p (h1.got x p hp1) q (h1.got x q hq) hqn.symm
      have hpe : p = ⟨p.on, p.victim, p.keeper, p.nonce⟩ := rfl
      have hqe : q = ⟨if p.on = p.victim then p.keeper else p.victim, p.victim, p.keeper, p.nonce⟩ := by
        rw [← hqo, hu.1, hu.2, ← hqn]
      have both : (⟨c, c, p.keeper, p.nonce⟩ : Pkt) ∈ upd s.got x (p :: s.got x) x ∧
          (⟨p.keeper, c, p.keeper, p.nonce⟩ : Pkt) ∈ upd s.got x (p :: s.got x) x := by
        rw [hcv]
        rcases hon with e | e
        · rw [if_pos e] at hqe
          rw [e] at hpe
          exact ⟨hpe ▸ hp1, hqe ▸ hq⟩
        · rw [if_neg (by rw [e]; exact hne)] at hqe
          rw [e] at hpe
          exact ⟨hqe ▸ hq, hpe ▸ hp1⟩
      refine ⟨p.keeper, p.nonce, by rw [hcv]; exact hlow.2, both.1, both.2, hsent _ both.1, hsent _ both.2, ?_, ?_, ?_⟩
      · show p.keeper ∈ (upd s.side x _ x).audit
        rw [upd_same]
        exact List.mem_filter.2 ⟨hk, by simpa using hne⟩
      · show (upd s.side x _ x).cur = _
        rw [upd_same]
      · show (Sys.shut { s with wire := upd s.wire x ((s.wire x).eraseIdx k), got := upd s.got x (p :: s.got x) }
          x p.victim).open_ x p.keeper = _
        rw [shut_open, if_neg (fun h => hne h.2)]

/-- Before the second copy of the request for 8 comes in. -/
def evidenceRun : List Action :=
  [.create 3, .create 8, .arrive false 3 0, .arrive false 8 0, .arrive true 8 0, .arrive true 3 0, .check false 10, .deliver true 1]

example : (run {} evidenceRun).map (fun s => (s.open_ true 8, s.wire true)) = some (true, [⟨8, 8, 3, 0⟩]) ∧
    (run {} (evidenceRun ++ [.deliver true 0])).map (fun s => (s.open_ true 8, s.got true, (s.side true).cur)) =
      some (false, [⟨8, 8, 3, 0⟩, ⟨3, 8, 3, 0⟩], some 3) := by
  constructor <;> decide +kernel

/-- C129, of the node that asks: a request is sent only in a periodic check, not between replicas, over circuits that are
both open at the sender, for a circuit it has known as a duplicate for ten seconds, in favour of the smallest one it knows. -/
theorem C129_asked_only_when_due_partial (s t : Sys) (a : Action) (y : Bool) (p : Pkt) (h : step s a = some t)
    (hp : p ∈ t.sent y) (hn : p ∉ s.sent y) :
    ∃ now, (a = .check (!y) now ∨ a = .tick (!y) now) ∧ s.replicas = false ∧
      s.open_ (!y) p.victim = true ∧ s.open_ (!y) p.keeper = true ∧ (p.on = p.victim ∨ p.on = p.keeper) ∧
      p.victim ∈ (s.side (!y)).dups ∧ p.keeper ∈ (s.side (!y)).dups ∧ p.keeper ≠ p.victim ∧
      (∀ c ∈ (s.side (!y)).dups, p.keeper ≤ c) ∧ (s.side (!y)).seen p.victim + 10 ≤ now := by
  rcases step_sent h hp with h | ⟨now, ha, hd⟩
  · exact absurd h hn
  · exact ⟨now, ha, hd.client, hd.openV, hd.openK, hd.on, hd.victim, hd.keeper, Nat.ne_of_lt hd.other, hd.lowest, hd.old⟩

/-- The time noted for a duplicate is that of the event which made it one: a circuit came while another one was known, and
it is one of these two. -/
theorem C129_duplicate_since (r : Bool) (l : List Action) (s : Sys) (x : Bool) (c : Cid)
    (hs : run { replicas := r } l = some s) (hc : c ∈ (s.side x).dups) :
    ∃ l1 l2 d u now p, l = l1 ++ .arrive x d now :: l2 ∧ run { replicas := r } l1 = some u ∧
      (u.side x).prior = some p ∧ (c = d ∨ c = p) ∧ (s.side x).seen c = now :=
  dup_since r l s hs x c hc

example : (run {} (evidenceRun.take 6)).map (fun s => ((s.side false).dups, (s.sent true).length)) = some ([8, 3], 0) ∧
    (run {} (evidenceRun.take 7)).map (fun s => (s.sent true)) = some [⟨8, 8, 3, 0⟩, ⟨3, 8, 3, 0⟩] ∧
    (run {} (evidenceRun.take 6 ++ [.check false 9])).map (fun s => (s.sent true)) = some [] := by
  refine ⟨?_, ?_, ?_⟩ <;> decide +kernel

/-- C129 fails: the periodic check closes every circuit the node knows of but the newest, in any state. -/
theorem C129_closing_loop_counterexample (s : Sys) (x : Bool) (now : Nat) (c : Cid) (hc : c ∈ (s.side x).audit)
    (hn : (s.side x).cur ≠ some c) : (tick s x now).open_ x c = false := by
  rw [tick, shuts_open, if_pos]
  exact ⟨rfl, List.mem_filter.2 ⟨hc, by simpa using hn⟩⟩

/-- So it does between two replicas, in the second in which the duplicate appeared, without any request having been sent. -/
theorem C129_closing_loop_reached_counterexample :
    ∃ s, run { replicas := true } (agreedRun.take 4 ++ [.tick false 1]) = some s ∧ s.open_ false 3 = false ∧
      s.sent = (fun _ => []) ∧ s.got = (fun _ => []) := by
  refine ⟨_, rfl, ?_, ?_, ?_⟩
  · decide +kernel
  · rfl
  · rfl

end Verif.Prune
