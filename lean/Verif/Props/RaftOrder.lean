import Verif.Proofs.RaftHistory
import Verif.Props.Raft
import Verif.Props.Lease
/-
C87, C88: operations take effect in the order of time, and nothing takes effect that nobody asked for.
-/
namespace Verif.Raft

/-! ## C87 -/

/-- An entry applied anywhere before a client's request reaches a leader has a smaller position
than the request, if the request is ever applied. Partial: conditions of C20. -/
theorem C87_real_time_order_partial (mem : List Nat) (as bs : List Action) (s s1 s2 : Sys)
    (v : Nat) (cmds : List Nat) (h : run mem {} as = some s)
    (hc : step mem s (.client v cmds) = some s1) (h2 : run mem s1 bs = some s2)
    (c1 : AllSteps FullSend mem {} (as ++ .client v cmds :: bs))
    (c2 : AllSteps OneRecord mem {} (as ++ .client v cmds :: bs))
    (c3 : AllSteps AckOfTerm mem {} (as ++ .client v cmds :: bs))
    (w i : Nat) (e : Entry) (ha : (w, i, e) ∈ s.hist.applied)
    (w' k cmd : Nat) (_hk : cmds[k]? = some cmd)
    (hb : (w', (s.nodes v).log.length + k + 1, ⟨(s.nodes v).term, cmd⟩) ∈ s2.hist.applied) :
    i < (s.nodes v).log.length + k + 1 := by
  refine Classical.byContradiction fun hlt => ?_
  have hr : run mem {} (as ++ .client v cmds :: bs) = some s2 := by
    rw [run_append, h]; simp only [Option.bind_some, run, hc, h2]
  have hl : (s.nodes v).role = .leader := by
    simp only [step] at hc
    split at hc
    · rename_i hx; exact hx.2
    · cases hc
  obtain ⟨I, I2, I3⟩ := inv_run as inv0_init (inv1_init mem) (inv2_init mem) (inv3_init mem)
    (careful_of as {} (allSteps_split as _ h c1) (allSteps_split as _ h c2) (allSteps_split as _ h c3)) h
  obtain ⟨J, J2, J3⟩ := inv_run _ inv0_init (inv1_init mem) (inv2_init mem) (inv3_init mem)
    (careful_of _ {} c1 c2 c3) hr
  have hrun : run mem s (.client v cmds :: bs) = some s2 := by simp only [run, hc, Option.bind_some, h2]
  obtain ⟨t, i0, c, _, h4, h5⟩ := I3.appl w i e ha
  obtain ⟨t', i0', c', _, h4', h5'⟩ := J3.appl w' _ _ hb
  rw [show (s.nodes v).log.length + k + 1 - 1 = (s.nodes v).log.length + k by omega] at h5'
  -- the position was filled before, so the same entry is there
  have hlen : (s.nodes v).log.length + k < (s.hist.lead t).length := by have := c.1.2.1; omega
  have hget := List.getElem?_eq_getElem hlen
  have heq := committed_agree J2 (committed_run _ I hrun c) c' (by omega) (by omega)
    (getElem?_of_prefix (lead_run _ I hrun t) hget) h5'
  -- but then the leader has it already
  have hlo := (I.leadOK t ((s.nodes v).log.length + k) hlen).2
  rw [heq] at hlo
  have := hlo.length_le
  rw [I.leadLog v hl, List.length_take] at this
  omega

/-- `S` is the history of the whole cluster: exactly what has been applied, every replica having
applied a part of it from the beginning. -/
def History (s : Sys) (S : List Entry) : Prop :=
  (∀ i (hi : i < S.length), ∃ w, (w, i + 1, S[i]) ∈ s.hist.applied) ∧
  (∀ w i e, (w, i, e) ∈ s.hist.applied → 1 ≤ i ∧ S[i - 1]? = some e) ∧
  (∀ w, (s.nodes w).applied ≤ S.length ∧
    (s.nodes w).log.take (s.nodes w).applied = S.take (s.nodes w).applied)

/-- There is one history, which only grows; a request takes effect, if at all, at a place behind
everything that had taken effect when it was made. Partial: conditions of C20. -/
theorem C87_linearizable_partial (mem : List Nat) (as bs : List Action) (s s1 s2 : Sys)
    (v : Nat) (cmds : List Nat) (h : run mem {} as = some s)
    (hc : step mem s (.client v cmds) = some s1) (h2 : run mem s1 bs = some s2)
    (c1 : AllSteps FullSend mem {} (as ++ .client v cmds :: bs))
    (c2 : AllSteps OneRecord mem {} (as ++ .client v cmds :: bs))
    (c3 : AllSteps AckOfTerm mem {} (as ++ .client v cmds :: bs)) :
    ∃ S S2, History s S ∧ History s2 S2 ∧ S <+: S2 ∧
      ∀ k cmd, cmds[k]? = some cmd →
        S2[(s.nodes v).log.length + k]? = some ⟨(s.nodes v).term, cmd⟩ →
        S.length ≤ (s.nodes v).log.length + k := by
  have hr : run mem {} (as ++ .client v cmds :: bs) = some s2 := by
    rw [run_append, h]; simp only [Option.bind_some, run, hc, h2]
  have hrun : run mem s (.client v cmds :: bs) = some s2 := by simp only [run, hc, Option.bind_some, h2]
  have H := HInv.run as (hinv_init mem) h (allSteps_split as _ h c1) (allSteps_split as _ h c2)
    (allSteps_split as _ h c3)
  have H2 := HInv.run _ (hinv_init mem) hr c1 c2 c3
  obtain ⟨S, hS⟩ := one_history H
  obtain ⟨S2, hS2⟩ := one_history H2
  refine ⟨S, S2, hS, hS2, ?_, fun k cmd hk hp => ?_⟩
  · rw [List.prefix_iff_getElem?]
    intro i hi
    obtain ⟨w, hw⟩ := hS.1 i hi
    exact (hS2.2.1 _ _ _ (applied_run _ hrun _ hw)).2
  · by_cases hz : S.length = 0
    · omega
    · obtain ⟨w, hw⟩ := hS.1 (S.length - 1) (by omega)
      obtain ⟨w', hw'⟩ := hS2.1 _ (List.getElem?_eq_some_iff.1 hp).1
      rw [(List.getElem?_eq_some_iff.1 hp).2] at hw'
      have := C87_real_time_order_partial mem as bs s s1 s2 v cmds h hc h2 c1 c2 c3 _ _ _ hw w' k cmd hk hw'
      omega

open Lease in
/-- A local read is answered from the whole history. Partial: conditions of C85. -/
theorem C87_local_read_partial {c : Cfg} {δ eps : Nat} (hm : Lease.Mono c) (hd : Drift c eps)
    {as : List (Nat × Act)} {ts : TSys} (h : trun c {} as = some ts)
    (h1 : AllT (fun c => StampSoon c δ) c {} as) (h2 : AllT NoShadow c {} as)
    (h3 : AllT SlowRestart c {} as) (h4 : AllT NoLateAnswer c {} as)
    (h5 : AllT (OnRaft FullSend) c {} as) (h6 : AllT (OnRaft OneRecord) c {} as)
    (h7 : AllT (OnRaft AckOfTerm) c {} as)
    {v t hour u : Nat} {nf : Bool} {order : List (PeerID × Info)} (hhb : δ + eps ≤ 2 * c.hb v)
    (ht : ts.now ≤ t) (hord : order.Perm (ts.loc v).info)
    (hs : canServe c ts v t hour nf order = some u) :
    ∃ S, History ts.sys S ∧ (ts.sys.nodes v).log.take (ts.sys.nodes v).applied = S := by
  obtain ⟨r1, r2⟩ := run_erase as h
  have H := HInv.run _ (hinv_init c.mem) r1 (r2 _ h5) (r2 _ h6) (r2 _ h7)
  obtain ⟨S, hS⟩ := one_history H
  refine ⟨S, hS, ?_⟩
  have hle := (hS.2.2 v).1
  rw [(hS.2.2 v).2]
  apply List.take_of_length_le
  by_cases hz : S.length = 0
  · omega
  · obtain ⟨w, hw⟩ := hS.1 (S.length - 1) (by omega)
    have := (C85_read_latest_partial hm hd h h1 h2 h3 h4 h5 h6 h7 hhb ht hord hs _ _ _ hw).2.1
    omega

/-- 2, elected after 1 applied entry 2, takes a request and gives it position 4, where it is applied. -/
example : sampleRun = sampleRun.take 14 ++ .client 2 [9] :: sampleRun.drop 15 ∧
    (run [1, 2, 3] {} sampleRun).isSome = true ∧
    AllSteps FullSend [1, 2, 3] {} sampleRun ∧ AllSteps OneRecord [1, 2, 3] {} sampleRun ∧
    AllSteps AckOfTerm [1, 2, 3] {} sampleRun ∧
    (1, 2, ⟨1, 7⟩) ∈ (final [1, 2, 3] (sampleRun.take 14)).hist.applied ∧
    ((final [1, 2, 3] (sampleRun.take 14)).nodes 2).log.length = 3 ∧
    ((final [1, 2, 3] (sampleRun.take 14)).nodes 2).term = 2 ∧
    (1, 4, ⟨2, 9⟩) ∈ (final [1, 2, 3] sampleRun).hist.applied := by decide +kernel

/-! ## C88 -/

/-- Every entry applied anywhere was put at its position by a client's request to the leader of
its term, or is the first entry of a new leader. -/
theorem C88_nothing_from_nowhere (mem : List Nat) (as : List Action) (s : Sys)
    (h : run mem {} as = some s) (w i : Nat) (e : Entry) (ha : (w, i, e) ∈ s.hist.applied) :
    ∃ pre a post s0 s1 v, as = pre ++ a :: post ∧ run mem {} pre = some s0 ∧ step mem s0 a = some s1 ∧
      (s1.nodes v).role = .leader ∧ (s1.nodes v).term = e.term ∧ (s1.nodes v).log[i - 1]? = some e ∧
      (s0.nodes v).log.length < i ∧
      ((∃ cmds, a = .client v cmds ∧ (s0.nodes v).role = .leader ∧
          cmds[i - 1 - (s0.nodes v).log.length]? = some e.cmd) ∨
        ((s0.nodes v).role ≠ .leader ∧ i = (s0.nodes v).log.length + 1)) := by
  have O := OInv.run as [] (oinv_init mem) rfl h
  obtain ⟨h1, h2⟩ := O.appl w i e ha
  have := O.org e.term (i - 1) e h2 rfl
  rwa [show i - 1 + 1 = i by omega] at this

/-- Both kinds occur: positions 1 and 3 are first entries, 2 and 4 requests. -/
example : (final [1, 2, 3] sampleRun).hist.applied.filter (fun x => x.1 = 3) =
    [(3, 1, ⟨1, 0⟩), (3, 2, ⟨1, 7⟩), (3, 3, ⟨2, 0⟩), (3, 4, ⟨2, 9⟩)] := by decide +kernel

end Verif.Raft
