import Verif.Proofs.FragPool
/-
C111: a new fragment is blank and nobody else's. C113: a kept fragment sent on several circuits.
-/
namespace Verif.FragPool

open Verif.Frag

def circ (id : Nat) (remote : Str) : Circuit :=
  { circuitID := [UInt8.ofNat id]
    localPeerID := [1]
    localPeerName := [10]
    localServiceName := [20]
    localPeerServiceNameVersion := []
    remotePeerID := remote
    remotePeerName := []
    remoteServiceName := 30 :: remote
    remotePeerServiceNameVersion := []
    rpbToNetAddr := []
    lpbFromNetAddr := []
    baseServerName := []
    baseServerAddr := []
    hostname := []
    pid := [] }

/-! ### C111 -/

/-- After any series of calls in which callers use only fragments that are theirs, NewFragment
returns a fragment nobody holds, blank except for name and serial, and the serial is new. -/
theorem C111_new_fragment_partial (ops : List Op) (hd : Disciplined {} ops) (name : Str) :
    (newFragment (run {} ops) name).2 ∉ (run {} ops).held ∧
    ∃ n, n ∉ (run {} ops).issued ∧
      (newFragment (run {} ops) name).1.heap[(newFragment (run {} ops) name).2]? =
        some (blank name n) ∧
      (∀ q ∈ (run {} ops).held, (newFragment (run {} ops) name).1.heap[q]? =
        (run {} ops).heap[q]?) := by
  have h := inv_run inv_init hd
  generalize run {} ops = s at h
  have hfresh : s.last + 1 ∉ s.issued := fun hm => by have := h.serial _ hm; omega
  unfold newFragment
  cases hpool : s.pool with
  | nil =>
    have hb := h.bound
    rw [hpool] at hb
    refine ⟨fun hm => Nat.lt_irrefl _ (hb _ hm), s.last + 1, hfresh, by simp [blank], fun q hq => ?_⟩
    simp only
    rw [List.getElem?_append_left (hb q hq)]
  | cons p rest =>
    have hn := h.nodup
    rw [hpool] at hn
    have hb := h.blank p (by rw [hpool]; simp)
    have hp : p ∉ s.held := by
      intro hm
      simp only [List.cons_append, List.nodup_cons] at hn
      exact hn.1 (List.mem_append_right _ hm)
    refine ⟨hp, s.last + 1, hfresh, ?_, fun q hq => ?_⟩
    · simp only
      rw [List.getElem?_modify]
      simp [hb, blank]
    · simp only
      rw [List.getElem?_modify]
      have : p ≠ q := by rintro rfl; exact hp hq
      simp [this]

/-- Take two, send one, take one (it is the sent one again), fill it, free it, take two. -/
def exOps : List Op :=
  [.new [10], .new [10], .write 0 { payload := [7] }, .send 0 (circ 5 [2]) 0 0 0 (.done none),
    .new [11], .write 0 { payload := [8] }, .free 0, .new [10]]

example : Disciplined {} exOps ∧ (run {} exOps).held = [0, 1] ∧ (run {} exOps).last = 4 := by
  decide

/-- A call of SendOneWay that fails may or may not have taken the fragment, and its result does not
say which: the same error, of a halt or of a cancelled circuit, comes from before and from after. -/
theorem C111_ambiguous_counterexample (s : State) (p : Nat) (hp : p ∈ s.held) (hn : s.held.Nodup)
    (c : Circuit) (now fresh : Int) (e : Err)
    (_he : e = .halt ∨ e = .cktDone) :
    (Outcome.refused e).result = (Outcome.done (some e)).result ∧
    p ∈ (sendOneWay s p c 0 now fresh (.refused e)).held ∧
    p ∉ (sendOneWay s p c 0 now fresh (.done (some e))).held := by
  refine ⟨rfl, hp, ?_⟩
  simp only [sendOneWay, Int.le_refl, if_true, freeFragment]
  exact fun h => (List.Nodup.mem_erase_iff hn).1 h |>.1 rfl

/-- A caller that frees its fragment when the send has failed: afterwards two callers of NewFragment
get the same fragment, and what one of them writes the other sends. -/
theorem C111_double_free_counterexample : ∃ ops s, run {} ops = s ∧
    ops = [.new [10], .write 0 { payload := [7] }, .send 0 (circ 5 [2]) 0 0 0 (.done (some .halt)),
      .free 0, .new [10], .new [10]] ∧ s.held = [0, 0] ∧
    ((step (step s (.write 0 { payload := [8] })) (.send 0 (circ 6 [3]) 1 0 0 (.done none))).sent.map
      (·.jobSerz)) = [[7], [8]] := by
  exact ⟨_, _, rfl, rfl, by decide, by decide⟩

/-- A caller that tries the send again when it has failed sends a blank fragment. -/
theorem C111_retry_counterexample : ∃ ops, ops = [Op.new [10], .write 0 { payload := [7] },
      .send 0 (circ 5 [2]) 0 0 0 (.done (some .halt)), .send 0 (circ 5 [2]) 0 0 0 (.done none)] ∧
    (run {} ops).sent.map (·.jobSerz) = [[7], []] ∧ (run {} ops).pool = [0, 0] :=
  ⟨_, rfl, by decide, by decide⟩

/-! ### C113 -/

/-- A fragment kept for the next send goes out on the next circuit as a fresh one with the same
contents would, if both circuits join services of the same names. -/
theorem C113_resend_partial (c1 c2 : Circuit) (f : Fragment) (now fresh : Int)
    (hl : c1.localServiceName = c2.localServiceName)
    (hlv : c1.localPeerServiceNameVersion = c2.localPeerServiceNameVersion)
    (hr : c1.remoteServiceName = c2.remoteServiceName)
    (hrv : c1.remotePeerServiceNameVersion = c2.remotePeerServiceNameVersion) :
    convertFragmentToMessage now fresh c2 (address c2 (address c1 f)) =
      convertFragmentToMessage now fresh c2 (address c2 f) := by
  have hfill : ∀ a b : Str, fillBlank (fillBlank a b) b = fillBlank a b := by
    intro a b
    unfold fillBlank
    by_cases ha : a = []
    · simp [ha]
    · simp [ha]
  have : address c2 (address c1 f) = address c2 f := by
    simp [address, hl, hlv, hr, hrv, hfill]
  rw [this]

example : (circ 5 [2]).localServiceName = (circ 6 [2]).localServiceName ∧
    (circ 5 [2]).remoteServiceName = (circ 6 [2]).remoteServiceName ∧
    (circ 5 [2]).circuitID ≠ (circ 6 [2]).circuitID := by decide

/-- What identifies circuit and peers is always that of the circuit sent on. -/
theorem C113_identity (c1 c2 : Circuit) (f : Fragment) :
    (address c2 (address c1 f)).circuitID = c2.circuitID ∧
    (address c2 (address c1 f)).fromPeerID = c2.localPeerID ∧
    (address c2 (address c1 f)).toPeerID = c2.remotePeerID ∧
    (address c2 (address c1 f)).toPeerName = c2.remotePeerName ∧
    (address c2 (address c1 f)).payload = f.payload ∧
    (address c2 (address c1 f)).args = f.args ∧
    (address c2 (address c1 f)).serial = f.serial := ⟨rfl, rfl, rfl, rfl, rfl, rfl, rfl⟩

/-- Sent with a keep flag above zero, a fragment stays the caller's and out of the pool, and keeps
everything but its addressing. -/
theorem C113_kept (s : State) (p : Nat) (c : Circuit) (keep now fresh : Int) (o : Outcome)
    (hk : 0 < keep) (f : Fragment) (hf : s.heap[p]? = some f) :
    let s' := sendOneWay s p c keep now fresh o
    s'.pool = s.pool ∧ s'.held = s.held ∧
      ∃ f' : Fragment, s'.heap[p]? = some f' ∧ f'.payload = f.payload ∧ f'.args = f.args ∧
        f'.serial = f.serial ∧ f'.err = f.err ∧ f'.typ = f.typ := by
  have hk' : ¬ keep ≤ 0 := by omega
  have hlt : p < s.heap.length := (List.getElem?_eq_some_iff.1 hf).1
  cases o with
  | refused e => exact ⟨rfl, rfl, f, hf, rfl, rfl, rfl, rfl, rfl⟩
  | done e =>
    simp only [sendOneWay, if_neg hk', hf, Option.getD_some]
    exact ⟨trivial, trivial, address c f, by simp [hlt], rfl, rfl, rfl, rfl, rfl⟩

/-- Without it, and past the check at its top, SendOneWay gives the fragment back to the pool. -/
theorem C113_not_kept (s : State) (p : Nat) (c : Circuit) (keep now fresh : Int) (e : Option Err)
    (hk : keep ≤ 0) :
    (sendOneWay s p c keep now fresh (.done e)).pool = s.pool ++ [p] := by
  simp only [sendOneWay, if_pos hk, freeFragment]

example : (newFragment {} [7]).1.heap[(newFragment {} [7]).2]?.isSome = true := by decide

/-- The service name of the first circuit's remote stays in the fragment: on a circuit to another
service the message names the wrong one. -/
theorem C113_counterexample (c1 c2 : Circuit) (f : Fragment) (now fresh : Int)
    (hf : f.toPeerServiceName = []) (h1 : c1.remoteServiceName ≠ [])
    (hne : c1.remoteServiceName ≠ c2.remoteServiceName) (herr : f.err = []) :
    (convertFragmentToMessage now fresh c2 (address c2 (address c1 f))).toServiceName =
      c1.remoteServiceName ∧
    (convertFragmentToMessage now fresh c2 (address c2 f)).toServiceName = c2.remoteServiceName ∧
    c1.remoteServiceName ≠ c2.remoteServiceName := by
  refine ⟨?_, ?_, hne⟩
  · simp [convertFragmentToMessage, toMessage, address, fillBlank, hf, h1, herr]
  · simp [convertFragmentToMessage, toMessage, address, fillBlank, hf, herr]

example : (circ 5 [2]).remoteServiceName ≠ (circ 6 [3]).remoteServiceName ∧
    (circ 5 [2]).remoteServiceName ≠ [] := by decide

end Verif.FragPool
