import Verif.Proofs.PumpClose
/-
C106-C110: one peer and its circuits, in every interleaving of arrivals, users, timers and shutdown.
-/
namespace Verif.Pump

open Verif.Frag

/-! ### Runs used as examples and as counterexamples -/

/-- Circuits and messages of a peer named [1]. -/
def between (id lpeer remote : Str) : Circuit :=
  { circuitID := id
    localPeerID := lpeer
    localPeerName := []
    localServiceName := []
    localPeerServiceNameVersion := []
    remotePeerID := remote
    remotePeerName := []
    remoteServiceName := []
    remotePeerServiceNameVersion := []
    rpbToNetAddr := []
    lpbFromNetAddr := []
    baseServerName := []
    baseServerAddr := []
    hostname := []
    pid := [] }

def ck (id : Str) (remote : Str) : Circuit := between id [1] remote

def msg (id : Str) (n : Int) : Message := { toPeerID := [1], callID := id, serial := n }

def errMsg (id : Str) (n : Int) : Message :=
  { toPeerID := [1], callID := id, serial := n, typ := callPeerError }

def peer1 : State := { self := [1] }

/-- The state after a run, and the circuit at a place of it. -/
def after (as : List Action) : State := (run peer1 as).getD {}
def cktOf (as : List Action) (c : Nat) : Ckt := ((after as).ckts[c]?).getD { info := between [] [] [] }

theorem getD_some {s : State} {as : List Action} (h : (run s as).isSome = true) :
    run s as = some ((run s as).getD {}) := by
  cases hr : run s as with
  | none => rw [hr] at h; cases h
  | some t => rfl

theorem ckt_some {s : State} {c : Nat} (h : (s.ckts[c]?).isSome = true) :
    s.ckts[c]? = some ((s.ckts[c]?).getD { info := between [] [] [] }) := by
  cases hr : s.ckts[c]? with
  | none => rw [hr] at h; cases h
  | some t => rfl

theorem fresh_peer1 : Fresh peer1 := ⟨rfl, rfl, rfl, rfl, rfl, rfl, rfl, rfl, rfl⟩

/-- Two circuits, three messages of the first around one of the second, one error, and a reader. -/
def exRun : List Action :=
  [.tell (ck [5] [2]), .arrive (msg [5] 1), .arrive (msg [6] 2), .tell (ck [6] [2]), .takeRead, .put,
    .read 0, .takeRead, .put, .arrive (msg [5] 3), .arrive (errMsg [6] 4), .takeErr, .putErr,
    .takeRead, .put]

/-! ### C106 -/

/-- Whatever happens, what a circuit has delivered is a subsequence of what arrived for it: each
fragment is one of them, none twice, in order. -/
theorem C106_in_order (s0 s : State) (as : List Action) (h0 : Fresh s0) (h : run s0 as = some s)
    (c : Nat) (k : Ckt) (hk : s.ckts[c]? = some k) :
    k.delivered.Sublist (sentTo k.id s.arrived) := by
  obtain ⟨used, h1, h2⟩ := (sinv_run (sinv_fresh h0) h).sub
  have h3 := h2 c (rowR k) (by simp [tbl, hk])
  have h4 : k.delivered.Sublist (sentTo k.id used) :=
    (List.sublist_append_left _ _).trans h3
  refine h4.trans ?_
  have : used.Sublist s.arrived := (List.sublist_append_left _ _).trans h1
  exact (this.filter _).map _

example : (run peer1 exRun).isSome = true ∧ (cktOf exRun 0).delivered.length = 2 ∧
    (cktOf exRun 1).delivered.length = 1 := by decide +kernel

/-- Nothing is missing, as long as no two circuits have the same id and neither timer that discards
a fragment fires: what was delivered is what arrived from some moment `n` on, not later than the
opening of the circuit, up to what is still queued; a closed circuit has the first part of that. -/
theorem C106_no_gap_partial (s0 s : State) (as : List Action) (h0 : Fresh s0)
    (h : run s0 as = some s) (hu : UniqueIds s) (hkeep : as.all keeps = true)
    (c : Nat) (k : Ckt) (hk : s.ckts[c]? = some k) :
    ∃ n, n ≤ k.born ∧ k.delivered <+: sentTo k.id (s.arrived.drop n) ∧
      (k.isOpen = true → s.phase = .idle → s.readsIn = [] →
        k.delivered = sentTo k.id (s.arrived.drop n)) := by
  obtain ⟨h1, h2⟩ := inv_fresh h0
  obtain ⟨used, h3, h4⟩ := (inv_run h1 h hu).2 hkeep h2
  obtain ⟨n, hn1, hn2, hp, ho⟩ := h4 c (rowR k) (by simp [tbl, hk])
  refine ⟨n, hn1, ?_, fun hopen hidle hempty => ?_⟩
  · rw [h3, List.drop_append_of_le_length hn2, carries_sentTo.app]
    exact hp.trans (List.prefix_append _ _)
  · have := ho (by simpa [Ckt.isOpen, rowR] using hopen)
    rw [handR_idle hidle, List.append_nil] at this
    rw [h3, hempty, List.append_nil]
    exact this

example : UniqueIds (after exRun) ∧ exRun.all keeps = true ∧ (cktOf exRun 0).isOpen = true ∧
    (after exRun).phase = .idle ∧ (after exRun).readsIn = [] := by
  refine ⟨?_, by decide, by decide +kernel, by decide +kernel, by decide +kernel⟩
  unfold UniqueIds; decide +kernel

/-- The same for errors; no timer discards those. -/
theorem C106_errors_partial (s0 s : State) (as : List Action) (h0 : Fresh s0)
    (h : run s0 as = some s) (hu : UniqueIds s) (c : Nat) (k : Ckt) (hk : s.ckts[c]? = some k) :
    ∃ n, n ≤ k.bornErr ∧ k.deliveredErr <+: errorsTo k.id (s.arrivedErr.drop n) ∧
      (k.isOpen = true → s.phase = .idle → s.errorsIn = [] →
        k.deliveredErr = errorsTo k.id (s.arrivedErr.drop n)) := by
  obtain ⟨used, h3, h4⟩ := (inv_run (inv_fresh h0).1 h hu).1.errs
  obtain ⟨n, hn1, hn2, hp, ho⟩ := h4 c (rowE k) (by simp [tbl, hk])
  refine ⟨n, hn1, ?_, fun hopen hidle hempty => ?_⟩
  · rw [h3, List.drop_append_of_le_length hn2, carries_errorsTo.app]
    exact hp.trans (List.prefix_append _ _)
  · have := ho (by simpa [Ckt.isOpen, rowE] using hopen)
    rw [handE_idle hidle, List.append_nil] at this
    rw [h3, hempty, List.append_nil]
    exact this

example : (cktOf exRun 1).deliveredErr.length = 1 := by decide +kernel

/-- Reads of the first circuit is full; while the pump waits with the next fragment three other
circuits are closed, each restarting the two-second timer; then the five-second timer fires. -/
def gap5 : List Action :=
  [.tell (ck [5] [2]), .tell (ck [6] [2]), .tell (ck [7] [2]), .tell (ck [8] [2])] ++
  ((List.range 100).map (fun (i : Nat) => [Action.arrive (msg [5] i), .takeRead, .put])).flatten ++
  [.arrive (msg [5] 100), .takeRead, .reqClose 1 [], .handClose 1, .reqClose 2 [], .handClose 2,
    .reqClose 3 [], .handClose 3, .timeout5, .read 0, .arrive (msg [5] 101), .takeRead, .put]

/-- A fragment is lost although its circuit stays open and later fragments are delivered. -/
theorem C106_timer_counterexample : ∃ as s k, run peer1 as = some s ∧ UniqueIds s ∧
    s.ckts[0]? = some k ∧ k.isOpen = true ∧ s.phase = .idle ∧ s.readsIn = [] ∧
    as.all (fun a => match a with | .drop _ => false | _ => true) = true ∧
    k.born = 0 ∧ (sentTo k.id s.arrived).length = 102 ∧ k.delivered.length = 101 ∧
    (sentTo k.id s.arrived).getLast? = k.delivered.getLast? := by
  refine ⟨gap5, after gap5, cktOf gap5 0, getD_some (by decide +kernel), ?_,
    ckt_some (by decide +kernel), by decide +kernel, by decide +kernel, by decide +kernel,
    by decide +kernel, by decide +kernel, by decide +kernel, by decide +kernel, by decide +kernel⟩
  unfold UniqueIds; decide +kernel

/-- The pump waits at the full Errors of the first circuit; ReadsIn fills with messages of the
second; the next one is dropped; then the reader of the errors comes back. -/
def gapDrop : List Action :=
  [.tell (ck [5] [2]), .tell (ck [6] [2])] ++
  ((List.range 100).map (fun (i : Nat) => [Action.arrive (errMsg [5] i), .takeErr, .putErr])).flatten ++
  [.arrive (errMsg [5] 100), .takeErr] ++
  (List.range 100).map (fun (i : Nat) => Action.arrive (msg [6] i)) ++
  [.drop (msg [6] 100), .readErr 0, .putErr, .takeRead, .put, .arrive (msg [6] 101)] ++
  ((List.range 100).map (fun _ => [Action.read 1, .takeRead, .put])).flatten

theorem C106_drop_counterexample : ∃ as s k, run peer1 as = some s ∧ UniqueIds s ∧
    s.ckts[1]? = some k ∧ k.isOpen = true ∧ s.phase = .idle ∧ s.readsIn = [] ∧
    as.all (fun a => match a with | .timeout5 => false | _ => true) = true ∧
    k.born = 0 ∧ (sentTo k.id s.arrived).length = 102 ∧ k.delivered.length = 101 ∧
    (sentTo k.id s.arrived).getLast? = k.delivered.getLast? := by
  refine ⟨gapDrop, after gapDrop, cktOf gapDrop 1, getD_some (by decide +kernel), ?_,
    ckt_some (by decide +kernel), by decide +kernel, by decide +kernel, by decide +kernel,
    by decide +kernel, by decide +kernel, by decide +kernel, by decide +kernel, by decide +kernel⟩
  unfold UniqueIds; decide +kernel

/-- A message is dropped only when ReadsIn is full. -/
theorem C106_drop_only_when_full (s s' : State) (msg : Message) (h : step s (.drop msg) = some s') :
    cap ≤ s.readsIn.length := by
  simp only [step] at h
  repeat' split at h
  all_goals cases h
  omega

/-! ### C107 -/

/-- Once a circuit is closed it stays closed and nothing more is delivered on it. -/
theorem C107_final (s0 s s' : State) (as bs : List Action) (h0 : Fresh s0)
    (h : run s0 as = some s) (h' : run s bs = some s') (hu : UniqueIds s') (c : Nat) (k : Ckt)
    (hk : s.ckts[c]? = some k) (hc : k.isOpen = false) :
    ∃ k', s'.ckts[c]? = some k' ∧ k'.isOpen = false ∧ k'.delivered = k.delivered ∧
      k'.deliveredErr = k.deliveredErr := by
  have hi := (inv_run (inv_fresh h0).1 h (hu.of_prefix (ids_run h'))).1
  obtain ⟨k', h1, h2, h3⟩ := final_run hi h' hu c k hk (by simpa [Ckt.isOpen] using hc)
  exact ⟨k', h1, by simp [Ckt.isOpen, h2], h3⟩

/-- The reason of the first Close stands: later closes, from either end, do not change it. -/
theorem C107_first_reason (s s' : State) (as : List Action) (h : run s as = some s') (c : Nat)
    (k : Ckt) (hk : s.ckts[c]? = some k) (hc : k.stopReq = true) :
    ∃ k', s'.ckts[c]? = some k' ∧ k'.stopReq = true ∧ k'.reason = k.reason :=
  kept_run h c k hk hc

/-- Two closes of one circuit with different reasons. -/
def exTwice : List Action :=
  [.tell (ck [5] [2]), .reqClose 0 [70], .reqClose 0 [71], .handClose 0]

example : (run peer1 exTwice).isSome = true ∧ (cktOf exTwice 0).reason = [70] := by
  decide +kernel

/-- The remote is told of the close of a circuit at most once, and not before; if it has not been
told, it asked for the close itself. -/
theorem C107_told_once (s0 s : State) (as : List Action) (h0 : Fresh s0)
    (h : run s0 as = some s) (hu : UniqueIds s) (c : Nat) (k : Ckt) (hk : s.ckts[c]? = some k)
    (hid : k.id ≠ []) :
    (k.isOpen = true → toldAbout s k.id = []) ∧ (toldAbout s k.id).length ≤ 1 ∧
    (∀ m ∈ toldAbout s k.id, m.toPeerID = k.info.remotePeerID) ∧
    (k.isOpen = false → toldAbout s k.id = [] →
      ∃ m ∈ s.arrived, m.callID = k.id ∧ m.typ = callPeerEndCircuit) := by
  have ht := ti_run (ti_fresh h0) (inv_fresh h0).1 h hu
  obtain ⟨h1, h2, h3, h4⟩ := ht.told c _ (pairs_get hk) hid
  exact ⟨fun ho => h1 (by simpa [Ckt.isOpen] using ho), h2, h3,
    fun ho => h4 (by simpa [Ckt.isOpen] using ho)⟩

/-- One circuit closed by its user while another fragment is on its way, one by the remote. -/
def exClose : List Action :=
  [.tell (ck [5] [2]), .tell (ck [6] [3]), .arrive (msg [5] 1), .reqClose 0 [], .handClose 0,
    .takeRead, .arrive { toPeerID := [1], callID := [6], typ := callPeerEndCircuit }, .takeRead]

example : (run peer1 exClose).isSome = true ∧ (cktOf exClose 0).isOpen = false ∧
    (cktOf exClose 1).isOpen = false ∧ (toldAbout (after exClose) [5]).length = 1 ∧
    (toldAbout (after exClose) [6]).length = 0 := by decide +kernel

example : UniqueIds (after exClose) := by unfold UniqueIds; decide +kernel

/-- The close without a reason reaches the other end: the message is not taken for an error, and when
the other pump takes it, its end of the circuit is closed and it sends nothing back. -/
theorem C107_remote_closes_partial (k : Ckt) (hr : k.stopReq = false ∨ k.reason = [])
    (s0 t : State) (as : List Action) (h0 : Fresh s0) (h : run s0 as = some t) (hu : UniqueIds t)
    (c : Nat) (e : Ckt) (he : t.ckts[c]? = some e) (hid : e.id = k.id) (hidle : t.phase = .idle)
    (rest : List Message) (hq : t.readsIn = closing k :: rest) :
    isErr (closing k) = false ∧ (closing k).toPeerID = k.info.remotePeerID ∧
    ∃ t' e', step t .takeRead = some t' ∧ t'.ckts[c]? = some e' ∧ e'.isOpen = false ∧
      e'.delivered = e.delivered ∧ t'.out = t.out ∧ t'.phase = .idle ∧
      ∀ d, d ≠ c → t'.ckts[d]? = t.ckts[d]? := by
  have hty : (closing k).typ = callPeerEndCircuit := by
    have h1 : (if k.stopReq then k.reason else []) = [] := by
      rcases hr with h | h
      · rw [h]; rfl
      · rw [h]; exact ite_self _
    simp only [closing, h1, convertFragmentToMessage, toMessage]
    rfl
  refine ⟨by simp [isErr, hty, callPeerEndCircuit, callError, callPeerError], closing_toPeerID k, ?_⟩
  have hv := (inv_run (inv_fresh h0).1 h hu).1.vi
  have hstep : step t .takeRead = some (onRead { t with readsIn := rest } (closing k)) := by
    simp [step, hidle, hq]
  have hne : (closing k).typ ≠ callPeerFromIsShutdown := by rw [hty]; decide
  have hread : onRead { t with readsIn := rest } (closing k) =
      cleanup { t with readsIn := rest } c false ∨
      (e.canc = true ∧ onRead { t with readsIn := rest } (closing k) =
        { t with readsIn := rest }) := by
    unfold onRead
    rw [if_neg (fun h => hne h.1), if_neg (fun h => hne h.1)]
    simp only [closing_callID, hty]
    cases hl : lookup t.m k.id with
    | none =>
      right
      refine ⟨?_, rfl⟩
      cases hc : e.canc with
      | true => rfl
      | false => exact absurd hid.symm (hv.ne_of_none hl he hc)
    | some d =>
      left
      have h2 := hv.mem _ _ hl
      have h3 := view_get he
      rw [hid] at h3
      have := hv.same h2 h3
      subst this
      simp
  cases hc : e.canc with
  | true =>
    have hsame : onRead { t with readsIn := rest } (closing k) = { t with readsIn := rest } := by
      rcases hread with h1 | ⟨_, h1⟩
      · rw [h1]; exact cleanup_closed (s := { t with readsIn := rest }) hv he hc
      · exact h1
    refine ⟨_, e, hstep, ?_, by simp [Ckt.isOpen, hc], rfl, ?_, ?_, ?_⟩
    all_goals rw [hsame]
    · exact he
    · exact hidle
    · exact fun _ _ => rfl
  | false =>
    have hcl : onRead { t with readsIn := rest } (closing k) =
        cleanup { t with readsIn := rest } c false := by
      rcases hread with h1 | ⟨h1, _⟩
      · exact h1
      · rw [hc] at h1; cases h1
    rw [cleanup_open (s := { t with readsIn := rest }) hv he hc] at hcl
    refine ⟨_, e.shut, hstep, ?_, rfl, rfl, ?_, ?_, ?_⟩
    all_goals rw [hcl]
    · simp only; rw [get_set he, if_pos rfl]
    · rfl
    · exact hidle
    · intro d hd
      simp only; rw [get_set he, if_neg (fun h => hd h.symm)]

/-- The far end of circuit [5], asked to close by its user without a reason. -/
def farEnd : Ckt :=
  { info := between [5] [2] [1]
    stopReq := true }

def exRemote : List Action := [.tell (ck [6] [3]), .tell (ck [5] [2]), .arrive (closing farEnd)]

example : farEnd.reason = [] ∧ (run peer1 exRemote).isSome = true ∧
    (cktOf exRemote 1).id = farEnd.id ∧ (cktOf exRemote 1).isOpen = true ∧
    (after exRemote).phase = .idle ∧ (after exRemote).readsIn = [closing farEnd] := by decide +kernel

/-- With a reason the message turns into an error on its way: the other end files it among the
errors, and taking it from there closes nothing. -/
theorem C107_reason_counterexample (k : Ckt) (hs : k.stopReq = true) (hr : k.reason ≠ []) :
    isErr (closing k) = true ∧ (closing k).typ ≠ callPeerEndCircuit ∧
    ∀ (t t' : State) rest, t.errorsIn = closing k :: rest → step t .takeErr = some t' →
      t'.ckts = t.ckts ∧ t'.m = t.m ∧ t'.out = t.out := by
  have hty : (closing k).typ = callPeerError := by
    simp only [closing, hs, if_true, convertFragmentToMessage, toMessage, if_pos hr]
  refine ⟨by simp [isErr, hty], by rw [hty]; decide, fun t t' rest hq h => ?_⟩
  simp only [step, hq] at h
  split at h
  · split at h
    · cases h; exact ⟨rfl, rfl, rfl⟩
    · cases h; exact ⟨rfl, rfl, rfl⟩
  · cases h

/-- Such a run: the peer is told that its remote has closed circuit [5] with a reason, delivers that
as an error, and keeps its end open. -/
def exReason : List Action :=
  [.tell (ck [5] [2]),
    .arrive (closing
      { info := between [5] [2] [1]
        stopReq := true
        reason := [120] }), .takeErr, .putErr, .readErr 0]

example : (run peer1 exReason).isSome = true ∧ (cktOf exReason 0).isOpen = true ∧
    (after exReason).phase = .idle ∧ (after exReason).readsIn = [] ∧
    (after exReason).errorsIn = [] := by decide +kernel

/-! ### C108 -/

/-- OpenCircuitCount is the number of open circuits, when ids are distinct. -/
theorem C108_count_partial (s0 s : State) (as : List Action) (h0 : Fresh s0)
    (h : run s0 as = some s) (hu : UniqueIds s) :
    openCircuitCount s = (s.ckts.filter Ckt.isOpen).length := by
  have hv := (inv_run (inv_fresh h0).1 h hu).1.vi
  rw [openCircuitCount, hv.cnt, view, List.filter_map, List.length_map]
  rfl

example : openCircuitCount (after exRun) = 2 ∧ openCircuitCount (after exClose) = 0 := by
  decide +kernel

/-- Both ends of a circuit at the same peer have one id: the second takes the place of the first. -/
theorem C108_counterexample : ∃ as s, run peer1 as = some s ∧ (s.ckts.filter Ckt.isOpen).length = 2 ∧
    openCircuitCount s = 1 := by
  let as := [Action.tell (ck [5] [1]), .tell (ck [5] [1])]
  exact ⟨as, after as, getD_some (by decide +kernel), by decide +kernel, by decide +kernel⟩

/-! ### C109 -/

/-- A peer without AutoShutdownWhenNoMorePeers, and one that has it but has had no shutdown notice
from another peer, runs until it is asked to stop. -/
theorem C109_only_then (s0 s : State) (as : List Action) (h0 : Fresh s0)
    (h : run s0 as = some s) (hno : .reqStop ∉ as)
    (hauto : s.autoPeers = true → ∀ m ∈ s.arrived, m.typ = callPeerFromIsShutdown →
      m.fromPeerID = s.self) :
    s.stop = false ∧ s.phase ≠ .stopped := by
  have hr := runs_run (sinv_fresh h0) ⟨h0.2.2.2.2.2.2.2.2, by rw [h0.2.2.2.2.1]; exact nofun⟩ hno h hauto
  exact ⟨hr.stop, hr.phase⟩

example : (after exClose).autoPeers = false ∧ (∀ a ∈ exClose, a matches .reqStop → False) ∧
    (after exClose).phase = .idle := by
  refine ⟨by decide +kernel, ?_, by decide +kernel⟩
  simp [exClose]

/-- The notice of the last remote stops a peer that has AutoShutdownWhenNoMorePeers set: all its
circuits are closed. -/
theorem C109_peers_partial (s0 s : State) (as : List Action) (h0 : Fresh s0)
    (h : run s0 as = some s) (hu : UniqueIds s) (hauto : s.autoPeers = true)
    (hidle : s.phase = .idle) (m : Message) (rest : List Message) (hq : s.readsIn = m :: rest)
    (hty : m.typ = callPeerFromIsShutdown) (hfrom : m.fromPeerID ≠ s.self)
    (hlast : ∀ r ∈ s.remotes, r.1 = m.fromPeerID) :
    ∃ s', step s .takeRead = some s' ∧ s'.phase = .stopped ∧ openCircuitCount s' = 0 ∧
      ∀ (c : Nat) k, s'.ckts[c]? = some k → k.isOpen = false := by
  have hv := (inv_run (inv_fresh h0).1 h hu).1.vi
  have hempty : erase s.remotes m.fromPeerID = [] := by
    rw [erase, List.filter_eq_nil_iff]
    intro r hr
    simp [hlast r hr]
  have hx : onRead { s with readsIn := rest } m =
      exitPump { s with readsIn := rest, remotes := erase s.remotes m.fromPeerID } := by
    unfold onRead
    rw [if_pos ⟨hty, hfrom, by simp [hempty], hauto⟩]
  have hstep : step s .takeRead = some (onRead { s with readsIn := rest } m) := by
    simp [step, hidle, hq]
  refine ⟨_, hstep, ?_, ?_, ?_⟩
  · rw [hx]; rfl
  · rw [hx]; rfl
  · intro c k hk
    rw [hx] at hk
    have := (exit_props (s := { s with
      readsIn := rest, remotes := erase s.remotes m.fromPeerID }) hv).2.2.1 c k hk
    simp [Ckt.isOpen, this]

/-- The last notice of peer [2]. -/
def exNotice : List Action :=
  [.tell (ck [5] [2]), newCircuitRemote [9] [2],
    .arrive { toPeerID := [1], fromPeerID := [2], typ := callPeerFromIsShutdown }]

example : (run { peer1 with autoPeers := true } exNotice).isSome = true ∧
    (((run { peer1 with autoPeers := true } exNotice).getD {}).remotes).map (·.1) = [[2]] := by
  decide +kernel

/-- AutoShutdownWhenNoMoreCircuits does nothing: with or without it, no closing of circuits stops the
peer. -/
theorem C109_circuits_counterexample (s0 s : State) (as : List Action) (h0 : Fresh s0)
    (_hflag : s0.autoCkts = true) (hpeers : s0.autoPeers = false) (h : run s0 as = some s)
    (hno : .reqStop ∉ as) : s.stop = false ∧ s.phase ≠ .stopped :=
  C109_only_then s0 s as h0 h hno (fun ha => by
    rw [(grow_run h).autoPeers, hpeers] at ha; cases ha)

example : ((run { peer1 with autoCkts := true } exClose).map openCircuitCount) = some 0 := by
  decide +kernel

/-- A circuit opened by address alone stores its remote under the address; the acknowledgement stores
it again under its id. Its notice removes one of the two, and the peer runs on. -/
theorem C109_peers_counterexample : ∃ as s, run { peer1 with autoPeers := true } as = some s ∧
    as = [.tell (ck [5] []), newCircuitRemote [9] [], .addRemote [2] [2],
      .arrive { toPeerID := [1], fromPeerID := [2], typ := callPeerFromIsShutdown }, .takeRead] ∧
    s.autoPeers = true ∧ s.phase = .idle ∧ s.stop = false ∧ s.readsIn = [] ∧
    s.remotes = [([9], [])] := by
  refine ⟨_, _, getD_some ?_, rfl, ?_⟩ <;> decide +kernel

/-- However the pump ends, it tells every remote it knows. -/
theorem C109_remotes_told (s s' : State) (a : Action) (h : step s a = some s')
    (hp : s.phase ≠ .stopped) (hp' : s'.phase = .stopped) (r : Str × Str) (hr : r ∈ s'.remotes) :
    ∃ m ∈ s'.out, m.typ = callPeerFromIsShutdown ∧ m.fromPeerID = s'.self ∧ m.toPeerID = r.2 :=
  told_step h hp hp' r hr

/-- A peer that knows a remote is asked to stop, and stops. -/
def exStop : List Action := [newCircuitRemote [] [2], .reqStop, .exit]

example : (run peer1 exStop).isSome = true ∧ (after exStop).phase = .stopped ∧
    (after exStop).remotes = [([2], [2])] := by decide +kernel

/-! ### C110 -/

/-- A fragment for a circuit whose Reads is full does not hold the pump: after two seconds at most it
closes that circuit and goes on. -/
theorem C110_reads_partial (s0 s : State) (as : List Action) (h0 : Fresh s0)
    (h : run s0 as = some s) (hu : UniqueIds s) (c : Nat) (f : Fragment) (late : List Nat)
    (hp : s.phase = .reads c f late) :
    ∃ s' k', step s .timeout2 = some s' ∧ s'.phase = .idle ∧ s'.ckts[c]? = some k' ∧
      k'.isOpen = false ∧ s'.readsIn = s.readsIn ∧
      (∀ (d : Nat) e, d ≠ c → d ∉ late → s.ckts[d]? = some e → s'.ckts[d]? = some e) := by
  have hi := (inv_run (inv_fresh h0).1 h hu).1
  have h1 := shut_cleanup c true hi.vi
  have h2 := finish_shut late h1.vi
  have hph := hi.ph
  simp only [PhOk, hp] at hph
  obtain ⟨k, hk, hopen⟩ := hph
  have hlt : c < (cleanup s c true).ckts.length := by
    rw [h1.len]; exact (List.getElem?_eq_some_iff.1 hk).1
  have hk1 := List.getElem?_eq_getElem hlt
  have hcl := cleanup_shuts hi.vi hk1
  obtain ⟨k', hk', hc', -, -⟩ := (finish_final h1.vi late) c _ hk1 hcl
  refine ⟨finish (cleanup s c true) late, k', by simp [step, hp], ?_, hk', by simp [Ckt.isOpen, hc'],
    ?_, ?_⟩
  · exact h2.phase
  · exact h2.readsIn.trans h1.readsIn
  · intro d e hdc hdl he
    have hset : (cleanup s c true).ckts[d]? = s.ckts[d]? := by
      rw [cleanup_open hi.vi hk hopen]
      simp only; rw [get_set hk, if_neg (fun h => hdc h.symm)]
    have key : ∀ (cs : List Nat) (t : State), d ∉ cs → (cleanups t cs).ckts[d]? = t.ckts[d]? := by
      intro cs
      induction cs with
      | nil => intro t _; rfl
      | cons x cs ih =>
        intro t hd
        rw [List.mem_cons, not_or] at hd
        change (cleanups (cleanup t x true) cs).ckts[d]? = _
        rw [ih _ hd.2]
        unfold cleanup
        split
        · rfl
        · rename_i kx hkx
          split
          · rfl
          · simp only; rw [get_set hkx, if_neg (fun h => hd.1 h.symm)]
    have := key late { cleanup s c true with phase := .idle } hdl
    rw [show (finish (cleanup s c true) late).ckts =
      (cleanups { cleanup s c true with phase := .idle } late).ckts from rfl, this]
    exact hset.trans he

example : ∃ c f l, (after ([.tell (ck [5] [2])] ++
    ((List.range 100).map (fun (i : Nat) => [Action.arrive (msg [5] i), .takeRead, .put])).flatten ++
    [.arrive (msg [5] 100), .takeRead])).phase = .reads c f l := by
  exact ⟨0, convertMessageToFragment (msg [5] 100), [], by decide +kernel⟩

/-- An error for a circuit whose Errors is full holds the pump for as long as that circuit's user
neither reads nor closes and nobody stops the peer: nothing is delivered on any circuit. -/
theorem C110_errors_counterexample :
    (∀ (s s' : State) (as : List Action) (c : Nat) (f : Fragment) (k : Ckt),
      s.phase = .errs c f → s.ckts[c]? = some k → cap ≤ k.errors.length → k.stopReq = false →
      s.stop = false → as.all (fun a => !a.frees c) = true → run s as = some s' →
      s'.phase ≠ .idle ∧ s.readsIn.length ≤ s'.readsIn.length ∧
      s'.ckts.map (fun k => (k.delivered, k.deliveredErr)) =
        s.ckts.map (fun k => (k.delivered, k.deliveredErr))) ∧
    (∃ as s c f k, run peer1 as = some s ∧ s.phase = .errs c f ∧ s.ckts[c]? = some k ∧
      cap ≤ k.errors.length ∧ k.stopReq = false ∧ s.stop = false ∧
      s.readsIn = [msg [6] 0] ∧ (lookup s.m [6]).isSome = true) := by
  refine ⟨fun s s' as c f k hp hk hl hst hs ha h => ?_, ?_⟩
  · obtain ⟨h1, h2, h3⟩ := stuck_run ⟨⟨f, hp⟩, ⟨k, hk, hl, hst⟩, hs⟩ ha h
    obtain ⟨g, hg⟩ := h1.ph
    exact ⟨by rw [hg]; exact nofun, h2, h3⟩
  · let as := [.tell (ck [5] [2]), .tell (ck [6] [2])] ++ ((List.range 100).map (fun (i : Nat) =>
        [Action.arrive (errMsg [5] i), .takeErr, .putErr])).flatten ++
      [.arrive (errMsg [5] 100), .takeErr, .arrive (msg [6] 0)]
    exact ⟨as, after as, 0, convertMessageToFragment (errMsg [5] 100), cktOf as 0,
      getD_some (by decide +kernel), by decide +kernel, ckt_some (by decide +kernel),
      by decide +kernel, by decide +kernel, by decide +kernel, by decide +kernel, by decide +kernel⟩

/-- A peer that has shut down still gets messages, and once its queue of errors is full the
connection that brings it one more can neither deliver nor drop it, ever. -/
theorem C110_dead_peer_counterexample :
    (∀ (s s' : State) (as : List Action), s.phase = .stopped → cap ≤ s.errorsIn.length →
      run s as = some s' → ∀ m, isErr m = true →
        step s' (.arrive m) = none ∧ step s' (.drop m) = none) ∧
    (∃ as s, run peer1 as = some s ∧ s.phase = .stopped ∧ cap ≤ s.errorsIn.length) := by
  refine ⟨fun s s' as hp hl h m hm => ?_, ?_⟩
  · obtain ⟨_, h1, _, _⟩ := stopped_run hp h
    constructor
    · simp only [step, hm, if_true]
      rw [if_neg (Nat.not_lt.2 (Nat.le_trans hl h1))]
      exact ite_self _
    · simp only [step, hm, if_true]
      exact ite_self _
  · let as := [.tell (ck [5] [2]), Action.reqStop, .exit] ++
      (List.range 100).map (fun (i : Nat) => Action.arrive (errMsg [5] i))
    exact ⟨as, after as, getD_some (by decide +kernel), by decide +kernel, by decide +kernel⟩

end Verif.Pump
