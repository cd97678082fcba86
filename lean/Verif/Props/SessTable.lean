import Verif.Proofs.SessTable2
/-
Properties C132 and C133: client sessions are known until they end, and no longer.
-/
namespace Verif.SessTable

/-- C132, the part that holds: without snapshots and restarts, when ids are not used again and the creation times of the sessions of a
client grow, a node knows exactly the sessions of the ledger, with the same ends, and accepts requests accordingly.
Missing: snapshots, and leaders whose clocks are behind, see the counterexamples. -/
theorem C132_known_partial (r : List Action) (hp : ∀ a ∈ r, a.plain = true) (ho : Orderly r) (id now : Nat) :
    (run {} r).known id = (Ledger.run {} r).known id ∧
    verdict (run {} r) id now = (match (Ledger.run {} r).known id with
      | none => .unknown
      | some e => if e.ends ≤ now then .timedOut else .accepted) := by
  have h := (run_refines hp ho).2.2 id
  refine ⟨h, ?_⟩
  rw [← h]
  unfold verdict Node.known
  cases (run {} r).table id <;> rfl

/-- What an action does to the session `id` of `client`, when no time in it is below `from_` or as late as `to`. -/
def Action.mild (id client from_ to : Nat) : Action → Prop
  | .new _ c _ _ hlc => c ≠ client ∧ hlc < to
  | .close i hlc => i ≠ id ∧ hlc < to
  | .use i tm hlc => (i = id → from_ ≤ tm) ∧ hlc < to
  | .other hlc => hlc < to
  | .read i now => i = id → from_ ≤ now
  | .check i now => i = id → now < to
  | .tick => True
  | .snapshot _ => False
  | .restart => False

theorem plain_of_mild {id client f t : Nat} {a : Action} (h : a.mild id client f t) : a.plain = true := by
  cases a <;> first | rfl | exact h.elim

/-- The ledger keeps the session. -/
theorem ledger_keeps {id client dur f : Nat} (r : List Action) : ∀ L : Ledger, L.clock < f + dur →
    (∃ e, L.known id = some e ∧ e.client = client ∧ e.dur = dur ∧ f + dur ≤ e.ends) → (∀ a ∈ r, a.mild id client f (f + dur)) →
    (L.run r).clock < f + dur ∧ ∃ e, (L.run r).known id = some e ∧ e.client = client ∧ e.dur = dur ∧ f + dur ≤ e.ends := by
  induction r with
  | nil => intro L hc he _; exact ⟨hc, he⟩
  | cons a r ih =>
    intro L hc he hm
    have hat : ∀ t, t < f + dur → (L.at_ t).clock < f + dur := fun t ht => by show max L.clock t < _; omega
    have strike : ∀ M : Ledger, M.clock < f + dur → (∃ e, M.known id = some e ∧ e.client = client ∧ e.dur = dur ∧ f + dur ≤ e.ends) →
        M.strike.clock < f + dur ∧ ∃ e, M.strike.known id = some e ∧ e.client = client ∧ e.dur = dur ∧ f + dur ≤ e.ends := by
      rintro M hM ⟨e, h1, h2, h3, h4⟩
      refine ⟨hM, e, ?_, h2, h3, h4⟩
      show (M.known id).filter _ = some e
      rw [h1]
      simp [Option.filter, show M.clock < e.ends by omega]
    have key : (L.step a).clock < f + dur ∧
        ∃ e, (L.step a).known id = some e ∧ e.client = client ∧ e.dur = dur ∧ f + dur ≤ e.ends := by
      have ha := hm a List.mem_cons_self
      obtain ⟨e, h1, h2, h3, h4⟩ := he
      cases a with
      | new i c t d hlc =>
        simp only [Ledger.step]
        split
        · exact strike _ (hat hlc ha.2) ⟨e, h1, h2, h3, h4⟩
        · next hk =>
          refine strike _ (hat hlc ha.2) ⟨e, ?_, h2, h3, h4⟩
          have hne : id ≠ i := fun h => hk (by rw [← h, h1]; rfl)
          show (if id = i then _ else (L.known id).filter _) = some e
          rw [if_neg hne, h1]
          simp [Option.filter, h2, Ne.symm ha.1]
      | close i hlc =>
        refine strike _ (hat hlc ha.2) ⟨e, ?_, h2, h3, h4⟩
        show (if id = i then none else L.known id) = some e
        rw [if_neg (Ne.symm ha.1), h1]
      | use i tm hlc =>
        simp only [Ledger.step]
        split
        · by_cases hi : id = i
          · subst hi
            refine strike _ (hat hlc ha.2) ⟨{ e with ends := tm + e.dur }, ?_, h2, h3, ?_⟩
            · show (if id = id then (L.known id).map _ else L.known id) = _
              rw [if_pos rfl, h1]; rfl
            · show f + dur ≤ tm + e.dur
              have := ha.1 rfl
              omega
          · refine strike _ (hat hlc ha.2) ⟨e, ?_, h2, h3, h4⟩
            show (if id = i then _ else L.known id) = _
            rw [if_neg hi, h1]
        · exact ⟨hat hlc ha.2, e, h1, h2, h3, h4⟩
      | other hlc => exact strike _ (hat hlc ha) ⟨e, h1, h2, h3, h4⟩
      | read i now =>
        refine ⟨hc, ?_⟩
        by_cases hi : id = i
        · subst hi
          refine ⟨{ e with ends := now + e.dur }, ?_, h2, h3, ?_⟩
          · show (if id = id then (L.known id).map _ else L.known id) = _
            rw [if_pos rfl, h1]; rfl
          · show f + dur ≤ now + e.dur
            have := ha rfl
            omega
        · refine ⟨e, ?_, h2, h3, h4⟩
          show (if id = i then _ else L.known id) = _
          rw [if_neg hi, h1]
      | check i now =>
        simp only [Ledger.step]
        cases hk : L.known i with
        | none => exact ⟨hc, e, h1, h2, h3, h4⟩
        | some e' =>
          simp only
          by_cases hi : id = i
          · subst hi
            rw [h1] at hk
            cases hk
            have := ha rfl
            rw [if_neg (by omega)]
            exact ⟨hc, e, h1, h2, h3, h4⟩
          · split
            · refine ⟨hc, e, ?_, h2, h3, h4⟩
              show (if id = i then none else L.known id) = some e
              rw [if_neg hi, h1]
            · exact ⟨hc, e, h1, h2, h3, h4⟩
      | tick => exact strike L hc ⟨e, h1, h2, h3, h4⟩
      | snapshot _ => exact ha.elim
      | restart => exact ha.elim
    exact ih _ key.1 key.2 (fun b hb => hm b (List.mem_cons_of_mem _ hb))

/-- C132 said without the ledger: after a session was created at `t0` for `dur`, as long as nothing closes it or replaces it, each
request in it that has been seen carries a time of `from_` or later, and no time has reached `from_` plus `dur`, the session is known,
its end is not before that, and a request then is accepted. -/
theorem C132_stays_partial (r1 r2 : List Action) (id client t0 dur hlc from_ : Nat) (h1 : ∀ a ∈ r1, a.plain = true)
    (ho : Orderly (r1 ++ .new id client t0 dur hlc :: r2)) (hf : from_ ≤ t0) (hh : hlc < from_ + dur)
    (hc : (run {} r1).lhlc < from_ + dur) (h2 : ∀ a ∈ r2, a.mild id client from_ (from_ + dur)) (now : Nat) (hn : now < from_ + dur) :
    verdict (run {} (r1 ++ .new id client t0 dur hlc :: r2)) id now = .accepted ∧
    ∃ e, (run {} (r1 ++ .new id client t0 dur hlc :: r2)).known id = some e ∧ e.client = client ∧ from_ + dur ≤ e.ends := by
  have hp : ∀ a ∈ r1 ++ .new id client t0 dur hlc :: r2, a.plain = true := by
    intro a ha
    rcases List.mem_append.1 ha with ha | ha
    · exact h1 a ha
    · rcases List.mem_cons.1 ha with rfl | ha
      · rfl
      · exact plain_of_mild (h2 a ha)
  have key := C132_known_partial _ hp ho id now
  suffices ∃ e, (Ledger.run {} (r1 ++ .new id client t0 dur hlc :: r2)).known id = some e ∧ e.client = client ∧ e.dur = dur ∧
      from_ + dur ≤ e.ends by
    obtain ⟨e, k1, k2, _, k4⟩ := this
    rw [k1] at key
    refine ⟨?_, e, key.1, k2, k4⟩
    rw [key.2]
    show (if e.ends ≤ now then _ else _) = _
    rw [if_neg (by omega)]
  have hor1 : Orderly r1 := by
    clear h1 hc h2 hp key
    induction r1 with
    | nil => trivial
    | cons a r1 ih =>
      refine ⟨?_, ih ho.2⟩
      have := ho.1
      cases a <;> try trivial
      intro i c t hm
      exact this i c t (hm.mono (fun b hb => List.mem_append_left _ hb))
  have href := run_refines h1 hor1
  have hor := orderly_snoc ho
  rw [show Ledger.run {} (r1 ++ .new id client t0 dur hlc :: r2) =
    Ledger.run (Ledger.step (Ledger.run {} r1) (.new id client t0 dur hlc)) r2 by unfold Ledger.run; rw [List.foldl_append]; rfl]
  have hk : (Ledger.run {} r1).known id = none := by
    rw [← href.2.2]
    refine known_none.2 ?_
    cases hs : (run {} r1).table id with
    | none => rfl
    | some p =>
      obtain ⟨i1, i2, _, _⟩ := href.1.tab id p hs
      exact absurd i1 (hor.1 _ _ _ (href.1.made p i2))
  rw [href.2.1] at hc
  have hclock : max (Ledger.run {} r1).clock hlc < t0 + dur := by omega
  refine (ledger_keeps (client := client) r2 _ ?_ ?_ h2).2
  · simp only [Ledger.step, hk, Option.isSome_none, Bool.false_eq_true, if_false]
    show max (Ledger.run {} r1).clock hlc < _
    omega
  · simp only [Ledger.step, hk, Option.isSome_none, Bool.false_eq_true, if_false]
    refine ⟨⟨client, dur, t0 + dur⟩, ?_, rfl, rfl, by show from_ + dur ≤ t0 + dur; omega⟩
    show (if id = id then some (⟨client, dur, t0 + dur⟩ : Rec) else _).filter
      (fun e => decide (max (Ledger.run {} r1).clock hlc < e.ends)) = _
    rw [if_pos rfl]
    simp [Option.filter, hclock]

/-- C132, an entry that creates a session the node knows already, as when the log is replayed: in any state, it does what an entry without
a session does, so that neither the end nor anything else of the session changes by it. -/
theorem C132_created_once_partial (r : List Action) (id client t0 dur hlc : Nat) (h : (run {} r).known id ≠ none) :
    run {} (r ++ [.new id client t0 dur hlc]) = run {} (r ++ [.other hlc]) := by
  have e : ∀ a, run {} (r ++ [a]) = step (run {} r) a := fun a => by unfold run; rw [List.foldl_append]; rfl
  rw [e, e]
  cases hs : (run {} r).table id with
  | none => exact absurd (known_none.2 hs) h
  | some p => simp only [step, applyNew, reach, hs]

/-- Its hypothesis is met after a restart, when the log is replayed; the session keeps its end of 18. -/
example : (run {} [.new 1 7 0 10 1, .use 1 8 9, .restart]).known 1 ≠ none ∧
    (run {} [.new 1 7 0 10 1, .use 1 8 9, .restart, .new 1 7 0 10 1]).known 1 = some ⟨7, 10, 18⟩ := by
  decide +kernel

/-- Sessions of two clients, one of them renewed, one replaced, one run out. -/
def sampleRun : List Action :=
  [.new 1 7 0 10 1, .new 2 8 2 10 2, .use 1 8 9, .read 1 12, .new 3 8 13 10 14, .check 3 15, .use 2 15 16, .other 20]

example : (∀ a ∈ sampleRun, a.plain = true) ∧ Orderly sampleRun ∧
    ([1, 2, 3].map (run {} sampleRun).known = [some ⟨7, 10, 22⟩, none, some ⟨8, 10, 23⟩]) := by
  refine ⟨by decide +kernel, ?_, by decide +kernel⟩
  simp [sampleRun, Orderly, Made]
  constructor <;> intros <;> omega

/-- The hypotheses of `C132_stays_partial` can be met. -/
example : (∀ a ∈ [Action.use 1 8 9, .new 3 8 5 10 6, .read 1 9, .tick, .close 4 9, .check 1 11], a.mild 1 7 2 12) ∧
    Orderly ([.new 2 8 2 10 2] ++ .new 1 7 2 10 3 :: [Action.use 1 8 9, .new 3 8 5 10 6, .read 1 9, .tick, .close 4 9, .check 1 11]) := by
  constructor
  · simp [Action.mild]
  · simp [Orderly, Made]
    constructor <;> intros <;> omega

/-- C132 fails, first case: a snapshot that contains a session the node knows already, which is the normal case, removes it. -/
theorem C132_snapshot_drops_counterexample (id client t0 dur hlc x : Nat) (h : hlc < t0 + dur) :
    (run {} [.new id client t0 dur hlc]).known id = some ⟨client, dur, t0 + dur⟩ ∧
    ∀ now, verdict (run {} [.new id client t0 dur hlc, .snapshot [⟨id, client, t0, dur, x⟩]]) id now = .unknown := by
  constructor
  · simp [run, step, reach, applyNew, updateNames, nameOne, upd, treeAdd, gc, Node.known, Nat.not_le.2 h]
  · intro now
    simp [run, step, reach, applyNew, updateNames, nameOne, upd, treeAdd, gc, install, verdict, dropOne, Nat.not_le.2 h, List.range,
      List.range.loop]

/-- Second case: a session that is new to the node comes without its end, so that the first request in it is rejected at any time. -/
theorem C132_snapshot_ends_counterexample (id client t0 dur x now : Nat) :
    verdict (run {} [.snapshot [⟨id, client, t0, dur, x⟩]]) id now = .timedOut := by
  simp [run, step, install, updateNames, nameOne, upd, verdict, List.range, List.range.loop]

/-- Third case: the session was created by a leader whose clock is not ahead of that of the leader which created the client's last one. It
is gone as soon as it is applied, while the client is told that it exists. -/
theorem C132_clock_behind_counterexample (id id' client t0 t0' dur hlc hlc' : Nat) (hid : id' ≠ id) (ht : t0' ≤ t0)
    (h : hlc < t0 + dur) (h' : hlc' < t0 + dur) :
    (run {} [.new id client t0 dur hlc, .new id' client t0' dur hlc']).known id' = none := by
  have hm : ¬ t0 + dur ≤ max hlc hlc' := by omega
  have e1 : run {} [.new id client t0 dur hlc, .new id' client t0' dur hlc'] =
      step (run {} [.new id client t0 dur hlc]) (.new id' client t0' dur hlc') := rfl
  have e2 : run {} [.new id client t0 dur hlc] =
      { heap := upd (fun _ => ⟨0, 0, 0, 0, 0⟩) 0 ⟨id, client, t0, dur, t0 + dur⟩, next := 1, table := upd (fun _ => none) id (some 0),
        byName := upd (fun _ => none) client (some 0), tree := [0], lhlc := hlc } := by
    simp [run, step, reach, applyNew, updateNames, nameOne, upd, treeAdd, gc, Nat.not_le.2 h]
  rw [e1, e2]
  simp only [step]
  have hheap : ∀ s : Node, (gc s).known id' = none ↔ (gc s).table id' = none := fun s => known_none
  rw [hheap]
  have hgc : ∀ s : Node, s.table id' = none → (gc s).table id' = none := by
    intro s hs
    have := (gcFold (s.tree.takeWhile (fun p => decide ((s.heap p).endx ≤ s.lhlc)))
      { s with tree := s.tree.drop (s.tree.takeWhile (fun p => decide ((s.heap p).endx ≤ s.lhlc))).length }).2.2.2.2.1 id'
    change (gc s).table id' = _ at this
    rw [this]
    split
    · rfl
    · exact hs
  refine hgc _ ?_
  simp [reach, applyNew, updateNames, nameOne, upd, hid, ht, dropOne]

/-- Fourth case: a read at 9 gives the session until 19; a write that was logged at 5 and is applied after that takes it back to 15. -/
theorem C132_end_moves_back_counterexample :
    verdict (run {} [.new 1 7 0 10 0, .read 1 9]) 1 18 = .accepted ∧
    verdict (run {} [.new 1 7 0 10 0, .read 1 9, .use 1 5 9]) 1 15 = .timedOut ∧
    verdict (run {} [.new 1 7 0 10 0, .read 1 9, .use 1 5 9, .other 15]) 1 15 = .unknown := by
  decide +kernel

/-! ## C133 -/

/-- An entry that is applied without the node finding its session unknown, or the leader's periodic clean-up. -/
def Action.cleans (s : Node) : Action → Prop
  | .new .. => True
  | .close .. => True
  | .use id _ _ => s.known id ≠ none
  | .other _ => True
  | .tick => True
  | _ => False

/-- C133, the part that holds, without snapshots and restarts: after an entry has been applied no session is known that has ended by
then, and there is one session per client at most. Missing: entries of unknown sessions, snapshots and restarts. -/
theorem C133_forgotten_partial (r : List Action) (a : Action) (hp : ∀ b ∈ r ++ [a], b.plain = true) (ho : Orderly (r ++ [a])) :
    (a.cleans (run {} r) → ∀ id e, (run {} (r ++ [a])).known id = some e → (run {} (r ++ [a])).lhlc < e.ends) ∧
    (∀ id id' e e', (run {} (r ++ [a])).known id = some e → (run {} (r ++ [a])).known id' = some e' → e.client = e'.client → id = id') := by
  obtain ⟨I, h⟩ := run_refines hp ho
  have hr : run {} (r ++ [a]) = step (run {} r) a := by unfold run; rw [List.foldl_append]; rfl
  constructor
  · intro hc id e hk
    have hgc : ∃ s l, Inv l s ∧ step (run {} r) a = gc s := by
      have hor : Orderly r := by
        clear hp I h hr hk hc
        induction r with
        | nil => trivial
        | cons b r ih =>
          refine ⟨?_, ih ho.2⟩
          have := ho.1
          cases b <;> try trivial
          intro i c t hm
          exact this i c t (hm.mono (fun b hb => List.mem_append_left _ hb))
      obtain ⟨I0, _⟩ := run_refines (fun b hb => hp b (List.mem_append_left _ hb)) hor
      cases a with
      | new i c t d hlc =>
        have ho' := orderly_snoc ho
        have hn : (run {} r).table i = none := by
          cases hs : (run {} r).table i with
          | none => rfl
          | some p =>
            obtain ⟨i1, i2, _, _⟩ := I0.tab i p hs
            exact absurd i1 (ho'.1 _ _ _ (I0.made p i2))
        exact ⟨_, _, (applyNew_spec (dur := d) (hlc := hlc) (I0.reach hlc) (s := reach (run {} r) hlc) hn ho'.1 ho'.2).1, rfl⟩
      | close i hlc => exact ⟨_, _, (applyEnd_spec (I0.reach hlc) i).1, rfl⟩
      | use i tm hlc =>
        cases hs : (run {} r).table i with
        | none => exact absurd (known_none.2 hs) hc
        | some p => exact ⟨_, _, (refresh_spec (I0.reach hlc) (s := reach (run {} r) hlc) hs tm).1, by simp only [step, hs]⟩
      | other hlc => exact ⟨_, _, I0.reach hlc, rfl⟩
      | tick => exact ⟨_, _, I0, rfl⟩
      | read _ _ => exact hc.elim
      | check _ _ => exact hc.elim
      | snapshot _ => exact hc.elim
      | restart => exact hc.elim
    obtain ⟨s, l, I1, e1⟩ := hgc
    obtain ⟨_, g2, g3⟩ := gc_spec I1
    rw [hr, e1] at hk ⊢
    rw [g3] at hk
    rw [g2]
    have := (Option.filter_eq_some_iff.1 hk).2
    simpa using this
  · intro id id' e e' hk hk' hcl
    unfold Node.known at hk hk'
    cases hs : (run {} (r ++ [a])).table id with
    | none => rw [hs] at hk; cases hk
    | some p =>
      cases hs' : (run {} (r ++ [a])).table id' with
      | none => rw [hs'] at hk'; cases hk'
      | some q =>
        rw [hs] at hk
        rw [hs'] at hk'
        simp only [Option.map_some, Option.some.injEq] at hk hk'
        obtain ⟨i1, _, _, i4⟩ := I.tab id p hs
        obtain ⟨j1, _, _, j4⟩ := I.tab id' q hs'
        have hc : ((run {} (r ++ [a])).heap p).client = ((run {} (r ++ [a])).heap q).client := by
          rw [← hk, ← hk'] at hcl
          exact hcl
        rw [hc, j4] at i4
        cases i4
        rw [← i1, ← j1]

theorem gc_empty (s : Node) (h : s.tree = []) : gc s = s := by
  obtain ⟨_, _, _, _, _, _⟩ := s
  cases h
  rfl

theorem others_keep (s : Node) (h : s.tree = []) (hlcs : List Nat) (id : Nat) :
    (run s (hlcs.map .other)).known id = s.known id := by
  induction hlcs generalizing s with
  | nil => rfl
  | cons t l ih =>
    show (run (gc (reach s t)) (l.map .other)).known id = _
    rw [gc_empty (reach s t) h, ih (reach s t) h]
    rfl

/-- C133 fails after a restart: a session that was there and is not used again is never removed, however far the log goes. -/
theorem C133_restart_counterexample (id client t0 dur hlc : Nat) (h : hlc < t0 + dur) (hlcs : List Nat) :
    (run {} ([.new id client t0 dur hlc, .restart] ++ hlcs.map .other)).known id = some ⟨client, dur, t0 + dur⟩ := by
  have e : run {} ([.new id client t0 dur hlc, .restart] ++ hlcs.map .other) =
      run (step (run {} [.new id client t0 dur hlc]) .restart) (hlcs.map .other) := by
    unfold run; rw [List.foldl_append]; rfl
  rw [e, others_keep _ rfl]
  exact (C132_snapshot_drops_counterexample id client t0 dur hlc 0 h).1

/-- The same for the sessions of a snapshot that were new to the node: they ended at time 0, and stay. -/
theorem C133_snapshot_counterexample (id client t0 dur x : Nat) (hlcs : List Nat) :
    (run {} (.snapshot [⟨id, client, t0, dur, x⟩] :: hlcs.map .other)).known id = some ⟨client, dur, 0⟩ := by
  have e : run {} (.snapshot [⟨id, client, t0, dur, x⟩] :: hlcs.map .other) =
      run (install {} [⟨id, client, t0, dur, x⟩]) (hlcs.map .other) := rfl
  have h : (install {} [⟨id, client, t0, dur, x⟩]).tree = [] := by
    simp [install, updateNames, nameOne, List.range, List.range.loop]
  rw [e, others_keep _ h]
  simp [install, updateNames, nameOne, upd, Node.known, List.range, List.range.loop]

/-- And a client may have two sessions after a restart. -/
theorem C133_two_sessions_counterexample :
    (run {} [.new 1 7 0 10 0, .restart, .new 2 7 1 10 1]).known 1 = some ⟨7, 10, 10⟩ ∧
    (run {} [.new 1 7 0 10 0, .restart, .new 2 7 1 10 1]).known 2 = some ⟨7, 10, 11⟩ := by
  decide +kernel

/-- An entry of an unknown session does not clean up, unlike all others. -/
theorem C133_unknown_session_counterexample :
    (run {} [.new 1 7 0 10 0, .use 2 50 50]).known 1 = some ⟨7, 10, 10⟩ ∧ (run {} [.new 1 7 0 10 0, .use 2 50 50]).lhlc = 50 ∧
    (run {} [.new 1 7 0 10 0, .other 50]).known 1 = none := by
  decide +kernel

end Verif.SessTable
