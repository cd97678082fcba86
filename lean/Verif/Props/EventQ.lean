import Verif.Proofs.EventQ3
/-
Properties C130 and C131: the event queues of the simulated network.
-/
namespace Verif.EventQ

/-- The same requests, whatever their numbers and in whatever order. -/
def SameRequests (es es' : List Ev) : Prop := (es.map erase).Perm (es'.map erase)

/-- When a request is to be seen to: a message when it arrives, a read when it was made, a timer when it ends, as soon as that
is known, and all others when they were handed in. -/
def dueAt (e : Ev) : Nat :=
  if e.kind = .send ∧ e.arrivalTm ≠ 0 then e.arrivalTm
  else if e.kind = .read ∧ e.initTm ≠ 0 then e.initTm
  else if e.kind = .timer ∧ e.unmaskedCompleteTm ≠ 0 then e.completeTm
  else if e.kind = .timerDiscard ∧ e.discardCalled = true then e.initTm
  else e.reqtm

/-- Requests that cannot be told apart but by what the code does not compare: same kind and time, from nodes of the same name
up to a unique suffix (for a new goroutine: its own name), to nodes of the same name, from the same line of the program. -/
structure Twins (a b : Ev) : Prop where
  kind : a.kind = b.kind
  time : dueAt a = dueAt b
  goro : a.kind = .newGoro → chomp a.goroName = chomp b.goroName
  name : a.kind ≠ .newGoro → chomp (a.origin.getD a.earlyName) = chomp (b.origin.getD b.earlyName)
  node : a.origin.isSome = b.origin.isSome
  target : a.target.map chomp = b.target.map chomp
  send : a.kind = .send → a.sendLine = b.sendLine
  read : a.kind = .read → a.readLine = b.readLine
  timer : a.kind = .timer ∨ a.kind = .timerDiscard → a.timerLine = b.timerLine
  line : a.kind ≠ .send → a.kind ≠ .read → a.kind ≠ .timer → a.kind ≠ .timerDiscard → a.where_ = b.where_
  cli : a.originCli = b.originCli

theorem tm_dueAt {e : Ev} {t : Nat} (h : e.tm = some t) : dueAt e = t := by
  unfold Ev.tm at h
  unfold dueAt
  cases hk : e.kind <;> rw [hk] at h <;> simp at h <;> simp <;> revert h <;>
    (repeat' split) <;> simp_all

theorem twins_of_alike {a b : Ev} (hb : b.tm ≠ none) (h : Alike a b) : Twins a b := by
  obtain ⟨h1, h2, h3, h4, h5, h6, h7⟩ := h
  unfold Ev.bestName at h4
  unfold Ev.whence at h6
  rw [h2] at h4 h6
  refine ⟨h2, ?_, ?_, ?_, h3, h5, ?_, ?_, ?_, ?_, h7⟩
  · cases e : b.tm with
    | none => exact absurd e hb
    | some t => rw [tm_dueAt e, tm_dueAt (h1.trans e)]
  · intro e; rw [h2] at e; simpa [e] using h4
  · intro e; rw [h2] at e; simpa [e] using h4
  · intro e; rw [h2] at e; simpa [e] using h6
  · intro e; rw [h2] at e; simpa [e] using h6
  · intro e; rw [h2] at e; rcases e with e | e <;> simpa [e] using h6
  · intro e1 e2 e3 e4
    rw [h2] at e1 e2 e3 e4
    cases hk : b.kind <;> rw [hk] at h6 <;> simp_all

theorem unalike_of_untwins {es : List Ev} (ht : ∀ e ∈ es, e.tm ≠ none) (h : es.Pairwise (fun a b => ¬ Twins a b)) :
    es.Pairwise (fun a b => ¬ Alike a b) := by
  induction es with
  | nil => exact List.Pairwise.nil
  | cons e es ih =>
    have h' := List.pairwise_cons.1 h
    refine List.pairwise_cons.2 ⟨?_, ih (fun f hf => ht f (List.mem_cons_of_mem _ hf)) h'.2⟩
    intro f hf ha
    exact h'.1 f hf (twins_of_alike (ht f (List.mem_cons_of_mem _ hf)) ha)

/-- C130, the part that holds. As long as no two requests agree in time, kind, names up to a unique suffix, and place in the
program, neither the order of submission nor the numbers change the order in which the slice is handled. Missing: requests
that do agree, see the counterexample. -/
theorem C130_slice_partial (rng : Nat → Nat) (now : Nat) {es es' m m' : List Ev} (same : SameRequests es es')
    (sn : es.Pairwise (fun a b => a.sn ≠ b.sn)) (sn' : es'.Pairwise (fun a b => a.sn ≠ b.sn))
    (unlike : es.Pairwise (fun a b => ¬ Twins a b)) (h : submit es [] = some m) (h' : submit es' [] = some m') :
    (slice rng now m).map erase = (slice rng now m').map erase := by
  obtain ⟨rfl, ht⟩ := submit_fold h
  obtain ⟨rfl, _⟩ := submit_fold h'
  exact slice_same rng now same sn sn' (fair_of_not_alike ht (unalike_of_untwins ht unlike))

/-- C130, the same for the order in which the callers go on. -/
theorem C130_release_partial (rng : Nat → Nat) {es es' : List Ev} (same : SameRequests es es')
    (sn : es.Pairwise (fun a b => a.sn ≠ b.sn)) (sn' : es'.Pairwise (fun a b => a.sn ≠ b.sn))
    (unlike : es.Pairwise (fun a b => ¬ Twins a b)) (nobatch : ∀ e ∈ es, e.kind ≠ .batch) :
    (release rng (fill cmpRelease es)).map erase = (release rng (fill cmpRelease es')).map erase := by
  suffices hn : ∀ e ∈ es, e.tm ≠ none from
    release_same rng same sn sn' (fair_of_not_alike hn (unalike_of_untwins hn unlike))
  intro e he ht
  have := nobatch e he
  unfold Ev.tm at ht
  cases hk : e.kind <;> rw [hk] at ht this <;> first | exact this rfl | cases ht

/-- A slice handles what is due and nothing else, each request once: C130 is not met by losing requests. -/
theorem C130_slice_complete (rng : Nat → Nat) (now : Nat) {es m : List Ev} (sn : es.Pairwise (fun a b => a.sn ≠ b.sn))
    (h : submit es [] = some m) :
    ((slice rng now m).map (·.sn)).Perm ((es.filter (fun e => decide (dueAt e ≤ now))).map (·.sn)) := by
  obtain ⟨rfl, ht⟩ := submit_fold h
  have pm := fill_perm keyed_master.swap (distinct_apart keyed_master sn)
  have hd := distinct_perm pm.symm sn
  have srt : Sorted cmpMaster (fill cmpMaster es) := by
    have := runQ_inv keyed_master (all := es) (distinct_numbered sn) (es.map .put) []
      (fun o ho e he => by
        obtain ⟨f, hf, rfl⟩ := List.mem_map.1 ho
        cases he; exact hf) List.Pairwise.nil (fun x hx => by cases hx)
    rw [List.foldl_map] at this
    exact this.1
  have tf : ∀ {l : List Ev}, Sorted cmpMaster l → l.takeWhile (fun e => decide (e.tm.getD 0 ≤ now)) =
      l.filter (fun e => decide (e.tm.getD 0 ≤ now)) := by
    intro l
    induction l with
    | nil => intro _; rfl
    | cons a l ih =>
      intro hl
      have hl' := List.pairwise_cons.1 hl
      by_cases hp : a.tm.getD 0 ≤ now
      · rw [List.takeWhile_cons_of_pos (by simpa using hp), List.filter_cons_of_pos (by simpa using hp), ih hl'.2]
      · rw [List.takeWhile_cons_of_neg (by simpa using hp), List.filter_cons_of_neg (by simpa using hp)]
        refine (List.filter_eq_nil_iff.2 ?_).symm
        intro b hb
        have hlt := hl'.1 b hb
        unfold cmpMaster at hlt
        split at hlt
        · cases hlt
        · have := cmpNat_ne_gt (then_lt hlt)
          simp only [decide_eq_true_eq]
          omega
  unfold slice
  have nm : ∀ (l : List Ev) k, (number rng k l).map (·.sn) = l.map (·.sn) := by
    intro l
    induction l with
    | nil => intro k; rfl
    | cons a l ih => intro k; show a.sn :: _ = a.sn :: _; rw [ih]
  have hsub := (hd.sublist (List.takeWhile_sublist (fun e : Ev => decide (e.tm.getD 0 ≤ now))))
  have hnum := number_pairwise (R := fun a b : Ev => a.sn ≠ b.sn) (fun a b r r' h => h) rng _ 0 hsub
  refine ((fill_perm keyed_slice.swap (distinct_apart keyed_slice hnum)).map _).trans ?_
  rw [nm, tf srt]
  have hf : es.filter (fun e => decide (dueAt e ≤ now)) = es.filter (fun e => decide (e.tm.getD 0 ≤ now)) := by
    refine List.filter_congr fun e he => ?_
    cases ht' : e.tm with
    | none => exact absurd ht' (ht e he)
    | some t => rw [tm_dueAt ht']; rfl
  rw [hf]
  exact (pm.filter _).map _

/-! Examples and the counterexample. Names: 97, 98, 99; "___": 95, 95, 95. -/

def evA : Ev := { sn := 1, kind := .send, reqtm := 5, origin := some [97], target := some [99], sendLine := [1] }
def evB : Ev := { sn := 2, kind := .send, reqtm := 5, origin := some [98], target := some [99], sendLine := [1] }
def evR : Ev := { sn := 3, kind := .read, reqtm := 5, origin := some [99], readLine := [2] }
/-- The same handed in the other way round. -/
def evB' : Ev := { sn := 1, kind := .send, reqtm := 5, origin := some [98], target := some [99], sendLine := [1] }
def evA' : Ev := { sn := 7, kind := .send, reqtm := 5, origin := some [97], target := some [99], sendLine := [1] }

/-- The hypotheses of C130 can be met. -/
example : SameRequests [evA, evB, evR] [evR, evB', evA'] ∧ [evA, evB, evR].Pairwise (fun a b => a.sn ≠ b.sn) ∧
    [evR, evB', evA'].Pairwise (fun a b => a.sn ≠ b.sn) ∧ [evA, evB, evR].Pairwise (fun a b => ¬ Twins a b) ∧
    (submit [evA, evB, evR] []).isSome ∧ (submit [evR, evB', evA'] []).isSome := by
  refine ⟨by unfold SameRequests; decide +kernel, by decide +kernel, by decide +kernel, ?_, by decide +kernel, by decide +kernel⟩
  have h1 : ¬ Twins evA evB := fun h => absurd (h.name (by decide)) (by decide +kernel)
  have h2 : ¬ Twins evA evR := fun h => absurd h.kind (by decide)
  have h3 : ¬ Twins evB evR := fun h => absurd h.kind (by decide)
  simp [h1, h2, h3]

/-- And the order is one that the generator gives. -/
example : ((submit [evR, evB', evA'] []).map (fun m => (slice (fun k => 10 - k) 5 m).map (·.origin))) =
    some [some [99], some [98], some [97]] := by
  decide +kernel

/-- Two servers of one name with different unique suffixes send to the same node from the same line. -/
def twinA : Ev := { sn := 1, kind := .send, reqtm := 5, origin := some [97, 95, 95, 95, 49], target := some [99], sendLine := [1] }
def twinB : Ev := { sn := 2, kind := .send, reqtm := 5, origin := some [97, 95, 95, 95, 50], target := some [99], sendLine := [1] }
def twinB' : Ev := { sn := 1, kind := .send, reqtm := 5, origin := some [97, 95, 95, 95, 50], target := some [99], sendLine := [1] }
def twinA' : Ev := { sn := 2, kind := .send, reqtm := 5, origin := some [97, 95, 95, 95, 49], target := some [99], sendLine := [1] }

/-- C130 does not hold for requests that are alike: the one that was handed in first comes first, so that the order of the
goroutines decides. -/
theorem C130_alike_counterexample : SameRequests [twinA, twinB] [twinB', twinA'] ∧
    ∃ m m', submit [twinA, twinB] [] = some m ∧ submit [twinB', twinA'] [] = some m' ∧
      (slice (fun k => k + 1) 5 m).map (·.origin) ≠ (slice (fun k => k + 1) 5 m').map (·.origin) := by
  refine ⟨?_, [twinA, twinB], [twinB', twinA'], ?_, ?_, ?_⟩
  · unfold SameRequests; decide +kernel
  · decide +kernel
  · decide +kernel
  · decide +kernel

/-! C131 -/

/-- The queues: of sent messages, of reads, of timers, of all events, of one slice, of what can be released. -/
inductive Queue where
  | arrival | init | complete | master | slice | release

def Queue.cmp : Queue → Ev → Ev → Ordering
  | .arrival => cmpArrival
  | .init => cmpInit
  | .complete => cmpComplete
  | .master => cmpMaster
  | .slice => cmpSlice
  | .release => cmpRelease

/-- What the queue goes by. -/
def Queue.rank : Queue → Ev → Nat
  | .arrival, e => e.arrivalTm
  | .init, e => e.initTm
  | .complete, e => e.completeTm
  | .master, e => dueAt e
  | .slice, e => e.pseudorandom
  | .release, e => e.issueBatch

theorem Queue.keyed (k : Queue) : ∃ c, Keyed k.cmp c := by
  cases k
  · exact ⟨_, keyed_arrival⟩
  · exact ⟨_, keyed_init⟩
  · exact ⟨_, keyed_complete⟩
  · exact ⟨_, keyed_master⟩
  · exact ⟨_, keyed_slice⟩
  · exact ⟨_, keyed_release⟩

theorem tm_of_kind {e : Ev} (h : e.kind ≠ .batch) : e.tm = some (dueAt e) := by
  cases ht : e.tm with
  | none =>
    unfold Ev.tm at ht
    cases hk : e.kind <;> rw [hk] at ht h <;> first | exact absurd rfl h | cases ht
  | some t => rw [tm_dueAt ht]

theorem Queue.rank_le (k : Queue) {a b : Ev} (ha : a.kind ≠ .batch) (hb : b.kind ≠ .batch) (h : k.cmp a b = .lt) :
    k.rank a ≤ k.rank b := by
  have hm : cmpTm a b = cmpNat (dueAt a) (dueAt b) := by unfold cmpTm; rw [tm_of_kind ha, tm_of_kind hb]; rfl
  cases k <;> (
    simp only [Queue.cmp, cmpArrival, cmpInit, cmpComplete, cmpMaster, cmpSlice, cmpRelease, hm] at h
    split at h
    · cases h
    · exact cmpNat_ne_gt (then_lt h))

/-- C131: the comparisons are orders. No two requests with different numbers are equal, a before b means b after a, and
before is transitive. -/
theorem C131_order (k : Queue) (a b d : Ev) :
    (k.cmp a b = .eq ↔ a.sn = b.sn) ∧ (k.cmp a b = .lt ↔ k.cmp b a = .gt) ∧
    ((a.sn = d.sn → a = d) → k.cmp a b = .lt → k.cmp b d = .lt → k.cmp a d = .lt) ∧
    (a.kind ≠ .batch → b.kind ≠ .batch → k.rank a < k.rank b → a.sn ≠ b.sn → k.cmp a b = .lt) := by
  obtain ⟨c, K⟩ := k.keyed
  refine ⟨K.eq_iff a b, (K.gt_iff b a).symm, fun h => K.trans h, ?_⟩
  intro ha hb hr hs
  cases h : k.cmp a b
  · rfl
  · exact absurd ((K.eq_iff a b).1 h) hs
  · have := k.rank_le hb ha ((K.gt_iff a b).1 h)
    omega

/-- What a queue must do: a set of requests from which the first comes out. -/
def SetStep (rank : Ev → Nat) (S : Ev → Prop) (o : Op) (r : Option Ev) (S' : Ev → Prop) : Prop :=
  match o with
  | .put e => r = none ∧ ∀ x, S' x ↔ x = e ∨ S x
  | .pop => match r with
    | none => (∀ x, ¬ S x) ∧ ∀ x, ¬ S' x
    | some m => S m ∧ m.tm ≠ none ∧ (∀ x, S x → rank m ≤ rank x) ∧ ∀ x, S' x ↔ S x ∧ x ≠ m
  | .del e => (S e → r = some e) ∧ (¬ S e → r = none) ∧ ∀ x, S' x ↔ S x ∧ x ≠ e

/-- C131, the part that holds: after any operations on a queue, for all kinds of requests but batches, the next one does what it
does on a set. Missing: batches, see the counterexample. -/
theorem C131_queue_partial (k : Queue) (ops : List Op) (o : Op)
    (sn : ∀ p ∈ o :: ops, ∀ p' ∈ o :: ops, ∀ a b, p.ev = some a → p'.ev = some b → a.sn = b.sn → a = b)
    (nobatch : ∀ p ∈ ops, ∀ a, p.ev = some a → a.kind ≠ .batch) :
    (runQ k.cmp ops).Nodup ∧ (stepQ k.cmp (runQ k.cmp ops) o).1.Nodup ∧
    SetStep k.rank (fun x => x ∈ runQ k.cmp ops) o (stepQ k.cmp (runQ k.cmp ops) o).2
      (fun x => x ∈ (stepQ k.cmp (runQ k.cmp ops) o).1) := by
  obtain ⟨c, K⟩ := k.keyed
  have hn : Numbered ((o :: ops).filterMap Op.ev) := by
    intro a ha b hb
    obtain ⟨p, hp, ea⟩ := List.mem_filterMap.1 ha
    obtain ⟨p', hp', eb⟩ := List.mem_filterMap.1 hb
    exact sn p hp p' hp' a b ea eb
  have hsub : ∀ x ∈ ops.filterMap Op.ev, x ∈ (o :: ops).filterMap Op.ev := fun x hx => by
    obtain ⟨p, hp, e⟩ := List.mem_filterMap.1 hx
    exact List.mem_filterMap.2 ⟨p, List.mem_cons_of_mem _ hp, e⟩
  have inv := runQ_inv K (numbered_mono hsub hn) ops [] (fun p hp e he => List.mem_filterMap.2 ⟨p, hp, he⟩) List.Pairwise.nil
    (fun x hx => by cases hx)
  change Sorted k.cmp (runQ k.cmp ops) ∧ ∀ x ∈ runQ k.cmp ops, x ∈ ops.filterMap Op.ev at inv
  have inv' := stepQ_inv K hn o (fun e he => List.mem_filterMap.2 ⟨o, List.mem_cons_self, he⟩) inv.1 (fun x hx => hsub x (inv.2 x hx))
  refine ⟨sorted_nodup K inv.1, sorted_nodup K inv'.1, ?_⟩
  have nk : ∀ x ∈ runQ k.cmp ops, x.kind ≠ .batch := by
    intro x hx
    obtain ⟨p, hp, e⟩ := List.mem_filterMap.1 (inv.2 x hx)
    exact nobatch p hp x e
  have nb : ∀ x ∈ runQ k.cmp ops, x.tm ≠ none := fun x hx ht => by rw [tm_of_kind (nk x hx)] at ht; cases ht
  have hcons : ∀ e, o.ev = some e → Numbered (e :: runQ k.cmp ops) := fun e he => numbered_mono (fun x hx => by
    rcases List.mem_cons.1 hx with rfl | hx
    · exact List.mem_filterMap.2 ⟨o, List.mem_cons_self, he⟩
    · exact hsub x (inv.2 x hx)) hn
  generalize runQ k.cmp ops = q at *
  cases o with
  | put e => exact ⟨rfl, fun x => mem_add K (hcons e rfl) x⟩
  | pop =>
    cases q with
    | nil => exact ⟨fun x (hx : x ∈ []) => (nomatch hx), fun x (hx : x ∈ []) => (nomatch hx)⟩
    | cons m q =>
      have hs := List.pairwise_cons.1 inv.1
      have hnd := List.nodup_cons.1 (sorted_nodup K inv.1)
      refine ⟨List.mem_cons_self, nb m List.mem_cons_self, ?_, ?_⟩
      · intro x hx
        rcases List.mem_cons.1 hx with rfl | hx
        · exact Nat.le_refl _
        · exact k.rank_le (nk m List.mem_cons_self) (nk x (List.mem_cons_of_mem _ hx)) (hs.1 x hx)
      · intro x
        show x ∈ q ↔ x ∈ m :: q ∧ x ≠ m
        constructor
        · intro hx; exact ⟨List.mem_cons_of_mem _ hx, fun e => hnd.1 (e ▸ hx)⟩
        · rintro ⟨hx, hne⟩
          exact (List.mem_cons.1 hx).resolve_left hne
  | del e =>
    have hd := del_spec K (hcons e rfl) inv.1
    refine ⟨?_, ?_, fun x => hd.2.1 x⟩
    · intro h
      show (if (del k.cmp e q).2 then some e else none) = some e
      rw [hd.1.2 h]; rfl
    · intro h
      show (if (del k.cmp e q).2 = true then some e else none) = none
      rw [if_neg (fun h' => h (hd.1.1 h'))]

/-- The hypotheses of C131 can be met, and something happens. -/
example : (runQ Queue.master.cmp [.put evR, .put evB, .put evA, .pop, .del evR]) = [evB] ∧
    (stepQ Queue.master.cmp (runQ Queue.master.cmp [.put evR, .put evB, .put evA, .pop]) (.del evR)).2 = some evR ∧
    (stepQ Queue.master.cmp (runQ Queue.master.cmp [.put evR, .put evB, .put evA, .pop]) (.del evA)).2 = none := by
  decide +kernel

/-- C131 fails for a batch: whatever else there is, the scheduler stops, since a batch has no time. All other kinds have one. -/
theorem C131_batch_counterexample (e : Ev) (q : List Ev) : add2meq e q = none ↔ e.kind = .batch := by
  unfold add2meq Ev.tm
  cases e.kind <;> simp

end Verif.EventQ
