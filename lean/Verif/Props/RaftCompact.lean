import Verif.Proofs.RaftCompactSame
/-
C101 to C105: log compaction and snapshot installation.
-/
namespace Verif.RaftCompact
open Verif.Raft (Action Entry Role Ack)

theorem allSteps_append {P : CSys → CAction → Prop} {mem : List Nat} : ∀ {as bs : List CAction} {s s' : CSys},
    AllSteps P mem s (as ++ bs) → run mem s as = some s' → AllSteps P mem s as ∧ AllSteps P mem s' bs
  | [], _, _, _, h, e => by cases e; exact ⟨trivial, h⟩
  | a :: as, bs, s, s', h, e => by
    simp only [run, Option.bind_eq_some_iff] at e
    obtain ⟨s1, h1, h2⟩ := e
    simp only [List.cons_append, AllSteps, h1] at h ⊢
    have := allSteps_append h.2 h2
    exact ⟨⟨h.1, this.1⟩, this.2⟩

theorem sim_two {mem : List Nat} {as bs : List CAction} {s s' : CSys}
    (h : run mem {} as = some s) (h' : run mem s bs = some s')
    (c1 : AllSteps FullSend mem {} (as ++ bs)) (c2 : AllSteps OneRecord mem {} (as ++ bs))
    (c3 : AllSteps AckOfTerm mem {} (as ++ bs)) (c4 : AllSteps BaseMatch mem {} (as ++ bs))
    (c5 : AllSteps SnapFresh mem {} (as ++ bs)) (c6 : AllSteps KeepsLog mem {} (as ++ bs)) :
    ∃ x x', Sim mem s x ∧ Sim mem s' x' ∧ Later mem x x' := by
  have d1 := allSteps_append c1 h
  have d2 := allSteps_append c2 h
  have d3 := allSteps_append c3 h
  have d4 := allSteps_append c4 h
  have d5 := allSteps_append c5 h
  have d6 := allSteps_append c6 h
  obtain ⟨x, X, _⟩ := sim_run as (sim_init mem) (condRun_of as d1.1 d2.1 d3.1 d4.1 d5.1 d6.1) h
  obtain ⟨x', X', L⟩ := sim_run bs X (condRun_of bs d1.2 d2.2 d3.2 d4.2 d5.2 d6.2) h'
  exact ⟨x, x', X, X', L⟩

/-! ### Executions used in examples and counterexamples -/

abbrev d (v k : Nat) : CAction := .act (.deliver v k 0 false false false)
abbrev a (x : Action) : CAction := .act x

/-- Node 1 leads, compacts, brings node 3 up by a snapshot and crashes; node 3 leads and compacts again. -/
def sample1 : List CAction :=
  [a (.timeout 1 0), d 2 0, d 1 1, a (.client 1 [7, 8]), a (.send 1 1 3), d 2 2, d 1 3, .compact 1,
   a (.client 1 [9]), a (.send 1 0 0), d 3 4, d 1 5, .snap 1, d 3 6, d 1 7, a (.send 1 4 1), d 2 8, .compact 2, .compact 3,
   a (.crash 1)]
def sample2 : List CAction :=
  [a (.timeout 3 0), d 2 10, d 3 11, a (.client 3 [5]), a (.send 3 4 3), d 2 12, d 1 12, d 3 13, d 3 14,
   .compact 3, a (.client 3 [6]), a (.send 3 7 1), d 1 15, d 2 15, d 3 16, a (.send 3 0 0), d 1 18, d 2 18]

/-- A follower with old entries of its own takes the heartbeat of a leader that has compacted. -/
def overlapRun : List CAction :=
  [a (.timeout 3 0), d 1 0, d 3 1, a (.client 3 [7,8,9]), a (.timeout 1 0), d 2 2, d 1 3, a (.client 1 [4,5,6]),
   a (.send 1 1 4), d 2 4, d 1 5, .compact 1, a (.send 1 0 0), d 3 6]

/-- A snapshot arrives after later entries of the same leader have been acknowledged. -/
def oldSnapRun : List CAction :=
  [a (.timeout 1 0), d 2 0, d 1 1, .snap 1, a (.client 1 [7]), a (.send 1 1 2), d 2 3, d 1 4, d 2 2, d 3 0, d 3 2,
   a (.timeout 3 0), d 2 8, d 3 9, a (.send 3 1 2), d 2 10, d 3 11]

/-- A node dies after it has installed a snapshot with no entries past what was applied. -/
def emptyRun : List CAction :=
  [a (.timeout 1 0), d 2 0, d 1 1, a (.send 1 1 1), d 2 2, d 1 3, .snap 1, d 2 4, a (.send 1 0 0), d 3 6,
   a (.crash 2), a (.timeout 3 0), d 2 8, d 3 9, a (.send 3 1 1), d 2 10, d 3 11]

/-- A node dies in the midst of installing a snapshot. -/
def midRun : List CAction :=
  [a (.timeout 1 0), d 2 0, d 1 1, a (.send 1 1 1), d 2 2, .snap 1, .crashMid 2 4, d 1 3,
   a (.send 1 0 0), d 3 5, a (.timeout 3 0), d 2 7, d 3 8, a (.send 3 1 1), d 2 9, d 3 10]

/-- A node installs a snapshot; the next leader overwrites everything past its base. -/
def panicRun : List CAction :=
  [a (.timeout 1 0), d 2 0, d 3 0, d 1 1, d 1 2, a (.send 1 1 1), d 3 3, d 4 3, d 1 4, d 1 5, a (.client 1 [7]),
   .snap 1, d 2 6, a (.timeout 3 0), d 4 8, d 5 8, d 3 9, d 3 10, a (.send 3 2 1)]

/-- No compaction and no snapshot: node 4 is overwritten from its second entry on, and then the next
leader overwrites it from the first. -/
def plainPanic : List CAction :=
  [a (.timeout 1 0), d 2 0, d 3 0, d 5 0, d 1 1, d 1 2, d 1 3, a (.send 1 1 1), d 2 4, a (.client 1 [7]),
   a (.send 1 1 2), d 4 6, a (.timeout 2 0), d 3 8, d 5 8, d 6 8, d 2 9, d 2 10, d 2 11, a (.send 2 1 2), d 4 12,
   a (.timeout 3 0), d 5 14, d 6 14, d 7 14, d 3 15, d 3 16, d 3 17, a (.send 3 1 1)]

/-- Node 2 holds and has applied entries of terms 1, 1, 2; the leader's message 11 begins with the
second. -/
def offRun : List CAction :=
  [a (.timeout 1 0), d 2 0, d 1 1, a (.client 1 [7]), a (.send 1 1 2), d 2 2, d 3 2, d 1 3,
   a (.timeout 3 0), d 2 5, d 3 6, a (.send 3 1 3), d 2 7, d 3 8, a (.send 3 0 0), d 2 9, a (.client 3 [9]), a (.send 3 2 3)]

theorem getD_some {o : Option CSys} (h : o.isSome = true) : o = some (o.getD {}) := by
  cases o with
  | none => cases h
  | some s => rfl

def ok (mem : List Nat) (as : List CAction) : Prop :=
  AllSteps FullSend mem {} as ∧ AllSteps OneRecord mem {} as ∧ AllSteps AckOfTerm mem {} as ∧
  AllSteps BaseMatch mem {} as ∧ AllSteps SnapFresh mem {} as ∧ AllSteps KeepsLog mem {} as

/-! ### C101 -/

/-- C101, partial: under the conditions of `Spec/RaftCompact.lean`, each of which the code leaves open (the
counterexamples below; for the first three see C20). -/
theorem C101_state_machines_agree_partial (mem : List Nat) (as bs : List CAction) (s s' : CSys)
    (h : run mem {} as = some s) (h' : run mem s bs = some s')
    (c1 : AllSteps FullSend mem {} (as ++ bs)) (c2 : AllSteps OneRecord mem {} (as ++ bs))
    (c3 : AllSteps AckOfTerm mem {} (as ++ bs)) (c4 : AllSteps BaseMatch mem {} (as ++ bs))
    (c5 : AllSteps SnapFresh mem {} (as ++ bs)) (c6 : AllSteps KeepsLog mem {} (as ++ bs)) (u v : Nat) :
    (s.nodes u).kv <+: (s'.nodes v).kv ∨ (s'.nodes v).kv <+: (s.nodes u).kv := by
  obtain ⟨x, x', X, X', L⟩ := sim_two h h' c1 c2 c3 c4 c5 c6
  have hA := Later.kv X L u
  have hB := Later.kv X' (Later.refl mem x') v
  have := Raft.com_cmp X'.inv hA hB (Nat.min_le_left _ _) (Nat.min_le_right _ _)
  rcases Nat.le_total (s.nodes u).kv.length (s'.nodes v).kv.length with e | e
  · left
    rw [Nat.min_eq_left e, List.take_length] at this
    rw [this]; exact List.take_prefix _ _
  · right
    rw [Nat.min_eq_right e, List.take_length] at this
    rw [← this]; exact List.take_prefix _ _

example : ∃ s s', run [1, 2, 3] {} sample1 = some s ∧ run [1, 2, 3] s sample2 = some s' ∧
    ok [1, 2, 3] (sample1 ++ sample2) ∧ (s.nodes 3).kv.length = 3 ∧ (s'.nodes 2).kv.length = 7 ∧
    (s.nodes 1).base = 2 ∧ (s.nodes 3).base = 3 ∧ (s'.nodes 3).base = 5 := by
  refine ⟨_, _, rfl, rfl, ?_⟩
  unfold ok
  decide +kernel

/-- Two nodes of the final state have applied sequences neither of which is a prefix of the other. -/
def Diverge (mem : List Nat) (as : List CAction) (u v : Nat) : Prop :=
  ∃ s, run mem {} as = some s ∧ ¬ ((s.nodes u).kv <+: (s.nodes v).kv ∨ (s.nodes v).kv <+: (s.nodes u).kv)

/-- Without `BaseMatch`: the follower compares its log with the leader's only past the leader's base and
takes everything up to the base for common. -/
theorem C101_counterexample_overlap :
    Diverge [1, 2, 3] overlapRun 1 3 ∧ AllSteps FullSend [1, 2, 3] {} overlapRun ∧
    AllSteps OneRecord [1, 2, 3] {} overlapRun ∧ AllSteps AckOfTerm [1, 2, 3] {} overlapRun ∧
    AllSteps SnapFresh [1, 2, 3] {} overlapRun ∧ AllSteps KeepsLog [1, 2, 3] {} overlapRun := by
  refine ⟨⟨_, rfl, ?_⟩, ?_⟩ <;> decide +kernel

/-- Without `SnapFresh`: an old snapshot removes entries that were acknowledged. -/
theorem C101_counterexample_old_snapshot :
    Diverge [1, 2, 3] oldSnapRun 1 3 ∧ AllSteps FullSend [1, 2, 3] {} oldSnapRun ∧
    AllSteps OneRecord [1, 2, 3] {} oldSnapRun ∧ AllSteps AckOfTerm [1, 2, 3] {} oldSnapRun ∧
    AllSteps BaseMatch [1, 2, 3] {} oldSnapRun ∧ AllSteps KeepsLog [1, 2, 3] {} oldSnapRun := by
  refine ⟨⟨_, rfl, ?_⟩, ?_⟩ <;> decide +kernel

/-- Without `KeepsLog`: a node that restarts with an empty log file forgets that its log began past the
snapshot, and votes for a candidate without the committed entries. -/
theorem C101_counterexample_empty_log :
    Diverge [1, 2, 3] emptyRun 1 3 ∧ AllSteps FullSend [1, 2, 3] {} emptyRun ∧
    AllSteps OneRecord [1, 2, 3] {} emptyRun ∧ AllSteps AckOfTerm [1, 2, 3] {} emptyRun ∧
    AllSteps BaseMatch [1, 2, 3] {} emptyRun ∧ AllSteps SnapFresh [1, 2, 3] {} emptyRun := by
  refine ⟨⟨_, rfl, ?_⟩, ?_⟩ <;> decide +kernel

/-- The same when the process dies in the midst of installing. -/
theorem C101_counterexample_crash_in_install :
    Diverge [1, 2, 3] midRun 1 3 ∧ AllSteps FullSend [1, 2, 3] {} midRun ∧
    AllSteps OneRecord [1, 2, 3] {} midRun ∧ AllSteps AckOfTerm [1, 2, 3] {} midRun ∧
    AllSteps BaseMatch [1, 2, 3] {} midRun ∧ AllSteps SnapFresh [1, 2, 3] {} midRun := by
  refine ⟨⟨_, rfl, ?_⟩, ?_⟩ <;> decide +kernel

/-! ### C102 -/

/-- C102, partial: as C101. -/
theorem C102_leader_completeness_partial (mem : List Nat) (as bs : List CAction) (s s' : CSys)
    (h : run mem {} as = some s) (h' : run mem s bs = some s')
    (c1 : AllSteps FullSend mem {} (as ++ bs)) (c2 : AllSteps OneRecord mem {} (as ++ bs))
    (c3 : AllSteps AckOfTerm mem {} (as ++ bs)) (c4 : AllSteps BaseMatch mem {} (as ++ bs))
    (c5 : AllSteps SnapFresh mem {} (as ++ bs)) (c6 : AllSteps KeepsLog mem {} (as ++ bs)) (u v : Nat)
    (hl : (s'.nodes v).role = .leader) (ht : (s.nodes u).term ≤ (s'.nodes v).term)
    (i : Nat) (e : Entry) (he : (s.nodes u).kv[i]? = some e) : held (s'.nodes v) i = some e := by
  obtain ⟨x, x', X, X', L⟩ := sim_two h h' c1 c2 c3 c4 c5 c6
  have hA := Later.kv X L u
  have hw := X'.wf v
  have hr : (x'.nodes v).role = .leader := by rw [← X'.node v]; exact hl
  have hlog := X'.inv.i1.leadLog v hr
  obtain ⟨Q, hQ⟩ := X'.inv.i1.leaderEl v hr
  rw [← X'.node v] at hlog hQ
  have hpre : (s.nodes u).kv <+: (full (s'.nodes v)).log := by
    rcases hA with h | ⟨t, j, h1, h2, h3, h4⟩
    · rw [List.eq_nil_of_length_eq_zero h]; exact List.nil_prefix
    · have h5 := h1.lead X'.inv.i2 ⟨_, _, hQ⟩ (Nat.le_trans h2 ht)
      have h6 := h4.eq_of_length_le (by rw [List.length_take]; have := h1.1.2.1; omega)
      have hlog' : (full (s'.nodes v)).log = x'.hist.lead (full (s'.nodes v)).term := hlog.symm
      rw [hlog', ← h6]
      refine List.IsPrefix.trans ?_ h5
      rw [← Nat.min_eq_left h3, ← List.take_take]
      exact List.take_prefix _ _
  obtain ⟨q, hq⟩ := hpre
  have hi : i < (s.nodes u).kv.length := (List.getElem?_eq_some_iff.1 he).1
  have hf : ((s'.nodes v).kv.take (s'.nodes v).base ++ (s'.nodes v).log)[i]? = some e := by
    show (full (s'.nodes v)).log[i]? = _
    rw [← hq, List.getElem?_append_left hi]; exact he
  have hlen : ((s'.nodes v).kv.take (s'.nodes v).base).length = (s'.nodes v).base := by
    rw [List.length_take]; exact Nat.min_eq_left hw.base
  unfold held
  split
  · rename_i h1
    rw [List.getElem?_append_left (by omega), List.getElem?_take, if_pos h1] at hf
    exact hf
  · rename_i h1
    rw [List.getElem?_append_right (by omega), hlen] at hf
    exact hf

example : ∃ s s', run [1, 2, 3] {} sample1 = some s ∧ run [1, 2, 3] s sample2 = some s' ∧
    ok [1, 2, 3] (sample1 ++ sample2) ∧ (s'.nodes 3).role = .leader ∧ (s.nodes 1).term < (s'.nodes 3).term ∧
    (s.nodes 1).kv[1]? = some ⟨1, 7⟩ ∧ (s.nodes 1).kv[2]? = some ⟨1, 8⟩ ∧ (s'.nodes 3).base = 5 ∧
    (s'.nodes 3).log.length = 2 := by
  refine ⟨_, _, rfl, rfl, ?_⟩
  unfold ok
  decide +kernel

/-- A node leads in a later term than that of a node that applied an entry, and does not hold it. -/
def Lost (mem : List Nat) (as : List CAction) (u v i : Nat) : Prop :=
  ∃ s, run mem {} as = some s ∧ (s.nodes v).role = .leader ∧ (s.nodes u).term < (s.nodes v).term ∧
    ∃ e, (s.nodes u).kv[i]? = some e ∧ held (s.nodes v) i ≠ some e

/-- The runs of C101 without `SnapFresh` or `KeepsLog`. -/
theorem C102_counterexample :
    Lost [1, 2, 3] oldSnapRun 1 3 1 ∧ Lost [1, 2, 3] emptyRun 1 3 0 ∧ Lost [1, 2, 3] midRun 1 3 0 := by
  refine ⟨⟨_, rfl, ?_, ?_, _, rfl, ?_⟩, ⟨_, rfl, ?_, ?_, _, rfl, ?_⟩, ⟨_, rfl, ?_, ?_, _, rfl, ?_⟩⟩ <;> decide +kernel

/-! ### C103 -/

/-- C103. `l` is the leader when it takes the snapshot; `commit` of what it holds is applied at the follower,
which is what the leader had applied if it had applied what it committed. -/
theorem C103_snapshot_installs_leader_state (w me : Nat) (l n : CNode) (ht : n.term = l.term) (h1 : 1 ≤ l.term)
    (hb : l.base ≤ l.kv.length) (hk : l.kv <+: wholeLog l) (hc : l.kv.length ≤ l.commit)
    (hl : l.commit ≤ (wholeLog l).length) :
    ∃ n' ack, handleSnap me n (mkSnap w l) = some (n', some ack) ∧
      wholeLog n' = wholeLog l ∧ n'.commit = l.commit ∧ n'.kv = (wholeLog l).take l.commit ∧
      (l.kv.length = l.commit → n'.kv = l.kv) ∧ n'.term = l.term ∧ n'.vote = n.vote ∧ n'.role = .follower ∧
      ack.rejected = false ∧ ack.lastIdx = (wholeLog l).length ∧ ack.term = l.term ∧ ack.leader = (w, l.inc) := by
  have hP : l.kv ++ l.log.drop (l.kv.length - l.base) = wholeLog l := by
    have : l.log.drop (l.kv.length - l.base) = (wholeLog l).drop l.kv.length := by
      show _ = (full l).log.drop _
      rw [← full_drop hb, List.drop_drop, show l.base + (l.kv.length - l.base) = l.kv.length by omega]
    obtain ⟨q, hq⟩ := hk
    rw [this, ← hq, List.drop_left' rfl]
  have hS : Shape (mkSnap w l) := by
    refine ⟨h1, hb, ?_⟩
    show Raft.terms l.log = (Raft.terms (l.kv ++ l.log.drop (l.kv.length - l.base))).drop l.base
    rw [hP, ← terms_drop]
    exact congrArg Raft.terms (full_drop hb).symm
  obtain ⟨ns, k, h⟩ := handleSnap_eq (me := me) (n := n) hS ht.symm
  have hi : installed n (mkSnap w l) = { full (install n (mkSnap w l)) with
      role := .follower, log := wholeLog l } := by rw [← hP]; rfl
  have hkvl : ∀ c, l.kv.length ≤ c →
      l.kv ++ ((wholeLog l).drop l.kv.length).take (c - l.kv.length) = (wholeLog l).take c := by
    intro c hc
    obtain ⟨q, hq⟩ := hk
    rw [← hq, List.drop_left' rfl, List.take_append, List.take_of_length_le (i := c) hc]
  have hkv : (back (install n (mkSnap w l)) (Raft.commitWhatWeCan (installed n (mkSnap w l)))).kv =
      (wholeLog l).take l.commit := by
    rw [hi]
    unfold Raft.commitWhatWeCan
    split
    · show l.kv ++ ((wholeLog l).drop l.kv.length).take (l.commit - l.kv.length) = _
      exact hkvl _ hc
    · rename_i h2
      have h2 : ¬ l.kv.length < l.commit := h2
      show l.kv ++ ((wholeLog l).drop l.kv.length).take (l.kv.length - l.kv.length) = _
      rw [hkvl _ (Nat.le_refl _), show l.commit = l.kv.length by omega]
  have hcm : ∀ r : Raft.Node, (Raft.commitWhatWeCan r).commit = r.commit ∧ (Raft.commitWhatWeCan r).log = r.log ∧
      (Raft.commitWhatWeCan r).term = r.term ∧ (Raft.commitWhatWeCan r).vote = r.vote ∧
      (Raft.commitWhatWeCan r).role = r.role := by
    intro r; unfold Raft.commitWhatWeCan; split <;> exact ⟨rfl, rfl, rfl, rfl, rfl⟩
  refine ⟨_, _, h, ?_, ?_, hkv, ?_, ?_, ?_, ?_, rfl, ?_, ?_, rfl⟩
  · show List.take l.kv.length _ ++ List.drop l.kv.length _ = _
    rw [hkv, (hcm _).2.1, List.take_take, Nat.min_eq_left hc, hi, List.take_append_drop]
  · exact (hcm _).1
  · intro e
    rw [hkv, ← e]
    obtain ⟨q, hq⟩ := hk
    rw [← hq, List.take_left' rfl]
  · show (Raft.commitWhatWeCan _).term = _
    rw [(hcm _).2.2.1]; exact ht
  · exact (hcm _).2.2.2.1
  · exact (hcm _).2.2.2.2
  · show (installed n (mkSnap w l)).log.length = _
    rw [hi]
  · exact ht

example : ∃ s, run [1, 2, 3] {} (sample1.take 12) = some s ∧ (s.nodes 3).term = (s.nodes 1).term ∧
    (s.nodes 1).role = .leader ∧ (s.nodes 1).base = 2 ∧ (s.nodes 1).kv <+: wholeLog (s.nodes 1) ∧
    (s.nodes 1).kv.length = (s.nodes 1).commit ∧ (s.nodes 1).commit = 3 ∧ (wholeLog (s.nodes 1)).length = 4 ∧
    wholeLog (s.nodes 3) = [] := by
  refine ⟨_, rfl, ?_⟩; decide +kernel

/-! ### C104 -/

/-- C104, partial: all but the handling of a leader's message (for that, see below). `n` is any state in which
what was applied is the beginning of the log. -/
theorem C104_compaction_partial (n : CNode) (hb : n.base ≤ n.kv.length) (hk : n.kv <+: wholeLog n) :
    ∃ n', compact n = some n' ∧ n'.kv = n.kv ∧ n'.commit = n.commit ∧ n'.term = n.term ∧ n'.vote = n.vote ∧
      n'.role = n.role ∧ n'.saved = n.saved ∧ n'.peers = n.peers ∧ wholeLog n' = wholeLog n ∧
      n.base ≤ n'.base ∧ (n'.base ≤ n.base ∨ n'.base + 1 = n.kv.length) ∧
      (∀ me beg cnt, n.kv.length < beg → (mkCAE me n' beg cnt).entries = (mkCAE me n beg cnt).entries ∧
        (mkCAE me n' beg cnt).prev = (mkCAE me n beg cnt).prev ∧
        ((mkCAE me n beg cnt).entries ≠ [] → (mkCAE me n' beg cnt).prevTerm = (mkCAE me n beg cnt).prevTerm)) ∧
      ∀ mem v noop st nf fo m, ∃ r r' ms, receive mem v noop n st nf fo (.reqVote m) = some (r, ms) ∧
        receive mem v noop n' st nf fo (.reqVote m) = some (r', ms) ∧ r'.term = r.term ∧ r'.vote = r.vote ∧
        r'.role = r.role ∧ r'.kv = r.kv := by
  have hlen : (wholeLog n).length = lastIdx n := lastIdx_full hb
  have hkl := hk.length_le
  by_cases hno : n.log = [] ∨ n.kv.length ≤ n.base + 1
  · have hc : compact n = some n := by unfold compact; rw [if_pos hno]
    exact ⟨n, hc, rfl, rfl, rfl, rfl, rfl, rfl, rfl, rfl, Nat.le_refl _, Or.inl (Nat.le_refl _),
      fun _ _ _ _ => ⟨rfl, rfl, fun _ => rfl⟩, fun _ _ _ _ _ _ _ => ⟨_, _, _, rfl, rfl, rfl, rfl, rfl, rfl⟩⟩
  · have h2 : n.base + 1 < n.kv.length := by omega
    have hdrop : ∀ k, n.log.drop (k - n.base) = if n.base ≤ k then (wholeLog n).drop k else n.log := by
      intro k
      split
      · rename_i h
        show _ = (full n).log.drop k
        rw [← full_drop hb, List.drop_drop, show n.base + (k - n.base) = k by omega]
      · rw [show k - n.base = 0 by omega, List.drop_zero]
    have hw : n.kv.take (n.kv.length - 1) ++ n.log.drop (n.kv.length - 1 - n.base) = wholeLog n := by
      rw [hdrop, if_pos (by omega)]
      have : n.kv.take (n.kv.length - 1) = (wholeLog n).take (n.kv.length - 1) :=
        (Raft.take_prefix_of_prefix hk (by omega)).symm
      rw [this, List.take_append_drop]
    have hc : compact n = some { n with
        base := n.kv.length - 1, baseTerm := Raft.termAt n.log (n.kv.length - 1 - n.base),
        log := n.log.drop (n.kv.length - 1 - n.base) } := by
      unfold compact; rw [if_neg hno, if_neg (by omega)]
    have hf : full { n with
        base := n.kv.length - 1, baseTerm := Raft.termAt n.log (n.kv.length - 1 - n.base),
        log := n.log.drop (n.kv.length - 1 - n.base) } = full n := by
      unfold full; dsimp only; rw [hw]; rfl
    refine ⟨_, hc, rfl, rfl, rfl, rfl, rfl, rfl, rfl, hw, by dsimp only; omega, Or.inr (by dsimp only; omega), ?_, ?_⟩
    · intro me beg cnt h3
      have e : beg - 1 - n.base = (n.kv.length - 1 - n.base) + (beg - 1 - (n.kv.length - 1)) := by omega
      refine ⟨?_, rfl, ?_⟩
      · unfold mkCAE; dsimp only
        rw [List.drop_drop, ← e]
      · intro h4
        unfold mkCAE at h4 ⊢; dsimp only at h4 ⊢
        by_cases h5 : cnt = 0
        · rw [h5] at h4; simp at h4
        · rw [if_neg h5, if_neg (by omega), if_neg (by omega)]
          unfold cTermAt; dsimp only
          rw [if_neg (by omega), if_neg (by omega),
            show beg - 1 - (n.kv.length - 1) = (beg - 1 - n.base) - (n.kv.length - 1 - n.base) by omega,
            termAt_drop (by omega)]
    · intro mem v noop st nf fo m
      simp only [receive, hf]
      exact ⟨_, _, _, rfl, rfl, rfl, rfl, rfl, rfl⟩

/-- C104, the handling of a leader's message, partial: the entries start past what the compaction drops, the
message is not of an older leader, and the conditions of C101 hold. Both nodes then end with the same entries,
commit position and applied state, and answer alike. -/
theorem C104_message_after_compaction_partial (mem : List Nat) (as : List CAction) (s : CSys)
    (h : run mem {} as = some s)
    (c1 : AllSteps FullSend mem {} as) (c2 : AllSteps OneRecord mem {} as) (c3 : AllSteps AckOfTerm mem {} as)
    (c4 : AllSteps BaseMatch mem {} as) (c5 : AllSteps SnapFresh mem {} as) (c6 : AllSteps KeepsLog mem {} as)
    (v : Nat) (n' : CNode) (m : CAE) (hm : CMsg.ae m ∈ s.msgs) (hc : compact (s.nodes v) = some n')
    (ht : (s.nodes v).term ≤ m.term) (hne : m.terms ≠ []) (hent : m.entries = [] ∨ n'.base < m.prev)
    (hbm : (s.nodes v).base < m.base → m.base < lastIdx (s.nodes v) → cTermAt (s.nodes v) m.base = m.baseTerm) :
    ∃ r r' a a', handleAE v (s.nodes v) m = some (r, a) ∧ handleAE v n' m = some (r', a') ∧
      r'.log = r.log.drop (n'.base - (s.nodes v).base) ∧ r'.kv = r.kv ∧ r'.commit = r.commit ∧ r'.term = r.term ∧
      r'.vote = r.vote ∧ r'.role = r.role ∧ r'.saved = r.saved ∧
      a'.map (fun w => (w.term, w.rejected, w.lastIdx)) = a.map fun w => (w.term, w.rejected, w.lastIdx) := by
  obtain ⟨x, X, _⟩ := sim_run as (sim_init mem) (condRun_of as c1 c2 c3 c4 c5 c6) h
  obtain ⟨r, r', a, a', h1, h2, h3, h4⟩ := ae_same X hm hc ht hne hent hbm
  refine ⟨r, r', a, a', h1, h2, ?_, ?_, ?_, ?_, ?_, ?_, ?_, h4⟩ <;> rw [h3]

/-- Sending entry 4 on its own instead, after node 2 has acknowledged three. -/
def okRun : List CAction := offRun.take 17 ++ [a (.send 3 4 1)]

example : ∃ s n' m r, run [1, 2, 3] {} okRun = some s ∧ ok [1, 2, 3] okRun ∧ CMsg.ae m ∈ s.msgs ∧
    compact (s.nodes 2) = some n' ∧ n'.base = 2 ∧ (s.nodes 2).base = 0 ∧ (s.nodes 2).term = m.term ∧
    m.terms = [1, 1, 2, 2] ∧ m.prev = 3 ∧ m.entries = [⟨2, 9⟩] ∧ m.base = 0 ∧
    handleAE 2 n' m = some r ∧ r.1.log = [⟨2, 0⟩, ⟨2, 9⟩] := by
  refine ⟨_, _, mkCAE 3 (((run [1, 2, 3] {} okRun).getD {}).nodes 3) 4 1, _, rfl, ?_, ?_, rfl, ?_, ?_, ?_, ?_, ?_, ?_,
    ?_, rfl, ?_⟩
  · unfold ok; decide +kernel
  all_goals decide +kernel

/-- C104 fails for a message whose entries begin below the base: `logsAreMismatched` compares them shifted by
one, the compacted node rejects the message and keeps three entries, the node without compaction takes the
fourth. -/
theorem C104_counterexample :
    ∃ s n' m r r', run [1, 2, 3] {} offRun = some s ∧ ok [1, 2, 3] offRun ∧ CMsg.ae m ∈ s.msgs ∧
      (s.nodes 2).term = m.term ∧ compact (s.nodes 2) = some n' ∧
      handleAE 2 (s.nodes 2) m = some r ∧ handleAE 2 n' m = some r' ∧
      (wholeLog r.1).length = 4 ∧ (wholeLog r'.1).length = 3 ∧
      r.2.map (·.rejected) = some false ∧ r'.2.map (·.rejected) = some true := by
  refine ⟨_, _, mkCAE 3 (((run [1, 2, 3] {} offRun).getD {}).nodes 3) 2 3, _, _, rfl, ?_, ?_, ?_, rfl, rfl, rfl, ?_, ?_,
    ?_, ?_⟩
  · unfold ok; decide +kernel
  all_goals decide +kernel

/-! ### C105 -/

/-- C105, partial: what a message must be for the receiver to panic. -/
theorem C105_no_panic_partial (me : Nat) (n : CNode) (m : CAE)
    (h : m.entries = [] ∨ n.base < m.prev ∨ n.log = [] ∨ m.term < n.term ∨ n.baseTerm = 0) :
    handleAE me n m ≠ none := by
  intro h0
  rw [handleAE_with] at h0
  have := aeWith_none h0
  rcases h with h | h | h | h | h
  · exact this.2.2.2.1 h
  · omega
  · exact this.2.2.2.2.2.2.2.1 h
  · omega
  · exact this.2.2.2.2.2.2.2.2 h

example : ∃ s m, run [1, 2, 3] {} okRun = some s ∧ CMsg.ae m ∈ s.msgs ∧ m.entries ≠ [] ∧ (s.nodes 2).log ≠ [] ∧
    (s.nodes 2).base < m.prev ∧ (s.nodes 2).term = m.term := by
  refine ⟨_, mkCAE 3 (((run [1, 2, 3] {} okRun).getD {}).nodes 3) 4 1, rfl, ?_⟩
  decide +kernel

/-- C105, for snapshots: taking in a snapshot never panics. -/
theorem C105_snapshot_no_panic_partial (mem : List Nat) (as : List CAction) (s : CSys)
    (h : run mem {} as = some s)
    (c1 : AllSteps FullSend mem {} as) (c2 : AllSteps OneRecord mem {} as) (c3 : AllSteps AckOfTerm mem {} as)
    (c4 : AllSteps BaseMatch mem {} as) (c5 : AllSteps SnapFresh mem {} as) (c6 : AllSteps KeepsLog mem {} as)
    (v : Nat) (m : Snap) (hm : CMsg.snap m ∈ s.msgs) (n : CNode) : handleSnap v n m ≠ none := by
  obtain ⟨x, X, _⟩ := sim_run as (sim_init mem) (condRun_of as c1 c2 c3 c4 c5 c6) h
  intro h0
  by_cases ht : m.term = n.term
  · obtain ⟨ns, k, h1⟩ := handleSnap_eq (me := v) (X.snap m hm).2.2.2.2 ht
    rw [h1] at h0; cases h0
  · unfold handleSnap at h0
    rw [if_pos ht] at h0; cases h0

example : ∃ s m, run [1, 2, 3] {} sample1 = some s ∧ ok [1, 2, 3] sample1 ∧ CMsg.snap m ∈ s.msgs ∧ m.base = 2 := by
  refine ⟨_, mkSnap 1 (((run [1, 2, 3] {} (sample1.take 12)).getD {}).nodes 1), rfl, ?_⟩
  unfold ok
  decide +kernel

/-- C105 fails after a snapshot: a later leader overwrites everything past the base; the follower panics, and
again when it has been restarted. -/
theorem C105_counterexample :
    ∃ s s' m, run [1, 2, 3, 4, 5] {} panicRun = some s ∧ ok [1, 2, 3, 4, 5] panicRun ∧
      step [1, 2, 3, 4, 5] s (a (.crash 2)) = some s' ∧
      s.msgs[11]? = some (.ae m) ∧ (s.nodes 3).role = .leader ∧ m = mkCAE 3 (s.nodes 3) 2 1 ∧
      handleAE 2 (s.nodes 2) m = none ∧ handleAE 2 (s'.nodes 2) m = none := by
  refine ⟨_, _, _, getD_some ?_, ?_, getD_some ?_, ?_, ?_, rfl, ?_, ?_⟩
  rotate_left
  · unfold ok; decide +kernel
  all_goals decide +kernel

/-- C105 fails with no compaction and no snapshot at all: truncating a log whose first entry stays sets
CompactTerm, and overwriting it from the first entry then panics. -/
theorem C105_counterexample_without_compaction :
    ∃ s m, run [1, 2, 3, 4, 5, 6, 7] {} plainPanic = some s ∧ ok [1, 2, 3, 4, 5, 6, 7] plainPanic ∧
      s.msgs[18]? = some (.ae m) ∧ (s.nodes 3).role = .leader ∧ m = mkCAE 3 (s.nodes 3) 1 1 ∧
      (∀ x ∈ plainPanic, x ≠ .compact 4 ∧ ∀ w, x ≠ .snap w) ∧ (s.nodes 4).base = 0 ∧
      handleAE 4 (s.nodes 4) m = none := by
  refine ⟨_, _, getD_some ?_, ?_, ?_, ?_, rfl, ?_, ?_, ?_⟩
  rotate_left
  · unfold ok; decide +kernel
  · decide +kernel
  · decide +kernel
  · simp [plainPanic]
  all_goals decide +kernel

end Verif.RaftCompact
