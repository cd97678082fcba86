import Verif.Proofs.Hermes
/-
C49 and C50: the replicated register of tube/hermes. Every theorem is about any number of
replicas, any requests, and any delivery of messages: late, twice, out of order or never.
-/
namespace Verif.Hermes

variable {H : Nat → Nat → Nat}

theorem newAnswers_eq {s s' : Sys} {j : Nat} {y y' : Node} {l : List Done}
    (h : s.nodes[j]? = some y) (h' : s'.nodes[j]? = some y') (e : y'.log = y.log ++ l) :
    newAnswers s s' j = l := by
  unfold newAnswers
  rw [h, h']
  dsimp only
  rw [e, List.drop_left]

/-- **C49**, what holds of it. As long as nothing times out: once a client has been told that
its write is done, all replicas but at most one answer every later read with a value that
somebody wrote, and that is this one or a newer one. With two replicas there is no exception.
Missing: the one replica (see `C49_stale_read_counterexample`), and timeouts (see
`C49_timeout_counterexample`). -/
theorem C49_all_but_one_partial (n : Nat) (hn : 2 ≤ n) (before after : List Op)
    (hb : NoExpiry before) (ha : NoExpiry after) (i id : Nat) (x : Node) (v : Option Nat) (t : TS)
    (hx : ((Sys.init n).run H before).nodes[i]? = some x) (hw : .wrote id v t true ∈ x.log) :
    HasInv ((Sys.init n).run H before) id t v ∧
    ∃ bad, (n = 2 → n ≤ bad) ∧ ∀ j, j < n → j ≠ bad → ∀ rid rv rts,
      .read rid rv rts ∈ newAnswers ((Sys.init n).run H before)
        (((Sys.init n).run H before).run H after) j →
      Le H t rts ∧ Issued (((Sys.init n).run H before).run H after) rts rv := by
  have hl0 : (Sys.init n).nodes.length = n := by simp [Sys.init]
  obtain ⟨h1, g1⟩ := run_ok before (Sys.init n) (inv_init (H := H) n) (by rw [hl0]; exact hn) hb
  have hl1 := g1.len.trans hl0
  obtain ⟨h2, g2⟩ := run_ok after _ h1 (by rw [hl1]; exact hn) ha
  obtain ⟨hI, hab, bad, hbad, hcov⟩ := (h1.node i x hx).wrote hw
  rw [hl1] at hbad hcov
  refine ⟨hI, bad, fun h => hbad (by omega), ?_⟩
  intro j hj hjb rid rv rts hr
  have hat : At H ((Sys.init n).run H before) j t := by
    by_cases e : j = i
    · rw [e]; exact ⟨x, hx, hab⟩
    · exact hcov j hj hjb e
  obtain ⟨y, hy, k, hk, hl⟩ := hat
  obtain ⟨y', hy', _, _, l, e, hf⟩ := g2.node j y hy
  rw [newAnswers_eq hy hy' e] at hr
  refine ⟨hl.trans (hf rid rv rts hr k hk), ?_⟩
  exact ((h2.node j y' hy').read (by rw [e]; exact List.mem_append_right _ hr)).1

/-- Every answer to a read is a value that somebody wrote. -/
theorem C49_reads_are_writes_partial (n : Nat) (hn : 2 ≤ n) (ops : List Op) (ho : NoExpiry ops) (i : Nat)
    (x : Node) (hx : ((Sys.init n).run H ops).nodes[i]? = some x) (id : Nat) (v : Option Nat) (t : TS)
    (hr : .read id v t ∈ x.log) : Issued ((Sys.init n).run H ops) t v := by
  have hl0 : (Sys.init n).nodes.length = n := by simp [Sys.init]
  obtain ⟨h1, _⟩ := run_ok ops (Sys.init n) (inv_init (H := H) n) (by rw [hl0]; exact hn) ho
  exact ((h1.node i x hx).read hr).1

/-- The hash used in the examples. -/
def byId : Nat → Nat → Nat := fun _ id => id

/-- Three replicas, one write acknowledged by both others, then read everywhere. -/
def goodRun : List Op :=
  [.write 0 (some 1), .deliver 1 0 0, .deliver 2 0 0, .deliver 0 1 0, .deliver 0 2 0,
   .deliver 2 1 0, .deliver 1 2 0]

example : NoExpiry goodRun ∧
    (((Sys.init 3).run byId goodRun).nodes[0]?.map (·.log)) = some [.wrote 0 (some 1) ⟨1, 0⟩ true] ∧
    (List.range 3).map (newAnswers ((Sys.init 3).run byId goodRun)
      (((Sys.init 3).run byId goodRun).run byId [.read 0 true, .read 1 true, .read 2 true])) =
      [[.read 7 (some 1) ⟨1, 0⟩], [.read 8 (some 1) ⟨1, 0⟩], [.read 9 (some 1) ⟨1, 0⟩]] := by
  refine ⟨by intro i h; simp [goodRun] at h, by decide +kernel, by decide +kernel⟩

/-- **C49** fails: with three replicas a write is done after one of the two acknowledgements.
Nothing is lost here and nothing times out, the third replica just has not heard of the second
write yet, and still answers with the first. -/
theorem C49_stale_read_counterexample :
    ∃ (before after : List Op), NoExpiry before ∧ NoExpiry after ∧
      (∃ (x : Node), ((Sys.init 3).run byId before).nodes[0]? = some x ∧
        .wrote 6 (some 2) ⟨2, 0⟩ true ∈ x.log) ∧
      newAnswers ((Sys.init 3).run byId before) (((Sys.init 3).run byId before).run byId after) 2 =
        [.read 9 (some 1) ⟨1, 0⟩] ∧ ¬ Le byId ⟨2, 0⟩ ⟨1, 0⟩ := by
  refine ⟨[.write 0 (some 1), .deliver 1 0 0, .deliver 2 0 0, .deliver 0 1 0, .deliver 2 1 0,
    .deliver 1 2 0, .write 0 (some 2), .deliver 1 0 1, .deliver 0 1 1], [.read 2 true],
    by intro i h; simp at h, by intro i h; simp at h, ⟨_, rfl, by decide +kernel⟩,
    by decide +kernel, by unfold Le; decide⟩

/-- **C49** fails with timeouts, even with two replicas: the message is lost, the write is
nevertheless reported done when its time is up, and the other replica answers with the old
value. -/
theorem C49_timeout_counterexample :
    ∃ (before after : List Op), NoExpiry after ∧
      (∃ (x : Node), ((Sys.init 2).run byId before).nodes[0]? = some x ∧
        .wrote 3 (some 2) ⟨2, 0⟩ true ∈ x.log) ∧
      newAnswers ((Sys.init 2).run byId before) (((Sys.init 2).run byId before).run byId after) 1 =
        [.read 5 (some 1) ⟨1, 0⟩] := by
  refine ⟨[.write 0 (some 1), .deliver 1 0 0, .deliver 0 1 0, .write 0 (some 2), .expire 0],
    [.read 1 true], by intro i h; simp at h, ⟨_, rfl, by decide +kernel⟩, by decide +kernel⟩

/-- A write that had to wait for another is reported done without ever having been sent to
anybody, under the timestamp of the write it waited for. -/
theorem C49_queued_write_counterexample :
    ∃ (ops : List Op) (x : Node), ((Sys.init 3).run byId ops).nodes[0]? = some x ∧
      .wrote 1 (some 2) ⟨1, 0⟩ true ∈ x.log ∧ ∀ frm t v, .inv 1 frm t v ∉ x.sent := by
  refine ⟨[.write 0 (some 1), .write 0 (some 2), .expire 0, .write 0 (some 3), .expire 0],
    _, rfl, by decide +kernel, ?_⟩
  intro frm t v h
  have : ((Sys.init 3).run byId [.write 0 (some 1), .write 0 (some 2), .expire 0,
      .write 0 (some 3), .expire 0]).nodes[0]?.map (·.sent) =
      some [.inv 0 0 ⟨1, 0⟩ (some 1), .inv 3 0 ⟨2, 0⟩ (some 3)] := by decide +kernel
  simp only [Option.map_eq_some_iff] at this
  obtain ⟨y, hy, e⟩ := this
  have hy := Option.some.inj hy
  rw [hy, e] at h
  simp at h

/-- Three clients write at one replica while another replica's write with a higher timestamp
arrives: the replica crashes. -/
theorem C49_release_crash_counterexample :
    ∃ ops : List Op, NoExpiry ops ∧
      ((Sys.init 3).run byId ops).nodes[0]?.map (·.panicked) = some true := by
  refine ⟨[.write 0 (some 1), .write 0 (some 2), .write 0 (some 3), .write 1 (some 4), .deliver 0 1 0],
    by intro i h; simp at h, by decide +kernel⟩

/-- An acknowledgement that arrives before the write it acknowledges leaves a ticket without a
key; when that ticket times out the replica crashes. -/
theorem C49_early_ack_crash_counterexample :
    ∃ ops : List Op, ((Sys.init 3).run byId ops).nodes[2]?.map (·.panicked) = some true := by
  exact ⟨[.write 0 (some 1), .deliver 1 0 0, .deliver 2 1 0, .expire 2], by decide +kernel⟩

/-! ### C50 -/

/-- The hash tells the `n` replicas apart. -/
def Apart (H : Nat → Nat → Nat) (n : Nat) : Prop :=
  ∀ v i j, i < n → j < n → H v i = H v j → i = j

/-- **C50**: timestamps are compared by version first, and among the replicas of one cluster
the comparison is a total order, if the hash tells the replicas apart. -/
theorem C50_total_order (n : Nat) (hH : Apart H n) (a b c : TS) (ha : a.coord < n) (hb : b.coord < n) :
    (a.version < b.version → a.compare H b = .lt) ∧
    (a.compare H b = .eq ↔ a = b) ∧
    (a.compare H b = .lt ↔ b.compare H a = .gt) ∧
    (a.compare H b ≠ .gt → b.compare H c ≠ .gt → a.compare H c ≠ .gt) ∧
    (a.compare H b ≠ .gt → b.compare H a ≠ .gt → a = b) := by
  have anti : Le H a b → Le H b a → a = b := by
    intro h1 h2
    rw [le_iff] at h1 h2
    have hv : a.version = b.version := by omega
    have hc : a.coord = b.coord := by
      apply hH a.version _ _ ha hb
      rw [← hv] at h2
      omega
    cases a; cases b
    simp only at hv hc
    rw [hv, hc]
  refine ⟨?_, eq_iff a b, ⟨?_, ?_⟩, fun h1 h2 => Le.trans h1 h2, anti⟩
  · intro h; unfold TS.compare; rw [if_pos h]
  · intro h
    apply Classical.byContradiction
    intro h'
    have h1 : Le H a b := by unfold Le; rw [h]; simp
    have := anti h1 h'
    rw [(eq_iff a b).2 this] at h
    exact absurd h (by simp)
  · intro h
    cases e : a.compare H b with
    | lt => rfl
    | eq =>
      have e := (eq_iff a b).1 e
      rw [e, (eq_iff b b).2 rfl] at h
      exact absurd h (by simp)
    | gt => exact absurd e (le_of_gt h)

/-- Without that, each of two timestamps can be the smaller one. -/
theorem C50_collision_counterexample (H : Nat → Nat → Nat) (v i j : Nat) (hij : i ≠ j)
    (hH : H v i = H v j) :
    TS.compare H ⟨v, i⟩ ⟨v, j⟩ = .lt ∧ TS.compare H ⟨v, j⟩ ⟨v, i⟩ = .lt := by
  simp [TS.compare, hij, Ne.symm hij, hH]

example : Apart byId 5 := fun _ _ _ _ _ h => h

/-- **C50**: as long as nothing times out, no two writes get the same timestamp. -/
theorem C50_timestamps_unique (n : Nat) (hn : 2 ≤ n) (ops : List Op) (ho : NoExpiry ops)
    (id id' : Nat) (t : TS) (v v' : Option Nat) (h : HasInv ((Sys.init n).run H ops) id t v)
    (h' : HasInv ((Sys.init n).run H ops) id' t v') : id = id' ∧ v = v' := by
  have hl0 : (Sys.init n).nodes.length = n := by simp [Sys.init]
  obtain ⟨h1, _⟩ := run_ok ops (Sys.init n) (inv_init (H := H) n) (by rw [hl0]; exact hn) ho
  exact h1.ids.byTs h h'

/-- **C50**: as long as nothing times out, a replica's timestamp never goes back. -/
theorem C50_never_regresses_partial (n : Nat) (hn : 2 ≤ n) (before after : List Op)
    (hb : NoExpiry before) (ha : NoExpiry after) (i : Nat) (x : Node) (k : KeyMeta)
    (hx : ((Sys.init n).run H before).nodes[i]? = some x) (hk : x.key = some k) :
    ∃ (x' : Node) (k' : KeyMeta),
      (((Sys.init n).run H before).run H after).nodes[i]? = some x' ∧ x'.key = some k' ∧
      Le H k.ts k'.ts := by
  have hl0 : (Sys.init n).nodes.length = n := by simp [Sys.init]
  obtain ⟨h1, g1⟩ := run_ok before (Sys.init n) (inv_init (H := H) n) (by rw [hl0]; exact hn) hb
  have hl1 := g1.len.trans hl0
  obtain ⟨_, g2⟩ := run_ok after _ h1 (by rw [hl1]; exact hn) ha
  obtain ⟨x', hx', hle, _⟩ := g2.node i x hx
  obtain ⟨k', hk', hl⟩ := hle k hk
  exact ⟨x', k', hx', hk', hl⟩

/-- This replica has handled every write: its own, and the invalidations of the others. -/
def SeenAll (s : Sys) (i : Nat) (x : Node) : Prop :=
  ∀ id t v, HasInv s id t v → t.coord = i ∨ .inv id t.coord t v ∈ x.seen

/-- **C50**: in whatever order the invalidations arrived, a replica that has handled them all
holds the value with the greatest timestamp. -/
theorem C50_greatest_wins_partial (n : Nat) (hn : 2 ≤ n) (ops : List Op) (ho : NoExpiry ops) (i : Nat)
    (x : Node) (hx : ((Sys.init n).run H ops).nodes[i]? = some x)
    (hs : SeenAll ((Sys.init n).run H ops) i x) (hw : ∃ t v, Issued ((Sys.init n).run H ops) t v) :
    ∃ k, x.key = some k ∧ Issued ((Sys.init n).run H ops) k.ts k.val ∧
      ∀ t v, Issued ((Sys.init n).run H ops) t v → Le H t k.ts := by
  have hl0 : (Sys.init n).nodes.length = n := by simp [Sys.init]
  obtain ⟨h1, _⟩ := run_ok ops (Sys.init n) (inv_init (H := H) n) (by rw [hl0]; exact hn) ho
  have hnode := h1.node i x hx
  have habove : ∀ t v, Issued ((Sys.init n).run H ops) t v → Above H x t := by
    rintro t v ⟨id, hI⟩
    rcases hs id t v hI with hc | hm
    · obtain ⟨j, y, hy, hm⟩ := hI
      obtain ⟨_, hc', hab⟩ := (h1.node j y hy).sentInv hm
      rw [hc] at hc'
      subst hc'
      rw [hx] at hy
      obtain rfl := Option.some.inj hy
      exact hab
    · exact (hnode.seen hm).2
  obtain ⟨t, v, hi⟩ := hw
  obtain ⟨k, hk, hl⟩ := habove t v hi
  refine ⟨k, hk, ?_, ?_⟩
  · rcases hnode.key k hk with ⟨e, _⟩ | ⟨id, h⟩
    · obtain ⟨id, hI⟩ := hi
      have := (h1.ids.coord hI).2
      have := le_version hl
      rw [e] at this
      simp at this
      omega
    · exact ⟨id, h⟩
  · intro t' v' hi'
    obtain ⟨k', hk', hl'⟩ := habove t' v' hi'
    rw [hk] at hk'
    obtain rfl := Option.some.inj hk'
    exact hl'

/-- **C50**: two replicas that have handled all writes hold the same value under the same
timestamp. -/
theorem C50_replicas_agree_partial (n : Nat) (hn : 2 ≤ n) (hH : Apart H n) (ops : List Op)
    (ho : NoExpiry ops) (i j : Nat) (x y : Node)
    (hx : ((Sys.init n).run H ops).nodes[i]? = some x) (hy : ((Sys.init n).run H ops).nodes[j]? = some y)
    (hsx : SeenAll ((Sys.init n).run H ops) i x) (hsy : SeenAll ((Sys.init n).run H ops) j y)
    (hw : ∃ t v, Issued ((Sys.init n).run H ops) t v) :
    ∃ kx ky, x.key = some kx ∧ y.key = some ky ∧ kx.ts = ky.ts ∧ kx.val = ky.val := by
  obtain ⟨kx, hkx, ⟨idx, hIx⟩, hmx⟩ := C50_greatest_wins_partial n hn ops ho i x hx hsx hw
  obtain ⟨ky, hky, ⟨idy, hIy⟩, hmy⟩ := C50_greatest_wins_partial n hn ops ho j y hy hsy hw
  have hl0 : (Sys.init n).nodes.length = n := by simp [Sys.init]
  obtain ⟨h1, g1⟩ := run_ok ops (Sys.init n) (inv_init (H := H) n) (by rw [hl0]; exact hn) ho
  have hl1 := g1.len.trans hl0
  have cx := (h1.ids.coord hIx).1
  have cy := (h1.ids.coord hIy).1
  rw [hl1] at cx cy
  have e : kx.ts = ky.ts := (C50_total_order n hH kx.ts ky.ts kx.ts cx cy).2.2.2.2
    (hmy _ _ ⟨idx, hIx⟩) (hmx _ _ ⟨idy, hIy⟩)
  refine ⟨kx, ky, hkx, hky, e, ?_⟩
  rw [← e] at hIy
  exact (h1.ids.byTs hIx hIy).2

/-- A message handed to a live replica is handled, unless the replica crashes over it. -/
theorem C50_delivered_is_seen (s : Sys) (i j k : Nat) (hij : i ≠ j) (x y : Node) (id frm : Nat) (t : TS)
    (v : Option Nat) (hx : s.nodes[i]? = some x) (hp : x.panicked = false)
    (hy : s.nodes[j]? = some y) (hm : y.sent[k]? = some (.inv id frm t v)) :
    ∃ (x' : Node), (s.step H (.deliver i j k)).nodes[i]? = some x' ∧
      (x'.panicked = true ∨ .inv id frm t v ∈ x'.seen) := by
  have hi : i < s.nodes.length := (List.getElem?_eq_some_iff.1 hx).1
  simp only [Sys.step, hy, hm, hij, if_false, hx, hp, Bool.false_eq_true]
  refine ⟨x.recv H s.nodes.length (.inv id frm t v), ?_, ?_⟩
  · rw [List.getElem?_set]; simp [hi]
  · simp only [Node.recv]
    split
    · rename_i h; exact .inl h
    · exact .inr (by simp)

/-- Two concurrent writes that cross on the wire: both replicas end with the greater one. -/
def crossing : List Op := [.write 0 (some 1), .write 1 (some 2), .deliver 0 1 0, .deliver 1 0 0]

example : NoExpiry crossing ∧
    ((Sys.init 2).run byId crossing).nodes.map (·.seen) =
      [[.inv 1 1 ⟨1, 1⟩ (some 2)], [.inv 0 0 ⟨1, 0⟩ (some 1)]] ∧
    ((Sys.init 2).run byId crossing).nodes.map (fun x => x.key.map fun k => (k.ts, k.val)) =
      [some (⟨1, 1⟩, some 2), some (⟨1, 1⟩, some 2)] := by
  refine ⟨by intro i h; simp [crossing] at h, by decide +kernel, by decide +kernel⟩

/-- **C50** fails with timeouts: a write that waited is completed under the old timestamp, and
the replica's timestamp goes back. -/
theorem C50_regress_counterexample :
    ∃ (before : List Op),
      ((Sys.init 3).run byId before).nodes[0]?.map (fun x => x.key.map (·.ts)) = some (some ⟨2, 0⟩) ∧
      (((Sys.init 3).run byId before).run byId [.expire 0]).nodes[0]?.map (fun x => x.key.map (·.ts)) =
        some (some ⟨1, 0⟩) := by
  exact ⟨[.write 0 (some 1), .write 0 (some 2), .expire 0, .write 0 (some 3)],
    by decide +kernel, by decide +kernel⟩

/-- And then two replicas hold different values under one timestamp. -/
theorem C50_same_timestamp_counterexample :
    ∃ (ops : List Op), ((Sys.init 3).run byId ops).nodes.map (fun x => x.key.map fun k => (k.ts, k.val)) =
      [some (⟨1, 0⟩, some 2), some (⟨1, 0⟩, some 1), none] := by
  exact ⟨[.write 0 (some 1), .write 0 (some 2), .expire 0, .write 0 (some 3), .expire 0, .deliver 1 0 0],
    by decide +kernel⟩

end Verif.Hermes
