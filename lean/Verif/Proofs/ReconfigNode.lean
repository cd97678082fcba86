import Verif.Model.Reconfig

/- What one event does to the part of a node that decides elections and memberships. -/
namespace Verif.Reconfig
open Verif.Raft (Entry PeerID Role ReqVote Vote AE Ack upd)

/-- The membership a message makes its receiver adopt and the term it speaks for. -/
def Msg.says : Msg → Option (Conf × Nat)
  | .reqVote m c => some (c, m.term)
  | .vote m c => some (c, m.term)
  | .ae m c => some (c, m.term)
  | .ack m c => some (c, m.term)
  | .preReq _ _ => none
  | .preVote _ _ => none

/-- `yes` is the list of yes votes of `n`, or that list and one more vote of the term. -/
def Counts (M : List Msg) (v : Nat) (n : Node) (yes : List Nat) : Prop :=
  yes = n.yes ∨ ∃ m c, .vote m c ∈ M ∧ m.granted = true ∧ m.cand = (v, n.inc) ∧ m.term = n.term ∧
    m.srcTerm < n.term ∧ m.src.1 ∉ n.yes ∧ m.src.1 ∈ n.mc.names ∧ yes = n.yes ++ [m.src.1]

/-- Messages that neither ask for a vote nor count as one. -/
def Plain (v : Nat) (n n' : Node) : Msg → Prop
  | .reqVote _ _ => False
  | .preReq _ _ => True
  | .vote m c => m.src.1 = v ∧ c = n.mc ∧ m.srcTerm = n.term ∧ m.term = n'.term ∧
      (m.granted = true → m.term ≤ m.srcTerm)
  | .preVote m c => m.src.1 = v ∧ c = n.mc ∧ m.srcTerm = n.term
  | .ae m c => m.src.1 = v ∧ c = n.mc ∧ m.term = n.term ∧ n.role = .leader
  | .ack m c => m.src.1 = v ∧ c = n'.mc ∧ m.term = n'.term

inductive Micro (M : List Msg) (v : Nat) (n n' : Node) (out : List Msg) : Prop
  | quiet (hi : n'.inc = n.inc) (ht : n'.term = n.term) (hm : n'.mc = n.mc)
      (hr : n'.role = n.role ∨ n'.role = .follower) (hy : Counts M v n n'.yes)
      (hs : n'.saved.mc = n.saved.mc ∧ n'.saved.term = n.saved.term ∨
        n'.saved.mc = n.mc ∧ n'.saved.term = n.term)
      (hseen : ∀ x r, n'.seen x = some r → n.seen x = some r ∨
        ∃ m ∈ M, ∃ r0, m.report = some (x, r0) ∧ r.mcTerm = r0.mcTerm ∧ r.mcVer = r0.mcVer ∧
          (r.term = r0.term ∨ r0.term = 0))
      (ho : ∀ m ∈ out, Plain v n n' m)
  | advance (hi : n'.inc = n.inc) (ht : n.term < n'.term) (hr : n'.role = .follower)
      (hm : n'.mc = n.mc ∨ n'.mc.gt n.mc = true ∧ ∃ m ∈ M, m.says = some (n'.mc, n'.term))
      (hs : n'.saved.mc = n'.mc ∧ n'.saved.term = n'.term) (hseen : n'.seen = n.seen)
      (ho : ∀ m ∈ out, Plain v n n' m)
  | grant (q : ReqVote) (c : Conf) (hq : .reqVote q c ∈ M) (hv : q.src.1 ≠ v)
      (hi : n'.inc = n.inc) (ht : n.term < n'.term) (hqt : q.term = n'.term)
      (hr : n'.role = .follower)
      (hm : n'.mc = n.mc ∨ n'.mc.gt n.mc = true ∧ n'.mc = c)
      (hle : n'.mc.gt c = false) (hge : c.gt n'.mc = false)
      (hs : n'.saved.mc = n'.mc ∧ n'.saved.term = n'.term) (hseen : n'.seen = n.seen)
      (ho : out = [.vote ⟨(v, n.inc), n.term, q.src, n'.term, true, n.mc.term⟩ n.mc])
  | adopt (m : AE) (hmem : .ae m n'.mc ∈ M) (hmt : m.term = n.term)
      (hi : n'.inc = n.inc) (ht : n'.term = n.term) (hr : n'.role = .follower)
      (hgt : n'.mc.gt n.mc = true)
      (hs : n'.saved.mc = n'.mc ∧ n'.saved.term = n'.term) (hseen : n'.seen = n.seen)
      (ho : ∀ m ∈ out, Plain v n n' m)
  | stand (hrn : n.role = .follower) (hin : v ∈ n.mc.names) (hlen : n.mc.names.length ≠ 1)
      (hi : n'.inc = n.inc) (ht : n'.term = n.term + 1) (hr : n'.role = .candidate)
      (hm : n'.mc = n.mc) (hy : n'.yes = [v]) (hs : n'.saved = n.saved) (hseen : n'.seen = n.seen)
      (ho : ∃ a b, out = [.reqVote ⟨(v, n.inc), n'.term, a, b, n.mc.term⟩ n.mc])
  | elect (hrn : n.role = .candidate) (hlen : n.mc.names.length ≠ 1) (hc : Counts M v n n'.yes)
      (hq : n.mc.names.length / 2 + 1 ≤ n'.yes.length) (hlt : n.mc.term < n.term)
      (hi : n'.inc = n.inc) (ht : n'.term = n.term) (hr : n'.role = .leader)
      (hm : n'.mc = { n.mc with term := n.term })
      (hs : n'.saved.mc = n'.mc ∧ n'.saved.term = n'.term) (hseen : n'.seen = n.seen)
      (ho : out = [])
  | direct (hrn : n.role = .follower) (hin : n.mc.names = [v]) (hlt : n.mc.term < n'.term)
      (hi : n'.inc = n.inc) (ht : n'.term = n.term ∨ n'.term = n.term + 1) (hr : n'.role = .leader)
      (hm : n'.mc = { n.mc with term := n'.term })
      (hs : n'.saved.mc = n'.mc ∧ n'.saved.term = n'.term) (hseen : n'.seen = n.seen)
      (ho : out = [])
  | change (hrn : n.role = .leader) (c : Change) (hc : c.apply n.mc.names = some n'.mc.names)
      (ho : quorumsOverlap n.mc.names n'.mc.names = true)
      (hi : n'.inc = n.inc) (ht : n'.term = n.term) (hr : n'.role = .leader)
      (hmt : n'.mc.term = n.mc.term) (hmv : n'.mc.ver = n.mc.ver + 1)
      (hs : n'.saved.mc = n'.mc ∧ n'.saved.term = n'.term) (hseen : n'.seen = n.seen)
      (hout : out = [])
  | crash (hi : n'.inc = n.inc + 1) (ht : n'.term = n.saved.term) (hr : n'.role = .follower)
      (hm : n'.mc = n.saved.mc) (hs : n'.saved = n.saved) (hseen : ∀ x, n'.seen x = none)
      (ho : out = [])

/-! ### Orders on versions -/

theorem gt_iff {a b : Conf} : a.gt b = true ↔ b.term < a.term ∨ (a.term = b.term ∧ b.ver < a.ver) := by
  unfold Conf.gt
  split
  · simp; omega
  · split
    · simp; omega
    · simp; omega

theorem gt_false {a b : Conf} : a.gt b = false ↔ a.term < b.term ∨ (a.term = b.term ∧ a.ver ≤ b.ver) := by
  rw [← Bool.not_eq_true, gt_iff]; omega

theorem gt_irrefl (a : Conf) : a.gt a = false := by rw [gt_false]; omega

/-! ### Parts of a node not touched by helpers -/

/-- Equal in everything `Micro` looks at except what is saved. -/
structure Alike (n n' : Node) : Prop where
  inc : n'.inc = n.inc
  role : n'.role = n.role
  term : n'.term = n.term
  mc : n'.mc = n.mc
  yes : n'.yes = n.yes
  seen : n'.seen = n.seen

def Resaved (n n' : Node) : Prop :=
  n'.saved.mc = n.saved.mc ∧ n'.saved.term = n.saved.term ∨ n'.saved.mc = n.mc ∧ n'.saved.term = n.term

theorem commitWhatWeCan_alike (l : Bool) (n : Node) :
    Alike n (commitWhatWeCan l n) ∧ Resaved n (commitWhatWeCan l n) := by
  unfold commitWhatWeCan
  split
  · exact ⟨⟨rfl, rfl, rfl, rfl, rfl, rfl⟩, Or.inr ⟨rfl, rfl⟩⟩
  · exact ⟨⟨rfl, rfl, rfl, rfl, rfl, rfl⟩, Or.inl ⟨rfl, rfl⟩⟩

theorem leaderAdvance_alike (n : Node) (nf : Bool) :
    Alike n (leaderAdvanceCommitIndex n nf) ∧ Resaved n (leaderAdvanceCommitIndex n nf) := by
  unfold leaderAdvanceCommitIndex
  split
  · exact ⟨⟨rfl, rfl, rfl, rfl, rfl, rfl⟩, Or.inl ⟨rfl, rfl⟩⟩
  · split
    · exact ⟨⟨rfl, rfl, rfl, rfl, rfl, rfl⟩, Or.inl ⟨rfl, rfl⟩⟩
    · rename_i i _ _
      have h := commitWhatWeCan_alike true { n with commit := i }
      exact ⟨⟨h.1.inc, h.1.role, h.1.term, h.1.mc, h.1.yes, h.1.seen⟩, h.2⟩

theorem concludePreVote_alike (n : Node) (nf : Bool) :
    Alike n (concludePreVote n nf) ∧ (concludePreVote n nf).saved = n.saved := by
  unfold concludePreVote
  repeat' split
  all_goals exact ⟨⟨rfl, rfl, rfl, rfl, rfl, rfl⟩, rfl⟩

theorem quiet_alike {M : List Msg} {v : Nat} {n n' : Node} {out : List Msg} (h : Alike n n')
    (hs : Resaved n n') (ho : ∀ m ∈ out, Plain v n n' m) : Micro M v n n' out :=
  .quiet h.inc h.term h.mc (Or.inl h.role) (Or.inl h.yes) hs
    (fun x r hx => Or.inl (by rw [h.seen] at hx; exact hx)) ho

/-! ### becomeFollower -/

theorem setMC_eq (n : Node) (c : Conf) :
    (setMC n c = n ∧ c.gt n.mc = false) ∨
    (setMC n c = save { n with mc := c } ∧ c.gt n.mc = true) := by
  unfold setMC
  split
  · rename_i h; exact Or.inr ⟨rfl, h⟩
  · rename_i h; exact Or.inl ⟨rfl, by simpa using h⟩

/-- A higher term, saved. -/
theorem becomeFollower_up (n : Node) (t : Nat) (c : Conf) (sv : Bool) (ht : n.term < t) :
    let n' := becomeFollower n t (some c) sv
    n'.inc = n.inc ∧ n'.term = t ∧ n'.role = .follower ∧ n'.seen = n.seen ∧
    (n'.mc = n.mc ∧ c.gt n.mc = false ∨ n'.mc = c ∧ c.gt n.mc = true) ∧
    (sv = true → n'.saved.mc = n'.mc ∧ n'.saved.term = n'.term) := by
  simp only [becomeFollower]
  rw [if_pos (Or.inl ht)]
  rcases setMC_eq { n with role := .follower, noop0 := none, noopDone := false } c with ⟨h, hg⟩ | ⟨h, hg⟩
  · rw [h]
    cases sv
    · exact ⟨rfl, rfl, rfl, rfl, Or.inl ⟨rfl, hg⟩, fun h => by cases h⟩
    · exact ⟨rfl, rfl, rfl, rfl, Or.inl ⟨rfl, hg⟩, fun _ => ⟨rfl, rfl⟩⟩
  · rw [h]
    cases sv
    · exact ⟨rfl, rfl, rfl, rfl, Or.inr ⟨rfl, hg⟩, fun h => by cases h⟩
    · exact ⟨rfl, rfl, rfl, rfl, Or.inr ⟨rfl, hg⟩, fun _ => ⟨rfl, rfl⟩⟩

theorem becomeFollower_none (n : Node) (sv : Bool) :
    let n' := becomeFollower n n.term none sv
    n'.inc = n.inc ∧ n'.term = n.term ∧ n'.role = .follower ∧ n'.seen = n.seen ∧ n'.mc = n.mc ∧
    n'.yes = n.yes ∧ Resaved n n' := by
  simp only [becomeFollower, Option.any_none]
  rw [if_neg (show ¬ (n.term < n.term ∨ false = true) by simp)]
  cases sv
  · exact ⟨rfl, rfl, rfl, rfl, rfl, rfl, Or.inl ⟨rfl, rfl⟩⟩
  · exact ⟨rfl, rfl, rfl, rfl, rfl, rfl, Or.inr ⟨rfl, rfl⟩⟩

theorem becomeFollower_micro {M : List Msg} {v : Nat} {n : Node} {t : Nat} {c : Conf} {m : Msg}
    (hm : m ∈ M) (hs : m.says = some (c, t)) (ht : n.term < t) :
    Micro M v n (becomeFollower n t (some c) true) [] := by
  have h := becomeFollower_up n t c true ht
  simp only at h
  obtain ⟨h1, h2, h3, h4, h5, h6⟩ := h
  refine .advance h1 (by rw [h2]; exact ht) h3 ?_ (h6 trivial) h4 (by simp)
  rcases h5 with ⟨h, _⟩ | ⟨h, hg⟩
  · exact Or.inl h
  · refine Or.inr ⟨by rw [h]; exact hg, m, hm, ?_⟩
    rw [h, h2]; exact hs

/-! ### Elections -/

theorem becomeLeader_spec {me noop : Nat} {n n' : Node} (h : becomeLeader me noop n = some n') :
    n.role ≠ .leader ∧ n'.inc = n.inc ∧ n'.role = .leader ∧ n'.yes = n.yes ∧ n'.seen = n.seen ∧
    n'.saved.mc = n'.mc ∧ n'.saved.term = n'.term ∧ n'.mc = { n.mc with term := n'.term } ∧
    n.mc.term < n'.term ∧
    (n'.term = n.term ∨ n'.term = n.term + 1 ∧ n.mc.names.length = 1) := by
  unfold becomeLeader at h
  split at h
  · cases h
  rename_i h1
  split at h
  · cases h
  rename_i h2
  split at h
  · cases h
  rename_i h3
  have aux : ∀ k : Node, n'= save k → k.inc = n.inc → k.role = .leader → k.yes = n.yes → k.seen = n.seen →
      k.term = (if n.mc.term = n.term then n.term + 1 else n.term) →
      k.mc = { n.mc with term := k.term } →
      n.role ≠ .leader ∧ n'.inc = n.inc ∧ n'.role = .leader ∧ n'.yes = n.yes ∧ n'.seen = n.seen ∧
      n'.saved.mc = n'.mc ∧ n'.saved.term = n'.term ∧ n'.mc = { n.mc with term := n'.term } ∧
      n.mc.term < n'.term ∧
      (n'.term = n.term ∨ n'.term = n.term + 1 ∧ n.mc.names.length = 1) := by
    intro k hk a1 a2 a3 a4 a5 a6
    subst hk
    have hlt : n.mc.term < (if n.mc.term = n.term then n.term + 1 else n.term) := by
      split <;> omega
    refine ⟨h1, a1, a2, a3, a4, rfl, rfl, a6, ?_, ?_⟩
    · change n.mc.term < k.term
      rw [a5]; exact hlt
    · change k.term = _ ∨ k.term = _ ∧ _
      rw [a5]
      by_cases hc : n.mc.term = n.term
      · rw [if_pos hc]
        refine Or.inr ⟨rfl, ?_⟩
        rcases Classical.em (me ∈ n.mc.names ∧ n.mc.names.length = 1) with hx | hx
        · exact hx.2
        · exact absurd ⟨hc, hx⟩ h3
      · rw [if_neg hc]; exact Or.inl rfl
  simp only at h
  split at h
  · have h := (Option.some.inj h).symm
    refine aux _ h ?_ ?_ ?_ ?_ ?_ ?_
    · rw [(commitWhatWeCan_alike true _).1.inc]; rfl
    · rw [(commitWhatWeCan_alike true _).1.role]; rfl
    · rw [(commitWhatWeCan_alike true _).1.yes]; rfl
    · rw [(commitWhatWeCan_alike true _).1.seen]; rfl
    · rw [(commitWhatWeCan_alike true _).1.term]; rfl
    · rw [(commitWhatWeCan_alike true _).1.mc, (commitWhatWeCan_alike true _).1.term]; rfl
  · exact aux _ (Option.some.inj h).symm rfl rfl rfl rfl rfl rfl

theorem beginElection_micro {M : List Msg} {v noop : Nat} {n : Node} {r : Node × List Msg}
    (hr : n.role = .follower) (h : beginElection v noop n = some r) : Micro M v n r.1 r.2 := by
  unfold beginElection at h
  split at h
  · cases h
    exact quiet_alike ⟨rfl, rfl, rfl, rfl, rfl, rfl⟩ (Or.inl ⟨rfl, rfl⟩) (by simp)
  rename_i hin
  have hin : v ∈ n.mc.names := Classical.not_not.mp hin
  simp only at h
  split at h
  · rename_i hlen
    have hlen : n.mc.names.length = 1 := hlen
    cases hb : becomeLeader v noop (resetPreVoteState n) with
    | none => rw [hb] at h; cases h
    | some n' =>
      rw [hb] at h
      cases h
      obtain ⟨_, b1, b2, b3, b4, b5, b6, b7, b8, b9⟩ := becomeLeader_spec hb
      refine .direct hr ?_ b8 b1 ?_ b2 b7 ⟨b5, b6⟩ b4 rfl
      · obtain ⟨a, ha⟩ := List.length_eq_one_iff.mp hlen
        rw [ha] at hin ⊢
        rw [List.mem_singleton.mp hin]
      · rcases b9 with h | h
        · exact Or.inl h
        · exact Or.inr h.1
  · rename_i hlen
    have hlen : n.mc.names.length ≠ 1 := hlen
    cases h
    have hr' : (resetPreVoteState n).role = .follower := hr
    refine .stand hr hin hlen rfl ?_ rfl rfl rfl rfl rfl ⟨n.log.length, Verif.Raft.lastTerm n.log, ?_⟩
    · simp only [hr', if_true]; rfl
    · simp only [hr', if_true]; rfl

theorem beginPreVote_micro {M : List Msg} {v : Nat} {n : Node} {nf : Bool} :
    Micro M v n (beginPreVote v n nf).1 (beginPreVote v n nf).2 := by
  unfold beginPreVote
  split
  · exact quiet_alike ⟨rfl, rfl, rfl, rfl, rfl, rfl⟩ (Or.inl ⟨rfl, rfl⟩) (by simp)
  · simp only
    split
    · have h := concludePreVote_alike { n with role := .follower, preTerm := n.term + 1, preYes := [v], preNo := [], preOk := 0 } nf
      refine .quiet h.1.inc h.1.term h.1.mc (Or.inr h.1.role) (Or.inl h.1.yes) (Or.inl ?_) ?_ (by simp)
      · rw [h.2]; exact ⟨rfl, rfl⟩
      · intro x r hx; rw [h.1.seen] at hx; exact Or.inl hx
    · refine .quiet rfl rfl rfl (Or.inr rfl) (Or.inl rfl) (Or.inl ⟨rfl, rfl⟩) (fun x r hx => Or.inl hx) ?_
      intro m hm
      rw [List.mem_singleton] at hm
      subst hm; exact trivial

theorem tallyPreVote_micro {M : List Msg} {v : Nat} {n : Node} {m : Vote} {c : Conf} {nf : Bool} :
    Micro M v n (tallyPreVote v n m c nf) [] := by
  have key : Alike n (tallyPreVote v n m c nf) ∧ (tallyPreVote v n m c nf).saved = n.saved := by
    unfold tallyPreVote
    split
    · exact ⟨⟨rfl, rfl, rfl, rfl, rfl, rfl⟩, rfl⟩
    split
    · exact ⟨⟨rfl, rfl, rfl, rfl, rfl, rfl⟩, rfl⟩
    split
    · exact ⟨⟨rfl, rfl, rfl, rfl, rfl, rfl⟩, rfl⟩
    split
    · exact ⟨⟨rfl, rfl, rfl, rfl, rfl, rfl⟩, rfl⟩
    split
    · exact ⟨⟨rfl, rfl, rfl, rfl, rfl, rfl⟩, rfl⟩
    · simp only
      have aux : ∀ k : Node, Alike n k → k.saved = n.saved →
          Alike n (concludePreVote k nf) ∧ (concludePreVote k nf).saved = n.saved := by
        intro k hk hs
        have h := concludePreVote_alike k nf
        exact ⟨⟨h.1.inc.trans hk.inc, h.1.role.trans hk.role, h.1.term.trans hk.term,
          h.1.mc.trans hk.mc, h.1.yes.trans hk.yes, h.1.seen.trans hk.seen⟩, h.2.trans hs⟩
      apply aux
      · split
        · split <;> exact ⟨rfl, rfl, rfl, rfl, rfl, rfl⟩
        · exact ⟨rfl, rfl, rfl, rfl, rfl, rfl⟩
      · split
        · split <;> rfl
        · rfl
  exact quiet_alike key.1 (Or.inl (by rw [key.2]; exact ⟨rfl, rfl⟩)) (by simp)

theorem handleRequestVote_micro {M : List Msg} {v : Nat} {n : Node} {q : ReqVote} {c : Conf}
    {sticky : Bool} (hm : .reqVote q c ∈ M) (hv : q.src.1 ≠ v) :
    Micro M v n (handleRequestVote v n q c sticky).1 [(handleRequestVote v n q c sticky).2] := by
  simp only [handleRequestVote]
  by_cases h1 : q.term < n.term
  · rw [if_pos h1]
    refine quiet_alike ⟨rfl, rfl, rfl, rfl, rfl, rfl⟩ (Or.inl ⟨rfl, rfl⟩) ?_
    simp [Plain]
  rw [if_neg h1]
  by_cases h2 : n.role = .leader ∨ sticky = true
  · rw [if_pos h2]
    refine quiet_alike ⟨rfl, rfl, rfl, rfl, rfl, rfl⟩ (Or.inr ⟨rfl, rfl⟩) ?_
    simp [Plain, save]
  rw [if_neg h2]
  by_cases h3 : n.term < q.term
  · rw [if_pos h3]
    have hb := becomeFollower_up n q.term c false h3
    simp only at hb
    generalize hk : becomeFollower n q.term (some c) false = k at hb ⊢
    obtain ⟨b1, b2, b3, b4, b5, _⟩ := hb
    unfold decideVote
    by_cases hl : logUpToDateAsOurs k q c = true
    · rw [if_pos hl]
      refine .grant q c hm hv b1 (by change n.term < k.term; rw [b2]; exact h3) b2.symm b3 ?_ ?_ ?_ ⟨rfl, rfl⟩ b4 ?_
      · rcases b5 with ⟨h, _⟩ | ⟨h, hg⟩
        · exact Or.inl h
        · exact Or.inr ⟨by change k.mc.gt n.mc = true; rw [h]; exact hg, h⟩
      · change k.mc.gt c = false
        unfold logUpToDateAsOurs at hl
        split at hl
        · cases hl
        · rename_i hx; simpa using hx
      · change c.gt k.mc = false
        rcases b5 with ⟨h, hg⟩ | ⟨h, hg⟩
        · rw [h]; exact hg
        · rw [h]; exact gt_irrefl c
      · rfl
    · rw [if_neg hl]
      refine .advance b1 (by change n.term < k.term; rw [b2]; exact h3) b3 ?_ ⟨rfl, rfl⟩ b4 ?_
      · rcases b5 with ⟨h, _⟩ | ⟨h, hg⟩
        · exact Or.inl h
        · refine Or.inr ⟨by change k.mc.gt n.mc = true; rw [h]; exact hg, .reqVote q c, hm, ?_⟩
          change some (c, q.term) = some (k.mc, k.term)
          rw [h, b2]
      · simp [Plain, save]
  rw [if_neg h3]
  by_cases h4 : n.vote ≠ none ∧ n.vote ≠ some q.src
  · rw [if_pos h4]
    refine quiet_alike ⟨rfl, rfl, rfl, rfl, rfl, rfl⟩ (Or.inl ⟨rfl, rfl⟩) ?_
    simp [Plain]
  rw [if_neg h4]
  unfold decideVote
  split
  · refine quiet_alike ⟨rfl, rfl, rfl, rfl, rfl, rfl⟩ (Or.inr ⟨rfl, rfl⟩) ?_
    simp [Plain, save]
  · refine quiet_alike ⟨rfl, rfl, rfl, rfl, rfl, rfl⟩ (Or.inr ⟨rfl, rfl⟩) ?_
    simp [Plain, save]

theorem countVote_spec {M : List Msg} {v : Nat} {n : Node} {m : Vote} {c : Conf}
    (hm : .vote m c ∈ M) (ht : m.term = n.term) (hin : m.src.1 ∈ n.mc.names)
    (hs : m.granted = true → m.srcTerm < n.term) :
    let k := countVote v n m
    k.inc = n.inc ∧ k.role = n.role ∧ k.term = n.term ∧ k.mc = n.mc ∧ k.seen = n.seen ∧
    k.saved = n.saved ∧ Counts M v n k.yes := by
  simp only [countVote]
  split
  · rename_i h
    split
    · rename_i hg
      exact ⟨rfl, rfl, rfl, rfl, rfl, rfl, Or.inr ⟨m, c, hm, hg, h.1, ht, hs hg, h.2.1, hin, rfl⟩⟩
    · exact ⟨rfl, rfl, rfl, rfl, rfl, rfl, Or.inl rfl⟩
  · exact ⟨rfl, rfl, rfl, rfl, rfl, rfl, Or.inl rfl⟩

theorem tallyVote_micro {M : List Msg} {v noop : Nat} {n n' : Node} {m : Vote} {c : Conf} {nf : Bool}
    (hm : .vote m c ∈ M) (hcand : n.role = .candidate → v ∈ n.mc.names ∧ n.mc.names.length ≠ 1)
    (h : tallyVote v noop n m c nf = some n') : Micro M v n n' [] := by
  unfold tallyVote at h
  have q0 : Micro M v n n [] :=
    quiet_alike ⟨rfl, rfl, rfl, rfl, rfl, rfl⟩ (Or.inl ⟨rfl, rfl⟩) (by simp)
  split at h
  · cases h; exact q0
  rename_i h1
  split at h
  · rename_i h2
    cases h
    exact becomeFollower_micro hm rfl h2
  rename_i h2
  split at h
  · cases h; exact q0
  rename_i h3
  have hc : n.role = .candidate := by
    cases hr : n.role <;> simp [hr] at h3 ⊢
  split at h
  · cases h; exact q0
  rename_i h4
  split at h
  · cases h; exact q0
  split at h
  · cases h; exact q0
  rename_i h6
  have ht : m.term = n.term := by omega
  have hk := countVote_spec (v := v) hm ht (Classical.not_not.mp h4) (fun hg => by
    rcases Nat.lt_or_ge m.srcTerm n.term with hx | hx
    · exact hx
    · exact absurd ⟨hx, hg⟩ h6)
  simp only at hk h
  generalize countVote v n m = k at hk h
  obtain ⟨k1, k2, k3, k4, k5, k6, k7⟩ := hk
  split at h
  · rename_i hq
    obtain ⟨b0, b1, b2, b3, b4, b5, b6, b7, b8, b9⟩ := becomeLeader_spec h
    have hlen := (hcand hc).2
    have htt : n'.term = n.term := by
      rcases b9 with hx | hx
      · rw [hx, k3]
      · rw [k4] at hx; exact absurd hx.2 hlen
    refine .elect hc hlen (by rw [b3]; exact k7) ?_ ?_ (b1.trans k1) htt b2 ?_ ⟨b5, b6⟩ (b4.trans k5) rfl
    · rw [b3]
      rw [k4] at hq
      unfold quorum at hq
      split at hq
      · have := List.length_pos_of_mem (hcand hc).1
        omega
      · exact hq
    · rw [← htt, ← k4]; exact b8
    · rw [b7, k4, htt]
  · split at h
    · cases h
      have hb := becomeFollower_none k false
      simp only at hb
      generalize becomeFollower k k.term none false = k' at hb ⊢
      obtain ⟨b1, b2, b3, b4, b5, b6, b7⟩ := hb
      refine .quiet (b1.trans k1) (b2.trans k3) (b5.trans k4) (Or.inr b3) (by rw [b6]; exact k7) ?_ ?_ (by simp)
      · unfold Resaved at b7
        rw [k6, k4, k3] at b7
        exact b7
      · intro x r hx; rw [b4, k5] at hx; exact Or.inl hx
    · cases h
      refine .quiet k1 k3 k4 (Or.inl k2) k7 (Or.inl (by rw [k6]; exact ⟨rfl, rfl⟩)) ?_ (by simp)
      intro x r hx; rw [k5] at hx; exact Or.inl hx

/-! ### Replication -/

/-- What following a leader of at least the own term leads to, before the log is looked at. -/
theorem follow_spec {n : Node} {m : AE} {c : Conf} :
    let k := follow n m c
    k.inc = n.inc ∧ k.role = .follower ∧ k.seen = n.seen ∧
    (n.term < m.term ∧ k.term = m.term ∧ (k.mc = n.mc ∨ k.mc = c ∧ c.gt n.mc = true) ∧
        k.saved.mc = k.mc ∧ k.saved.term = k.term ∨
     m.term ≤ n.term ∧ k.term = n.term ∧ k.mc = c ∧ c.gt n.mc = true ∧
        k.saved.mc = k.mc ∧ k.saved.term = k.term ∨
     m.term ≤ n.term ∧ k.term = n.term ∧ k.mc = n.mc ∧ k.yes = n.yes ∧ k.saved = n.saved) := by
  simp only [follow]
  rcases setMC_eq n c with ⟨h, hg⟩ | ⟨h, hg⟩
  · rw [h]
    by_cases ht : n.term < m.term
    · rw [if_pos ht]
      have hb := becomeFollower_up n m.term c true ht
      simp only at hb
      generalize becomeFollower n m.term (some c) true = k at hb ⊢
      obtain ⟨b1, b2, b3, b4, b5, b6⟩ := hb
      refine ⟨b1, b3, b4, Or.inl ⟨ht, b2, ?_, (b6 trivial).1, (b6 trivial).2⟩⟩
      rcases b5 with ⟨hx, _⟩ | ⟨hx, _⟩
      · exact Or.inl hx
      · rename_i hgt; rw [hg] at hgt; cases hgt
    · rw [if_neg ht]
      exact ⟨rfl, rfl, rfl, Or.inr (Or.inr ⟨by omega, rfl, rfl, rfl, rfl⟩)⟩
  · rw [h]
    by_cases ht : n.term < m.term
    · rw [if_pos (show (save { n with mc := c }).term < m.term from ht)]
      have hb := becomeFollower_up (save { n with mc := c }) m.term c true ht
      simp only at hb
      generalize becomeFollower (save { n with mc := c }) m.term (some c) true = k at hb ⊢
      obtain ⟨b1, b2, b3, b4, b5, b6⟩ := hb
      refine ⟨b1, b3, b4, Or.inl ⟨ht, b2, Or.inr ⟨?_, hg⟩, (b6 trivial).1, (b6 trivial).2⟩⟩
      rcases b5 with ⟨hx, _⟩ | ⟨hx, _⟩ <;> exact hx
    · rw [if_neg (show ¬ (save { n with mc := c }).term < m.term from ht)]
      exact ⟨rfl, rfl, rfl, Or.inr (Or.inl ⟨by omega, rfl, rfl, hg, rfl, rfl⟩)⟩

theorem handleAppendEntries_micro {M : List Msg} {v : Nat} {n : Node} {m : AE} {c : Conf}
    (hm : .ae m c ∈ M) :
    Micro M v n (handleAppendEntries v n m c).1 (handleAppendEntries v n m c).2 := by
  unfold handleAppendEntries
  split
  · exact quiet_alike ⟨rfl, rfl, rfl, rfl, rfl, rfl⟩ (Or.inl ⟨rfl, rfl⟩) (by simp)
  simp only
  generalize Verif.Raft.commonPrefix m.terms (Verif.Raft.terms n.log) = lcp
  generalize (Verif.Raft.terms n.log).isPrefixOf m.terms = ext
  generalize hn0 : ({ n with commit := max n.commit (min m.commit lcp) } : Node) = n0
  have a0 : Alike n n0 ∧ n0.saved = n.saved := by subst hn0; exact ⟨⟨rfl, rfl, rfl, rfl, rfl, rfl⟩, rfl⟩
  split
  · have h := commitWhatWeCan_alike false n0
    refine quiet_alike ⟨h.1.inc.trans a0.1.inc, h.1.role.trans a0.1.role, h.1.term.trans a0.1.term,
      h.1.mc.trans a0.1.mc, h.1.yes.trans a0.1.yes, h.1.seen.trans a0.1.seen⟩ ?_ ?_
    · have := h.2
      unfold Resaved at this ⊢
      rw [a0.2, a0.1.mc, a0.1.term] at this
      exact this
    · intro x hx
      rw [List.mem_singleton] at hx
      subst hx
      exact ⟨rfl, h.1.mc.symm, h.1.term.symm⟩
  rename_i hle
  have hle : n.term ≤ m.term := by omega
  have hf := follow_spec (n := n0) (m := m) (c := c)
  simp only at hf
  generalize follow n0 m c = k at hf ⊢
  obtain ⟨f1, f2, f3, f4⟩ := hf
  -- whatever happens to log and commit index afterwards
  have fin : ∀ (k' : Node) (out : List Msg), Alike k k' → Resaved k k' →
      (∀ x ∈ out, ∃ a, x = .ack a k'.mc ∧ a.src.1 = v ∧ a.term = k'.term) → Micro M v n k' out := by
    intro k' out hk hs ho
    have hseen : k'.seen = n.seen := by rw [hk.seen, f3, a0.1.seen]
    have hinc : k'.inc = n.inc := by rw [hk.inc, f1, a0.1.inc]
    have hrole : k'.role = .follower := by rw [hk.role, f2]
    have hplain : ∀ x ∈ out, Plain v n k' x := by
      intro x hx
      obtain ⟨a, rfl, h1, h2⟩ := ho x hx
      exact ⟨h1, rfl, h2⟩
    rw [a0.1.term, a0.1.mc] at f4
    rcases f4 with ⟨g1, g2, g3, g4, g5⟩ | ⟨g1, g2, g3, g4, g5, g6⟩ | ⟨g1, g2, g3, g4, g5⟩
    · have hsv : k'.saved.mc = k'.mc ∧ k'.saved.term = k'.term := by
        rw [hk.mc, hk.term]
        rcases hs with hs | hs
        · rw [hs.1, hs.2, g4, g5]; exact ⟨rfl, rfl⟩
        · exact hs
      refine .advance hinc (by rw [hk.term, g2]; exact g1) hrole ?_ hsv hseen hplain
      rw [hk.mc, hk.term, g2]
      rcases g3 with hx | ⟨hx, hg⟩
      · exact Or.inl hx
      · rw [hx]; exact Or.inr ⟨hg, .ae m c, hm, rfl⟩
    · have hsv : k'.saved.mc = k'.mc ∧ k'.saved.term = k'.term := by
        rw [hk.mc, hk.term]
        rcases hs with hs | hs
        · rw [hs.1, hs.2, g5, g6]; exact ⟨rfl, rfl⟩
        · exact hs
      refine .adopt m (by rw [hk.mc, g3]; exact hm) (by omega) hinc (by rw [hk.term, g2]) hrole
        (by rw [hk.mc, g3]; exact g4) hsv hseen hplain
    · refine .quiet hinc (by rw [hk.term, g2]) (by rw [hk.mc, g3]) (Or.inr hrole) (Or.inl ?_) ?_ ?_ hplain
      · rw [hk.yes, g4, a0.1.yes]
      · unfold Resaved at hs
        rw [g5, a0.2, g3, g2] at hs
        exact hs
      · intro x r hx; rw [hseen] at hx; exact Or.inl hx
  have one : ∀ (rej gap : Bool) (l : Nat), Micro M v n (commitWhatWeCan false k) [mkAck v k m rej gap l] := by
    intro rej gap l
    have h := commitWhatWeCan_alike false k
    refine fin _ _ h.1 h.2 ?_
    intro x hx
    rw [List.mem_singleton] at hx
    subst hx
    exact ⟨⟨(v, k.inc), m.src, k.term, m.term, rej, gap, l, k.log.length, k.mc.term⟩,
      by rw [h.1.mc]; rfl, rfl, h.1.term.symm⟩
  split
  · exact one _ _ _
  split
  · exact one _ _ _
  split
  · exact one _ _ _
  split
  · exact one _ _ _
  split
  · exact one _ _ _
  · rename_i log _
    have h := commitWhatWeCan_alike false { k with log := log, commit := max k.commit (min m.commit log.length) }
    refine fin _ _ ⟨h.1.inc, h.1.role, h.1.term, h.1.mc, h.1.yes, h.1.seen⟩ h.2 ?_
    intro x hx
    rw [List.mem_singleton] at hx
    subst hx
    exact ⟨_, by rw [h.1.mc]; rfl, rfl, h.1.term.symm⟩

theorem handleAck_micro {M : List Msg} {v : Nat} {n : Node} {m : Ack} {c : Conf} {nf forced : Bool}
    (hm : .ack m c ∈ M) : Micro M v n (handleAck v n m c nf forced) [] := by
  unfold handleAck
  have q0 : Micro M v n n [] :=
    quiet_alike ⟨rfl, rfl, rfl, rfl, rfl, rfl⟩ (Or.inl ⟨rfl, rfl⟩) (by simp)
  split
  · rename_i h; exact becomeFollower_micro hm rfl h
  split
  · exact q0
  split
  · exact q0
  split
  · exact q0
  have qp : ∀ p, Micro M v n { n with peers := p } [] := fun p =>
    quiet_alike ⟨rfl, rfl, rfl, rfl, rfl, rfl⟩ (Or.inl ⟨rfl, rfl⟩) (by simp)
  have ql : ∀ p, Micro M v n (leaderAdvanceCommitIndex { n with peers := p } nf) [] := by
    intro p
    have h := leaderAdvance_alike { n with peers := p } nf
    exact quiet_alike ⟨h.1.inc, h.1.role, h.1.term, h.1.mc, h.1.yes, h.1.seen⟩ h.2 (by simp)
  simp only
  split
  · split
    · exact qp _
    · split
      · exact ql _
      · exact qp _
  · split
    · exact ql _
    · split
      · exact ql _
      · exact qp _

theorem receive_micro {M : List Msg} {v noop : Nat} {n : Node} {e : Env} {m : Msg} {r : Node × List Msg}
    (hm : m ∈ M) (hto : m.toward v = true)
    (hcand : n.role = .candidate → v ∈ n.mc.names ∧ n.mc.names.length ≠ 1)
    (h : receive v noop n e m = some r) : Micro M v n r.1 r.2 := by
  cases m with
  | reqVote q c =>
    cases h
    exact handleRequestVote_micro hm (by simpa [Msg.toward] using hto)
  | preReq q c =>
    cases h
    refine quiet_alike ⟨rfl, rfl, rfl, rfl, rfl, rfl⟩ (Or.inl ⟨rfl, rfl⟩) ?_
    intro x hx
    rw [List.mem_singleton] at hx
    subst hx
    exact ⟨rfl, rfl, rfl⟩
  | vote q c =>
    simp only [receive] at h
    cases ht : tallyVote v noop n q c e.nofault with
    | none => rw [ht] at h; cases h
    | some n' => rw [ht] at h; cases h; exact tallyVote_micro hm hcand ht
  | preVote q c => cases h; exact tallyPreVote_micro
  | ae q c => cases h; exact handleAppendEntries_micro hm
  | ack q c => cases h; exact handleAck_micro hm

theorem see_micro {M : List Msg} {v : Nat} {n : Node} {m : Msg} (hm : m ∈ M) :
    Micro M v n (see n m) [] := by
  unfold see
  split
  · exact quiet_alike ⟨rfl, rfl, rfl, rfl, rfl, rfl⟩ (Or.inl ⟨rfl, rfl⟩) (by simp)
  · rename_i x r hx
    refine .quiet rfl rfl rfl (Or.inl rfl) (Or.inl rfl) (Or.inl ⟨rfl, rfl⟩) ?_ (by simp)
    intro y r' hy
    simp only [upd] at hy
    split at hy
    · rename_i hyx
      subst hyx
      refine Or.inr ⟨m, hm, r, hx, ?_⟩
      simp only [Option.some.injEq] at hy
      subst hy
      split
      · rename_i h0; exact ⟨rfl, rfl, Or.inr h0⟩
      · exact ⟨rfl, rfl, Or.inl rfl⟩
    · exact Or.inl hy

theorem changeMembership_micro {M : List Msg} {v : Nat} {n n' : Node} {c : Change}
    (h : changeMembership v n c = some n') : Micro M v n n' [] := by
  unfold changeMembership at h
  split at h
  · cases h
  rename_i hr
  split at h
  · cases h
  rename_i names hn
  split at h
  · rename_i hc
    cases h
    have ho : quorumsOverlap n.mc.names names = true := by
      unfold canReconfig at hc
      simp only [Bool.and_eq_true] at hc
      exact hc.2
    exact .change (Classical.not_not.mp hr) c hn ho rfl rfl (Classical.not_not.mp hr) rfl rfl ⟨rfl, rfl⟩ rfl rfl
  · cases h

theorem replicateBatch_micro {M : List Msg} {v : Nat} {n : Node} {cmds : List Nat} :
    Micro M v n (replicateBatch n cmds) [] := by
  simp only [replicateBatch]
  split
  · have h := commitWhatWeCan_alike true { n with
      log := n.log ++ cmds.map fun c => ⟨n.term, c⟩
      commit := (n.log ++ cmds.map fun c => (⟨n.term, c⟩ : Entry)).length }
    exact quiet_alike ⟨h.1.inc, h.1.role, h.1.term, h.1.mc, h.1.yes, h.1.seen⟩ h.2 (by simp)
  · exact quiet_alike ⟨rfl, rfl, rfl, rfl, rfl, rfl⟩ (Or.inl ⟨rfl, rfl⟩) (by simp)

/-! ### Steps -/

theorem put_nodes (s : Sys) (v : Nat) (n' : Node) (out : List Msg) (x : Nat) :
    (s.put v n' out).nodes x = if x = v then n' else s.nodes x := rfl

theorem put_self (s : Sys) (v : Nat) (n' : Node) (out : List Msg) :
    (s.put v n' out).nodes v = n' := by rw [put_nodes, if_pos rfl]

theorem put_other (s : Sys) {v x : Nat} (n' : Node) (out : List Msg) (h : x ≠ v) :
    (s.put v n' out).nodes x = s.nodes x := by rw [put_nodes, if_neg h]

/-! ### What one event does to the log -/

/-- The log of a leader grows by entries of its term, a new leader adds one; anybody else keeps
the log or takes over what an append-entries message says. Only leaders send those. -/
structure Logs (M : List Msg) (v : Nat) (n n' : Node) (out : List Msg) : Prop where
  grow : n'.role = .leader → n.role = .leader → ∃ new, n'.log = n.log ++ new ∧ ∀ e ∈ new, e.term = n'.term
  first : n'.role = .leader → n.role ≠ .leader → ∃ noop, n'.log = n.log ++ [⟨n'.term, noop⟩]
  other : n'.role ≠ .leader → n'.log = n.log ∨ ∃ m c, .ae m c ∈ M ∧
    Raft.updateLog n.log m ((Raft.terms n.log).isPrefixOf m.terms)
      (Raft.commonPrefix m.terms (Raft.terms n.log)) = some n'.log ∧
    ((Raft.terms n.log).isPrefixOf m.terms = false → m.prev ≤ Raft.commonPrefix m.terms (Raft.terms n.log))
  sent : ∀ m c, .ae m c ∈ out → n'.role = .leader ∧ n' = n ∧
    ∃ beg cnt, (cnt = 0 ∨ (1 ≤ beg ∧ beg - 1 + cnt ≤ n.log.length)) ∧ .ae m c = mkAE v n beg cnt

theorem Logs.same {M : List Msg} {v : Nat} {n n' : Node} {out : List Msg} (hl : n'.log = n.log)
    (hr : n'.role = n.role ∨ n'.role ≠ .leader) (ho : ∀ m c, .ae m c ∉ out) : Logs M v n n' out where
  grow _ _ := ⟨[], by rw [hl, List.append_nil], by simp⟩
  first h h' := by
    rcases hr with hr | hr
    · rw [h] at hr; exact absurd hr.symm h'
    · exact absurd h hr
  other _ := Or.inl hl
  sent m c h := absurd h (ho m c)

theorem commitWhatWeCan_log (l : Bool) (n : Node) : (commitWhatWeCan l n).log = n.log := by
  unfold commitWhatWeCan save
  split <;> rfl

theorem setMC_log (n : Node) (c : Conf) : (setMC n c).log = n.log := by
  unfold setMC save
  split <;> rfl

theorem leaderAdvance_log (n : Node) (nf : Bool) : (leaderAdvanceCommitIndex n nf).log = n.log := by
  unfold leaderAdvanceCommitIndex
  split
  · rfl
  · split
    · rfl
    · rw [commitWhatWeCan_log]

theorem concludePreVote_log (n : Node) (nf : Bool) : (concludePreVote n nf).log = n.log := by
  unfold concludePreVote resetPreVoteState
  split
  · rfl
  · split
    · rfl
    · split <;> rfl

theorem becomeFollower_log (n : Node) (t : Nat) (c : Option Conf) (sv : Bool) :
    (becomeFollower n t c sv).log = n.log ∧ (becomeFollower n t c sv).role = .follower := by
  simp only [becomeFollower, resetPreVoteState, setMC, save]
  cases c <;> cases sv <;> simp only <;> repeat' split
  all_goals simp_all

theorem becomeLeader_log {v noop : Nat} {n n' : Node} (h : becomeLeader v noop n = some n') :
    n'.log = n.log ++ [⟨n'.term, noop⟩] := by
  unfold becomeLeader at h
  split at h
  · cases h
  split at h
  · cases h
  split at h
  · cases h
  simp only at h
  split at h
  · cases h
    simp only [save, commitWhatWeCan, resetPreVoteState]
    repeat' split
    all_goals rfl
  · cases h
    rfl

theorem becomeLeader_Logs {M : List Msg} {v noop : Nat} {n n' : Node} (h : becomeLeader v noop n = some n') :
    Logs M v n n' [] where
  grow _ h' := by
    unfold becomeLeader at h
    rw [if_pos h'] at h
    cases h
  first _ _ := ⟨noop, becomeLeader_log h⟩
  other h' := by
    exfalso
    exact h' (becomeLeader_spec h).2.2.1
  sent m c hm := by cases hm

theorem beginElection_logs {M : List Msg} {v noop : Nat} {n : Node} {r : Node × List Msg}
    (h : beginElection v noop n = some r) : Logs M v n r.1 r.2 := by
  unfold beginElection at h
  split at h
  · cases h; exact .same rfl (Or.inl rfl) (by simp)
  simp only at h
  split at h
  · cases hb : becomeLeader v noop (resetPreVoteState n) with
    | none => rw [hb] at h; cases h
    | some n' =>
      rw [hb] at h; cases h
      have k := becomeLeader_Logs (M := M) hb
      exact ⟨k.grow, k.first, k.other, fun m c hm => by cases hm⟩
  · cases h
    refine .same rfl (Or.inr (by simp)) (by simp)

theorem beginPreVote_logs {M : List Msg} {v : Nat} {n : Node} {nf : Bool} :
    Logs M v n (beginPreVote v n nf).1 (beginPreVote v n nf).2 := by
  unfold beginPreVote
  split
  · exact .same rfl (Or.inl rfl) (by simp)
  simp only
  split
  · refine .same (concludePreVote_log _ _) (Or.inr ?_) (by simp)
    rw [(concludePreVote_alike _ nf).1.role]
    simp
  · exact .same rfl (Or.inr (by simp)) (by simp)

theorem tallyPreVote_logs {M : List Msg} {v : Nat} {n : Node} {m : Vote} {c : Conf} {nf : Bool} :
    Logs M v n (tallyPreVote v n m c nf) [] := by
  unfold tallyPreVote
  have q0 : Logs M v n n [] := .same rfl (Or.inl rfl) (by simp)
  split
  · exact q0
  split
  · exact q0
  split
  · exact .same rfl (Or.inl rfl) (by simp)
  split
  · exact q0
  split
  · exact q0
  simp only
  refine .same ?_ (Or.inl ?_) (by simp)
  · rw [concludePreVote_log]
    repeat' split
    all_goals rfl
  · rw [(concludePreVote_alike _ nf).1.role]
    repeat' split
    all_goals rfl

theorem decideVote_log (n : Node) (m : ReqVote) (c : Conf) :
    (decideVote n m c).1.log = n.log ∧ (decideVote n m c).1.role = n.role := by
  unfold decideVote save
  split <;> exact ⟨rfl, rfl⟩

theorem handleRequestVote_logs {M : List Msg} {v : Nat} {n : Node} {q : ReqVote} {c : Conf} {st : Bool} :
    Logs M v n (handleRequestVote v n q c st).1 [(handleRequestVote v n q c st).2] := by
  simp only [handleRequestVote]
  refine .same ?_ ?_ (by simp)
  · repeat' split
    · rfl
    · rfl
    · rw [(decideVote_log _ q c).1, (becomeFollower_log _ _ _ _).1]
    · rfl
    · rw [(decideVote_log _ q c).1]
  · repeat' split
    · exact Or.inl rfl
    · exact Or.inl rfl
    · right; rw [(decideVote_log _ q c).2, (becomeFollower_log _ _ _ _).2]; simp
    · exact Or.inl rfl
    · left; rw [(decideVote_log _ q c).2]

theorem countVote_log (v : Nat) (n : Node) (m : Vote) :
    (countVote v n m).log = n.log ∧ (countVote v n m).role = n.role ∧ (countVote v n m).term = n.term := by
  unfold countVote
  repeat' split
  all_goals exact ⟨rfl, rfl, rfl⟩

theorem tallyVote_logs {M : List Msg} {v noop : Nat} {n n' : Node} {m : Vote} {c : Conf} {nf : Bool}
    (h : tallyVote v noop n m c nf = some n') : Logs M v n n' [] := by
  unfold tallyVote at h
  have q0 : Logs M v n n [] := .same rfl (Or.inl rfl) (by simp)
  have qf : ∀ (k : Node) t c' sv, k.log = n.log → Logs M v n (becomeFollower k t c' sv) [] := by
    intro k t c' sv hk
    refine .same (by rw [(becomeFollower_log _ _ _ _).1, hk]) (Or.inr ?_) (by simp)
    rw [(becomeFollower_log _ _ _ _).2]; simp
  split at h
  · cases h; exact q0
  split at h
  · cases h; exact qf _ _ _ _ rfl
  split at h
  · cases h; exact q0
  split at h
  · cases h; exact q0
  split at h
  · cases h; exact q0
  split at h
  · cases h; exact q0
  simp only at h
  have hc := countVote_log v n m
  generalize countVote v n m = k at h hc
  split at h
  · have l := becomeLeader_Logs (M := M) h
    obtain ⟨h1, h2, h3⟩ := hc
    refine ⟨?_, ?_, fun hx => absurd (becomeLeader_spec h).2.2.1 hx, fun m c hm => by cases hm⟩
    · intro a b; have := l.grow a (by rw [h2]; exact b); rwa [h1] at this
    · intro a b; have := l.first a (by rw [h2]; exact b); rwa [h1] at this
  · split at h
    · cases h; exact qf _ _ _ _ hc.1
    · cases h; exact .same hc.1 (Or.inl hc.2.1) (by simp)

theorem follow_log (n : Node) (m : AE) (c : Conf) :
    (follow n m c).log = n.log ∧ (follow n m c).role = .follower := by
  simp only [follow, resetPreVoteState]
  split
  · exact ⟨(becomeFollower_log _ _ _ _).1.trans (setMC_log _ _), (becomeFollower_log _ _ _ _).2⟩
  · exact ⟨setMC_log _ _, rfl⟩

theorem handleAppendEntries_logs {M : List Msg} {v : Nat} {n : Node} {m : AE} {c : Conf}
    (hm : .ae m c ∈ M) :
    Logs M v n (handleAppendEntries v n m c).1 (handleAppendEntries v n m c).2 := by
  unfold handleAppendEntries
  split
  · exact .same rfl (Or.inl rfl) (by simp)
  simp only
  split
  · refine .same (commitWhatWeCan_log _ _) (Or.inl (commitWhatWeCan_alike _ _).1.role) (by simp [mkAck])
  have hf := follow_log { n with commit := max n.commit (min m.commit
    (Raft.commonPrefix m.terms (Raft.terms n.log))) } m c
  generalize follow { n with commit := max n.commit (min m.commit
    (Raft.commonPrefix m.terms (Raft.terms n.log))) } m c = k at hf ⊢
  obtain ⟨f1, f2⟩ := hf
  have f1 : k.log = n.log := f1
  have q : ∀ rej gap l, Logs M v n (commitWhatWeCan false k) [mkAck v k m rej gap l] := by
    intro rej gap l
    refine .same (by rw [commitWhatWeCan_log, f1]) (Or.inr ?_) (by simp [mkAck])
    rw [(commitWhatWeCan_alike _ _).1.role, f2]; simp
  split
  · exact q _ _ _
  split
  · exact q _ _ _
  split
  · exact q _ _ _
  split
  · exact q _ _ _
  rename_i hgap
  split
  · exact q _ _ _
  · rename_i log hu
    have hr : (commitWhatWeCan false { k with
        log := log, commit := max k.commit (min m.commit log.length) }).role = .follower := by
      rw [(commitWhatWeCan_alike _ _).1.role]; exact f2
    refine ⟨fun h => ?_, fun h => ?_, fun _ => Or.inr ⟨m, c, hm, ?_, ?_⟩, fun m' c' h => ?_⟩
    · rw [hr] at h; cases h
    · rw [hr] at h; cases h
    · rw [commitWhatWeCan_log, ← f1]
      rw [f1] at hu ⊢
      exact hu
    · intro hx
      rw [hx] at hgap
      simpa using hgap
    · simp [mkAck] at h

theorem handleAck_logs {M : List Msg} {v : Nat} {n : Node} {m : Ack} {c : Conf} {nf forced : Bool} :
    Logs M v n (handleAck v n m c nf forced) [] := by
  unfold handleAck
  have q0 : Logs M v n n [] := .same rfl (Or.inl rfl) (by simp)
  have qp : ∀ p, Logs M v n { n with peers := p } [] := fun p => .same rfl (Or.inl rfl) (by simp)
  have ql : ∀ p, Logs M v n (leaderAdvanceCommitIndex { n with peers := p } nf) [] := by
    intro p
    exact .same (leaderAdvance_log _ _) (Or.inl (leaderAdvance_alike _ _).1.role) (by simp)
  split
  · refine .same (becomeFollower_log _ _ _ _).1 (Or.inr ?_) (by simp)
    rw [(becomeFollower_log _ _ _ _).2]; simp
  split
  · exact q0
  split
  · exact q0
  split
  · exact q0
  simp only
  split
  · split
    · exact qp _
    · split
      · exact ql _
      · exact qp _
  · split
    · exact ql _
    · split
      · exact ql _
      · exact qp _

theorem receive_logs {M : List Msg} {v noop : Nat} {n : Node} {e : Env} {m : Msg} {r : Node × List Msg}
    (hm : m ∈ M) (h : receive v noop n e m = some r) : Logs M v n r.1 r.2 := by
  cases m with
  | reqVote q c => cases h; exact handleRequestVote_logs
  | preReq q c => cases h; exact .same rfl (Or.inl rfl) (by simp [handleRequestPreVote])
  | vote q c =>
    simp only [receive] at h
    cases ht : tallyVote v noop n q c e.nofault with
    | none => rw [ht] at h; cases h
    | some n' => rw [ht] at h; cases h; exact tallyVote_logs ht
  | preVote q c => cases h; exact tallyPreVote_logs
  | ae q c => cases h; exact handleAppendEntries_logs hm
  | ack q c => cases h; exact handleAck_logs

theorem see_logs {M : List Msg} {v : Nat} {n : Node} {m : Msg} : Logs M v n (see n m) [] := by
  unfold see
  split
  · exact .same rfl (Or.inl rfl) (by simp)
  · exact .same rfl (Or.inl rfl) (by simp)

theorem changeMembership_logs {M : List Msg} {v : Nat} {n n' : Node} {c : Change}
    (h : changeMembership v n c = some n') : Logs M v n n' [] := by
  unfold changeMembership at h
  split at h
  · cases h
  split at h
  · cases h
  split at h
  · cases h; exact .same rfl (Or.inl rfl) (by simp)
  · cases h

theorem replicateBatch_logs {M : List Msg} {v : Nat} {n : Node} {cmds : List Nat} (hn : n.role = .leader) :
    Logs M v n (replicateBatch n cmds) [] := by
  have e : (replicateBatch n cmds).log = n.log ++ cmds.map (fun c => (⟨n.term, c⟩ : Entry)) ∧
      (replicateBatch n cmds).role = n.role ∧ (replicateBatch n cmds).term = n.term := by
    simp only [replicateBatch]
    split
    · exact ⟨commitWhatWeCan_log _ _, (commitWhatWeCan_alike _ _).1.role, (commitWhatWeCan_alike _ _).1.term⟩
    · exact ⟨rfl, rfl, rfl⟩
  refine ⟨fun _ _ => ⟨_, e.1, ?_⟩, fun _ h => absurd hn h, fun h => ?_, fun m c hm => by cases hm⟩
  · intro x hx
    rw [List.mem_map] at hx
    obtain ⟨y, _, rfl⟩ := hx
    exact e.2.2.symm
  · rw [e.2.1] at h; exact absurd hn h

theorem send_logs {M : List Msg} {v : Nat} {n : Node} {beg cnt : Nat} (hn : n.role = .leader)
    (hc : cnt = 0 ∨ (1 ≤ beg ∧ beg - 1 + cnt ≤ n.log.length)) : Logs M v n n [mkAE v n beg cnt] := by
  refine ⟨fun _ _ => ⟨[], by simp, by simp⟩, fun _ h => absurd hn h, fun _ => Or.inl rfl, fun m c hm => ?_⟩
  rw [List.mem_singleton] at hm
  exact ⟨hn, rfl, beg, cnt, hc, hm⟩

theorem tryChanges_ind {P : Sys → Prop}
    (hput : ∀ s v n' out, P s → Micro s.msgs v (s.nodes v) n' out →
      Logs s.msgs v (s.nodes v) n' out → P (s.put v n' out))
    (v : Nat) (M : List Msg) (cs : List Change) (s : Sys) (hs : P s) (hM : ∀ m ∈ M, m ∈ s.msgs) :
    P (s.tryChanges v cs) ∧ ∀ m ∈ M, m ∈ (s.tryChanges v cs).msgs := by
  induction cs generalizing s with
  | nil => exact ⟨hs, hM⟩
  | cons c cs ih =>
    unfold Sys.tryChanges
    split
    · exact ih s hs hM
    · rename_i n' hn
      refine ih _ (hput s v n' [] hs (changeMembership_micro hn) (changeMembership_logs hn)) ?_
      intro m hm
      exact List.mem_append_left _ (hM m hm)

/-- To keep `P` it is enough to keep it under every small step of a node. -/
theorem step_ind {P : Sys → Prop}
    (hput : ∀ s v n' out, P s → Micro s.msgs v (s.nodes v) n' out →
      Logs s.msgs v (s.nodes v) n' out → P (s.put v n' out))
    (hcand : ∀ s v, P s → (s.nodes v).role = .candidate →
      v ∈ (s.nodes v).mc.names ∧ (s.nodes v).mc.names.length ≠ 1)
    {s s' : Sys} {a : Action} (hs : P s) (h : step s a = some s') : P s' := by
  cases a with
  | preVote v nf =>
    simp only [step] at h
    split at h
    · cases h; exact hput _ _ _ _ hs beginPreVote_micro beginPreVote_logs
    · cases h
  | timeout v noop =>
    simp only [step] at h
    split at h
    · rename_i hc
      cases hb : beginElection v noop (s.nodes v) with
      | none => rw [hb] at h; cases h
      | some r => rw [hb] at h; cases h; exact hput _ _ _ _ hs (beginElection_micro hc.1 hb) (beginElection_logs hb)
    · cases h
  | stepDown v =>
    simp only [step] at h
    split at h
    · cases h
      refine hput _ _ _ _ hs ?_ (.same (becomeFollower_log _ _ _ _).1
        (Or.inr (by rw [(becomeFollower_log _ _ _ _).2]; simp)) (by simp))
      have hb := becomeFollower_none (s.nodes v) true
      simp only at hb
      obtain ⟨b1, b2, b3, b4, b5, b6, b7⟩ := hb
      exact .quiet b1 b2 b5 (Or.inr b3) (Or.inl b6) b7 (fun x r hx => by rw [b4] at hx; exact Or.inl hx) (by simp)
    · cases h
  | deliver v k noop e chs =>
    simp only [step] at h
    split at h
    · cases h
    rename_i m hk
    split at h
    · rename_i hto
      have hm : m ∈ s.msgs := List.mem_of_getElem? hk
      have h1 := hput s v (see (s.nodes v) m) [] hs (see_micro hm) see_logs
      have h2 := tryChanges_ind hput v [m] chs _ h1 (by
        intro x hx
        rw [List.mem_singleton] at hx
        subst hx
        exact List.mem_append_left _ hm)
      generalize Sys.tryChanges (s.put v (see (s.nodes v) m) []) v chs = t at h h2
      cases hr : receive v noop (t.nodes v) e m with
      | none => rw [hr] at h; cases h
      | some r =>
        rw [hr] at h; cases h
        exact hput _ _ _ _ h2.1 (receive_micro (h2.2 m (List.mem_singleton.mpr rfl)) hto (hcand t v h2.1) hr)
          (receive_logs (h2.2 m (List.mem_singleton.mpr rfl)) hr)
    · cases h
  | change v c =>
    simp only [step] at h
    cases hc : changeMembership v (s.nodes v) c with
    | none => rw [hc] at h; cases h
    | some n' => rw [hc] at h; cases h; exact hput _ _ _ _ hs (changeMembership_micro hc) (changeMembership_logs hc)
  | client v cmds =>
    simp only [step] at h
    split at h
    · rename_i hr; cases h; exact hput _ _ _ _ hs replicateBatch_micro (replicateBatch_logs hr.1)
    · cases h
  | send v beg cnt =>
    simp only [step] at h
    split at h
    · rename_i hc
      cases h
      refine hput _ _ _ _ hs (quiet_alike ⟨rfl, rfl, rfl, rfl, rfl, rfl⟩ (Or.inl ⟨rfl, rfl⟩) ?_) (send_logs hc.1 hc.2)
      intro x hx
      rw [List.mem_singleton] at hx
      subst hx
      exact ⟨rfl, rfl, rfl, hc.1⟩
    · cases h
  | join v p =>
    simp only [step] at h
    split at h
    · cases h
      refine hput _ _ _ _ hs (.quiet rfl rfl rfl (Or.inl rfl) (Or.inl rfl) (Or.inl ⟨rfl, rfl⟩) ?_ (by simp))
        (.same rfl (Or.inl rfl) (by simp))
      intro x r hx
      simp only [upd] at hx
      split at hx
      · cases hx
      · exact Or.inl hx
    · cases h
  | leave v p =>
    cases h
    refine hput _ _ _ _ hs (.quiet rfl rfl rfl (Or.inl rfl) (Or.inl rfl) (Or.inl ⟨rfl, rfl⟩) ?_ (by simp))
        (.same rfl (Or.inl rfl) (by simp))
    intro x r hx
    simp only [upd] at hx
    split at hx
    · cases hx
    · exact Or.inl hx
  | crash v =>
    cases h
    exact hput _ _ _ _ hs (.crash rfl rfl rfl rfl rfl (fun _ => rfl) rfl)
      (.same rfl (Or.inr (by simp [restart])) (by simp))

theorem run_ind {P : Sys → Prop}
    (hput : ∀ s v n' out, P s → Micro s.msgs v (s.nodes v) n' out →
      Logs s.msgs v (s.nodes v) n' out → P (s.put v n' out))
    (hcand : ∀ s v, P s → (s.nodes v).role = .candidate →
      v ∈ (s.nodes v).mc.names ∧ (s.nodes v).mc.names.length ≠ 1)
    (as : List Action) : ∀ {s s' : Sys}, P s → run s as = some s' → P s' := by
  induction as with
  | nil => intro s s' hs h; cases h; exact hs
  | cons a as ih =>
    intro s s' hs h
    unfold run at h
    cases hb : step s a with
    | none => rw [hb] at h; cases h
    | some t => rw [hb] at h; exact ih (step_ind hput hcand hs hb) h

end Verif.Reconfig
