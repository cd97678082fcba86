import Verif.Proofs.RaftGood2
/-
Commitment: what nodes commit and apply has been acknowledged by a majority.
-/
namespace Verif.Raft

/-- An entry of term `t` that a majority has acknowledged to the leader of `t`. -/
def Committed (mem : List Nat) (s : Sys) (t i : Nat) : Prop :=
  At s t i ∧ Elected s.hist t ∧ ∃ Q, Quor mem Q ∧ ∀ u ∈ Q, Acked s u t i

theorem Committed.not_dead {mem : List Nat} {s : Sys} {t i : Nat} (h : Committed mem s t i) :
    ¬ Dead mem s t i := by
  obtain ⟨_, _, Q, hQ, ha⟩ := h
  intro hd
  obtain ⟨u, hu, _, hn⟩ := hd Q hQ
  exact hn (ha u hu)

/-- Log `L` of a node at term `T` may be taken as committed up to `ci`. -/
def ComOK (mem : List Nat) (s : Sys) (T ci : Nat) (L : List Entry) : Prop :=
  ci = 0 ∨ ∃ t i, Committed mem s t i ∧ t ≤ T ∧ ci ≤ i ∧ (s.hist.lead t).take ci <+: L

theorem ComOK.le {mem s T T' ci ci' L L'} (h : ComOK mem s T ci L) (hT : T ≤ T') (hc : ci' ≤ ci)
    (hL : L.take ci' <+: L') : ComOK mem s T' ci' L' := by
  rcases h with h | ⟨t, i, h1, h2, h3, h4⟩
  · left; omega
  · right
    refine ⟨t, i, h1, by omega, by omega, ?_⟩
    have hlen : ((s.hist.lead t).take ci).length = ci := by
      have := h1.1.2.1; simp; omega
    have : (s.hist.lead t).take ci' = L.take ci' := by
      rw [take_prefix_of_prefix h4 (by omega), List.take_take]; congr 1; omega
    rw [this]; exact hL

theorem ComOK.max {mem s T a b L} (ha : ComOK mem s T a L) (hb : ComOK mem s T b L) :
    ComOK mem s T (max a b) L := by
  rcases Nat.le_total a b with h | h
  · rwa [Nat.max_eq_right h]
  · rwa [Nat.max_eq_left h]

theorem ComOK.mono {mem s T T' ci L L'} (h : ComOK mem s T ci L) (hT : T ≤ T') (hL : L <+: L') :
    ComOK mem s T' ci L' := h.le hT (Nat.le_refl _) ((List.take_prefix _ _).trans hL)

/-- Saved and applied positions stay within the commit index. -/
def SavedC (n : Node) : Prop :=
  n.saved.commit ≤ n.commit ∧ n.applied ≤ n.commit ∧ n.saved.applied ≤ n.saved.commit

structure Inv3 (mem : List Nat) (s : Sys) : Prop where
  com : ∀ v, ComOK mem s (s.nodes v).saved.term (s.nodes v).commit (s.nodes v).log
  comAE : ∀ m, Msg.ae m ∈ s.msgs → ComOK mem s m.term m.commit ((s.hist.lead m.term).take m.terms.length)
  saved : ∀ v, SavedC (s.nodes v)
  appl : ∀ v idx e, (v, idx, e) ∈ s.hist.applied →
    ∃ t i, Committed mem s t i ∧ 1 ≤ idx ∧ idx ≤ i ∧ (s.hist.lead t)[idx - 1]? = some e
  names : ∀ v, ((s.nodes v).peers.map (·.1.1)).Nodup ∧ ∀ x ∈ (s.nodes v).peers, x.1.1 ≠ v
  candPeers : ∀ v, (s.nodes v).role = .candidate → ∀ x ∈ (s.nodes v).peers, x.2 = 0
  pos : ∀ v, (s.nodes v).role = .leader → ∀ x ∈ (s.nodes v).peers, x.1.1 ∈ mem → 0 < x.2 →
    Acked s x.1.1 (s.nodes v).term x.2
  ackSrc : ∀ m, Msg.ack m ∈ s.msgs → m.src.1 ≠ m.leader.1

/-- What a step has to satisfy for `Inv3`, beyond `Good1` and `Good2`. -/
structure Good3 (mem : List Nat) (s : Sys) (v : Nat) (n' : Node) (ms : List Msg) : Prop where
  com : ComOK mem (s.put mem v n' ms) n'.saved.term n'.commit n'.log
  comAE : ∀ m, Msg.ae m ∈ ms →
    ComOK mem (s.put mem v n' ms) m.term m.commit (((s.put mem v n' ms).hist.lead m.term).take m.terms.length)
  saved : SavedC n'
  names : (n'.peers.map (·.1.1)).Nodup ∧ ∀ x ∈ n'.peers, x.1.1 ≠ v
  candPeers : n'.role = .candidate → ∀ x ∈ n'.peers, x.2 = 0
  pos : n'.role = .leader → ∀ x ∈ n'.peers, x.1.1 ∈ mem → 0 < x.2 →
    Acked (s.put mem v n' ms) x.1.1 n'.term x.2
  ackSrc : ∀ m, Msg.ack m ∈ ms → m.src.1 ≠ m.leader.1

section
variable {mem : List Nat} {s : Sys} {v : Nat} {n' : Node} {ms : List Msg}

theorem committed_mono (I : Inv1 mem s) (G : Good1 mem s v n' ms) {t i : Nat}
    (h : Committed mem s t i) : Committed mem (s.put mem v n' ms) t i := by
  obtain ⟨h1, h2, Q, hQ, h3⟩ := h
  exact ⟨at_put I G h1, h2.put, Q, hQ, fun u hu => acked_mono I G (h3 u hu)⟩

theorem ComOK.put (I : Inv1 mem s) (G : Good1 mem s v n' ms) {T ci L} (h : ComOK mem s T ci L) :
    ComOK mem (s.put mem v n' ms) T ci L := by
  rcases h with h | ⟨t, i, h1, h2, h3, h4⟩
  · exact Or.inl h
  · refine Or.inr ⟨t, i, committed_mono I G h1, h2, h3, ?_⟩
    rw [take_put I G (by have := h1.1.2.1; omega)]; exact h4

theorem mem_newlyApplied {n n' : Node} {idx : Nat} {e : Entry} (h : (idx, e) ∈ newlyApplied n n') :
    1 ≤ idx ∧ idx ≤ n'.applied ∧ n'.log[idx - 1]? = some e := by
  unfold newlyApplied at h
  rw [List.mem_map] at h
  obtain ⟨⟨e', i⟩, h1, h2⟩ := h
  cases h2
  have h3 := List.mem_of_mem_drop h1
  rw [List.mem_iff_getElem] at h3
  obtain ⟨k, hk, h4⟩ := h3
  simp only [List.getElem_zipIdx, Prod.mk.injEq] at h4
  simp only [List.length_zipIdx, List.length_take] at hk
  obtain ⟨h5, h6⟩ := h4
  subst h6
  refine ⟨by omega, by omega, ?_⟩
  rw [show 1 + k - 1 = k by omega, ← h5, List.getElem_take, List.getElem?_eq_getElem]

theorem Inv3.put (I : Inv1 mem s) (I3 : Inv3 mem s) (G : Good1 mem s v n' ms)
    (G3 : Good3 mem s v n' ms) : Inv3 mem (s.put mem v n' ms) := by
  have node := fun u => node_put (mem := mem) (s := s) (v := v) (n' := n') (ms := ms) u
  constructor
  case com =>
    intro u; rcases node u with ⟨rfl, h⟩ | ⟨_, h⟩ <;> rw [h]
    · exact G3.com
    · exact (I3.com u).put I G
  case comAE =>
    intro m hm
    rcases mem_put_msgs.1 hm with h | h
    · exact ((I3.comAE m h).put I G).mono (Nat.le_refl _) (take_prefix_take (lead_prefix I G _))
    · exact G3.comAE m h
  case saved =>
    intro u; rcases node u with ⟨rfl, h⟩ | ⟨_, h⟩ <;> rw [h]
    · exact G3.saved
    · exact I3.saved u
  case appl =>
    intro u idx e h
    have h' : (u, idx, e) ∈ s.hist.applied ++ (newlyApplied (s.nodes v) n').map fun p => (v, p.1, p.2) := h
    rcases List.mem_append.1 h' with h1 | h1
    · obtain ⟨t, i, h2, h3, h4, h5⟩ := I3.appl u idx e h1
      refine ⟨t, i, committed_mono I G h2, h3, h4, ?_⟩
      have := h2.1.2.1
      obtain ⟨r, hr⟩ := lead_prefix I G t
      rw [← hr, List.getElem?_append_left (by omega)]; exact h5
    · rw [List.mem_map] at h1
      obtain ⟨⟨i0, e0⟩, h2, h3⟩ := h1
      cases h3
      obtain ⟨h4, h5, h6⟩ := mem_newlyApplied h2
      have h7 := G3.saved.2.1
      rcases G3.com with h8 | ⟨t, i, h8, h9, h10, h11⟩
      · omega
      · refine ⟨t, i, h8, h4, by omega, ?_⟩
        have hlen : (((s.put mem v n' ms).hist.lead t).take n'.commit).length = n'.commit := by
          have := h8.1.2.1; simp; omega
        obtain ⟨r, hr⟩ := h11
        rw [← hr, List.getElem?_append_left (by omega), List.getElem?_take, if_pos (by omega)] at h6
        exact h6
  case names =>
    intro u; rcases node u with ⟨rfl, h⟩ | ⟨_, h⟩ <;> rw [h]
    · exact G3.names
    · exact I3.names u
  case candPeers =>
    intro u; rcases node u with ⟨rfl, h⟩ | ⟨_, h⟩ <;> rw [h]
    · exact G3.candPeers
    · exact I3.candPeers u
  case pos =>
    intro u; rcases node u with ⟨rfl, h⟩ | ⟨_, h⟩ <;> rw [h]
    · exact G3.pos
    · intro hr x hx hm hp
      exact acked_mono I G (I3.pos u hr x hx hm hp)
  case ackSrc =>
    intro m hm
    rcases mem_put_msgs.1 hm with h | h
    · exact I3.ackSrc m h
    · exact G3.ackSrc m h

end

/-! Counting match positions. -/

theorem insertDesc_perm (x : Nat) : ∀ l, (insertDesc x l).Perm (x :: l)
  | [] => List.Perm.refl _
  | y :: ys => by
    unfold insertDesc
    split
    · exact List.Perm.refl _
    · exact ((insertDesc_perm x ys).cons y).trans (List.Perm.swap x y ys)

theorem sortDesc_perm : ∀ l, (sortDesc l).Perm l
  | [] => List.Perm.refl _
  | x :: xs => (insertDesc_perm x (sortDesc xs)).trans ((sortDesc_perm xs).cons x)

theorem insertDesc_sorted (x : Nat) : ∀ l, l.Pairwise (fun a b => b ≤ a) →
    (insertDesc x l).Pairwise (fun a b => b ≤ a)
  | [], _ => by simp [insertDesc]
  | y :: ys, h => by
    unfold insertDesc
    split
    · rename_i hyx
      refine List.Pairwise.cons ?_ h
      intro z hz
      rcases List.mem_cons.1 hz with rfl | hz
      · exact hyx
      · exact Nat.le_trans ((List.pairwise_cons.1 h).1 z hz) hyx
    · rename_i hyx
      refine List.Pairwise.cons ?_ (insertDesc_sorted x ys (List.pairwise_cons.1 h).2)
      intro z hz
      have := (insertDesc_perm x ys).subset hz
      rcases List.mem_cons.1 this with rfl | hz
      · omega
      · exact (List.pairwise_cons.1 h).1 z hz

theorem sortDesc_sorted : ∀ l, (sortDesc l).Pairwise (fun a b => b ≤ a)
  | [] => List.Pairwise.nil
  | x :: xs => insertDesc_sorted x _ (sortDesc_sorted xs)

/-- At least `k + 1` elements are no smaller than the element at position `k` of the
descending order. -/
theorem sortDesc_count {l : List Nat} {k i : Nat} (h : (sortDesc l)[k]? = some i) :
    k + 1 ≤ l.countP fun x => decide (i ≤ x) := by
  rw [← (sortDesc_perm l).countP_eq]
  obtain ⟨hk, he⟩ := List.getElem?_eq_some_iff.1 h
  have hs := sortDesc_sorted l
  have h1 : ((sortDesc l).take (k + 1)).countP (fun x => decide (i ≤ x)) = k + 1 := by
    have : ((sortDesc l).take (k + 1)).countP (fun x => decide (i ≤ x)) = ((sortDesc l).take (k + 1)).length := by
      rw [List.countP_eq_length]
      intro a ha
      obtain ⟨j, hj, rfl⟩ := List.mem_iff_getElem.1 ha
      rw [List.getElem_take]
      simp only [List.length_take] at hj
      rcases Nat.eq_or_lt_of_le (show j ≤ k by omega) with e | e
      · subst e; simp [he]
      · have := List.pairwise_iff_getElem.1 hs j k (by omega) hk e
        rw [he] at this
        simpa using this
    rw [this, List.length_take]; omega
  rw [← h1]
  exact (List.take_sublist _ _).countP_le

/-- The members whose recorded position reaches `i`, with the leader itself. -/
def backers (mem : List Nat) (v : Nat) (peers : List (PeerID × Nat)) (i : Nat) : List Nat :=
  v :: (peers.filter fun x => decide (x.1.1 ∈ mem) && decide (i ≤ x.2)).map (·.1.1)

theorem backers_quor {mem : List Nat} {v : Nat} {n : Node} {nf : Bool} {i : Nat} (hv : v ∈ mem)
    (hn : (n.peers.map (·.1.1)).Nodup ∧ ∀ x ∈ n.peers, x.1.1 ≠ v)
    (h : (sortDesc (matchIndexes mem n))[quorum mem nf - 1]? = some i) :
    Quor mem (backers mem v n.peers i) := by
  have hpos : 0 < mem.length := List.length_pos_of_mem hv
  have hq : 0 < quorum mem nf := by unfold quorum; split <;> omega
  refine ⟨?_, ?_, ?_⟩
  · unfold backers
    rw [List.nodup_cons]
    refine ⟨?_, ?_⟩
    · intro hx
      rw [List.mem_map] at hx
      obtain ⟨x, hx, e⟩ := hx
      exact hn.2 x (List.mem_of_mem_filter hx) e
    · exact hn.1.sublist (List.Sublist.map _ (List.filter_sublist))
  · intro x hx
    unfold backers at hx
    rcases List.mem_cons.1 hx with rfl | hx
    · exact hv
    · rw [List.mem_map] at hx
      obtain ⟨y, hy, rfl⟩ := hx
      have := (List.mem_filter.1 hy).2
      simp at this
      exact this.1
  · have hc := sortDesc_count h
    have hle : (matchIndexes mem n).countP (fun x => decide (i ≤ x)) ≤ (backers mem v n.peers i).length := by
      unfold matchIndexes backers
      rw [List.countP_cons, List.countP_map, List.countP_eq_length_filter, List.filter_filter]
      simp only [List.length_cons, List.length_map]
      have : (List.filter (fun a => ((fun x => decide (i ≤ x)) ∘ fun x => x.snd) a && decide (a.1.1 ∈ mem)) n.peers)
          = (List.filter (fun x => decide (x.1.1 ∈ mem) && decide (i ≤ x.2)) n.peers) := by
        congr 1; funext a; simp [Bool.and_comm]
      rw [this]
      split <;> omega
    exact quorum_major mem nf (by omega) hpos

/-! Good3 for every step. -/

theorem savedC_save {n : Node} (h : n.applied ≤ n.commit) : SavedC (save n) :=
  ⟨Nat.le_refl _, h, h⟩

theorem savedC_commit {n : Node} (h : SavedC n) : SavedC (commitWhatWeCan n) := by
  unfold commitWhatWeCan; split
  · exact savedC_save (Nat.le_refl _)
  · exact h

theorem savedC_raise {n n1 : Node} (h : SavedC n) (hc : n.commit ≤ n1.commit)
    (ha : n1.applied = n.applied) (hs : n1.saved = n.saved) : SavedC n1 := by
  unfold SavedC at *; rw [hs, ha]; omega

theorem savedC_follower {n : Node} {T mc sv} (h : SavedC n) : SavedC (becomeFollower n T mc sv) := by
  unfold becomeFollower
  dsimp only
  split <;> split <;> first | exact h | exact savedC_save h.2.1

theorem savedC_follow {n : Node} {m : AE} (h : SavedC n) : SavedC (follow n m) := by
  have key : ∀ n1 : Node, SavedC n1 → SavedC (if n1.term < m.term then becomeFollower n1 m.term m.mcTerm true
      else { n1 with role := .follower }) := by
    intro n1 h1; split
    · exact savedC_follower h1
    · exact h1
  unfold follow
  dsimp only
  apply key
  split
  · exact savedC_save h.2.1
  · exact h

section
variable {mem : List Nat} {s : Sys} {v : Nat} {n' : Node} {ms : List Msg}

theorem Good3.quiet (I : Inv1 mem s) (I3 : Inv3 mem s) (G : Good1 mem s v n' ms)
    (hlog : (s.nodes v).log <+: n'.log)
    (hcom : n'.commit ≤ (s.nodes v).commit) (hsv : SavedC n')
    (hp : n'.peers = (s.nodes v).peers)
    (hr : n'.role = .follower ∨ (n'.role = (s.nodes v).role ∧ n'.term = (s.nodes v).term))
    (hae : ∀ m, Msg.ae m ∉ ms) (hack : ∀ m, Msg.ack m ∈ ms → m.src.1 ≠ m.leader.1) :
    Good3 mem s v n' ms := by
  refine ⟨?_, fun m hm => (hae m hm).elim, hsv, by rw [hp]; exact I3.names v, ?_, ?_, hack⟩
  · exact ((I3.com v).put I G).le G.st hcom ((List.take_prefix _ _).trans hlog)
  · intro hc
    rcases hr with h | h
    · rw [hc] at h; cases h
    · rw [hp]; exact I3.candPeers v (by rw [← h.1, hc])
  · intro hc
    rcases hr with h | h
    · rw [hc] at h; cases h
    · intro x hx hm h0
      rw [hp] at hx
      rw [h.2]
      exact acked_mono I G (I3.pos v (by rw [← h.1, hc]) x hx hm h0)

/-- In a cluster of one, the leader's whole log is committed. -/
theorem singleton_committed (I : Inv1 mem s) (G : Good1 mem s v n' ms) (h1 : mem.length = 1)
    (hl : n'.role = .leader) :
    ComOK mem (s.put mem v n' ms) n'.term n'.log.length n'.log := by
  have I' := I.put G
  obtain ⟨Q, hQ⟩ := elected_self I G hl
  have hll : (s.put mem v n' ms).hist.lead n'.term = n'.log := put_lead_self hl
  have hlst := I'.leadLast _ ⟨_, _, hQ⟩
  rw [hll] at hlst
  refine Or.inr ⟨n'.term, n'.log.length, ⟨⟨List.length_pos_iff.2 hlst.1, by rw [hll]; exact Nat.le_refl _,
    by rw [hll]; exact hlst.2⟩, ⟨_, _, hQ⟩, [v], ⟨by simp, by simpa using G.isMem, by rw [h1]; simp⟩, ?_⟩,
    Nat.le_refl _, Nat.le_refl _, by rw [hll]; exact List.take_prefix _ _⟩
  intro u hu
  rw [List.mem_singleton] at hu
  subst hu
  exact Or.inr ⟨_, _, hQ, rfl, by rw [hll]; exact Nat.le_refl _⟩

/-- Winning an election. -/
theorem Good3.win (I : Inv1 mem s) (I3 : Inv3 mem s) (G : Good1 mem s v n' [])
    {n1 : Node} {noop : Nat} (hb : becomeLeader mem noop n1 = some n')
    (h1 : n1.term = (s.nodes v).term) (h2 : n1.log = (s.nodes v).log)
    (h3 : n1.commit = (s.nodes v).commit) (h4 : n1.applied = (s.nodes v).applied)
    (h5 : n1.peers = (s.nodes v).peers)
    (hc : mem.length ≠ 1 → (s.nodes v).role = .candidate) : Good3 mem s v n' [] := by
  have e := becomeLeader_eq hb
  obtain ⟨_, e2, _, _, e5, _, _, e8, e9, e10, _, e12, e13, e14, e15, e16⟩ := e
  have hcl : ComOK mem s (s.nodes v).saved.term (s.nodes v).commit (s.nodes v).log := I3.com v
  have happ : n'.applied ≤ n'.commit := by
    have h6 := (I3.saved v).2.1
    by_cases hl : mem.length = 1
    · obtain ⟨k1, k2⟩ := e14 hl
      rcases k2 with k2 | k2
      · omega
      · have : (s.nodes v).commit ≤ (s.nodes v).log.length := by
          rcases hcl with h | ⟨t, i, h7, _, h8, h9⟩
          · omega
          · have h10 := h9.length_le
            have h11 := h7.1.2.1
            simp at h10; omega
        have hlen : n'.log.length = (s.nodes v).log.length + 1 := by rw [e10, h2]; simp
        omega
    · have := e13 hl; omega
  refine ⟨?_, by simp, ⟨by omega, happ, by omega⟩, by rw [e12, h5]; exact I3.names v, ?_, ?_, by simp⟩
  · by_cases hl : mem.length = 1
    · rw [(e14 hl).1, e5]; exact singleton_committed I G hl e2
    · rw [(e13 hl).1, h3]
      exact (hcl.put I G).mono G.st (by rw [e10, h2]; exact List.prefix_append _ _)
  · intro hx; rw [e2] at hx; cases hx
  · intro _ x hx hm h0
    rw [e12, h5] at hx
    by_cases hl : mem.length = 1
    · exfalso
      have := (I3.names v).2 x hx
      have hv := G.isMem
      match mem, hl with
      | [y], _ => rw [List.mem_singleton] at hm hv; omega
    · have := I3.candPeers v (hc hl) x hx
      omega

theorem names_set {me : Nat} {peers : List (PeerID × Nat)} {p : PeerID} {i : Nat}
    (h : (peers.map (·.1.1)).Nodup ∧ ∀ x ∈ peers, x.1.1 ≠ me) (hp : p.1 ≠ me)
    (hone : ∀ x ∈ peers, x.1.1 = p.1 → x.1 = p) :
    ((setMatch peers p i).map (·.1.1)).Nodup ∧ ∀ x ∈ setMatch peers p i, x.1.1 ≠ me := by
  unfold setMatch
  constructor
  · rw [List.map_append, List.nodup_append]
    refine ⟨h.1.sublist (List.Sublist.map _ List.filter_sublist), by simp, ?_⟩
    intro a ha b hb hab
    simp only [List.map_cons, List.map_nil, List.mem_singleton] at hb
    rw [List.mem_map] at ha
    obtain ⟨x, hx, rfl⟩ := ha
    rw [List.mem_filter] at hx
    have := hone x hx.1 (by omega)
    simp [this] at hx
  · intro x hx
    rcases List.mem_append.1 hx with hx | hx
    · exact h.2 x (List.mem_of_mem_filter hx)
    · rw [List.mem_singleton] at hx; subst hx; exact hp

theorem matchOf_mem {peers : List (PeerID × Nat)} {p : PeerID} (h : 0 < matchOf peers p) :
    ∃ x ∈ peers, x.1 = p ∧ x.2 = matchOf peers p := by
  unfold matchOf at *
  cases hf : peers.find? (fun x => x.1 = p) with
  | none => rw [hf] at h; simp at h
  | some x =>
    rw [hf] at h
    refine ⟨x, List.mem_of_find?_eq_some hf, ?_, rfl⟩
    simpa using List.find?_some hf

end

end Verif.Raft
