import Verif.Spec.Pong
import Mathlib.Data.List.Perm.Subperm
/-
C38: the quorum freshness time.
-/
namespace Verif.Pong
open Spec

theorem before_trans (a b c : Pong) (h1 : before a b = true) (h2 : before b c = true) : before a c = true := by
  unfold before at *
  split at h1 <;> split at h2 <;> split <;> try rfl
  all_goals simp at h1 h2
  all_goals try omega
  all_goals
    rw [if_neg (by omega)]
    simp
    exact String.lt_trans h1.2 h2.2

theorem before_total (a b : Pong) (hp : a.peer ≠ b.peer) (h : ¬ before a b = true) : before b a = true := by
  unfold before at *
  split at h
  · simp at h
  · split at h
    · rw [if_pos (by omega)]
    · simp at h
      rw [if_neg (by omega), if_neg (by omega)]
      simp
      exact Decidable.byContradiction fun hn => hp (String.le_antisymm hn h)

theorem before_tm (a b : Pong) (h : before a b = true) : b.tm ≤ a.tm := by
  unfold before at h
  split at h
  · omega
  · split at h
    · simp at h
    · omega

/-- What the tree looks like after a history. -/
structure Inv (hist : List Pong) (t : List Pong) : Prop where
  sorted : t.Pairwise (fun a b => before a b = true)
  nodup : (t.map (·.peer)).Nodup
  content : ∀ p : Pong, p ∈ t ↔ lastHeard hist p.peer = some p.tm
  nonzero : ∀ p ∈ t, p.tm ≠ 0

theorem insert_spec (p : Pong) (t : List Pong) (hs : t.Pairwise (fun a b => before a b = true))
    (hp : ∀ q ∈ t, q.peer ≠ p.peer) :
    ∃ t', insert p t = some t' ∧ t'.Perm (p :: t) ∧ t'.Pairwise (fun a b => before a b = true) := by
  induction t with
  | nil => exact ⟨[p], rfl, List.Perm.refl _, by simp⟩
  | cons q qs ih =>
    simp only [insert]
    rw [List.pairwise_cons] at hs
    by_cases h1 : before p q = true
    · refine ⟨p :: q :: qs, by rw [if_pos h1], List.Perm.refl _, ?_⟩
      rw [List.pairwise_cons, List.pairwise_cons]
      refine ⟨?_, hs⟩
      intro x hx
      simp only [List.mem_cons] at hx
      rcases hx with rfl | hx
      · exact h1
      · exact before_trans p q x h1 (hs.1 x hx)
    · have h2 := before_total p q (fun h => hp q (by simp) h.symm) h1
      obtain ⟨t', h3, h4, h5⟩ := ih hs.2 (fun x hx => hp x (by simp [hx]))
      refine ⟨q :: t', by rw [if_neg h1, if_pos h2, h3]; rfl, ?_, ?_⟩
      · exact (List.Perm.cons q h4).trans (List.Perm.swap p q qs)
      · rw [List.pairwise_cons]
        refine ⟨?_, h5⟩
        intro x hx
        have := h4.subset hx
        simp only [List.mem_cons] at this
        rcases this with rfl | hx
        · exact h2
        · exact hs.1 x hx

theorem lastHeard_append (hist : List Pong) (p : Pong) (peer : String) :
    lastHeard (hist ++ [p]) peer = if p.peer = peer then some p.tm else lastHeard hist peer := by
  unfold lastHeard
  rw [List.reverse_append]
  simp only [List.reverse_cons, List.reverse_nil, List.nil_append, List.singleton_append, List.find?_cons]
  by_cases h : p.peer = peer <;> simp [h]

theorem add_inv (hist t : List Pong) (p : Pong) (h : Inv hist t) (h0 : p.tm ≠ 0) :
    ∃ t', add t p = some t' ∧ Inv (hist ++ [p]) t' := by
  unfold add
  rw [if_neg h0]
  have hdel : ∀ q ∈ delPeerID p.peer t, q.peer ≠ p.peer := by
    intro q hq; simp [delPeerID] at hq; exact hq.2
  obtain ⟨t', h1, h2, h3⟩ := insert_spec p (delPeerID p.peer t) (h.sorted.filter _) hdel
  refine ⟨t', h1, h3, ?_, ?_, ?_⟩
  · rw [(h2.map _).nodup_iff, List.map_cons, List.nodup_cons]
    refine ⟨?_, ?_⟩
    · intro hm
      rw [List.mem_map] at hm
      obtain ⟨q, hq, he⟩ := hm
      exact hdel q hq he
    · exact h.nodup.sublist (List.Sublist.map _ List.filter_sublist)
  · intro q
    rw [h2.mem_iff, lastHeard_append, List.mem_cons]
    simp only [delPeerID, List.mem_filter, h.content q]
    by_cases he : p.peer = q.peer
    · rw [if_pos he]
      simp only [he, decide_true, Bool.not_true, Bool.false_eq_true, and_false, or_false]
      constructor
      · rintro rfl; rfl
      · intro hh; injection hh with hh; cases p; cases q; simp_all
    · rw [if_neg he]
      constructor
      · rintro (rfl | hh)
        · exact absurd rfl he
        · exact hh.1
      · intro hh; exact Or.inr ⟨hh, by simp [Ne.symm he]⟩
  · intro q hq
    rw [h2.mem_iff, List.mem_cons] at hq
    rcases hq with rfl | hq
    · exact h0
    · simp [delPeerID] at hq; exact h.nonzero q hq.1

theorem addAll_inv (ps : List Pong) : ∀ (hist t : List Pong), Inv hist t → (∀ p ∈ ps, p.tm ≠ 0) →
    ∃ t', addAll t ps = some t' ∧ Inv (hist ++ ps) t' := by
  induction ps with
  | nil => intro hist t h _; exact ⟨t, rfl, by simpa using h⟩
  | cons p ps ih =>
    intro hist t h h0
    obtain ⟨t1, h1, h2⟩ := add_inv hist t p h (h0 p (by simp))
    obtain ⟨t', h3, h4⟩ := ih _ t1 h2 (fun q hq => h0 q (by simp [hq]))
    exact ⟨t', by simp [addAll, h1, h3], by simpa using h4⟩

theorem inv_empty : Inv [] [] := ⟨by simp, by simp, by simp [lastHeard], by simp⟩

/-- C38: after any history of pongs with real (non-zero) receive times, recording them
does not panic, and for a quorum of at least one: with no pong at all the answer is
"now"; otherwise the answer is a time `t` exactly when `t` is the greatest time such
that at least `q` peers were last heard from at or after `t`, and "not enough" exactly
when fewer than `q` peers were ever heard from. -/
theorem C38_quorum_time_is_qth_newest (hist : List Pong) (h0 : ∀ p ∈ hist, p.tm ≠ 0) (q : Nat) (hq : 1 ≤ q) :
    ∃ tree, addAll [] hist = some tree ∧
      (hist = [] → quorumPongTm tree q = some .now) ∧
      (hist ≠ [] →
        (quorumPongTm tree q = some .notEnough ∧ ¬ HeardSince hist q 0) ∨
        (∃ t, quorumPongTm tree q = some (.at t) ∧ HeardSince hist q t ∧
          ∀ t', HeardSince hist q t' → t' ≤ t)) := by
  obtain ⟨tree, h1, h2⟩ := addAll_inv hist [] [] inv_empty h0
  simp only [List.nil_append] at h2
  refine ⟨tree, h1, ?_, ?_⟩
  · rintro rfl
    simp [addAll] at h1
    subst h1
    rfl
  · intro hne
    have hlen : tree.length ≠ 0 := by
      intro hz
      have hnil := List.length_eq_zero_iff.1 hz
      obtain ⟨ps, p, rfl⟩ : ∃ ps p, hist = ps ++ [p] := ⟨hist.dropLast, hist.getLast hne, (List.dropLast_concat_getLast hne).symm⟩
      have := (h2.content p).2 (by rw [lastHeard_append, if_pos rfl])
      rw [hnil] at this
      simp at this
    unfold quorumPongTm
    rw [if_neg (by omega)]
    -- peers heard since t all sit in the tree
    have hin : ∀ peers : List String, peers.Nodup → ∀ k t',
        (∀ p ∈ peers, ∃ u, lastHeard hist p = some u ∧ t' ≤ u) →
        (∀ x ∈ tree.drop k, x.tm < t') → peers.length ≤ k := by
      intro peers hn k t' hp hk
      have hsub : peers ⊆ (tree.take k).map (·.peer) := by
        intro p hpp
        obtain ⟨u, hu, ht⟩ := hp p hpp
        have hm := (h2.content ⟨u, p⟩).2 hu
        rw [← List.take_append_drop k tree, List.mem_append] at hm
        rcases hm with hm | hm
        · rw [List.mem_map]; exact ⟨_, hm, rfl⟩
        · have := hk _ hm; simp at this; omega
      have := (List.subperm_of_subset hn hsub).length_le
      simp at this; omega
    by_cases hgt : (q : Int) > tree.length
    · left
      rw [if_pos hgt]
      refine ⟨rfl, ?_⟩
      rintro ⟨peers, hn, hl, hp⟩
      have := hin peers hn tree.length 0 hp (by simp)
      omega
    · right
      rw [if_neg hgt]
      have hlt : q - 1 < tree.length := by omega
      simp only [Int.toNat_natCast, List.getElem?_eq_getElem hlt]
      rw [if_neg (h2.nonzero _ (List.getElem_mem hlt))]
      refine ⟨_, rfl, ?_, ?_⟩
      · refine ⟨(tree.take q).map (·.peer), ?_, by simp; omega, ?_⟩
        · exact h2.nodup.sublist (List.Sublist.map _ (List.take_sublist _ _))
        · intro p hp
          rw [List.mem_map] at hp
          obtain ⟨x, hx, rfl⟩ := hp
          refine ⟨x.tm, (h2.content x).1 (List.mem_of_mem_take hx), ?_⟩
          rw [List.mem_iff_getElem] at hx
          obtain ⟨i, hi, rfl⟩ := hx
          simp at hi ⊢
          rcases Nat.lt_or_ge i (q - 1) with hlt2 | hge
          · exact before_tm _ _ (List.pairwise_iff_getElem.1 h2.sorted i (q - 1) (by omega) hlt hlt2)
          · have : i = q - 1 := by omega
            subst this; exact Nat.le_refl _
      · intro t' ⟨peers, hn, hl, hp⟩
        by_contra hcon
        have := hin peers hn (q - 1) t' hp (by
          intro x hx
          rw [List.mem_iff_getElem] at hx
          obtain ⟨i, hi, rfl⟩ := hx
          simp at hi ⊢
          rcases Nat.eq_zero_or_pos i with rfl | hpos
          · simp; omega
          · have := before_tm _ _ (List.pairwise_iff_getElem.1 h2.sorted (q - 1) (q - 1 + i) hlt (by omega) (by omega))
            omega)
        omega

example : addAll [] [⟨5, "a"⟩, ⟨7, "b"⟩, ⟨8, "a"⟩, ⟨2, "c"⟩] = some [⟨8, "a"⟩, ⟨7, "b"⟩, ⟨2, "c"⟩] ∧
    quorumPongTm [⟨8, "a"⟩, ⟨7, "b"⟩, ⟨2, "c"⟩] 2 = some (.at 7) := by decide

/-- C38: one record per peer, the last one received, in every reachable tree. -/
theorem C38_one_record_per_peer (hist : List Pong) (tree : List Pong) (h0 : ∀ p ∈ hist, p.tm ≠ 0)
    (h : addAll [] hist = some tree) :
    (tree.map (·.peer)).Nodup ∧ ∀ p : Pong, p ∈ tree ↔ lastHeard hist p.peer = some p.tm := by
  obtain ⟨t', h1, h2⟩ := addAll_inv hist [] [] inv_empty h0
  rw [h] at h1
  injection h1 with h1
  subst h1
  exact ⟨h2.nodup, by simpa using h2.content⟩

end Verif.Pong
