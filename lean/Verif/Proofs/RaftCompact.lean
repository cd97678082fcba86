import Verif.Model.RaftCompact
import Verif.Proofs.RaftCompactAcc
/-
Compacted logs: the whole history of a node, and what the comparison of a compacted log with a
leader's tells about the whole logs.
-/
namespace Verif.RaftCompact
open Verif.Raft

/-! Whole history and back. -/

theorem full_back {n : CNode} {r : Node} (hb : n.base ≤ n.kv.length) (hk : n.kv <+: r.log)
    (h1 : n.kv.length ≤ r.applied) (h2 : r.applied ≤ r.log.length) :
    full (back n r) = r ∧ (back n r).kv = r.log.take r.applied := by
  have e : (back n r).kv = r.log.take r.applied := by
    obtain ⟨q, hq⟩ := hk
    unfold back
    dsimp only
    rw [← hq] at h2 ⊢
    rw [List.drop_left' rfl, List.take_append, List.take_of_length_le h1]
  refine ⟨?_, e⟩
  unfold full
  rw [e]
  have hl : (r.log.take r.applied).take n.base ++ r.log.drop n.base = r.log := by
    rw [List.take_take, Nat.min_eq_left (by omega), List.take_append_drop]
  have hlen : (r.log.take r.applied).length = r.applied := by simp; omega
  cases r
  simp only [back] at hl hlen ⊢
  rw [hl, hlen]

theorem lastIdx_full {n : CNode} (hb : n.base ≤ n.kv.length) : (full n).log.length = lastIdx n := by
  simp [full, lastIdx]; omega

theorem full_drop {n : CNode} (hb : n.base ≤ n.kv.length) : (full n).log.drop n.base = n.log := by
  simp only [full]
  rw [List.drop_append, List.drop_of_length_le (by simp; omega), List.nil_append]
  simp [Nat.min_eq_left hb]

theorem terms_drop (L : List Entry) (k : Nat) : terms (L.drop k) = (terms L).drop k := by
  simp [terms, List.map_drop]

theorem termAt_drop {L : List Entry} {b i : Nat} (h : b < i) : termAt (L.drop b) (i - b) = termAt L i := by
  unfold termAt
  rw [if_neg (by omega), if_neg (by omega), terms_drop, List.getElem?_drop]
  congr 2; omega

/-! Base of a log. -/

/-- The part of `L` below the base `b` is the start of the log of the leader of term `t`. -/
def BaseOK (h : Hist) (b t : Nat) (L : List Entry) : Prop :=
  b = 0 ∨ Elected h t ∧ L.take b <+: h.lead t

theorem LogOK.upTo {h : Hist} {L : List Entry} (hL : LogOK h L) {i : Nat} (h0 : 0 < i) (hi : i ≤ L.length) :
    Elected h (termAt L i) ∧ L.take i <+: h.lead (termAt L i) := by
  have := hL (i - 1) (by omega)
  rw [(termAt_eq (t := _) h0 hi).2 rfl]
  rwa [show i - 1 + 1 = i by omega] at this

theorem BaseOK.at {h : Hist} {L : List Entry} (hL : LogOK h L) {b : Nat} (hi : b ≤ L.length) :
    BaseOK h b (termAt L b) L := by
  rcases Nat.eq_zero_or_pos b with h0 | h0
  · exact Or.inl h0
  · exact Or.inr (LogOK.upTo hL h0 hi)

/-- Equal terms at one index: equal up to it. -/
theorem LogOK.same {h : Hist} {A B : List Entry} (hA : LogOK h A) (hB : LogOK h B) {i : Nat} (h0 : 0 < i)
    (hiA : i ≤ A.length) (hiB : i ≤ B.length) (ht : termAt A i = termAt B i) : A.take i = B.take i := by
  have h1 := (LogOK.upTo hA h0 hiA).2
  have h2 := (LogOK.upTo hB h0 hiB).2
  rw [← ht] at h2
  have l1 : (A.take i).length = i := by simp; omega
  have l2 : (B.take i).length = i := by simp; omega
  exact (prefix_of_prefix_le h1 h2 (by omega)).eq_of_length (by omega)

theorem prefix_take_eq {A B L : List Entry} {i : Nat} (hA : A.take i <+: L) (hB : B <+: L)
    (hiA : i ≤ A.length) (hiB : i ≤ B.length) : A.take i = B.take i := by
  have l1 : (A.take i).length = i := by simp; omega
  have l2 : (B.take i).length = i := by simp; omega
  exact (prefix_of_prefix_le hA ((List.take_prefix _ _).trans hB) (by omega)).eq_of_length (by omega)

/-- Terms equal over `c` places past `mb`. -/
theorem terms_run {A B : List Entry} {mb c : Nat} (hc0 : 0 < c)
    (h : ((terms A).drop mb).take c = ((terms B).drop mb).take c) : termAt A (mb + c) = termAt B (mb + c) := by
  unfold termAt
  rw [if_neg (by omega), if_neg (by omega)]
  have := congrArg (fun l => l[c - 1]?) h
  simp only [List.getElem?_take, show c - 1 < c by omega, if_true, List.getElem?_drop] at this
  rw [show mb + c - 1 = mb + (c - 1) by omega, this]

theorem getLast_terms {L : List Entry} {b : Nat} (h : b < L.length) :
    (((terms L).drop b).getLast?).getD 0 = termAt L L.length := by
  unfold termAt
  rw [if_neg (by omega), List.getLast?_eq_getElem?, List.getElem?_drop, List.length_drop, terms_length]
  congr 2; omega

/-- The comparison of a follower's log `F` compacted to `fb` with a leader's log `P` compacted
to `lb`. -/
theorem extendsB_spec {h : Hist} {F P : List Entry} {fb ft lb lt : Nat}
    (hF : LogOK h F) (hP : LogOK h P) (hfb : fb ≤ F.length) (hlb : lb ≤ P.length) (hP1 : 1 ≤ P.length)
    (hLb : BaseOK h lb lt P) (hcmp : F.take (min fb lb) = P.take (min fb lb))
    (hbm : fb < lb → lb < F.length → termAt F lb = lt) :
    let c := extendsB lb lt ((terms P).drop lb) fb ft ((terms F).drop fb)
    c.lcp ≤ F.length ∧ (c.lcp ≤ fb ∨ c.lcp ≤ P.length ∧ F.take c.lcp = P.take c.lcp) ∧
    (c.ext = true → c.lcp = F.length) ∧ (c.ext = false → c.lcp ≤ P.length) ∧
    (c.needSnap = true → c.ext = false ∧ c.lcp < lb) ∧
    (P <+: F → P.length ≤ c.lcp ∨ c.needSnap = true) := by
  have e1 : (terms F).drop fb = [] ↔ F.length = fb := by
    rw [List.drop_eq_nil_iff, terms_length]; omega
  have e2 : (terms P).drop lb = [] ↔ P.length = lb := by
    rw [List.drop_eq_nil_iff, terms_length]; omega
  have l1 : fb + ((terms F).drop fb).length = F.length := by rw [List.length_drop, terms_length]; omega
  have l2 : lb + ((terms P).drop lb).length = P.length := by rw [List.length_drop, terms_length]; omega
  dsimp only
  unfold extendsB
  dsimp only
  simp only [l1, l2, e1, e2, ne_eq]
  split
  · rename_i h0
    simp only [List.take_zero, Bool.false_eq_true, false_implies, implies_true, true_implies, or_false, true_and,
      Nat.zero_le, Nat.le_zero_eq, and_self, reduceCtorEq]
    refine ⟨Or.inr trivial, by omega, ?_⟩
    intro hp
    have := hp.length_le
    omega
  · split
    · rename_i h0 h1
      rw [if_neg (by omega)]
      split
      · rename_i h2
        subst h2
        rw [Nat.min_self] at hcmp
        refine ⟨by dsimp only; omega, Or.inl (Nat.le_refl _), ?_, fun _ => by dsimp only; omega, by simp, fun _ => Or.inl (by dsimp only; omega)⟩
        intro hx; simp only [decide_eq_true_eq] at hx; dsimp only; omega
      · split
        · refine ⟨by dsimp only; omega, Or.inl (by dsimp only; omega), by simp, fun _ => by dsimp only; omega, by simp, fun _ => Or.inl (by dsimp only; omega)⟩
        · refine ⟨by dsimp only; omega, Or.inl (by dsimp only; omega), by simp, fun _ => by dsimp only; omega, fun _ => ⟨rfl, by dsimp only; omega⟩, fun _ => Or.inr rfl⟩
    · split
      · rename_i h0 h1 h2
        have hnp : ∀ q : Prop, P <+: F → q := fun q hp => by have := hp.length_le; omega
        split
        · rename_i h3
          split
          · rename_i h4
            rw [getLast_terms (by omega)] at h4
            refine ⟨Nat.le_refl _, Or.inr ⟨by dsimp only; omega, ?_⟩, fun _ => rfl, by simp, by simp, hnp _⟩
            dsimp only
            rcases hLb with hz | hLb
            · omega
            · have := (LogOK.upTo hF (i := F.length) (by omega) (Nat.le_refl _)).2
              rw [h4.2] at this
              rw [h4.1] at this ⊢
              have l3 : (F.take lb).length = lb := by simp; omega
              have l4 : (P.take lb).length = lb := by simp; omega
              exact (prefix_of_prefix_le this hLb.2 (by omega)).eq_of_length (by omega)
          · refine ⟨hfb, Or.inl (Nat.le_refl _), by simp, fun _ => by dsimp only; omega, fun _ => ⟨rfl, by dsimp only; omega⟩, hnp _⟩
        · split
          · refine ⟨hfb, Or.inl (Nat.le_refl _), by simp, fun _ => by dsimp only; omega, fun _ => ⟨rfl, by dsimp only; omega⟩, hnp _⟩
          · split
            · refine ⟨hfb, Or.inl (Nat.le_refl _), fun _ => by dsimp only; omega, fun _ => by dsimp only; omega, by simp, hnp _⟩
            · refine ⟨hfb, Or.inl (Nat.le_refl _), by simp, fun _ => by dsimp only; omega, by simp, hnp _⟩
      · split
        · refine ⟨hfb, Or.inl (Nat.le_refl _), fun _ => by dsimp only; omega, by simp, by simp, ?_⟩
          intro hp; have := hp.length_le; left; dsimp only; omega
        · split
          · refine ⟨by dsimp only; omega, Or.inl (by assumption), by simp, fun _ => Nat.le_refl _, by simp, fun _ => Or.inl (Nat.le_refl _)⟩
          · rename_i h0 h1 h2 h3 h4
            generalize hmb : max fb lb = mb
            have d1 : ((terms P).drop lb).drop (mb - lb) = (terms P).drop mb := by
              rw [List.drop_drop]; congr 1; omega
            have d2 : ((terms F).drop fb).drop (mb - fb) = (terms F).drop mb := by
              rw [List.drop_drop]; congr 1; omega
            rw [d1, d2]
            generalize hc : commonPrefix ((terms P).drop mb) ((terms F).drop mb) = c
            have k1 := commonPrefix_le_left ((terms P).drop mb) ((terms F).drop mb)
            have k2 := commonPrefix_le_right ((terms P).drop mb) ((terms F).drop mb)
            have k3 := commonPrefix_take ((terms P).drop mb) ((terms F).drop mb)
            rw [hc] at k1 k2 k3
            rw [List.length_drop, terms_length] at k1 k2
            refine ⟨by dsimp only; omega, ?_, ?_, fun _ => by dsimp only; omega, by simp, ?_⟩
            · dsimp only
              rcases Nat.eq_zero_or_pos c with hc0 | hc0
              · rcases Nat.lt_or_ge fb lb with hlt | hge
                · right
                  have hm : mb = lb := by omega
                  subst hm
                  rw [hc0, Nat.add_zero]
                  refine ⟨hlb, ?_⟩
                  have hb := hbm hlt (by omega)
                  have h5 := (LogOK.upTo hF (i := mb) (by omega) (by omega)).2
                  rw [hb] at h5
                  rcases hLb with hz | hLb
                  · omega
                  · have l3 : (F.take mb).length = mb := by simp; omega
                    have l4 : (P.take mb).length = mb := by simp; omega
                    exact (prefix_of_prefix_le h5 hLb.2 (by omega)).eq_of_length (by omega)
                · left; omega
              · right
                exact ⟨by omega, LogOK.same hF hP (by omega) (by omega) (by omega) (terms_run hc0 k3).symm⟩
            · intro hx; simp only [decide_eq_true_eq] at hx; exact hx.symm
            · intro hp
              left
              dsimp only
              have h5 : (terms P).drop mb <+: (terms F).drop mb := by
                obtain ⟨q, hq⟩ := terms_prefix hp
                rw [← hq, List.drop_append_of_le_length (by rw [terms_length]; omega)]
                exact List.prefix_append _ _
              have := prefix_le_commonPrefix _ ((terms P).drop mb) ((terms F).drop mb) (List.prefix_refl _) h5
              rw [List.length_drop, terms_length] at this
              omega

end Verif.RaftCompact
