import Verif.Spec.FragPool
/-
The pool's invariant: pool and held fragments are apart, each listed once, and pooled ones are blank.
-/
namespace Verif.FragPool

open Verif.Frag

structure Inv (s : State) : Prop where
  nodup : (s.pool ++ s.held).Nodup
  bound : ∀ p ∈ s.pool ++ s.held, p < s.heap.length
  blank : ∀ p ∈ s.pool, s.heap[p]? = some {}
  serial : ∀ n ∈ s.issued, n ≤ s.last

theorem inv_init : Inv {} := ⟨by simp, by simp, by simp, by simp⟩

theorem inv_free {s : State} (h : Inv s) {p : Nat} (hp : p ∈ s.held) : Inv (freeFragment s p) := by
  have hperm : (s.pool ++ [p] ++ s.held.erase p).Perm (s.pool ++ s.held) := by
    rw [List.append_assoc]
    exact (List.perm_cons_erase hp).symm.append_left _
  refine ⟨hperm.nodup_iff.2 h.nodup, fun q hq => ?_, fun q hq => ?_, h.serial⟩
  · simp only [freeFragment, List.length_set]
    exact h.bound q (hperm.subset hq)
  · simp only [freeFragment] at hq ⊢
    rw [List.getElem?_set]
    by_cases hpq : p = q
    · subst hpq
      simp [h.bound p (List.mem_append_right _ hp)]
    · rw [if_neg hpq]
      rcases List.mem_append.1 hq with hq | hq
      · exact h.blank q hq
      · exact absurd (List.mem_singleton.1 hq).symm hpq

theorem inv_set {s : State} (h : Inv s) {p : Nat} (hp : p ∈ s.held) (f : Fragment)
    (sent : List Message) : Inv { s with heap := s.heap.set p f, sent := sent } := by
  refine ⟨h.nodup, fun q hq => ?_, fun q hq => ?_, h.serial⟩
  · simp only [List.length_set]; exact h.bound q hq
  · simp only
    rw [List.getElem?_set]
    split
    · rename_i hpq; subst hpq
      have := (List.nodup_append.1 h.nodup).2.2 p hq p hp
      exact absurd rfl this
    · exact h.blank q hq

theorem inv_step {s : State} {op : Op} (h : Inv s)
    (hd : ∀ p, op.target = some p → p ∈ s.held) : Inv (step s op) := by
  cases op with
  | new name =>
    simp only [step, newFragment]
    cases hpool : s.pool with
    | nil =>
      have hn := h.nodup
      have hb := h.bound
      rw [hpool] at hn hb
      simp only [List.nil_append] at hn hb
      refine ⟨?_, ?_, ?_, ?_⟩
      · simp only [hpool, List.nil_append, List.nodup_cons]
        exact ⟨fun hm => Nat.lt_irrefl _ (hb _ hm), hn⟩
      · simp only [hpool, List.nil_append, List.mem_cons, List.length_append, List.length_singleton]
        rintro q (rfl | hq)
        · omega
        · have := hb q hq; omega
      · simp only [hpool]; intro q hq; cases hq
      · simp only [List.mem_append, List.mem_singleton]
        rintro n (hn | rfl)
        · have := h.serial n hn; omega
        · exact Nat.le_refl _
    | cons p rest =>
      have hn := h.nodup
      have hb := h.bound
      rw [hpool] at hn hb
      have hperm : (rest ++ p :: s.held).Perm (p :: rest ++ s.held) := List.perm_middle
      refine ⟨?_, ?_, ?_, ?_⟩
      · exact hperm.nodup_iff.2 hn
      · intro q hq
        simp only [List.length_modify]
        exact hb q (hperm.subset hq)
      · intro q hq
        simp only at hq ⊢
        rw [List.getElem?_modify]
        have hne : p ≠ q := by
          rintro rfl
          simp only [List.cons_append, List.nodup_cons] at hn
          exact hn.1 (List.mem_append_left _ hq)
        simp only [hne, if_false]
        have := h.blank q (by rw [hpool]; exact List.mem_cons_of_mem _ hq)
        simp [this]
      · simp only [List.mem_append, List.mem_singleton]
        rintro n (hn | rfl)
        · have := h.serial n hn; omega
        · exact Nat.le_refl _
  | write p f => exact inv_set h (hd p rfl) f s.sent
  | free p => exact inv_free h (hd p rfl)
  | send p c keep now fresh o =>
    have hp := hd p rfl
    cases o with
    | refused e => exact h
    | done e =>
      simp only [step, sendOneWay]
      split
      · exact inv_free (inv_set h hp _ _) hp
      · exact inv_set h hp _ _
  | issue =>
    refine ⟨h.nodup, h.bound, h.blank, ?_⟩
    simp only [step, List.mem_append, List.mem_singleton]
    rintro n (hn | rfl)
    · have := h.serial n hn; omega
    · exact Nat.le_refl _

theorem inv_run {s : State} {ops : List Op} (h : Inv s) (hd : Disciplined s ops) :
    Inv (run s ops) := by
  induction ops generalizing s with
  | nil => exact h
  | cons op ops ih => exact ih (inv_step h hd.1) hd.2

end Verif.FragPool
