import Verif.Model.Span
/-
C58: interval arithmetic agrees with membership of integers.
-/
namespace Verif.Span

/-- The integers of the interval [beg, endx). -/
def Mem (x : Int) (s : Span) : Prop := s.beg ≤ x ∧ x < s.endx

/-- C58: for non-empty half-open intervals, every operation says about the intervals
what it says about the sets of integers in them. -/
theorem C58_span_operations_are_set_operations (a b : Span) (ha : ∃ x, Mem x a) (hb : ∃ x, Mem x b) :
    (overlaps a b = true ↔ ∃ x, Mem x a ∧ Mem x b) ∧
    (∀ x, contains a x = true ↔ Mem x a) ∧
    (isSuperSetOf a b = true ↔ ∀ x, Mem x b → Mem x a) ∧
    (equal a b = true ↔ ∀ x, Mem x a ↔ Mem x b) ∧
    (before a b = true ↔ ∀ x y, Mem x a → Mem y b → x < y) ∧
    (after a b = true ↔ ∀ x y, Mem x a → Mem y b → y < x) ∧
    ((intersect a b).2 = true ↔ ¬ ∃ x, Mem x a ∧ Mem x b) ∧
    ((intersect a b).2 = false → ∀ x, Mem x (intersect a b).1 ↔ Mem x a ∧ Mem x b) := by
  obtain ⟨a0, a1⟩ := a
  obtain ⟨b0, b1⟩ := b
  obtain ⟨xa, hxa⟩ := ha
  obtain ⟨xb, hxb⟩ := hb
  simp only [Mem] at *
  have hov : overlaps ⟨a0, a1⟩ ⟨b0, b1⟩ = true ↔ (b0 < a1 ∧ a0 < b1) := by
    unfold overlaps
    simp only
    have e1 : decide (b1 = b0) = false := by simp; omega
    have e2 : decide (a1 = a0) = false := by simp; omega
    rw [e1, e2]
    simp
  have hex : (∃ x, (a0 ≤ x ∧ x < a1) ∧ (b0 ≤ x ∧ x < b1)) ↔ (b0 < a1 ∧ a0 < b1) := by
    constructor
    · rintro ⟨x, h1, h2⟩; omega
    · intro h; exact ⟨max a0 b0, by omega⟩
  refine ⟨hov.trans hex.symm, ?_, ?_, ?_, ?_, ?_, ?_, ?_⟩
  · intro x; unfold contains; simp only; split
    · simp; omega
    · split <;> simp <;> omega
  · unfold isSuperSetOf; simp only
    constructor
    · intro h x hx; split at h
      · simp at h
      · split at h
        · simp at h
        · omega
    · intro h
      have h1 := h b0 (by omega)
      have h2 := h (b1 - 1) (by omega)
      rw [if_neg (by omega), if_neg (by omega)]
  · unfold equal; simp only
    constructor
    · intro h x; split at h
      · simp at h
      · split at h
        · simp at h
        · omega
    · intro h
      have h1 := (h b0).2 (by omega)
      have h2 := (h (b1 - 1)).2 (by omega)
      have h3 := (h a0).1 (by omega)
      have h4 := (h (a1 - 1)).1 (by omega)
      rw [if_neg (by omega), if_neg (by omega)]
  · unfold before; simp
    constructor
    · intro h x y; omega
    · intro h; have := h (a1 - 1) b0 (by omega) (by omega) (by omega) (by omega); omega
  · unfold after; simp
    constructor
    · intro h x y; omega
    · intro h; have := h a0 (b1 - 1) (by omega) (by omega) (by omega) (by omega); omega
  · rw [hex, ← hov]
    unfold intersect
    by_cases h : overlaps ⟨a0, a1⟩ ⟨b0, b1⟩ = true
    · simp only [h]
      simp
      rw [if_neg (by omega), if_neg (by omega)]
      repeat' split
      all_goals simp
    · simp [h]
  · intro h x
    unfold intersect at h ⊢
    by_cases ho : overlaps ⟨a0, a1⟩ ⟨b0, b1⟩ = true
    · have ho' := hov.1 ho
      simp only [ho, not_true_eq_false, if_false] at h ⊢
      rw [if_neg (by omega), if_neg (by omega)]
      unfold isSuperSetOf
      simp only
      repeat' split
      all_goals grind
    · simp [ho] at h

example : (∃ x, Mem x ⟨2, 5⟩) ∧ intersect ⟨2, 5⟩ ⟨4, 9⟩ = (⟨4, 5⟩, false) :=
  ⟨⟨2, by unfold Mem; decide⟩, by decide⟩

/-- C58, the two ways to write an interval: exclusive begin with inclusive end, and the
usual one. -/
theorem C58_constructors (b e x : Int) :
    (Mem x (spanBegxEndi b e) ↔ b < x ∧ x ≤ e) ∧ (Mem x (spanBegiEndx b e) ↔ b ≤ x ∧ x < e) := by
  unfold Mem spanBegxEndi spanBegiEndx
  constructor <;> simp <;> omega

end Verif.Span
