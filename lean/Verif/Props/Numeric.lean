import Verif.Model.Numeric
/-
C47, C48.
-/
namespace Verif.Numeric

/-- A non-empty span of whole blocks inside [beg, endx). -/
def AlignedInside (beg endx : Nat) (a b : Nat) : Prop :=
  a < b ∧ beg ≤ a ∧ b ≤ endx ∧ 4096 ∣ a ∧ 4096 ∣ b

/-- Byte `x` lies in an optional span. -/
def InSpan (x : Nat) : Option SparseSpan → Prop
  | none => False
  | some s => s.beg ≤ x ∧ x < s.endx

/-- C47: for every byte range, the span returned lies inside it, is block aligned at both
ends and contains every other such span; nil is returned only when there is none. -/
theorem C47_largest_aligned_span (beg endx : Nat) :
    ∃ s w, alignedSparseSpan beg endx = some (s, w) ∧
      (∀ sp, s = some sp → AlignedInside beg endx sp.beg sp.endx ∧
        ∀ a b, AlignedInside beg endx a b → sp.beg ≤ a ∧ b ≤ sp.endx) ∧
      (s = none → ∀ a b, ¬ AlignedInside beg endx a b) := by
  unfold alignedSparseSpan AlignedInside block
  rw [if_neg (by omega), if_neg (by omega)]
  simp only [Int.toNat_natCast]
  split
  · exact ⟨none, none, rfl, by simp, by intro _ a b; omega⟩
  split
  · exact ⟨none, _, rfl, by simp, by intro _ a b; omega⟩
  split
  · split
    · refine ⟨_, _, rfl, ?_, by simp⟩
      intro sp hsp
      injection hsp with hsp; subst hsp
      exact ⟨by simp; omega, by intro a b h; simp; omega⟩
    · refine ⟨_, _, rfl, ?_, by simp⟩
      intro sp hsp
      injection hsp with hsp; subst hsp
      exact ⟨by simp; omega, by intro a b h; simp; omega⟩
  · split <;> rename_i hb
    all_goals
      split
      · exact ⟨none, _, rfl, by simp, by intro _ a b; omega⟩
      · refine ⟨_, _, rfl, ?_, by simp⟩
        intro sp hsp
        injection hsp with hsp; subst hsp
        exact ⟨by simp only; omega, by intro a b h; simp only; omega⟩

example : alignedSparseSpan 4 8197 = some (some ⟨4096, 8192⟩, some ⟨some ⟨4, 4096⟩, some ⟨8192, 8197⟩⟩) := by
  decide

/-- C47: the span and the wings together are exactly the requested range, without overlap. -/
theorem C47_span_and_wings_partition (beg endx : Nat) :
    ∃ s w, alignedSparseSpan beg endx = some (s, w) ∧
      ∀ x, (beg ≤ x ∧ x < endx ↔
          InSpan x s ∨ InSpan x (w.bind (·.pre)) ∨ InSpan x (w.bind (·.post))) ∧
        ¬ (InSpan x s ∧ InSpan x (w.bind (·.pre))) ∧ ¬ (InSpan x s ∧ InSpan x (w.bind (·.post))) ∧
        ¬ (InSpan x (w.bind (·.pre)) ∧ InSpan x (w.bind (·.post))) := by
  unfold alignedSparseSpan block
  rw [if_neg (by omega), if_neg (by omega)]
  simp only [Int.toNat_natCast]
  split
  · exact ⟨none, none, rfl, by intro x; simp [InSpan]; omega⟩
  split
  · exact ⟨none, _, rfl, by intro x; simp [InSpan]⟩
  split
  · split
    · exact ⟨_, _, rfl, by intro x; simp [InSpan]; omega⟩
    · exact ⟨_, _, rfl, by intro x; simp [InSpan]; omega⟩
  · split <;> rename_i hb
    all_goals
      split
      · exact ⟨_, _, rfl, by intro x; simp [InSpan]⟩
      · exact ⟨_, _, rfl, by intro x; simp [InSpan]; omega⟩

/-! ### Padme -/

theorem padme_eq (n : Nat) (h : 0 < n) :
    padme n = some ((((n + (2 ^ (n.log2 - len64 n.log2) - 1)) / 2 ^ (n.log2 - len64 n.log2)) *
      2 ^ (n.log2 - len64 n.log2) : Nat) - (n : Int)) := by
  unfold padme
  rw [if_neg (by omega), if_neg (by omega)]
  have hx : len64 n - 1 = n.log2 := by unfold len64; rw [if_neg (by omega)]; omega
  simp only [Int.toNat_natCast, hx]
  generalize n.log2 - len64 n.log2 = z
  rw [Nat.and_two_pow_sub_one_eq_mod]
  congr 2
  have := Nat.div_add_mod (n + (2 ^ z - 1)) (2 ^ z)
  rw [Nat.mul_comm] at this
  have hle : (n + (2 ^ z - 1)) / 2 ^ z * 2 ^ z = n + (2 ^ z - 1) - (n + (2 ^ z - 1)) % 2 ^ z := by omega
  rw [hle]

/-- Round `n` up to a multiple of `k`. -/
theorem roundUp_spec (n k : Nat) (hk : 0 < k) :
    n ≤ (n + (k - 1)) / k * k ∧ (n + (k - 1)) / k * k < n + k ∧ k ∣ (n + (k - 1)) / k * k := by
  have h1 := Nat.div_add_mod (n + (k - 1)) k
  have h2 := Nat.mod_lt (n + (k - 1)) hk
  rw [Nat.mul_comm] at h1
  exact ⟨by omega, by omega, Nat.dvd_mul_left _ _⟩

theorem roundUp_le (n k t : Nat) (hk : 0 < k) (hd : k ∣ t) (h : n ≤ t) : (n + (k - 1)) / k * k ≤ t := by
  obtain ⟨c, rfl⟩ := hd
  have : (n + (k - 1)) / k ≤ c := by
    rw [Nat.div_le_iff_le_mul hk]
    rw [Nat.mul_comm]; omega
  calc _ ≤ c * k := Nat.mul_le_mul_right _ this
    _ = k * c := Nat.mul_comm _ _

theorem roundUp_mono (n n' k : Nat) (h : n ≤ n') : (n + (k - 1)) / k * k ≤ (n' + (k - 1)) / k * k :=
  Nat.mul_le_mul_right _ (Nat.div_le_div_right (by omega))

theorem log2_bounds (n : Nat) (h : 0 < n) : 2 ^ n.log2 ≤ n ∧ n < 2 ^ (n.log2 + 1) :=
  ⟨Nat.log2_self_le (by omega), Nat.lt_log2_self⟩

theorem len64_gt (x : Nat) : x < 2 ^ len64 x := by
  unfold len64
  split
  · omega
  · exact Nat.lt_log2_self

theorem len64_le (x : Nat) : len64 x ≤ x := by
  unfold len64
  split
  · omega
  · next h =>
    have := (log2_bounds x (by omega)).1
    have h2 : x.log2 < 2 ^ x.log2 := Nat.lt_two_pow_self
    omega

/-- The padded length, n plus its padding. -/
def paddedTo (n p : Nat) : Prop := padme n = some ((p : Int) - n)

theorem paddedTo_iff (n p : Nat) (h : 0 < n) : paddedTo n p ↔
    p = ((n + (2 ^ (n.log2 - len64 n.log2) - 1)) / 2 ^ (n.log2 - len64 n.log2)) *
      2 ^ (n.log2 - len64 n.log2) := by
  unfold paddedTo
  rw [padme_eq n h, Option.some.injEq]
  omega

/-- C48: every length from 1 on has a padded length, never below it. -/
theorem C48_padding_defined (n : Nat) (h : 0 < n) : ∃ p, paddedTo n p ∧ n ≤ p :=
  ⟨_, (paddedTo_iff n _ h).2 rfl, (roundUp_spec n _ (Nat.two_pow_pos _)).1⟩

/-- C48: the padding is at most 12 percent of the length, and less than the length
divided by its logarithm. -/
theorem C48_padding_bounded (n p : Nat) (h : 0 < n) (hp : paddedTo n p) :
    100 * (p - n) ≤ 12 * n ∧ (p - n) * (n.log2 + 1) ≤ n := by
  have hb := log2_bounds n h
  have h3 := len64_gt n.log2
  have hle := len64_le n.log2
  rw [paddedTo_iff n p h] at hp
  have hr := roundUp_spec n (2 ^ (n.log2 - len64 n.log2)) (Nat.two_pow_pos _)
  rw [← hp] at hr
  generalize hx : n.log2 = x at *
  generalize hbb : len64 x = b at *
  have hpow : 2 ^ (x - b) * 2 ^ b = 2 ^ x := by rw [← Nat.pow_add]; congr 1; omega
  have hlog : (p - n) * (x + 1) ≤ n := by
    have h4 : (p - n) * (x + 1) ≤ (p - n) * 2 ^ b := Nat.mul_le_mul_left _ (by omega)
    have h5 : (p - n) * 2 ^ b ≤ 2 ^ (x - b) * 2 ^ b := Nat.mul_le_mul_right _ (by omega)
    omega
  refine ⟨?_, hlog⟩
  rcases Nat.lt_or_ge x 8 with hx8 | hx8
  · -- small logarithms: by cases
    have : (x = 0 ∧ b = 0) ∨ (x = 1 ∧ b = 1) ∨ (x = 2 ∧ b = 2) ∨ (x = 3 ∧ b = 2) ∨ (x = 4 ∧ b = 3) ∨
        (x = 5 ∧ b = 3) ∨ (x = 6 ∧ b = 3) ∨ (x = 7 ∧ b = 3) := by
      have : x = 0 ∨ x = 1 ∨ x = 2 ∨ x = 3 ∨ x = 4 ∨ x = 5 ∨ x = 6 ∨ x = 7 := by omega
      rw [← hbb]
      rcases this with h | h | h | h | h | h | h | h <;> subst h <;> decide
    rcases this with ⟨h, h'⟩ | ⟨h, h'⟩ | ⟨h, h'⟩ | ⟨h, h'⟩ | ⟨h, h'⟩ | ⟨h, h'⟩ | ⟨h, h'⟩ | ⟨h, h'⟩ <;>
      (rw [h, h'] at hp hr; rw [h] at hb; simp at hb hr hp; omega)
  · have h4 : (p - n) * 9 ≤ (p - n) * (x + 1) := Nat.mul_le_mul_left _ (by omega)
    omega

/-- C48: longer inputs never get a shorter padded length. -/
theorem C48_padding_monotone (n n' p p' : Nat) (h : 0 < n) (hn : n ≤ n') (hp : paddedTo n p)
    (hp' : paddedTo n' p') : p ≤ p' := by
  rw [paddedTo_iff n p h] at hp
  rw [paddedTo_iff n' p' (by omega)] at hp'
  have hb := log2_bounds n h
  have hb' := log2_bounds n' (by omega)
  by_cases he : n.log2 = n'.log2
  · rw [hp, hp', he]; exact roundUp_mono n n' _ hn
  · have hlt : n.log2 < n'.log2 := by
      rcases Nat.lt_or_ge n.log2 n'.log2 with h1 | h1
      · exact h1
      · have : 2 ^ (n'.log2 + 1) ≤ 2 ^ n.log2 := Nat.pow_le_pow_right (by omega) (by omega)
        omega
    have h1 : p ≤ 2 ^ (n.log2 + 1) := by
      rw [hp]
      exact roundUp_le n _ _ (Nat.two_pow_pos _) (Nat.pow_dvd_pow 2 (by omega)) (by omega)
    have h2 : 2 ^ (n.log2 + 1) ≤ 2 ^ n'.log2 := Nat.pow_le_pow_right (by omega) (by omega)
    have h3 := (roundUp_spec n' _ (Nat.two_pow_pos (n'.log2 - len64 n'.log2))).1
    rw [← hp'] at h3
    omega

/-- C48: what the padded length reveals: it is a multiple of 2^(e-b), e the exponent of the
length and b the number of bits of e, so at most b+1 leading bits are kept. -/
theorem C48_padding_hides_low_bits (n p : Nat) (h : 0 < n) (hp : paddedTo n p) :
    ∃ b, 2 ^ b ≤ 2 * n.log2 + 1 ∧ 2 ^ (n.log2 - b) ∣ p := by
  rw [paddedTo_iff n p h] at hp
  refine ⟨len64 n.log2, ?_, ?_⟩
  · unfold len64
    split
    · next h0 => omega
    · next h0 =>
      have := (log2_bounds n.log2 (by omega)).1
      rw [Nat.pow_succ]; omega
  · rw [hp]; exact Nat.dvd_mul_left _ _

example : padme 9 = some 1 ∧ padme 129 = some 15 ∧ padme 1000 = some 24 := by decide

/-- C48 does not hold at 0: the function panics (shift by a negative count). -/
theorem C48_zero_panics_counterexample : padme 0 = none := rfl

end Verif.Numeric
