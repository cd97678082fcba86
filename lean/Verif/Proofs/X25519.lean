import Verif.Model.X25519
/-
The point with u coordinate 1 has order 4: every clamped scalar sends it to zero.
-/
namespace Verif.X25519
open Verif.Wire Verif.Handshake

theorem p_pos : 0 < p := by unfold p; decide

theorem add_lt (a b : Nat) : add a b < p := Nat.mod_lt _ p_pos
theorem sub_lt (a b : Nat) : sub a b < p := Nat.mod_lt _ p_pos
theorem mul_lt (a b : Nat) : mul a b < p := Nat.mod_lt _ p_pos

theorem mul_zero (a : Nat) : mul a 0 = 0 := by simp [mul]
theorem zero_mul (a : Nat) : mul 0 a = 0 := by simp [mul]
theorem one_mul {a : Nat} (h : a < p) : mul 1 a = a := by rw [mul, Nat.one_mul, Nat.mod_eq_of_lt h]

theorem add_zero {a : Nat} (h : a < p) : add a 0 = a := by rw [add, Nat.add_zero, Nat.mod_eq_of_lt h]
theorem zero_add {a : Nat} (h : a < p) : add 0 a = a := by rw [add, Nat.zero_add, Nat.mod_eq_of_lt h]
theorem sub_zero {a : Nat} (h : a < p) : sub a 0 = a := by
  rw [sub, Nat.sub_zero, Nat.add_mod_right, Nat.mod_eq_of_lt h]
theorem sub_self {a : Nat} (h : a < p) : sub a a = 0 := by
  rw [sub, Nat.add_sub_cancel' (Nat.le_of_lt h), Nat.mod_self]

/-- (-a)² = a². -/
theorem sq_neg {a : Nat} (h : a < p) : mul (sub 0 a) (sub 0 a) = mul a a := by
  obtain ⟨y, hy⟩ : ∃ y, y + a = p := ⟨p - a, by omega⟩
  have h0 : sub 0 a = y % p := by rw [sub, Nat.zero_add, ← hy, Nat.add_sub_cancel]
  rw [h0]
  simp only [mul, ← Nat.mul_mod]
  have e : y * y + a * p = a * a + y * p := by
    rw [← hy]
    simp only [Nat.mul_add, Nat.mul_comm a y]
    omega
  calc y * y % p = (y * y + a * p) % p := by rw [Nat.add_mul_mod_self_right]
    _ = (a * a + y * p) % p := by rw [e]
    _ = a * a % p := by rw [Nat.add_mul_mod_self_right]

/-- Coordinates are reduced. -/
def Reduced (s : Ladder) : Prop := s.x2 < p ∧ s.z2 < p ∧ s.x3 < p ∧ s.z3 < p

theorem step_reduced (x1 : Nat) (s : Ladder) : Reduced (step x1 s) := ⟨mul_lt _ _, mul_lt _ _, mul_lt _ _, mul_lt _ _⟩

/-- The ladder of the point 1 after a scalar that is `r` modulo 4: which of the
coordinates vanish or agree. -/
def Class (s : Ladder) : Nat → Prop
  | 0 => s.z2 = 0 ∧ s.x3 = s.z3
  | 1 => s.x2 = s.z2 ∧ s.x3 = 0
  | 2 => s.x2 = 0 ∧ s.x3 = s.z3
  | _ => s.x2 = s.z2 ∧ s.z3 = 0

theorem dbl_inf {x : Nat} (h : x < p) :
    sub (mul (add x 0) (add x 0)) (mul (sub x 0) (sub x 0)) = 0 := by
  rw [add_zero h, sub_zero h, sub_self (mul_lt _ _)]

theorem dbl_two {z : Nat} (h : z < p) :
    sub (mul (add 0 z) (add 0 z)) (mul (sub 0 z) (sub 0 z)) = 0 := by
  rw [zero_add h, sq_neg h, sub_self (mul_lt _ _)]

/-- Sum and difference agree up to sign when one of two terms vanishes. -/
theorem sq_zero_left {c : Nat} (h : c < p) : mul (add 0 c) (add 0 c) = mul 1 (mul (sub 0 c) (sub 0 c)) := by
  rw [zero_add h, sq_neg h, one_mul (mul_lt _ _)]

theorem sq_zero_right {c : Nat} (h : c < p) : mul (add c 0) (add c 0) = mul 1 (mul (sub c 0) (sub c 0)) := by
  rw [add_zero h, sub_zero h, one_mul (mul_lt _ _)]

theorem step_class {s : Ladder} (hr : Reduced s) {r : Nat} (h4 : r < 4) (h : Class s r) :
    Class (step 1 s) (2 * r % 4) := by
  obtain ⟨x2, z2, x3, z3⟩ := s
  obtain ⟨h1, h2, h3, h5⟩ := hr
  simp only at h1 h2 h3 h5
  match r, h4, h with
  | 0, _, h =>
    simp only [Class] at h
    obtain ⟨rfl, rfl⟩ := h
    simp only [Nat.mul_zero, Nat.zero_mod, Class, step]
    rw [dbl_inf h1, zero_mul, sub_self h3, zero_mul]
    exact ⟨rfl, sq_zero_left (mul_lt _ _)⟩
  | 1, _, h =>
    simp only [Class] at h
    obtain ⟨rfl, rfl⟩ := h
    show Class _ 2
    simp only [Class, step]
    rw [sub_self h1, mul_zero, mul_zero, mul_zero]
    exact ⟨rfl, sq_zero_right (mul_lt _ _)⟩
  | 2, _, h =>
    simp only [Class] at h
    obtain ⟨rfl, rfl⟩ := h
    show Class _ 0
    simp only [Class, step]
    rw [dbl_two h2, zero_mul, sub_self h3, zero_mul]
    exact ⟨rfl, sq_zero_left (mul_lt _ _)⟩
  | 3, _, h =>
    simp only [Class] at h
    obtain ⟨rfl, rfl⟩ := h
    show Class _ 2
    simp only [Class, step]
    rw [sub_self h1, mul_zero, mul_zero, mul_zero]
    exact ⟨rfl, sq_zero_right (mul_lt _ _)⟩

/-- The swapped ladder belongs to the scalar one higher, counted downwards. -/
theorem swap_class {s : Ladder} {r : Nat} (h4 : r < 4) (h : Class s r) :
    match r with
    | 0 => (swap s).x2 = (swap s).z2 ∧ (swap s).z3 = 0
    | 1 => (swap s).x2 = 0 ∧ (swap s).x3 = (swap s).z3
    | 2 => (swap s).x2 = (swap s).z2 ∧ (swap s).x3 = 0
    | _ => (swap s).z2 = 0 ∧ (swap s).x3 = (swap s).z3 := by
  match r, h4, h with
  | 0, _, h => exact ⟨h.2, h.1⟩
  | 1, _, h => exact ⟨h.2, h.1⟩
  | 2, _, h => exact ⟨h.2, h.1⟩
  | 3, _, h => exact ⟨h.2, h.1⟩

theorem bit_class {s : Ladder} (hr : Reduced s) {r : Nat} (h4 : r < 4) (h : Class s r) (b : Bool) :
    Class (bitStep 1 s b) ((2 * r + b.toNat) % 4) ∧ Reduced (bitStep 1 s b) := by
  cases b with
  | false => exact ⟨step_class hr h4 h, step_reduced _ _⟩
  | true =>
    have hsr : Reduced (swap s) := ⟨hr.2.2.1, hr.2.2.2, hr.1, hr.2.1⟩
    refine ⟨?_, ?_⟩
    · match r, h4, h with
      | 0, _, h =>
        have := step_class hsr (r := 3) (by omega) (⟨h.2, h.1⟩ : Class (swap s) 3)
        exact ⟨this.2, this.1⟩
      | 1, _, h =>
        have := step_class hsr (r := 2) (by omega) (⟨h.2, h.1⟩ : Class (swap s) 2)
        exact ⟨this.2, this.1⟩
      | 2, _, h =>
        have := step_class hsr (r := 1) (by omega) (⟨h.2, h.1⟩ : Class (swap s) 1)
        exact ⟨this.2, this.1⟩
      | 3, _, h =>
        have := step_class hsr (r := 0) (by omega) (⟨h.2, h.1⟩ : Class (swap s) 0)
        exact ⟨this.2, this.1⟩
    · have := step_reduced 1 (swap s)
      exact ⟨this.2.2.1, this.2.2.2, this.1, this.2.1⟩

/-- The value of bits, highest first. -/
def value (bs : List Bool) (r : Nat) : Nat := bs.foldl (fun r b => 2 * r + b.toNat) r

theorem fold_class : ∀ (bs : List Bool) (s : Ladder) (r : Nat), Reduced s → Class s (r % 4) →
    Class (bs.foldl (bitStep 1) s) (value bs r % 4)
  | [], s, r, _, h => h
  | b :: bs, s, r, hr, h => by
      have := bit_class hr (Nat.mod_lt _ (by omega)) h b
      refine fold_class bs _ (2 * r + b.toNat) this.2 ?_
      have e : (2 * (r % 4) + b.toNat) % 4 = (2 * r + b.toNat) % 4 := by omega
      rw [← e]
      exact this.1

theorem value_last (bs : List Bool) (r : Nat) : value (bs ++ [false, false]) r % 4 = 0 := by
  simp only [value, List.foldl_append, List.foldl_cons, List.foldl_nil, Bool.toNat_false]
  omega

theorem bits_last (n : Nat) (h : n % 4 = 0) : ∃ bs, bits n = bs ++ [false, false] := by
  have h0 : n.testBit 0 = false := by simp [Nat.testBit_zero]; omega
  have h1 : n.testBit 1 = false := by
    rw [Nat.testBit_succ, Nat.testBit_zero]; simp; omega
  have gen : ∀ m, ((List.range (2 + m)).reverse.map n.testBit) =
      (((List.range m).map (2 + ·)).reverse.map n.testBit) ++ [false, false] := by
    intro m
    rw [List.range_add, List.reverse_append, List.map_append]
    have : List.map n.testBit (List.range 2).reverse = [false, false] := by
      show [n.testBit 1, n.testBit 0] = _
      rw [h0, h1]
    rw [this]
  exact ⟨_, gen 253⟩

theorem scalarMult_one (n : Nat) (h : n % 4 = 0) : scalarMult n 1 = 0 := by
  obtain ⟨bs, hb⟩ := bits_last n h
  have hp : (1 : Nat) < p := by unfold p; decide
  have h1 : Class (bs ++ [false, false] |>.foldl (bitStep 1) ⟨1, 0, 1, 1⟩) 0 := by
    have := fold_class (bs ++ [false, false]) ⟨1, 0, 1, 1⟩ 0 ⟨hp, p_pos, hp, hp⟩ ⟨rfl, rfl⟩
    rw [value_last] at this
    exact this
  have h2 : ((bits n).foldl (bitStep 1) ⟨1, 0, 1, 1⟩).z2 = 0 := by rw [hb]; exact h1.1
  have h3 : powBits 0 (bits (p - 2)) = 0 := by decide +kernel
  unfold scalarMult
  simp only
  rw [h2, h3, mul_zero]

theorem leNat_mod (b : UInt8) (bs : Bytes) : leNat (b :: bs) % 4 = b.toNat % 4 := by
  simp only [leNat]; omega

theorem clamp_mod (k : Bytes) (h : k.length = 32) : leNat (clamp k) % 4 = 0 := by
  match k, h with
  | b :: bs, h =>
    simp only [List.length_cons] at h
    have e : clamp (b :: bs) = (b &&& 248) :: ((bs.set 30 ((bs.getD 30 0) &&& 127)).set 30
        (((bs.set 30 ((bs.getD 30 0) &&& 127)).getD 30 0) ||| 64)) := by
      simp only [clamp, List.set_cons_zero, List.getD_cons_zero, List.set_cons_succ, List.getD_cons_succ]
    rw [e, leNat_mod]
    have : ∀ x : UInt8, (x &&& 248).toNat % 4 = 0 := by
      intro x
      have := UInt8.toNat_and x 248
      rw [this]
      have h8 : (x.toNat &&& (248 : UInt8).toNat) % 4 = (x.toNat % 4) &&& ((248 : UInt8).toNat % 4) := by
        rw [show (4 : Nat) = 2 ^ 2 by rfl, Nat.and_mod_two_pow]
      rw [h8]
      simp
    exact this b

theorem clamp_length (k : Bytes) : (clamp k).length = k.length := by simp [clamp]

theorem natLe_zero : ∀ n, natLe n 0 = List.replicate n 0
  | 0 => rfl
  | n + 1 => by
      simp only [natLe, Nat.zero_mod, Nat.zero_div, natLe_zero n, List.replicate_succ]
      rfl

/-- The point with u coordinate 1. -/
def lowPoint : Bytes := 1 :: List.replicate 31 0

theorem x25519_low (k : Bytes) : x25519 k lowPoint = none := by
  unfold x25519
  by_cases hk : k.length = 32
  · rw [if_neg (by rw [hk]; simp [lowPoint])]
    have h1 : leNat lowPoint % 2 ^ 255 % p = 1 := by decide +kernel
    simp only [h1, scalarMult_one _ (clamp_mod k hk), natLe_zero, if_pos]
  · rw [if_pos (Or.inl hk)]

end Verif.X25519
