import Verif.Model.Msgpack
import Verif.Proofs.Greenpack

/-!
# The MessagePack primitives meet the assumptions about the library
-/

namespace Verif.Greenpack

theorem be_length : ∀ (k n : Nat), (be k n).length = k
  | 0, _ => rfl
  | k + 1, n => by simp [be, be_length k n]

theorem readBe_be (r : Bytes) : ∀ (k acc n : Nat),
    readBe k acc (be k n ++ r) = some (acc * 256 ^ k + n % 256 ^ k, r)
  | 0, acc, n => by simp [be, readBe, Nat.mod_one]
  | k + 1, acc, n => by
      simp only [be, List.cons_append, readBe]
      rw [readBe_be r k]
      congr 2
      rw [UInt8.toNat_ofNat', Nat.add_mul, Nat.mul_assoc, ← Nat.pow_succ', Nat.add_assoc]
      congr 1
      have h := Nat.mod_mul (x := n) (a := 256 ^ k) (b := 256)
      rw [Nat.pow_succ (n := 256), h, Nat.mul_comm (256 ^ k), Nat.add_comm]

theorem readBe_be' (r : Bytes) {k n : Nat} (h : n < 256 ^ k) : readBe k 0 (be k n ++ r) = some (n, r) := by
  rw [readBe_be, Nat.mod_eq_of_lt h]; simp

theorem readN_append (s r : Bytes) : readN s.length (s ++ r) = some (s, r) := by
  simp [readN]

theorem readN_append' {s r : Bytes} {n : Nat} (h : s.length = n) : readN n (s ++ r) = some (s, r) := by
  subst h; exact readN_append s r

theorem signed_unsigned1 {i : Int} (h : -2 ^ 7 ≤ i ∧ i < 2 ^ 7) : signed 1 (unsigned 1 i) = i := by
  have hu : (unsigned 1 i : Int) = i % 256 := by
    unfold unsigned
    simp only [Int.reducePow]
    omega
  rcases Nat.lt_or_ge (unsigned 1 i) (256 ^ 1 / 2) with h' | h'
  · rw [signed, if_pos h']; omega
  · rw [signed, if_neg (by omega)]; omega
theorem signed_unsigned2 {i : Int} (h : -2 ^ 15 ≤ i ∧ i < 2 ^ 15) : signed 2 (unsigned 2 i) = i := by
  have hu : (unsigned 2 i : Int) = i % 65536 := by
    unfold unsigned
    simp only [Int.reducePow]
    omega
  rcases Nat.lt_or_ge (unsigned 2 i) (256 ^ 2 / 2) with h' | h'
  · rw [signed, if_pos h']; omega
  · rw [signed, if_neg (by omega)]; omega
theorem signed_unsigned4 {i : Int} (h : -2 ^ 31 ≤ i ∧ i < 2 ^ 31) : signed 4 (unsigned 4 i) = i := by
  have hu : (unsigned 4 i : Int) = i % 4294967296 := by
    unfold unsigned
    simp only [Int.reducePow]
    omega
  rcases Nat.lt_or_ge (unsigned 4 i) (256 ^ 4 / 2) with h' | h'
  · rw [signed, if_pos h']; omega
  · rw [signed, if_neg (by omega)]; omega
theorem signed_unsigned8 {i : Int} (h : -2 ^ 63 ≤ i ∧ i < 2 ^ 63) : signed 8 (unsigned 8 i) = i := by
  have hu : (unsigned 8 i : Int) = i % 18446744073709551616 := by
    unfold unsigned
    simp only [Int.reducePow]
    omega
  rcases Nat.lt_or_ge (unsigned 8 i) (256 ^ 8 / 2) with h' | h'
  · rw [signed, if_pos h']; omega
  · rw [signed, if_neg (by omega)]; omega

theorem unsigned_lt (k : Nat) (i : Int) : unsigned k i < 256 ^ k := by
  unfold unsigned
  have h1 : (0 : Int) < 256 ^ k := Int.pow_pos (by decide)
  have h2 := Int.emod_lt_of_pos i h1
  have h3 := Int.emod_nonneg i (Int.ne_of_gt h1)
  have : ((i % 256 ^ k).toNat : Int) < ((256 ^ k : Nat) : Int) := by
    rw [Int.toNat_of_nonneg h3]; simpa using h2
  exact Int.ofNat_lt.1 this

/-! ### Reading back -/

theorem getStr_put (s r : Bytes) (h : s.length < 2 ^ 32) : getStr (putStr s ++ r) = some (s, r) := by
  unfold putStr
  split
  · rename_i h1
    have e : (UInt8.ofNat (0xa0 + s.length)).toNat = 0xa0 + s.length := by
      rw [UInt8.toNat_ofNat']; omega
    simp only [List.cons_append, List.nil_append, getStr, e]
    rw [if_pos (by omega), show 0xa0 + s.length - 0xa0 = s.length by omega, readN_append]
  · split
    · rename_i h1 h2
      simp only [List.cons_append, List.append_assoc, getStr]
      rw [if_neg (by decide)]
      simp only [if_true, Nat.one_ne_zero, if_false]
      rw [readBe_be' _ (by omega)]
      simp [readN_append]
    · split
      · rename_i h1 h2 h3
        simp only [List.cons_append, List.append_assoc, getStr]
        rw [if_neg (by decide)]
        simp only [show (0xda : UInt8) ≠ 0xd9 by decide, if_true, if_false, show (2 : Nat) ≠ 0 by decide]
        rw [readBe_be' _ (by omega)]
        simp [readN_append]
      · simp only [List.cons_append, List.append_assoc, getStr]
        rw [if_neg (by decide)]
        simp only [show (0xdb : UInt8) ≠ 0xd9 by decide, show (0xdb : UInt8) ≠ 0xda by decide, if_true,
          if_false, show (4 : Nat) ≠ 0 by decide]
        rw [readBe_be' _ (by omega)]
        simp [readN_append]

theorem getBin_put (s r : Bytes) (h : s.length < 2 ^ 32) : getBin (putBin s ++ r) = some (s, r) := by
  unfold putBin
  split
  · simp only [List.cons_append, List.append_assoc, getBin, if_true, Nat.one_ne_zero, if_false]
    rw [readBe_be' _ (by omega)]
    simp [readN_append]
  · split
    · simp only [List.cons_append, List.append_assoc, getBin]
      simp only [show (0xc5 : UInt8) ≠ 0xc4 by decide, if_true, if_false, show (2 : Nat) ≠ 0 by decide]
      rw [readBe_be' _ (by omega)]
      simp [readN_append]
    · simp only [List.cons_append, List.append_assoc, getBin]
      simp only [show (0xc6 : UInt8) ≠ 0xc4 by decide, show (0xc6 : UInt8) ≠ 0xc5 by decide, if_true,
        if_false, show (4 : Nat) ≠ 0 by decide]
      rw [readBe_be' _ (by omega)]
      simp [readN_append]

theorem getNum_small {i : Int} (h : -32 ≤ i ∧ i < 128) (r : Bytes) :
    getNum (be 1 (unsigned 1 i) ++ r) = some (i, r) := by
  have hu : (0 ≤ i ∧ (unsigned 1 i : Int) = i) ∨ (i < 0 ∧ (unsigned 1 i : Int) = i + 256) := by
    unfold unsigned
    simp only [Int.reducePow]
    omega
  have e : (UInt8.ofNat (unsigned 1 i / 256 ^ 0)).toNat = unsigned 1 i := by
    rw [UInt8.toNat_ofNat']
    have := unsigned_lt 1 i
    simp only [Nat.pow_zero, Nat.div_one]
    exact Nat.mod_eq_of_lt (by simpa using this)
  simp only [be, List.cons_append, List.nil_append, getNum, e]
  generalize unsigned 1 i = u at *
  split
  · rw [show (u : Int) = i by omega]
  · rw [if_pos (by omega), show (u : Int) - 256 = i by omega]

theorem getNum_int (i : Int) (h : -2 ^ 63 ≤ i ∧ i < 2 ^ 63) (r : Bytes) :
    getNum (putInt i ++ r) = some (i, r) := by
  unfold putInt
  split
  · exact getNum_small (by assumption) r
  · split
    · rename_i h1
      have : getNum (0xd0 :: be 1 (unsigned 1 i) ++ r) =
          (readBe 1 0 (be 1 (unsigned 1 i) ++ r)).map fun r => (signed 1 r.1, r.2) := rfl
      rw [this, readBe_be' _ (unsigned_lt 1 i)]
      simp [signed_unsigned1 h1]
    · split
      · rename_i h1
        have : getNum (0xd1 :: be 2 (unsigned 2 i) ++ r) =
            (readBe 2 0 (be 2 (unsigned 2 i) ++ r)).map fun r => (signed 2 r.1, r.2) := rfl
        rw [this, readBe_be' _ (unsigned_lt 2 i)]
        simp [signed_unsigned2 h1]
      · split
        · rename_i h1
          have : getNum (0xd2 :: be 4 (unsigned 4 i) ++ r) =
              (readBe 4 0 (be 4 (unsigned 4 i) ++ r)).map fun r => (signed 4 r.1, r.2) := rfl
          rw [this, readBe_be' _ (unsigned_lt 4 i)]
          simp [signed_unsigned4 h1]
        · have : getNum (0xd3 :: be 8 (unsigned 8 i) ++ r) =
              (readBe 8 0 (be 8 (unsigned 8 i) ++ r)).map fun r => (signed 8 r.1, r.2) := rfl
          rw [this, readBe_be' _ (unsigned_lt 8 i)]
          simp [signed_unsigned8 h]

theorem getNum_uint (n : Nat) (h : n < 2 ^ 64) (r : Bytes) :
    getNum (putUint n ++ r) = some ((n : Int), r) := by
  unfold putUint
  split
  · have e : (UInt8.ofNat (n / 256 ^ 0)).toNat = n := by
      rw [UInt8.toNat_ofNat', Nat.pow_zero, Nat.div_one]; omega
    simp only [be, List.cons_append, List.nil_append, getNum, e]
    rw [if_pos (by assumption)]
  · split
    · have : getNum (0xcc :: be 1 n ++ r) =
          (readBe 1 0 (be 1 n ++ r)).map fun r => ((r.1 : Int), r.2) := rfl
      rw [this, readBe_be' _ (by omega)]; rfl
    · split
      · have : getNum (0xcd :: be 2 n ++ r) =
            (readBe 2 0 (be 2 n ++ r)).map fun r => ((r.1 : Int), r.2) := rfl
        rw [this, readBe_be' _ (by omega)]; rfl
      · split
        · have : getNum (0xce :: be 4 n ++ r) =
              (readBe 4 0 (be 4 n ++ r)).map fun r => ((r.1 : Int), r.2) := rfl
          rw [this, readBe_be' _ (by omega)]; rfl
        · have : getNum (0xcf :: be 8 n ++ r) =
              (readBe 8 0 (be 8 n ++ r)).map fun r => ((r.1 : Int), r.2) := rfl
          rw [this, readBe_be' _ (by omega)]; rfl

theorem getHdr_map (n : Nat) (r : Bytes) (h : n < 2 ^ 32) :
    getHdr 0x80 0xde 0xdf (putMapHdr n ++ r) = some (n, r) := by
  unfold putMapHdr
  split
  · have e : (UInt8.ofNat (0x80 + n)).toNat = 0x80 + n := by rw [UInt8.toNat_ofNat']; omega
    simp only [List.cons_append, List.nil_append, getHdr, e]
    rw [if_pos (by omega), show 0x80 + n - 0x80 = n by omega]
  · split
    · have : getHdr 0x80 0xde 0xdf (0xde :: be 2 n ++ r) = readBe 2 0 (be 2 n ++ r) := rfl
      rw [this, readBe_be' _ (by omega)]
    · have : getHdr 0x80 0xde 0xdf (0xdf :: be 4 n ++ r) = readBe 4 0 (be 4 n ++ r) := rfl
      rw [this, readBe_be' _ (by omega)]

theorem getHdr_arr (n : Nat) (r : Bytes) (h : n < 2 ^ 32) :
    getHdr 0x90 0xdc 0xdd (putArrHdr n ++ r) = some (n, r) := by
  unfold putArrHdr
  split
  · have e : (UInt8.ofNat (0x90 + n)).toNat = 0x90 + n := by rw [UInt8.toNat_ofNat']; omega
    simp only [List.cons_append, List.nil_append, getHdr, e]
    rw [if_pos (by omega), show 0x90 + n - 0x90 = n by omega]
  · split
    · have : getHdr 0x90 0xdc 0xdd (0xdc :: be 2 n ++ r) = readBe 2 0 (be 2 n ++ r) := rfl
      rw [this, readBe_be' _ (by omega)]
    · have : getHdr 0x90 0xdc 0xdd (0xdd :: be 4 n ++ r) = readBe 4 0 (be 4 n ++ r) := rfl
      rw [this, readBe_be' _ (by omega)]

theorem getTim_put (sec : Int) (n : Nat) (h : -2 ^ 63 ≤ sec ∧ sec < 2 ^ 63) (hn : n < 10 ^ 9) (r : Bytes) :
    getTim (putVal (.tim sec n) ++ r) = some (.tim sec n, r) := by
  have e : getTim (putVal (.tim sec n) ++ r) =
      (readBe 4 0 (be 4 n ++ be 8 (unsigned 8 sec) ++ r)).bind fun n =>
        (readBe 8 0 n.2).map fun s => (.tim (signed 8 s.1) n.1, s.2) := rfl
  rw [e, List.append_assoc, readBe_be' _ (Nat.lt_trans hn (by decide)), Option.bind_some,
    readBe_be' _ (unsigned_lt 8 sec), Option.map_some, signed_unsigned8 h]

theorem getF64_put (x : UInt64) (r : Bytes) : getVal .f64 (putVal (.f64 x) ++ r) = some (.f64 x, r) := by
  have e : getVal .f64 (putVal (.f64 x) ++ r) =
      (readBe 8 0 (be 8 x.toNat ++ r)).map fun r => (.f64 (UInt64.ofNat r.1), r.2) := rfl
  have h : x.toNat < 256 ^ 8 := Nat.lt_of_lt_of_eq x.toNat_lt (by decide)
  rw [e, readBe_be' _ h, Option.map_some, UInt64.ofNat_toNat]

theorem within_ok {lo hi i : Int} (h : lo ≤ i ∧ i < hi) (r : Bytes) :
    within lo hi (some (i, r)) = some (i, r) := by
  simp only [within, Option.bind_some, if_pos h]

theorem getVal_put (p : Prim) (x : PVal) (r : Bytes) (h : p.Has x) :
    getVal p (putVal x ++ r) = some (x, r) := by
  cases p <;> cases x <;> simp only [Prim.Has] at h
  · simp only [putVal, getVal]; rw [getStr_put _ _ h]; rfl
  · simp only [putVal, getVal]; rw [getBin_put _ _ h]; rfl
  · rename_i b; cases b <;> rfl
  · simp only [putVal, getVal]; rw [getNum_int _ h, within_ok h, Option.map_some]
  · simp only [putVal, getVal]
    rw [getNum_int _ ⟨Int.le_trans (by decide) h.1, Int.lt_trans h.2 (by decide)⟩, within_ok h, Option.map_some]
  · simp only [putVal, getVal]
    rw [getNum_uint _ h, within_ok ⟨Int.natCast_nonneg _, by exact_mod_cast h⟩, Option.map_some, Int.toNat_natCast]
  · simp only [putVal, getVal]
    rw [getNum_uint _ (Nat.lt_trans h (by decide)), within_ok ⟨Int.natCast_nonneg _, by exact_mod_cast h⟩,
      Option.map_some, Int.toNat_natCast]
  · simp only [getVal]; exact getTim_put _ _ ⟨h.1, h.2.1⟩ h.2.2 r
  · exact getF64_put _ r

/-! ### Skipping -/

/-- An object's own bytes: passed over by `skipHead`, which tells how many
objects are inside. -/
theorem skipHead_len {x : UInt8} {k extra perByte perObj n : Nat} {s : Bytes} (r : Bytes)
    (hf : form x.toNat = some (k, 0, extra, perByte, perObj)) (hn : n < 256 ^ k)
    (hs : s.length = extra + perByte * n) :
    skipHead (x :: (be k n ++ (s ++ r))) = some (perObj * n, r) := by
  simp only [skipHead, hf]
  rw [readBe_be, Nat.mod_eq_of_lt hn]
  simp only [Nat.zero_mul, Nat.zero_add]
  rw [readN_append' hs]
  rfl

theorem skipHead_fix {x : UInt8} {extra perByte perObj n : Nat} {s : Bytes} (r : Bytes)
    (hf : form x.toNat = some (0, n, extra, perByte, perObj))
    (hs : s.length = extra + perByte * n) :
    skipHead (x :: (s ++ r)) = some (perObj * n, r) := by
  simp only [skipHead, hf, readBe]
  rw [readN_append' hs]
  rfl

theorem form_str {n : Nat} (h : n < 32) : form (UInt8.ofNat (0xa0 + n)).toNat = some (0, n, 0, 1, 0) := by
  rw [UInt8.toNat_ofNat', Nat.mod_eq_of_lt (by omega)]
  unfold form
  rw [if_neg (by omega), if_neg (by omega), if_neg (by omega), if_pos (by omega),
    show 0xa0 + n - 0xa0 = n by omega]

theorem form_map {n : Nat} (h : n < 16) : form (UInt8.ofNat (0x80 + n)).toNat = some (0, n, 0, 0, 2) := by
  rw [UInt8.toNat_ofNat', Nat.mod_eq_of_lt (by omega)]
  unfold form
  rw [if_neg (by omega), if_pos (by omega), show 0x80 + n - 0x80 = n by omega]

theorem form_arr {n : Nat} (h : n < 16) : form (UInt8.ofNat (0x90 + n)).toNat = some (0, n, 0, 0, 1) := by
  rw [UInt8.toNat_ofNat', Nat.mod_eq_of_lt (by omega)]
  unfold form
  rw [if_neg (by omega), if_neg (by omega), if_pos (by omega), show 0x90 + n - 0x90 = n by omega]

theorem form_one {x : Nat} (h : x < 128 ∨ 0xe0 ≤ x) : form x = some (0, 0, 0, 1, 0) := by
  unfold form
  rcases h with h | h
  · rw [if_pos (by omega)]
  · rw [if_neg (by omega), if_neg (by omega), if_neg (by omega), if_neg (by omega), if_pos h]

theorem skip_putStr (s r : Bytes) (h : s.length < 2 ^ 32) : skipHead (putStr s ++ r) = some (0, r) := by
  unfold putStr
  split
  · rename_i h1
    have := skipHead_fix (s := s) r (form_str h1) (by omega)
    simpa using this
  · split
    · have := skipHead_len (x := 0xd9) (k := 1) (s := s) (n := s.length) r rfl (by omega) (by omega)
      simpa using this
    · split
      · have := skipHead_len (x := 0xda) (k := 2) (s := s) (n := s.length) r rfl (by omega) (by omega)
        simpa using this
      · have := skipHead_len (x := 0xdb) (k := 4) (s := s) (n := s.length) r rfl (by omega) (by omega)
        simpa using this

theorem skip_putBin (s r : Bytes) (h : s.length < 2 ^ 32) : skipHead (putBin s ++ r) = some (0, r) := by
  unfold putBin
  split
  · have := skipHead_len (x := 0xc4) (k := 1) (s := s) (n := s.length) r rfl (by omega) (by omega)
    simpa using this
  · split
    · have := skipHead_len (x := 0xc5) (k := 2) (s := s) (n := s.length) r rfl (by omega) (by omega)
      simpa using this
    · have := skipHead_len (x := 0xc6) (k := 4) (s := s) (n := s.length) r rfl (by omega) (by omega)
      simpa using this

theorem skip_one {n : Nat} (h : n % 256 < 128 ∨ 0xe0 ≤ n % 256) (r : Bytes) :
    skipHead (be 1 n ++ r) = some (0, r) := by
  have hx : (UInt8.ofNat (n / 256 ^ 0)).toNat = n % 256 := by
    rw [UInt8.toNat_ofNat', Nat.pow_zero, Nat.div_one]
  have := skipHead_fix (x := UInt8.ofNat (n / 256 ^ 0)) (s := []) r (form_one (by rw [hx]; exact h)) (by simp)
  simpa [be] using this

theorem skip_fixed {x : UInt8} {k n : Nat} (hf : form x.toNat = some (0, k, 0, 1, 0)) (r : Bytes) :
    skipHead (x :: be k n ++ r) = some (0, r) := by
  have := skipHead_fix (s := be k n) r hf (by rw [be_length]; omega)
  simpa using this

theorem skip_putInt (i : Int) (r : Bytes) : skipHead (putInt i ++ r) = some (0, r) := by
  unfold putInt
  split
  · rename_i h
    refine skip_one ?_ r
    unfold unsigned
    omega
  · split
    · exact skip_fixed rfl r
    · split
      · exact skip_fixed rfl r
      · split
        · exact skip_fixed rfl r
        · exact skip_fixed rfl r

theorem skip_putUint (n : Nat) (r : Bytes) : skipHead (putUint n ++ r) = some (0, r) := by
  unfold putUint
  split
  · exact skip_one (by omega) r
  · split
    · exact skip_fixed rfl r
    · split
      · exact skip_fixed rfl r
      · split
        · exact skip_fixed rfl r
        · exact skip_fixed rfl r

theorem skip_putVal (p : Prim) (x : PVal) (r : Bytes) (h : p.Has x) :
    skipHead (putVal x ++ r) = some (0, r) := by
  cases x with
  | str s => cases p <;> simp only [Prim.Has] at h; exact skip_putStr s r h
  | bin s => cases p <;> simp only [Prim.Has] at h; exact skip_putBin s r h
  | boo b => cases b <;> simp [putVal, skipHead, form, readBe, readN]
  | int i => exact skip_putInt i r
  | uint n => exact skip_putUint n r
  | tim s n =>
    have := skipHead_len (x := 0xc7) (k := 1) (n := 12) (s := 0xff :: (be 4 n ++ be 8 (unsigned 8 s))) r
      rfl (by decide) (by simp [be_length])
    simpa [putVal, be] using this
  | f64 x => exact skip_fixed rfl r

theorem skip_mapHdr (n : Nat) (r : Bytes) (h : n < 2 ^ 32) : skipHead (putMapHdr n ++ r) = some (2 * n, r) := by
  unfold putMapHdr
  split
  · rename_i h1
    have := skipHead_fix (s := []) r (form_map h1) (by simp)
    simpa using this
  · split
    · have := skipHead_len (x := 0xde) (k := 2) (s := []) (n := n) r rfl (by omega) (by simp)
      simpa using this
    · have := skipHead_len (x := 0xdf) (k := 4) (s := []) (n := n) r rfl (by omega) (by simp)
      simpa using this

theorem skip_arrHdr (n : Nat) (r : Bytes) (h : n < 2 ^ 32) : skipHead (putArrHdr n ++ r) = some (n, r) := by
  unfold putArrHdr
  split
  · rename_i h1
    have := skipHead_fix (s := []) r (form_arr h1) (by simp)
    simpa using this
  · split
    · have := skipHead_len (x := 0xdc) (k := 2) (s := []) (n := n) r rfl (by omega) (by simp)
      simpa using this
    · have := skipHead_len (x := 0xdd) (k := 4) (s := []) (n := n) r rfl (by omega) (by simp)
      simpa using this

theorem putMapHdr_pos (n : Nat) : 0 < (putMapHdr n).length := by
  unfold putMapHdr; split
  · simp
  · split <;> simp

theorem putArrHdr_pos (n : Nat) : 0 < (putArrHdr n).length := by
  unfold putArrHdr; split
  · simp
  · split <;> simp

theorem putVal_pos (x : PVal) : 0 < (putVal x).length := by
  cases x with
  | str s => simp only [putVal, putStr]; split <;> (try split) <;> (try split) <;> simp
  | bin s => simp only [putVal, putBin]; split <;> (try split) <;> simp
  | boo b => simp [putVal]
  | int i => simp only [putVal, putInt]; split <;> (try split) <;> (try split) <;> (try split) <;> simp [be_length]
  | uint i => simp only [putVal, putUint]; split <;> (try split) <;> (try split) <;> (try split) <;> simp [be_length]
  | tim s n => simp [putVal]
  | f64 x => simp [putVal]

theorem skipMany_step {b r : Bytes} {m : Nat} (h : skipHead (b ++ r) = some (m, r)) (fuel n : Nat) :
    skipMany (fuel + 1) (n + 1) (b ++ r) = skipMany fuel (m + n) r := by
  simp only [skipMany, h]

mutual
theorem skipMany_obj : ∀ {b : Bytes}, Obj msgpack b → ∀ (fuel n : Nat) (r : Bytes), b.length ≤ fuel →
    ∃ fuel', fuel - b.length ≤ fuel' ∧ skipMany fuel (n + 1) (b ++ r) = skipMany fuel' n r
  | _, .nil, fuel, n, r, h => by
      obtain ⟨f, rfl⟩ : ∃ f, fuel = f + 1 := ⟨fuel - 1, by simp at h; omega⟩
      refine ⟨f, by simp, ?_⟩
      have := skipMany_step (b := [nilByte]) (r := r) (m := 0) (by simp [skipHead, nilByte, form, readBe, readN]) f n
      simpa using this
  | _, .prim p x hx, fuel, n, r, h => by
      have hpos := putVal_pos x
      simp only [msgpack] at h ⊢
      obtain ⟨f, rfl⟩ : ∃ f, fuel = f + 1 := ⟨fuel - 1, by omega⟩
      refine ⟨f, by omega, ?_⟩
      have := skipMany_step (skip_putVal p x r hx) f n
      simpa using this
  | _, .arr k b hk hb, fuel, n, r, h => by
      have hpos := putArrHdr_pos k
      simp only [msgpack, List.length_append, List.append_assoc] at h ⊢
      obtain ⟨f, rfl⟩ : ∃ f, fuel = f + 1 := ⟨fuel - 1, by omega⟩
      rw [skipMany_step (skip_arrHdr k (b ++ r) hk) f n]
      obtain ⟨f', h1, h2⟩ := skipMany_objs hb f n r (by omega)
      exact ⟨f', by omega, h2⟩
  | _, .map k b hk hb, fuel, n, r, h => by
      have hpos := putMapHdr_pos k
      simp only [msgpack, List.length_append, List.append_assoc] at h ⊢
      obtain ⟨f, rfl⟩ : ∃ f, fuel = f + 1 := ⟨fuel - 1, by omega⟩
      rw [skipMany_step (skip_mapHdr k (b ++ r) hk) f n]
      obtain ⟨f', h1, h2⟩ := skipMany_objs hb f n r (by omega)
      exact ⟨f', by omega, h2⟩
theorem skipMany_objs : ∀ {k : Nat} {b : Bytes}, Objs msgpack k b → ∀ (fuel n : Nat) (r : Bytes),
    b.length ≤ fuel →
    ∃ fuel', fuel - b.length ≤ fuel' ∧ skipMany fuel (k + n) (b ++ r) = skipMany fuel' n r
  | _, _, .nil, fuel, n, r, _ => ⟨fuel, by simp, by simp⟩
  | _, _, .cons k b c hb hc, fuel, n, r, h => by
      simp only [List.length_append, List.append_assoc] at h ⊢
      obtain ⟨f1, h1, h2⟩ := skipMany_obj hb fuel (k + n) (c ++ r) (by omega)
      obtain ⟨f2, h3, h4⟩ := skipMany_objs hc f1 n r (by omega)
      refine ⟨f2, by omega, ?_⟩
      rw [show k + 1 + n = k + n + 1 by omega, h2, h4]
end

/-- The MessagePack primitives are sound. -/
theorem msgpack_sound : msgpack.Sound where
  get_put p x r h := getVal_put p x r h
  put_pos _ x _ := putVal_pos x
  put_bin x r h := by
    cases x <;> simp only [Prim.Has] at h
    rename_i s
    simp only [msgpack, putVal, putBin]
    split
    · rfl
    · split <;> rfl
  get_map n r h := getHdr_map n r h
  map_pos n _ := putMapHdr_pos n
  map_nil n r h := by
    simp only [msgpack, putMapHdr]
    split
    · rename_i h1
      simp only [List.cons_append, isNil]
      have e : (UInt8.ofNat (0x80 + n)).toNat = 0x80 + n := by rw [UInt8.toNat_ofNat']; omega
      have : UInt8.ofNat (0x80 + n) ≠ nilByte := by
        intro he
        rw [he] at e
        have : nilByte.toNat = 0xc0 := rfl
        omega
      simpa using this
    · split <;> rfl
  get_arr n r h := getHdr_arr n r h
  arr_pos n _ := putArrHdr_pos n
  skip_obj b r h := by
    obtain ⟨f, -, h2⟩ := skipMany_obj h (b ++ r).length 0 r (by simp)
    have : skipMany f 0 r = some r := by cases f <;> rfl
    rw [this] at h2
    exact h2

end Verif.Greenpack
