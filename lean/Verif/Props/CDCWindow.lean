import Verif.Proofs.CDCWindow
import Verif.Props.CDC

/-!
# C136: cuts follow the content

Full statement: whether NextCut ends a chunk at a place depends on a window of
bytes there and on the configured sizes only, for every chunker; so of two files
with a common end, cuts of one inside the common part are cuts of the other as
soon as the other's chunk is long enough, and after one common cut all later
cuts are the same.

Proved for the chunker that jsync uses (Plakar's), on both levels. It is false
for FNV-1a, which hashes all of the chunk, for Rabin-Karp, whose loop does
not take the leaving byte out of the hash, and for UltraCDC, which skips groups
of eight bytes counted from the chunk's start. For Stadia's chunker it is proved
for the cuts made by the threshold, not for those made by going back to an
earlier candidate at the end of the data or at the maximum.
-/

namespace Verif.CDC

/-- NextCut of Plakar's chunker. `k1` is a cut that the content decided (it is
neither the end of the data nor the maximum). Any other data that has the same
64 bytes around its place `k2` is not carried past `k2`, when both places are on
the same side of the target and at least 63 bytes behind the minimum. What came
before the window may differ in content and in length. -/
theorem C136_plakar_window_partial (gear : UInt8 → UInt64) (c : Config) (hv : validate c = true)
    (d1 d2 : Bytes) (k1 k2 : Nat) (hcut : plakar gear c d1 = k1)
    (h1 : c.minSize + 63 ≤ k1) (h1l : k1 < d1.length) (h1m : k1 < c.maxSize)
    (h2 : c.minSize + 63 ≤ k2) (h2l : k2 < d2.length) (h2m : k2 < c.maxSize)
    (side : k1 < c.targetSize ↔ k2 < c.targetSize)
    (same : (d1.drop (k1 - 63)).take 64 = (d2.drop (k2 - 63)).take 64) :
    plakar gear c d2 ≤ k2 := by
  rw [validate_iff] at hv
  obtain ⟨t1, e1, g1, m1⟩ := plakar_unify gear c d1 (by omega) (by omega)
  obtain ⟨t2, e2, g2, m2⟩ := plakar_unify gear c d2 (by omega) (by omega)
  rw [e1] at hcut
  obtain ⟨_, hit⟩ := plakarLoop_hit gear t1 _ _ _ _ _ k1 (by rw [if_neg (by omega)])
    (by rw [List.length_drop, List.length_take]; omega) hcut (by omega)
  rw [seen_window d1 _ _ _ h1 (by omega) (by omega), same, m1 _ (by omega)] at hit
  rw [e2]
  refine plakarLoop_stops gear t2 _ _ _ _ _ k2 (by rw [if_neg (by omega)])
    (by rw [List.length_drop, List.length_take]; omega) (by omega) (by omega) ?_
  rw [seen_window d2 _ _ _ h2 (by omega) (by omega), m2 _ (by omega)]
  have : maskAt c.targetSize k2 = maskAt c.targetSize k1 := by
    unfold maskAt
    by_cases h : c.targetSize ≤ k1
    · rw [if_pos h, if_pos (by omega)]
    · rw [if_neg h, if_neg (by omega)]
  rw [this]
  exact hit

/-- After one common cut all later cuts are the same, for every chunker that
makes progress (C41): the files are `x ++ e` and `y ++ e`, `p` the place in `e`
where both have a cut (or begin). -/
theorem C136_after_common_cut (next : Bytes → Nat) (hp : Progress next) (x y e : Bytes)
    (cx cy : List Nat) (hx : cutpoints next 0 (x ++ e) = some cx)
    (hy : cutpoints next 0 (y ++ e) = some cy) (p : Nat)
    (px : x.length + p ∈ 0 :: cx) (py : y.length + p ∈ 0 :: cy) (q : Nat) (hq : p ≤ q) :
    x.length + q ∈ 0 :: cx ↔ y.length + q ∈ 0 :: cy := by
  rw [cutpoints_eq hp] at hx hy
  cases hx; cases hy
  obtain ⟨_, _, ax⟩ := mem_cuts_step hp (x ++ e) 0 _ px
  obtain ⟨_, _, ay⟩ := mem_cuts_step hp (y ++ e) 0 _ py
  rw [ax _ (by omega), ay _ (by omega)]
  simp only [Nat.sub_zero, List.drop_append, List.drop_of_length_le (Nat.le_add_right _ _),
    List.nil_append, Nat.add_sub_cancel_left]
  have := ends_shift (segs next (e.drop p)) (x.length + p) (y.length + p) (q - p)
  have e1 : x.length + p + (q - p) = x.length + q := by omega
  have e2 : y.length + p + (q - p) = y.length + q := by omega
  rw [e1, e2] at this
  exact this

/-- Two files with a common end, cut by Plakar's chunker. In the first a chunk
begins at `a` and the next cut is at place `p` of the common end. A chunk of the
second file that begins at `b` ends at that place or before it, when both chunks
would have 63 bytes more than the minimum there, less than the maximum, and are
on the same side of the target. (With `b` the last cut before that place, the
place itself is a cut.) -/
theorem C136_plakar_files_partial (gear : UInt8 → UInt64) (c : Config) (hv : validate c = true)
    (x y e : Bytes) (cx cy : List Nat)
    (hx : cutpoints (plakar gear c) 0 (x ++ e) = some cx)
    (hy : cutpoints (plakar gear c) 0 (y ++ e) = some cy)
    (p : Nat) (hp63 : 63 ≤ p) (hpe : p < e.length)
    (a : Nat) (ha : a ∈ 0 :: cx) (hcut : x.length + p ∈ cx)
    (hnext : ∀ t ∈ cx, a < t → x.length + p ≤ t)
    (b : Nat) (hb : b ∈ 0 :: cy)
    (la : a + c.minSize + 63 ≤ x.length + p) (ma : x.length + p < a + c.maxSize)
    (lb : b + c.minSize + 63 ≤ y.length + p) (mb : y.length + p < b + c.maxSize)
    (side : x.length + p < a + c.targetSize ↔ y.length + p < b + c.targetSize) :
    ∃ t ∈ cy, b < t ∧ t ≤ y.length + p := by
  have hv' := hv
  rw [validate_iff] at hv'
  have hprog : Progress (plakar gear c) := plakar_progress (by omega) (by omega)
  have ea : (x ++ e).length = x.length + e.length := List.length_append ..
  have eb : (y ++ e).length = y.length + e.length := List.length_append ..
  obtain ⟨a1, a2⟩ := first_cut hprog hx ha (by omega)
  obtain ⟨b1, b2⟩ := first_cut hprog hy hb (by omega)
  have hda : (x ++ e).drop a ≠ [] := by
    intro h
    have := congrArg List.length h
    rw [List.length_drop, List.length_nil] at this; omega
  have hdb : (y ++ e).drop b ≠ [] := by
    intro h
    have := congrArg List.length h
    rw [List.length_drop, List.length_nil] at this; omega
  have pa := hprog _ hda
  have pb := hprog _ hdb
  have q1 := a2 _ hcut (by omega)
  have q2 := hnext _ a1 (by omega)
  refine ⟨_, b1, by omega, ?_⟩
  have hw := C136_plakar_window_partial gear c hv ((x ++ e).drop a) ((y ++ e).drop b)
    (x.length + p - a) (y.length + p - b) (by omega) (by omega)
    (by rw [List.length_drop]; omega) (by omega) (by omega)
    (by rw [List.length_drop]; omega) (by omega)
    (by constructor <;> intros <;> omega) (by
      rw [List.drop_drop, List.drop_drop,
        show a + (x.length + p - a - 63) = x.length + (p - 63) by omega,
        show b + (y.length + p - b - 63) = y.length + (p - 63) by omega]
      simp only [List.drop_append, List.drop_of_length_le (Nat.le_add_right _ _),
        List.nil_append, Nat.add_sub_cancel_left])
  omega

/-- The hash of 64 bytes that FastCDC takes: each byte's entry of the table,
doubled once for every byte that follows, modulo 2^64. -/
def windowHash (gear : UInt8 → UInt64) (w : Bytes) : Nat :=
  ((w.zipIdx.map (fun (b, i) => (gear b).toNat * 2 ^ (w.length - 1 - i))).sum) % 2 ^ 64

theorem gearNat_sum (gear : UInt8 → UInt64) (w : Bytes) : ∀ s,
    ((w.zipIdx s).map (fun (b, i) => (gear b).toNat * 2 ^ (s + w.length - 1 - i))).sum
      = gearNat gear 0 w := by
  induction w with
  | nil => intro s; simp [gearNat]
  | cons b w ih =>
    intro s
    have h := ih (s + 1)
    have he := gearNat_eq gear w (2 * 0 + (gear b).toNat)
    simp only [List.zipIdx_cons, List.map_cons, List.sum_cons, List.length_cons] at h ⊢
    have h2 : gearNat gear 0 (b :: w) = gearNat gear (2 * 0 + (gear b).toNat) w := rfl
    rw [h2, he, show s + (w.length + 1) - 1 - s = w.length by omega,
      show s + (w.length + 1) - 1 = s + 1 + w.length - 1 by omega, h]
    simp

theorem windowHash_eq (gear : UInt8 → UInt64) (w : Bytes) :
    windowHash gear w = (gearFold gear 0 w).toNat := by
  have h := gearNat_sum gear w 0
  rw [Nat.zero_add] at h
  unfold windowHash
  rw [h, gearFold_toNat]
  rfl

/-- NextCut of Stadia's chunker is the first place from the minimum on at which
the hash of the 64 bytes before the place is at most the threshold, if there is
one before the end of the data and the maximum. So a place of this kind ends
every chunk that has not ended before. Missing: when there is no such place, the
chunk ends at a candidate chosen by comparing the places seen, or at the end. -/
theorem C136_stadia_window_partial (gear : UInt8 → UInt64) (c : Config) (hv : validate c = true)
    (data : Bytes) (k : Nat) (h1 : c.minSize ≤ k) (hl : k < data.length) (hm : k < c.maxSize)
    (hit : windowHash gear ((data.drop (k - 64)).take 64)
      ≤ (2 ^ 64 - 1) / (c.targetSize - c.minSize + 1))
    (first : ∀ j, c.minSize ≤ j → j < k →
      (2 ^ 64 - 1) / (c.targetSize - c.minSize + 1)
        < windowHash gear ((data.drop (j - 64)).take 64)) :
    stadia gear c data = k := by
  rw [validate_iff] at hv
  have hth : ((0xffffffffffffffff : UInt64) /
      (UInt64.ofNat c.targetSize - UInt64.ofNat c.minSize + 1)).toNat
      = (2 ^ 64 - 1) / (c.targetSize - c.minSize + 1) := by
    rw [UInt64.toNat_div, UInt64.toNat_add, UInt64.toNat_sub, UInt64.toNat_ofNat',
      UInt64.toNat_ofNat']
    have e : (((2 ^ 64 - c.minSize % 2 ^ 64 + c.targetSize % 2 ^ 64) % 2 ^ 64)
        + (1 : UInt64).toNat) % 2 ^ 64 = c.targetSize - c.minSize + 1 := by
      have : (1 : UInt64).toNat = 1 := by decide
      omega
    rw [e]; rfl
  unfold stadia
  simp only []
  rw [if_neg (by omega)]
  have hn : (if data.length ≥ c.maxSize then c.maxSize else data.length)
      = min data.length c.maxSize := by split <;> omega
  rw [hn]
  have hseen := fun (j : Nat) (a : c.minSize ≤ j) (b : j ≤ k) =>
    stadia_seen data (min data.length c.maxSize) c.minSize j (by omega) a (by omega) (by omega)
      gear 0xffffffffffffffff
  have hfin := stadiaLoop_first gear ((0xffffffffffffffff : UInt64) /
      (UInt64.ofNat c.targetSize - UInt64.ofNat c.minSize + 1))
    ((data.take (min data.length c.maxSize)).drop c.minSize) c.minSize
    (min data.length c.maxSize) 0
    (gearFold gear 0xffffffffffffffff
      ((data.take c.minSize).drop (if c.minSize > 64 then c.minSize - 64 else 0)))
    (k - c.minSize) (by intro x _; simp)
    (by rw [List.length_drop, List.length_take]; omega)
    (by
      rw [hseen k h1 (Nat.le_refl _), UInt64.le_iff_toNat_le, hth, ← windowHash_eq]
      exact hit)
    (by
      intro j hj hle
      have hs := hseen (c.minSize + j) (by omega) (by omega)
      rw [show c.minSize + j - c.minSize = j by omega] at hs
      rw [hs, UInt64.le_iff_toNat_le, hth, ← windowHash_eq] at hle
      have := first (c.minSize + j) (by omega) (by omega)
      omega)
  rw [show c.minSize + (k - c.minSize) = k by omega] at hfin
  exact hfin

/-- FNV-1a has no window: for every width there are a valid configuration (the
chunker then asks for one zero bit) and two inputs that differ in the first byte
only, of which one is cut by its content more than that width behind the
difference, and the other is not cut there. -/
theorem C136_fnv_counterexample (width : Nat) (hw : width ≤ 1000000000) :
    ∃ (c : Config) (d1 d2 : Bytes), validate c = true ∧ c.targetSize - c.minSize = 2 ∧
      d1.length = d2.length ∧ d1.length < c.maxSize ∧ d1.drop 1 = d2.drop 1 ∧
      width < fnv (fnvMask 1) c d1 ∧ fnv (fnvMask 1) c d1 < d1.length ∧
      fnv (fnvMask 1) c d2 = d2.length := by
  have hmask : fnvMask 1 = 1 := by decide
  have hrun : ∀ b : UInt8, fnv (fnvMask 1) ⟨width + 64, width + 66, width + 200⟩
      (b :: List.replicate (width + 99) 0)
      = fnvLoop (width + 64) (width + 100) 1 1 ((2166136261 ^^^ b.toUInt32) * 16777619)
          (List.replicate (width + 99) 0) := by
    intro b
    unfold fnv
    simp only [List.length_cons, List.length_replicate]
    rw [if_neg (by omega), if_neg (by omega), hmask,
      List.take_of_length_le (by simp)]
    simp only [fnvLoop]
    rw [if_neg (by omega)]
  have h1 : fnv (fnvMask 1) ⟨width + 64, width + 66, width + 200⟩
      (1 :: List.replicate (width + 99) 0) = width + 65 := by
    rw [hrun, fnvLoop_even _ _ _ _ _ (by decide) (by omega) (by omega)]
  have h2 : fnv (fnvMask 1) ⟨width + 64, width + 66, width + 200⟩
      (0 :: List.replicate (width + 99) 0) = width + 100 := by
    rw [hrun, fnvLoop_odd _ _ _ _ _ (by decide)]
  refine ⟨⟨width + 64, width + 66, width + 200⟩, 1 :: List.replicate (width + 99) 0,
    0 :: List.replicate (width + 99) 0, ?_, by simp only []; omega, by simp, ?_, by simp, ?_, ?_, ?_⟩
  · rw [validate_iff]; simp only []; omega
  · simp only [List.length_cons, List.length_replicate]; omega
  · rw [h1]; omega
  · rw [h1]; simp only [List.length_cons, List.length_replicate]; omega
  · rw [h2]; simp only [List.length_cons, List.length_replicate]

/-- Rabin-Karp has no window either, in any valid configuration: of two inputs of
zero bytes which differ in the first byte only, one is cut right behind the
minimum, and the other not before the end of the data or the maximum, however
long the inputs are. -/
theorem C136_rabin_counterexample (c : Config) (hv : validate c = true) (len : Nat)
    (hl : c.minSize + 1 < len) :
    rabinNew c (0 :: List.replicate (len - 1) 0) = c.minSize + 1 ∧
    rabinNew c (1 :: List.replicate (len - 1) 0) = min len c.maxSize := by
  rw [validate_iff] at hv
  have hlow := rabinMask_low c.targetSize (by omega) (by omega)
  have hh1 := halvings_ge6 c.targetSize (by omega)
  have hh2 := halvings_lt 30 c.targetSize (by omega)
  have hw : rabinWindow c.targetSize = 1 + halvings c.targetSize := by
    unfold rabinWindow
    have h4 : ¬ 1 + halvings c.targetSize < 4 := by omega
    simp only [if_neg h4]
    rw [if_neg (by omega)]
  have hrun : ∀ b : UInt8, rabinNew c (b :: List.replicate (len - 1) 0)
      = (let init := (List.replicate (halvings c.targetSize) (0 : UInt8)).foldl
            (fun (s : UInt32 × UInt32) b => (s.1 * rabinMult + b.toUInt32, s.2 * rabinMult))
            (b.toUInt32, rabinMult)
        rabinLoop c.minSize (min len c.maxSize) rabinMult (rabinMask c.targetSize)
          (1 + halvings c.targetSize) init.1 init.2
          (b :: List.replicate (min len c.maxSize - 1) 0)
          (List.replicate (min len c.maxSize - 1 - halvings c.targetSize) 0)) := by
    intro b
    unfold rabinNew rabin
    simp only [List.length_cons, List.length_replicate]
    rw [if_neg (by omega), hw]
    have hn : (if len - 1 + 1 ≥ c.maxSize then c.maxSize else len - 1 + 1) = min len c.maxSize := by
      split <;> omega
    rw [hn]
    obtain ⟨m, hm⟩ : ∃ m, min len c.maxSize = m + 1 := ⟨min len c.maxSize - 1, by omega⟩
    have ht : (b :: List.replicate (len - 1) 0).take (min len c.maxSize)
        = b :: List.replicate m (0 : UInt8) := by
      rw [hm, List.take_succ_cons, List.take_replicate, Nat.min_eq_left (by omega)]
    rw [ht, hm, show 1 + halvings c.targetSize = halvings c.targetSize + 1 by omega,
      List.take_succ_cons, List.drop_succ_cons, List.take_replicate, List.drop_replicate,
      Nat.min_eq_left (by omega), List.foldl_cons]
    simp
  constructor
  · rw [hrun]
    simp only []
    rw [rabin_fold_all_zero _ _ (by decide), ← List.replicate_succ]
    exact rabinLoop_zeros _ _ _ _ _ _ _ (by omega) (by omega) (by omega)
  · rw [hrun]
    obtain ⟨k, hk⟩ : ∃ k, min len c.maxSize - 1 - halvings c.targetSize = k + 1 :=
      ⟨min len c.maxSize - 1 - halvings c.targetSize - 1, by omega⟩
    have hf := rabin_fold_zeros (halvings c.targetSize) ((1 : UInt8).toUInt32, rabinMult)
      (by decide) (by decide)
    simp only [] at hf ⊢
    generalize (List.replicate (halvings c.targetSize) (0 : UInt8)).foldl
      (fun (s : UInt32 × UInt32) b => (s.1 * rabinMult + b.toUInt32, s.2 * rabinMult))
      ((1 : UInt8).toUInt32, rabinMult) = r at hf
    rw [hk, List.replicate_succ]
    simp only [rabinLoop]
    have e1 : (r.1 - r.2 * (1 : UInt8).toUInt32) * rabinMult + (0 : UInt8).toUInt32
        = (r.1 - r.2) * rabinMult := by simp
    rw [e1, if_neg (by omega)]
    have hs : ((r.1 - r.2) * rabinMult).toNat % 8 = 4 := by
      rw [u32_mul_mod8, UInt32.toNat_sub, show rabinMult.toNat % 8 = 5 by decide]
      have := r.1.toNat_lt
      have := r.2.toNat_lt
      omega
    exact rabinLoop_never _ _ _ hlow _ _ _ _ _ hs

/-- Zeros, a pattern of eight bytes twice, zeros. -/
def ultraSample : Bytes :=
  List.replicate 137 0 ++ [160, 160, 160, 0, 170, 160, 160, 160]
    ++ [160, 160, 160, 0, 170, 160, 160, 160] ++ List.replicate 24 0

/-- UltraCDC looks at places only in groups of eight, counted from the start of
the chunk, and leaves out a group that equals the group before. The same data
with one byte less at the start, more than 64 bytes behind the minimum, is cut
later: `145 - 1` is passed. -/
theorem C136_ultra_counterexample :
    validate ⟨64, 300, 400⟩ = true ∧ ultra ⟨64, 300, 400⟩ ultraSample = 145 ∧
    ultra ⟨64, 300, 400⟩ (ultraSample.drop 1) = 152 ∧
    ((ultraSample.drop (145 - 81)).take 104)
      = (((ultraSample.drop 1).drop (144 - 81)).take 104) := by
  refine ⟨by decide, ?_, ?_, by decide +kernel⟩
  · rw [ultraF_eq]; decide +kernel
  · rw [ultraF_eq]; decide +kernel

/-! ## The hypotheses are met -/

/-- A gear table for the examples: only bytes over 200 leave the masked bits
clear. -/
def sampleGear (b : UInt8) : UInt64 := if b > 200 then 0 else b.toUInt64 <<< 16

/-- A common end: 150 small bytes, 64 large ones, 100 small ones. -/
def sampleEnd : Bytes := List.replicate 150 1 ++ List.replicate 64 255 ++ List.replicate 100 1

def sampleConfig : Config := ⟨64, 400, 800⟩

def sampleA : Bytes := [7, 7]
def sampleB : Bytes := List.replicate 40 7

theorem cuts_of_max {next : Bytes → Nat} (hp : Progress next) (k : Nat) (d : Bytes) (l : List Nat)
    (h : cutpointsMax next k 0 d = some l) (hl : l.length < k) :
    cutpoints next 0 d = some l := by
  obtain ⟨cuts, hc, _⟩ := covers_of hp d
  rw [C41_max_points next hp k d cuts hc] at h
  cases h
  rw [List.length_take] at hl
  rw [hc, List.take_of_length_le (by omega)]

theorem sample_progress : Progress (plakar sampleGear sampleConfig) :=
  plakar_progress (by decide) (by decide)

theorem sampleA_cuts :
    cutpoints (plakar sampleGear sampleConfig) 0 (sampleA ++ sampleEnd) = some [185, 316] :=
  cuts_of_max sample_progress 5 _ _ (by decide +kernel) (by decide)

theorem sampleB_cuts :
    cutpoints (plakar sampleGear sampleConfig) 0 (sampleB ++ sampleEnd) = some [223, 354] :=
  cuts_of_max sample_progress 5 _ _ (by decide +kernel) (by decide)

/-- Two beginnings of different length, one common end: the cut at place 183 of
the end is found in both. -/
example : ∃ t ∈ [223, 354], 0 < t ∧ t ≤ sampleB.length + 183 :=
  C136_plakar_files_partial sampleGear sampleConfig (by decide) sampleA sampleB sampleEnd _ _
    sampleA_cuts sampleB_cuts 183 (by decide) (by decide +kernel) 0 (by decide) (by decide)
    (by decide) 0 (by decide) (by decide) (by decide) (by decide) (by decide) (by decide)

/-- The window by itself. -/
example : plakar sampleGear sampleConfig (sampleB ++ sampleEnd) ≤ 223 :=
  C136_plakar_window_partial sampleGear sampleConfig (by decide) (sampleA ++ sampleEnd)
    (sampleB ++ sampleEnd) 185 223 (by decide +kernel) (by decide) (by decide +kernel) (by decide)
    (by decide) (by decide +kernel) (by decide) (by decide) (by decide +kernel)

/-- Stadia's: inside the run of large bytes the hash is small enough. -/
example : stadia sampleGear sampleConfig (sampleB ++ sampleEnd) = 238 := by
  refine C136_stadia_window_partial sampleGear sampleConfig (by decide) _ _ (by decide)
    (by decide +kernel) (by decide) (by decide +kernel) ?_
  have : ∀ j, j < 238 → 64 ≤ j → (2 ^ 64 - 1) / (400 - 64 + 1)
      < windowHash sampleGear (((sampleB ++ sampleEnd).drop (j - 64)).take 64) := by
    decide +kernel
  exact fun j a b => this j b a

/-- After the common cut the rest is cut alike. -/
example (q : Nat) (hq : 183 ≤ q) : sampleA.length + q ∈ [0, 185, 316] ↔
    sampleB.length + q ∈ [0, 223, 354] :=
  C136_after_common_cut _ sample_progress sampleA sampleB sampleEnd _ _ sampleA_cuts sampleB_cuts
    183 (by decide) (by decide) q hq

example : validate ⟨2048, 10240, 65536⟩ = true := by decide

end Verif.CDC
