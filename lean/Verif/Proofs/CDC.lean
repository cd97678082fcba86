import Verif.Spec.CDC

set_option linter.unusedVariables false

namespace Verif.CDC

/-- Chunks that do not end the data are within bounds. -/
def Sized (c : Config) (next : Bytes → Nat) : Prop :=
  ∀ d : Bytes, next d < d.length → c.minSize ≤ next d ∧ next d ≤ c.maxSize

theorem validate_iff (c : Config) : validate c = true ↔
    64 ≤ c.minSize ∧ c.minSize < c.targetSize ∧ c.targetSize < c.maxSize ∧
    c.maxSize ≤ 1024 * 1024 * 1024 := by
  simp [validate]
  omega

/-! ## The loops stay in range -/

theorem plakarLoop_range (gear : UInt8 → UInt64) (target n : Nat) (rest : Bytes) :
    ∀ i mask fp, i + rest.length = n → i ≤ plakarLoop gear target n i mask fp rest ∧
      plakarLoop gear target n i mask fp rest ≤ n := by
  induction rest with
  | nil => intro i mask fp h; simp [plakarLoop] at *; omega
  | cons b rest ih =>
    intro i mask fp h
    simp only [List.length_cons] at h
    simp only [plakarLoop]
    generalize (if i = target then plakarMaskL else mask) = m
    split
    · omega
    · have := ih (i + 1) m ((fp <<< 1) + gear b) (by omega)
      omega

/-- A cut found before the data ends does not depend on the end of the data, nor
on a target beyond it. -/
theorem plakarLoop_stable (gear : UInt8 → UInt64) (target target' n n' : Nat) (rest ext : Bytes) :
    ∀ i mask fp, i + rest.length = n →
      (∀ k, i ≤ k → k < n → (k = target ↔ k = target')) →
      plakarLoop gear target n i mask fp rest < n →
      plakarLoop gear target' n' i mask fp (rest ++ ext)
        = plakarLoop gear target n i mask fp rest := by
  induction rest with
  | nil => intro i mask fp h _ hlt; simp [plakarLoop] at hlt
  | cons b rest ih =>
    intro i mask fp h ht hlt
    simp only [List.length_cons] at h
    simp only [plakarLoop, List.cons_append] at hlt ⊢
    have hm : (if i = target' then plakarMaskL else mask)
        = (if i = target then plakarMaskL else mask) := by
      have := ht i (Nat.le_refl _) (by omega)
      by_cases hi : i = target
      · rw [if_pos hi, if_pos (this.1 hi)]
      · rw [if_neg hi, if_neg (fun h => hi (this.2 h))]
    rw [hm]
    generalize (if i = target then plakarMaskL else mask) = m at hlt ⊢
    split
    · rfl
    · rename_i hne
      rw [if_neg hne] at hlt
      exact ih (i + 1) _ _ (by omega) (fun k hk hk' => ht k (by omega) hk') hlt

theorem plakar_progress {gear : UInt8 → UInt64} {c : Config} (h0 : 0 < c.minSize)
    (h1 : c.minSize < c.maxSize) : Progress (plakar gear c) := by
  intro d hd
  have hl : 0 < d.length := List.length_pos_iff.2 hd
  unfold plakar
  split
  · omega
  · split
    · have := plakarLoop_range gear c.targetSize c.maxSize
        ((d.take c.maxSize).drop c.minSize) c.minSize plakarMaskS 0
        (by simp only [List.length_drop, List.length_take]; omega)
      omega
    · have := plakarLoop_range gear (if d.length ≤ c.targetSize then d.length else c.targetSize)
        d.length (d.drop c.minSize) c.minSize plakarMaskS 0
        (by simp only [List.length_drop]; omega)
      dsimp only
      omega

theorem plakar_sized {gear : UInt8 → UInt64} {c : Config}
    (h1 : c.minSize < c.maxSize) : Sized c (plakar gear c) := by
  intro d
  unfold plakar
  split
  · omega
  · split
    · have := plakarLoop_range gear c.targetSize c.maxSize
        ((d.take c.maxSize).drop c.minSize) c.minSize plakarMaskS 0
        (by simp only [List.length_drop, List.length_take]; omega)
      omega
    · have := plakarLoop_range gear (if d.length ≤ c.targetSize then d.length else c.targetSize)
        d.length (d.drop c.minSize) c.minSize plakarMaskS 0
        (by simp only [List.length_drop]; omega)
      dsimp only
      omega

theorem plakar_le_max {gear : UInt8 → UInt64} {c : Config}
    (h1 : c.minSize < c.maxSize) (d : Bytes) : plakar gear c d ≤ c.maxSize := by
  unfold plakar
  split
  · omega
  · split
    · have := plakarLoop_range gear c.targetSize c.maxSize
        ((d.take c.maxSize).drop c.minSize) c.minSize plakarMaskS 0
        (by simp only [List.length_drop, List.length_take]; omega)
      omega
    · have := plakarLoop_range gear (if d.length ≤ c.targetSize then d.length else c.targetSize)
        d.length (d.drop c.minSize) c.minSize plakarMaskS 0
        (by simp only [List.length_drop]; omega)
      dsimp only
      omega

theorem local_of_take {m : Nat} {next : Bytes → Nat} (h : ∀ d, next (d.take m) = next d) :
    LocalTo m next := by
  intro d e hde
  rw [← h d, ← h e, hde]

theorem plakar_local {gear : UInt8 → UInt64} {c : Config} (h1 : c.minSize < c.maxSize) :
    LocalTo c.maxSize (plakar gear c) := by
  apply local_of_take
  intro d
  by_cases hd : d.length ≤ c.maxSize
  · rw [List.take_of_length_le hd]
  · have hl : (d.take c.maxSize).length = c.maxSize := by rw [List.length_take]; omega
    unfold plakar
    rw [hl, if_neg (by omega), if_pos (by omega), if_neg (by omega), if_pos (by omega),
      List.take_take, Nat.min_self]

theorem plakar_stable {gear : UInt8 → UInt64} {c : Config} (h1 : c.minSize < c.targetSize)
    (h2 : c.targetSize < c.maxSize) : Stable (plakar gear c) := by
  intro d e hlt
  by_cases hm : c.maxSize ≤ d.length
  · have := plakar_local (gear := gear) (c := c) (by omega) (d ++ e) d
      (by rw [List.take_append_of_le_length hm])
    exact this
  · by_cases hmin : d.length ≤ c.minSize
    · unfold plakar at hlt; rw [if_pos hmin] at hlt; omega
    · have e1 : plakar gear c d = plakarLoop gear
          (if d.length ≤ c.targetSize then d.length else c.targetSize) d.length c.minSize
          plakarMaskS 0 (d.drop c.minSize) := by
        unfold plakar; rw [if_neg hmin, if_neg (by omega)]
      rw [e1] at hlt ⊢
      have hlen : c.minSize + (d.drop c.minSize).length = d.length := by
        rw [List.length_drop]; omega
      have hap : (d ++ e).length = d.length + e.length := List.length_append
      unfold plakar
      rw [if_neg (by omega)]
      split
      · rename_i hge
        have : (List.take c.maxSize (d ++ e)).drop c.minSize
            = d.drop c.minSize ++ e.take (c.maxSize - d.length) := by
          rw [List.take_append, List.take_of_length_le (by omega),
            List.drop_append_of_le_length (by omega)]
        rw [this]
        apply plakarLoop_stable _ _ _ _ _ _ _ _ _ _ hlen _ hlt
        intro k hk hk'
        split <;> omega
      · rw [List.drop_append_of_le_length (by omega)]
        dsimp only
        apply plakarLoop_stable _ _ _ _ _ _ _ _ _ _ hlen _ hlt
        intro k hk hk'
        split <;> split <;> omega

theorem stadiaLoop_range (gear : UInt8 → UInt64) (thresh : UInt64) (rest : Bytes) (lo n : Nat) :
    ∀ i rl rm hash, i + rest.length = n → lo ≤ i → lo ≤ rl → rl ≤ n →
      lo ≤ stadiaLoop gear thresh i rl rm hash rest ∧
      stadiaLoop gear thresh i rl rm hash rest ≤ n := by
  induction rest with
  | nil =>
    intro i rl rm hash h h1 h2 h3
    simp only [List.length_nil] at h
    unfold stadiaLoop
    split <;> omega
  | cons b rest ih =>
    intro i rl rm hash h h1 h2 h3
    simp only [List.length_cons] at h
    unfold stadiaLoop
    split
    · split
      · omega
      · exact ih _ _ _ _ (by omega) (by omega) (by omega) (by omega)
    · exact ih _ _ _ _ (by omega) (by omega) (by omega) (by omega)

theorem stadia_range {gear : UInt8 → UInt64} {c : Config}
    (h1 : c.minSize < c.maxSize) (d : Bytes) (hd : c.minSize < d.length) :
    c.minSize ≤ stadia gear c d ∧ stadia gear c d ≤ min c.maxSize d.length := by
  unfold stadia
  dsimp only
  rw [if_neg (by omega)]
  by_cases hm : d.length ≥ c.maxSize
  · simp only [if_pos hm]
    have := stadiaLoop_range gear (0xffffffffffffffff /
      (UInt64.ofNat c.targetSize - UInt64.ofNat c.minSize + 1)) ((d.take c.maxSize).drop c.minSize)
      c.minSize c.maxSize c.minSize c.maxSize 0 (((d.take c.minSize).drop
        (if c.minSize > 64 then c.minSize - 64 else 0)).foldl
        (fun (h : UInt64) b => (h <<< 1) + gear b) 0xffffffffffffffff)
      (by simp only [List.length_drop, List.length_take]; omega) (Nat.le_refl _) (by omega)
      (Nat.le_refl _)
    omega
  · simp only [if_neg hm]
    have := stadiaLoop_range gear (0xffffffffffffffff /
      (UInt64.ofNat c.targetSize - UInt64.ofNat c.minSize + 1)) ((d.take d.length).drop c.minSize)
      c.minSize d.length c.minSize d.length 0 (((d.take c.minSize).drop
        (if c.minSize > 64 then c.minSize - 64 else 0)).foldl
        (fun (h : UInt64) b => (h <<< 1) + gear b) 0xffffffffffffffff)
      (by simp only [List.length_drop, List.length_take]; omega) (Nat.le_refl _) (by omega)
      (Nat.le_refl _)
    omega

theorem progress_of_range {c : Config} {next : Bytes → Nat} (h0 : 0 < c.minSize)
    (hs : ∀ d : Bytes, d.length ≤ c.minSize → next d = d.length)
    (hr : ∀ d : Bytes, c.minSize < d.length → c.minSize ≤ next d ∧ next d ≤ min c.maxSize d.length) :
    Progress next := by
  intro d hd
  have hl : 0 < d.length := List.length_pos_iff.2 hd
  by_cases h : d.length ≤ c.minSize
  · have := hs d h; omega
  · have := hr d (by omega); omega

theorem sized_of_range {c : Config} {next : Bytes → Nat}
    (hs : ∀ d : Bytes, d.length ≤ c.minSize → next d = d.length)
    (hr : ∀ d : Bytes, c.minSize < d.length → c.minSize ≤ next d ∧ next d ≤ min c.maxSize d.length) :
    Sized c next := by
  intro d hd
  by_cases h : d.length ≤ c.minSize
  · have := hs d h; omega
  · have := hr d (by omega); omega

theorem stadia_small {gear : UInt8 → UInt64} {c : Config} (d : Bytes) (h : d.length ≤ c.minSize) :
    stadia gear c d = d.length := by
  unfold stadia; dsimp only; rw [if_pos h]

theorem stadia_local {gear : UInt8 → UInt64} {c : Config} (h1 : c.minSize < c.maxSize) :
    LocalTo c.maxSize (stadia gear c) := by
  apply local_of_take
  intro d
  by_cases hd : d.length ≤ c.maxSize
  · rw [List.take_of_length_le hd]
  · have hl : (d.take c.maxSize).length = c.maxSize := by rw [List.length_take]; omega
    have h2 : (d.take c.maxSize).take c.minSize = d.take c.minSize := by
      rw [List.take_take, Nat.min_eq_left (by omega)]
    unfold stadia
    dsimp only
    rw [hl, h2, if_neg (show ¬ c.maxSize ≤ c.minSize by omega),
      if_neg (show ¬ d.length ≤ c.minSize by omega)]
    simp only [ge_iff_le, Nat.le_refl, if_true]
    rw [if_pos (show c.maxSize ≤ d.length by omega), List.take_take, Nat.min_self]

theorem fnvLoop_range (minSize n : Nat) (mask : UInt32) (rest : Bytes) :
    ∀ i hash, i + rest.length = n → minSize ≤ n →
      minSize ≤ fnvLoop minSize n mask i hash rest ∧ fnvLoop minSize n mask i hash rest ≤ n := by
  induction rest with
  | nil => intro i hash h hm; simp only [fnvLoop]; omega
  | cons b rest ih =>
    intro i hash h hm
    simp only [List.length_cons] at h
    simp only [fnvLoop]
    split
    · omega
    · exact ih _ _ (by omega) hm

theorem fnv_small {mask : UInt32} {c : Config} (d : Bytes) (h : d.length ≤ c.minSize) :
    fnv mask c d = d.length := by
  unfold fnv; rw [if_pos h]

theorem fnv_range {mask : UInt32} {c : Config} (h1 : c.minSize < c.maxSize) (d : Bytes)
    (hd : c.minSize < d.length) :
    c.minSize ≤ fnv mask c d ∧ fnv mask c d ≤ min c.maxSize d.length := by
  unfold fnv
  dsimp only
  rw [if_neg (by omega)]
  by_cases hm : d.length ≥ c.maxSize
  · simp only [if_pos hm]
    have := fnvLoop_range c.minSize c.maxSize mask (d.take c.maxSize) 0 2166136261
      (by simp only [List.length_take]; omega) (by omega)
    omega
  · simp only [if_neg hm]
    have := fnvLoop_range c.minSize d.length mask (d.take d.length) 0 2166136261
      (by simp only [List.length_take]; omega) (by omega)
    omega

theorem fnv_local {mask : UInt32} {c : Config} (h1 : c.minSize < c.maxSize) :
    LocalTo c.maxSize (fnv mask c) := by
  apply local_of_take
  intro d
  by_cases hd : d.length ≤ c.maxSize
  · rw [List.take_of_length_le hd]
  · have hl : (d.take c.maxSize).length = c.maxSize := by rw [List.length_take]; omega
    unfold fnv
    dsimp only
    rw [hl, if_neg (show ¬ c.maxSize ≤ c.minSize by omega),
      if_neg (show ¬ d.length ≤ c.minSize by omega)]
    simp only [ge_iff_le, Nat.le_refl, if_true]
    rw [if_pos (show c.maxSize ≤ d.length by omega), List.take_take, Nat.min_self]

theorem rabinLoop_range (minSize n : Nat) (mult mask : UInt32) (news : Bytes) :
    ∀ olds i sum multn, i + news.length ≤ n → minSize ≤ n →
      minSize ≤ rabinLoop minSize n mult mask i sum multn olds news ∧
      rabinLoop minSize n mult mask i sum multn olds news ≤ n := by
  induction news with
  | nil => intro olds i sum multn h hm; cases olds <;> simp only [rabinLoop] <;> omega
  | cons b rest ih =>
    intro olds i sum multn h hm
    simp only [List.length_cons] at h
    cases olds with
    | nil => simp only [rabinLoop]; omega
    | cons o olds =>
      simp only [rabinLoop]
      split
      · omega
      · exact ih _ _ _ _ (by omega) hm

theorem rabin_small {w : Nat} {mult mask : UInt32} {c : Config} (d : Bytes)
    (h : d.length ≤ c.minSize) : rabin w mult mask c d = d.length := by
  unfold rabin; rw [if_pos h]

theorem rabin_range {w : Nat} {mult mask : UInt32} {c : Config} (h1 : c.minSize < c.maxSize)
    (d : Bytes) (hd : c.minSize < d.length) :
    c.minSize ≤ rabin w mult mask c d ∧ rabin w mult mask c d ≤ min c.maxSize d.length := by
  have key : ∀ n, c.minSize ≤ n → n ≤ d.length → ∀ s m,
      c.minSize ≤ rabinLoop c.minSize n mult mask w s m (d.take n) ((d.take n).drop w) ∧
      rabinLoop c.minSize n mult mask w s m (d.take n) ((d.take n).drop w) ≤ n := by
    intro n hn hn' s m
    by_cases hw : w ≤ n
    · apply rabinLoop_range
      · simp only [List.length_drop, List.length_take]; omega
      · exact hn
    · have : (d.take n).drop w = [] := by
        apply List.drop_eq_nil_of_le; rw [List.length_take]; omega
      rw [this]
      cases (d.take n) <;> simp only [rabinLoop] <;> omega
  unfold rabin
  dsimp only
  rw [if_neg (by omega)]
  by_cases hm : d.length ≥ c.maxSize
  · simp only [if_pos hm]
    have := key c.maxSize (by omega) hm
    have := this (((d.take c.maxSize).take w).foldl
      (fun (s : UInt32 × UInt32) b => (s.1 * mult + b.toUInt32, s.2 * mult)) (0, 1)).1
      (((d.take c.maxSize).take w).foldl
      (fun (s : UInt32 × UInt32) b => (s.1 * mult + b.toUInt32, s.2 * mult)) (0, 1)).2
    omega
  · simp only [if_neg hm]
    have := key d.length (by omega) (Nat.le_refl _)
    have := this (((d.take d.length).take w).foldl
      (fun (s : UInt32 × UInt32) b => (s.1 * mult + b.toUInt32, s.2 * mult)) (0, 1)).1
      (((d.take d.length).take w).foldl
      (fun (s : UInt32 × UInt32) b => (s.1 * mult + b.toUInt32, s.2 * mult)) (0, 1)).2
    omega

theorem rabin_local {w : Nat} {mult mask : UInt32} {c : Config} (h1 : c.minSize < c.maxSize) :
    LocalTo c.maxSize (rabin w mult mask c) := by
  apply local_of_take
  intro d
  by_cases hd : d.length ≤ c.maxSize
  · rw [List.take_of_length_le hd]
  · have hl : (d.take c.maxSize).length = c.maxSize := by rw [List.length_take]; omega
    have ht : (d.take c.maxSize).take c.maxSize = d.take c.maxSize := by
      rw [List.take_take, Nat.min_self]
    unfold rabin
    dsimp only
    rw [hl, if_neg (show ¬ c.maxSize ≤ c.minSize by omega),
      if_neg (show ¬ d.length ≤ c.minSize by omega)]
    simp only [ge_iff_le, Nat.le_refl, if_true]
    rw [if_pos (show c.maxSize ≤ d.length by omega), ht]

theorem ultraInner_lt (mask : Nat) (ins : Bytes) : ∀ outs j dist k,
    ultraInner mask j dist outs ins = .inl k → j ≤ k ∧ k < j + ins.length := by
  induction ins with
  | nil => intro outs j dist k h; cases outs <;> simp [ultraInner] at h
  | cons b ins ih =>
    intro outs j dist k h
    cases outs with
    | nil => simp [ultraInner] at h
    | cons o outs =>
      simp only [ultraInner] at h
      split at h
      · cases h; simp
      · have := ih _ _ _ _ h; simp only [List.length_cons]; omega

theorem ultraLoop_range (data : Bytes) (n normal : Nat) : ∀ (f i mask low : Nat) (dist : Int) outWin,
    n - i ≤ f → n ≤ data.length → min i n ≤ ultraLoop data n normal i mask low dist outWin ∧
      ultraLoop data n normal i mask low dist outWin ≤ n := by
  intro f
  induction f with
  | zero =>
    intro i mask low dist outWin h hn
    unfold ultraLoop
    rw [dif_neg (by omega)]
    omega
  | succ f ih =>
    intro i mask low dist outWin h hn
    unfold ultraLoop
    split
    · rename_i hle
      dsimp only
      split
      · split
        · omega
        · have := ih (i + 8) (if i ≥ normal then 0x2C else mask) (low + 1) dist outWin
            (by omega) hn
          omega
      · split
        · rename_i j hj
          have := ultraInner_lt _ _ _ _ _ _ hj
          rw [List.length_take, List.length_drop] at this
          omega
        · rename_i d hd
          have := ih (i + 8) (if i ≥ normal then 0x2C else mask) 0 d ((data.drop i).take 8)
            (by omega) hn
          omega
    · omega

theorem take_drop_of_take {d e : Bytes} {n i : Nat} (h : d.take n = e.take n) (hi : i + 8 ≤ n) :
    (d.drop i).take 8 = (e.drop i).take 8 := by
  have key : ∀ x : Bytes, (x.drop i).take 8 = ((x.take n).drop i).take 8 := by
    intro x
    rw [List.drop_take, List.take_take, Nat.min_eq_left (by omega)]
  rw [key d, key e, h]

theorem ultraLoop_congr (d e : Bytes) (n normal : Nat) (h : d.take n = e.take n) :
    ∀ (f i mask low : Nat) (dist : Int) outWin, n - i ≤ f →
      ultraLoop d n normal i mask low dist outWin = ultraLoop e n normal i mask low dist outWin := by
  intro f
  induction f with
  | zero =>
    intro i mask low dist outWin hf
    unfold ultraLoop
    rw [dif_neg (by omega), dif_neg (by omega)]
  | succ f ih =>
    intro i mask low dist outWin hf
    conv => lhs; unfold ultraLoop
    conv => rhs; unfold ultraLoop
    split
    · rename_i hle
      dsimp only
      rw [take_drop_of_take h hle, take_drop_of_take h (i := i - 8) (by omega)]
      split
      · split
        · rfl
        · exact ih _ _ _ _ _ (by omega)
      · split
        · rfl
        · exact ih _ _ _ _ _ (by omega)
    · rfl

theorem ultra_range {c : Config} (h0 : 8 ≤ c.minSize) (h1 : c.minSize < c.maxSize) (d : Bytes)
    (hd : c.minSize + 8 < d.length) :
    c.minSize ≤ ultra c d ∧ ultra c d ≤ min c.maxSize d.length := by
  unfold ultra
  dsimp only
  rw [if_neg (by omega : ¬ c.minSize < 8), if_neg (by omega)]
  by_cases hm : d.length ≥ c.maxSize
  · simp only [if_pos hm]
    have := ultraLoop_range d c.maxSize c.targetSize _ (c.minSize + 8) 0x2F 0
      ((((d.drop c.minSize).take 8).map ham).sum) ((d.drop c.minSize).take 8) (Nat.le_refl _) hm
    omega
  · simp only [if_neg hm]
    have := ultraLoop_range d d.length (if d.length ≤ c.targetSize then d.length else c.targetSize)
      _ (c.minSize + 8) 0x2F 0
      ((((d.drop c.minSize).take 8).map ham).sum) ((d.drop c.minSize).take 8) (Nat.le_refl _)
      (Nat.le_refl _)
    omega

theorem ultra_small {c : Config} (h0 : 8 ≤ c.minSize) (d : Bytes)
    (h : d.length ≤ c.minSize + 8) : ultra c d = d.length := by
  unfold ultra
  dsimp only
  rw [if_neg (by omega : ¬ c.minSize < 8), if_pos h]

theorem ultra_progress {c : Config} (h0 : 8 ≤ c.minSize) (h1 : c.minSize < c.maxSize) :
    Progress (ultra c) := by
  intro d hd
  have hl : 0 < d.length := List.length_pos_iff.2 hd
  by_cases h : d.length ≤ c.minSize + 8
  · rw [ultra_small h0 d h]; omega
  · have := ultra_range h0 h1 d (by omega); omega

theorem ultra_sized {c : Config} (h0 : 8 ≤ c.minSize) (h1 : c.minSize < c.maxSize) :
    Sized c (ultra c) := by
  intro d hd
  by_cases h : d.length ≤ c.minSize + 8
  · rw [ultra_small h0 d h] at hd; omega
  · have := ultra_range h0 h1 d (by omega); omega

theorem ultra_local {c : Config} (h0 : 8 ≤ c.minSize) (h1 : c.minSize + 8 ≤ c.maxSize) :
    LocalTo c.maxSize (ultra c) := by
  apply local_of_take
  intro d
  by_cases hd : d.length ≤ c.maxSize
  · rw [List.take_of_length_le hd]
  · have hl : (d.take c.maxSize).length = c.maxSize := by rw [List.length_take]; omega
    have ht : (d.take c.maxSize).take c.maxSize = d.take c.maxSize := by
      rw [List.take_take, Nat.min_self]
    by_cases he : c.minSize + 8 = c.maxSize
    · rw [ultra_small h0 _ (by omega), hl]
      unfold ultra
      dsimp only
      rw [if_neg (by omega : ¬ c.minSize < 8), if_neg (show ¬ d.length ≤ c.minSize + 8 by omega),
        if_pos (show d.length ≥ c.maxSize by omega)]
      unfold ultraLoop
      rw [dif_neg (by omega)]
    · unfold ultra
      dsimp only
      rw [hl, if_neg (by omega : ¬ c.minSize < 8), if_neg (show ¬ c.maxSize ≤ c.minSize + 8 by omega),
        if_neg (show ¬ d.length ≤ c.minSize + 8 by omega)]
      simp only [ge_iff_le, Nat.le_refl, if_true]
      rw [if_pos (show c.maxSize ≤ d.length by omega), if_pos (show c.maxSize ≤ d.length by omega),
        take_drop_of_take ht (by omega)]
      exact ultraLoop_congr _ _ _ _ ht _ _ _ _ _ _ (Nat.le_refl _)

/-! ## The pieces a chunker makes of a buffer -/

/-- The pieces themselves. -/
def segs (next : Bytes → Nat) (data : Bytes) : List Bytes :=
  if data.length = 0 then []
  else if h : 0 < next data ∧ next data ≤ data.length then
    data.take (next data) :: segs next (data.drop (next data))
  else []
termination_by data.length
decreasing_by
  rw [List.length_drop]; omega

theorem segs_nil (next : Bytes → Nat) : segs next [] = [] := by
  unfold segs; simp

theorem segs_cons {next : Bytes → Nat} (hp : Progress next) {d : Bytes} (hd : d ≠ []) :
    segs next d = d.take (next d) :: segs next (d.drop (next d)) := by
  have hl : d.length ≠ 0 := fun h => hd (List.length_eq_zero_iff.1 h)
  conv => lhs; unfold segs
  rw [if_neg hl, dif_pos (hp d hd)]

theorem strongLen {P : Bytes → Prop} (h : ∀ d, (∀ e : Bytes, e.length < d.length → P e) → P d) :
    ∀ d, P d := by
  intro d
  generalize hn : d.length = n
  induction n using Nat.strongRecOn generalizing d with
  | _ n ih =>
    apply h
    intro e he
    exact ih e.length (by omega) e rfl

theorem segs_flatten {next : Bytes → Nat} (hp : Progress next) :
    ∀ d, (segs next d).flatten = d := by
  apply strongLen
  intro d ih
  by_cases hd : d = []
  · subst hd; rw [segs_nil]; rfl
  · rw [segs_cons hp hd, List.flatten_cons, ih _ (by
      have := hp d hd; rw [List.length_drop]
      have := List.length_pos_iff.2 hd; omega), List.take_append_drop]

theorem segs_pos {next : Bytes → Nat} (hp : Progress next) :
    ∀ d, ∀ p ∈ segs next d, p ≠ [] := by
  apply strongLen
  intro d ih p hpm
  by_cases hd : d = []
  · subst hd; rw [segs_nil] at hpm; cases hpm
  · have h2 := hp d hd
    have h3 := List.length_pos_iff.2 hd
    rw [segs_cons hp hd] at hpm
    rcases List.mem_cons.1 hpm with h | h
    · intro hc
      have : p.length = 0 := by rw [hc]; rfl
      rw [h, List.length_take] at this
      omega
    · exact ih _ (by rw [List.length_drop]; omega) p h

theorem segs_ne_nil {next : Bytes → Nat} (hp : Progress next) {d : Bytes} (hd : d ≠ []) :
    segs next d ≠ [] := by
  rw [segs_cons hp hd]; exact List.cons_ne_nil _ _

theorem segs_sized {c : Config} {next : Bytes → Nat} (hp : Progress next) (hs : Sized c next) :
    ∀ d, ∀ p ∈ (segs next d).dropLast, c.minSize ≤ p.length ∧ p.length ≤ c.maxSize := by
  apply strongLen
  intro d ih p hpm
  by_cases hd : d = []
  · subst hd; rw [segs_nil] at hpm; cases hpm
  · have h2 := hp d hd
    have h3 := List.length_pos_iff.2 hd
    rw [segs_cons hp hd] at hpm
    by_cases he : d.drop (next d) = []
    · rw [he, segs_nil] at hpm; simp at hpm
    · have hne := segs_ne_nil hp he
      rw [List.dropLast_cons_of_ne_nil hne] at hpm
      rcases List.mem_cons.1 hpm with h | h
      · have hlt : next d < d.length := by
          have := List.length_pos_iff.2 he
          rw [List.length_drop] at this; omega
        rw [h, List.length_take, Nat.min_eq_left h2.2]
        exact hs d hlt
      · exact ih _ (by rw [List.length_drop]; omega) p h

/-- The end offsets of consecutive pieces. -/
def ends : (off : Nat) → List Bytes → List Nat
  | _, [] => []
  | off, p :: ps => (off + p.length) :: ends (off + p.length) ps

theorem cutpoints_eq {next : Bytes → Nat} (hp : Progress next) :
    ∀ d off, cutpoints next off d = some (ends off (segs next d)) := by
  apply strongLen
  intro d ih off
  by_cases hd : d = []
  · subst hd; unfold cutpoints; rw [segs_nil]; simp [ends]
  · have h2 := hp d hd
    have h3 := List.length_pos_iff.2 hd
    unfold cutpoints
    rw [if_neg (by omega), dif_pos h2, ih _ (by rw [List.length_drop]; omega), segs_cons hp hd]
    simp only [Option.map_some, ends, List.length_take, Nat.min_eq_left h2.2]

theorem cutpointsMax_eq {next : Bytes → Nat} (hp : Progress next) (k : Nat) :
    ∀ d off, cutpointsMax next k off d = some ((ends off (segs next d)).take k) := by
  induction k with
  | zero => intro d off; simp [cutpointsMax]
  | succ k ih =>
    intro d off
    by_cases hd : d = []
    · subst hd; rw [segs_nil]; simp [cutpointsMax, ends]
    · have h2 := hp d hd
      have h3 := List.length_pos_iff.2 hd
      unfold cutpointsMax
      rw [if_neg (by omega), if_pos h2, ih, segs_cons hp hd]
      simp only [Option.map_some, ends, List.length_take, Nat.min_eq_left h2.2, List.take_succ_cons]

theorem pieces_ends (ps : List Bytes) : ∀ pre : Bytes,
    pieces (pre ++ ps.flatten) pre.length (ends pre.length ps) = ps := by
  induction ps with
  | nil => intro pre; rfl
  | cons p ps ih =>
    intro pre
    simp only [ends, pieces, List.flatten_cons]
    have h1 : List.take (pre.length + p.length) (pre ++ (p ++ ps.flatten)) = pre ++ p := by
      rw [← List.append_assoc, ← List.length_append, List.take_left']
      rfl
    rw [h1, List.drop_left' rfl]
    have := ih (pre ++ p)
    rw [List.length_append, List.append_assoc] at this
    rw [this]

theorem ends_gt (ps : List Bytes) (hpos : ∀ p ∈ ps, p ≠ []) : ∀ off,
    (off :: ends off ps).Pairwise (· < ·) := by
  induction ps with
  | nil => intro off; simp [ends]
  | cons p ps ih =>
    intro off
    have hp : 0 < p.length := List.length_pos_iff.2 (hpos p (List.mem_cons_self ..))
    have h := ih (fun q hq => hpos q (List.mem_cons_of_mem _ hq)) (off + p.length)
    simp only [ends]
    rw [List.pairwise_cons]
    refine ⟨?_, h⟩
    intro a ha
    rcases List.mem_cons.1 ha with e | e
    · omega
    · have := (List.pairwise_cons.1 h).1 a e; omega

theorem ends_last (ps : List Bytes) : ∀ off,
    (off :: ends off ps).getLast? = some (off + ps.flatten.length) := by
  induction ps with
  | nil => intro off; simp [ends]
  | cons p ps ih =>
    intro off
    simp only [ends]
    rw [List.getLast?_cons_cons, ih]
    simp only [List.flatten_cons, List.length_append, Nat.add_assoc]

theorem good_of {c : Config} {next : Bytes → Nat} (hp : Progress next) (hs : Sized c next)
    (data : Bytes) : ∃ cuts, cutpoints next 0 data = some cuts ∧ GoodCuts c data cuts := by
  refine ⟨_, cutpoints_eq hp data 0, ?_⟩
  have hpc := pieces_ends (segs next data) []
  rw [segs_flatten hp] at hpc
  simp only [List.nil_append, List.length_nil] at hpc
  refine ⟨ends_gt _ (segs_pos hp data) 0, ?_, ?_, ?_⟩
  · have := ends_last (segs next data) 0
    rw [segs_flatten hp, Nat.zero_add] at this
    exact this
  · rw [hpc, segs_flatten hp]
  · rw [hpc]; exact segs_sized hp hs data

/-- Without a bound on the sizes. -/
theorem covers_of {next : Bytes → Nat} (hp : Progress next) (data : Bytes) :
    ∃ cuts, cutpoints next 0 data = some cuts ∧ (0 :: cuts).Pairwise (· < ·) ∧
      (0 :: cuts).getLast? = some data.length ∧ (pieces data 0 cuts).flatten = data ∧
      pieces data 0 cuts = segs next data := by
  refine ⟨_, cutpoints_eq hp data 0, ?_⟩
  have hpc := pieces_ends (segs next data) []
  rw [segs_flatten hp] at hpc
  simp only [List.nil_append, List.length_nil] at hpc
  refine ⟨ends_gt _ (segs_pos hp data) 0, ?_, ?_, hpc⟩
  · have := ends_last (segs next data) 0
    rw [segs_flatten hp] at this
    simpa using this
  · rw [hpc, segs_flatten hp]

end Verif.CDC
