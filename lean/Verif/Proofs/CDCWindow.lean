import Verif.Model.CDCNew
import Verif.Proofs.CDC

/-! # What the hash of a chunker remembers: helper lemmas -/

namespace Verif.CDC

/-! ## The gear hash -/

/-- The gear hash over a list of bytes. -/
def gearFold (gear : UInt8 → UInt64) (h : UInt64) (l : Bytes) : UInt64 :=
  l.foldl (fun h b => (h <<< 1) + gear b) h

def gearNat (gear : UInt8 → UInt64) (a : Nat) (l : Bytes) : Nat :=
  l.foldl (fun a b => 2 * a + (gear b).toNat) a

theorem gearNat_eq (gear : UInt8 → UInt64) (l : Bytes) : ∀ a,
    gearNat gear a l = a * 2 ^ l.length + gearNat gear 0 l := by
  induction l with
  | nil => intro a; simp [gearNat]
  | cons b l ih =>
    intro a
    have h1 := ih (2 * a + (gear b).toNat)
    have h2 := ih (2 * 0 + (gear b).toNat)
    simp only [gearNat, List.foldl_cons, List.length_cons] at h1 h2 ⊢
    rw [h1, h2, Nat.pow_succ, Nat.add_mul, Nat.add_mul]
    have : 2 * a * 2 ^ l.length = a * (2 ^ l.length * 2) := by
      rw [Nat.mul_comm 2 a, Nat.mul_assoc, Nat.mul_comm 2]
    omega

theorem gearFold_toNat (gear : UInt8 → UInt64) (l : Bytes) : ∀ (h : UInt64),
    (gearFold gear h l).toNat = gearNat gear h.toNat l % 2 ^ 64 := by
  induction l with
  | nil => intro h; simp [gearFold, gearNat]
  | cons b l ih =>
    intro h
    have h1 := ih ((h <<< 1) + gear b)
    simp only [gearFold, gearNat, List.foldl_cons] at h1 ⊢
    rw [h1]
    have h2 : ((h <<< 1) + gear b).toNat = (2 * h.toNat + (gear b).toNat) % 2 ^ 64 := by
      rw [UInt64.toNat_add, UInt64.toNat_shiftLeft]
      simp [Nat.shiftLeft_eq]
      omega
    have e1 := gearNat_eq gear l ((h <<< 1) + gear b).toNat
    have e2 := gearNat_eq gear l (2 * h.toNat + (gear b).toNat)
    simp only [gearNat] at e1 e2
    rw [e1, e2, h2, Nat.add_mod, Nat.mod_mul_mod, ← Nat.add_mod]

/-- After 64 bytes nothing of the earlier hash is left. -/
theorem gearFold_forgets (gear : UInt8 → UInt64) (l : Bytes) (hl : 64 ≤ l.length)
    (h h' : UInt64) : gearFold gear h l = gearFold gear h' l := by
  apply UInt64.toNat_inj.1
  rw [gearFold_toNat, gearFold_toNat, gearNat_eq gear l h.toNat, gearNat_eq gear l h'.toNat]
  obtain ⟨k, hk⟩ := Nat.exists_eq_add_of_le hl
  rw [hk, Nat.pow_add]
  have : ∀ a : Nat, a * (2 ^ 64 * 2 ^ k) = 2 ^ 64 * (a * 2 ^ k) := by
    intro a; rw [← Nat.mul_assoc, Nat.mul_comm a, Nat.mul_assoc]
  rw [this, this, Nat.mul_add_mod, Nat.mul_add_mod]

theorem gearFold_last (gear : UInt8 → UInt64) (l : Bytes) (hl : 64 ≤ l.length) (h : UInt64) :
    gearFold gear h l = gearFold gear 0 (l.drop (l.length - 64)) := by
  conv => lhs; rw [← List.take_append_drop (l.length - 64) l]
  unfold gearFold
  rw [List.foldl_append]
  exact gearFold_forgets gear _ (by rw [List.length_drop]; omega) _ _

/-! ## Plakar's loop -/

/-- The mask in force at a place. -/
def maskAt (target i : Nat) : UInt64 := if target ≤ i then plakarMaskL else plakarMaskS

theorem plakarLoop_hit (gear : UInt8 → UInt64) (target n : Nat) (rest : Bytes) :
    ∀ i mask fp k, mask = (if target < i then plakarMaskL else plakarMaskS) →
      i + rest.length = n → plakarLoop gear target n i mask fp rest = k → k < n →
      i ≤ k ∧ gearFold gear fp (rest.take (k - i + 1)) &&& maskAt target k = 0 := by
  induction rest with
  | nil => intro i mask fp k _ h1 h2 h3; simp [plakarLoop] at *; omega
  | cons b rest ih =>
    intro i mask fp k hm h1 h2 h3
    simp only [List.length_cons] at h1
    simp only [plakarLoop] at h2
    have hm' : (if i = target then plakarMaskL else mask) = maskAt target i := by
      unfold maskAt; rw [hm]
      by_cases e : i = target
      · rw [if_pos e, if_pos (by omega)]
      · rw [if_neg e]
        by_cases e2 : target < i
        · rw [if_pos e2, if_pos (by omega)]
        · rw [if_neg e2, if_neg (by omega)]
    rw [hm'] at h2
    by_cases hz : (fp <<< 1) + gear b &&& maskAt target i = 0
    · rw [if_pos hz] at h2
      subst h2
      refine ⟨Nat.le_refl _, ?_⟩
      simpa [gearFold] using hz
    · rw [if_neg hz] at h2
      have hn : maskAt target i = (if target < i + 1 then plakarMaskL else plakarMaskS) := by
        unfold maskAt
        by_cases e2 : target ≤ i
        · rw [if_pos e2, if_pos (by omega)]
        · rw [if_neg e2, if_neg (by omega)]
      obtain ⟨h4, h5⟩ := ih (i + 1) _ _ k hn (by omega) h2 h3
      refine ⟨by omega, ?_⟩
      have : k - i + 1 = (k - (i + 1) + 1) + 1 := by omega
      rw [this, List.take_succ_cons]
      exact h5

theorem plakarLoop_stops (gear : UInt8 → UInt64) (target n : Nat) (rest : Bytes) :
    ∀ i mask fp k, mask = (if target < i then plakarMaskL else plakarMaskS) →
      i + rest.length = n → i ≤ k → k < n →
      gearFold gear fp (rest.take (k - i + 1)) &&& maskAt target k = 0 →
      plakarLoop gear target n i mask fp rest ≤ k := by
  induction rest with
  | nil => intro i mask fp k _ h1 h2 h3; simp at h1; omega
  | cons b rest ih =>
    intro i mask fp k hm h1 h2 h3 h4
    simp only [List.length_cons] at h1
    simp only [plakarLoop]
    have hm' : (if i = target then plakarMaskL else mask) = maskAt target i := by
      unfold maskAt; rw [hm]
      by_cases e : i = target
      · rw [if_pos e, if_pos (by omega)]
      · rw [if_neg e]
        by_cases e2 : target < i
        · rw [if_pos e2, if_pos (by omega)]
        · rw [if_neg e2, if_neg (by omega)]
    rw [hm']
    by_cases hz : (fp <<< 1) + gear b &&& maskAt target i = 0
    · rw [if_pos hz]; exact h2
    · rw [if_neg hz]
      have hn : maskAt target i = (if target < i + 1 then plakarMaskL else plakarMaskS) := by
        unfold maskAt
        by_cases e2 : target ≤ i
        · rw [if_pos e2, if_pos (by omega)]
        · rw [if_neg e2, if_neg (by omega)]
      by_cases e : k = i
      · subst e
        exfalso; apply hz
        simpa [gearFold] using h4
      · refine ih (i + 1) _ _ k hn (by omega) (by omega) h3 ?_
        have : k - i + 1 = (k - (i + 1) + 1) + 1 := by omega
        rw [this, List.take_succ_cons] at h4
        exact h4

/-- The bytes that the hash has seen at place `k`, for a chunker that starts to
hash at `m`. -/
theorem seen_window (data : Bytes) (n m k : Nat) (h1 : m + 63 ≤ k) (h2 : k < n)
    (hn : n ≤ data.length) (gear : UInt8 → UInt64) (h : UInt64) :
    gearFold gear h (((data.take n).drop m).take (k - m + 1))
      = gearFold gear 0 ((data.drop (k - 63)).take 64) := by
  have hlen : (((data.take n).drop m).take (k - m + 1)).length = k - m + 1 := by
    rw [List.length_take, List.length_drop, List.length_take]; omega
  rw [gearFold_last gear _ (by omega), hlen]
  congr 1
  apply List.ext_getElem?
  intro j
  by_cases hj : j < 64
  · rw [List.getElem?_drop, List.getElem?_take_of_lt (by omega), List.getElem?_drop,
      List.getElem?_take_of_lt (by omega), List.getElem?_take_of_lt hj, List.getElem?_drop]
    congr 1; omega
  · rw [List.getElem?_eq_none (by rw [List.length_drop, hlen]; omega),
      List.getElem?_eq_none (by rw [List.length_take, List.length_drop]; omega)]

/-- Plakar's chunker in one shape for all lengths. -/
theorem plakar_unify (gear : UInt8 → UInt64) (c : Config) (data : Bytes)
    (h0 : c.minSize < data.length) (h1 : c.minSize < c.targetSize) :
    ∃ t, plakar gear c data
        = plakarLoop gear t (min data.length c.maxSize) c.minSize plakarMaskS 0
            ((data.take (min data.length c.maxSize)).drop c.minSize) ∧ c.minSize < t ∧
      ∀ k, k < min data.length c.maxSize → maskAt t k = maskAt c.targetSize k := by
  unfold plakar
  rw [if_neg (by omega)]
  by_cases hm : data.length ≥ c.maxSize
  · rw [if_pos hm, Nat.min_eq_right hm]
    exact ⟨_, rfl, h1, fun _ _ => rfl⟩
  · rw [if_neg hm, Nat.min_eq_left (by omega), List.take_of_length_le (Nat.le_refl _)]
    refine ⟨_, rfl, ?_, ?_⟩
    · split <;> omega
    · intro k hk
      unfold maskAt
      split
      · rw [if_neg (by omega), if_neg (by omega)]
      · rfl

/-! ## Lists of cuts -/

theorem mem_cuts_step {next : Bytes → Nat} (hp : Progress next) : ∀ (d : Bytes) (off s : Nat),
    s ∈ off :: ends off (segs next d) →
    off ≤ s ∧ s ≤ off + d.length ∧
      ∀ t, s ≤ t → (t ∈ off :: ends off (segs next d) ↔
        t ∈ s :: ends s (segs next (d.drop (s - off)))) := by
  apply strongLen
  intro d ih off s hs
  have hgt := ends_gt (segs next d) (segs_pos hp d) off
  by_cases hd : d = []
  · subst hd
    simp only [segs_nil, ends, List.mem_singleton] at hs
    subst hs
    simp [segs_nil, ends]
  · rcases List.mem_cons.1 hs with e | e
    · subst e
      refine ⟨Nat.le_refl _, by omega, ?_⟩
      intro t _
      rw [Nat.sub_self, List.drop_zero]
    · have hn := hp d hd
      have hseg := segs_cons hp hd
      have hlt : (d.take (next d)).length = next d := by rw [List.length_take]; omega
      rw [hseg] at e
      simp only [ends, hlt] at e
      have hl2 : (d.drop (next d)).length < d.length := by rw [List.length_drop]; omega
      obtain ⟨a1, a2, a3⟩ := ih _ hl2 (off + next d) s e
      rw [List.length_drop] at a2
      refine ⟨by omega, by omega, ?_⟩
      intro t ht
      have h5 := a3 t ht
      rw [List.drop_drop] at h5
      have : next d + (s - (off + next d)) = s - off := by omega
      rw [this] at h5
      rw [← h5, hseg]
      simp only [ends, hlt]
      constructor
      · intro h
        rcases List.mem_cons.1 h with h | h
        · omega
        · exact h
      · intro h
        exact List.mem_cons_of_mem _ h

theorem ends_shift (ps : List Bytes) : ∀ (a b t : Nat), a + t ∈ a :: ends a ps ↔ b + t ∈ b :: ends b ps := by
  induction ps with
  | nil => intro a b t; simp [ends]
  | cons p ps ih =>
    intro a b t
    by_cases h0 : t = 0
    · subst h0; simp
    · have hx : ∀ c : Nat, (c + t ∈ c :: ends c (p :: ps)
          ↔ (p.length ≤ t ∧ (c + p.length) + (t - p.length) ∈ (c + p.length) :: ends (c + p.length) ps)) := by
        intro c
        constructor
        · intro h
          rcases List.mem_cons.1 h with h | h
          · omega
          · simp only [ends] at h
            have hge : ∀ (qs : List Bytes) (o x : Nat), x ∈ o :: ends o qs → o ≤ x := by
              intro qs
              induction qs with
              | nil => intro o x hx; simp [ends] at hx; omega
              | cons q qs ihq =>
                intro o x hx
                rcases List.mem_cons.1 hx with hx | hx
                · omega
                · have := ihq (o + q.length) x hx
                  omega
            have h6 := hge _ _ _ h
            refine ⟨by omega, ?_⟩
            have : c + p.length + (t - p.length) = c + t := by omega
            rw [this]; exact h
        · rintro ⟨h1, h2⟩
          have : c + p.length + (t - p.length) = c + t := by omega
          rw [this] at h2
          exact List.mem_cons_of_mem _ h2
      rw [hx a, hx b, ih (a + p.length) (b + p.length)]

/-- From a cut on, the next cut is where `next` says. -/
theorem first_cut {next : Bytes → Nat} (hp : Progress next) {d : Bytes} {cuts : List Nat}
    (hc : cutpoints next 0 d = some cuts) {s : Nat} (hs : s ∈ 0 :: cuts) (hlt : s < d.length) :
    s + next (d.drop s) ∈ cuts ∧ ∀ t ∈ cuts, s < t → s + next (d.drop s) ≤ t := by
  rw [cutpoints_eq hp] at hc
  cases hc
  obtain ⟨_, _, h3⟩ := mem_cuts_step hp d 0 s hs
  rw [Nat.sub_zero] at h3
  have hne : d.drop s ≠ [] := by
    intro h
    have := congrArg List.length h
    rw [List.length_drop, List.length_nil] at this; omega
  have hn := hp _ hne
  have hl : ((d.drop s).take (next (d.drop s))).length = next (d.drop s) := by
    rw [List.length_take]; omega
  rw [segs_cons hp hne] at h3
  simp only [ends, hl] at h3
  constructor
  · have := (h3 (s + next (d.drop s)) (by omega)).2
      (List.mem_cons_of_mem _ (List.mem_cons_self ..))
    rcases List.mem_cons.1 this with h | h
    · omega
    · exact h
  · intro t ht hst
    have h4 := (h3 t (by omega)).1 (List.mem_cons_of_mem _ ht)
    rcases List.mem_cons.1 h4 with h | h
    · omega
    · have h5 := ends_gt (segs next ((d.drop s).drop (next (d.drop s)))) (segs_pos hp _)
        (s + next (d.drop s))
      rcases List.mem_cons.1 h with h | h
      · omega
      · exact Nat.le_of_lt ((List.pairwise_cons.1 h5).1 t h)

/-! ## FNV-1a: parity -/

theorem u32_mod2_and (h : UInt32) : (h &&& 1 = 0) ↔ h.toNat % 2 = 0 := by
  rw [← UInt32.toNat_inj, UInt32.toNat_and]
  simp [Nat.and_one_is_mod]

theorem fnv_step_zero (h : UInt32) :
    ((h ^^^ (0 : UInt8).toUInt32) * 16777619).toNat % 2 = h.toNat % 2 := by
  have : h ^^^ (0 : UInt8).toUInt32 = h := by simp
  rw [this, UInt32.toNat_mul]
  simp only [UInt32.reduceToNat]
  omega

theorem fnvLoop_even (m n k : Nat) : ∀ i (h : UInt32), h.toNat % 2 = 0 → i ≤ m → m < i + k →
    fnvLoop m n 1 i h (List.replicate k 0) = m + 1 := by
  induction k with
  | zero => intro i h _ _ _; omega
  | succ k ih =>
    intro i h he hi hk
    have hz := fnv_step_zero h
    rw [List.replicate_succ]
    simp only [fnvLoop]
    by_cases e : i = m
    · rw [if_pos ⟨by omega, (u32_mod2_and _).2 (by omega)⟩, e]
    · rw [if_neg (by omega)]
      exact ih (i + 1) _ (by omega) (by omega) (by omega)

theorem fnvLoop_odd (m n k : Nat) : ∀ i (h : UInt32), h.toNat % 2 = 1 →
    fnvLoop m n 1 i h (List.replicate k 0) = n := by
  induction k with
  | zero => intro i h _; simp [fnvLoop]
  | succ k ih =>
    intro i h ho
    have hz := fnv_step_zero h
    rw [List.replicate_succ]
    simp only [fnvLoop]
    rw [if_neg (by rw [u32_mod2_and]; omega)]
    exact ih (i + 1) _ (by omega)

/-! ## Rabin-Karp: modulo 8 -/

theorem halvings_ge6 (n : Nat) (h : 64 ≤ n) : 6 ≤ halvings n := by
  have step : ∀ (k m : Nat), (∀ x, k ≤ x → m ≤ halvings x) → 1 ≤ k →
      ∀ x, 2 * k ≤ x → m + 1 ≤ halvings x := by
    intro k m hk h1 x hx
    unfold halvings
    rw [dif_neg (by omega)]
    have := hk (x / 2) (by omega)
    omega
  have h0 : ∀ x, 1 ≤ x → 0 ≤ halvings x := fun _ _ => Nat.zero_le _
  have h1 := step 1 0 h0 (by omega)
  have h2 := step 2 1 h1 (by omega)
  have h3 := step 4 2 h2 (by omega)
  have h4 := step 8 3 h3 (by omega)
  have h5 := step 16 4 h4 (by omega)
  exact step 32 5 h5 (by omega) n h

theorem halvings_lt (k : Nat) : ∀ n, n < 2 ^ (k + 1) → halvings n ≤ k := by
  induction k with
  | zero => intro n h; unfold halvings; rw [dif_pos (by omega)]; omega
  | succ k ih =>
    intro n h
    unfold halvings
    by_cases h1 : n ≤ 1
    · rw [dif_pos h1]; omega
    · rw [dif_neg h1]
      have := ih (n / 2) (by rw [Nat.pow_succ] at h; omega)
      omega

theorem rabinMask_low (t : Nat) (h1 : 64 ≤ t) (h2 : t ≤ 1024 * 1024 * 1024) :
    (rabinMask t).toNat % 8 = 7 := by
  have a := halvings_ge6 t h1
  have b := halvings_lt 30 t (by omega)
  unfold rabinMask
  generalize halvings t = x at a b
  obtain ⟨y, rfl⟩ : ∃ y, x = y + 2 := ⟨x - 2, by omega⟩
  rw [UInt32.toNat_sub, UInt32.toNat_shiftLeft]
  have e1 : (UInt32.ofNat (1 + (y + 2))).toNat = 1 + (y + 2) := by
    rw [UInt32.toNat_ofNat']; omega
  rw [e1, Nat.mod_eq_of_lt (show 1 + (y + 2) < 32 by omega), Nat.shiftLeft_eq]
  have e2 : (2 : Nat) ^ (1 + (y + 2)) = 8 * 2 ^ y := by
    rw [show 1 + (y + 2) = y + 3 by omega, Nat.pow_add]; omega
  have e3 : (2 : Nat) ^ y ≤ 2 ^ 28 := Nat.pow_le_pow_right (by omega) (by omega)
  have e4 : 0 < (2 : Nat) ^ y := Nat.pow_pos (by omega)
  rw [e2]
  simp only [UInt32.reduceToNat]
  omega

theorem u32_and_ne (s m : UInt32) (hs : s.toNat % 8 = 4) (hm : m.toNat % 8 = 7) :
    s &&& m ≠ 0 := by
  intro h
  have h1 := congrArg UInt32.toNat h
  rw [UInt32.toNat_and] at h1
  have h2 := Nat.and_mod_two_pow (a := s.toNat) (b := m.toNat) (n := 3)
  rw [h1] at h2
  simp [hs, hm] at h2

theorem u32_mul_mod8 (a b : UInt32) : (a * b).toNat % 8 = (a.toNat % 8) * (b.toNat % 8) % 8 := by
  rw [UInt32.toNat_mul, ← Nat.mul_mod]; omega

theorem u32_add_zero8 (a : UInt32) : a + (0 : UInt8).toUInt32 = a := by simp

theorem rabinLoop_zeros (m n : Nat) (mask : UInt32) (k : Nat) : ∀ i (multn : UInt32) (l : Nat), k ≤ l →
    i ≤ m → m < i + k →
    rabinLoop m n rabinMult mask i 0 multn (List.replicate l 0) (List.replicate k 0) = m + 1 := by
  induction k with
  | zero => intro i mn l _ _ _; omega
  | succ k ih =>
    intro i mn l hl hi hk
    obtain ⟨l, rfl⟩ : ∃ l', l = l' + 1 := ⟨l - 1, by omega⟩
    rw [List.replicate_succ, List.replicate_succ]
    simp only [rabinLoop]
    have : ((0 : UInt32) - mn * (0 : UInt8).toUInt32) * rabinMult + (0 : UInt8).toUInt32 = 0 := by
      simp
    rw [this]
    by_cases e : i = m
    · rw [if_pos ⟨by omega, by simp⟩, e]
    · rw [if_neg (by omega)]
      exact ih (i + 1) _ l (by omega) (by omega) (by omega)

theorem rabinLoop_never (m n : Nat) (mask : UInt32) (hm : mask.toNat % 8 = 7) (k : Nat) :
    ∀ i (sum multn : UInt32) (l : Nat), sum.toNat % 8 = 4 →
    rabinLoop m n rabinMult mask i sum multn (List.replicate l 0) (List.replicate k 0) = n := by
  induction k with
  | zero => intro i s mn l _; cases l <;> simp [rabinLoop, List.replicate]
  | succ k ih =>
    intro i s mn l hs
    cases l with
    | zero => simp [rabinLoop]
    | succ l =>
      rw [List.replicate_succ, List.replicate_succ]
      simp only [rabinLoop]
      have h1 : (s - mn * (0 : UInt8).toUInt32) * rabinMult + (0 : UInt8).toUInt32
          = s * rabinMult := by simp
      rw [h1]
      have h2 : (s * rabinMult).toNat % 8 = 4 := by
        rw [u32_mul_mod8, hs]; decide
      rw [if_neg (fun h => u32_and_ne _ _ h2 hm h.2)]
      exact ih (i + 1) _ _ l h2

theorem rabin_fold_zeros (k : Nat) : ∀ (s : UInt32 × UInt32),
    s.1.toNat % 2 = 1 → s.2.toNat % 8 = 5 * s.1.toNat % 8 →
    let r := (List.replicate k (0 : UInt8)).foldl
      (fun (s : UInt32 × UInt32) b => (s.1 * rabinMult + b.toUInt32, s.2 * rabinMult)) s
    r.1.toNat % 2 = 1 ∧ r.2.toNat % 8 = 5 * r.1.toNat % 8 := by
  induction k with
  | zero => intro s h1 h2; exact ⟨h1, h2⟩
  | succ k ih =>
    intro s h1 h2
    rw [List.replicate_succ, List.foldl_cons]
    have a := u32_mul_mod8 s.1 rabinMult
    have b := u32_mul_mod8 s.2 rabinMult
    have hm : rabinMult.toNat % 8 = 5 := by decide
    rw [hm] at a b
    apply ih
    · simp only [u32_add_zero8]; omega
    · simp only [u32_add_zero8]; omega

theorem rabin_fold_all_zero (k : Nat) : ∀ (s : UInt32 × UInt32), s.1 = 0 →
    ((List.replicate k (0 : UInt8)).foldl
      (fun (s : UInt32 × UInt32) b => (s.1 * rabinMult + b.toUInt32, s.2 * rabinMult)) s).1 = 0 := by
  induction k with
  | zero => intro s h1; exact h1
  | succ k ih =>
    intro s h1
    rw [List.replicate_succ, List.foldl_cons]
    apply ih
    simp [h1]

/-! ## Stadia's loop -/

theorem ones_shift_toNat (k j : Nat) (hk : k ≤ 64) :
    ((2 ^ 64 - 2 ^ k : Nat)).testBit j = (decide (k ≤ j) && decide (j < 64)) := by
  have : 2 ^ 64 - 2 ^ k = (2 ^ (64 - k) - 1) * 2 ^ k := by
    rw [Nat.sub_mul, ← Nat.pow_add, Nat.sub_add_cancel hk, Nat.one_mul]
  rw [this, Nat.mul_comm, Nat.testBit_two_pow_mul, Nat.testBit_two_pow_sub_one]
  by_cases h : k ≤ j
  · simp [h]; omega
  · simp [h]

theorem and_ones_iff (x m : UInt64) (k : Nat) (hk : k ≤ 64) (hm : m.toNat = 2 ^ 64 - 2 ^ k) :
    x &&& m = 0 ↔ x.toNat < 2 ^ k := by
  rw [← UInt64.toNat_inj, UInt64.toNat_and, hm]
  constructor
  · intro h
    apply Nat.lt_of_not_le
    intro hge
    obtain ⟨j, hj, hb⟩ := Nat.exists_ge_and_testBit_of_ge_two_pow hge
    have hj64 : j < 64 := by
      apply Nat.lt_of_not_le
      intro h64
      have := x.toNat_lt
      rw [Nat.testBit_lt_two_pow (Nat.lt_of_lt_of_le this (Nat.pow_le_pow_right (by omega) h64))] at hb
      cases hb
    have h1 := congrArg (fun n => Nat.testBit n j) h
    simp only [Nat.testBit_and, ones_shift_toNat k j hk, hb] at h1
    simp [hj, hj64] at h1
  · intro h
    apply Nat.eq_of_testBit_eq
    intro j
    rw [Nat.testBit_and, ones_shift_toNat k j hk]
    by_cases hkj : k ≤ j
    · rw [Nat.testBit_lt_two_pow (Nat.lt_of_lt_of_le h (Nat.pow_le_pow_right (by omega) hkj))]
      simp
    · simp [hkj]

theorem regressMask_below (h : UInt64) (f : Nat) : ∀ (k : Nat) (m : UInt64), k + f = 64 →
    m.toNat = 2 ^ 64 - 2 ^ k → ∀ x, x ≤ h → x &&& regressMask h f m = 0 := by
  induction f with
  | zero =>
    intro k m hk hm x hx
    have : k = 64 := by omega
    subst this
    simp only [regressMask]
    exact (and_ones_iff x m 64 (by omega) hm).2 x.toNat_lt
  | succ f ih =>
    intro k m hk hm x hx
    simp only [regressMask]
    split
    · apply ih (k + 1) _ (by omega) ?_ x hx
      rw [UInt64.toNat_shiftLeft, hm]
      have h1 : (2 : Nat) ^ k < 2 ^ 64 := Nat.pow_lt_pow_right (by omega) (by omega)
      have h2 : (2 : Nat) ^ (k + 1) ≤ 2 ^ 64 := Nat.pow_le_pow_right (by omega) (by omega)
      have h3 : (2 : Nat) ^ (k + 1) = 2 * 2 ^ k := by rw [Nat.pow_succ]; omega
      have h4 : (1 : UInt64).toNat % 64 = 1 := by decide
      have h5 : 0 < (2 : Nat) ^ k := Nat.pow_pos (by omega)
      rw [h4, Nat.shiftLeft_eq]
      omega
    · rename_i hz
      have hz' : h &&& m = 0 := Decidable.byContradiction hz
      have hb := (and_ones_iff h m k (by omega) hm).1 hz'
      have hx' := UInt64.le_iff_toNat_le.1 hx
      exact (and_ones_iff x m k (by omega) hm).2 (by omega)

/-- The loop ends at the first place whose hash is at most the threshold. -/
theorem stadiaLoop_first (gear : UInt8 → UInt64) (thresh : UInt64) (rest : Bytes) :
    ∀ i rl rm h j, (∀ x, x ≤ thresh → x &&& rm = 0) → j < rest.length →
      gearFold gear h (rest.take j) ≤ thresh →
      (∀ j', j' < j → ¬ gearFold gear h (rest.take j') ≤ thresh) →
      stadiaLoop gear thresh i rl rm h rest = i + j := by
  induction rest with
  | nil => intro i rl rm h j _ hj; simp at hj
  | cons b rest ih =>
    intro i rl rm h j hrm hj hle hfirst
    simp only [stadiaLoop]
    cases j with
    | zero =>
      have h0 : h ≤ thresh := by simpa [gearFold] using hle
      rw [if_pos (hrm h h0), if_pos h0, Nat.add_zero]
    | succ j =>
      have h0 : ¬ h ≤ thresh := by simpa [gearFold] using hfirst 0 (by omega)
      have hstep : ∀ n, gearFold gear h ((b :: rest).take (n + 1))
          = gearFold gear ((h <<< 1) + gear b) (rest.take n) := by
        intro n; simp [gearFold]
      rw [hstep] at hle
      have hf : ∀ j', j' < j → ¬ gearFold gear ((h <<< 1) + gear b) (rest.take j') ≤ thresh := by
        intro j' hj'
        rw [← hstep]
        exact hfirst (j' + 1) (by omega)
      simp only [List.length_cons] at hj
      split
      · rw [ih (i + 1) _ _ _ j ?_ (by omega) hle hf]
        · omega
        · intro x hx
          refine regressMask_below h 64 0 _ (by omega) (by decide) x ?_
          have a := UInt64.le_iff_toNat_le.1 hx
          have b : ¬ h.toNat ≤ thresh.toNat := fun hh => h0 (UInt64.le_iff_toNat_le.2 hh)
          exact UInt64.le_iff_toNat_le.2 (by omega)
      · rw [ih (i + 1) _ _ _ j hrm (by omega) hle hf]
        omega

/-- What the hash of Stadia's chunker is at place `k`. -/
theorem stadia_seen (data : Bytes) (n m k : Nat) (hm : 64 ≤ m) (h1 : m ≤ k) (h2 : k < n)
    (hn : n ≤ data.length) (gear : UInt8 → UInt64) (h : UInt64) :
    gearFold gear (gearFold gear h ((data.take m).drop (if m > 64 then m - 64 else 0)))
        (((data.take n).drop m).take (k - m))
      = gearFold gear 0 ((data.drop (k - 64)).take 64) := by
  have hif : (if m > 64 then m - 64 else 0) = m - 64 := by split <;> omega
  rw [hif]
  have hjoin : gearFold gear (gearFold gear h ((data.take m).drop (m - 64)))
        (((data.take n).drop m).take (k - m))
      = gearFold gear h ((data.take m).drop (m - 64) ++ ((data.take n).drop m).take (k - m)) := by
    unfold gearFold; rw [List.foldl_append]
  have hcat : (data.take m).drop (m - 64) ++ ((data.take n).drop m).take (k - m)
      = (data.drop (m - 64)).take (k - (m - 64)) := by
    apply List.ext_getElem?
    intro j
    by_cases hj : j < 64
    · rw [List.getElem?_append_left (by rw [List.length_drop, List.length_take]; omega),
        List.getElem?_drop, List.getElem?_take_of_lt (by omega),
        List.getElem?_take_of_lt (by omega), List.getElem?_drop]
    · rw [List.getElem?_append_right (by rw [List.length_drop, List.length_take]; omega),
        List.length_drop, List.length_take]
      by_cases hj2 : j < k - (m - 64)
      · rw [List.getElem?_take_of_lt (by omega), List.getElem?_drop,
          List.getElem?_take_of_lt (by omega), List.getElem?_take_of_lt hj2, List.getElem?_drop]
        congr 1; omega
      · rw [List.getElem?_eq_none (by
            rw [List.length_take, List.length_drop, List.length_take]; omega),
          List.getElem?_eq_none (by rw [List.length_take, List.length_drop]; omega)]
  rw [hjoin, hcat]
  have hlen : ((data.drop (m - 64)).take (k - (m - 64))).length = k - (m - 64) := by
    rw [List.length_take, List.length_drop]; omega
  rw [gearFold_last gear _ (by omega), hlen]
  refine congrArg _ ?_
  apply List.ext_getElem?
  intro j
  by_cases hj : j < 64
  · rw [List.getElem?_drop, List.getElem?_take_of_lt (by omega), List.getElem?_drop,
      List.getElem?_take_of_lt hj, List.getElem?_drop]
    congr 1; omega
  · rw [List.getElem?_eq_none (by rw [List.length_drop, hlen]; omega),
      List.getElem?_eq_none (by rw [List.length_take, List.length_drop]; omega)]

/-! ## UltraCDC with a counter of rounds, to be evaluated -/

def ultraLoopF (data : Bytes) (n normal : Nat) :
    (fuel i mask low : Nat) → (dist : Int) → (outWin : Bytes) → Nat
  | 0, _, _, _, _, _ => n
  | f + 1, i, mask, low, dist, outWin =>
    if i + 8 ≤ n then
      let mask' := if i ≥ normal then 0x2C else mask
      let inWin := (data.drop i).take 8
      if inWin = outWin then
        if low + 1 ≥ 64 then i + 8
        else ultraLoopF data n normal f (i + 8) mask' (low + 1) dist outWin
      else
        match ultraInner mask' 0 dist ((data.drop (i - 8)).take 8) inWin with
        | .inl j => i + j
        | .inr d => ultraLoopF data n normal f (i + 8) mask' 0 d inWin
    else n

theorem ultraLoopF_eq (data : Bytes) (n normal : Nat) (fuel : Nat) :
    ∀ i mask low dist outWin, n < i + 8 * fuel + 8 →
      ultraLoopF data n normal fuel i mask low dist outWin
        = ultraLoop data n normal i mask low dist outWin := by
  induction fuel with
  | zero =>
    intro i mask low dist outWin h
    unfold ultraLoop
    rw [dif_neg (by omega)]; rfl
  | succ f ih =>
    intro i mask low dist outWin h
    unfold ultraLoop ultraLoopF
    by_cases h1 : i + 8 ≤ n
    · rw [if_pos h1, dif_pos h1]
      simp only []
      by_cases h2 : (data.drop i).take 8 = outWin
      · rw [if_pos h2, if_pos h2, ih _ _ _ _ _ (by omega)]
      · rw [if_neg h2, if_neg h2]
        cases ultraInner (if i ≥ normal then 0x2C else mask) 0 dist ((data.drop (i - 8)).take 8)
          ((data.drop i).take 8) with
        | inl j => rfl
        | inr d => exact ih _ _ _ _ _ (by omega)
    · rw [if_neg h1, dif_neg h1]

def ultraF (c : Config) (data : Bytes) : Nat :=
  let minSize := if c.minSize < 8 then 8 else c.minSize
  if data.length ≤ minSize + 8 then data.length
  else
    let n := if data.length ≥ c.maxSize then c.maxSize else data.length
    let normal :=
      if data.length ≥ c.maxSize then c.targetSize
      else if data.length ≤ c.targetSize then data.length else c.targetSize
    let win := (data.drop minSize).take 8
    ultraLoopF data n normal n (minSize + 8) 0x2F 0 ((win.map ham).sum) win

theorem ultraF_eq (c : Config) (data : Bytes) : ultra c data = ultraF c data := by
  unfold ultra ultraF
  simp only [ultraLoopF_eq _ _ _ _ _ _ _ _ _ (show ∀ {n m : Nat}, n < m + 8 * n + 8 by
    intro n m; omega)]

end Verif.CDC
