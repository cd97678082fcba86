import Verif.Model.Rolling

/-! C143: rolling hashes and the exponential chunker. -/

namespace Verif.Rolling

theorem foldlM_snoc {α β : Type} (f : β → α → Option β) (l : List α) (a : α) (s : β) :
    (l ++ [a]).foldlM f s = (l.foldlM f s).bind fun t => f t a := by
  rw [List.foldlM_append]
  cases l.foldlM f s with
  | none => rfl
  | some t => simp [List.foldlM_cons]

/-- A polynomial in the bytes: the first one has the highest power. -/
def poly (p : UInt64) (f : UInt8 → UInt64) : List UInt8 → UInt64
  | [] => 0
  | b :: bs => f b * power p bs.length + poly p f bs

theorem poly_snoc (p : UInt64) (f : UInt8 → UInt64) (bs : List UInt8) (b : UInt8) :
    poly p f (bs ++ [b]) = poly p f bs * p + f b := by
  induction bs with
  | nil => simp [poly, power]
  | cons a bs ih =>
    simp only [List.cons_append, poly, ih, List.length_append, List.length_singleton, power]
    grind

theorem poly_append (p : UInt64) (f : UInt8 → UInt64) (as bs : List UInt8) :
    poly p f (as ++ bs) = poly p f as * power p bs.length + poly p f bs := by
  induction as with
  | nil => simp [poly]
  | cons a as ih =>
    have hp : ∀ m n, power p (m + n) = power p m * power p n := by
      intro m n
      induction n with
      | zero => simp [power]
      | succ n ih => simp only [← Nat.add_assoc, power, ih]; grind
    simp only [List.cons_append, poly, ih, List.length_append, hp]
    grind

/-- The last `n` bytes of a stream. -/
def lastBytes (n : Nat) (bs : List UInt8) : List UInt8 := bs.drop (bs.length - n)

theorem last_snoc (n : Nat) (bs : List UInt8) (b : UInt8) (h : bs.length < n) :
    lastBytes n (bs ++ [b]) = lastBytes n bs ++ [b] := by
  unfold lastBytes
  rw [List.length_append, List.length_singleton, show bs.length + 1 - n = 0 by omega,
    show bs.length - n = 0 by omega]
  rfl

theorem last_snoc_full (n : Nat) (bs : List UInt8) (b : UInt8) (h : n + 1 ≤ bs.length) :
    ∃ o w, lastBytes (n + 1) bs = o :: w ∧ w.length = n ∧ lastBytes (n + 1) (bs ++ [b]) = w ++ [b] := by
  unfold lastBytes
  have hlen : (bs.drop (bs.length - (n + 1))).length = n + 1 := by rw [List.length_drop]; omega
  cases hd : bs.drop (bs.length - (n + 1)) with
  | nil => rw [hd] at hlen; simp at hlen
  | cons o w =>
    refine ⟨o, w, rfl, by rw [hd] at hlen; simpa using hlen, ?_⟩
    rw [List.length_append, List.length_singleton,
      show bs.length + 1 - (n + 1) = (bs.length - (n + 1)) + 1 by omega,
      List.drop_append_of_le_length (by omega), ← List.drop_drop, hd]
    rfl

theorem add_sub_left (a b : UInt64) : a + b - a = b := by grind

theorem rabin_state (n : Nat) (bs : List UInt8) :
    (newRabinKarp (n + 1)).rolls bs =
      some ⟨lastBytes (n + 1) bs, poly prime UInt8.toUInt64 (lastBytes (n + 1) bs), n + 1, power prime n⟩ := by
  suffices h : ∀ r : List UInt8, (newRabinKarp (n + 1)).rolls r.reverse =
      some ⟨lastBytes (n + 1) r.reverse, poly prime UInt8.toUInt64 (lastBytes (n + 1) r.reverse), n + 1,
        power prime n⟩ by
    simpa using h bs.reverse
  intro r
  induction r with
  | nil => simp [RabinKarp.rolls, newRabinKarp, lastBytes, poly]
  | cons b r ih =>
    rw [List.reverse_cons]
    unfold RabinKarp.rolls at ih ⊢
    rw [foldlM_snoc, ih]
    generalize r.reverse = l
    show RabinKarp.roll _ b = _
    have hroll : RabinKarp.roll ⟨lastBytes (n + 1) l, poly prime UInt8.toUInt64 (lastBytes (n + 1) l), n + 1,
        power prime n⟩ b = some ⟨lastBytes (n + 1) (l ++ [b]),
          poly prime UInt8.toUInt64 (lastBytes (n + 1) (l ++ [b])), n + 1, power prime n⟩ := by
      unfold RabinKarp.roll
      by_cases h : n + 1 ≤ l.length
      · obtain ⟨o, w, h1, h2, h3⟩ := last_snoc_full n l b h
        simp only [h1, h3, List.length_cons, h2, if_true, poly_snoc, poly]
        rw [add_sub_left]
      · have hl : lastBytes (n + 1) l = l := by
          unfold lastBytes
          rw [show l.length - (n + 1) = 0 by omega]
          rfl
        simp only
        rw [if_neg (by rw [hl]; omega), last_snoc _ _ _ (by omega), poly_snoc]
    exact hroll

/-- Rabin-Karp: after any stream the hash is the polynomial in the last bytes, as many as the window
has, and no more than there are; it never panics. -/
theorem C143_rabin_karp (size : Nat) (hs : 0 < size) (bs : List UInt8) :
    ∃ rk, (newRabinKarp size).rolls bs = some rk ∧
      rk.hash = poly prime UInt8.toUInt64 (lastBytes size bs) := by
  obtain ⟨n, rfl⟩ : ∃ n, size = n + 1 := ⟨size - 1, by omega⟩
  exact ⟨_, rabin_state n bs, rfl⟩

/-- So two streams that end in the same window give the same hash, whatever came before. -/
theorem C143_rabin_karp_window (size : Nat) (hs : 0 < size) (as bs w : List UInt8) (hw : w.length = size) :
    ((newRabinKarp size).rolls (as ++ w)).map (·.hash) = ((newRabinKarp size).rolls (bs ++ w)).map (·.hash) ∧
    ((newRabinKarp size).rolls (as ++ w)).map (·.hash) ≠ none := by
  have hl : ∀ xs : List UInt8, lastBytes size (xs ++ w) = w := by
    intro xs
    unfold lastBytes
    rw [List.length_append, hw, Nat.add_sub_cancel, List.drop_left]
  obtain ⟨r1, h1, e1⟩ := C143_rabin_karp size hs (as ++ w)
  obtain ⟨r2, h2, e2⟩ := C143_rabin_karp size hs (bs ++ w)
  rw [hl] at e1 e2
  rw [h1, h2]
  simp [e1, e2]

theorem shl_one (h : UInt64) : h <<< 1 = h * 2 := by
  apply UInt64.toNat_inj.1
  rw [UInt64.toNat_shiftLeft, UInt64.toNat_mul]
  simp [Nat.shiftLeft_eq]

theorem gear_state (table : UInt8 → UInt64) (n : Nat) (bs : List UInt8) :
    ∃ w, GearHash.rolls table { size := n + 1 } bs = some ⟨w, poly 2 table bs, n + 1⟩ := by
  suffices h : ∀ r : List UInt8, ∃ w, GearHash.rolls table { size := n + 1 } r.reverse =
      some ⟨w, poly 2 table r.reverse, n + 1⟩ by
    simpa using h bs.reverse
  intro r
  induction r with
  | nil => exact ⟨[], rfl⟩
  | cons b r ih =>
    obtain ⟨w, ih⟩ := ih
    rw [List.reverse_cons]
    unfold GearHash.rolls at ih ⊢
    rw [foldlM_snoc, ih, poly_snoc]
    show ∃ w', GearHash.roll table _ b = _
    unfold GearHash.roll
    simp only [shl_one]
    split
    · rename_i hlen
      cases w with
      | nil => simp at hlen
      | cons o w => exact ⟨_, rfl⟩
    · exact ⟨_, rfl⟩

theorem power_two_zero (n : Nat) : power 2 (64 + n) = 0 := by
  induction n with
  | zero => decide +kernel
  | succ n ih => rw [← Nat.add_assoc]; simp only [power, ih]; simp

/-- Gear: two streams that end in the same 64 bytes give the same hash. Partial: 64 bytes whatever
the window (`C143_gear_window_counterexample`). -/
theorem C143_gear_partial (table : UInt8 → UInt64) (size : Nat) (hs : 0 < size) (as bs w : List UInt8)
    (hw : 64 ≤ w.length) :
    (GearHash.rolls table { size := size } (as ++ w)).map (·.hash) = some (poly 2 table w) ∧
    (GearHash.rolls table { size := size } (bs ++ w)).map (·.hash) = some (poly 2 table w) := by
  obtain ⟨n, rfl⟩ : ∃ n, size = n + 1 := ⟨size - 1, by omega⟩
  have key : ∀ xs : List UInt8,
      (GearHash.rolls table { size := n + 1 } (xs ++ w)).map (·.hash) = some (poly 2 table w) := by
    intro xs
    obtain ⟨v, hv⟩ := gear_state table n (xs ++ w)
    rw [hv, poly_append, show w.length = 64 + (w.length - 64) by omega, power_two_zero]
    simp
  exact ⟨key as, key bs⟩

theorem power_two (w : Nat) (h : w < 64) : (power 2 w).toNat = 2 ^ w := by
  induction w with
  | zero => rfl
  | succ w ih =>
    have hlt : 2 ^ (w + 1) < 2 ^ 64 := Nat.pow_lt_pow_right (by omega) h
    simp only [power]
    rw [UInt64.toNat_mul, ih (by omega), show (2 : UInt64).toNat = 2 from rfl, ← Nat.pow_succ,
      Nat.mod_eq_of_lt hlt]

/-- Gear's window is not that of its hash: with a window of less than 64 bytes, streams that end in
the same window but differ just before it have different hashes, when the two bytes' entries in the
table differ by an odd number. -/
theorem C143_gear_window_counterexample (table : UInt8 → UInt64) (size : Nat) (hs : 0 < size)
    (hs' : size < 64) (x y : UInt8) (hodd : (table x - table y).toNat % 2 = 1) (w : List UInt8)
    (hw : w.length = size) :
    (GearHash.rolls table { size := size } (x :: w)).map (·.hash) ≠
      (GearHash.rolls table { size := size } (y :: w)).map (·.hash) := by
  obtain ⟨n, rfl⟩ : ∃ n, size = n + 1 := ⟨size - 1, by omega⟩
  obtain ⟨v, hv⟩ := gear_state table n (x :: w)
  obtain ⟨v', hv'⟩ := gear_state table n (y :: w)
  rw [hv, hv']
  simp only [Option.map_some, ne_eq, Option.some.injEq, poly, hw]
  intro h
  have h0 : (table x - table y) * power 2 (n + 1) = 0 := by grind
  have h1 := congrArg UInt64.toNat h0
  rw [UInt64.toNat_mul, power_two _ hs'] at h1
  have h2 : 2 ^ 64 ∣ (table x - table y).toNat * 2 ^ (n + 1) := Nat.dvd_of_mod_eq_zero h1
  rw [show (2 : Nat) ^ 64 = 2 ^ (64 - (n + 1)) * 2 ^ (n + 1) by rw [← Nat.pow_add]; congr 1; omega] at h2
  have h3 := Nat.dvd_of_mul_dvd_mul_right (Nat.two_pow_pos _) h2
  have h4 : 2 ∣ 2 ^ (64 - (n + 1)) := ⟨2 ^ (64 - (n + 1) - 1), by
    rw [← Nat.pow_succ']; congr 1; omega⟩
  have h5 := Nat.dvd_trans h4 h3
  omega

/-- Buzhash gives zero after every stream, as its table is never filled. -/
theorem C143_buzhash_counterexample (size : Nat) (hs : 0 < size) (bs : List UInt8) :
    (Buzhash.rolls buzTable { size := size } bs).map (·.hash) = some 0 := by
  have key : ∀ (bs : List UInt8) (h : Buzhash), h.size = size → h.hash = 0 →
      ∃ h', Buzhash.rolls buzTable h bs = some h' ∧ h'.hash = 0 := by
    intro bs
    induction bs with
    | nil => exact fun h _ h0 => ⟨h, rfl, h0⟩
    | cons b bs ih =>
      intro h h1 h0
      have : ∃ g, Buzhash.roll buzTable h b = some g ∧ g.size = size ∧ g.hash = 0 := by
        obtain ⟨w, v, s⟩ := h
        simp only at h1 h0
        subst h1 h0
        unfold Buzhash.roll
        simp only
        split
        · rename_i hlen
          cases w with
          | nil =>
            simp only [List.length_nil] at hlen
            omega
          | cons o w => exact ⟨_, rfl, rfl, by simp [buzTable]⟩
        · exact ⟨_, rfl, rfl, by simp [buzTable]⟩
      obtain ⟨g, hg, g1, g0⟩ := this
      obtain ⟨h', e1, e2⟩ := ih g g1 g0
      refine ⟨h', ?_, e2⟩
      unfold Buzhash.rolls at e1 ⊢
      rw [List.foldlM_cons, hg]
      exact e1
  obtain ⟨h', e1, e2⟩ := key bs { size := size } rfl rfl
  rw [e1]
  simp [e2]

/-- With a filled table too: until the window is full the hash is that of the last byte alone. -/
theorem C143_buzhash_fill_counterexample (table : UInt8 → UInt32) (size : Nat) (bs : List UInt8) (b : UInt8)
    (h : bs.length < size) :
    (Buzhash.rolls table { size := size } (bs ++ [b])).map (·.hash) = some (table b) := by
  have key : ∀ (bs : List UInt8) (g : Buzhash), g.window.length + bs.length ≤ g.size →
      ∃ g', Buzhash.rolls table g bs = some g' ∧ g'.window.length = g.window.length + bs.length ∧
        g'.size = g.size := by
    intro bs
    induction bs with
    | nil => exact fun g _ => ⟨g, rfl, rfl, rfl⟩
    | cons a bs ih =>
      intro g hg
      rw [List.length_cons] at hg
      have hr : Buzhash.roll table g a = some { g with window := g.window ++ [a], hash := 0 ^^^ table a } := by
        unfold Buzhash.roll
        rw [if_neg (by omega)]
      obtain ⟨g', e1, e2, e3⟩ := ih { g with window := g.window ++ [a], hash := 0 ^^^ table a } (by
        simp only [List.length_append, List.length_singleton]; omega)
      refine ⟨g', ?_, ?_, e3⟩
      · unfold Buzhash.rolls at e1 ⊢
        rw [List.foldlM_cons, hr]
        exact e1
      · simp only [List.length_append, List.length_cons, List.length_nil] at e2 ⊢
        omega
  obtain ⟨g, e1, e2, e3⟩ := key bs { size := size } (by simp only [List.length_nil]; omega)
  unfold Buzhash.rolls at e1 ⊢
  rw [foldlM_snoc, e1]
  show Option.map _ (Buzhash.roll table g b) = _
  have hr : Buzhash.roll table g b = some { g with window := g.window ++ [b], hash := 0 ^^^ table b } := by
    unfold Buzhash.roll
    simp only [List.length_nil] at e2 e3
    rw [if_neg (by omega)]
  rw [hr]
  simp

theorem and_full (v : UInt32) : v &&& lcgM = v := by
  apply UInt32.toBitVec_inj.1
  rw [UInt32.toBitVec_and]
  exact BitVec.and_allOnes

/-- Skipping by none or one is right. Partial: and by no more (`C143_skip_counterexample`). -/
theorem C143_skip_partial (v : UInt32) : skip v 0 = v ∧ skip v 1 = next v := by
  constructor
  · unfold skip
    rw [and_full, and_full, show skipPower 0 = 1 from rfl, show (1 : UInt32) - 1 = 0 from rfl,
      show (0 : UInt32) / (lcgA - 1) = 0 by decide]
    simp
  · unfold skip next
    rw [and_full, and_full, and_full, show skipPower 1 = lcgA by decide,
      show (lcgA - 1) / (lcgA - 1) = (1 : UInt32) by decide]
    simp

/-- Skipping by two is wrong for every seed. -/
theorem C143_skip_counterexample (v : UInt32) : skip v 2 ≠ next (next v) := by
  unfold skip next
  simp only [and_full]
  intro h
  have h1 : lcgC * ((skipPower 2 - 1) / (lcgA - 1)) = lcgA * lcgC + lcgC := by
    have e : skipPower 2 = lcgA * lcgA := by decide
    rw [e] at h ⊢
    generalize hq : lcgC * ((lcgA * lcgA - 1) / (lcgA - 1)) = q at h ⊢
    grind
  exact absurd h1 (by decide)

theorem blocks_cons (minLen maxLen : Int) (prob : UInt32) (len : Int) (r : UInt32) (rs : List UInt32) :
    blocks minLen maxLen prob len (r :: rs) =
      if (isBlock minLen maxLen prob len r).2 = true then
        ((isBlock minLen maxLen prob len r).1 :: (blocks minLen maxLen prob 0 rs).1,
          (blocks minLen maxLen prob 0 rs).2)
      else blocks minLen maxLen prob (isBlock minLen maxLen prob len r).1 rs := rfl

/-- The exponential chunker: every block that is ended has at least the minimum and at most the
maximum, and the one begun is shorter than the maximum. -/
theorem C143_block_lengths (minLen maxLen : Int) (hm : minLen < maxLen) (h1 : 1 ≤ maxLen) (prob : UInt32)
    (rs : List UInt32) :
    (∀ l ∈ (blocks minLen maxLen prob 0 rs).1, minLen ≤ l ∧ 1 ≤ l ∧ l ≤ maxLen) ∧
    0 ≤ (blocks minLen maxLen prob 0 rs).2 ∧ (blocks minLen maxLen prob 0 rs).2 < maxLen ∧
    ((blocks minLen maxLen prob 0 rs).1.foldl (· + ·) 0 + (blocks minLen maxLen prob 0 rs).2 = rs.length) := by
  have hfold : ∀ (l : List Int) (a : Int), l.foldl (· + ·) a = a + l.foldl (· + ·) 0 := by
    intro l
    induction l with
    | nil => intro a; simp
    | cons x l ih => intro a; simp only [List.foldl_cons]; rw [ih (a + x), ih (0 + x)]; omega
  have key : ∀ (rs : List UInt32) (len : Int), 0 ≤ len → len < maxLen →
      (∀ l ∈ (blocks minLen maxLen prob len rs).1, minLen ≤ l ∧ 1 ≤ l ∧ l ≤ maxLen) ∧
      0 ≤ (blocks minLen maxLen prob len rs).2 ∧ (blocks minLen maxLen prob len rs).2 < maxLen ∧
      ((blocks minLen maxLen prob len rs).1.foldl (· + ·) 0 + (blocks minLen maxLen prob len rs).2 =
        len + rs.length) := by
    intro rs
    induction rs with
    | nil =>
      intro len h0 hl
      simp only [blocks, List.foldl_nil, List.length_nil]
      exact ⟨fun _ h => absurd h (by simp), h0, hl, by omega⟩
    | cons r rs ih =>
      intro len h0 hl
      rw [blocks_cons]
      by_cases hy : (isBlock minLen maxLen prob len r).2 = true
      · rw [if_pos hy]
        simp only [isBlock] at hy ⊢
        simp only [Bool.and_eq_true, Bool.or_eq_true, decide_eq_true_eq] at hy
        obtain ⟨g1, g2, g3, g4⟩ := ih 0 (by omega) (by omega)
        refine ⟨?_, g2, g3, ?_⟩
        · intro l hmem
          rcases List.mem_cons.1 hmem with rfl | hmem
          · omega
          · exact g1 l hmem
        · rw [List.foldl_cons, hfold, List.length_cons]
          omega
      · rw [if_neg hy]
        simp only [isBlock] at hy ⊢
        simp only [Bool.and_eq_true, Bool.or_eq_true, decide_eq_true_eq] at hy
        obtain ⟨g1, g2, g3, g4⟩ := ih (len + 1) (by omega) (by omega)
        refine ⟨g1, g2, g3, ?_⟩
        rw [g4, List.length_cons]
        omega
  simpa using key rs 0 (by omega) (by omega)

/-- With no probability and none missed: every block has the maximum, resp. the minimum. -/
example : blocks 2 4 0 0 [5, 5, 5, 5, 5, 5] = ([4], 2) ∧ blocks 2 4 9 0 [5, 5, 5, 5, 5] = ([2, 2], 1) := by decide

example : ((newRabinKarp 2).rolls [9, 1, 2, 3]).map (·.hash) = some (2 * 16777619 + 3) := by decide

/-- A table whose entries for 0 and 1 differ by an odd number. -/
example : ((fun b : UInt8 => b.toUInt64) 1 - (fun b : UInt8 => b.toUInt64) 0).toNat % 2 = 1 := by decide

end Verif.Rolling
