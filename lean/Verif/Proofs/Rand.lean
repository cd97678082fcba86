import Verif.Spec.Rand
/-
Proofs about random numbers.
-/
namespace Verif.Rand

/-! ### Loops over words -/

/-- Exchange two values. -/
def sw (a b x : Int) : Int := if x = a then b else if x = b then a else x

theorem sw_sw (a b x : Int) : sw a b (sw a b x) = x := by
  unfold sw
  by_cases h1 : x = a
  · rw [if_pos h1]
    by_cases h2 : b = a
    · rw [if_pos h2]; omega
    · rw [if_neg h2, if_pos rfl, h1]
  · rw [if_neg h1]
    by_cases h2 : x = b
    · rw [if_pos h2, if_pos rfl, h2]
    · rw [if_neg h2, if_neg h1, if_neg h2]

theorem sw_left (a b : Int) : sw a b a = b := if_pos rfl

theorem sw_eq_right {a b x : Int} (h : sw a b x = b) : x = a := by
  have := sw_sw a b x
  rw [h] at this
  unfold sw at this
  split at this
  · omega
  · rw [if_pos rfl] at this; exact this.symm

/-- A rearrangement of the words that exchanges two results. -/
structure Exchange (take : Word → Option Int) (a b : Int) where
  f : Word → Word
  inv : ∀ u, f (f u) = u
  swaps : ∀ u, take (f u) = (take u).map (sw a b)

theorem loop_exchange {take : Word → Option Int} {a b : Int} (x : Exchange take a b) (ws : List Word) :
    Gives (loop take) ws a → Gives (loop take) (ws.map x.f) b := by
  induction ws with
  | nil => rintro ⟨r, h⟩; exact nomatch h
  | cons u us ih =>
    rintro ⟨rest, h⟩
    simp only [loop, List.map_cons] at h ⊢
    cases ht : take u with
    | none =>
      rw [ht] at h
      obtain ⟨rest', h'⟩ := ih ⟨rest, h⟩
      exact ⟨rest', by simp only [loop]; rw [x.swaps, ht]; exact h'⟩
    | some r =>
      rw [ht] at h
      simp only [Out.ret.injEq] at h
      exact ⟨us.map x.f, by simp only [loop]; rw [x.swaps, ht, h.1]; simp [sw_left]⟩

theorem loop_exchange' {take : Word → Option Int} {a b : Int} (x : Exchange take a b) (ws : List Word) :
    Gives (loop take) ws b → Gives (loop take) (ws.map x.f) a := by
  have y : Exchange take b a := ⟨x.f, x.inv, fun u => by
    rw [x.swaps]
    congr 1
    funext z
    unfold sw
    split <;> split <;> omega⟩
  intro h
  induction ws with
  | nil => obtain ⟨r, h⟩ := h; exact nomatch h
  | cons u us ih =>
    obtain ⟨rest, h⟩ := h
    simp only [loop, List.map_cons] at h ⊢
    cases ht : take u with
    | none =>
      rw [ht] at h
      obtain ⟨rest', h'⟩ := ih ⟨rest, h⟩
      exact ⟨rest', by simp only [loop]; rw [x.swaps, ht]; exact h'⟩
    | some r =>
      rw [ht] at h
      simp only [Out.ret.injEq] at h
      refine ⟨us.map x.f, by simp only [loop]; rw [x.swaps, ht, h.1]; simp only [Option.map_some]; congr 1; unfold sw; split <;> omega⟩

theorem map_inv {take : Word → Option Int} {a b : Int} (x : Exchange take a b) (ws : List Word) :
    (ws.map x.f).map x.f = ws := by
  rw [List.map_map]
  conv => rhs; rw [← List.map_id ws]
  congr 1
  funext u
  exact x.inv u

def waysEquiv {take : Word → Option Int} {a b : Int} (x : Exchange take a b) (k : Nat) :
    Ways (loop take) k a ≃ Ways (loop take) k b where
  toFun w := ⟨w.1.map x.f, by rw [List.length_map]; exact w.2.1, loop_exchange x _ w.2.2⟩
  invFun w := ⟨w.1.map x.f, by rw [List.length_map]; exact w.2.1, loop_exchange' x _ w.2.2⟩
  left_inv w := Subtype.ext (map_inv x w.1)
  right_inv w := Subtype.ext (map_inv x w.1)

theorem loop_inside {α : Type} {take : Word → Option α} {S : α → Prop} (h : ∀ u r, take u = some r → S r) (ws : List Word) (r : α) :
    Gives (loop take) ws r → S r := by
  induction ws with
  | nil => rintro ⟨_, h⟩; exact nomatch h
  | cons u us ih =>
    rintro ⟨rest, hr⟩
    simp only [loop] at hr
    cases ht : take u with
    | none => rw [ht] at hr; exact ih ⟨rest, hr⟩
    | some x =>
      rw [ht] at hr
      simp only [Out.ret.injEq] at hr
      rw [← hr.1]
      exact h u x ht

theorem uniform_loop {take : Word → Option Int} {S : Int → Prop} (h1 : ∀ u r, take u = some r → S r)
    (h2 : ∀ r, S r → ∃ u, take u = some r) (h3 : ∀ a b, S a → S b → Nonempty (Exchange take a b)) :
    Uniform (loop take) S where
  inside := loop_inside h1
  every r hr := by
    obtain ⟨u, hu⟩ := h2 r hr
    exact ⟨u, fun rest => by simp only [loop, hu]⟩
  equal k a b ha hb := by
    obtain ⟨x⟩ := h3 a b ha hb
    exact ⟨waysEquiv x k⟩

/-- Shifting the results. -/
theorem uniform_shift {f : List Word → Out Int} {S : Int → Prop} (h : Uniform f S) (d : Int) :
    Uniform (fun ws => (f ws).map fun r => d + r) fun r => S (r - d) where
  inside ws r := by
    rintro ⟨rest, hr⟩
    cases hf : f ws with
    | panic => simp only [hf, Out.map] at hr; exact nomatch hr
    | more => simp only [hf, Out.map] at hr; exact nomatch hr
    | ret x rest' =>
      simp only [hf, Out.map, Out.ret.injEq] at hr
      have := h.inside ws x ⟨rest', hf⟩
      rw [← hr.1, show d + x - d = x by omega]
      exact this
  every r hr := by
    obtain ⟨u, hu⟩ := h.every _ hr
    refine ⟨u, fun rest => ?_⟩
    simp only [hu, Out.map]
    rw [show d + (r - d) = r by omega]
  equal k a b ha hb := by
    obtain ⟨e⟩ := h.equal k _ _ ha hb
    have key : ∀ ws r, Gives (fun ws => (f ws).map fun r => d + r) ws r ↔ Gives f ws (r - d) := by
      intro ws r
      constructor
      · rintro ⟨rest, hr⟩
        cases hf : f ws with
        | panic => simp only [hf, Out.map] at hr; exact nomatch hr
        | more => simp only [hf, Out.map] at hr; exact nomatch hr
        | ret x rest' =>
          simp only [hf, Out.map, Out.ret.injEq] at hr
          exact ⟨rest', by rw [hf, ← hr.1, show d + x - d = x by omega]⟩
      · rintro ⟨rest, hr⟩
        exact ⟨rest, by simp only [hr, Out.map]; rw [show d + (r - d) = r by omega]⟩
    exact ⟨{
      toFun := fun w => ⟨(e ⟨w.1, w.2.1, (key _ _).1 w.2.2⟩).1, (e _).2.1, (key _ _).2 (e _).2.2⟩
      invFun := fun w => ⟨(e.symm ⟨w.1, w.2.1, (key _ _).1 w.2.2⟩).1, (e.symm _).2.1, (key _ _).2 (e.symm _).2.2⟩
      left_inv := fun w => Subtype.ext (by
        have := congrArg Subtype.val (e.symm_apply_apply ⟨w.1, w.2.1, (key _ _).1 w.2.2⟩)
        exact this)
      right_inv := fun w => Subtype.ext (by
        have := congrArg Subtype.val (e.apply_symm_apply ⟨w.1, w.2.1, (key _ _).1 w.2.2⟩)
        exact this) }⟩

theorem uniform_congr {f g : List Word → Out Int} {S T : Int → Prop} (h : Uniform f S) (hf : ∀ ws, g ws = f ws)
    (hS : ∀ r, T r ↔ S r) : Uniform g T := by
  have : g = f := funext hf
  subst this
  have : T = S := funext fun r => propext (hS r)
  subst this
  exact h

/-! ### Words as numbers -/

/-- The word of an int64. -/
def word (x : Int) : Word := ⟨(x % 2 ^ 64).toNat, by omega⟩

theorem signed_range (u : Word) : minInt ≤ signed u ∧ signed u ≤ maxInt := by
  have := u.isLt
  unfold signed minInt maxInt
  split <;> omega

theorem signed_word {x : Int} (h1 : minInt ≤ x) (h2 : x ≤ maxInt) : signed (word x) = x := by
  unfold minInt at h1
  unfold maxInt at h2
  unfold signed word
  simp only
  split <;> omega

theorem word_signed (u : Word) : word (signed u) = u := by
  have := u.isLt
  apply Fin.ext
  unfold signed word
  simp only
  split <;> omega

/-- The magnitude of a word, as the functions see it. -/
theorem nonNegOf_range (u : Word) : 0 ≤ nonNegOf u ∧ nonNegOf u ≤ maxInt := by
  have := signed_range u
  unfold nonNegOf
  unfold minInt maxInt at *
  split
  · split <;> omega
  · omega

/-- The word of the same half with another magnitude. -/
def remag (u : Word) (v : Int) : Word :=
  if signed u < 0 then if v = 0 then word minInt else word (-v) else word v

theorem signed_remag {u : Word} {v : Int} (h1 : 0 ≤ v) (h2 : v ≤ maxInt) :
    signed (remag u v) = if signed u < 0 then if v = 0 then minInt else -v else v := by
  unfold remag
  split
  · split
    · rw [signed_word (Int.le_refl _) (by decide)]
    · rw [signed_word (by unfold minInt; unfold maxInt at h2; omega) (by omega)]
  · rw [signed_word (by unfold minInt; unfold maxInt at h2; omega) (by omega)]

theorem nonNegOf_remag {u : Word} {v : Int} (h1 : 0 ≤ v) (h2 : v ≤ maxInt) : nonNegOf (remag u v) = v := by
  unfold nonNegOf
  rw [signed_remag h1 h2]
  unfold minInt maxInt at *
  by_cases hs : signed u < 0
  · rw [if_pos hs]
    by_cases hv : v = 0
    · rw [if_pos hv]; simp [hv]
    · rw [if_neg hv, if_pos (by omega), if_neg (by omega)]; omega
  · rw [if_neg hs, if_neg (by omega)]

theorem remag_remag {u : Word} {v : Int} (h1 : 0 ≤ v) (h2 : v ≤ maxInt) : remag (remag u v) (nonNegOf u) = u := by
  have hu := signed_range u
  have hw := word_signed u
  have hs := signed_remag (u := u) h1 h2
  unfold remag at hs ⊢
  by_cases h : signed u < 0
  · rw [if_pos h, if_pos h] at hs
    rw [if_pos h]
    have hneg : signed (if v = 0 then word minInt else word (-v)) < 0 := by
      rw [hs]; unfold minInt; split <;> omega
    rw [if_pos hneg]
    unfold nonNegOf
    rw [if_pos h]
    by_cases hm : signed u = minInt
    · rw [if_pos hm, if_pos rfl, ← hm, hw]
    · rw [if_neg hm, if_neg (by omega), Int.neg_neg, hw]
  · rw [if_neg h, if_neg h] at hs
    rw [if_neg h, if_neg (by rw [hs]; omega)]
    unfold nonNegOf
    rw [if_neg h, hw]

theorem remag_self (u : Word) : remag u (nonNegOf u) = u := by
  have hw := word_signed u
  unfold remag nonNegOf
  by_cases h : signed u < 0
  · simp only [if_pos h]
    by_cases hm : signed u = minInt
    · rw [if_pos hm, if_pos rfl, ← hm, hw]
    · rw [if_neg hm, if_neg (by omega), Int.neg_neg, hw]
  · simp only [if_neg h]; exact hw

/-! ### Loops that look at the magnitude -/

/-- If what is taken depends on the magnitude only, exchanging magnitudes will do. -/
def exchange_mag {take : Word → Option Int} {a b : Int} (t : Int → Option Int) (ht : ∀ u, take u = t (nonNegOf u))
    (g : Int → Int) (g1 : ∀ v, 0 ≤ v → v ≤ maxInt → 0 ≤ g v ∧ g v ≤ maxInt)
    (g2 : ∀ v, 0 ≤ v → v ≤ maxInt → g (g v) = v)
    (g3 : ∀ v, 0 ≤ v → v ≤ maxInt → t (g v) = (t v).map (sw a b)) : Exchange take a b where
  f u := remag u (g (nonNegOf u))
  inv u := by
    have hv := nonNegOf_range u
    have hg := g1 _ hv.1 hv.2
    rw [nonNegOf_remag hg.1 hg.2, g2 _ hv.1 hv.2, remag_remag hg.1 hg.2]
  swaps u := by
    have hv := nonNegOf_range u
    have hg := g1 _ hv.1 hv.2
    rw [ht, ht, nonNegOf_remag hg.1 hg.2, g3 _ hv.1 hv.2]

theorem nonNegOf_word {v : Int} (h1 : 0 ≤ v) (h2 : v ≤ maxInt) : nonNegOf (word v) = v := by
  unfold nonNegOf
  rw [signed_word (by unfold minInt; omega) h2, if_neg (by omega)]

theorem uniform_nonNeg : Uniform nonNeg fun r => 0 ≤ r ∧ r ≤ maxInt := by
  refine uniform_loop ?_ ?_ ?_
  · intro u r h
    simp only [Option.some.injEq] at h
    rw [← h]; exact nonNegOf_range u
  · intro r ⟨h1, h2⟩
    exact ⟨word r, by rw [nonNegOf_word h1 h2]⟩
  · intro a b ⟨a1, a2⟩ ⟨b1, b2⟩
    refine ⟨exchange_mag some (fun _ => rfl) (sw a b) ?_ (fun v _ _ => sw_sw a b v) (fun v _ _ => rfl)⟩
    intro v h1 h2
    unfold sw
    split
    · omega
    · split <;> omega

theorem uniform_positive : Uniform positive fun r => 1 ≤ r ∧ r ≤ maxInt := by
  refine uniform_loop ?_ ?_ ?_
  · intro u r h
    have := nonNegOf_range u
    split at h
    · simp only [Option.some.injEq] at h; omega
    · exact nomatch h
  · intro r ⟨h1, h2⟩
    refine ⟨word (r - 1), ?_⟩
    rw [nonNegOf_word (by omega) (by omega), if_pos (by omega)]
    congr 1; omega
  · intro a b ⟨a1, a2⟩ ⟨b1, b2⟩
    refine ⟨exchange_mag (fun v => if v ≠ maxInt then some (v + 1) else none) (fun _ => rfl) (sw (a - 1) (b - 1)) ?_
      (fun v _ _ => sw_sw _ _ v) ?_⟩
    · intro v h1 h2
      unfold sw
      split
      · omega
      · split <;> omega
    · intro v h1 h2
      by_cases hv : v = maxInt
      · have : sw (a - 1) (b - 1) v = v := by
          unfold sw; rw [if_neg (by omega), if_neg (by omega)]
        rw [this, if_neg (by simpa using hv)]; rfl
      · have : sw (a - 1) (b - 1) v ≠ maxInt := by
          unfold sw
          split
          · omega
          · split <;> omega
        rw [if_pos this, if_pos hv]
        simp only [Option.map_some, Option.some.injEq]
        unfold sw
        split
        · rw [if_pos (by omega)]; omega
        · split
          · rw [if_neg (by omega), if_pos (by omega)]; omega
          · rw [if_neg (by omega), if_neg (by omega)]

/-! ### The range -/

theorem redrawAbove_spec {n : Int} (h : 1 < n) (h2 : n ≤ maxInt) :
    ∃ q, 0 < q ∧ redrawAbove n = q * n - 1 ∧ maxInt - n < redrawAbove n ∧ redrawAbove n ≤ maxInt := by
  unfold redrawAbove
  have hd := Int.emod_add_mul_ediv maxInt n
  have e1 := Int.emod_nonneg maxInt (show n ≠ 0 by omega)
  have e2 := Int.emod_lt_of_pos maxInt (show 0 < n by omega)
  have hq : 1 ≤ maxInt / n := (Int.le_ediv_iff_mul_le (by omega)).2 (by omega)
  generalize maxInt % n = m at *
  generalize maxInt / n = q at *
  by_cases hm : m + 1 = n
  · refine ⟨q + 1, by omega, ?_, ?_, ?_⟩
    · rw [hm, Int.emod_self, Int.add_mul, Int.mul_comm q n]; omega
    · rw [hm, Int.emod_self]; omega
    · rw [hm, Int.emod_self]; omega
  · have : (m + 1) % n = m + 1 := Int.emod_eq_of_lt (by omega) (by omega)
    refine ⟨q, by omega, ?_, ?_, ?_⟩
    · rw [this, Int.mul_comm q n]; omega
    · rw [this]; omega
    · rw [this]; omega

theorem rangeTake_mag {n : Int} (h : 1 < n) (h2 : n ≤ maxInt) (u : Word) :
    rangeTake n u = if redrawAbove n < nonNegOf u then none else some (nonNegOf u % n) := by
  have hr := redrawAbove_spec h h2
  obtain ⟨q, _, _, h3, _⟩ := hr
  unfold rangeTake nonNegOf
  by_cases hs : signed u < 0
  · by_cases hm : signed u = minInt
    · rw [if_pos ⟨hs, hm⟩, if_pos hs, if_pos hm, if_neg (by omega), Int.zero_emod]
    · rw [if_neg (by omega)]
      simp only [if_pos hs, if_neg hm]
  · rw [if_neg (by omega)]
    simp only [if_neg hs]

/-- Exchange the residues a and b of a number. -/
def swRes (n a b v : Int) : Int := v - v % n + sw a b (v % n)

theorem sw_range {n a b x : Int} (ha : 0 ≤ a ∧ a < n) (hb : 0 ≤ b ∧ b < n) (hx : 0 ≤ x ∧ x < n) :
    0 ≤ sw a b x ∧ sw a b x < n := by
  unfold sw
  split
  · exact hb
  · split
    · exact ha
    · exact hx

theorem swRes_mod {n a b v : Int} (hn : 0 < n) (ha : 0 ≤ a ∧ a < n) (hb : 0 ≤ b ∧ b < n) :
    swRes n a b v % n = sw a b (v % n) ∧ swRes n a b v - swRes n a b v % n = v - v % n := by
  have e1 := Int.emod_nonneg v (show n ≠ 0 by omega)
  have e2 := Int.emod_lt_of_pos v hn
  have hs := sw_range ha hb ⟨e1, e2⟩
  have hd := Int.emod_add_mul_ediv v n
  have h1 : swRes n a b v % n = sw a b (v % n) := by
    unfold swRes
    rw [show v - v % n + sw a b (v % n) = sw a b (v % n) + n * (v / n) by omega, Int.add_mul_emod_self_left,
      Int.emod_eq_of_lt hs.1 hs.2]
  refine ⟨h1, ?_⟩
  rw [h1]; unfold swRes; omega

/-- Below a multiple of n the whole block of a number is. -/
theorem block_below {n q v : Int} (hn : 0 < n) (h : v ≤ q * n - 1) : v - v % n + n ≤ q * n := by
  have hd := Int.emod_add_mul_ediv v n
  have e1 := Int.emod_nonneg v (show n ≠ 0 by omega)
  have h1 : v / n < q := by
    rw [Int.ediv_lt_iff_lt_mul hn]; omega
  have h2 : (v / n + 1) * n ≤ q * n := Int.mul_le_mul_of_nonneg_right (by omega) (by omega)
  rw [Int.add_mul, Int.one_mul, Int.mul_comm (v / n)] at h2
  omega

theorem uniform_rangeTake {n : Int} (h : 1 < n) (h2 : n ≤ maxInt) :
    Uniform (loop (rangeTake n)) fun r => 0 ≤ r ∧ r < n := by
  obtain ⟨q, q1, q2, q3, q4⟩ := redrawAbove_spec h h2
  refine uniform_loop ?_ ?_ ?_
  · intro u r hr
    rw [rangeTake_mag h h2] at hr
    split at hr
    · exact nomatch hr
    · simp only [Option.some.injEq] at hr
      rw [← hr]
      exact ⟨Int.emod_nonneg _ (by omega), Int.emod_lt_of_pos _ (by omega)⟩
  · intro r ⟨r1, r2⟩
    refine ⟨word r, ?_⟩
    have hb : n ≤ q * n := by
      have := Int.mul_le_mul_of_nonneg_right (show 1 ≤ q by omega) (show 0 ≤ n by omega)
      omega
    rw [rangeTake_mag h h2, nonNegOf_word r1 (by omega), if_neg (by omega), Int.emod_eq_of_lt r1 r2]
  · intro a b ha hb
    refine ⟨exchange_mag (fun v => if redrawAbove n < v then none else some (v % n)) (rangeTake_mag h h2)
      (fun v => if redrawAbove n < v then v else swRes n a b v) ?_ ?_ ?_⟩
    · intro v v1 v2
      split
      · exact ⟨v1, v2⟩
      · have hbl := block_below (n := n) (q := q) (v := v) (by omega) (by omega)
        have hs := sw_range ha hb ⟨Int.emod_nonneg v (by omega), Int.emod_lt_of_pos v (by omega)⟩
        have hd := Int.emod_add_mul_ediv v n
        have hp : 0 ≤ n * (v / n) := Int.mul_nonneg (by omega) (Int.ediv_nonneg v1 (by omega))
        unfold swRes
        omega
    · intro v v1 v2
      by_cases hv : redrawAbove n < v
      · simp only [if_pos hv]
      · have hbl := block_below (n := n) (q := q) (v := v) (by omega) (by omega)
        have hs := sw_range ha hb ⟨Int.emod_nonneg v (by omega), Int.emod_lt_of_pos v (by omega)⟩
        have hm := swRes_mod (v := v) (by omega) ha hb
        have hle : ¬ redrawAbove n < swRes n a b v := by unfold swRes; omega
        rw [if_neg hv, if_neg hle]
        have : swRes n a b (swRes n a b v) = swRes n a b v - swRes n a b v % n + sw a b (swRes n a b v % n) := rfl
        rw [this, hm.1, sw_sw]
        have := hm.2
        rw [hm.1] at this
        omega
    · intro v v1 v2
      by_cases hv : redrawAbove n < v
      · simp only [if_pos hv, Option.map_none]
      · have hbl := block_below (n := n) (q := q) (v := v) (by omega) (by omega)
        have hs := sw_range ha hb ⟨Int.emod_nonneg v (by omega), Int.emod_lt_of_pos v (by omega)⟩
        have hm := swRes_mod (v := v) (by omega) ha hb
        have hle : ¬ redrawAbove n < swRes n a b v := by unfold swRes; omega
        simp only [if_neg hv, if_neg hle, hm.1, Option.map_some]

theorem uniform_range {n : Int} (h : 1 < n) (h2 : n < maxInt) : Uniform (range n) fun r => 0 ≤ r ∧ r < n :=
  uniform_congr (uniform_rangeTake h (by omega)) (fun ws => by unfold range; rw [if_neg (by omega), if_neg (by omega)])
    fun _ => Iff.rfl

/-! ### Positive or negative -/

/-- Taking a signed word as it is, between two bounds. -/
theorem uniform_signed {take : Word → Option Int} {lo hi : Int} (h1 : minInt ≤ lo) (h2 : hi ≤ maxInt)
    (ht : ∀ u, take u = if lo ≤ signed u ∧ signed u ≤ hi then some (signed u) else none) :
    Uniform (loop take) fun r => lo ≤ r ∧ r ≤ hi := by
  refine uniform_loop ?_ ?_ ?_
  · intro u r h
    rw [ht] at h
    split at h
    · simp only [Option.some.injEq] at h; rw [← h]; assumption
    · exact nomatch h
  · intro r ⟨r1, r2⟩
    refine ⟨word r, ?_⟩
    rw [ht, signed_word (by omega) (by omega), if_pos ⟨r1, r2⟩]
  · intro a b ha hb
    have hr : ∀ u, minInt ≤ sw a b (signed u) ∧ sw a b (signed u) ≤ maxInt := by
      intro u
      have := signed_range u
      unfold sw
      split
      · omega
      · split <;> omega
    refine ⟨⟨fun u => word (sw a b (signed u)), fun u => ?_, fun u => ?_⟩⟩
    · rw [signed_word (hr u).1 (hr u).2, sw_sw, word_signed]
    · rw [ht, ht, signed_word (hr u).1 (hr u).2]
      by_cases hu : lo ≤ signed u ∧ signed u ≤ hi
      · rw [if_pos hu, if_pos]
        · rfl
        · unfold sw
          split
          · exact hb
          · split
            · exact ha
            · exact hu
      · rw [if_neg hu, if_neg]
        · rfl
        · unfold sw
          split
          · omega
          · split
            · omega
            · exact hu

theorem uniform_posOrNeg {l : Int} (h : 1 ≤ l) (h2 : l ≤ maxInt) : Uniform (posOrNeg l) fun r => -l ≤ r ∧ r ≤ l := by
  have hmax : maxInt = 9223372036854775807 := by decide
  have hmin : minInt = -9223372036854775808 := by decide
  by_cases h3 : l = maxInt
  · refine uniform_congr (uniform_signed (take := fun u => if signed u = minInt then none else some (signed u)) (lo := -l)
      (hi := l) (by omega) h2 ?_) (fun ws => ?_) fun _ => Iff.rfl
    · intro u
      have := signed_range u
      by_cases hu : signed u = minInt
      · rw [if_pos hu, if_neg (by omega)]
      · rw [if_neg hu, if_pos (by omega)]
    · unfold posOrNeg
      rw [if_neg (by omega), if_pos h3]
  · by_cases h4 : l < maxInt / 2
    · refine uniform_congr (uniform_shift (uniform_range (n := 1 + l * 2) (by omega) (by omega)) (-l)) (fun ws => ?_)
        (fun r => by omega)
      unfold posOrNeg
      rw [if_neg (by omega), if_neg h3, if_pos h4]
    · refine uniform_congr (uniform_signed
        (take := fun u => if signed u < -l then none else if l < signed u then none else some (signed u)) (lo := -l)
        (hi := l) (by omega) h2 ?_) (fun ws => ?_) fun _ => Iff.rfl
      · intro u
        by_cases hu : signed u < -l
        · rw [if_pos hu, if_neg (by omega)]
        · rw [if_neg hu]
          by_cases hv : l < signed u
          · rw [if_pos hv, if_neg (by omega)]
          · rw [if_neg hv, if_pos (by omega)]
      · unfold posOrNeg
        rw [if_neg (by omega), if_neg h3, if_neg h4]

/-! ### Waiting times -/

theorem uniform_hop {a b : Int} (h : a + 1 < b) (h2 : b - a < maxInt) : Uniform (hop a b) fun r => a ≤ r ∧ r < b := by
  refine uniform_congr (uniform_shift (uniform_range (n := b - a) (by omega) h2) a) (fun ws => ?_) (fun r => by omega)
  unfold hop
  rw [if_neg (by omega)]
  congr 1
  funext r
  omega

/-- What is added to the minimum. -/
theorem spread_bounds {rd : Rat → Rat} (hr : Rounding rd) {t n k : Int} (ht : 0 ≤ t) (ht2 : t ≤ 2 ^ 53)
    (hn : t * max 1 (n - 2) ≤ 2 ^ 53) (hn2 : n ≤ 2 ^ 53) (hk : 0 ≤ k) (hk2 : k < 100000000) :
    0 ≤ (rd (rd (rd (t : Rat) * rd ((max 1 (n - 2) : Int) : Rat)) * rd (rd (k : Rat) / 100000000))).floor ∧
    (rd (rd (rd (t : Rat) * rd ((max 1 (n - 2) : Int) : Rat)) * rd (rd (k : Rat) / 100000000))).floor ≤
      t * max 1 (n - 2) := by
  have z : rd 0 = 0 := hr.exact 0 (by omega) (by omega)
  have o : rd 1 = 1 := hr.exact 1 (by omega) (by omega)
  have hm : (0 : Int) ≤ t * max 1 (n - 2) := Int.mul_nonneg ht (by omega)
  rw [hr.exact t (by omega) ht2, hr.exact (max 1 (n - 2)) (by omega) (by omega), hr.exact k (by omega) (by omega),
    ← Rat.intCast_mul, hr.exact _ (by omega) hn]
  generalize t * max 1 (n - 2) = m at *
  have hm' : (0 : Rat) ≤ (m : Rat) := by exact_mod_cast hm
  have hk' : (0 : Rat) ≤ (k : Rat) := by exact_mod_cast hk
  have hk2' : (k : Rat) ≤ 100000000 := by
    have : (k : Rat) ≤ ((100000000 : Int) : Rat) := Rat.intCast_le_intCast.2 (by omega)
    exact this
  have f0 : 0 ≤ rd ((k : Rat) / 100000000) := by
    rw [← z]; exact hr.mono _ _ (by grind)
  have f1 : rd ((k : Rat) / 100000000) ≤ 1 := by
    conv => rhs; rw [← o]
    exact hr.mono _ _ (by grind)
  generalize rd ((k : Rat) / 100000000) = fr at *
  have p0 : 0 ≤ (m : Rat) * fr := Rat.mul_nonneg hm' f0
  have p1 : (m : Rat) * fr ≤ (m : Rat) := by
    have := Rat.mul_le_mul_of_nonneg_left f1 hm'
    rwa [Rat.mul_one] at this
  constructor
  · rw [Rat.le_floor_iff]
    show (0 : Rat) ≤ _
    rw [← z]
    exact hr.mono _ _ p0
  · have h3 : rd ((m : Rat) * fr) ≤ (m : Rat) := by
      have := hr.mono _ _ p1
      rwa [hr.exact m (by omega) hn] at this
    have h4 := Rat.floor_monotone h3
    rwa [Rat.floor_intCast] at h4

/-- Half of the spread is drawn with the middle number. -/
theorem spread_half {rd : Rat → Rat} (hr : Rounding rd) {t n : Int} (ht : 0 ≤ t) (ht2 : t ≤ 2 ^ 53)
    (hn : t * max 1 (n - 2) ≤ 2 ^ 53) (hn2 : n ≤ 2 ^ 53) :
    (rd (rd (rd (t : Rat) * rd ((max 1 (n - 2) : Int) : Rat)) * rd (rd ((50000000 : Int) : Rat) / 100000000))).floor =
      t * max 1 (n - 2) / 2 := by
  have hm : (0 : Int) ≤ t * max 1 (n - 2) := Int.mul_nonneg ht (by omega)
  rw [hr.exact t (by omega) ht2, hr.exact (max 1 (n - 2)) (by omega) (by omega),
    hr.exact 50000000 (by omega) (by omega), ← Rat.intCast_mul, hr.exact _ (by omega) hn]
  generalize t * max 1 (n - 2) = m at *
  have h1 : ((50000000 : Int) : Rat) / 100000000 = ((1 : Int) : Rat) / 2 := by decide +kernel
  rw [h1, hr.half 1 (by omega) (by omega)]
  have h2 : (m : Rat) * (((1 : Int) : Rat) / 2) = (m : Rat) / 2 := by grind
  rw [h2, hr.half m (by omega) hn]
  apply Int.le_antisymm
  · have h3 := Rat.floor_le ((m : Rat) / 2)
    have h4 : ((2 * ((m : Rat) / 2).floor : Int) : Rat) ≤ ((m : Int) : Rat) := by
      rw [Rat.intCast_mul]; grind
    have := Rat.intCast_le_intCast.1 h4
    omega
  · rw [Rat.le_floor_iff]
    have h4 : ((2 * (m / 2) : Int) : Rat) ≤ ((m : Int) : Rat) := Rat.intCast_le_intCast.2 (by omega)
    rw [Rat.intCast_mul] at h4
    grind

end Verif.Rand
