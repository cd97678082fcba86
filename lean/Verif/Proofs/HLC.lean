import Verif.Spec.HLC
namespace Verif.HLC
open Spec

theorem wrap64_id (x : Int) (h1 : -2^63 ≤ x) (h2 : x < 2^63) : wrap64 x = x := by
  unfold wrap64; omega

theorem createEvent_spec (B j pt : Int) (hB : B < 2^63 - 1) (hj1 : -2^63 ≤ j) (hj : j ≤ B)
    (hp1 : -2^63 ≤ pt) (hp : pt + 65535 ≤ B) :
    j < createEvent j pt ∧ pt ≤ createEvent j pt ∧ createEvent j pt ≤ B + 1 := by
  have hw : wrap64 (pt + 65535) = pt + 65535 := wrap64_id _ (by omega) (by omega)
  unfold createEvent physicalTime48
  rw [hw]
  unfold lc count
  simp only
  split <;> split <;> (rw [wrap64_id _ (by omega) (by omega)]; omega)

theorem receive_spec (B j m pt : Int) (hB : B < 2^63 - 1) (hj1 : -2^63 ≤ j) (hj : j ≤ B)
    (hm1 : -2^63 ≤ m) (hm : m ≤ B) (hp1 : -2^63 ≤ pt) (hp : pt + 65535 ≤ B) :
    j < receive j m pt ∧ m < receive j m pt ∧ pt ≤ receive j m pt ∧ receive j m pt ≤ B + 1 := by
  have hw : wrap64 (pt + 65535) = pt + 65535 := wrap64_id _ (by omega) (by omega)
  unfold receive physicalTime48
  rw [hw]
  unfold lc count
  simp only
  have hmax : max (j % 65536) (m % 65536) = j % 65536 ∨ max (j % 65536) (m % 65536) = m % 65536 := by
    omega
  repeat' split
  all_goals (rw [wrap64_id _ (by omega) (by omega)]; omega)

def reqOk (B : Int) : Req → Prop
  | .event => True
  | .recv m => -2^63 ≤ m ∧ m ≤ B

def stepOk (B : Int) : Step → Prop
  | .load _ => True
  | .cas _ pt r => -2^63 ≤ pt ∧ pt + 65535 ≤ B ∧ reqOk B r

/-- Invariant: timestamps handed out are strictly decreasing (newest first), each
at or above its physical reading, the newest is the clock, and all stay in range. -/
structure Inv (start B : Int) (n : Nat) (s : Shared) : Prop where
  lo : -2^63 ≤ s.clock
  ge : start ≤ s.clock
  hi : s.clock ≤ B + n
  top : ∀ t ∈ s.results, t.1 ≤ s.clock
  sorted : s.results.Pairwise (fun a b => b.1 < a.1)
  phys : ∀ t ∈ s.results, t.2 ≤ t.1
  gt : ∀ t ∈ s.results, start < t.1

theorem inv_step (start B : Int) (n : Nat) (s : Shared) (st : Step) (h : Inv start B n s)
    (hok : stepOk B st) (hn : B + n + 1 < 2^63) : Inv start B (n + 1) (step s st) := by
  cases st with
  | load i =>
    exact ⟨h.lo, h.ge, by have := h.hi; simp only [step]; omega, h.top, h.sorted, h.phys, h.gt⟩
  | cas i pt r =>
    simp only [step]
    obtain ⟨hp1, hp2, hr⟩ := hok
    have hlo := h.lo; have hhi := h.hi; have hge := h.ge
    split
    · next hc =>
      have key : s.clock < compute (s.loaded i) pt r ∧ pt ≤ compute (s.loaded i) pt r ∧
          compute (s.loaded i) pt r ≤ B + n + 1 := by
        rw [← hc]
        cases r with
        | event =>
          have := createEvent_spec (B + n) s.clock pt (by omega) hlo hhi hp1 (by omega)
          exact this
        | recv m =>
          obtain ⟨hm1, hm2⟩ := hr
          have := receive_spec (B + n) s.clock m pt (by omega) hlo hhi hm1 (by omega) hp1 (by omega)
          exact ⟨this.1, this.2.2.1, this.2.2.2⟩
      obtain ⟨k1, k2, k3⟩ := key
      refine ⟨by simp only; omega, by simp only; omega, by simp only; omega, ?_, ?_, ?_, ?_⟩
      · intro t ht
        simp only [List.mem_cons] at ht
        rcases ht with rfl | ht
        · simp
        · have := h.top t ht; simp only; omega
      · rw [List.pairwise_cons]
        exact ⟨fun t ht => by have := h.top t ht; simp only; omega, h.sorted⟩
      · intro t ht
        simp only [List.mem_cons] at ht
        rcases ht with rfl | ht
        · exact k2
        · exact h.phys t ht
      · intro t ht
        simp only [List.mem_cons] at ht
        rcases ht with rfl | ht
        · simp only; omega
        · exact h.gt t ht
    · exact ⟨h.lo, h.ge, by omega, h.top, h.sorted, h.phys, h.gt⟩

theorem inv_run (start B : Int) (l : List Step) : ∀ (n : Nat) (s : Shared), Inv start B n s →
    (∀ st ∈ l, stepOk B st) → B + (n + l.length : Nat) < 2^63 → Inv start B (n + l.length) (run s l) := by
  induction l with
  | nil => intro n s h _ _; simpa [run] using h
  | cons st l ih =>
    intro n s h hok hn
    simp only [List.length_cons] at hn ⊢
    have h1 := inv_step start B n s st h (hok st (by simp)) (by omega)
    have := ih (n + 1) (step s st) h1 (fun x hx => hok x (by simp [hx])) (by omega)
    simp only [run, List.foldl_cons] at this ⊢
    rw [show n + (l.length + 1) = n + 1 + l.length by omega]
    exact this

/-- Invariant of distributed stamping: everything stamped so far is in range, each
node's clock is at least every timestamp made on that node, and the causal edges
into stamped events increase. -/
structure DInv (B : Int) (evs : List Ev) (clocks : Nat → Int) (ts : List Int) : Prop where
  lo : ∀ n, -2^63 ≤ clocks n
  hi : ∀ n, clocks n ≤ B + ts.length
  tlo : ∀ t ∈ ts, -2^63 ≤ t
  thi : ∀ t ∈ ts, t ≤ B + ts.length
  node : ∀ (i : Nat) (a : Ev) (t : Int), evs[i]? = some a → ts[i]? = some t → t ≤ clocks a.node
  same : ∀ (i j : Nat) (a b : Ev) (t u : Int), evs[i]? = some a → evs[j]? = some b →
    ts[i]? = some t → ts[j]? = some u → i < j → a.node = b.node → t < u
  msg : ∀ (i j : Nat) (b : Ev) (t u : Int), evs[j]? = some b → b.from_ = some i →
    ts[i]? = some t → ts[j]? = some u → t < u

theorem stamp_length (es : List Ev) : ∀ clocks ts, (stamp clocks ts es).length = ts.length + es.length := by
  induction es with
  | nil => intro c t; simp [stamp]
  | cons e es ih => intro c t; simp only [stamp, ih]; simp; omega

theorem stamp_inv (B : Int) (evs : List Ev) (hcaus : Causal evs)
    (hpt : ∀ e ∈ evs, -2^63 ≤ e.pt ∧ e.pt + 65535 ≤ B) (hB : B + evs.length < 2^63 ) :
    ∀ (es pre : List Ev) (clocks : Nat → Int) (ts : List Int), evs = pre ++ es →
      ts.length = pre.length → DInv B evs clocks ts →
      ∃ clocks', DInv B evs clocks' (stamp clocks ts es) := by
  intro es
  induction es with
  | nil => intro pre clocks ts _ _ h; exact ⟨clocks, h⟩
  | cons e es ih =>
    intro pre clocks ts hev hlen h
    simp only [stamp]
    have hidx : evs[ts.length]? = some e := by rw [hev, hlen]; simp
    have hmem : e ∈ evs := by rw [hev]; simp
    obtain ⟨p1, p2⟩ := hpt e hmem
    have hlt : ts.length < evs.length := by rw [hev, hlen]; simp
    generalize ht : stampOne clocks ts e = t
    have c1 := h.lo e.node
    have c2 := h.hi e.node
    have key : clocks e.node < t ∧ t ≤ B + ts.length + 1 ∧
        (∀ i m, e.from_ = some i → ts[i]? = some m → m < t) := by
      unfold stampOne at ht
      cases hf : e.from_ with
      | none =>
        rw [hf] at ht
        have := createEvent_spec (B + ts.length) (clocks e.node) e.pt (by omega) c1 c2 p1 (by omega)
        simp only at ht
        rw [ht] at this
        exact ⟨this.1, this.2.2, fun i m hh => by simp at hh⟩
      | some k =>
        rw [hf] at ht
        have hk := hcaus _ _ _ hidx hf
        have hsome : ts[k]? = some ts[k] := List.getElem?_eq_getElem hk
        simp only [hsome] at ht
        have hm : ts[k] ∈ ts := List.getElem_mem hk
        have := receive_spec (B + ts.length) (clocks e.node) ts[k] e.pt (by omega) c1 c2
          (h.tlo _ hm) (h.thi _ hm) p1 (by omega)
        rw [ht] at this
        refine ⟨this.1, this.2.2.2, fun i m hi him => ?_⟩
        simp only [Option.some.injEq] at hi
        subst hi
        rw [hsome] at him
        simp only [Option.some.injEq] at him
        rw [← him]; exact this.2.1
    obtain ⟨k1, k2, k3⟩ := key
    apply ih (pre ++ [e]) _ _ (by rw [hev]; simp) (by simp [hlen])
    have getnew : ∀ (i : Nat) (x : Int), (ts ++ [t])[i]? = some x →
        (i < ts.length ∧ ts[i]? = some x) ∨ (i = ts.length ∧ x = t) := by
      intro i x hx
      rcases Nat.lt_trichotomy i ts.length with hi | hi | hi
      · left; rw [List.getElem?_append_left hi] at hx; exact ⟨hi, hx⟩
      · right; subst hi; simp at hx; exact ⟨rfl, hx.symm⟩
      · rw [List.getElem?_eq_none (by simp; omega)] at hx; simp at hx
    refine ⟨?_, ?_, ?_, ?_, ?_, ?_, ?_⟩
    · intro n; split
      · omega
      · exact h.lo n
    · intro n; have := h.hi n; simp only [List.length_append, List.length_singleton]; split <;> omega
    · intro x hx
      simp only [List.mem_append, List.mem_singleton] at hx
      rcases hx with hx | rfl
      · exact h.tlo x hx
      · omega
    · intro x hx
      simp only [List.mem_append, List.mem_singleton] at hx
      simp only [List.length_append, List.length_singleton]
      rcases hx with hx | rfl
      · have := h.thi x hx; omega
      · omega
    · intro i a x ha hx
      rcases getnew i x hx with ⟨hi, hx'⟩ | ⟨rfl, rfl⟩
      · have := h.node i a x ha hx'
        split
        · next hn => rw [hn] at this; omega
        · exact this
      · rw [hidx] at ha
        simp only [Option.some.injEq] at ha
        subst ha; simp
    · intro i j a b x y ha hb hx hy hij hab
      rcases getnew j y hy with ⟨hj, hy'⟩ | ⟨rfl, rfl⟩
      · rcases getnew i x hx with ⟨hi, hx'⟩ | ⟨rfl, rfl⟩
        · exact h.same i j a b x y ha hb hx' hy' hij hab
        · omega
      · rcases getnew i x hx with ⟨hi, hx'⟩ | ⟨rfl, rfl⟩
        · rw [hidx] at hb
          simp only [Option.some.injEq] at hb
          subst hb
          have := h.node i a x ha hx'
          rw [hab] at this; omega
        · omega
    · intro i j b x y hb hf hx hy
      have hij := hcaus j b i hb hf
      rcases getnew j y hy with ⟨hj, hy'⟩ | ⟨rfl, rfl⟩
      · rcases getnew i x hx with ⟨hi, hx'⟩ | ⟨rfl, rfl⟩
        · exact h.msg i j b x y hb hf hx' hy'
        · omega
      · rcases getnew i x hx with ⟨hi, hx'⟩ | ⟨rfl, rfl⟩
        · rw [hidx] at hb
          simp only [Option.some.injEq] at hb
          subst hb
          exact k3 i x hf hx'
        · omega

end Verif.HLC
