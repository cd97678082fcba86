import Verif.Spec.MemWAL
import Verif.Proofs.WAL
/-
Proofs about the memory-only log.
-/
namespace Verif.MemWAL

open WAL (Ent Op)
open WAL.Spec (Plain cell)

def terms (log : List Ent) : List Int := log.map (·.term)

/-- The log and its index agree. -/
structure Inv (m : MWal) : Prop where
  sim : RLE.Sim m.idx ⟨m.idx.base, 0, terms m.log⟩
  lli : m.lli = m.idx.base + m.log.length
  index : ∀ (i : Nat) (e : Ent), m.log[i]? = some e → e.index = m.idx.base + 1 + i
  par : m.log.length ≤ m.par
  llt : ∀ e : Ent, m.log.getLast? = some e → m.llt = e.term

/-- The log stands for the plain log. -/
structure Rel (m : MWal) (p : Plain) : Prop where
  start : p.start ≤ m.idx.base
  last : m.idx.base ≤ p.last
  cells : m.log.map cell = p.cells.drop (m.idx.base - p.start)

/-- No term in the log or its index exceeds `t`. -/
structure Low (m : MWal) (t : Int) : Prop where
  compact : m.idx.compactTerm ≤ t
  log : ∀ x ∈ terms m.log, x ≤ t

theorem Low.mono {m : MWal} {t t' : Int} (h : Low m t) (ht : t ≤ t') : Low m t' :=
  ⟨Int.le_trans h.compact ht, fun x hx => Int.le_trans (h.log x hx) ht⟩

theorem Inv.head {m : MWal} (h : Inv m) {e : Ent} (he : m.log.head? = some e) : e.index = m.idx.base + 1 := by
  rw [List.head?_eq_getElem?] at he
  have := h.index 0 e he
  omega

theorem Inv.last {m : MWal} (h : Inv m) {e : Ent} (he : m.log.getLast? = some e) :
    e.index = m.idx.base + m.log.length ∧ 0 < m.log.length := by
  rw [List.getLast?_eq_getElem?] at he
  have h1 := h.index _ e he
  have h2 := (List.getElem?_eq_some_iff.1 he).1
  omega

theorem saveEntry_eq {m : MWal} (h : Inv m) (e : Ent) : saveEntry m e =
    if m.lli + 1 ≠ e.index then none
    else match RLE.addTerm m.idx e.term with
      | none => none
      | some idx =>
        some { m with idx := idx, log := m.log ++ [e], lli := m.lli + 1, llt := e.term, par := m.par + 1 } := by
  unfold saveEntry
  cases hl : m.log.getLast? with
  | none =>
    have h1 : m.log = [] := by simpa using hl
    have h2 : m.lli = m.idx.base := by have := h.lli; rw [h1] at this; simpa using this
    simp only [h2]
    rfl
  | some l =>
    have h2 : l.index = m.lli := by have := h.last hl; have := h.lli; omega
    simp only [h2]
    rfl

theorem barrier_eq {m : MWal} (h : Inv m) : barrier m = m.idx.base := by
  unfold barrier
  cases hf : m.log.head? with
  | none =>
    have : m.log = [] := by simpa using hf
    have := h.lli
    simp_all
  | some e => have := h.head hf; simp only; omega

/-! ### Saving -/

theorem saveEntry_spec {m m' : MWal} {e : Ent} (h : Inv m) (hs : saveEntry m e = some m') :
    m'.log = m.log ++ [e] ∧ Inv m' ∧ m'.idx.base = m.idx.base ∧ m'.noCompact = m.noCompact ∧
      m'.prevApplied = m.prevApplied ∧ (∀ t, Low m t → t ≤ e.term → Low m' e.term) := by
  rw [saveEntry_eq h] at hs
  by_cases h1 : m.lli + 1 = e.index
  · rw [if_neg (by simpa using h1)] at hs
    cases ha : RLE.addTerm m.idx e.term with
    | none => rw [ha] at hs; exact nomatch hs
    | some idx =>
      rw [ha] at hs
      simp only [Option.some.injEq] at hs
      obtain ⟨s1, s2⟩ := RLE.sim_add m.idx idx _ e.term h.sim ha
      have hb : idx.base = m.idx.base := s1.base
      subst hs
      refine ⟨rfl, ⟨?_, ?_, ?_, ?_, fun x hx => by simp at hx; rw [← hx]⟩, hb, rfl, rfl, ?_⟩
      · simp only [hb, terms, List.map_append, List.map_cons, List.map_nil]
        exact s1
      · simp only [hb, List.length_append, List.length_singleton]; have := h.lli; omega
      · intro i x hx
        simp only [hb] at hx ⊢
        rcases Nat.lt_or_ge i m.log.length with hi | hi
        · rw [List.getElem?_append_left hi] at hx; exact h.index i x hx
        · rw [List.getElem?_append_right hi] at hx
          have h2 := (List.getElem?_eq_some_iff.1 hx).1
          simp only [List.length_singleton] at h2
          have h3 : i = m.log.length := by omega
          rw [h3] at hx ⊢
          simp at hx
          subst hx
          have := h.lli
          omega
      · simp only [List.length_append, List.length_singleton]; have := h.par; omega
      · intro t hl ht
        refine ⟨by simp only [s2]; exact Int.le_trans hl.compact ht, ?_⟩
        intro x hx
        simp only [terms, List.map_append, List.mem_append, List.map_cons, List.map_nil, List.mem_singleton] at hx
        rcases hx with hx | hx
        · exact Int.le_trans (hl.log x hx) ht
        · omega
  · rw [if_pos (by simpa using h1)] at hs; exact nomatch hs

theorem addTerm_low {m : MWal} (h : Inv m) {t u : Int} (hl : Low m t) (ht : t ≤ u) : ∃ idx, RLE.addTerm m.idx u = some idx := by
  refine WAL.addTerm_ok m.idx u (Int.le_trans hl.compact ht) ?_
  intro r hr
  have h1 := RLE.flat_getLast m.idx.runs h.sim.pos
  rw [hr, h.sim.terms] at h1
  simp only [Option.map_some] at h1
  exact Int.le_trans (hl.log r.1 (List.mem_of_getLast? h1)) ht

theorem saveEntry_some {m : MWal} {e : Ent} (h : Inv m) {t : Int} (hl : Low m t) (hi : e.index = m.lli + 1)
    (ht : t ≤ e.term) : ∃ m', saveEntry m e = some m' := by
  rw [saveEntry_eq h]
  rw [if_neg (by simp [hi])]
  obtain ⟨idx, ha⟩ := addTerm_low h hl ht
  rw [ha]
  exact ⟨_, rfl⟩

theorem saveAll_spec (es : List Ent) : ∀ {m m' : MWal}, Inv m → saveAll m es = some m' →
    m'.log = m.log ++ es ∧ Inv m' ∧ m'.idx.base = m.idx.base ∧ m'.noCompact = m.noCompact ∧
      m'.prevApplied = m.prevApplied := by
  induction es with
  | nil =>
    intro m m' h hs
    simp only [saveAll, Option.some.injEq] at hs
    subst hs
    exact ⟨by simp, h, rfl, rfl, rfl⟩
  | cons e es ih =>
    intro m m' h hs
    simp only [saveAll] at hs
    cases h1 : saveEntry m e with
    | none => rw [h1] at hs; exact nomatch hs
    | some m1 =>
      rw [h1, Option.bind_some] at hs
      obtain ⟨a1, a2, a3, a4, a5, _⟩ := saveEntry_spec h h1
      obtain ⟨b1, b2, b3, b4, b5⟩ := ih a2 hs
      exact ⟨by rw [b1, a1, List.append_assoc]; rfl, b2, by rw [b3, a3], by rw [b4, a4], by rw [b5, a5]⟩

theorem highest_ge (es : List Ent) : ∀ t, t ≤ highest t es := by
  induction es with
  | nil => intro t; exact Int.le_refl _
  | cons e es ih => intro t; exact Int.le_trans (Int.le_max_left ..) (ih _)

theorem saveAll_some (es : List Ent) : ∀ {m : MWal} {t : Int}, Inv m → Low m t → Follows (m.lli + 1) t es →
    ∃ m', saveAll m es = some m' ∧ Low m' (highest t es) := by
  induction es with
  | nil => intro m t _ hl _; exact ⟨m, rfl, hl⟩
  | cons e es ih =>
    intro m t h hl hf
    obtain ⟨f1, f2, f3⟩ := hf
    obtain ⟨m1, h1⟩ := saveEntry_some h hl f1 f2
    obtain ⟨a1, a2, a3, _, _, a6⟩ := saveEntry_spec h h1
    have hlli : m1.lli = m.lli + 1 := by
      have := a2.lli; have := h.lli
      rw [a1, List.length_append, List.length_singleton] at *
      omega
    obtain ⟨m2, h2, h3⟩ := ih a2 (a6 t hl f2) (by rw [hlli, ← f1]; rw [f1]; exact f3)
    refine ⟨m2, by simp only [saveAll]; rw [h1, Option.bind_some, h2], ?_⟩
    have : max t e.term = e.term := Int.max_eq_right f2
    show Low m2 (highest (max t e.term) es)
    rw [this]; exact h3

/-! ### Cutting -/

theorem cutRuns_term (keep : Nat) (rs : List RLE.Run) (hp : RLE.Pos rs) : ∀ base q, RLE.cutRuns keep base rs = some q →
    q.2 ∈ RLE.flat rs := by
  induction rs with
  | nil => intro base q h; exact nomatch h
  | cons r rs ih =>
    intro base q h
    obtain ⟨t, c⟩ := r
    have hc := hp.cons
    have hmem : t ∈ RLE.flat ((t, c) :: rs) := by
      rw [RLE.flat_cons]
      exact List.mem_append_left _ (List.mem_replicate.2 ⟨by omega, rfl⟩)
    simp only [RLE.cutRuns] at h
    split at h
    · simp only [Option.some.injEq] at h; subst h; exact hmem
    · split at h
      · simp only [Option.some.injEq] at h; subst h; exact hmem
      · cases h1 : RLE.cutRuns keep (base + c) rs with
        | none => rw [h1] at h; exact nomatch h
        | some q' =>
          rw [h1] at h
          simp only [Option.map_some, Option.some.injEq] at h
          subst h
          rw [RLE.flat_cons]
          exact List.mem_append_right _ (ih hc.2 _ q' h1)

theorem truncate_term {s s' : RLE.T} {p : RLE.Spec.Plain} (h : RLE.Sim s p) {keep : Nat} (hk : s.base ≤ keep)
    (hs : RLE.truncate s keep = some s') : s'.compactTerm = s.compactTerm ∨ s'.compactTerm ∈ p.terms := by
  unfold RLE.truncate at hs
  split at hs
  · simp only [Option.some.injEq] at hs
    subst hs
    left
    simp only
    rw [if_neg (by omega)]
  · split at hs
    · simp only [Option.some.injEq] at hs; subst hs; exact .inl rfl
    · cases h1 : RLE.cutRuns keep s.base s.runs with
      | none => rw [h1] at hs; exact nomatch hs
      | some q =>
        rw [h1] at hs
        simp only [Option.map_some, Option.some.injEq] at hs
        subst hs
        right
        rw [← h.terms]
        exact cutRuns_term keep s.runs h.pos _ _ h1

theorem cutTail_spec {m m' : MWal} {kc : Nat} {commit : Option Nat} (h : Inv m) (hk : kc < m.log.length)
    (hs : cutTail m (m.idx.base + kc) kc commit = some m') :
    m'.log = m.log.take kc ∧ Inv m' ∧ m'.idx.base = m.idx.base ∧ m'.noCompact = m.noCompact ∧
      m'.prevApplied = m.prevApplied ∧ ∀ t, Low m t → Low m' t := by
  unfold cutTail at hs
  simp only [Option.ite_none_left_eq_some] at hs
  obtain ⟨_, c2, hs⟩ := hs
  cases ht : RLE.truncate m.idx (m.idx.base + kc) with
  | none => rw [ht] at hs; exact nomatch hs
  | some idx =>
    rw [ht] at hs
    simp only [Option.some.injEq] at hs
    have hsim := RLE.sim_truncate m.idx idx _ _ h.sim ht
    unfold RLE.Spec.Plain.truncate at hsim
    simp only at hsim
    rw [if_neg (by omega), Nat.add_sub_cancel_left] at hsim
    have hb : idx.base = m.idx.base := hsim.base
    have htm := truncate_term h.sim (by omega) ht
    subst hs
    refine ⟨rfl, ⟨?_, ?_, ?_, ?_, fun x hx => by simp only at hx ⊢; rw [hx]⟩, hb, rfl, rfl, ?_⟩
    · simp only [hb, terms, List.map_take]; exact hsim
    · simp only [hb, List.length_take]; omega
    · intro i x hx
      simp only [hb] at hx ⊢
      rw [List.getElem?_take] at hx
      split at hx
      · exact h.index i x hx
      · exact nomatch hx
    · simp only [List.length_take]; omega
    · intro t hl
      refine ⟨?_, ?_⟩
      · rcases htm with e | e
        · simp only [e]; exact hl.compact
        · exact hl.log _ e
      · intro x hx
        simp only [terms, List.map_take] at hx
        exact hl.log x (List.mem_of_mem_take hx)

theorem cutTail_some {m : MWal} {kc : Nat} {commit : Option Nat} (h : Inv m) (hk : kc < m.log.length)
    (hc : m.noCompact = true → ∀ c, commit = some c → c ≤ m.idx.base + kc) :
    ∃ m', cutTail m (m.idx.base + kc) kc commit = some m' := by
  unfold cutTail
  rw [if_neg, if_neg (by have := h.par; omega)]
  · obtain ⟨s, hs⟩ := RLE.truncate_some m.idx _ (m.idx.base + kc) h.sim
    rw [hs]
    exact ⟨_, rfl⟩
  · rintro ⟨h1, h2⟩
    rw [List.any_eq_true] at h2
    obtain ⟨e, he, h2⟩ := h2
    cases commit with
    | none => exact nomatch h2
    | some c =>
      simp only [decide_eq_true_eq] at h2
      obtain ⟨i, hi, rfl⟩ := List.mem_iff_getElem.1 he
      rw [List.getElem_drop] at h2
      have h3 := h.index (kc + i) _ (List.getElem?_eq_getElem (by rw [List.length_drop] at hi; omega))
      have h4 := hc h1 c rfl
      omega

theorem cutAfter_eq {m : MWal} {K : Nat} {commit : Option Nat} (h : Inv m) (hK : m.idx.base ≤ K) :
    cutAfter m K commit = if m.idx.base + m.log.length ≤ K then some m
      else cutTail m (m.idx.base + (K - m.idx.base)) (K - m.idx.base) commit := by
  unfold cutAfter
  cases hf : m.log.head? with
  | none =>
    have : m.log = [] := by simpa using hf
    rw [this, if_pos (by simpa using hK)]
  | some first =>
    cases hl : m.log.getLast? with
    | none =>
      have : m.log = [] := by simpa using hl
      rw [this] at hf; exact nomatch hf
    | some last =>
      have h1 := h.head hf
      have h2 := h.last hl
      simp only
      by_cases h3 : last.index ≤ K
      · rw [if_pos h3, if_pos (by omega)]
      · rw [if_neg h3, if_neg (show ¬ m.idx.base + m.log.length ≤ K by omega)]
        by_cases h4 : K < first.index
        · rw [if_pos h4]
          have e1 : K - m.idx.base = 0 := by omega
          have e2 : first.index - 1 = m.idx.base := by omega
          rw [e1, e2, Nat.add_zero]
        · rw [if_neg h4]
          have e1 : K - first.index + 1 = K - m.idx.base := by omega
          have e2 : m.idx.base + (K - m.idx.base) = K := by omega
          rw [e1, e2]

theorem cutAfter_spec {m m' : MWal} {K : Nat} {commit : Option Nat} (h : Inv m) (hK : m.idx.base ≤ K)
    (hs : cutAfter m K commit = some m') :
    m'.log = m.log.take (K - m.idx.base) ∧ Inv m' ∧ m'.idx.base = m.idx.base ∧ m'.noCompact = m.noCompact ∧
      m'.prevApplied = m.prevApplied ∧ ∀ t, Low m t → Low m' t := by
  rw [cutAfter_eq h hK] at hs
  split at hs
  · simp only [Option.some.injEq] at hs
    subst hs
    exact ⟨(List.take_of_length_le (by omega)).symm, h, rfl, rfl, rfl, fun _ hl => hl⟩
  · exact cutTail_spec h (by omega) hs

theorem cutAfter_some {m : MWal} {K : Nat} {commit : Option Nat} (h : Inv m) (hK : m.idx.base ≤ K)
    (hc : m.noCompact = true → ∀ c, commit = some c → c ≤ K) : ∃ m', cutAfter m K commit = some m' := by
  rw [cutAfter_eq h hK]
  split
  · exact ⟨_, rfl⟩
  · exact cutTail_some h (by omega) (fun h1 c h2 => by have := hc h1 c h2; omega)

/-! ### Compaction -/

theorem compact_spec {m m' : MWal} {keep : Nat} (h : Inv m) (hs : compact m keep = some m') :
    m' = m ∨ ∃ d, 0 < d ∧ d < m.log.length ∧ m.idx.base + d + 1 = keep ∧ m'.log = m.log.drop d ∧ Inv m' ∧
      m'.idx.base = m.idx.base + d ∧ m'.noCompact = m.noCompact ∧ m'.prevApplied = m.prevApplied ∧
      ∀ t, Low m t → Low m' t := by
  unfold compact at hs
  split at hs
  · exact nomatch hs
  cases hf : m.log.head? with
  | none => rw [hf] at hs; simp only [Option.some.injEq] at hs; exact .inl hs.symm
  | some first =>
    cases hl : m.log.getLast? with
    | none => rw [hf, hl] at hs; simp only [Option.some.injEq] at hs; exact .inl hs.symm
    | some last =>
      rw [hf, hl] at hs
      have h1 := h.head hf
      have h2 := h.last hl
      simp only at hs
      split at hs
      · simp only [Option.some.injEq] at hs; exact .inl hs.symm
      split at hs
      · exact nomatch hs
      split at hs
      · simp only [Option.some.injEq] at hs; exact .inl hs.symm
      cases hc : RLE.compactNewBeg m.idx keep with
      | none => rw [hc] at hs; exact nomatch hs
      | some idx =>
        rw [hc] at hs
        simp only [Option.some.injEq] at hs
        right
        have hsim := (RLE.sim_compact m.idx idx _ keep h.sim hc).1
        unfold RLE.Spec.Plain.compact at hsim
        rw [if_neg (by omega)] at hsim
        have hb : idx.base = keep - 1 := hsim.base
        have hd : keep - first.index = keep - 1 - m.idx.base := by omega
        refine ⟨keep - first.index, by omega, by omega, by omega, by subst hs; rfl, ?_, by subst hs; simp only; omega,
          by subst hs; rfl, by subst hs; rfl, ?_⟩
        · subst hs
          refine ⟨?_, ?_, ?_, ?_, fun x hx => h.llt x ?_⟩
          · refine ⟨rfl, ?_, ?_, hsim.pos⟩
            · have := hsim.terms
              simp only at this ⊢
              rw [this, hd, terms, terms, List.map_drop]
            · have := hsim.endi
              simp only [terms, List.length_drop, List.length_map] at this ⊢
              rw [this, hb, hd]
          · simp only [List.length_drop, hb]; have := h.lli; omega
          · intro i x hx
            simp only [hb] at hx ⊢
            rw [List.getElem?_drop] at hx
            have := h.index _ x hx
            omega
          · simp only [List.length_drop]; have := h.par; omega
          · simp only [List.getLast?_drop] at hx
            split at hx
            · exact nomatch hx
            · exact hx
        · intro t hl'
          subst hs
          refine ⟨?_, ?_⟩
          · have : idx.compactTerm ∈ terms m.log := by
              have hg := RLE.getTerm_held m.idx _ h.sim (keep - 1) (by simp only; omega) (by
                simp only [RLE.Spec.Plain.last, terms, List.length_map]; omega)
              unfold RLE.Spec.Plain.termAt at hg
              simp only at hg
              rw [if_pos (by omega)] at hg
              unfold RLE.compactNewBeg at hc
              rw [if_neg (by omega), if_neg (by omega)] at hc
              cases hx : RLE.getTermForIndex m.idx (keep - 1) with
              | none => rw [hx] at hc; exact nomatch hc
              | some ct =>
                rw [hx] at hg hc
                have hct : idx.compactTerm = ct := by
                  simp only at hc
                  split at hc
                  · exact nomatch hc
                  split at hc
                  · exact nomatch hc
                  split at hc
                  · split at hc
                    · exact nomatch hc
                    · simp only [Option.some.injEq] at hc; subst hc; rfl
                  split at hc
                  · exact nomatch hc
                  split at hc
                  · exact nomatch hc
                  · simp only [Option.some.injEq] at hc; subst hc; rfl
                  · rw [Option.map_eq_some_iff] at hc
                    obtain ⟨_, _, hc⟩ := hc
                    subst hc; rfl
                rw [hct]
                exact List.mem_of_getElem? hg.symm
            exact hl'.log _ this
          · intro x hx
            simp only [terms, List.map_drop] at hx
            exact hl'.log x (List.mem_of_mem_drop hx)

theorem compact_some {m : MWal} {keep : Nat} (h : Inv m) (hn : m.noCompact = false)
    (hk : keep ≤ m.idx.base + m.log.length) : ∃ m', compact m keep = some m' := by
  unfold compact
  rw [hn]
  simp only [Bool.false_eq_true, if_false]
  cases hf : m.log.head? with
  | none => exact ⟨_, rfl⟩
  | some first =>
    cases hl : m.log.getLast? with
    | none => exact ⟨_, rfl⟩
    | some last =>
      have h2 := h.last hl
      simp only
      split
      · exact ⟨_, rfl⟩
      rw [if_neg (by omega)]
      split
      · exact ⟨_, rfl⟩
      next hb =>
      obtain ⟨s, hs⟩ := (RLE.compact_some_iff m.idx _ keep h.sim).2 (.inr ⟨by simp only; omega, by
        simp only [RLE.Spec.Plain.last, terms, List.length_map]; omega⟩)
      rw [hs]
      exact ⟨_, rfl⟩

theorem maybeCompact_spec {m m' : MWal} {applied : Nat} (h : Inv m) (hs : maybeCompact m applied = some m') :
    ∃ d, d ≤ m.log.length ∧ m'.log = m.log.drop d ∧ Inv m' ∧ m'.idx.base = m.idx.base + d ∧
      (0 < d → m.idx.base + d + 1 = applied) ∧ m'.noCompact = m.noCompact ∧ ∀ t, Low m t → Low m' t := by
  unfold maybeCompact at hs
  split at hs
  · have h' : Inv { m with prevApplied := applied } := ⟨h.sim, h.lli, h.index, h.par, h.llt⟩
    rcases compact_spec h' hs with e | ⟨d, d1, d2, d3, d4, d5, d6, d7, d8, d9⟩
    · rw [e]
      exact ⟨0, Nat.zero_le _, rfl, h', rfl, fun x => absurd x (Nat.lt_irrefl _), rfl, fun t hl => ⟨hl.compact, hl.log⟩⟩
    · exact ⟨d, Nat.le_of_lt d2, d4, d5, d6, fun _ => d3, d7, fun t hl => d9 t ⟨hl.compact, hl.log⟩⟩
  · simp only [Option.some.injEq] at hs
    subst hs
    exact ⟨0, Nat.zero_le _, rfl, h, rfl, fun x => absurd x (Nat.lt_irrefl _), rfl, fun t hl => hl⟩

theorem maybeCompact_some {m : MWal} {applied : Nat} (h : Inv m) (hk : applied ≤ m.idx.base + m.log.length) :
    ∃ m', maybeCompact m applied = some m' := by
  unfold maybeCompact
  split
  next hc => exact compact_some (m := { m with prevApplied := applied }) ⟨h.sim, h.lli, h.index, h.par, h.llt⟩ hc.1 hk
  · exact ⟨_, rfl⟩

/-! ### Overwriting -/

theorem overwrite_spec {m m' : MWal} {keep : Nat} {es : List Ent} {commit : Option Nat} {applied : Nat} (h : Inv m)
    (hs : overwrite m keep es commit applied = some m') :
    (keep < m.idx.base ∧ keep + es.length ≤ m.idx.base ∧ m' = m) ∨
    (¬ (keep < m.idx.base ∧ keep + es.length ≤ m.idx.base) ∧ ∃ m1, Inv m1 ∧ m1.idx.base = m.idx.base ∧
      m1.noCompact = m.noCompact ∧
      m1.log = m.log.take (max keep m.idx.base - m.idx.base) ++ es.drop (m.idx.base - keep) ∧
      maybeCompact m1 applied = some m') := by
  unfold overwrite at hs
  simp only [barrier_eq h] at hs
  split at hs
  next hc =>
    simp only [Option.some.injEq] at hs
    exact .inl ⟨hc.1, hc.2, hs.symm⟩
  next hc =>
  refine .inr ⟨hc, ?_⟩
  cases h1 : cutAfter m (max keep m.idx.base) commit with
  | none => rw [h1] at hs; exact nomatch hs
  | some m0 =>
    rw [h1, Option.bind_some] at hs
    obtain ⟨a1, a2, a3, a4, _⟩ := cutAfter_spec h (by omega) h1
    cases h2 : saveAll m0 (es.drop (m.idx.base - keep)) with
    | none => rw [h2] at hs; exact nomatch hs
    | some m1 =>
      rw [h2, Option.bind_some] at hs
      obtain ⟨b1, b2, b3, b4, _⟩ := saveAll_spec _ a2 h2
      exact ⟨m1, b2, by rw [b3, a3], by rw [b4, a4], by rw [b1, a1], hs⟩

theorem overwrite_some {m : MWal} {keep : Nat} {es : List Ent} {commit : Option Nat} {applied : Nat} {t : Int}
    (h : Inv m) (hl : Low m t) (hb : m.idx.base ≤ keep) (hk : keep ≤ m.idx.base + m.log.length)
    (hf : Follows (keep + 1) t es) (ha : applied ≤ keep + es.length)
    (hc : m.noCompact = true → ∀ c, commit = some c → c ≤ keep) :
    ∃ m', overwrite m keep es commit applied = some m' ∧ Low m' (highest t es) := by
  unfold overwrite
  simp only [barrier_eq h]
  rw [if_neg (by omega)]
  obtain ⟨m0, h0⟩ := cutAfter_some (commit := commit) h (K := max keep m.idx.base) (by omega)
    (fun h1 c h2 => by have := hc h1 c h2; omega)
  obtain ⟨a1, a2, a3, a4, _, a6⟩ := cutAfter_spec h (by omega) h0
  rw [h0, Option.bind_some, show m.idx.base - keep = 0 by omega, List.drop_zero]
  have hlen : m0.log.length = keep - m.idx.base := by
    rw [a1, List.length_take, Nat.max_eq_left hb]; omega
  have hlli : m0.lli = keep := by have := a2.lli; omega
  obtain ⟨m1, h1, l1⟩ := saveAll_some es a2 (a6 t hl) (by rw [hlli]; exact hf)
  obtain ⟨b1, b2, b3, _⟩ := saveAll_spec es a2 h1
  rw [h1, Option.bind_some]
  obtain ⟨m2, h2⟩ := maybeCompact_some (applied := applied) b2 (by
    rw [b1, b3, List.length_append]; omega)
  obtain ⟨d, _, _, _, _, _, _, g⟩ := maybeCompact_spec b2 h2
  exact ⟨m2, h2, g _ l1⟩

/-! ### Beside the plain log -/

theorem rel_drop {m m' : MWal} {p : Plain} {d : Nat} (h : Rel m p) (hd : d ≤ m.log.length)
    (hb : m'.idx.base = m.idx.base + d) (hl : m'.log = m.log.drop d) : Rel m' p := by
  have hlen := congrArg List.length h.cells
  simp only [List.length_map, List.length_drop] at hlen
  have h1 := h.start; have h2 := h.last
  unfold Plain.last at h2
  refine ⟨by omega, by unfold Plain.last; omega, ?_⟩
  rw [hl, List.map_drop, h.cells, List.drop_drop, hb]
  congr 1; omega

theorem step_spec {m m' : MWal} {p : Plain} {o : Op} (ho : o ≠ .reopen) (h : Inv m) (hr : Rel m p)
    (hs : step m o = some m') : Inv m' ∧ Rel m' (p.step m.idx.base o) := by
  have hlen := congrArg List.length hr.cells
  simp only [List.length_map, List.length_drop] at hlen
  have h1 := hr.start; have h2 := hr.last
  unfold Plain.last at h2
  cases o with
  | append e =>
    obtain ⟨a1, a2, a3, _⟩ := saveEntry_spec h hs
    refine ⟨a2, ⟨by rw [a3]; exact h1, ?_, ?_⟩⟩
    · simp only [Plain.step, Plain.last, List.length_append, List.length_singleton, a3]; omega
    · simp only [Plain.step, a1, a3, List.map_append, List.map_cons, List.map_nil, hr.cells]
      rw [List.drop_append_of_le_length (by omega)]
  | overwrite keep es commit applied =>
    simp only [step] at hs
    simp only [Plain.step, Plain.overwrite]
    rcases overwrite_spec h hs with ⟨c1, c2, e⟩ | ⟨c, m1, i1, b1, _, l1, hc⟩
    · rw [if_pos ⟨c2, c1⟩, e]; exact ⟨h, hr⟩
    · rw [if_neg (by omega)]
      obtain ⟨d, g1, g2, g3, g4, _⟩ := maybeCompact_spec i1 hc
      refine ⟨g3, rel_drop (m := m1) ⟨by rw [b1]; exact h1, ?_, ?_⟩ g1 g4 g2⟩
      · simp only [Plain.last, List.length_append, List.length_take, b1]; omega
      · rw [l1, b1, List.map_append, List.map_take, hr.cells]
        simp only
        rw [List.drop_append_of_le_length (by simp; omega), List.drop_take]
        congr 2; omega
  | compact keep =>
    rcases compact_spec h hs with e | ⟨d, g1, g2, g3, g4, g5, g6, _⟩
    · rw [e]; exact ⟨h, hr⟩
    · exact ⟨g5, rel_drop hr (by omega) g6 g4⟩
  | snapshot i t =>
    simp only [step, Option.some.injEq] at hs
    subst hs
    refine ⟨⟨⟨rfl, rfl, by simp [installedSnapshot, terms], by intro x hx; simp [installedSnapshot] at hx⟩,
      by simp [installedSnapshot], by intro i e he; simp [installedSnapshot] at he, Nat.le_refl _,
      by intro e he; simp [installedSnapshot] at he⟩,
      ⟨Nat.le_refl _, by simp [Plain.step, Plain.last, installedSnapshot], ?_⟩⟩
    simp [Plain.step, installedSnapshot]
  | reopen => exact absurd rfl ho

theorem inv_new (nc : Bool) : Inv (new nc) := ⟨RLE.sim_new, rfl, fun i e h => by simp [new] at h, Nat.le_refl _, fun e h => by simp [new] at h⟩

theorem rel_new (nc : Bool) : Rel (new nc) ⟨0, []⟩ := ⟨Nat.le_refl _, Nat.le_refl _, rfl⟩

theorem runBoth_spec (ops : List Op) : ∀ (m m' : MWal) (p p' : Plain),
    Op.reopen ∉ ops → Inv m → Rel m p → runBoth m p ops = some (m', p') → Inv m' ∧ Rel m' p' := by
  induction ops with
  | nil =>
    intro m m' p p' _ h hr hs
    simp only [runBoth, Option.some.injEq, Prod.mk.injEq] at hs
    obtain ⟨rfl, rfl⟩ := hs
    exact ⟨h, hr⟩
  | cons o os ih =>
    intro m m' p p' hn h hr hs
    simp only [runBoth] at hs
    cases h1 : step m o with
    | none => rw [h1] at hs; exact nomatch hs
    | some m1 =>
      rw [h1, Option.bind_some] at hs
      simp only [List.mem_cons, not_or] at hn
      obtain ⟨i, r⟩ := step_spec (fun e => hn.1 e.symm) h hr h1
      exact ih m1 m' _ p' hn.2 i r hs

/-! ### Histories that keep what was applied -/

theorem base_step {m m' : MWal} {o : Op} {fl : Nat} (ho : o ≠ .reopen) (h : Inv m) (hb : m.idx.base ≤ fl)
    (hs : step m o = some m') : m'.idx.base ≤ floorAfter fl o := by
  cases o with
  | append e =>
    obtain ⟨_, _, a3, _⟩ := saveEntry_spec h hs
    simp only [floorAfter]; omega
  | overwrite keep es commit applied =>
    simp only [floorAfter]
    rcases overwrite_spec h hs with ⟨_, _, e⟩ | ⟨_, m1, i1, b1, _, _, hc⟩
    · rw [e]; omega
    · obtain ⟨d, _, _, _, g4, g5, _⟩ := maybeCompact_spec i1 hc
      rcases Nat.eq_zero_or_pos d with hd | hd
      · omega
      · have := g5 hd; omega
  | compact keep =>
    simp only [floorAfter]
    rcases compact_spec h hs with e | ⟨d, _, _, g3, _, _, g6, _⟩
    · rw [e]; omega
    · omega
  | snapshot i t =>
    simp only [step, Option.some.injEq] at hs
    subst hs
    simp only [floorAfter, installedSnapshot]; omega
  | reopen => exact absurd rfl ho

theorem disk_base_step (k : WAL.Codec) (ok : k.OK) {w w' : WAL.Wal} {o : Op} {fl : Nat} (ho : o ≠ .reopen)
    (h : WAL.Mem k w) (hb : w.idx.base ≤ fl) (hs : WAL.step k w o = some w') : w'.idx.base ≤ floorAfter fl o := by
  cases o with
  | append e =>
    obtain ⟨r, a1, a2, a3, a4, a5, _⟩ := WAL.saveEntry_spec k w w' e h hs
    simp only [floorAfter]; omega
  | overwrite keep es commit applied =>
    simp only [floorAfter]
    rcases WAL.overwrite_spec k w w' keep es commit applied h hs with ⟨_, _, e⟩ | ⟨_, w1, m1, b1, _, _, hc⟩
    · rw [e]; omega
    · obtain ⟨d, _, _, _, e1, e2, _⟩ := WAL.maybeCompact_spec k ok w1 w' applied m1 hc
      rcases Nat.eq_zero_or_pos d with hd | hd
      · omega
      · have := e2 hd; omega
  | compact keep =>
    simp only [floorAfter]
    rcases WAL.compact_spec k ok w w' keep h hs with e | ⟨d, d1, d2, d3, _, _, e, _⟩
    · rw [e]; omega
    · omega
  | snapshot i t =>
    simp only [WAL.step, Option.some.injEq] at hs
    subst hs
    simp only [floorAfter, WAL.installedSnapshot]; omega
  | reopen => exact absurd rfl ho

/-- Above the base, what an overwrite does to the plain log does not depend on the base. -/
theorem plain_step (p : Plain) (base fl : Nat) (o : Op) (h1 : p.start ≤ base) (h2 : base ≤ fl)
    (hk : ∀ keep es c a, o = .overwrite keep es c a → fl ≤ keep) : p.step base o = p.step p.start o := by
  cases o with
  | overwrite keep es c a =>
    have := hk keep es c a rfl
    simp only [Plain.step, Plain.overwrite]
    rw [if_neg (by omega), if_neg (by omega), Nat.max_eq_left (by omega), Nat.max_eq_left (by omega),
      show base - keep = 0 by omega, show p.start - keep = 0 by omega]
  | _ => rfl

theorem run_spec (ops : List Op) : ∀ (m m' : MWal) (p : Plain) (fl : Nat), Op.reopen ∉ ops → KeepsApplied fl ops →
    Inv m → Rel m p → m.idx.base ≤ fl → run m ops = some m' → Inv m' ∧ Rel m' (described p ops) := by
  induction ops with
  | nil =>
    intro m m' p fl _ _ h hr _ hs
    simp only [run, Option.some.injEq] at hs
    subst hs
    exact ⟨h, hr⟩
  | cons o os ih =>
    intro m m' p fl hn hk h hr hb hs
    simp only [run] at hs
    cases h1 : step m o with
    | none => rw [h1] at hs; exact nomatch hs
    | some m1 =>
      rw [h1, Option.bind_some] at hs
      simp only [List.mem_cons, not_or] at hn
      obtain ⟨i, r⟩ := step_spec (fun e => hn.1 e.symm) h hr h1
      rw [plain_step p _ fl o hr.start hb hk.1] at r
      exact ih m1 m' _ _ hn.2 hk.2 i r (base_step (fun e => hn.1 e.symm) h hb h1) hs

theorem disk_run_spec (k : WAL.Codec) (ok : k.OK) (ops : List Op) : ∀ (w w' : WAL.Wal) (p : Plain) (fl : Nat),
    Op.reopen ∉ ops → KeepsApplied fl ops → WAL.Mem k w → WAL.Rel w p → w.idx.base ≤ fl →
    WAL.run k w ops = some w' → WAL.Mem k w' ∧ WAL.Rel w' (described p ops) := by
  induction ops with
  | nil =>
    intro m m' p fl _ _ h hr _ hs
    simp only [WAL.run, Option.some.injEq] at hs
    subst hs
    exact ⟨h, hr⟩
  | cons o os ih =>
    intro m m' p fl hn hk h hr hb hs
    simp only [WAL.run] at hs
    cases h1 : WAL.step k m o with
    | none => rw [h1] at hs; exact nomatch hs
    | some m1 =>
      rw [h1, Option.bind_some] at hs
      simp only [List.mem_cons, not_or] at hn
      obtain ⟨i, r⟩ := WAL.step_spec k ok m m1 p o (fun e => hn.1 e.symm) h hr h1
      rw [plain_step p _ fl o hr.start hb hk.1] at r
      exact ih m1 m' _ _ hn.2 hk.2 i r (disk_base_step k ok (fun e => hn.1 e.symm) h hb h1) hs

theorem base_run (ops : List Op) : ∀ (m m' : MWal) (fl : Nat), Op.reopen ∉ ops → Inv m → m.idx.base ≤ fl →
    run m ops = some m' → m'.idx.base ≤ ops.foldl floorAfter fl := by
  induction ops with
  | nil => intro m m' fl _ _ hb hs; simp only [run, Option.some.injEq] at hs; subst hs; exact hb
  | cons o os ih =>
    intro m m' fl hn h hb hs
    simp only [run] at hs
    cases h1 : step m o with
    | none => rw [h1] at hs; exact nomatch hs
    | some m1 =>
      rw [h1, Option.bind_some] at hs
      simp only [List.mem_cons, not_or] at hn
      have ho : o ≠ .reopen := fun e => hn.1 e.symm
      have hr : Rel m ⟨m.idx.base, m.log.map cell⟩ := ⟨Nat.le_refl _, Nat.le_add_right .., by simp⟩
      exact ih m1 m' _ hn.2 (step_spec ho h hr h1).1 (base_step ho h hb h1) hs

/-! ### Calls that fit return -/

theorem step_some {m : MWal} {p : Plain} {fl : Nat} {t : Int} {o : Op} (h : Inv m) (hr : Rel m p) (hl : Low m t)
    (hb : m.idx.base ≤ fl) (hk : ∀ keep es c a, o = .overwrite keep es c a → fl ≤ keep)
    (hf : Fits m.noCompact p t o) :
    ∃ m', step m o = some m' ∧ Low m' (termAfter t o) ∧ m'.noCompact = m.noCompact := by
  have hlen := congrArg List.length hr.cells
  simp only [List.length_map, List.length_drop] at hlen
  have h1 := hr.start; have h2 := hr.last
  have hlast : p.last = m.idx.base + m.log.length := by unfold Plain.last at *; omega
  cases o with
  | append e =>
    obtain ⟨f1, f2, _⟩ := hf
    obtain ⟨m', hs⟩ := saveEntry_some h hl (by have := h.lli; omega) f2
    obtain ⟨_, _, _, a4, _, a6⟩ := saveEntry_spec h hs
    refine ⟨m', hs, ?_, a4⟩
    show Low m' (max t e.term)
    rw [Int.max_eq_right f2]
    exact a6 t hl f2
  | overwrite keep es commit applied =>
    obtain ⟨f1, f2, f3, f4⟩ := hf
    have := hk keep es commit applied rfl
    obtain ⟨m', hs, l⟩ := overwrite_some h hl (by omega) (by omega) f2 f3 f4
    refine ⟨m', hs, l, ?_⟩
    rcases overwrite_spec h hs with ⟨_, _, e⟩ | ⟨_, m1, i1, _, n1, _, hc⟩
    · rw [e]
    · obtain ⟨_, _, _, _, _, _, g, _⟩ := maybeCompact_spec i1 hc
      rw [g, n1]
  | compact keep =>
    obtain ⟨f1, f2⟩ := hf
    obtain ⟨m', hs⟩ := compact_some (keep := keep) h f1 (by omega)
    refine ⟨m', hs, ?_⟩
    rcases compact_spec h hs with e | ⟨d, _, _, _, _, _, _, g7, _, g9⟩
    · rw [e]; exact ⟨hl, rfl⟩
    · exact ⟨g9 t hl, g7⟩
  | snapshot i st =>
    refine ⟨_, rfl, ⟨Int.le_max_right .., ?_⟩, rfl⟩
    intro x hx
    simp [installedSnapshot, terms] at hx
  | reopen => exact hf.elim

theorem run_some (ops : List Op) : ∀ (m : MWal) (p : Plain) (fl : Nat) (t : Int), KeepsApplied fl ops →
    AllFit m.noCompact p t ops → Inv m → Rel m p → Low m t → m.idx.base ≤ fl → ∃ m', run m ops = some m' := by
  induction ops with
  | nil => intro m _ _ _ _ _ _ _ _ _; exact ⟨m, rfl⟩
  | cons o os ih =>
    intro m p fl t hk hf h hr hl hb
    obtain ⟨m1, h1, l1, n1⟩ := step_some h hr hl hb hk.1 hf.1
    have ho : o ≠ .reopen := fun e => by have := hf.1; rw [e] at this; exact this
    obtain ⟨i, r⟩ := step_spec ho h hr h1
    rw [plain_step p _ fl o hr.start hb hk.1] at r
    obtain ⟨m', h'⟩ := ih m1 _ _ _ hk.2 (by rw [n1]; exact hf.2) i r l1 (base_step ho h hb h1)
    exact ⟨m', by simp only [run]; rw [h1, Option.bind_some, h']⟩

/-- What the log answers when it is consistent. -/
theorem reads {m : MWal} {p : Plain} (h : Inv m) (r : Rel m p) :
    (p.start ≤ m.idx.base ∧ m.idx.base ≤ p.last) ∧
    (∀ i, m.idx.base < i → i ≤ p.last → ∃ e, getEntry m i = some e ∧ e.index = i ∧
      p.at i = some (cell e) ∧ RLE.getTermForIndex m.idx i = some e.term) ∧
    (∀ i, i ≤ m.idx.base ∨ p.last < i → getEntry m i = none) ∧
    RLE.lastIndex m.idx = some p.last ∧ m.lli = p.last ∧
    (m.idx.base < p.last → ∃ e, getEntry m p.last = some e ∧ m.llt = e.term) ∧
    (∀ i, m.idx.base < i → ∃ es, getAllEntriesFrom m i = some (es, false) ∧
      es.map cell = p.cells.drop (i - 1 - p.start) ∧ es.map (·.index) = List.range' i (p.last + 1 - i)) ∧
    (∀ i, 0 < i → i ≤ m.idx.base → m.idx.base < p.last → getAllEntriesFrom m i = some ([], true)) := by
  have hc := congrArg List.length r.cells
  simp only [List.length_map, List.length_drop] at hc
  have h1 := r.start; have h2 := r.last
  have hidx := h.index
  have hlast : p.last = m.idx.base + m.log.length := by unfold Plain.last at *; omega
  have hfirst : ∀ f, m.log.head? = some f → f.index = m.idx.base + 1 := fun f hf => h.head hf
  refine ⟨⟨h1, h2⟩, ?_, ?_, ?_, ?_, ?_, ?_, ?_⟩
  · intro i hi hle
    have hlt : i - m.idx.base - 1 < m.log.length := by omega
    have hg := List.getElem?_eq_getElem hlt
    refine ⟨m.log[i - m.idx.base - 1], ?_, ?_, ?_, ?_⟩
    · unfold getEntry
      cases hf : m.log.head? with
      | none => simp at hf; simp [hf] at hlt
      | some f =>
        have := hfirst f hf
        simp only
        rw [if_neg (by omega), show i - f.index = i - m.idx.base - 1 by omega, hg]
    · have := hidx _ _ hg; omega
    · unfold Plain.at
      rw [if_pos (by omega)]
      have hm := congrArg (fun l => l[i - m.idx.base - 1]?) r.cells
      simp only [List.getElem?_map, hg, Option.map_some, List.getElem?_drop] at hm
      rw [hm]; congr 1; omega
    · rw [RLE.getTerm_held m.idx _ h.sim i (by simpa using hi) (by
        simp only [RLE.Spec.Plain.last, terms, List.length_map]; omega)]
      unfold RLE.Spec.Plain.termAt
      simp only [terms]
      rw [if_pos (by omega)]
      simp only [List.getElem?_map]
      rw [hg]; rfl
  · intro i hi
    unfold getEntry
    cases hf : m.log.head? with
    | none => rfl
    | some f =>
      have := hfirst f hf
      simp only
      split
      · rfl
      · rw [List.getElem?_eq_none (by omega)]
  · rw [RLE.lastIndex_sim m.idx _ h.sim, hlast]
    simp [RLE.Spec.Plain.last, terms]
  · rw [h.lli, hlast]
  · intro hb
    have hlt : m.log.length - 1 < m.log.length := by omega
    have hg := List.getElem?_eq_getElem hlt
    refine ⟨m.log[m.log.length - 1], ?_, h.llt _ (by rw [List.getLast?_eq_getElem?, hg])⟩
    unfold getEntry
    cases hf : m.log.head? with
    | none => simp at hf; simp [hf] at hlt
    | some f =>
      have := hfirst f hf
      simp only
      rw [if_neg (by omega), show p.last - f.index = m.log.length - 1 by omega, hg]
  · intro i hi
    have hdrop : (m.log.drop (i - m.idx.base - 1)).map cell = p.cells.drop (i - 1 - p.start) := by
      rw [List.map_drop, r.cells, List.drop_drop]; congr 1; omega
    have hind : (m.log.drop (i - m.idx.base - 1)).map (·.index) = List.range' i (p.last + 1 - i) := by
      apply List.ext_getElem?
      intro j
      simp only [List.getElem?_map, List.getElem?_drop]
      cases hj : m.log[i - m.idx.base - 1 + j]? with
      | none =>
        rw [List.getElem?_eq_none_iff] at hj
        rw [List.getElem?_eq_none (by simp; omega)]; rfl
      | some x =>
        have := hidx _ _ hj
        have hlt := (List.getElem?_eq_some_iff.mp hj).1
        rw [List.getElem?_range' (by omega)]
        simp only [Option.map_some]
        congr 1; omega
    unfold getAllEntriesFrom
    rw [if_neg (by omega)]
    cases hf : m.log.head? with
    | none =>
      have hn : m.log = [] := List.head?_eq_none_iff.mp hf
      refine ⟨[], rfl, ?_, ?_⟩
      · rw [← hdrop, hn]; simp
      · rw [← hind, hn]; simp
    | some f =>
      have := hfirst f hf
      simp only
      rw [if_neg (by omega), show i - f.index = i - m.idx.base - 1 by omega]
      exact ⟨_, rfl, hdrop, hind⟩
  · intro i h0 hi hb
    unfold getAllEntriesFrom
    rw [if_neg (by omega)]
    cases hf : m.log.head? with
    | none => simp at hf; simp [hf] at hlast; omega
    | some f =>
      have := hfirst f hf
      simp only
      rw [if_pos (by omega)]

/-! ### The log on disk, overwritten down to its base -/

theorem disk_overwrite_base (k : WAL.Codec) {w : WAL.Wal} (h : WAL.Mem k w) (hl : w.idx.base < w.lli)
    (ht : w.idx.compactTerm ≠ 0) (e : Ent) (es : List Ent) (c : Option Nat) (a : Nat) :
    WAL.overwrite k w w.idx.base (e :: es) c a = none := by
  unfold WAL.overwrite
  simp only [WAL.barrier_eq k w h, Nat.max_self, Nat.sub_self, List.drop_zero]
  rw [if_neg (by omega)]
  cases hc : WAL.cutAfter w w.idx.base (e :: es) c with
  | none => rfl
  | some w0 =>
    have : WAL.saveEntry k w0 e = none := by
      unfold WAL.cutAfter at hc
      cases hf : w.log.head? with
      | none =>
        have h1 : w.log = [] := by simpa using hf
        have := h.lli
        rw [h1] at this
        simp at this; omega
      | some first =>
        cases hg : w.log.getLast? with
        | none =>
          have h1 : w.log = [] := by simpa using hg
          rw [h1] at hf; exact nomatch hf
        | some last =>
          have h1 := WAL.mem_head k w h first hf
          have h2 := WAL.mem_last k w h last hg
          have h3 := h.lli
          rw [hf, hg] at hc
          simp only at hc
          rw [if_neg (by omega), if_pos (by omega), show first.ent.index - 1 = w.idx.base by omega] at hc
          unfold WAL.cutTail at hc
          cases hb : w.seek[0]? with
          | none => rw [hb] at hc; exact nomatch hc
          | some beg =>
            rw [hb] at hc
            simp only [Option.ite_none_left_eq_some] at hc
            obtain ⟨_, _, _, hc⟩ := hc
            unfold RLE.truncate at hc
            rw [if_pos (Nat.le_refl _), if_neg (Nat.lt_irrefl _)] at hc
            simp only [Option.some.injEq] at hc
            subst hc
            unfold WAL.saveEntry
            by_cases hi : w.idx.base + 1 = e.index
            · rw [if_neg (by simpa using hi), if_pos (by simpa [RLE.lastTerm] using ht)]
            · rw [if_pos (by simpa using hi)]
    simp only [WAL.saveAll, this, Option.bind_some, Option.bind_none]

theorem committed_kept {m : MWal} (h : Inv m) (hc : m.noCompact = true) {keep c : Nat} {es : List Ent} {a : Nat}
    (h1 : m.idx.base ≤ keep) (h2 : keep < m.lli) (h3 : keep < c) : overwrite m keep es (some c) a = none := by
  have hl := h.lli
  have hne : m.log ≠ [] := by intro e; rw [e] at hl; simp at hl; omega
  obtain ⟨f, hf⟩ : ∃ f, m.log.head? = some f := by cases e : m.log with | nil => exact absurd e hne | cons x _ => exact ⟨x, rfl⟩
  have hfi := h.head hf
  have hb : barrier m = m.idx.base := by unfold barrier; rw [hf]; dsimp only; omega
  have hlt : 0 < m.log.length := List.length_pos_iff.2 hne
  obtain ⟨l, hgl⟩ : ∃ l, m.log.getLast? = some l := ⟨_, List.getLast?_eq_some_getLast hne⟩
  have hli : l.index = m.lli := by
    rw [List.getLast?_eq_getElem?] at hgl
    have := h.index _ _ hgl
    omega
  have hcut : cutAfter m (max keep (barrier m)) (some c) = none := by
    unfold cutAfter
    rw [hf, hgl, hb, Nat.max_eq_left h1]
    dsimp only
    have key : ∀ i, m.idx.base + i = keep → ((m.log.drop i).any fun e => decide (e.index ≤ c)) = true := by
      intro i hi
      have hil : i < m.log.length := by omega
      have := h.index i _ (List.getElem?_eq_getElem hil)
      rw [List.any_eq_true]
      exact ⟨m.log[i], List.mem_of_getElem? (i := 0) (by rw [List.getElem?_drop]; simp), by simp; omega⟩
    rw [if_neg (by omega)]
    split
    · unfold cutTail
      rw [if_pos ⟨hc, by simpa using key 0 (by omega)⟩]
    · unfold cutTail
      rw [if_pos ⟨hc, key _ (by omega)⟩]
  unfold overwrite
  rw [if_neg (by rw [hb]; omega), hcut]
  rfl

end Verif.MemWAL
