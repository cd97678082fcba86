import Verif.Spec.RLE
namespace Verif.RLE
open Spec

/-- The plain list of terms held by some runs. -/
def flat (rs : List Run) : List Int := (rs.map fun r => List.replicate r.2 r.1).flatten

@[simp] theorem flat_nil : flat [] = [] := rfl
@[simp] theorem flat_cons (t : Int) (c : Nat) (rs : List Run) :
    flat ((t, c) :: rs) = List.replicate c t ++ flat rs := by simp [flat]
theorem flat_append (a b : List Run) : flat (a ++ b) = flat a ++ flat b := by simp [flat]

def Pos (rs : List Run) : Prop := ∀ r ∈ rs, 0 < r.2

theorem Pos.cons {t : Int} {c : Nat} {rs : List Run} (h : Pos ((t, c) :: rs)) : 0 < c ∧ Pos rs :=
  ⟨h (t, c) (by simp), fun r hr => h r (by simp [hr])⟩

theorem Pos.mk {t : Int} {c : Nat} {rs : List Run} (hc : 0 < c) (h : Pos rs) : Pos ((t, c) :: rs) := by
  intro r hr
  simp only [List.mem_cons] at hr
  rcases hr with rfl | hr
  · exact hc
  · exact h r hr

theorem flat_eq_nil {rs : List Run} (h : Pos rs) : flat rs = [] ↔ rs = [] := by
  cases rs with
  | nil => simp
  | cons r rs =>
    obtain ⟨t, c⟩ := r
    have := h.cons.1
    simp; omega

theorem flat_getLast (rs : List Run) (h : Pos rs) :
    (flat rs).getLast? = rs.getLast?.map Prod.fst := by
  induction rs with
  | nil => simp
  | cons r rs ih =>
    obtain ⟨t, c⟩ := r
    have hc := h.cons.1
    have ih := ih h.cons.2
    rw [flat_cons, List.getLast?_append, ih, List.getLast?_cons]
    cases hr : rs.getLast? with
    | none => simp [List.getLast?_replicate]; omega
    | some x => simp

theorem addRun_spec (term : Int) (rs : List Run) (h : Pos rs) :
    ∀ r, addRun term rs = some r → flat r = flat rs ++ [term] ∧ Pos r := by
  induction rs with
  | nil =>
    intro r hr
    simp [addRun] at hr
    subst hr
    exact ⟨by simp, Pos.mk (by omega) (by intro x hx; simp at hx)⟩
  | cons x rs ih =>
    intro r hr
    obtain ⟨t, c⟩ := x
    have hc := h.cons.1
    cases rs with
    | nil =>
      simp only [addRun] at hr
      have e : Pos [] := by intro x hx; simp at hx
      split at hr
      · next ht =>
        simp at hr; subst hr; subst ht
        refine ⟨?_, Pos.mk (by omega) e⟩
        simp [List.replicate_succ']
      · split at hr
        · simp at hr
        · simp at hr; subst hr
          exact ⟨by simp, Pos.mk hc (Pos.mk (by omega) e)⟩
    | cons y rs =>
      simp only [addRun] at hr
      cases ha : addRun term (y :: rs) with
      | none => simp [ha] at hr
      | some r' =>
        simp [ha] at hr
        subst hr
        obtain ⟨h1, h2⟩ := ih h.cons.2 r' ha
        exact ⟨by rw [flat_cons, h1, flat_cons t c, List.append_assoc], Pos.mk hc h2⟩

/-- addRun succeeds when the term does not go below the last one. -/
theorem addRun_some (term : Int) (rs : List Run)
    (h : ∀ r, rs.getLast? = some r → r.1 ≤ term) : ∃ r, addRun term rs = some r := by
  induction rs with
  | nil => exact ⟨_, rfl⟩
  | cons x rs ih =>
    obtain ⟨t, c⟩ := x
    cases rs with
    | nil =>
      have := h (t, c) (by simp)
      simp only [addRun]
      split
      · exact ⟨_, rfl⟩
      · rw [if_neg (by simp at this; omega)]; exact ⟨_, rfl⟩
    | cons y rs =>
      obtain ⟨r, hr⟩ := ih (by intro r hr; apply h; simpa using hr)
      exact ⟨(t, c) :: r, by simp [addRun, hr]⟩

theorem cutRuns_spec (keep : Nat) (rs : List Run) (h : Pos rs) : ∀ base, base < keep →
    keep ≤ base + (flat rs).length →
    ∃ r t, cutRuns keep base rs = some (r, t) ∧ flat r = (flat rs).take (keep - base) ∧ Pos r ∧
      (flat r).getLast? = some t := by
  have e : Pos [] := by intro x hx; simp at hx
  induction rs with
  | nil => intro base h1 h2; simp at h2; omega
  | cons x rs ih =>
    intro base h1 h2
    obtain ⟨t, c⟩ := x
    have hc := h.cons.1
    simp only [cutRuns]
    rw [flat_cons, List.length_append, List.length_replicate] at h2
    by_cases e1 : keep = base + c
    · refine ⟨[(t, c)], t, by simp [e1], ?_, Pos.mk hc e, ?_⟩
      · simp [e1]
      · simp [List.getLast?_replicate]; omega
    · by_cases e2 : keep < base + c
      · have e3 : c - (base + c - keep) = keep - base := by omega
        refine ⟨[(t, c - (base + c - keep))], t, by simp [e1, e2], ?_, Pos.mk (by omega) e, ?_⟩
        · rw [flat_cons, flat_cons, e3, flat_nil, List.append_nil,
            List.take_append_of_le_length (by simp; omega), List.take_replicate]
          congr 1; omega
        · simp [List.getLast?_replicate]; omega
      · obtain ⟨r, t', h3, h4, h5, h6⟩ := ih h.cons.2 (base + c) (by omega) (by omega)
        refine ⟨(t, c) :: r, t', by simp [e1, e2, h3], ?_, Pos.mk hc h5, ?_⟩
        · rw [flat_cons, flat_cons, h4, List.take_append,
            List.take_of_length_le (by simp; omega : (List.replicate c t).length ≤ keep - base)]
          rw [List.length_replicate]
          congr 2; omega
        · rw [flat_cons, List.getLast?_append, h6]; simp

theorem lookup_spec (idx : Nat) (rs : List Run) : ∀ base, base < idx →
    idx ≤ base + (flat rs).length → lookup idx base rs = (flat rs)[idx - base - 1]? := by
  induction rs with
  | nil => intro base h1 h2; simp at h2; omega
  | cons x rs ih =>
    intro base h1 h2
    obtain ⟨t, c⟩ := x
    simp only [lookup]
    rw [flat_cons, List.length_append, List.length_replicate] at h2
    split
    · rw [flat_cons, List.getElem?_append_left (by simp; omega), List.getElem?_replicate]
      rw [if_pos (by omega)]
    · rw [ih (base + c) (by omega) (by omega), flat_cons,
        List.getElem?_append_right (by simp; omega), List.length_replicate]
      congr 1; omega

theorem dropRuns_spec (newBeg : Nat) (rs : List Run) (h : Pos rs) : ∀ base, base < newBeg →
    newBeg ≤ base + (flat rs).length →
    ∃ r, dropRuns newBeg base rs = some r ∧ flat r = (flat rs).drop (newBeg - 1 - base) ∧ Pos r := by
  induction rs with
  | nil => intro base h1 h2; simp at h2; omega
  | cons x rs ih =>
    intro base h1 h2
    obtain ⟨t, c⟩ := x
    have hc := h.cons.1
    simp only [dropRuns]
    rw [flat_cons, List.length_append, List.length_replicate] at h2
    by_cases e1 : newBeg = base + 1
    · exact ⟨_, by rw [if_pos e1], by simp [e1], h⟩
    · rw [if_neg e1]
      by_cases e2 : base < newBeg ∧ newBeg ≤ base + c
      · refine ⟨_, by rw [if_pos e2], ?_, Pos.mk (by omega) h.cons.2⟩
        rw [flat_cons, flat_cons, List.drop_append_of_le_length (by simp; omega), List.drop_replicate]
        congr 2; omega
      · rw [if_neg e2]
        obtain ⟨r, h3, h4, h5⟩ := ih h.cons.2 (base + c) (by omega) (by omega)
        refine ⟨r, h3, ?_, h5⟩
        rw [h4, flat_cons, List.drop_append,
          List.drop_of_length_le (by simp; omega : (List.replicate c t).length ≤ newBeg - 1 - base)]
        rw [List.length_replicate, List.nil_append]
        congr 1; omega

/-- The compressed index `s` stands for the plain log `p`, except possibly for the
term remembered for the discarded part. -/
structure Sim (s : T) (p : Plain) : Prop where
  base : s.base = p.dropped
  terms : flat s.runs = p.terms
  endi : s.endi = p.dropped + p.terms.length
  pos : Pos s.runs

theorem sim_add (s s' : T) (p : Plain) (t : Int) (h : Sim s p) (hs : addTerm s t = some s') :
    Sim s' (p.add t) ∧ s'.compactTerm = s.compactTerm := by
  unfold addTerm at hs
  simp only at hs
  split at hs
  · simp at hs
  · cases ha : addRun t s.runs with
    | none => simp [ha] at hs
    | some r =>
      simp [ha] at hs
      obtain ⟨h1, h2⟩ := addRun_spec t s.runs h.pos r ha
      subst hs
      refine ⟨⟨h.base, by simp [h1, h.terms, Plain.add], ?_, h2⟩, rfl⟩
      simp only [Plain.add, List.length_append, List.length_singleton]
      have := h.endi; have := h.base
      split <;> omega

theorem sim_truncate (s s' : T) (p : Plain) (k : Nat) (h : Sim s p) (hs : truncate s k = some s') :
    Sim s' (p.truncate k) := by
  unfold truncate at hs
  unfold Plain.truncate
  have hb := h.base; have he := h.endi
  have e : Pos [] := by intro x hx; simp at hx
  split at hs
  · next hk =>
    by_cases hk2 : k < s.base
    · rw [if_pos (by omega)]
      simp only [hk2, if_true, Option.some.injEq] at hs
      subst hs
      exact ⟨rfl, rfl, by simp, e⟩
    · rw [if_neg (by omega)]
      simp only [hk2, if_false, Option.some.injEq] at hs
      subst hs
      have hkp : k = p.dropped := by omega
      exact ⟨by simp [hkp], by simp [hkp], by simp [hkp], e⟩
  · next hk =>
    rw [if_neg (by omega)]
    split at hs
    · next hk2 =>
      simp only [Option.some.injEq] at hs
      subst hs
      have : List.take (k - p.dropped) p.terms = p.terms := List.take_of_length_le (by omega)
      rw [this]
      exact h
    · next hk2 =>
      obtain ⟨r, t, h1, h2, h3, _⟩ := cutRuns_spec k s.runs h.pos s.base (by omega)
        (by rw [h.terms]; omega)
      simp [h1] at hs
      subst hs
      refine ⟨h.base, ?_, ?_, h3⟩
      · simp [h2, h.terms, hb]
      · simp; omega

/-- Truncation never panics on a consistent index. -/
theorem truncate_some (s : T) (p : Plain) (k : Nat) (h : Sim s p) : ∃ s', truncate s k = some s' := by
  unfold truncate
  have hb := h.base; have he := h.endi
  split
  · exact ⟨_, rfl⟩
  · split
    · exact ⟨_, rfl⟩
    · obtain ⟨r, t, h1, _⟩ := cutRuns_spec k s.runs h.pos s.base (by omega) (by rw [h.terms]; omega)
      exact ⟨_, by rw [h1]; rfl⟩

theorem getTerm_held (s : T) (p : Plain) (h : Sim s p) (idx : Nat) (h1 : p.dropped < idx)
    (h2 : idx ≤ p.last) : getTermForIndex s idx = p.termAt idx := by
  have hb := h.base; have he := h.endi
  unfold Plain.last at h2
  unfold getTermForIndex Plain.termAt
  rw [if_neg (by omega), if_neg (by omega), if_pos h1,
    lookup_spec idx s.runs s.base (by omega) (by rw [h.terms]; omega), h.terms, hb]

theorem getLast_drop_one (l : List Int) (n : Nat) (h : n + 1 = l.length) :
    ∃ x, l.getLast? = some x ∧ l.drop n = [x] := by
  have hn : n < l.length := by omega
  refine ⟨l[n], ?_, ?_⟩
  · rw [List.getLast?_eq_getElem?, ← h]; simp
  · rw [List.drop_eq_getElem_cons hn, List.drop_of_length_le (by omega)]

theorem compact_some_iff (s : T) (p : Plain) (b : Nat) (h : Sim s p) :
    (∃ s', compactNewBeg s b = some s') ↔ (b = 0 ∨ (p.dropped < b ∧ b ≤ p.last)) := by
  have hb := h.base; have he := h.endi
  unfold Plain.last compactNewBeg
  by_cases h0 : b = 0
  · simp [h0]
  · simp only [h0, if_false, false_or]
    by_cases hr : p.dropped < b ∧ b ≤ p.dropped + p.terms.length
    · have hct : ∃ ct, (if b = 1 then some 0 else getTermForIndex s (b - 1)) = some ct := by
        by_cases h1 : b = 1
        · simp [h1]
        · rw [if_neg h1]
          by_cases h2 : b - 1 = p.dropped
          · exact ⟨s.compactTerm, by unfold getTermForIndex; rw [if_pos (by omega)]⟩
          · rw [getTerm_held s p h (b - 1) (by omega) (by unfold Plain.last; omega)]
            unfold Plain.termAt
            rw [if_pos (by omega)]
            exact ⟨_, List.getElem?_eq_getElem (by omega)⟩
      obtain ⟨ct, hct⟩ := hct
      rw [hct]
      have hne : flat s.runs ≠ [] := by
        rw [h.terms]; intro hh; rw [hh] at hr; simp at hr; omega
      have hne' : s.runs ≠ [] := fun hh => hne (by simp [hh])
      constructor
      · intro _; exact hr
      · intro _
        simp only
        rw [if_neg (by omega), if_neg (by omega)]
        by_cases e1 : b = s.endi
        · rw [if_pos e1]
          cases hl : s.runs.getLast? with
          | none => simp at hl; exact absurd hl hne'
          | some r => exact ⟨_, rfl⟩
        · rw [if_neg e1, if_neg (by omega)]
          match hruns : s.runs with
          | [] => exact absurd hruns hne'
          | [r] => exact ⟨_, rfl⟩
          | r1 :: r2 :: rs =>
            obtain ⟨r, h3, _⟩ := dropRuns_spec b s.runs h.pos s.base (by omega) (by rw [h.terms]; omega)
            rw [hruns] at h3
            exact ⟨_, by simp only [h3]; rfl⟩
    · constructor
      · rintro ⟨s', hs⟩
        exfalso
        split at hs
        · simp at hs
        · split at hs
          · simp at hs
          · split at hs
            · simp at hs
            · split at hs
              · apply hr; omega
              · split at hs
                · simp at hs
                · apply hr; omega
      · intro hh; exact absurd hh hr

theorem sim_compact (s s' : T) (p : Plain) (b : Nat) (h : Sim s p) (hs : compactNewBeg s b = some s') :
    Sim s' (p.compact b) ∧
      (s.compactTerm = p.droppedTerm → s'.compactTerm = (p.compact b).droppedTerm) := by
  have hb := h.base; have he := h.endi
  have hin := (compact_some_iff s p b h).1 ⟨s', hs⟩
  unfold Plain.last at hin
  unfold compactNewBeg at hs
  have e : Pos [] := by intro x hx; simp at hx
  by_cases h0 : b = 0
  · simp only [h0, if_true, Option.some.injEq] at hs
    subst hs
    simp only [Plain.compact, h0, if_true]
    exact ⟨⟨rfl, rfl, rfl, e⟩, fun _ => trivial⟩
  · simp only [h0, false_or] at hin
    simp only [h0, if_false] at hs
    generalize hct : (if b = 1 then some 0 else getTermForIndex s (b - 1)) = ct at hs
    have hctspec : s.compactTerm = p.droppedTerm → ct = some (p.compact b).droppedTerm := by
      intro hcc
      unfold Plain.compact
      simp only [h0, if_false]
      by_cases h1 : b = 1
      · simp [h1] at hct ⊢; exact hct.symm
      · simp only [h1, if_false] at hct ⊢
        by_cases h2 : b - 1 = p.dropped
        · rw [if_pos h2, ← hct, ← hcc]
          unfold getTermForIndex; rw [if_pos (by omega)]
        · rw [if_neg h2, ← hct, getTerm_held s p h (b - 1) (by omega) (by unfold Plain.last; omega)]
          unfold Plain.termAt
          rw [if_pos (by omega), List.getElem?_eq_getElem (by omega)]
          rfl
    cases ct with
    | none => simp at hs
    | some ct =>
      simp only at hs
      rw [if_neg (by omega), if_neg (by omega)] at hs
      have fin : ∀ rs, Pos rs → flat rs = (flat s.runs).drop (b - 1 - s.base) →
          s' = { s with base := b - 1, compactTerm := ct, runs := rs } →
          Sim s' (p.compact b) ∧
          (s.compactTerm = p.droppedTerm → s'.compactTerm = (p.compact b).droppedTerm) := by
        intro rs hp hf hs'
        subst hs'
        refine ⟨⟨?_, ?_, ?_, hp⟩, ?_⟩
        · simp [Plain.compact, h0]
        · simp [Plain.compact, h0, hf, h.terms, hb]
        · simp only [Plain.compact, h0, if_false, List.length_drop]; omega
        · intro hcc; have := hctspec hcc; simp at this; exact this
      split at hs
      · next e1 =>
        obtain ⟨x, hx1, hx2⟩ := getLast_drop_one (flat s.runs) (b - 1 - s.base) (by rw [h.terms]; omega)
        rw [flat_getLast s.runs h.pos] at hx1
        cases hl : s.runs.getLast? with
        | none => rw [hl] at hx1; simp at hx1
        | some r =>
          rw [hl] at hx1 hs
          simp only [Option.map_some, Option.some.injEq] at hx1 hs
          apply fin [(r.1, 1)] (Pos.mk (by omega) e) _ hs.symm
          rw [hx2, ← hx1]; simp
      · next e1 =>
        rw [if_neg (by omega)] at hs
        match hruns : s.runs with
        | [] => rw [hruns] at hs; simp at hs
        | [r] =>
          rw [hruns] at hs
          simp only [Option.some.injEq] at hs
          obtain ⟨t, c⟩ := r
          have hc : c = p.terms.length := by rw [← h.terms, hruns]; simp
          apply fin [(t, s.endi - b + 1)] (Pos.mk (by omega) e) _ hs.symm
          rw [hruns]; simp
          omega
        | r1 :: r2 :: rs =>
          obtain ⟨r, h3, h4, h5⟩ := dropRuns_spec b s.runs h.pos s.base (by omega)
            (by rw [h.terms]; omega)
          rw [hruns] at h3 hs
          simp only [h3, Option.map_some, Option.some.injEq] at hs
          exact fin r h5 h4 hs.symm

theorem sim_step (s s' : T) (p : Plain) (o : Op) (h : Sim s p) (hs : step s o = some s') :
    Sim s' (p.step o) := by
  cases o with
  | add t => exact (sim_add s s' p t h hs).1
  | truncate k => exact sim_truncate s s' p k h hs
  | compact b => exact (sim_compact s s' p b h hs).1

theorem sim_run (ops : List Op) : ∀ (s s' : T) (p : Plain), Sim s p → run s ops = some s' →
    Sim s' (p.run ops) := by
  induction ops with
  | nil => intro s s' p h hs; simp [run] at hs; subst hs; exact h
  | cons o os ih =>
    intro s s' p h hs
    simp only [run] at hs
    cases h1 : step s o with
    | none => simp [h1] at hs
    | some s1 =>
      simp [h1] at hs
      exact ih s1 s' _ (sim_step s s1 p o h h1) hs

theorem sim_new : Sim new ⟨0, 0, []⟩ :=
  ⟨rfl, rfl, rfl, by intro x hx; simp [new] at hx⟩

theorem lastIndex_sim (s : T) (p : Plain) (h : Sim s p) : lastIndex s = some p.last := by
  have hb := h.base; have he := h.endi
  unfold lastIndex Plain.last
  split
  · next hr =>
    have : p.terms = [] := by rw [← h.terms, hr]; rfl
    rw [this] at he ⊢
    rw [if_neg (by simp at he; omega)]
    simp [hb]
  · rw [he]

theorem lastTerm_sim (s : T) (p : Plain) (h : Sim s p)
    (hc : p.terms ≠ [] ∨ s.compactTerm = p.droppedTerm) : lastTerm s = p.lastTerm := by
  unfold lastTerm Plain.lastTerm
  rw [← h.terms, flat_getLast s.runs h.pos]
  cases hl : s.runs.getLast? with
  | some r => simp
  | none =>
    rcases hc with hc | hc
    · simp at hl; rw [← h.terms, hl] at hc; simp at hc
    · simpa using hc

/-! ### Extends -/

/-- Number the elements of a list from `i` on. -/
def label (i : Nat) : List Int → List (Int × Nat)
  | [] => []
  | t :: ts => (t, i) :: label (i + 1) ts

theorem label_append (a b : List Int) : ∀ i, label i (a ++ b) = label i a ++ label (i + a.length) b := by
  induction a with
  | nil => simp [label]
  | cons x xs ih => intro i; simp [label, ih]; congr 1; omega

theorem expand_label (t : Int) (n : Nat) : ∀ i, expand t i n = label i (List.replicate n t) := by
  induction n with
  | zero => intro i; rfl
  | succ n ih => intro i; simp [expand, List.replicate_succ, label, ih]

theorem expandAll_label (rs : List Run) : ∀ i, expandAll i rs = label i (flat rs) := by
  induction rs with
  | nil => intro i; rfl
  | cons x rs ih =>
    intro i
    obtain ⟨t, c⟩ := x
    simp [expandAll, ih, expand_label, label_append]

theorem yieldFrom_label (rs : List Run) (idx n : Nat) : ∀ base, base < idx →
    yieldFrom idx n base rs = label n ((flat rs).drop (idx - base - 1)) := by
  induction rs with
  | nil => intro base _; simp [yieldFrom, label]
  | cons x rs ih =>
    intro base h
    obtain ⟨t, c⟩ := x
    simp only [yieldFrom]
    split
    · rw [ih (base + c) (by omega), flat_cons, List.drop_append,
        List.drop_of_length_le (by simp; omega : (List.replicate c t).length ≤ idx - base - 1),
        List.length_replicate, List.nil_append]
      congr 2; omega
    · rw [flat_cons, List.drop_append_of_le_length (by simp; omega), List.drop_replicate,
        label_append, expand_label, expandAll_label, List.length_replicate,
        show base + c - idx + 1 = c - (idx - base - 1) by omega]

theorem termsFrom_label (s : T) (p : Plain) (h : Sim s p) (idx : Nat) (h1 : p.dropped < idx)
    (h2 : idx ≤ p.last) : termsFrom s idx = some (label idx (p.terms.drop (idx - p.dropped - 1))) := by
  have hb := h.base; have he := h.endi
  unfold Plain.last at h2
  unfold termsFrom
  rw [if_neg (by omega), if_neg (by omega), yieldFrom_label _ _ _ _ (by omega), h.terms, hb]

theorem prefix_cons_iff (a : Int) (as : List Int) (b : Int) (bs : List Int) :
    (a :: as) <+: (b :: bs) ↔ a = b ∧ as <+: bs := by
  rw [List.cons_prefix_cons]

theorem walk_spec (Fs : List Int) : ∀ (tL : Int) (Ls : List Int) (b : Nat), 0 < b →
    (walk (b + Ls.length) (b + Fs.length - 1) (label b Fs) tL b (label (b + 1) Ls)).2 + 1 =
        b + commonPrefix (tL :: Ls) Fs ∧
    ((walk (b + Ls.length) (b + Fs.length - 1) (label b Fs) tL b (label (b + 1) Ls)).1 = true ↔
        Fs <+: tL :: Ls) := by
  induction Fs with
  | nil =>
    intro tL Ls b hb
    simp [walk, label, commonPrefix]
    omega
  | cons tF Fs ih =>
    intro tL Ls b hb
    simp only [label, walk]
    by_cases ht : tF = tL
    · subst ht
      rw [if_neg (by simp)]
      cases Ls with
      | nil =>
        simp only [label]
        refine ⟨?_, ?_⟩
        · simp [commonPrefix]
        · rw [prefix_cons_iff]; simp
          constructor
          · intro h; exact List.length_eq_zero_iff.1 (by omega)
          · rintro rfl; simp
      | cons t' Ls =>
        simp only [label]
        have := ih t' Ls (b + 1) (by omega)
        simp only [List.length_cons] at this ⊢
        rw [show b + (Ls.length + 1) = b + 1 + Ls.length by omega,
          show b + (Fs.length + 1) - 1 = b + 1 + Fs.length - 1 by omega]
        refine ⟨?_, ?_⟩
        · rw [this.1]
          simp only [commonPrefix, if_true]
          omega
        · rw [this.2, prefix_cons_iff]; simp
    · rw [if_pos (by simpa using ht)]
      refine ⟨?_, ?_⟩
      · simp only [commonPrefix]
        rw [if_neg (fun h => ht h.symm)]
        omega
      · rw [prefix_cons_iff]; simp [ht]

theorem overlap_spec (l f : T) (pl pf : Plain) (hl : Sim l pl) (hf : Sim f pf)
    (h1 : max pf.dropped pl.dropped < pl.last) (h2 : max pf.dropped pl.dropped < pf.last) :
    ∃ b, overlap l f = some (b, max pf.dropped pl.dropped +
        commonPrefix (pl.terms.drop (max pf.dropped pl.dropped - pl.dropped))
          (pf.terms.drop (max pf.dropped pl.dropped - pf.dropped))) ∧
      (b = true ↔ pf.terms.drop (max pf.dropped pl.dropped - pf.dropped) <+:
        pl.terms.drop (max pf.dropped pl.dropped - pl.dropped)) := by
  unfold overlap
  rw [hl.base, hf.base]
  generalize hd : max pf.dropped pl.dropped = d at *
  have t1 := termsFrom_label l pl hl (d + 1) (by omega) (by omega)
  have t2 := termsFrom_label f pf hf (d + 1) (by omega) (by omega)
  rw [show d + 1 - pl.dropped - 1 = d - pl.dropped by omega] at t1
  rw [show d + 1 - pf.dropped - 1 = d - pf.dropped by omega] at t2
  rw [t1]
  have hel := hl.endi; have hef := hf.endi
  unfold Plain.last at h1 h2
  cases hL : pl.terms.drop (d - pl.dropped) with
  | nil =>
    have := congrArg List.length hL
    simp at this; omega
  | cons tL Ls =>
    simp only [label, t2]
    generalize hF : pf.terms.drop (d - pf.dropped) = Fs
    have l1 : l.endi = d + 1 + Ls.length := by
      have := congrArg List.length hL
      simp at this; omega
    have l2 : f.endi = d + 1 + Fs.length - 1 := by
      have := congrArg List.length hF
      simp at this; omega
    rw [l1, l2]
    obtain ⟨w1, w2⟩ := walk_spec Fs tL Ls (d + 1) (by omega)
    refine ⟨_, ?_, w2⟩
    rw [Option.some.injEq]
    apply Prod.ext
    · rfl
    · simp only; omega

theorem commonPrefix_append (a : List Int) : ∀ b c, commonPrefix (a ++ b) (a ++ c) = a.length + commonPrefix b c := by
  induction a with
  | nil => simp
  | cons x xs ih => intro b c; simp [commonPrefix, ih]; omega

theorem commonPrefix_le (L : List Int) : ∀ F, commonPrefix L F ≤ L.length ∧ commonPrefix L F ≤ F.length := by
  induction L with
  | nil => intro F; simp [commonPrefix]
  | cons x xs ih =>
    intro F
    cases F with
    | nil => simp [commonPrefix]
    | cons y ys => simp only [commonPrefix]; split <;> (have := ih ys; simp; try omega)

theorem commonPrefix_nil_left (F : List Int) : commonPrefix [] F = 0 := by cases F <;> rfl
theorem commonPrefix_nil_right (L : List Int) : commonPrefix L [] = 0 := by cases L <;> rfl

/-- Splitting off an agreed front part. -/
theorem commonPrefix_drop (L F : List Int) (d : Nat) (h : L.take d = F.take d) (_h1 : d ≤ L.length)
    (h2 : d ≤ F.length) :
    commonPrefix L F = d + commonPrefix (L.drop d) (F.drop d) ∧
    (F <+: L ↔ F.drop d <+: L.drop d) := by
  refine ⟨?_, ?_⟩
  · conv => lhs; rw [← List.take_append_drop d L, ← List.take_append_drop d F, h]
    rw [commonPrefix_append, List.length_take]
    omega
  · constructor
    · rintro ⟨r, hr⟩
      refine ⟨r, ?_⟩
      rw [← hr, List.drop_append_of_le_length h2]
    · rintro ⟨r, hr⟩
      refine ⟨r, ?_⟩
      conv => lhs; rw [← List.take_append_drop d F, ← h, List.append_assoc, hr]
      rw [List.take_append_drop]

theorem commonPrefix_of_prefix (F L : List Int) (h : F <+: L) : commonPrefix L F = F.length := by
  obtain ⟨r, rfl⟩ := h
  have := commonPrefix_append F r []
  simp only [List.append_nil] at this
  rw [this, commonPrefix_nil_right]; omega

theorem commonPrefix_take (L : List Int) : ∀ F,
    L.take (commonPrefix L F) = F.take (commonPrefix L F) := by
  induction L with
  | nil => intro F; rw [commonPrefix_nil_left]; simp
  | cons x xs ih =>
    intro F
    cases F with
    | nil => simp [commonPrefix]
    | cons y ys =>
      simp only [commonPrefix]
      by_cases h : x = y
      · rw [if_pos h, List.take_succ_cons, List.take_succ_cons, ih, h]
      · rw [if_neg h]; rfl

theorem commonPrefix_comm (L : List Int) : ∀ F, commonPrefix L F = commonPrefix F L := by
  induction L with
  | nil => intro F; rw [commonPrefix_nil_left, commonPrefix_nil_right]
  | cons x xs ih =>
    intro F
    cases F with
    | nil => rfl
    | cons y ys =>
      simp only [commonPrefix]
      by_cases h : x = y
      · rw [if_pos h, if_pos h.symm, ih]
      · rw [if_neg h, if_neg (fun hh => h hh.symm)]

end Verif.RLE
