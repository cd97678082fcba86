import Verif.Model.Apply
namespace Verif.Apply

theorem get_eq_some {s : St} {i : Nat} {e : Ent} :
    s.get i = some e ↔ s.base < i ∧ s.log[i - s.base - 1]? = some e := by
  unfold St.get
  split
  · constructor
    · intro h; cases h
    · intro h; omega
  · constructor
    · intro h; exact ⟨by omega, h⟩
    · intro h; exact h.2

theorem mkEnts_length (i : Nat) (es : List (Nat × Nat)) : (mkEnts i es).length = es.length := by
  induction es generalizing i with
  | nil => rfl
  | cons x es ih => simp [mkEnts, ih]

theorem mkEnts_get {i : Nat} {es : List (Nat × Nat)} {j : Nat} {e : Ent}
    (h : (mkEnts i es)[j]? = some e) : e.tktIndex = i + j ∧ e.committed = false := by
  induction es generalizing i j with
  | nil => simp [mkEnts] at h
  | cons x es ih =>
    cases j with
    | zero => simp [mkEnts] at h; subst h; exact ⟨rfl, rfl⟩
    | succ j =>
      simp only [mkEnts, List.getElem?_cons_succ] at h
      have := ih h
      exact ⟨by omega, this.2⟩

/-- What holds between operations, apart from the state file. -/
structure Core (s : St) : Prop where
  le1 : s.base ≤ s.lastApplied
  le2 : s.lastApplied ≤ s.commit
  le3 : s.commit ≤ s.len
  len : s.done.length = s.lastApplied
  idx : ∀ i x, s.done[i]? = some x → x.1 = i + 1
  ops : ∀ i e, s.get i = some e → i ≤ s.lastApplied → s.done[i - 1]? = some (i, e.op)
  flag : ∀ i e, s.get i = some e → e.committed = true → i ≤ s.lastApplied
  tkt : ∀ i e, s.get i = some e → e.tktIndex = i

/-- The state after the next entry `e` has been applied. -/
def marked (s : St) (e : Ent) : St :=
  { s with
    lastApplied := s.lastApplied + 1
    lastTerm := e.term
    log := s.log.set (s.lastApplied + 1 - s.base - 1) { e with committed := true }
    done := s.done ++ [(s.lastApplied + 1, e.op)] }

theorem Core.applyOne {s s' : St} (h : Core s) (hc : s.lastApplied < s.commit)
    (ha : applyOne s (s.lastApplied + 1) = some s') :
    Core s' ∧ s'.lastApplied = s.lastApplied + 1 ∧ s'.commit = s.commit ∧ s'.saved = s.saved ∧
      s'.base = s.base := by
  unfold Apply.applyOne at ha
  have hlen := h.le3
  have hb := h.le1
  rw [if_neg (by omega), if_neg (by omega)] at ha
  cases hg : s.get (s.lastApplied + 1) with
  | none => rw [hg] at ha; cases ha
  | some e =>
    rw [hg] at ha
    dsimp only at ha
    have hf : e.committed = false := by
      cases he : e.committed with
      | false => rfl
      | true => have := h.flag _ _ hg he; omega
    rw [hf] at ha
    simp only [Bool.false_eq_true, if_false] at ha
    split at ha; · cases ha
    split at ha; · cases ha
    have ha : marked s e = s' := Option.some.inj ha
    subst ha
    have hg' := get_eq_some.1 hg
    have hlt := (List.getElem?_eq_some_iff.1 hg'.2).1
    have key : ∀ i e', (marked s e).get i = some e' →
        (i = s.lastApplied + 1 ∧ e' = { e with committed := true }) ∨
        (i ≠ s.lastApplied + 1 ∧ s.get i = some e') := by
      intro i e' hi
      have := get_eq_some.1 hi
      obtain ⟨h1, h2⟩ := this
      dsimp only [marked] at h1 h2
      rw [List.getElem?_set] at h2
      by_cases hx : i = s.lastApplied + 1
      · left
        refine ⟨hx, ?_⟩
        rw [if_pos (by omega), if_pos (by omega)] at h2
        exact (Option.some.inj h2).symm
      · right
        rw [if_neg (by omega)] at h2
        exact ⟨hx, get_eq_some.2 ⟨h1, h2⟩⟩
    refine ⟨⟨by dsimp only [marked]; omega, by dsimp only [marked]; omega, ?_, by simp [marked, h.len], ?_, ?_, ?_, ?_⟩,
      rfl, rfl, rfl, rfl⟩
    · simp only [marked, St.len, List.length_set]; exact hlen
    · intro i x hx
      dsimp only [marked] at hx
      rw [List.getElem?_append] at hx
      split at hx
      · exact h.idx i x hx
      · have hl := h.len
        have hi : i - s.done.length = 0 := by
          cases hz : i - s.done.length with
          | zero => rfl
          | succ k => rw [hz] at hx; simp at hx
        rw [hi] at hx
        simp at hx
        subst hx
        simp; omega
    · intro i e' hi hle
      rcases key i e' hi with ⟨rfl, rfl⟩ | ⟨hne, hi'⟩
      · dsimp only [marked]
        rw [List.getElem?_append_right (by have := h.len; omega)]
        rw [h.len]; simp
      · dsimp only [marked] at hle ⊢
        have hp := (get_eq_some.1 hi').1
        rw [List.getElem?_append_left (by have := h.len; omega)]
        exact h.ops i e' hi' (by omega)
    · intro i e' hi hc'
      rcases key i e' hi with ⟨rfl, rfl⟩ | ⟨hne, hi'⟩
      · exact Nat.le_refl _
      · have := h.flag i e' hi' hc'
        dsimp only [marked]; omega
    · intro i e' hi
      rcases key i e' hi with ⟨rfl, rfl⟩ | ⟨hne, hi'⟩
      · exact (h.tkt _ e hg : e.tktIndex = _)
      · exact h.tkt i e' hi'

theorem Core.applyFrom : ∀ (k : Nat) {s s' : St}, Core s → s.lastApplied + k ≤ s.commit →
    applyFrom s (s.lastApplied + 1) k = some s' →
    Core s' ∧ s'.lastApplied = s.lastApplied + k ∧ s'.commit = s.commit ∧ s'.saved = s.saved ∧
      s'.base = s.base
  | 0, s, s', h, _, ha => by cases ha; exact ⟨h, rfl, rfl, rfl, rfl⟩
  | k + 1, s, s', h, hk, ha => by
    simp only [Apply.applyFrom, Option.bind_eq_some_iff] at ha
    obtain ⟨s1, h1, h2⟩ := ha
    obtain ⟨c1, c2, c3, c4, c5⟩ := h.applyOne (by omega) h1
    rw [← c2] at h2
    obtain ⟨d1, d2, d3, d4, d5⟩ := Core.applyFrom k c1 (by omega) h2
    exact ⟨d1, by omega, by omega, by rw [d4, c4], by omega⟩

/-- The state file agrees with memory about what has been applied. -/
structure Inv (s : St) : Prop where
  core : Core s
  sApplied : s.saved.lastApplied = s.lastApplied
  sDone : s.saved.done = s.done
  sTerm : s.lastApplied ≤ s.saved.commit
  sCommit : s.saved.commit ≤ s.commit

theorem Core.save {s : St} (h : Core s) : Core s.save :=
  ⟨h.le1, h.le2, h.le3, h.len, h.idx, h.ops, h.flag, h.tkt⟩

theorem Inv.apply {s s' : St} (h : Inv s) (ha : commitWhatWeCan s = some s') :
    Inv s' ∧ s'.lastApplied = s.commit ∧ s'.commit = s.commit := by
  unfold commitWhatWeCan at ha
  rw [Option.map_eq_some_iff] at ha
  obtain ⟨s1, h1, rfl⟩ := ha
  have hle := h.core.le2
  obtain ⟨c1, c2, c3, c4, c5⟩ := h.core.applyFrom _ (by omega) h1
  split
  · refine ⟨⟨c1.save, rfl, rfl, ?_, ?_⟩, ?_, ?_⟩ <;> simp only [St.save] <;> omega
  · rename_i hx
    have h0 : s.commit - s.lastApplied = 0 := by omega
    rw [h0] at h1
    cases h1
    exact ⟨h, by omega, rfl⟩

theorem Inv.step {s s' : St} {o : Op} (h : Inv s) (hs : step s o = some s') : Inv s' := by
  have hl := h.core.le1
  have hl2 := h.core.le2
  have hl3 := h.core.le3
  cases o with
  | append es =>
    cases hs
    have key : ∀ i e, St.get { s with log := s.log ++ mkEnts (s.len + 1) es } i = some e →
        s.get i = some e ∨ (s.len < i ∧ e.tktIndex = i ∧ e.committed = false) := by
      intro i e hi
      obtain ⟨h1, h2⟩ := get_eq_some.1 hi
      dsimp only at h1 h2
      rw [List.getElem?_append] at h2
      split at h2
      · exact Or.inl (get_eq_some.2 ⟨h1, h2⟩)
      · have := mkEnts_get h2
        have hlen : s.len = s.base + s.log.length := rfl
        exact Or.inr ⟨by omega, by omega, this.2⟩
    refine ⟨⟨hl, hl2, ?_, h.core.len, h.core.idx, ?_, ?_, ?_⟩, h.sApplied, h.sDone, h.sTerm, h.sCommit⟩
    · have : s.len = s.base + s.log.length := rfl
      simp only [St.len, List.length_append]; omega
    · intro i e hi hle
      rcases key i e hi with h1 | h1
      · exact h.core.ops i e h1 hle
      · dsimp only at hle; omega
    · intro i e hi hc
      rcases key i e hi with h1 | h1
      · exact h.core.flag i e h1 hc
      · rw [h1.2.2] at hc; cases hc
    · intro i e hi
      rcases key i e hi with h1 | h1
      · exact h.core.tkt i e h1
      · exact h1.2.1
  | overwrite keep es =>
    simp only [Apply.step] at hs
    split at hs
    · cases hs
    rename_i hg
    cases hs
    have hk : s.commit ≤ keep ∧ s.base ≤ keep ∧ keep ≤ s.len := by omega
    have hlen : s.len = s.base + s.log.length := rfl
    have hkl : (s.log.take (keep - s.base)).length = keep - s.base := by simp; omega
    have key : ∀ i e, St.get { s with log := s.log.take (keep - s.base) ++ mkEnts (keep + 1) es } i = some e →
        s.get i = some e ∨ (keep < i ∧ e.tktIndex = i ∧ e.committed = false) := by
      intro i e hi
      obtain ⟨h1, h2⟩ := get_eq_some.1 hi
      dsimp only at h1 h2
      rw [List.getElem?_append] at h2
      split at h2
      · rw [List.getElem?_take] at h2
        split at h2
        · exact Or.inl (get_eq_some.2 ⟨h1, h2⟩)
        · cases h2
      · have := mkEnts_get h2
        exact Or.inr ⟨by omega, by omega, this.2⟩
    refine ⟨⟨hl, hl2, ?_, h.core.len, h.core.idx, ?_, ?_, ?_⟩, h.sApplied, h.sDone, h.sTerm, h.sCommit⟩
    · simp only [St.len, List.length_append, hkl]; omega
    · intro i e hi hle
      rcases key i e hi with h1 | h1
      · exact h.core.ops i e h1 hle
      · dsimp only at hle; omega
    · intro i e hi hc
      rcases key i e hi with h1 | h1
      · exact h.core.flag i e h1 hc
      · rw [h1.2.2] at hc; cases hc
    · intro i e hi
      rcases key i e hi with h1 | h1
      · exact h.core.tkt i e h1
      · exact h1.2.1
  | setCommit c =>
    simp only [Apply.step] at hs
    split at hs
    · rename_i hc
      cases hs
      refine ⟨⟨hl, ?_, hc.2, h.core.len, h.core.idx, h.core.ops, h.core.flag, h.core.tkt⟩,
        h.sApplied, h.sDone, h.sTerm, ?_⟩
      · dsimp only; omega
      · have := h.sCommit; dsimp only; omega
    · cases hs
  | apply => exact (h.apply hs).1
  | compact b =>
    simp only [Apply.step] at hs
    split at hs
    · rename_i hb
      cases hs
      have hlen : s.len = s.base + s.log.length := rfl
      have key : ∀ i e, St.get { s with base := b, log := s.log.drop (b - s.base) } i = some e →
          s.get i = some e := by
        intro i e hi
        obtain ⟨h1, h2⟩ := get_eq_some.1 hi
        dsimp only at h1 h2
        rw [List.getElem?_drop] at h2
        refine get_eq_some.2 ⟨by omega, ?_⟩
        rw [← h2]; congr 1; omega
      refine ⟨⟨hb.2, hl2, ?_, h.core.len, h.core.idx, ?_, ?_, ?_⟩, h.sApplied, h.sDone, h.sTerm, h.sCommit⟩
      · simp only [St.len, List.length_drop]; omega
      · intro i e hi; exact h.core.ops i e (key i e hi)
      · intro i e hi; exact h.core.flag i e (key i e hi)
      · intro i e hi; exact h.core.tkt i e (key i e hi)
    · cases hs
  | crash =>
    cases hs
    have key : ∀ i e, St.get { s with
        log := s.log.map fun e => { e with committed := false },
        commit := s.saved.commit, lastApplied := s.saved.lastApplied,
        lastTerm := s.saved.lastTerm, done := s.saved.done } i = some e →
        ∃ e0, s.get i = some e0 ∧ e = { e0 with committed := false } := by
      intro i e hi
      obtain ⟨h1, h2⟩ := get_eq_some.1 hi
      dsimp only at h1 h2
      rw [List.getElem?_map, Option.map_eq_some_iff] at h2
      obtain ⟨e0, h3, h4⟩ := h2
      exact ⟨e0, get_eq_some.2 ⟨h1, h3⟩, h4.symm⟩
    have h1 := h.sApplied
    have h2 := h.sDone
    have h3 := h.sTerm
    have h4 := h.sCommit
    refine ⟨⟨by dsimp only; omega, by dsimp only; omega, ?_, by dsimp only; rw [h2, h1]; exact h.core.len, ?_, ?_, ?_, ?_⟩,
      rfl, rfl, by dsimp only; omega, Nat.le_refl _⟩
    · simp only [St.len, List.length_map]
      have : s.len = s.base + s.log.length := rfl
      omega
    · dsimp only; rw [h2]; exact h.core.idx
    · intro i e hi hle
      obtain ⟨e0, g1, rfl⟩ := key i e hi
      dsimp only at hle ⊢
      rw [h2]
      exact h.core.ops i e0 g1 (by omega)
    · intro i e hi hc
      obtain ⟨e0, g1, rfl⟩ := key i e hi
      cases hc
    · intro i e hi
      obtain ⟨e0, g1, rfl⟩ := key i e hi
      exact h.core.tkt i e0 g1

theorem inv_init : Inv {} :=
  ⟨⟨Nat.le_refl _, Nat.le_refl _, Nat.le_refl _, rfl, by simp, by simp [get_eq_some], by simp [get_eq_some],
    by simp [get_eq_some]⟩, rfl, rfl, Nat.le_refl _, Nat.le_refl _⟩

theorem inv_run : ∀ (os : List Op) {s s' : St}, Inv s → run s os = some s' → Inv s'
  | [], s, s', h, hr => by cases hr; exact h
  | o :: os, s, s', h, hr => by
    simp only [run, Option.bind_eq_some_iff] at hr
    obtain ⟨a, h1, h2⟩ := hr
    exact inv_run os (h.step h1) h2

/-- The entries not yet applied have terms that never go down, starting from the last one
applied. -/
def TermsUp (s : St) : Prop :=
  ∀ i j e f, s.lastApplied < i → i ≤ j → s.get i = some e → s.get j = some f →
    s.lastTerm ≤ e.term ∧ e.term ≤ f.term

theorem applyOne_some {s : St} (h : Core s) (hu : TermsUp s) (hc : s.lastApplied < s.commit) :
    ∃ s', applyOne s (s.lastApplied + 1) = some s' ∧ TermsUp s' := by
  have hlen := h.le3
  have hb := h.le1
  have hll : s.len = s.base + s.log.length := rfl
  have hlt : s.lastApplied + 1 - s.base - 1 < s.log.length := by omega
  have hg : s.get (s.lastApplied + 1) = some s.log[s.lastApplied + 1 - s.base - 1] :=
    get_eq_some.2 ⟨by omega, List.getElem?_eq_getElem hlt⟩
  have hf : (s.log[s.lastApplied + 1 - s.base - 1]).committed = false := by
    cases he : (s.log[s.lastApplied + 1 - s.base - 1]).committed with
    | false => rfl
    | true => have := h.flag _ _ hg he; omega
  generalize s.log[s.lastApplied + 1 - s.base - 1] = e at hg hf
  have ht := (hu _ _ _ _ (Nat.lt_succ_self _) (Nat.le_refl _) hg hg).1
  have htk := h.tkt _ _ hg
  refine ⟨marked s e, ?_, ?_⟩
  · unfold Apply.applyOne
    rw [if_neg (by omega), if_neg (by omega), hg]
    dsimp only
    rw [hf]
    simp only [Bool.false_eq_true, if_false]
    rw [if_neg (by omega), if_neg (by omega)]
    rfl
  · intro i j a b hi hij ha hb'
    have key : ∀ i e', s.lastApplied + 1 < i → (marked s e).get i = some e' → s.get i = some e' := by
      intro i e' hgt hi
      obtain ⟨h1, h2⟩ := get_eq_some.1 hi
      dsimp only [marked] at h1 h2
      rw [List.getElem?_set, if_neg (by omega)] at h2
      exact get_eq_some.2 ⟨h1, h2⟩
    dsimp only [marked] at hi ⊢
    have ga := key i a hi ha
    have gb := key j b (by omega) hb'
    exact ⟨(hu _ _ _ _ (Nat.lt_succ_self _) (by omega) hg ga).2, (hu i j a b (by omega) hij ga gb).2⟩

theorem applyFrom_some : ∀ (k : Nat) {s : St}, Core s → TermsUp s → s.lastApplied + k ≤ s.commit →
    ∃ s', applyFrom s (s.lastApplied + 1) k = some s'
  | 0, s, _, _, _ => ⟨s, rfl⟩
  | k + 1, s, h, hu, hk => by
    obtain ⟨s1, h1, hu1⟩ := applyOne_some h hu (by omega)
    obtain ⟨c1, c2, c3, _, _⟩ := h.applyOne (by omega) h1
    obtain ⟨s2, h2⟩ := applyFrom_some k c1 hu1 (by omega)
    refine ⟨s2, ?_⟩
    simp only [Apply.applyFrom, h1, Option.bind_some]
    rw [← c2]; exact h2

end Verif.Apply
