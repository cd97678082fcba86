import Verif.Model.SvcLimit

/-! C145: the limits of services. -/

namespace Verif.SvcLimit

theorem search_none (name : String) (ns : List String) (ms : List Int) (h : name ∉ ns) :
    search name ns ms = 0 := by
  induction ns generalizing ms with
  | nil => rfl
  | cons n ns ih =>
    cases ms with
    | nil => rfl
    | cons m ms =>
      simp only [List.mem_cons, not_or] at h
      simp [search, Ne.symm h.1, ih ms h.2]

theorem search_append (name other : String) (lim : Int) (ns : List String) (ms : List Int)
    (hl : ns.length = ms.length) :
    search name (ns ++ [other]) (ms ++ [lim]) =
      if name ∈ ns then search name ns ms else if other = name then lim else 0 := by
  induction ns generalizing ms with
  | nil =>
    cases ms with
    | nil => simp [search]
    | cons m ms => simp at hl
  | cons n ns ih =>
    cases ms with
    | nil => simp at hl
    | cons m ms =>
      simp only [List.cons_append, search, List.length_cons, Nat.add_right_cancel_iff] at hl ⊢
      rw [ih ms hl]
      by_cases h : n = name
      · simp [h]
      · by_cases h' : name ∈ ns <;> simp [h, h', Ne.symm h]

theorem replace_spec (name : String) (lim : Int) (i : Nat) (ns : List String) (ms : List Int)
    (hl : ns.length = ms.length) :
    (name ∉ ns ∧ replace name lim i ns ms = none) ∨
    (name ∈ ns ∧ ∃ ms' j, replace name lim i ns ms = some (ms', j) ∧ ms'.length = ms.length ∧
      i ≤ j ∧ ns[j - i]? = some name ∧ ms'[j - i]? = some lim ∧
      ∀ k, search k ns ms' = if k = name then lim else search k ns ms) := by
  induction ns generalizing i ms with
  | nil => exact Or.inl ⟨by simp, by cases ms <;> rfl⟩
  | cons n ns ih =>
    cases ms with
    | nil => simp at hl
    | cons m ms =>
      simp only [List.length_cons, Nat.add_right_cancel_iff] at hl
      by_cases h : n = name
      · subst h
        refine Or.inr ⟨List.mem_cons_self, lim :: ms, i, by simp [replace], by simp, Nat.le_refl _, by simp,
          by simp, ?_⟩
        intro k
        by_cases hk : n = k
        · simp [search, hk]
        · simp [search, hk, Ne.symm hk]
      · rcases ih (i + 1) ms hl with ⟨h1, h2⟩ | ⟨h1, ms', j, h2, h3, h4, h5, h6, h7⟩
        · exact Or.inl ⟨by simp [h1, Ne.symm h], by simp [replace, h, h2]⟩
        · refine Or.inr ⟨List.mem_cons_of_mem _ h1, m :: ms', j, by simp [replace, h, h2], by simp [h3], by omega,
            ?_, ?_, ?_⟩
          · rw [show j - i = (j - (i + 1)) + 1 by omega]; simpa using h5
          · rw [show j - i = (j - (i + 1)) + 1 by omega]; simpa using h6
          · intro k
            by_cases hk : n = k
            · subst hk; simp [search, h]
            · simp only [search, hk, if_false, h7]

theorem get_eq (c : Limits) (name : String) (hl : c.names.length = c.maxs.length) :
    getLimitMax c name = some (search name c.names c.maxs) := by
  unfold getLimitMax
  rw [if_neg (by simp [hl])]
  split
  · rename_i h
    rw [List.length_eq_zero_iff.1 h]
    rfl
  · rfl

/-- An update is in force at once, leaves the limits of other services, and returns the index of the
service; there is none where the configuration's lists differ in length. -/
theorem C145_update (c : Limits) (name : String) (lim : Int) :
    (c.names.length ≠ c.maxs.length → updateLimitMax c name lim = none ∧ ∀ k, getLimitMax c k = none) ∧
    (c.names.length = c.maxs.length → ∃ c' i, updateLimitMax c name lim = some (c', i) ∧
      c'.names.length = c'.maxs.length ∧ c'.names[i]? = some name ∧ c'.maxs[i]? = some lim ∧
      getLimitMax c' name = some lim ∧
      ∀ k, k ≠ name → getLimitMax c' k = getLimitMax c k) := by
  constructor
  · intro h
    exact ⟨by simp [updateLimitMax, h], fun k => by simp [getLimitMax, h]⟩
  · intro hl
    rcases replace_spec name lim 0 c.names c.maxs hl with ⟨h1, h2⟩ | ⟨_, ms', j, h2, h3, _, h5, h6, h7⟩
    · refine ⟨⟨c.names ++ [name], c.maxs ++ [lim]⟩, (c.names ++ [name]).length - 1,
        by simp [updateLimitMax, hl, h2], by simp [hl], by simp, by simp [hl], ?_, ?_⟩
      · rw [get_eq _ _ (by simp [hl])]
        simp only [search_append _ _ _ _ _ hl, h1, if_false, if_true]
      · intro k hk
        rw [get_eq _ _ (by simp [hl]), get_eq _ _ hl]
        simp only [search_append _ _ _ _ _ hl, Ne.symm hk, if_false]
        by_cases hm : k ∈ c.names
        · simp [hm]
        · simp [hm, search_none k _ _ hm]
    · refine ⟨{ c with maxs := ms' }, j, by simp [updateLimitMax, hl, h2], by simp [h3, hl], by simpa using h5,
        by simpa using h6, ?_, ?_⟩
      · rw [get_eq _ _ (by simp [h3, hl])]
        simp [h7]
      · intro k hk
        rw [get_eq _ _ (by simp [h3, hl]), get_eq _ _ hl]
        simp [h7, hk]

/-- After any updates the limit in force for a service is the one last given, or the one there was; a
service never listed has none. -/
theorem C145_last (c : Limits) (hl : c.names.length = c.maxs.length) (us : List (String × Int)) :
    ∃ c', updates c us = some c' ∧ ∀ k, getLimitMax c' k =
      match us.reverse.find? (fun u => u.1 = k) with
      | some u => some u.2
      | none => getLimitMax c k := by
  induction us generalizing c with
  | nil => exact ⟨c, rfl, fun k => rfl⟩
  | cons u us ih =>
    obtain ⟨n, l⟩ := u
    obtain ⟨c1, i, e1, e2, _, _, e3, e4⟩ := (C145_update c n l).2 hl
    obtain ⟨c', f1, f2⟩ := ih c1 e2
    refine ⟨c', by simp [updates, e1, f1], ?_⟩
    intro k
    rw [f2, List.reverse_cons, List.find?_append]
    cases us.reverse.find? (fun u => u.1 = k) with
    | some u => simp
    | none =>
      by_cases hk : n = k
      · subst hk; simp [e3]
      · simp [hk, e4 k (Ne.symm hk)]

theorem C145_unlisted (c : Limits) (hl : c.names.length = c.maxs.length) (k : String) (hk : k ∉ c.names) :
    getLimitMax c k = some 0 := by
  rw [get_eq c k hl, search_none k _ _ hk]

/-- A process of the tube command that gets through the check has a limit of one replica, and those
of other services as configured; it does not get through only if the lists differ in length or
another limit was configured. -/
theorem C145_replica (c : Limits) :
    (∀ c', start c = some c' → getLimitMax c' replica = some 1 ∧
      ∀ k, k ≠ replica → getLimitMax c' k = getLimitMax c k) ∧
    (start c = none ↔ getLimitMax c replica = none ∨
      ∃ l, getLimitMax c replica = some l ∧ l ≠ 0 ∧ l ≠ 1) := by
  by_cases hl : c.names.length = c.maxs.length
  · have hg := get_eq c replica hl
    generalize hs : search replica c.names c.maxs = s at hg
    by_cases h0 : s = 0
    · subst h0
      have hp : prepare c = some ⟨c.names ++ [replica], c.maxs ++ [1]⟩ := by simp [prepare, hg]
      have hl' : (c.names ++ [replica]).length = (c.maxs ++ [1]).length := by simp [hl]
      have hg' : ∀ k, getLimitMax ⟨c.names ++ [replica], c.maxs ++ [1]⟩ k =
          some (if k ∈ c.names then search k c.names c.maxs else if replica = k then 1 else 0) := by
        intro k
        rw [get_eq _ _ hl']
        simp only [search_append _ _ _ _ _ hl]
      have hother : ∀ k, k ≠ replica → getLimitMax ⟨c.names ++ [replica], c.maxs ++ [1]⟩ k = getLimitMax c k := by
        intro k hk
        rw [hg', get_eq _ _ hl]
        by_cases hm : k ∈ c.names
        · simp [hm]
        · simp [hm, Ne.symm hk, search_none k _ _ hm]
      have hst : start c = check ⟨c.names ++ [replica], c.maxs ++ [1]⟩ := by simp [start, hp]
      rw [hst]
      by_cases hm : replica ∈ c.names
      · have hz := hg' replica
        rw [if_pos hm, hs] at hz
        obtain ⟨c1, i, e1, _, _, _, e3, e4⟩ := (C145_update ⟨c.names ++ [replica], c.maxs ++ [1]⟩ replica 1).2 hl'
        have hc : check ⟨c.names ++ [replica], c.maxs ++ [1]⟩ = some c1 := by simp [check, hz, e1]
        rw [hc]
        refine ⟨?_, by simp [hg]⟩
        intro c' hc'
        cases hc'
        exact ⟨e3, fun k hk => by rw [e4 k hk, hother k hk]⟩
      · have hz := hg' replica
        rw [if_neg hm, if_pos rfl] at hz
        have hc : check ⟨c.names ++ [replica], c.maxs ++ [1]⟩ = some ⟨c.names ++ [replica], c.maxs ++ [1]⟩ := by
          simp [check, hz]
        rw [hc]
        refine ⟨?_, by simp [hg]⟩
        intro c' hc'
        cases hc'
        exact ⟨hz, hother⟩
    · have hp : start c = check c := by simp [start, prepare, hg, h0]
      rw [hp]
      by_cases h1 : s = 1
      · subst h1
        have hc : check c = some c := by simp [check, hg]
        rw [hc]
        refine ⟨?_, by simp [hg]⟩
        intro c' hc'
        cases hc'
        exact ⟨hg, fun _ _ => rfl⟩
      · have hc : check c = none := by simp [check, hg, h0, h1]
        rw [hc]
        exact ⟨fun _ h => by (cases h), by simp [hg, h0, h1]⟩
  · have hg := ((C145_update c replica 1).1 hl).2 replica
    have hc : start c = none := by simp [start, prepare, hg]
    rw [hc]
    exact ⟨fun _ h => by (cases h), by simp [hg]⟩

/-- The preparation alone does not set the limit where the service is listed with none: it appends
a second entry, which nobody reads. -/
theorem C145_prepare_counterexample (c : Limits) (hl : c.names.length = c.maxs.length)
    (hm : replica ∈ c.names) (h0 : getLimitMax c replica = some 0) :
    ∃ c', prepare c = some c' ∧ getLimitMax c' replica = some 0 := by
  refine ⟨⟨c.names ++ [replica], c.maxs ++ [1]⟩, by simp [prepare, h0], ?_⟩
  rw [get_eq _ _ (by simp [hl])]
  simp only [search_append _ _ _ _ _ hl, if_pos hm]
  rw [← get_eq c replica hl, h0]

example : updateLimitMax ⟨["a", "b"], [1, 2]⟩ "b" 7 = some (⟨["a", "b"], [1, 7]⟩, 1) ∧
    updateLimitMax ⟨["a", "b"], [1, 2]⟩ "c" 7 = some (⟨["a", "b", "c"], [1, 2, 7]⟩, 2) := by decide

/-- A configuration that lists the service without a limit starts with 1. -/
example : start ⟨["x", "tube-replica"], [3, 0]⟩ = some ⟨["x", "tube-replica", "tube-replica"], [3, 1, 1]⟩ ∧
    start ⟨["tube-replica"], [2]⟩ = none := by decide

end Verif.SvcLimit
