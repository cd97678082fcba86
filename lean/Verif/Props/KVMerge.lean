import Verif.Proofs.KVMerge

/-! C141: copies and merges of the key-value store. -/

namespace Verif.KVMerge

open Verif.Art

variable {V : Type}

/-- The copy of a table, after any writes and deletes, shows what the table shows. Partial: for
keys that do not extend each other by a zero byte (`Separate`, as in C36). -/
theorem C141_clone_partial (ops : List (Op V)) (h : Separate ops) :
    ∃ t t', run ops = some t ∧ cloneTable t = some t' ∧ Shows t' (contents ops) := by
  obtain ⟨t, h1, h2⟩ := run_holds ops h
  obtain ⟨t', h3, h4⟩ := clone_holds h2 (separate_apart ops h)
  exact ⟨t, t', h1, h3, shows_of h4⟩

/-- Merging a table into another: the second one's values where both have the key. -/
theorem C141_merge_table_partial (opsS opsR : List (Op V)) (hS : Separate opsS) (hR : Separate opsR)
    (hz : ∀ k a, contents opsR k ≠ none → contents opsS a ≠ none → ¬ ZeroExt a k ∧ ¬ ZeroExt k a) :
    ∃ s r t, run opsS = some s ∧ run opsR = some r ∧ copyInto r s = some t ∧
      Shows t (over (contents opsS) (contents opsR)) := by
  obtain ⟨s, h1, h2⟩ := run_holds opsS hS
  obtain ⟨r, h3, h4⟩ := run_holds opsR hR
  obtain ⟨t, h5, h6⟩ := copyInto_holds h4 h2 (by
    intro k a hk ha
    rcases ha with ha | ha
    · exact ⟨separate_apart opsR hR k a hk ha, separate_apart opsR hR a k ha hk⟩
    · exact hz k a hk ha)
  exact ⟨s, r, t, h1, h3, h5, shows_of h6⟩

/-- Merging a store into another, in whatever order the second one's tables come: every table of
either, with all keys of either, and the second one's values where both have the key. Partial: keys
that extend each other by a zero byte. -/
theorem C141_merge_partial (s r : Store V) (p q : List UInt8 → Option (List (Op V)))
    (hs : Made s p) (hr : Made r q) (hnd : (r.map Prod.fst).Nodup)
    (hz : ∀ n x y, p n = some x → q n = some y → ∀ k a, contents y k ≠ none → contents x a ≠ none →
      ¬ ZeroExt a k ∧ ¬ ZeroExt k a) :
    ∃ s', merge s r = some s' ∧ ∀ n, Merged (p n) (q n) (table s' n) := by
  have hlook : ∀ (r : Store V), (r.map Prod.fst).Nodup → ∀ e ∈ r, table r e.1 = some e.2 := by
    intro r
    induction r with
    | nil => exact fun _ _ h => absurd h (by simp)
    | cons x r ih =>
      intro hnd e he
      rw [List.map_cons, List.nodup_cons] at hnd
      unfold table
      rw [List.lookup_cons]
      rcases List.mem_cons.1 he with rfl | he
      · simp
      · rw [show (e.1 == x.1) = false by
          simp only [beq_eq_false_iff_ne]
          exact fun h => hnd.1 (h ▸ List.mem_map_of_mem he)]
        exact ih hnd.2 e he
  have hnone : ∀ (r : Store V) (n : List UInt8), n ∉ r.map Prod.fst → table r n = none := by
    intro r n hn
    unfold table
    induction r with
    | nil => rfl
    | cons x r ih =>
      simp only [List.map_cons, List.mem_cons, not_or] at hn
      rw [List.lookup_cons, show (n == x.1) = false by simpa using hn.1]
      exact ih hn.2
  obtain ⟨s', h1, h2, h3⟩ := mergeLoop hs hz r s hnd (by
    intro e he
    have h := hr e.1
    cases hq : q e.1 with
    | none =>
      rw [hq] at h
      rw [hlook r hnd e he] at h
      cases h
    | some ops =>
      rw [hq] at h
      obtain ⟨h1, t, h2, h3⟩ := h
      rw [hlook r hnd e he] at h2
      cases h2
      exact ⟨ops, rfl, h1, run_gives h1 h3⟩) (fun _ _ => rfl)
  refine ⟨s', h1, fun n => ?_⟩
  by_cases hn : n ∈ r.map Prod.fst
  · exact h3 n hn
  · have hq : q n = none := by
      have h := hr n
      cases hq : q n with
      | none => rfl
      | some ops =>
        rw [hq] at h
        obtain ⟨-, t, h2, -⟩ := h
        rw [hnone r n hn] at h2
        cases h2
    rw [h2 n hn, hq]
    have hp := hs n
    unfold Merged
    cases hpn : p n with
    | none =>
      rw [hpn] at hp
      exact hp
    | some x =>
      rw [hpn] at hp
      obtain ⟨h6, t, h4, h5⟩ := hp
      exact ⟨t, h4, shows_of (run_gives h6 h5)⟩

/-- Copying a store: the same tables, each with the same keys and values. -/
theorem C141_clone_store_partial (s : Store V) (p : List UInt8 → Option (List (Op V)))
    (hs : Made s p) (hnd : (s.map Prod.fst).Nodup) :
    ∃ s', cloneStore s = some s' ∧ ∀ n, Merged none (p n) (table s' n) := by
  obtain ⟨s', h1, h2⟩ := C141_merge_partial [] s (fun _ => none) p (fun _ => rfl) hs hnd
    (fun _ _ _ h => nomatch h)
  exact ⟨s', by rw [← h1]; exact cloneStore_merge s [] hnd (fun _ _ => rfl), h2⟩

/-- A key of the first store is lost by a merge with keys that are it, a zero byte and more. -/
theorem C141_merge_counterexample :
    let s : List (Op Nat) := [.insert [97] 4, .insert [100] 3]
    let r : List (Op Nat) := [.insert [97, 0, 99] 2, .insert [97, 0, 98] 1]
    Separate s ∧ Separate r ∧ contents s [97] = some 4 ∧
    ((run s).bind fun a => (run r).bind fun b => (copyInto b a).map fun t =>
      (t.find .exact [97]).found) = some false := by
  refine ⟨?_, ?_, rfl, by decide +kernel⟩
  · refine ⟨fun a ha => ?_, fun a ha => absurd rfl ha, trivial⟩
    simp only [contents] at ha
    split at ha
    · rename_i h
      subst h
      exact ⟨by rintro ⟨z, hz⟩; simp at hz, by rintro ⟨z, hz⟩; simp at hz⟩
    · exact absurd rfl ha
  · refine ⟨fun a ha => ?_, fun a ha => absurd rfl ha, trivial⟩
    simp only [contents] at ha
    split at ha
    · rename_i h
      subst h
      exact ⟨by rintro ⟨z, hz⟩; simp at hz, by rintro ⟨z, hz⟩; simp at hz⟩
    · exact absurd rfl ha

def exS : List (Op Nat) := [.insert [97, 98] 4, .insert [100] 3]
def exR : List (Op Nat) := [.remove [101], .insert [101] 9, .insert [97, 98] 1, .insert [97] 2]

/-- Two tables that meet the hypotheses, and the merged one: three keys, the second's value for the
key of both. -/
example : ((run exS).bind fun a => (run exR).bind fun b => (copyInto b a).map fun t =>
    t.drain 9 (t.iter [] [])) = some [([97], 2), ([97, 98], 1), ([100], 3)] := by decide +kernel

/-- The merge of two stores: one table of both, one of each. -/
example : ((run exS).bind fun a => (run exR).bind fun b =>
    (merge [([1], a), ([2], a)] [([3], b), ([1], b)]).map fun s =>
      s.map fun e => (e.1, e.2.drain 9 (e.2.iter [] []))) =
    some [([1], [([97], 2), ([97, 98], 1), ([100], 3)]), ([2], [([97, 98], 4), ([100], 3)]),
      ([3], [([97], 2), ([97, 98], 1)])] := by decide +kernel

theorem exS_separate : Separate exS := by
  refine ⟨fun a ha => ?_, fun a ha => absurd rfl ha, trivial⟩
  simp only [contents] at ha
  split at ha
  · rename_i h
    subst h
    exact ⟨by rintro ⟨z, hz⟩; simp at hz, by rintro ⟨z, hz⟩; simp at hz⟩
  · exact absurd rfl ha

theorem exS_keys {k : Key} (h : contents exS k ≠ none) : k = [97, 98] ∨ k = [100] := by
  by_cases h1 : k = [97, 98] <;> by_cases h2 : k = [100] <;> simp_all [exS, contents]

theorem exR_keys {k : Key} (h : contents exR k ≠ none) : k = [97, 98] ∨ k = [97] := by
  by_cases h0 : k = [101] <;> by_cases h1 : k = [97, 98] <;> by_cases h2 : k = [97] <;>
    simp_all [exR, contents]

theorem exR_separate : Separate exR := by
  refine ⟨fun a ha => ?_, fun a ha => ?_, fun a ha => absurd rfl ha, trivial⟩
  · have : a = [97, 98] ∨ a = [97] := by
      by_cases h1 : a = [97, 98] <;> by_cases h2 : a = [97] <;> simp_all [contents]
    rcases this with rfl | rfl <;>
      exact ⟨by rintro ⟨z, hz⟩; simp at hz, by rintro ⟨z, hz⟩; simp at hz⟩
  · have : a = [97] := by
      by_cases h2 : a = [97] <;> simp_all [contents]
    subst this
    exact ⟨by rintro ⟨z, hz⟩; simp at hz, by rintro ⟨z, hz⟩; simp at hz⟩

/-- The hypotheses of `C141_merge_partial` for stores with a table of both and others of one. -/
example (a b : Tree Nat) (ha : run exS = some a) (hb : run exR = some b) :
    ∃ s', merge [([1], a), ([2], a)] [([3], b), ([1], b)] = some s' ∧
      ∃ u, table s' [1] = some u ∧ Shows u (over (contents exS) (contents exR)) := by
  obtain ⟨s', h1, h2⟩ := C141_merge_partial [([1], a), ([2], a)] [([3], b), ([1], b)]
    (fun n => if n = [1] ∨ n = [2] then some exS else none)
    (fun n => if n = [1] ∨ n = [3] then some exR else none)
    (by
      intro n
      by_cases h1 : n = [1]
      · subst h1; exact ⟨exS_separate, a, rfl, ha⟩
      · by_cases h2 : n = [2]
        · subst h2; exact ⟨exS_separate, a, rfl, ha⟩
        · simp [h1, h2, table, List.lookup_cons, beq_eq_false_iff_ne.2 h1, beq_eq_false_iff_ne.2 h2])
    (by
      intro n
      by_cases h1 : n = [1]
      · subst h1; exact ⟨exR_separate, b, rfl, hb⟩
      · by_cases h2 : n = [3]
        · subst h2; exact ⟨exR_separate, b, rfl, hb⟩
        · simp [h1, h2, table, List.lookup_cons, beq_eq_false_iff_ne.2 h1, beq_eq_false_iff_ne.2 h2])
    (by simp)
    (by
      intro n x y hx hy k c hk hc
      have hx : x = exS := by
        by_cases h : n = [1] ∨ n = [2]
        · simpa [h] using hx.symm
        · simp [h] at hx
      have hy : y = exR := by
        by_cases h : n = [1] ∨ n = [3]
        · simpa [h] using hy.symm
        · simp [h] at hy
      subst hx hy
      rcases exR_keys hk with rfl | rfl <;> rcases exS_keys hc with rfl | rfl <;>
        exact ⟨by rintro ⟨z, hz⟩; simp at hz, by rintro ⟨z, hz⟩; simp at hz⟩)
  exact ⟨s', h1, h2 [1]⟩

end Verif.KVMerge
