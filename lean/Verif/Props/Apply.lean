import Verif.Proofs.Apply
/- C25: committed entries are applied once and in order. -/
namespace Verif.Apply

/-- A history with an uncommitted suffix overwritten, a compaction and a crash. -/
def sampleOps : List Op :=
  [.append [(1, 10), (1, 11), (1, 12)], .setCommit 2, .apply, .overwrite 2 [(2, 20), (2, 21)], .compact 1,
   .setCommit 3, .crash, .setCommit 4, .apply, .append [(2, 22)], .apply]

example : (run {} sampleOps).map (fun s => (s.base, s.lastApplied, s.done)) =
    some (1, 4, [(1, 10), (2, 11), (3, 20), (4, 21)]) := by decide

/-- In every history the indexes applied are 1, 2, 3, ... up to the applied index, each once
and in order. -/
theorem C25_indexes_in_order (os : List Op) (s : St) (h : run {} os = some s) :
    s.done.map (·.1) = List.range' 1 s.lastApplied := by
  have c := (inv_run os inv_init h).core
  apply List.ext_getElem
  · simp [c.len]
  · intro i h1 h2
    rw [List.length_map] at h1
    rw [List.getElem_map, c.idx i _ (List.getElem?_eq_getElem h1), List.getElem_range']
    omega

/-- What was applied at an index still in the log is the entry the log holds there. -/
theorem C25_applied_is_log (os : List Op) (s : St) (h : run {} os = some s) (k : Nat) (e : Ent)
    (he : s.log[k]? = some e) (hk : s.base + k < s.lastApplied) :
    s.done[s.base + k]? = some (s.base + k + 1, e.op) := by
  have c := (inv_run os inv_init h).core
  have hg : s.get (s.base + k + 1) = some e := by
    refine get_eq_some.2 ⟨by omega, ?_⟩
    rw [← he]; congr 1; omega
  exact c.ops _ e hg (by omega)

/-- The applied index never exceeds the commit index, the commit index never the log. -/
theorem C25_applied_bounds (os : List Op) (s : St) (h : run {} os = some s) :
    s.lastApplied ≤ s.commit ∧ s.commit ≤ s.base + s.log.length ∧ s.base ≤ s.lastApplied := by
  have c := (inv_run os inv_init h).core
  exact ⟨c.le2, c.le3, c.le1⟩

/-- Applying brings the applied index to the commit index, extends what was applied before,
and the new part is the log's. -/
theorem C25_apply_reaches_commit (os : List Op) (s s' : St) (h : run {} os = some s)
    (ha : step s .apply = some s') :
    s'.lastApplied = s.commit ∧ s'.done.length = s.commit ∧ s.done <+: s'.done := by
  have I := inv_run os inv_init h
  obtain ⟨I', h1, h2⟩ := I.apply ha
  refine ⟨h1, by rw [I'.core.len, h1], ?_⟩
  have grow : ∀ k (a b : St), Core a → a.lastApplied + k ≤ a.commit →
      applyFrom a (a.lastApplied + 1) k = some b → a.done <+: b.done := by
    intro k
    induction k with
    | zero => intro a b _ _ hb; cases hb; exact List.prefix_refl _
    | succ k ih =>
      intro a b ca hk hb
      simp only [applyFrom, Option.bind_eq_some_iff] at hb
      obtain ⟨x, hx, hb⟩ := hb
      obtain ⟨c1, c2, c3, _, _⟩ := ca.applyOne (by omega) hx
      rw [← c2] at hb
      refine List.IsPrefix.trans ?_ (ih x b c1 (by omega) hb)
      unfold applyOne at hx
      repeat' split at hx
      all_goals first
        | cases hx
        | (cases hx; exact List.prefix_refl _)
        | (cases hx; exact List.prefix_append _ _)
      all_goals first
        | exact List.prefix_refl _
        | exact List.prefix_append _ _
  simp only [step, commitWhatWeCan, Option.map_eq_some_iff] at ha
  obtain ⟨x, hx, rfl⟩ := ha
  have := grow _ s x I.core (by have := I.core.le2; omega) hx
  split <;> exact this

/-- Applying never panics when the unapplied part of the log has non-decreasing terms from the
last applied one on. -/
theorem C25_apply_no_panic (os : List Op) (s : St) (h : run {} os = some s)
    (hu : ∀ i j e f, s.lastApplied ≤ s.base + i → i ≤ j → s.log[i]? = some e → s.log[j]? = some f →
      s.lastTerm ≤ e.term ∧ e.term ≤ f.term) :
    ∃ s', step s .apply = some s' := by
  have c := (inv_run os inv_init h).core
  have hT : TermsUp s := by
    intro i j e f hi hij he hf
    obtain ⟨h1, h2⟩ := get_eq_some.1 he
    obtain ⟨h3, h4⟩ := get_eq_some.1 hf
    exact hu _ _ e f (by omega) (by omega) h2 h4
  obtain ⟨s', hs⟩ := applyFrom_some (s.commit - s.lastApplied) c hT (by have := c.le2; omega)
  simp only [step, commitWhatWeCan, hs, Option.map_some]
  exact ⟨_, rfl⟩

example : ∃ s, run {} (sampleOps.take 8) = some s ∧ s.lastApplied = 2 ∧ s.lastTerm = 1 ∧ s.commit = 4 ∧
    s.log.map (·.term) = [1, 2, 2] := ⟨_, rfl, by decide⟩

end Verif.Apply
