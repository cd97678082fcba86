import Verif.Proofs.RLE
/-
C10, C11, C12: the compressed term index and the comparison of two of them.
-/
namespace Verif.RLE
open Spec

/-- C10 (part): after every history of appends, truncations and compactions that
does not panic, the compressed index and the plain log kept by the same calls have
the same discarded length and last index, the same term at every index held, "don't
have it" (-1) outside, and the same last term while an entry is held.
Missing from the full claim: the term remembered for the discarded part, which
`Truncate` overwrites (counterexamples below). -/
theorem C10_index_equals_plain_log_partial (ops : List Op) (s : T) (h : run new ops = some s) :
    let p := Plain.empty.run ops
    s.base = p.dropped ∧ lastIndex s = some p.last ∧
    (∀ i, p.dropped < i → i ≤ p.last → getTermForIndex s i = p.termAt i) ∧
    (∀ i, i < p.dropped ∨ p.last < i → getTermForIndex s i = some (-1)) ∧
    (p.terms ≠ [] → lastTerm s = p.lastTerm) := by
  intro p
  have hs : Sim s p := sim_run ops new s _ sim_new h
  have hb := hs.base; have he := hs.endi
  refine ⟨hs.base, lastIndex_sim s p hs, fun i => getTerm_held s p hs i, ?_,
    fun h => lastTerm_sim s p hs (Or.inl h)⟩
  intro i hi
  unfold Plain.last at hi
  unfold getTermForIndex
  rw [if_neg (by omega), if_pos (by omega)]

example : run new [.add 1, .add 1, .add 2, .add 5, .compact 3, .truncate 3, .add 7] =
    some ⟨2, 4, 2, [(2, 1), (7, 1)]⟩ := by decide

theorem plain_history (ops : List Op) : ∀ (s : T) (p : Plain), Sim s p →
    s.compactTerm = p.droppedTerm → p.plainHistory ops →
    ∃ s', run s ops = some s' ∧ Sim s' (p.run ops) ∧ s'.compactTerm = (p.run ops).droppedTerm := by
  induction ops with
  | nil => intro s p h hc _; exact ⟨s, rfl, h, hc⟩
  | cons o os ih =>
    intro s p h hc hp
    obtain ⟨h1, h2⟩ := hp
    have key : ∃ s1, step s o = some s1 ∧ s1.compactTerm = (p.step o).droppedTerm := by
      cases o with
      | add t =>
        obtain ⟨ha, hb⟩ := h1
        have hlt : lastTerm s = p.lastTerm := lastTerm_sim s p h (Or.inr hc)
        obtain ⟨r, hr⟩ := addRun_some t s.runs (by
          intro r hr
          unfold lastTerm at hlt
          rw [hr] at hlt
          simp only at hlt
          omega)
        have : addTerm s t = some { s with endi := if s.endi = 0 then s.base + 1 else s.endi + 1, runs := r } := by
          unfold addTerm
          simp only [hr, Option.map_some]
          rw [if_neg (by omega)]
        exact ⟨_, this, hc⟩
      | truncate k =>
        have hb := h.base; have he := h.endi
        unfold Plain.plainUse Plain.last at h1
        by_cases hk : k ≤ p.dropped
        · refine ⟨_, by simp only [step, truncate]; rw [if_pos (by omega)], ?_⟩
          simp only [Plain.step, Plain.truncate, hb, hc]
          split <;> rfl
        · refine ⟨s, by simp only [step, truncate]; rw [if_neg (by omega), if_pos (by omega)], ?_⟩
          simp only [Plain.step, Plain.truncate]
          rw [if_neg (by omega)]; exact hc
      | compact b =>
        obtain ⟨s1, hs1⟩ := (compact_some_iff s p b h).2 h1
        exact ⟨s1, hs1, (sim_compact s s1 p b h hs1).2 hc⟩
    obtain ⟨s1, hs1, hc1⟩ := key
    obtain ⟨s', h3, h4⟩ := ih s1 (p.step o) (sim_step s s1 p o h hs1) hc1 h2
    exact ⟨s', by simp [run, hs1, h3], h4⟩

/-- C10, the whole claim for histories that never truncate back to a held entry:
such histories do not panic and everything agrees, including the term of the
discarded part. Missing: truncation to a held entry, where the code is wrong. -/
theorem C10_untruncated_history_partial (ops : List Op) (h : Plain.empty.plainHistory ops) :
    let p := Plain.empty.run ops
    ∃ s, run new ops = some s ∧ s.base = p.dropped ∧ lastIndex s = some p.last ∧
      lastTerm s = p.lastTerm ∧
      (0 < p.dropped → getTermForIndex s p.dropped = some p.droppedTerm) ∧
      (∀ i, p.dropped < i → i ≤ p.last → getTermForIndex s i = p.termAt i) := by
  intro p
  obtain ⟨s, h1, h2, h3⟩ := plain_history ops new Plain.empty sim_new rfl h
  refine ⟨s, h1, h2.base, lastIndex_sim s p h2, lastTerm_sim s p h2 (Or.inr h3), ?_,
    fun i => getTerm_held s p h2 i⟩
  intro h0
  unfold getTermForIndex
  rw [if_pos ⟨h0, h2.base.symm⟩, h3]

example : Plain.empty.plainHistory [.add 1, .add 2, .add 2, .compact 3, .truncate 2, .add 2] := by
  simp [Plain.plainHistory, Plain.plainUse, Plain.step, Plain.empty, Plain.add, Plain.compact,
    Plain.truncate, Plain.lastTerm, Plain.last, Plain.termAt]

/-- C10 fails for truncation: keep entries 1..5 discarded at term 1, hold 6 (term 2) and 7
(term 3); after `Truncate(6)` the term at index 5 is reported as 2. -/
theorem C10_truncate_changes_discarded_term_counterexample :
    ∃ ops s, run new ops = some s ∧ (Plain.empty.run ops).dropped = 5 ∧
      (Plain.empty.run ops).droppedTerm = 1 ∧ getTermForIndex s 5 = some 2 :=
  ⟨[.add 1, .add 1, .add 1, .add 1, .add 1, .add 2, .add 3, .compact 6, .truncate 6],
   ⟨5, 6, 2, [(2, 1)]⟩, by decide, by decide, by decide, by decide⟩

/-- C10 fails for truncation: a log emptied by two truncations reports last term 2, and
refuses (panics on) a first entry of term 1. -/
theorem C10_emptied_log_keeps_term_counterexample :
    ∃ s, run new [.add 2, .add 3, .truncate 1, .truncate 0] = some s ∧ lastIndex s = some 0 ∧
      lastTerm s = 2 ∧ addTerm s 1 = none :=
  ⟨⟨0, 0, 2, []⟩, by decide, by decide, by decide, by decide⟩

theorem standsFor_sim {s : T} {L : List Int} {m : Nat} (h : StandsFor s L m) :
    ∃ dt, Sim s ⟨m, dt, L.drop m⟩ := by
  obtain ⟨_, _, ops, dt, h1, h2⟩ := h
  exact ⟨dt, h2 ▸ sim_run ops new s _ sim_new h1⟩

/-- C11: comparing two uncompacted indexes reports exactly the length of the longest
common prefix of the two term sequences, asks for no snapshot, and says "extends" iff
the follower's terms are a prefix of the leader's. The indexes are those left by any
histories of calls that have nothing discarded in the end. -/
theorem C11_comparison_finds_common_prefix (l f : T) (opsL opsF : List Op) (L F : List Int) (dl df : Int)
    (hl : run new opsL = some l) (hL : Plain.empty.run opsL = ⟨0, dl, L⟩)
    (hf : run new opsF = some f) (hF : Plain.empty.run opsF = ⟨0, df, F⟩) :
    ∃ b, Extends l f = some (b, commonPrefix L F, false) ∧ (b = true ↔ F <+: L) := by
  have sl : Sim l ⟨0, dl, L⟩ := hL ▸ sim_run opsL new l _ sim_new hl
  have sf : Sim f ⟨0, df, F⟩ := hF ▸ sim_run opsF new f _ sim_new hf
  have bl : l.base = 0 := sl.base
  have bf : f.base = 0 := sf.base
  have el := sl.endi; have ef := sf.endi
  simp only [Nat.zero_add] at el ef
  have rl : l.runs = [] ↔ L = [] := by
    rw [← flat_eq_nil sl.pos, sl.terms]
  have rf : f.runs = [] ↔ F = [] := by
    rw [← flat_eq_nil sf.pos, sf.terms]
  unfold Extends
  by_cases hF0 : F = []
  · rw [if_pos ⟨bf, rf.2 hF0⟩, hF0, commonPrefix_nil_right]
    exact ⟨true, rfl, by simp⟩
  · rw [if_neg (fun h => hF0 (rf.1 h.2))]
    by_cases hL0 : L = []
    · rw [if_pos (rl.2 hL0), if_pos bl, hL0, commonPrefix_nil_left]
      exact ⟨false, rfl, by simp [hF0]⟩
    · rw [if_neg (fun h => hL0 (rl.1 h)), if_pos ⟨bl, bf⟩]
      have hLn : 0 < L.length := List.length_pos_iff.2 hL0
      have hFn : 0 < F.length := List.length_pos_iff.2 hF0
      unfold extendsNoCompaction
      rw [if_neg (by omega), if_neg (fun h => hL0 (rl.1 h)), if_neg (fun h => hF0 (rf.1 h)),
        if_neg (by omega), if_neg (by omega)]
      obtain ⟨b, h1, h2⟩ := overlap_spec l f _ _ sl sf (by simp [Plain.last]; omega)
        (by simp [Plain.last]; omega)
      simp at h1 h2
      exact ⟨b, by rw [h1]; rfl, h2⟩

example : ∃ l f, run new [.add 1, .add 2, .add 2] = some l ∧ run new [.add 1, .add 1] = some f ∧
    Extends l f = some (false, 1, false) :=
  ⟨⟨0, 3, 0, [(1, 1), (2, 2)]⟩, ⟨0, 2, 0, [(1, 2)]⟩, by decide, by decide, by decide⟩

theorem termBefore_eq (L : List Int) (m : Nat) (h0 : 0 < m) (hm : m ≤ L.length) :
    L[m - 1]? = some (termBefore L m) := by
  unfold termBefore
  rw [List.getLast?_eq_getElem?, List.length_take, Nat.min_eq_left hm, List.getElem?_take,
    if_pos (by omega), List.getElem?_eq_getElem (by omega)]
  rfl

theorem take_eq_of_term (L F : List Int) (hm : LogMatching L F) (m : Nat) (h0 : 0 < m) (t : Int)
    (h1 : L[m - 1]? = some t) (h2 : F[m - 1]? = some t) : L.take m = F.take m := by
  have := hm (m - 1) t h1 h2
  obtain ⟨k, rfl⟩ : ∃ k, m = k + 1 := ⟨m - 1, by omega⟩
  simp only [Nat.add_sub_cancel] at *
  rw [List.take_add_one, List.take_add_one, this, h1, h2]

/-- C12 (part): take full term sequences `L` (leader) and `F` (follower) that satisfy
log matching, compacted at `m` and `f`; what the follower discarded is in the leader's
log (it was committed); and if the leader discarded more than the follower, the
follower's entry at the leader's compaction point, if the follower goes beyond it, is
the leader's. Then the comparison does not panic; the reported index is one up to which
the full logs are equal; and if no snapshot is requested the index is exactly the length
of the common prefix and "extends" is reported iff the follower is a prefix of the leader.
Missing: the last hypothesis; without it the claim is false (counterexample below). -/
theorem C12_comparison_under_compaction_partial (l f : T) (L F : List Int) (m k : Nat)
    (hl : StandsFor l L m) (hf : StandsFor f F k) (hmatch : LogMatching L F)
    (hdisc : F.take k <+: L)
    (hcut : k < m → m < F.length → F[m - 1]? = L[m - 1]?) :
    ∃ b c snap, Extends l f = some (b, c, snap) ∧ c ≤ L.length ∧ c ≤ F.length ∧
      L.take c = F.take c ∧
      (snap = false → c = commonPrefix L F ∧ (b = true ↔ F <+: L)) := by
  obtain ⟨dl, sl⟩ := standsFor_sim hl
  obtain ⟨df, sf⟩ := standsFor_sim hf
  obtain ⟨hml, hcl, -⟩ := hl
  obtain ⟨hkf, hcf, -⟩ := hf
  have bl : l.base = m := sl.base
  have bf : f.base = k := sf.base
  have el : l.endi = L.length := by have := sl.endi; simp at this; omega
  have ef : f.endi = F.length := by have := sf.endi; simp at this; omega
  have rl : l.runs = [] ↔ L.length ≤ m := by
    rw [← flat_eq_nil sl.pos, sl.terms]; simp
  have rf : f.runs = [] ↔ F.length ≤ k := by
    rw [← flat_eq_nil sf.pos, sf.terms]; simp
  -- what the follower discarded
  have hkL : k ≤ L.length := by have := hdisc.length_le; simp at this; omega
  have htk : L.take k = F.take k := by
    obtain ⟨r, hr⟩ := hdisc
    rw [← hr, List.take_append_of_le_length (by simp; omega), List.take_take, Nat.min_self]
  have hwhole : ∀ c, L.take c = F.take c → c ≤ L.length → F.length = c → 
      F <+: L := by
    intro c hc h1 h2
    rw [← List.take_of_length_le (Nat.le_of_eq h2), ← hc]; exact List.take_prefix c L
  have hexact : ∀ c, L.take c = F.take c → c ≤ L.length → c ≤ F.length →
      (c = L.length ∨ c = F.length) → c = commonPrefix L F := by
    intro c hc h1 h2 h3
    rw [(commonPrefix_drop L F c hc h1 h2).1]
    rcases h3 with h3 | h3
    · rw [List.drop_of_length_le (Nat.le_of_eq h3.symm) (l := L), commonPrefix_nil_left]; omega
    · rw [List.drop_of_length_le (Nat.le_of_eq h3.symm) (l := F), commonPrefix_nil_right]; omega
  have hnot : F.length > L.length → ¬ F <+: L := by
    intro h hp; have := hp.length_le; omega
  unfold Extends
  by_cases c1 : f.base = 0 ∧ f.runs = []
  · rw [if_pos c1]
    have : F = [] := List.length_eq_zero_iff.1 (by have := rf.1 c1.2; omega)
    subst this
    exact ⟨true, 0, false, rfl, by omega, by simp, by simp, fun _ => ⟨by rw [commonPrefix_nil_right], by simp⟩⟩
  rw [if_neg c1]
  by_cases c2 : l.runs = []
  · rw [if_pos c2]
    have hLm : L.length = m := by have := rl.1 c2; omega
    by_cases c3 : l.base = 0
    · rw [if_pos c3]
      have hk0 : k = 0 := by omega
      have hF0 : 0 < F.length := by
        rcases Nat.eq_zero_or_pos F.length with h | h
        · exact absurd ⟨by omega, rf.2 (by omega)⟩ c1
        · exact h
      exact ⟨false, 0, false, rfl, by omega, by omega, by simp, fun _ =>
        ⟨hexact 0 (by simp) (by omega) (by omega) (by omega), by
          simp; apply hnot; omega⟩⟩
    rw [if_neg c3]
    by_cases c4 : f.base = l.base
    · rw [if_pos c4]
      have hkm : k = m := by omega
      subst hkm
      by_cases c5 : f.runs = []
      · rw [if_pos c5]
        have := rf.1 c5
        exact ⟨true, _, false, rfl, by omega, by omega, by rw [bl]; exact htk, fun _ =>
          ⟨by rw [bl]; exact hexact k htk (by omega) (by omega) (by omega), by
            simp; exact hwhole k htk (by omega) (by omega)⟩⟩
      · rw [if_neg c5]
        have : ¬ F.length ≤ k := fun h => c5 (rf.2 h)
        exact ⟨false, _, false, rfl, by omega, by omega, by rw [bl]; exact htk, fun _ =>
          ⟨by rw [bl]; exact hexact k htk (by omega) (by omega) (by omega), by
            simp; apply hnot; omega⟩⟩
    rw [if_neg c4, if_neg (by omega)]
    exact ⟨false, _, true, rfl, by omega, by omega, by rw [bf]; exact htk, by simp⟩
  rw [if_neg c2]
  have hLm : m < L.length := by
    rcases Nat.lt_or_ge m L.length with h | h
    · exact h
    · exact absurd (rl.2 h) c2
  -- the comparison of the part both still hold
  have hover : max k m < L.length → max k m < F.length → L.take (max k m) = F.take (max k m) →
      ∃ b c snap, (overlap l f).map (fun p => (p.1, p.2, false)) = some (b, c, snap) ∧ c ≤ L.length ∧
      c ≤ F.length ∧ L.take c = F.take c ∧
      (snap = false → c = commonPrefix L F ∧ (b = true ↔ F <+: L)) := by
    intro h1 h2 h3
    obtain ⟨b, h4, h5⟩ := overlap_spec l f _ _ sl sf (by simp [Plain.last]; omega)
      (by simp [Plain.last]; omega)
    simp only [List.drop_drop] at h4 h5
    rw [show m + (max k m - m) = max k m by omega, show k + (max k m - k) = max k m by omega] at h4 h5
    obtain ⟨h6, h7⟩ := commonPrefix_drop L F (max k m) h3 (by omega) (by omega)
    rw [← h6] at h4
    rw [← h7] at h5
    have hle := commonPrefix_le L F
    refine ⟨b, commonPrefix L F, false, by rw [h4]; rfl, hle.1, hle.2, ?_, fun _ => ⟨rfl, h5⟩⟩
    exact commonPrefix_take L F
  have hover0 : F.length > max k m → k < L.length → L.take (max k m) = F.take (max k m) := by
    intro h1 h2
    by_cases hkm : k < m
    · rw [show max k m = m by omega]
      have := termBefore_eq L m (by omega) (by omega)
      exact take_eq_of_term L F hmatch m (by omega) _ this (by rw [hcut hkm (by omega)]; exact this)
    · rw [show max k m = k by omega]; exact htk
  by_cases c3 : l.base = 0 ∧ f.base = 0
  · rw [if_pos c3]
    unfold extendsNoCompaction
    have hF0 : 0 < F.length := by
      rcases Nat.eq_zero_or_pos F.length with h | h
      · exact absurd ⟨c3.2, rf.2 (by omega)⟩ c1
      · exact h
    rw [if_neg (by omega), if_neg c2, if_neg (fun h => by have := rf.1 h; omega), if_neg (by omega),
      if_neg (by omega)]
    exact hover (by omega) (by omega) (hover0 (by omega) (by omega))
  rw [if_neg c3]
  by_cases c4 : f.endi ≤ l.base
  · rw [if_pos c4]
    by_cases c5 : f.base < f.endi
    · rw [if_pos c5, if_neg (fun h => by have := rf.1 h; omega)]
      by_cases c6 : f.endi = l.base ∧ lastTerm f = l.compactTerm
      · rw [if_pos c6]
        have hm0 : 0 < m := by omega
        have hlt := lastTerm_sim f _ sf (Or.inl (by
          intro h; have := congrArg List.length h; simp at this; omega))
        have hFl : F[m - 1]? = some (lastTerm f) := by
          rw [hlt]
          unfold Plain.lastTerm
          simp only
          rw [List.getLast?_eq_getElem?, List.length_drop, List.getElem?_drop,
            show k + (F.length - k - 1) = m - 1 by omega, List.getElem?_eq_getElem (by omega)]
          rfl
        have hLl : L[m - 1]? = some (lastTerm f) := by
          rw [c6.2, hcl]; exact termBefore_eq L m (by omega) (by omega)
        have htm := take_eq_of_term L F hmatch m hm0 _ hLl hFl
        have hfe : f.endi = m := by omega
        exact ⟨true, _, false, rfl, by omega, by omega, by rw [hfe]; exact htm, fun _ =>
          ⟨by rw [hfe]; exact hexact m htm (by omega) (by omega) (by omega), by
            simp; exact hwhole m htm (by omega) (by omega)⟩⟩
      · rw [if_neg c6]
        exact ⟨false, _, true, rfl, by omega, by omega, by rw [bf]; exact htk, by simp⟩
    · rw [if_neg c5]
      by_cases c6 : f.base < l.base
      · rw [if_pos c6]
        exact ⟨false, _, true, rfl, by omega, by omega, by rw [bf]; exact htk, by simp⟩
      · rw [if_neg c6, if_neg (by omega)]
        have hkm : k = m := by omega
        subst hkm
        have hct : f.compactTerm = l.compactTerm := by rw [hcf, hcl, termBefore, termBefore, htk]
        rw [if_pos hct]
        exact ⟨true, _, false, rfl, by omega, by omega, by rw [bf]; exact htk, fun _ =>
          ⟨by rw [bf]; exact hexact k htk (by omega) (by omega) (by omega), by
            simp; exact hwhole k htk (by omega) (by omega)⟩⟩
  rw [if_neg c4]
  by_cases c5 : f.runs = []
  · rw [if_pos c5]
    have := rf.1 c5
    exact ⟨true, _, false, rfl, by omega, by omega, by rw [bf]; exact htk, fun _ =>
      ⟨by rw [bf]; exact hexact k htk (by omega) (by omega) (by omega), by
        simp; exact hwhole k htk (by omega) (by omega)⟩⟩
  rw [if_neg c5]
  have hFk : ¬ F.length ≤ k := fun h => c5 (rf.2 h)
  by_cases c6 : l.endi ≤ f.base
  · rw [if_pos c6]
    have hkL' : l.endi = k := by omega
    exact ⟨false, _, false, rfl, by omega, by omega, by rw [hkL']; exact htk, fun _ =>
      ⟨by rw [hkL']; exact hexact k htk (by omega) (by omega) (by omega), by
        simp; apply hnot; omega⟩⟩
  rw [if_neg c6]
  exact hover (by omega) (by omega) (hover0 (by omega) (by omega))

/-- A leader with log 1,1,2,2 compacted at 2 and a follower with 1,1,2 compacted at 1. -/
example : ∃ l f, StandsFor l [1, 1, 2, 2] 2 ∧ StandsFor f [1, 1, 2] 1 ∧
    LogMatching [1, 1, 2, 2] [1, 1, 2] ∧ [1, 1, 2].take 1 <+: ([1, 1, 2, 2] : List Int) ∧
    ([1, 1, 2] : List Int)[2 - 1]? = ([1, 1, 2, 2] : List Int)[2 - 1]? ∧ Extends l f = some (true, 3, false) := by
  refine ⟨⟨2, 4, 1, [(2, 2)]⟩, ⟨1, 3, 1, [(1, 1), (2, 1)]⟩, ?_, ?_, ?_, ⟨[1, 2, 2], rfl⟩, rfl, by decide⟩
  · exact ⟨by decide, by decide, [.add 1, .add 1, .add 2, .add 2, .compact 3], 1, by decide, by decide⟩
  · exact ⟨by decide, by decide, [.add 1, .add 1, .add 2, .compact 2], 1, by decide, by decide⟩
  · intro i t h1 h2
    match i with
    | 0 | 1 | 2 => rfl
    | i + 3 => simp at h2

/-- C12 fails when the leader has discarded more than the follower and the follower has a
conflicting entry at that point: leader 1,3,3 compacted at 2 against follower 1,2,2
reports common index 2 and asks for no snapshot, although the logs differ at 2. -/
theorem C12_conflict_under_leader_compaction_counterexample :
    ∃ l f, StandsFor l [1, 3, 3] 2 ∧ StandsFor f [1, 2, 2] 0 ∧ LogMatching [1, 3, 3] [1, 2, 2] ∧
      Extends l f = some (false, 2, false) ∧
      ([1, 3, 3] : List Int)[1]? ≠ ([1, 2, 2] : List Int)[1]? := by
  refine ⟨⟨2, 3, 3, [(3, 1)]⟩, ⟨0, 3, 0, [(1, 1), (2, 2)]⟩, ?_, ?_, ?_, by decide, by decide⟩
  · exact ⟨by decide, by decide, [.add 1, .add 3, .add 3, .compact 3], 3, by decide, by decide⟩
  · exact ⟨by decide, by decide, [.add 1, .add 2, .add 2], 0, by decide, by decide⟩
  · intro i t h1 h2
    match i with
    | 0 => rfl
    | 1 | 2 => simp at h1 h2; omega
    | i + 3 => simp at h2

/-- C12 fails when the follower's discarded part goes beyond the leader's log: leader 1
against follower 1,1 compacted at 2 reports "extends" with common index 2. -/
theorem C12_short_leader_counterexample :
    ∃ l f, StandsFor l [1] 0 ∧ StandsFor f [1, 1] 2 ∧ LogMatching [1] [1, 1] ∧
      Extends l f = some (true, 2, false) := by
  refine ⟨⟨0, 1, 0, [(1, 1)]⟩, ⟨2, 2, 1, []⟩, ?_, ?_, ?_, by decide⟩
  · exact ⟨by decide, by decide, [.add 1], 0, by decide, by decide⟩
  · exact ⟨by decide, by decide, [.add 1, .add 1, .add 1, .compact 3, .truncate 2], 1, by decide, by decide⟩
  · intro i t h1 h2
    match i with
    | 0 => rfl
    | i + 1 => simp at h1

end Verif.RLE
