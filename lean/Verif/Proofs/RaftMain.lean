import Verif.Proofs.RaftGood3
import Verif.Spec.Raft
/-
What the property theorems of Props/Raft.lean take from the invariants.
-/
namespace Verif.Raft

theorem careful_of {mem : List Nat} : ∀ (as : List Action) (s : Sys), AllSteps FullSend mem s as →
    AllSteps OneRecord mem s as → AllSteps AckOfTerm mem s as →
    CarefulRun mem s as
  | [], _, _, _, _ => trivial
  | a :: as, s, h1, h3, h4 => by
    refine ⟨?_, fun s' hs => ?_⟩
    · cases a <;> simp only [Careful]
      case deliver v k noop st nf fo =>
        intro m hk hr ht
        have a3 := h3.1
        have a4 := h4.1
        simp only [OneRecord, hk] at a3
        simp only [AckOfTerm, hk] at a4
        exact ⟨a4 hr ht, a3 hr ht⟩
      case send v beg cnt => exact h1.1
    · have a1 := h1.2; have a3 := h3.2; have a4 := h4.2
      simp only [hs] at a1 a3 a4
      exact careful_of as s' a1 a3 a4

/-- Along any run elections are remembered and logs stay explained by leaders' logs. -/
theorem run_mono {mem : List Nat} : ∀ (as : List Action) {s s' : Sys}, Inv1 mem s →
    run mem s as = some s' → Inv1 mem s' ∧ (∀ x ∈ s.hist.elected, x ∈ s'.hist.elected) ∧
      ∀ L, LogOK s.hist L → LogOK s'.hist L
  | [], s, s', I, h => by cases h; exact ⟨I, fun _ h => h, fun _ h => h⟩
  | a :: as, s, s', I, h => by
    simp only [run, Option.bind_eq_some_iff] at h
    obtain ⟨s1, h1, h2⟩ := h
    obtain ⟨v, n', ms, ht, rfl⟩ := step_tr h1
    have G := good1_of_tr I ht
    obtain ⟨i1, i2, i3⟩ := run_mono as (I.put G) h2
    exact ⟨i1, fun x hx => i2 x (put_elected_sub hx), fun L hL => i3 L (LogOK.put I G hL)⟩

/-- Two explained logs agree up to any index at which their terms agree. -/
theorem LogOK.agree {h : Hist} {A B : List Entry} (hA : LogOK h A) (hB : LogOK h B) {i : Nat}
    {a b : Entry} (ha : A[i]? = some a) (hb : B[i]? = some b) (ht : a.term = b.term) :
    A.take (i + 1) = B.take (i + 1) := by
  obtain ⟨ia, rfl⟩ := List.getElem?_eq_some_iff.1 ha
  obtain ⟨ib, rfl⟩ := List.getElem?_eq_some_iff.1 hb
  have pA := (hA i ia).2
  have pB := (hB i ib).2
  rw [ht] at pA
  have e1 := List.prefix_iff_eq_take.1 pA
  have e2 := List.prefix_iff_eq_take.1 pB
  rw [e1, e2]
  congr 1
  simp; omega

theorem applied_agree {mem : List Nat} {s : Sys} (I2 : Inv2 mem s) (I3 : Inv3 mem s)
    {u v idx : Nat} {e f : Entry} (h1 : (u, idx, e) ∈ s.hist.applied)
    (h2 : (v, idx, f) ∈ s.hist.applied) : e = f := by
  have key : ∀ {t i t' i' : Nat} {e f : Entry}, Committed mem s t i → Committed mem s t' i' → t ≤ t' →
      idx ≤ i → idx ≤ i' → 1 ≤ idx → (s.hist.lead t)[idx - 1]? = some e →
      (s.hist.lead t')[idx - 1]? = some f → e = f := by
    intro t i t' i' e f c c' hle hi hi' h0 he hf
    have hp := c.lead I2 c'.2.1 hle
    have : ((s.hist.lead t).take i)[idx - 1]? = some e := by
      rw [List.getElem?_take]; rw [if_pos (by omega)]; exact he
    obtain ⟨r, hr⟩ := hp
    rw [← hr, List.getElem?_append_left (List.getElem?_eq_some_iff.1 this).1, this] at hf
    exact Option.some.inj hf
  obtain ⟨t, i, c, h3, h4, h5⟩ := I3.appl u idx e h1
  obtain ⟨t', i', c', _, h4', h5'⟩ := I3.appl v idx f h2
  rcases Nat.le_total t t' with hle | hle
  · exact key c c' hle h4 h4' h3 h5 h5'
  · exact (key c' c hle h4' h4 h3 h5' h5).symm

end Verif.Raft
