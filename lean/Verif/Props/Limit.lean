import Verif.Model.Limit
/-
C40: the connection limit.
-/
namespace Verif.Limit

/-- Connections handed out and not yet closed. -/
def openConns (s : St) : Nat := s.conns.countP fun c => !c.closed

/-- Connections on which no call of Close has completed. -/
def heldConns (s : St) : Nat := s.conns.countP fun c => !c.released

/-- Slots that Accept could still take. -/
def freeSlots (s : St) : Nat := s.n - s.sem

structure Inv (n : Nat) (s : St) : Prop where
  n : s.n = n
  sem : s.sem = s.accepting + heldConns s
  le : s.sem ≤ s.n
  rel : ∀ c ∈ s.conns, c.released = true → c.closed = true

theorem countP_set (l : List Conn) (i : Nat) (c d : Conn) (p : Conn → Bool) (h : l[i]? = some c) :
    (l.set i d).countP p + (if p c then 1 else 0) = l.countP p + (if p d then 1 else 0) := by
  induction l generalizing i with
  | nil => simp at h
  | cons x l ih =>
    cases i with
    | zero =>
      simp at h; subst h
      simp only [List.set_cons_zero, List.countP_cons]; omega
    | succ i =>
      simp at h
      have := ih i h
      simp only [List.set_cons_succ, List.countP_cons]; omega

theorem step_inv (n : Nat) (s s' : St) (e : Ev) (h : Inv n s) (hs : step s e = some s') : Inv n s' := by
  obtain ⟨h1, h2, h3, h4⟩ := h
  unfold heldConns at h2
  cases e with
  | acquire =>
    simp only [step] at hs
    split at hs
    · injection hs with hs; subst hs
      exact ⟨h1, by unfold heldConns; simp; omega, by simp; omega, h4⟩
    · simp at hs
  | acceptOk =>
    simp only [step] at hs
    split at hs
    · simp at hs
    · injection hs with hs; subst hs
      refine ⟨h1, ?_, h3, ?_⟩
      · unfold heldConns; simp [List.countP_append]; omega
      · intro c hc; simp at hc
        rcases hc with hc | rfl
        · exact h4 c hc
        · simp
  | acceptErr =>
    simp only [step, release] at hs
    split at hs
    · simp at hs
    · split at hs
      · simp at hs
      · simp at hs; subst hs
        exact ⟨h1, by unfold heldConns; simp; omega, by simp; omega, h4⟩
  | spurious =>
    simp only [step] at hs
    split at hs
    · injection hs with hs; subst hs; exact ⟨h1, h2, h3, h4⟩
    · simp at hs
  | closeInner i =>
    simp only [step] at hs
    split at hs
    · simp at hs
    · next c hc =>
      injection hs with hs; subst hs
      refine ⟨h1, ?_, h3, ?_⟩
      · have := countP_set s.conns i c { c with closed := true } (fun c => !c.released) hc
        unfold heldConns; simp at this ⊢; omega
      · intro x hx
        rcases List.mem_or_eq_of_mem_set hx with hx | rfl
        · exact h4 x hx
        · simp
  | closeRelease i =>
    simp only [step, release] at hs
    split at hs
    · simp at hs
    · next c hc =>
      split at hs
      · simp at hs
      · next hcl =>
        split at hs
        · injection hs with hs; subst hs; exact ⟨h1, h2, h3, h4⟩
        · next hr =>
          split at hs
          · simp at hs
          · simp at hs; subst hs
            have := countP_set s.conns i c { c with released := true } (fun c => !c.released) hc
            simp at hr hcl
            refine ⟨h1, ?_, by simp; omega, ?_⟩
            · unfold heldConns; simp [hr] at this ⊢; omega
            · intro x hx
              rcases List.mem_or_eq_of_mem_set hx with hx | rfl
              · exact h4 x hx
              · simp [hcl]
  | closeListener =>
    simp only [step] at hs
    injection hs with hs; subst hs; exact ⟨h1, h2, h3, h4⟩

theorem run_inv (n : Nat) (es : List Ev) : ∀ s s', Inv n s → run s es = some s' → Inv n s' := by
  induction es with
  | nil => intro s s' h hs; simp [run] at hs; subst hs; exact h
  | cons e es ih =>
    intro s s' h hs
    simp only [run] at hs
    cases h1 : step s e with
    | none => simp [h1] at hs
    | some s1 => simp [h1] at hs; exact ih s1 s' (step_inv n s s1 e h h1) hs

theorem inv_new (n : Nat) : Inv n (new n) := ⟨rfl, rfl, by simp [new], by simp [new]⟩

/-- C40: in every execution of a listener with limit `n`, at most `n` connections handed
out are open; and the slots in use are exactly the accepts under way plus the
connections on which no Close has completed, so each connection frees its slot once
however often it is closed. -/
theorem C40_limit_never_exceeded (n : Nat) (es : List Ev) (s : St) (h : run (new n) es = some s) :
    openConns s ≤ n ∧ freeSlots s + s.accepting + heldConns s = n := by
  obtain ⟨h1, h2, h3, h4⟩ := run_inv n es _ _ (inv_new n) h
  refine ⟨?_, by unfold freeSlots; omega⟩
  have : openConns s ≤ heldConns s := by
    unfold openConns heldConns
    apply List.countP_mono_left
    intro c hc hcl
    simp at hcl ⊢
    cases hr : c.released with
    | false => rfl
    | true => have := h4 c hc hr; rw [hcl] at this; simp at this
  omega

/-- Two connections with limit two, one closed twice, then a third. -/
example : ∃ s, run (new 2) [.acquire, .acceptOk, .acquire, .acceptOk, .closeInner 0, .closeRelease 0,
    .closeInner 0, .closeRelease 0, .acquire, .acceptOk] = some s ∧ openConns s = 2 ∧ freeSlots s = 0 :=
  ⟨_, rfl, by decide, by decide⟩

/-- C40: the first completed Close frees exactly one slot, later ones none; neither ever
blocks, and a failed accept gives its slot back. -/
theorem C40_close_frees_one_slot (n : Nat) (es : List Ev) (s : St) (h : run (new n) es = some s)
    (i : Nat) (c : Conn) (hc : s.conns[i]? = some c) (hcl : c.closed = true) :
    ∃ s', step s (.closeRelease i) = some s' ∧
      freeSlots s' = freeSlots s + (if c.released then 0 else 1) := by
  obtain ⟨h1, h2, h3, h4⟩ := run_inv n es _ _ (inv_new n) h
  simp only [step, hc, hcl, not_true_eq_false, if_false]
  cases hr : c.released with
  | true => exact ⟨s, by simp, by simp⟩
  | false =>
    have hpos : 0 < heldConns s := by
      unfold heldConns
      rw [List.countP_pos_iff]
      exact ⟨c, List.mem_of_getElem? hc, by simp [hr]⟩
    have hrel : release s = some { s with sem := s.sem - 1 } := by
      unfold release; rw [if_neg (by omega)]
    simp only [hrel, Bool.false_eq_true, if_false, Option.map_some]
    refine ⟨_, rfl, ?_⟩
    unfold freeSlots; simp; omega

theorem C40_failed_accept_frees_slot (n : Nat) (es : List Ev) (s : St) (h : run (new n) es = some s)
    (ha : 0 < s.accepting) :
    ∃ s', step s .acceptErr = some s' ∧ freeSlots s' = freeSlots s + 1 := by
  obtain ⟨h1, h2, h3, h4⟩ := run_inv n es _ _ (inv_new n) h
  simp only [step, release]
  rw [if_neg (by omega), if_neg (by omega)]
  refine ⟨_, rfl, ?_⟩
  unfold freeSlots; simp; omega

end Verif.Limit
