import Verif.Proofs.PumpTold
/-
What a close leaves as it was: the reason first given, and at the end of the pump the remotes.
-/
namespace Verif.Pump

open Verif.Frag

/-- A circuit asked to close stays so, with the reason first given. -/
def Kept (s s' : State) : Prop :=
  ∀ (c : Nat) (k : Ckt), s.ckts[c]? = some k → k.stopReq = true →
    ∃ k' : Ckt, s'.ckts[c]? = some k' ∧ k'.stopReq = true ∧ k'.reason = k.reason

theorem Kept.trans {s s1 s2 : State} (h1 : Kept s s1) (h2 : Kept s1 s2) : Kept s s2 := by
  intro c k hk hc
  obtain ⟨k1, hk1, hc1, e1⟩ := h1 c k hk hc
  obtain ⟨k2, hk2, hc2, e2⟩ := h2 c k1 hk1 hc1
  exact ⟨k2, hk2, hc2, e2.trans e1⟩

theorem Kept.same {s s' : State} (h : s'.ckts = s.ckts) : Kept s s' := by
  intro c k hk hc
  exact ⟨k, by rw [h]; exact hk, hc, rfl⟩

theorem Kept.set {s s' : State} {c : Nat} {k k' : Ckt} (hk : s.ckts[c]? = some k)
    (hs : s'.ckts = s.ckts.set c k')
    (h : k.stopReq = true → k'.stopReq = true ∧ k'.reason = k.reason) : Kept s s' := by
  intro d k1 hk1 hc
  rw [hs]
  by_cases hcd : c = d
  · subst hcd
    rw [hk] at hk1; cases hk1
    exact ⟨k', by rw [get_set hk]; simp, h hc⟩
  · exact ⟨k1, by rw [get_set hk, if_neg hcd]; exact hk1, hc, rfl⟩

theorem cleanup_kept (s : State) (c : Nat) (b : Bool) : Kept s (cleanup s c b) := by
  unfold cleanup
  split
  · exact Kept.same rfl
  · rename_i k hk
    split
    · exact Kept.same rfl
    · exact Kept.set hk rfl (fun h => ⟨rfl, rfl⟩)

theorem cleanups_kept (cs : List Nat) (s : State) : Kept s (cleanups s cs) := by
  induction cs generalizing s with
  | nil => exact Kept.same rfl
  | cons c cs ih => exact (cleanup_kept s c true).trans (ih _)

theorem finish_kept (s : State) (late : List Nat) : Kept s (finish s late) :=
  (Kept.same (s' := { s with phase := .idle }) rfl).trans (cleanups_kept late _)

theorem exit_kept (s : State) : Kept s (exitPump s) :=
  (cleanups_kept _ s).trans (Kept.same rfl)

theorem onRead_kept (s : State) (msg : Message) : Kept s (onRead s msg) := by
  unfold onRead
  split
  · exact (Kept.same (s' := { s with remotes := erase s.remotes msg.fromPeerID }) rfl).trans
      (exit_kept _)
  · dsimp only
    generalize hs1 : (if msg.typ = callPeerFromIsShutdown ∧ msg.fromPeerID ≠ s.self then
        { s with remotes := erase s.remotes msg.fromPeerID } else s) = s1
    have h0 : Kept s s1 := Kept.same (by rw [← hs1]; split <;> rfl)
    split
    · exact h0
    · split
      · exact h0.trans (cleanup_kept _ _ _)
      · exact h0.trans (Kept.same rfl)

theorem kept_step {s s' : State} {a : Action} (h : step s a = some s') : Kept s s' := by
  cases a with
  | tell info =>
    simp only [step] at h
    have hs : s' = tellPump s info := by split at h <;> cases h <;> rfl
    subst hs
    intro c k hk hc
    refine ⟨k, ?_, hc, rfl⟩
    simp only [tellPump]
    rw [List.getElem?_append_left (List.getElem?_eq_some_iff.1 hk).1]; exact hk
  | arrive msg =>
    simp only [step] at h
    repeat' split at h
    all_goals cases h
    all_goals exact Kept.same rfl
  | drop msg =>
    simp only [step] at h
    repeat' split at h
    all_goals cases h
    all_goals exact Kept.same rfl
  | reqClose c reason =>
    simp only [step] at h
    split at h
    · cases h
    · rename_i k hk
      split at h
      · cases h; exact Kept.same rfl
      · rename_i hn
        cases h; exact Kept.set hk rfl (fun h => absurd h hn)
  | handClose c =>
    simp only [step] at h
    split at h
    · cases h
    · split at h
      · split at h
        · cases h; exact cleanup_kept _ _ _
        · cases h; exact Kept.same rfl
        · cases h
      · cases h
  | takeRead =>
    simp only [step] at h
    split at h
    · rename_i msg rest hp hq
      cases h
      exact (Kept.same (s' := { s with readsIn := rest }) rfl).trans (onRead_kept _ _)
    · cases h
  | takeErr =>
    simp only [step] at h
    split at h
    · split at h <;> cases h <;> exact Kept.same rfl
    · cases h
  | put =>
    simp only [step] at h
    split at h
    · rename_i c f late hp
      split at h
      · cases h
      · rename_i k hk
        split at h
        · cases h
          exact (Kept.set (s' := { s with ckts := s.ckts.set c { k with reads := k.reads ++ [f] } })
            hk rfl (fun h => ⟨h, rfl⟩)).trans (finish_kept _ _)
        · cases h
    · cases h
  | putErr =>
    simp only [step] at h
    split at h
    · split at h
      · cases h
      · rename_i k hk
        split at h
        · cases h
          exact Kept.set hk rfl (fun h => ⟨h, rfl⟩)
        · cases h
    · cases h
  | timeout2 =>
    simp only [step] at h
    split at h
    · cases h; exact (cleanup_kept _ _ _).trans (finish_kept _ _)
    · cases h
  | timeout5 =>
    simp only [step] at h
    split at h
    · split at h
      · cases h
      · cases h; exact finish_kept _ _
    · cases h
  | seeHalt =>
    simp only [step] at h
    split at h
    · split at h
      · cases h
      · split at h
        · cases h; exact (cleanup_kept _ _ _).trans (finish_kept _ _)
        · cases h
    · split at h
      · cases h
      · split at h
        · cases h; exact (cleanup_kept _ _ _).trans (Kept.same rfl)
        · cases h
    · cases h
  | reqStop => simp only [step] at h; cases h; exact Kept.same rfl
  | exit =>
    simp only [step] at h
    split at h
    · split at h
      · cases h; exact exit_kept _
      · cases h; exact (finish_kept _ _).trans (exit_kept _)
      · cases h; exact exit_kept _
      · cases h
    · cases h
  | read c =>
    simp only [step] at h
    split at h
    · cases h
    · rename_i k hk
      split at h
      · cases h
      · cases h; exact Kept.set hk rfl (fun h => ⟨h, rfl⟩)
  | readErr c =>
    simp only [step] at h
    split at h
    · cases h
    · rename_i k hk
      split at h
      · cases h
      · cases h; exact Kept.set hk rfl (fun h => ⟨h, rfl⟩)
  | addRemote key peerID => simp only [step] at h; cases h; exact Kept.same rfl

theorem kept_run {s s' : State} {as : List Action} (h : run s as = some s') : Kept s s' := by
  induction as generalizing s with
  | nil => cases h; exact Kept.same rfl
  | cons a as ih =>
    simp only [run, Option.bind_eq_some_iff] at h
    obtain ⟨s1, h1, h2⟩ := h
    exact (kept_step h1).trans (ih h2)

/-! ### The end of the pump -/

/-- Every remote has been told. -/
def ToldAll (s : State) : Prop :=
  ∀ r ∈ s.remotes, ∃ m ∈ s.out, m.typ = callPeerFromIsShutdown ∧ m.fromPeerID = s.self ∧
    m.toPeerID = r.2

theorem exit_told (s : State) : ToldAll (exitPump s) := by
  intro r hr
  exact ⟨notice (exitPump s).self r, List.mem_append_right _ (List.mem_map.2 ⟨r, hr, rfl⟩), rfl, rfl,
    rfl⟩

theorem cleanup_phase (s : State) (c : Nat) (b : Bool) : (cleanup s c b).phase = s.phase := by
  unfold cleanup
  split
  · rfl
  · split <;> rfl

theorem cleanups_phase (cs : List Nat) (s : State) : (cleanups s cs).phase = s.phase := by
  induction cs generalizing s with
  | nil => rfl
  | cons c cs ih => exact (ih _).trans (cleanup_phase s c true)

theorem finish_phase (s : State) (late : List Nat) : (finish s late).phase = .idle :=
  cleanups_phase late _

/-- The step that ends the pump tells every remote. -/
theorem told_step {s s' : State} {a : Action} (h : step s a = some s') (hp : s.phase ≠ .stopped)
    (hp' : s'.phase = .stopped) : ToldAll s' := by
  cases a with
  | takeRead =>
    simp only [step] at h
    split at h
    · rename_i msg rest hi hq
      cases h
      revert hp'
      unfold onRead
      split
      · exact fun _ => exit_told _
      · dsimp only
        generalize hs1 : (if msg.typ = callPeerFromIsShutdown ∧ msg.fromPeerID ≠ s.self then
          ({ s with readsIn := rest, remotes := erase s.remotes msg.fromPeerID } : State)
          else { s with readsIn := rest }) = s1
        have h1 : s1.phase = .idle := by rw [← hs1]; split <;> exact hi
        split
        · intro h; rw [h1] at h; cases h
        · split
          · intro h; rw [cleanup_phase, h1] at h; cases h
          · intro h; cases h
    · cases h
  | exit =>
    simp only [step] at h
    split at h
    · split at h <;> cases h <;> exact exit_told _
    · cases h
  | handClose c =>
    simp only [step] at h
    repeat' split at h
    all_goals cases h
    · rw [cleanup_phase] at hp'; exact absurd hp' hp
    · cases hp'
  | put =>
    simp only [step] at h
    repeat' split at h
    all_goals cases h
    rw [finish_phase] at hp'; cases hp'
  | timeout2 =>
    simp only [step] at h
    repeat' split at h
    all_goals cases h
    rw [finish_phase] at hp'; cases hp'
  | timeout5 =>
    simp only [step] at h
    repeat' split at h
    all_goals cases h
    rw [finish_phase] at hp'; cases hp'
  | seeHalt =>
    simp only [step] at h
    repeat' split at h
    all_goals cases h
    · rw [finish_phase] at hp'; cases hp'
    · cases hp'
  | tell info =>
    simp only [step] at h
    repeat' split at h
    all_goals cases h
    all_goals exact absurd hp' hp
  | takeErr =>
    simp only [step] at h
    repeat' split at h
    all_goals cases h
    · exact absurd hp' hp
    · cases hp'
  | putErr =>
    simp only [step] at h
    repeat' split at h
    all_goals cases h
    cases hp'
  | _ =>
    simp only [step] at h
    repeat' split at h
    all_goals cases h
    all_goals exact absurd hp' hp

end Verif.Pump
