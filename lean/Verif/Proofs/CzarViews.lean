import Verif.Proofs.CzarApply
/-
What each event does to the views delivered, answered and taken over.
-/
namespace Verif.Czar
open Verif.KV (Key Store Leaf Ticket lookup put erase leafOf doCAS)

theorem hashOf_clone (l : RList) (v : Vers) : hashOf l.clone v = hashOf l v := by
  unfold hashOf RList.clone
  simp only [Option.map_map, List.flatMap_map]
  rfl

/-- How the version, the digest and the views delivered (`us`) or taken over (`qs`) go together. -/
structure Moved (m m' : Mem) (us qs : List View) : Prop where
  le : verLe m.vers m'.vers
  out : (us = [] ∧ qs = [] ∧ m'.hash = m.hash) ∨
    (us = [(m'.vers, m'.members.clone)] ∧ qs = [] ∧ m'.hash ≠ m.hash ∧ m'.hash = some (hashOf m'.members m'.vers)) ∨
    (us = [] ∧ qs = [(m'.vers, m'.members)] ∧ m'.hash = some (hashOf m'.members m'.vers))

theorem Moved.same {m m' : Mem} (h1 : m'.vers = m.vers) (h2 : m'.hash = m.hash) : Moved m m' [] [] :=
  ⟨by rw [h1]; exact verLe_refl _, Or.inl ⟨rfl, rfl, h2⟩⟩

theorem Moved.congr {m m0 m' m1 : Mem} {us qs} (h : Moved m m' us qs) (h1 : m0.vers = m.vers) (h2 : m0.hash = m.hash)
    (h3 : m1.vers = m'.vers) (h4 : m1.hash = m'.hash) (h5 : m1.members = m'.members) : Moved m0 m1 us qs := by
  refine ⟨by rw [h1, h3]; exact h.le, ?_⟩
  rw [h3, h4, h5, h2]
  exact h.out

theorem Moved.settle {m m' : Mem} {us qs now} (h : Moved m m' us qs) : Moved m (settle m' now) us qs :=
  h.congr rfl rfl (by simp) (by simp) (by simp)

theorem setVers_moved {m : Mem} {v l now m' us} (h : setVers m v l true now = some (m', us)) : Moved m m' us [] := by
  obtain ⟨-, h2, h3, h4⟩ := setVers_some h
  subst h3
  refine ⟨h2, ?_⟩
  by_cases e : m.hash = some (hashOf l v)
  · exact Or.inl ⟨by rw [h4, if_neg (by simp [e])], rfl, e.symm⟩
  · refine Or.inr (Or.inl ⟨by rw [h4, if_pos ⟨e, rfl⟩], rfl, fun h => e h.symm, ?_⟩)
    rw [hashOf_clone]

theorem setVers_quiet {m : Mem} {v l now m' us} (h : setVers m v l false now = some (m', us)) :
    us = [] ∧ Moved m m' [] [(m'.vers, m'.members)] := by
  obtain ⟨-, h2, h3, h4⟩ := setVers_some h
  subst h3
  refine ⟨by rw [h4, if_neg (by simp)], h2, Or.inr (Or.inr ⟨rfl, rfl, ?_⟩)⟩
  rw [hashOf_clone]

theorem handlePing_moved {c : Cfg} {me : Key} {m : Mem} {d : Det} {now now2 : Int} {m' us r}
    (h : handlePing c me m d now now2 = some (m', us, r)) : Moved m m' us [] := by
  unfold handlePing at h
  split at h
  · cases h; exact .same rfl rfl
  split at h
  · cases h; exact .same rfl rfl
  simp only at h
  split at h
  · cases h; exact .same rfl rfl
  · rw [Option.map_eq_some_iff] at h
    obtain ⟨q, hq, e⟩ := h
    cases e
    exact (setVers_moved hq).congr rfl rfl rfl rfl rfl

theorem onBid_moved (c : Cfg) (d : Det) (m : Mem) (a : Ticket) (bid cur : RList) (now now2 : Int) :
    Moved m (onBid c d m a bid cur now now2).1 (onBid c d m a bid cur now now2).2.1
      (onBid c d m a bid cur now now2).2.2 := by
  have key : Moved m
      (if cur.czarName = d.name ∧ a.endTm ≠ 0 then ({ m with dead := true }, ([] : List View), ([] : List View))
       else match setVers { m with state := .notCzar } (versOf m a false) { cur with leaseDur := c.memDur } false now2 with
        | none => ({ m with state := .notCzar }, [], [])
        | some (m', us) => (m', us, [(m'.vers, m'.members)])).1
      (if cur.czarName = d.name ∧ a.endTm ≠ 0 then ({ m with dead := true }, ([] : List View), ([] : List View))
       else match setVers { m with state := .notCzar } (versOf m a false) { cur with leaseDur := c.memDur } false now2 with
        | none => ({ m with state := .notCzar }, [], [])
        | some (m', us) => (m', us, [(m'.vers, m'.members)])).2.1
      (if cur.czarName = d.name ∧ a.endTm ≠ 0 then ({ m with dead := true }, ([] : List View), ([] : List View))
       else match setVers { m with state := .notCzar } (versOf m a false) { cur with leaseDur := c.memDur } false now2 with
        | none => ({ m with state := .notCzar }, [], [])
        | some (m', us) => (m', us, [(m'.vers, m'.members)])).2.2 := by
    split
    · exact .same rfl rfl
    · cases hv : setVers { m with state := .notCzar } (versOf m a false) { cur with leaseDur := c.memDur } false now2 with
      | none => exact .same rfl rfl
      | some r =>
        obtain ⟨m', us⟩ := r
        obtain ⟨h1, h2⟩ := setVers_quiet hv
        subst h1
        exact h2.congr rfl rfl rfl rfl rfl
  unfold onBid
  cases a.err with
  | none =>
    simp only
    split
    · exact .same rfl rfl
    · cases hv : setVers { m with state := .amCzar } (versOf m a true) bid true now2 with
      | none => exact .same rfl rfl
      | some r =>
        obtain ⟨m', us⟩ := r
        exact (setVers_moved hv).congr rfl rfl rfl rfl rfl
  | some e =>
    cases e with
    | keyNotFound => exact .same rfl rfl
    | _ => exact key

/-- A write that won: what is delivered is of the epoch won. -/
theorem onBid_ups {c : Cfg} {d : Det} {m : Mem} {a : Ticket} {bid cur : RList} {now now2 : Int} {v : View}
    (h : v ∈ (onBid c d m a bid cur now now2).2.1) : a.err = none ∧ v.1.epoch = a.epoch := by
  have key : v ∉
      (if cur.czarName = d.name ∧ a.endTm ≠ 0 then ({ m with dead := true }, ([] : List View), ([] : List View))
       else match setVers { m with state := .notCzar } (versOf m a false) { cur with leaseDur := c.memDur } false now2 with
        | none => ({ m with state := .notCzar }, [], [])
        | some (m', us) => (m', us, [(m'.vers, m'.members)])).2.1 := by
    split
    · simp
    · cases hv : setVers { m with state := .notCzar } (versOf m a false) { cur with leaseDur := c.memDur } false now2 with
      | none => simp
      | some r =>
        obtain ⟨m', us⟩ := r
        rw [(setVers_quiet hv).1]
        simp
  unfold onBid at h
  cases ha : a.err with
  | none =>
    rw [ha] at h
    simp only at h
    split at h
    · simp at h
    · cases hv : setVers { m with state := .amCzar } (versOf m a true) bid true now2 with
      | none => rw [hv] at h; simp at h
      | some r =>
        obtain ⟨m', us⟩ := r
        rw [hv] at h
        refine ⟨rfl, ?_⟩
        obtain ⟨-, -, h3, -⟩ := setVers_some hv
        rcases setVers_ups hv with e | e
        · rw [e] at h; simp at h
        · rw [e] at h
          simp at h
          subst h
          rw [h3]
          rfl
  | some e =>
    rw [ha] at h
    cases e with
    | keyNotFound => simp at h
    | _ => exact absurd h key

theorem onRenew_moved (m : Mem) (a : Ticket) : Moved m (onRenew m a).1 [] [] := by
  unfold onRenew
  split
  · exact .same rfl rfl
  split
  · exact .same rfl rfl
  · rename_i h
    refine ⟨?_, Or.inl ⟨rfl, rfl, rfl⟩⟩
    unfold verLe
    simp only
    omega

theorem onReply_moved {c : Cfg} {d : Det} {m : Mem} {v : View} {now now2 : Int} {m' us ls}
    (h : onReply c d m v now now2 = (m', us, ls)) : Moved m m' us [] := by
  rcases onReply_cases h with ⟨h1, h2, h3, h4, h5, h6⟩ | ⟨h1, h2, h3, h4, h5, h6, h7⟩
  · rw [h4]; exact .same h1 h3
  · refine ⟨by rw [h2]; exact h1, ?_⟩
    by_cases e : m.hash = some (hashOf v.2 v.1)
    · exact Or.inl ⟨by rw [h7, if_neg (by simp [e])], rfl, by rw [h4, e]⟩
    · refine Or.inr (Or.inl ⟨by rw [h7, if_pos e, h2, h3], rfl, by rw [h4]; exact fun h => e h.symm, ?_⟩)
      rw [h2, h3, h4, hashOf_clone]

/-- One event: member `i` changes; it delivers `us`, takes over `qs` in silence, answers `sv`. -/
structure StepOut (c : Cfg) (s s' : Sys) (t i : Nat) (us qs sv : List View) : Prop where
  others : ∀ j, j ≠ i → s'.mem j = s.mem j
  moved : Moved (s.mem i) (s'.mem i) us qs
  ups : s'.ups = s.ups ++ us.map fun v => (i, v)
  quiet : s'.quiet = s.quiet ++ qs.map fun v => (i, v)
  served : s'.served = s.served ++ sv.map fun v => (i, t, v)
  src : ∀ v ∈ us, (v.1.epoch, i) ∈ s'.owner ∨ ∃ w ∈ seen s, v.1 = w.1 ∧ sameView v.2 w.2
  ans : sv = [] ∨ (sv = [((s'.mem i).vers, (s'.mem i).members.clone)] ∧ ((s'.mem i).vers.epoch, i) ∈ s.owner ∧
    (s'.mem i).vers.epoch = (s.mem i).vers.epoch ∧ c.clk i t ≤ (s.mem i).vers.until_ ∧ s'.owner = s.owner)

/-- Nothing delivered, taken over, or answered. -/
theorem StepOut.silent {c s s' t i} (h : ∀ j, j ≠ i → s'.mem j = s.mem j) (hm : Moved (s.mem i) (s'.mem i) [] [])
    (h1 : s'.ups = s.ups) (h2 : s'.quiet = s.quiet) (h3 : s'.served = s.served) :
    StepOut c s s' t i [] [] [] :=
  ⟨h, hm, by simp [h1], by simp [h2], by simp [h3], by simp, Or.inl rfl⟩

theorem upd_other {α : Type} (f : Nat → α) (i : Nat) (x : α) : ∀ j, j ≠ i → upd f i x j = f j := by
  intro j h; unfold upd; rw [if_neg h]

theorem upd_same {α : Type} (f : Nat → α) (i : Nat) (x : α) : upd f i x i = x := by
  unfold upd; rw [if_pos rfl]

theorem StepOut.put {c s t i m'} {s' : Sys} (h : s'.mem = upd s.mem i m') (hm : Moved (s.mem i) m' [] [])
    (h1 : s'.ups = s.ups) (h2 : s'.quiet = s.quiet) (h3 : s'.served = s.served) :
    StepOut c s s' t i [] [] [] :=
  .silent (by rw [h]; exact upd_other _ _ _) (by rw [h, upd_same]; exact hm) h1 h2 h3

theorem step_out {c s s' t t2 act} (h : Inv c s) (he : event c s t t2 act = some s') :
    ∃ i us qs sv, StepOut c s s' t i us qs sv := by
  cases act with
  | bid i =>
    unfold event at he
    simp only at he
    split at he
    · cases he
      exact ⟨i, [], [], [], .put rfl (.same rfl rfl) (by simp [Sys.put]) rfl rfl⟩
    · cases he
  | renew i =>
    unfold event at he
    simp only at he
    split at he
    · cases he
      exact ⟨i, [], [], [], .put rfl (.same rfl rfl) (by simp [Sys.put]) rfl rfl⟩
    · cases he
  | giveUp i =>
    unfold event at he
    simp only at he
    split at he
    · split at he
      · cases he
      · cases he
        exact ⟨i, [], [], [], .put rfl (.same rfl rfl) (by simp [Sys.put]) rfl rfl⟩
    · split at he
      · cases he
      · cases he
        exact ⟨i, [], [], [], .put rfl (.same rfl rfl) (by simp [Sys.put]) rfl rfl⟩
    · cases he
  | apply k n r =>
    unfold event at he
    simp only at he
    split at he
    · cases he
    split at he
    · rw [Option.map_eq_some_iff] at he
      obtain ⟨R, -, e⟩ := he
      cases e
      exact ⟨0, [], [], [], .silent (fun _ _ => rfl) (.same rfl rfl) rfl rfl rfl⟩
    · cases he
  | ping i addr =>
    unfold event at he
    simp only at he
    split at he
    · split at he
      · cases he
        exact ⟨i, [], [], [], .put rfl (.same rfl rfl) (by simp [Sys.put]) rfl rfl⟩
      split at he
      · cases he
        exact ⟨i, [], [], [], .put rfl (.same rfl rfl) (by simp [Sys.put]) rfl rfl⟩
      · cases he
        exact ⟨i, [], [], [], .put rfl (.same rfl rfl) (by simp [Sys.put]) rfl rfl⟩
    · cases he
  | pingFail i =>
    unfold event at he
    simp only at he
    split at he
    · cases he
      exact ⟨i, [], [], [], .put rfl (.same rfl rfl) (by simp [Sys.put]) rfl rfl⟩
    · cases he
  | lapse i =>
    unfold event at he
    simp only at he
    split at he
    · cases he
      exact ⟨i, [], [], [], .put rfl (.same rfl rfl) (by simp [Sys.put]) rfl rfl⟩
    · cases he
  | expire j =>
    unfold event at he
    simp only at he
    split at he
    rotate_left
    · cases he
    rename_i hc
    split at he
    · cases he
      exact ⟨j, [], [], [], .put rfl (Moved.same rfl rfl).settle (by simp [Sys.put]) rfl rfl⟩
    · generalize silentNames c (c.det j).name (s.mem j) (c.clk j t) = gone at he
      cases hv : setVers (forget (s.mem j) gone) { (s.mem j).vers with within := (s.mem j).vers.within + 1 }
          (withoutNames (s.mem j) gone) true (c.clk j t2) with
      | none =>
        rw [hv] at he
        cases he
        exact ⟨j, [], [], [], .put rfl (m' := settle (forget (s.mem j) gone) (c.clk j t2))
          (Moved.same (m := s.mem j) (m' := forget (s.mem j) gone) rfl rfl).settle (by simp [Sys.put]) rfl rfl⟩
      | some r =>
        obtain ⟨m', us⟩ := r
        rw [hv] at he
        cases he
        have hm : Moved (s.mem j) (settle m' (c.clk j t2)) us [] :=
          ((setVers_moved hv).congr (m0 := s.mem j) (m1 := m') rfl rfl rfl rfl rfl).settle
        refine ⟨j, us, [], [], upd_other _ _ _, by simpa [Sys.put, upd_same] using hm, rfl, by simp [Sys.put], by simp [Sys.put], ?_, Or.inl rfl⟩
        intro v hv'
        left
        show (v.1.epoch, j) ∈ s.owner
        rcases setVers_ups hv with e | e
        · rw [e] at hv'; cases hv'
        · rw [e] at hv'
          simp at hv'
          subst hv'
          obtain ⟨-, -, h3, -⟩ := setVers_some hv
          rw [h3]
          exact (h.mem j).czar hc.1
  | serve j k =>
    unfold event at he
    simp only at he
    split at he
    · cases he
    rename_i i d hp
    split at he
    rotate_left
    · cases he
    rename_i hc
    split at he
    · cases he
      exact ⟨j, [], [], [], .put rfl (.same rfl rfl) (by simp [Sys.put]) rfl rfl⟩
    · rename_i m' us r hh
      cases he
      have hm := handlePing_moved hh
      have hbase : ∀ v ∈ us, v.1 = m'.vers := by
        intro v hv
        rcases hm.out with ⟨e, -⟩ | ⟨e, -⟩ | ⟨e, -⟩
        · rw [e] at hv; cases hv
        · rw [e] at hv; simp at hv; rw [hv]
        · rw [e] at hv; cases hv
      refine ⟨j, us, [], r.toList, upd_other _ _ _, by simpa [Sys.put, upd_same] using hm.settle, rfl, by simp [Sys.put], by simp [Sys.put], ?_, ?_⟩
      · intro v hv
        left
        rw [hbase v hv]
        show (m'.vers.epoch, j) ∈ s.owner
        rcases handlePing_cases hh with ⟨h1, h2, h3, h4, h5⟩ | ⟨h1, h2, h3, h4, h5, h6, h7⟩ | ⟨h1, h2, h3, h4, h5⟩
        · cases hv
        · cases hv
        · rw [h4.epoch]; exact (h.mem j).czar h1
      · simp only [Sys.put, upd_same, settle_vers, settle_members]
        rcases handlePing_cases hh with ⟨h1, h2, h3, h4, h5⟩ | ⟨h1, h2, h3, h4, h5, h6, h7⟩ | ⟨h1, h2, h3, h4, h5⟩
        · exact Or.inl rfl
        · exact Or.inr ⟨rfl, by rw [h4]; exact (h.mem j).czar h1, by rw [h4], h3, trivial⟩
        · exact Or.inr ⟨rfl, by rw [h4.epoch]; exact (h.mem j).czar h1, h4.epoch, h2, trivial⟩
  | reply i =>
    unfold event at he
    simp only at he
    split at he
    rotate_left
    · cases he
    rename_i k hb
    split at he
    · cases he
    rename_i v hv
    split at he
    · cases he
    obtain ⟨j, i', d', hp', hne, ho, hseen, hbd⟩ := h.rep k v (find_mem hv)
    cases hr : onReply c (c.det i) { s.mem i with busy := none } v (c.clk i t) (c.clk i t2) with
    | mk m' rest =>
    obtain ⟨us, ls⟩ := rest
    rw [hr] at he
    cases he
    refine ⟨i, us, [], [], upd_other _ _ _, ?_, rfl, by simp [Sys.put], by simp [Sys.put], ?_, Or.inl rfl⟩
    · simpa [Sys.put, upd_same] using (onReply_moved hr).congr (m0 := s.mem i) rfl rfl rfl rfl rfl
    · intro u hu
      right
      refine ⟨v, hseen, ?_⟩
      rcases onReply_cases hr with ⟨h1, h2, h3, h4, h5, h6⟩ | ⟨h1, h2, h3, h4, h5, h6, h7⟩
      · rw [h4] at hu; cases hu
      · rw [h7] at hu
        split at hu
        · simp at hu
          subst hu
          exact ⟨rfl, (clone_view _).trans (clone_view _)⟩
        · cases hu
  | answer i =>
    unfold event at he
    simp only at he
    split at he
    · cases he
    unfold onAnswer at he
    simp only at he
    split at he
    · rename_i k hb
      split at he
      rotate_left
      · cases he
      rename_i a cur q ha hq
      cases he
      refine ⟨i, _, _, [], upd_other _ _ _, ?_, rfl, rfl, by simp [Sys.put], ?_, Or.inl rfl⟩
      · have := (onBid_moved c (c.det i) { s.mem i with busy := none } a q.list cur (c.clk i t) (c.clk i t2)).congr
          (m0 := s.mem i) rfl rfl rfl rfl rfl
        simpa [Sys.put, upd_same] using this.settle
      · intro v hv
        left
        obtain ⟨h1, h2⟩ := onBid_ups hv
        obtain ⟨q', hq', l, hl, hae, hend, hok⟩ := h.ans k a cur (find_mem ha)
        obtain ⟨q2, hq2, hsrc, -⟩ := (h.mem i).cas k hb
        rw [hq] at hq' hq2; cases hq'; cases hq2
        rcases hok with ⟨-, how, -⟩ | ⟨e, herr, -⟩
        · rw [h2, ← hsrc]; exact how
        · rw [h1] at herr; cases herr
    · rename_i k hb
      split at he
      rotate_left
      · cases he
      rename_i a cur ha
      cases he
      exact ⟨i, [], [], [], .put rfl ((onRenew_moved { s.mem i with busy := none } a).congr (m0 := s.mem i) rfl rfl rfl rfl rfl).settle
        (by simp [Sys.put]) rfl rfl⟩
    · cases he

theorem step_inv {c s s' x} (he : Czar.step c s x = some s') :
    s.now ≤ x.1 ∧ x.1 ≤ x.2.1 ∧ ∃ s1, event c s x.1 x.2.1 x.2.2 = some s1 ∧ s' = { s1 with now := x.2.1 } := by
  unfold Czar.step at he
  split at he
  · rename_i hc
    rw [Option.map_eq_some_iff] at he
    obtain ⟨s1, h1, h2⟩ := he
    exact ⟨hc.1, hc.2, s1, h1, h2.symm⟩
  · cases he

theorem step_out' {c s s' x} (h : Inv c s) (he : Czar.step c s x = some s') :
    ∃ i us qs sv, StepOut c s s' x.1 i us qs sv := by
  obtain ⟨-, -, s1, h1, rfl⟩ := step_inv he
  obtain ⟨i, us, qs, sv, h2⟩ := step_out h h1
  exact ⟨i, us, qs, sv, h2.others, h2.moved, h2.ups, h2.quiet, h2.served, h2.src, h2.ans⟩

end Verif.Czar
