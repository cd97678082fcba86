import Verif.Proofs.CzarViews
/-
Invariants over the views: order of deliveries, agreement of equal versions, epochs served.
-/
namespace Verif.Czar
open Verif.KV (Key Store Leaf Ticket lookup put erase leafOf doCAS)

theorem of_member (us : List View) (i j : Nat) :
    ((us.map fun v => (i, v)).filter fun x => x.1 = j).map (·.2) = if j = i then us else [] := by
  induction us with
  | nil => simp
  | cons u us ih =>
    by_cases e : j = i
    · subst e
      rw [if_pos rfl] at ih ⊢
      simp only [List.map_cons, decide_true, List.filter_cons_of_pos]
      rw [ih]
    · rw [if_neg e] at ih ⊢
      simp only [List.map_cons]
      rw [List.filter_cons_of_neg (by simpa using fun h => e h.symm), ih]

theorem delivered_step {c s s' t i us qs sv} (h : StepOut c s s' t i us qs sv) (j : Nat) :
    delivered s' j = delivered s j ++ if j = i then us else [] := by
  unfold delivered
  rw [h.ups, List.filter_append, List.map_append, of_member]

theorem quiet_step {c s s' t i us qs sv} (h : StepOut c s s' t i us qs sv) (j : Nat) :
    quietOf s' j = quietOf s j ++ if j = i then qs else [] := by
  unfold quietOf
  rw [h.quiet, List.filter_append, List.map_append, of_member]

/-- Induction over executions, with the invariant at hand. -/
theorem run_ind {c} (hs : Sane c) {P : Sys → Prop}
    (hstep : ∀ s s' x, Inv c s → Inv c s' → Czar.step c s x = some s' → P s → P s') :
    ∀ {xs s s'}, Inv c s → P s → Czar.run c s xs = some s' → P s'
  | [], s, s', _, h, he => by cases he; exact h
  | x :: xs, s, s', hi, h, he => by
    unfold Czar.run at he
    cases hst : Czar.step c s x with
    | none => rw [hst] at he; cases he
    | some s1 => rw [hst] at he; exact run_ind hs hstep (hi.step hs hst) (hstep s s1 x hi (hi.step hs hst) hst h) he

theorem reach_ind {c s} (hs : Sane c) {P : Sys → Prop} (h0 : P {})
    (hstep : ∀ s s' x, Inv c s → Inv c s' → Czar.step c s x = some s' → P s → P s') (h : Reach c s) : P s := by
  obtain ⟨xs, h⟩ := h
  exact run_ind hs hstep (Inv.init c) h0 h

/-! ### C89 -/

structure Mono (s : Sys) (i : Nat) : Prop where
  last : ∀ v ∈ delivered s i, verLe v.1 (s.mem i).vers
  pw : (delivered s i).Pairwise fun v w => verLe v.1 w.1

theorem Mono.step {c s s' x} (h : Inv c s) (he : Czar.step c s x = some s') {j} (hm : Mono s j) : Mono s' j := by
  obtain ⟨i, us, qs, sv, ho⟩ := step_out' h he
  have hd := delivered_step ho j
  by_cases e : j = i
  · subst e
    rw [if_pos rfl] at hd
    have hus : ∀ v ∈ us, v.1 = (s'.mem j).vers := by
      intro v hv
      rcases ho.moved.out with ⟨e, -⟩ | ⟨e, -⟩ | ⟨e, -⟩ <;> rw [e] at hv <;> simp at hv
      rw [hv]
    have hl : ∀ v ∈ delivered s j, verLe v.1 (s'.mem j).vers := fun v hv => verLe_trans (hm.last v hv) ho.moved.le
    refine ⟨?_, ?_⟩
    · intro v hv
      rw [hd] at hv
      rcases List.mem_append.1 hv with h | h
      · exact hl v h
      · rw [hus v h]; exact verLe_refl _
    · rw [hd, List.pairwise_append]
      refine ⟨hm.pw, ?_, fun v hv w hw => by rw [hus w hw]; exact hl v hv⟩
      rcases ho.moved.out with ⟨e, -⟩ | ⟨e, -⟩ | ⟨e, -⟩ <;> rw [e] <;> simp
  · rw [if_neg e, List.append_nil] at hd
    exact ⟨by rw [hd, ho.others j e]; exact hm.last, by rw [hd]; exact hm.pw⟩

theorem Mono.reach {c s} (hs : Sane c) (h : Reach c s) (i : Nat) : Mono s i :=
  reach_ind hs (P := fun s => Mono s i) ⟨by intro v hv; simp [delivered] at hv, by simp [delivered]⟩
    (fun _ _ _ hi _ he hm => hm.step hi he) h

/-- The digest is that of the view last delivered since `n` deliveries, if none was taken over since. -/
structure NoRep (n : Nat) (s : Sys) (i : Nat) : Prop where
  len : n ≤ (delivered s i).length
  last : ∀ v, ((delivered s i).drop n).getLast? = some v → (s.mem i).hash = some (hashOf v.2 v.1)
  pw : ∀ k v w, (delivered s i)[n + k]? = some v → (delivered s i)[n + k + 1]? = some w → hashOf v.2 v.1 ≠ hashOf w.2 w.1

theorem NoRep.step {c s s' x n} (h : Inv c s) (he : Czar.step c s x = some s') {j} (hm : NoRep n s j)
    (hq : quietOf s' j = quietOf s j) : NoRep n s' j := by
  obtain ⟨i, us, qs, sv, ho⟩ := step_out' h he
  have hd := delivered_step ho j
  have hq' := quiet_step ho j
  by_cases e : j = i
  · subst e
    rw [if_pos rfl] at hd hq'
    rcases ho.moved.out with ⟨e1, e2, e3⟩ | ⟨e1, e2, e3, e4⟩ | ⟨e1, e2, e3⟩
    · rw [e1, List.append_nil] at hd
      exact ⟨by rw [hd]; exact hm.len, by rw [hd, e3]; exact hm.last, by rw [hd]; exact hm.pw⟩
    · rw [e1] at hd
      have hn := hm.len
      refine ⟨by rw [hd]; simp; omega, ?_, ?_⟩
      · intro v hv
        rw [hd, List.drop_append_of_le_length hn] at hv
        simp at hv
        rw [← hv, e4, hashOf_clone]
      · intro k v w hv hw
        rw [hd] at hv hw
        rcases Nat.lt_or_ge (n + k + 1) (delivered s j).length with hk | hk
        · rw [List.getElem?_append_left (by omega)] at hv hw
          exact hm.pw k v w hv hw
        · have hk2 : n + k + 1 = (delivered s j).length := by
            have := (List.getElem?_eq_some_iff.1 hw).1
            simp at this
            omega
          rw [hk2] at hw
          simp at hw
          rw [List.getElem?_append_left (by omega)] at hv
          have hl : ((delivered s j).drop n).getLast? = some v := by
            rw [List.getLast?_eq_getElem?, List.getElem?_drop, List.length_drop, ← hv]
            congr 1
            omega
          intro e
          apply e3
          rw [hm.last v hl, e4, e, ← hw, hashOf_clone]
    · rw [e2] at hq'
      rw [hq] at hq'
      have := congrArg List.length hq'
      simp at this
  · rw [if_neg e, List.append_nil] at hd
    exact ⟨by rw [hd]; exact hm.len, by rw [hd, ho.others j e]; exact hm.last, by rw [hd]; exact hm.pw⟩

theorem quiet_grow {c s s' x} (h : Inv c s) (he : Czar.step c s x = some s') (j : Nat) :
    ∃ l, quietOf s' j = quietOf s j ++ l := by
  obtain ⟨i, us, qs, sv, ho⟩ := step_out' h he
  exact ⟨_, quiet_step ho j⟩

theorem quiet_run {c} (hs : Sane c) : ∀ {xs s s'}, Inv c s → Czar.run c s xs = some s' → ∀ j,
    ∃ l, quietOf s' j = quietOf s j ++ l
  | [], s, s', _, he, j => by cases he; exact ⟨[], by simp⟩
  | x :: xs, s, s', hi, he, j => by
    unfold Czar.run at he
    cases hst : Czar.step c s x with
    | none => rw [hst] at he; cases he
    | some s1 =>
      rw [hst] at he
      obtain ⟨l, h1⟩ := quiet_grow hi hst j
      obtain ⟨l', h2⟩ := quiet_run hs (hi.step hs hst) he j
      exact ⟨l ++ l', by rw [h2, h1, List.append_assoc]⟩

theorem NoRep.run {c} (hs : Sane c) {n j} : ∀ {xs s s'}, Inv c s → Czar.run c s xs = some s' →
    quietOf s' j = quietOf s j → NoRep n s j → NoRep n s' j
  | [], s, s', _, he, _, h => by cases he; exact h
  | x :: xs, s, s', hi, he, hq, h => by
    unfold Czar.run at he
    cases hst : Czar.step c s x with
    | none => rw [hst] at he; cases he
    | some s1 =>
      rw [hst] at he
      obtain ⟨l, h1⟩ := quiet_grow hi hst j
      obtain ⟨l', h2⟩ := quiet_run hs (hi.step hs hst) he j
      have hl : l = [] ∧ l' = [] := by
        have := congrArg List.length hq
        rw [h2, h1] at this
        simp only [List.length_append] at this
        exact ⟨List.eq_nil_of_length_eq_zero (by omega), List.eq_nil_of_length_eq_zero (by omega)⟩
      rw [hl.1, List.append_nil] at h1
      rw [hl.2, List.append_nil] at h2
      exact NoRep.run hs (hi.step hs hst) he h2 (h.step hi hst h1)

/-- The digest a member keeps is that of a view it delivered, or took over in silence. -/
theorem hash_from {c s} (hs : Sane c) (h : Reach c s) (i : Nat) :
    ∀ x, (s.mem i).hash = some x → ∃ v, (v ∈ delivered s i ∨ v ∈ quietOf s i) ∧ x = hashOf v.2 v.1 := by
  refine reach_ind hs (P := fun s => ∀ x, (s.mem i).hash = some x → ∃ v, (v ∈ delivered s i ∨ v ∈ quietOf s i) ∧ x = hashOf v.2 v.1)
    (fun x hx => nomatch hx) ?_ h
  intro s s' x hi _ he ih y hy
  obtain ⟨j, us, qs, sv, ho⟩ := step_out' hi he
  have hd := delivered_step ho i
  have hq := quiet_step ho i
  by_cases e : i = j
  · subst e
    rw [if_pos rfl] at hd hq
    rw [hd, hq]
    rcases ho.moved.out with ⟨e1, e2, e3⟩ | ⟨e1, e2, e3, e4⟩ | ⟨e1, e2, e3⟩
    · rw [e3] at hy
      obtain ⟨v, hv, e⟩ := ih y hy
      rcases hv with hv | hv
      · exact ⟨v, Or.inl (List.mem_append_left _ hv), e⟩
      · exact ⟨v, Or.inr (List.mem_append_left _ hv), e⟩
    · refine ⟨_, Or.inl (List.mem_append_right _ (by rw [e1]; exact List.mem_singleton.2 rfl)), ?_⟩
      rw [e4] at hy
      cases hy
      rw [hashOf_clone]
    · refine ⟨_, Or.inr (List.mem_append_right _ (by rw [e2]; exact List.mem_singleton.2 rfl)), ?_⟩
      rw [e3] at hy
      cases hy
      rfl
  · rw [if_neg e, List.append_nil] at hd hq
    rw [hd, hq]
    rw [ho.others i e] at hy
    exact ih y hy

/-! ### C90 -/

/-- Views with the same version agree. -/
def Agree (s : Sys) : Prop := ∀ v ∈ seen s, ∀ w ∈ seen s, v.1.epoch = w.1.epoch → v.1.within = w.1.within → sameView v.2 w.2

/-- The view its czar now has. -/
def Current (s : Sys) (v : View) : Prop :=
  ∃ p, (v.1.epoch, p) ∈ s.owner ∧ v.1 = (s.mem p).vers ∧ sameView v.2 (s.mem p).members

theorem Current.known {c s v w} (h : Inv c s) (hv : Current s v) (hw : Known s w) (h1 : v.1.epoch = w.1.epoch)
    (h2 : v.1.within = w.1.within) : sameView v.2 w.2 := by
  obtain ⟨p, hp, e1, e2⟩ := hv
  obtain ⟨q, hq, hw⟩ := hw
  have : p = q := h.key.one _ _ _ hp (h1 ▸ hq)
  subst this
  rw [e1] at h1 h2
  rcases hw with hw | ⟨-, hw | ⟨-, hw⟩⟩
  · omega
  · omega
  · exact e2.trans hw.symm

theorem Agree.step {c s s' x} (h : Inv c s) (h' : Inv c s') (he : Czar.step c s x = some s') (ha : Agree s) : Agree s' := by
  obtain ⟨i, us, qs, sv, ho⟩ := step_out' h he
  have hnew : ∀ v ∈ seen s', Current s' v ∨ ∃ w ∈ seen s, v.1 = w.1 ∧ sameView v.2 w.2 := by
    intro v hv
    unfold seen at hv
    rw [ho.ups, ho.served] at hv
    simp only [List.map_append, List.mem_append, List.map_map] at hv
    rcases hv with (hv | hv) | hv | hv
    · exact Or.inr ⟨v, by unfold seen; exact List.mem_append_left _ hv, rfl, .refl _⟩
    · obtain ⟨u, hu, e⟩ := List.mem_map.1 hv
      have e : u = v := e
      subst e
      rcases ho.src u hu with e | e
      · left
        refine ⟨i, e, ?_⟩
        rcases ho.moved.out with ⟨e, -⟩ | ⟨e, -⟩ | ⟨e, -⟩ <;> rw [e] at hu <;> simp at hu
        rw [hu]
        exact ⟨rfl, clone_view _⟩
      · exact Or.inr e
    · exact Or.inr ⟨v, by unfold seen; exact List.mem_append_right _ hv, rfl, .refl _⟩
    · obtain ⟨u, hu, e⟩ := List.mem_map.1 hv
      have e : u = v := e
      subst e
      left
      rcases ho.ans with e | ⟨e, h1, -, -, h2⟩ <;> rw [e] at hu <;> simp at hu
      subst hu
      exact ⟨i, by rw [h2]; exact h1, rfl, clone_view _⟩
  intro v hv w hw h1 h2
  rcases hnew v hv with a | ⟨v', hv', e1, e2⟩
  · exact a.known h' (h'.view w hw) h1 h2
  · rcases hnew w hw with b | ⟨w', hw', e3, e4⟩
    · exact (b.known h' (h'.view v hv) h1.symm h2.symm).symm
    · exact (e2.trans (ha v' hv' w' hw' (by rw [← e1, ← e3]; exact h1) (by rw [← e1, ← e3]; exact h2))).trans e4.symm

theorem Agree.reach {c s} (hs : Sane c) (h : Reach c s) : Agree s :=
  reach_ind hs (P := Agree) (by intro v hv; simp [seen] at hv) (fun _ _ _ hi hi' he ha => ha.step hi hi' he) h

/-! ### C91 -/

theorem Inv.served_le {c s x} (h : Inv c s) (hx : x ∈ s.served) : x.2.2.1.epoch ≤ keyEpoch s := by
  obtain ⟨p, hp, -⟩ := h.view x.2.2 (by unfold seen; exact List.mem_append_right _ (List.mem_map.2 ⟨x, hx, rfl⟩))
  exact (h.key.le _ _ hp).2

/-- A member whose own lease on the key is not over by its clock has the key's epoch. -/
theorem Inv.current {c s i t} (hs : Sane c) (hy : Synced c) (h : Inv c s) (ht : s.now ≤ t)
    (ho : ((s.mem i).vers.epoch, i) ∈ s.owner) (hu : c.clk i t ≤ (s.mem i).vers.until_) :
    (s.mem i).vers.epoch = keyEpoch s := by
  have hm := h.mem i
  have h1 := hm.le
  cases hl : keyLeaf s with
  | none =>
    have := (h.key.le _ _ ho).2
    have : keyEpoch s = 0 := by unfold keyEpoch; rw [hl]; rfl
    omega
  | some l =>
    have hE : keyEpoch s = l.epoch := by unfold keyEpoch; rw [hl]; rfl
    rcases Nat.lt_or_ge (s.mem i).vers.epoch l.epoch with e | e
    · have := hm.past hy l hl ho e
      have := hs.mono i _ _ ht
      omega
    · omega

theorem served_pw {c s} (hs : Sane c) (hy : Synced c) (h : Reach c s) :
    s.served.Pairwise fun x y => x.2.1 ≤ y.2.1 ∧ x.2.2.1.epoch ≤ y.2.2.1.epoch := by
  refine (reach_ind hs (P := fun s => (∀ x ∈ s.served, x.2.1 ≤ s.now) ∧ s.served.Pairwise fun x y => x.2.1 ≤ y.2.1 ∧ x.2.2.1.epoch ≤ y.2.2.1.epoch)
    ⟨(fun x h => nomatch h), .nil⟩ ?_ h).2
  intro s s' x hi _ he ⟨h1, h2⟩
  obtain ⟨i, us, qs, sv, ho⟩ := step_out' hi he
  obtain ⟨ht, ht2, s1, -, e1⟩ := step_inv he
  have hn : s'.now = x.2.1 := by rw [e1]
  rw [ho.served, hn]
  rcases ho.ans with e | ⟨e, a1, a2, a3, -⟩
  · rw [e]
    simp only [List.map_nil, List.append_nil]
    exact ⟨fun y hy => by have := h1 y hy; omega, h2⟩
  · rw [e]
    refine ⟨?_, ?_⟩
    · intro y hy
      rcases List.mem_append.1 hy with hy | hy
      · have := h1 y hy; omega
      · simp at hy; subst hy; simpa using ht2
    · rw [List.pairwise_append]
      refine ⟨h2, by simp, ?_⟩
      intro y hy w hw
      simp at hw
      subst hw
      have := h1 y hy
      have := hi.served_le hy
      have := hi.current hs ‹_› ht (a2 ▸ a1) a3
      simp only
      omega

end Verif.Czar
