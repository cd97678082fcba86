import Verif.Proofs.ReconfigInv
import Mathlib.Data.List.Perm.Subperm

/- At most one leader per term when every change was confirmed by a majority. -/
namespace Verif.Reconfig
open Verif.Raft (PeerID)

/-! ### Counting -/

theorem length_le_of_subset {a b : List Nat} (ha : a.Nodup) (h : ∀ x ∈ a, x ∈ b) : a.length ≤ b.length :=
  (List.subperm_of_subset ha h).length_le

/-- Two sets too large to be disjoint inside a common set. -/
theorem common_of_large {A B u : List Nat} (hA : A.Nodup) (hB : B.Nodup) (hAu : ∀ x ∈ A, x ∈ u)
    (hBu : ∀ x ∈ B, x ∈ u) (h : u.length < A.length + B.length) : ∃ x, x ∈ A ∧ x ∈ B := by
  apply Classical.byContradiction
  intro hno
  have hn : (A ++ B).Nodup := by
    rw [List.nodup_append]
    refine ⟨hA, hB, ?_⟩
    intro a ha b hb hab
    subst hab
    exact hno ⟨a, ha, hb⟩
  have := length_le_of_subset hn (b := u) (by
    intro x hx
    rcases List.mem_append.mp hx with hx | hx
    · exact hAu x hx
    · exact hBu x hx)
  rw [List.length_append] at this
  omega

theorem filter_split (p : Nat → Bool) (l : List Nat) :
    (l.filter p).length + (l.filter fun x => !p x).length = l.length := by
  induction l with
  | nil => rfl
  | cons x l ih =>
    simp only [List.filter_cons, List.length_cons]
    cases hp : p x <;> simp [hp] <;> omega

theorem filter_mem_comm {m m' : List Nat} (h : m.Nodup) (h' : m'.Nodup) :
    (m.filter (· ∈ m')).length = (m'.filter (· ∈ m)).length := by
  apply Nat.le_antisymm
  · apply length_le_of_subset (h.filter _)
    intro x hx
    simp only [List.mem_filter, decide_eq_true_eq] at hx ⊢
    exact ⟨hx.2, hx.1⟩
  · apply length_le_of_subset (h'.filter _)
    intro x hx
    simp only [List.mem_filter, decide_eq_true_eq] at hx ⊢
    exact ⟨hx.2, hx.1⟩

/-- A majority of members, by name. -/
def Maj (A m : List Nat) : Prop := A.Nodup ∧ (∀ x ∈ A, x ∈ m) ∧ m.length / 2 + 1 ≤ A.length

theorem Maj.same {A B m : List Nat} (hA : Maj A m) (hB : Maj B m) : ∃ x, x ∈ A ∧ x ∈ B :=
  common_of_large hA.1 hB.1 hA.2.1 hB.2.1 (by have := hA.2.2; have := hB.2.2; omega)

theorem Maj.overlap {A B m m' : List Nat} (hm : m.Nodup) (hm' : m'.Nodup) (h0 : m ≠ []) (h0' : m' ≠ [])
    (ho : quorumsOverlap m m' = true) (hA : Maj A m) (hB : Maj B m') : ∃ x, x ∈ A ∧ x ∈ B := by
  have l0 : 0 < m.length := List.length_pos_iff.mpr h0
  have l0' : 0 < m'.length := List.length_pos_iff.mpr h0'
  have m1 : majority m = m.length / 2 + 1 := by unfold majority; rw [if_neg (by omega)]
  have m2 : majority m' = m'.length / 2 + 1 := by unfold majority; rw [if_neg (by omega)]
  unfold quorumsOverlap at ho
  rw [m1, m2, if_neg (by omega), decide_eq_true_eq] at ho
  apply common_of_large hA.1 hB.1 (u := m ++ m'.filter fun x => !decide (x ∈ m))
  · intro x hx; exact List.mem_append_left _ (hA.2.1 x hx)
  · intro x hx
    by_cases hxm : x ∈ m
    · exact List.mem_append_left _ hxm
    · refine List.mem_append_right _ ?_
      simp [hB.2.1 x hx, hxm]
  · rw [List.length_append]
    have h1 := filter_split (fun x => decide (x ∈ m)) m'
    have h2 := filter_mem_comm hm hm'
    have h3 := hA.2.2
    have h4 := hB.2.2
    omega

/-! ### Orders -/

theorem VLe.total (a b : Nat × Nat) : VLe a b ∨ VLe b a := by unfold VLe; omega

theorem VLe.antisymm {a b : Nat × Nat} (h : VLe a b) (h' : VLe b a) : a = b := by
  unfold VLe at *
  have h1 : a.1 = b.1 := by omega
  have h2 : a.2 = b.2 := by omega
  cases a; cases b; simp_all

theorem exists_min {α : Type} (k : α → Nat × Nat) (P : α → Prop) (l : List α) (h : ∃ x ∈ l, P x) :
    ∃ x ∈ l, P x ∧ ∀ y ∈ l, P y → VLe (k x) (k y) := by
  induction l with
  | nil => obtain ⟨x, hx, _⟩ := h; cases hx
  | cons a l ih =>
    by_cases hl : ∃ x ∈ l, P x
    · obtain ⟨x, hx, hpx, hmin⟩ := ih hl
      by_cases ha : P a ∧ VLe (k a) (k x)
      · refine ⟨a, List.mem_cons_self, ha.1, ?_⟩
        intro y hy hpy
        rcases List.mem_cons.mp hy with hy | hy
        · rw [hy]; exact VLe.refl _
        · exact ha.2.trans (hmin y hy hpy)
      · refine ⟨x, List.mem_cons_of_mem _ hx, hpx, ?_⟩
        intro y hy hpy
        rcases List.mem_cons.mp hy with hy | hy
        · subst hy
          rcases VLe.total (k x) (k y) with h | h
          · exact h
          · exact absurd ⟨hpy, h⟩ ha
        · exact hmin y hy hpy
    · obtain ⟨x, hx, hpx⟩ := h
      rcases List.mem_cons.mp hx with hx | hx
      · subst hx
        refine ⟨x, List.mem_cons_self, hpx, ?_⟩
        intro y hy hpy
        rcases List.mem_cons.mp hy with hy | hy
        · rw [hy]; exact VLe.refl _
        · exact absurd ⟨y, hy, hpy⟩ hl
      · exact absurd ⟨x, hx, hpx⟩ hl

/-! ### Configurations -/

/-- The change was made when a majority of the old members had last reported the old
membership and the leader's term, and the new membership is not empty. -/
def Careful (c : Made) : Prop := c.old.names.length / 2 + 1 ≤ c.confirmed.length ∧ c.new.names ≠ []

section
variable {boot : List Nat} {s : Sys}

/-- One leader in a term. -/
def Unique (s : Sys) (t : Nat) : Prop :=
  ∀ e ∈ s.hist.elected, ∀ e' ∈ s.hist.elected, e.term = t → e'.term = t → e.who = e'.who

/-- A leader of term `t` was elected under a membership no older than any membership changed
in an earlier term. -/
def Latest (s : Sys) (t : Nat) : Prop :=
  ∀ e ∈ s.hist.elected, e.term = t → ∀ c ∈ s.hist.changes, c.term < t → VLe c.old.key e.base.key

theorem old_created (h : Inv boot s) {c : Made} (hc : c ∈ s.hist.changes) : Created boot s.hist c.old := by
  obtain ⟨_, _, _, _, _, _, h7, _⟩ := h.ch c hc
  rcases h7 with ⟨e, he, _, _, ho⟩ | ⟨d, hd, _, _, ho⟩
  · rw [ho]; exact .elected he
  · rw [ho]; exact .change hd

theorem created_ind (h : Inv boot s) {P : Conf → Prop} (hboot : P ⟨0, 0, boot⟩)
    (hel : ∀ e ∈ s.hist.elected, P e.base → P e.conf) (hch : ∀ c ∈ s.hist.changes, P c.old → P c.new)
    {c : Conf} (hc : Created boot s.hist c) : P c := by
  have key : ∀ (t v : Nat) (c : Conf), c.term = t → c.ver = v → Created boot s.hist c → P c := by
    intro t
    induction t using Nat.strongRecOn with
    | ind t iht =>
      intro v
      induction v using Nat.strongRecOn with
      | ind v ihv =>
        intro c ht hv hc
        cases hc with
        | boot => exact hboot
        | @elected e he =>
          obtain ⟨_, h2, h3, _⟩ := h.el e he
          have ht : e.term = t := ht
          exact hel e he (iht e.base.term (by omega) _ e.base rfl rfl h3)
        | @change d hd =>
          obtain ⟨_, d2, d3, _⟩ := h.ch d hd
          exact hch d hd (ihv d.old.ver (by omega) d.old (by omega) rfl (old_created h hd))
  exact key c.term c.ver c rfl rfl hc

theorem Created.nodup (h : Inv boot s) (hb : boot.Nodup) {c : Conf} (hc : Created boot s.hist c) :
    c.names.Nodup := by
  refine created_ind h (P := fun c => c.names.Nodup) hb (fun e _ hp => hp) ?_ hc
  intro c hc hp
  obtain ⟨_, _, _, _, ⟨d, hd⟩, _⟩ := h.ch c hc
  cases d with
  | add x =>
    simp only [Change.apply, Option.some.injEq] at hd
    rw [← hd]
    split
    · exact hp
    · rename_i hx
      rw [List.nodup_append]
      refine ⟨hp, List.nodup_cons.mpr ⟨List.not_mem_nil, List.nodup_nil⟩, ?_⟩
      intro a ha b hb hab
      rw [List.mem_singleton] at hb
      subst hab; subst hb
      exact hx ha
  | remove x =>
    simp only [Change.apply] at hd
    split at hd
    · rw [← Option.some.inj hd]; exact hp.erase x
    · cases hd

theorem old_nonempty (h : Inv boot s) (hcf : ∀ c ∈ s.hist.changes, Careful c) {c : Made}
    (hc : c ∈ s.hist.changes) : c.old.names ≠ [] := by
  obtain ⟨_, _, _, _, _, _, h7, _⟩ := h.ch c hc
  rcases h7 with ⟨e, he, _, _, ho⟩ | ⟨d, hd, _, _, ho⟩
  · intro hn
    have := (h.el e he).2.2.2.1
    rw [ho] at hn
    have hn : e.base.names = [] := hn
    rw [hn] at this
    cases this
  · rw [ho]; exact (hcf d hd).2

theorem maj_confirmed (h : Inv boot s) (hb : boot.Nodup) (hcf : ∀ c ∈ s.hist.changes, Careful c) {c : Made}
    (hc : c ∈ s.hist.changes) : Maj c.confirmed c.old.names := by
  obtain ⟨_, _, _, _, _, _, _, ⟨p, hp⟩, _⟩ := h.ch c hc
  refine ⟨?_, ?_, (hcf c hc).1⟩
  · rw [hp]; exact ((old_created h hc).nodup h hb).filter _
  · intro x hx; rw [hp] at hx; exact (List.mem_filter.mp hx).1

theorem maj_voters (h : Inv boot s) {e : Election} (he : e ∈ s.hist.elected) : Maj e.voters e.base.names := by
  obtain ⟨_, _, _, _, h5, h6, h7, _⟩ := h.el e he
  exact ⟨h5, h6, h7⟩

/-- Where a membership comes from. -/
theorem Created.origin (h : Inv boot s) {c : Conf} (hc : Created boot s.hist c) :
    c = ⟨0, 0, boot⟩ ∨ ∃ e ∈ s.hist.elected, e.term = c.term ∧ 0 < c.term ∧
      (c = e.conf ∨ ∃ d ∈ s.hist.changes, d.who = e.who ∧ d.term = e.term ∧ c = d.new ∧ e.base.ver ≤ d.old.ver) := by
  cases hc with
  | boot => exact Or.inl rfl
  | @elected e he =>
    refine Or.inr ⟨e, he, rfl, ?_, Or.inl rfl⟩
    have := (h.el e he).2.1
    change 0 < e.term
    omega
  | @change d hd =>
    obtain ⟨d1, d2, d3, _, _, ⟨e, he, he1, he2, he3⟩, _⟩ := h.ch d hd
    have := (h.el e he).2.1
    exact Or.inr ⟨e, he, by omega, by omega, Or.inr ⟨d, hd, he1.symm, he2.symm, rfl, he3⟩⟩

/-- A version belongs to one membership. -/
theorem uniq_key (h : Inv boot s) {c c' : Conf} (hu : Unique s c.term)
    (hc : Created boot s.hist c) (hc' : Created boot s.hist c') (hk : c.key = c'.key) : c = c' := by
  have k1 : c.term = c'.term := congrArg Prod.fst hk
  have k2 : c.ver = c'.ver := congrArg Prod.snd hk
  rcases hc.origin h with o | ⟨e, he, et, ep, o⟩ <;> rcases hc'.origin h with o' | ⟨e', he', et', ep', o'⟩
  · rw [o, o']
  · rw [o] at k1; simp only at k1; omega
  · rw [o'] at k1; simp only at k1; omega
  · have hw := hu e he e' he' et (by omega)
    have hee : e = e' := h.el2 e he e' he' (by rw [hw]) (by omega)
    subst hee
    rcases o with o | ⟨d, hd, dw, dt, o, dv⟩ <;> rcases o' with o' | ⟨d', hd', dw', dt', o', dv'⟩
    · rw [o, o']
    · have := (h.ch d' hd').2.2.1
      rw [o, o'] at k2
      have : e.base.ver = d'.new.ver := k2
      omega
    · have := (h.ch d hd).2.2.1
      rw [o, o'] at k2
      have : d.new.ver = e.base.ver := k2
      omega
    · have h1 := (h.ch d hd).2.2.1
      have h2 := (h.ch d' hd').2.2.1
      rw [o, o'] at k2
      have : d = d' := h.ch2 d hd d' hd' (by rw [dw, dw']) (by omega) (by omega)
      rw [o, o', this]

/-- Two changes from the same version are one. -/
theorem uniq_change (h : Inv boot s) {c d : Made} (hc : c ∈ s.hist.changes) (hd : d ∈ s.hist.changes)
    (hu : Unique s c.term) (hk : c.old.key = d.old.key) : c = d := by
  have k1 : c.old.term = d.old.term := congrArg Prod.fst hk
  have k2 : c.old.ver = d.old.ver := congrArg Prod.snd hk
  obtain ⟨c1, _, _, _, _, ⟨e, he, he1, he2, _⟩, _⟩ := h.ch c hc
  obtain ⟨d1, _, _, _, _, ⟨e', he', he1', he2', _⟩, _⟩ := h.ch d hd
  have := hu e he e' he' (by omega) (by omega)
  exact h.ch2 c hc d hd (by rw [← he1, ← he1', this]) (by omega) k2

/-- The members in `names` are the bootstrap members if no change satisfies `P`, and else the
members before or after the latest change that does. -/
def Anc (boot : List Nat) (s : Sys) (P : Made → Prop) (names : List Nat) : Prop :=
  ((∀ d ∈ s.hist.changes, ¬ P d) ∧ names = boot) ∨
  ∃ d ∈ s.hist.changes, P d ∧ (∀ d' ∈ s.hist.changes, P d' → VLe d'.old.key d.old.key) ∧
    (names = d.old.names ∨ names = d.new.names)

theorem Anc.congr {P Q : Made → Prop} {names : List Nat} (hpq : ∀ d ∈ s.hist.changes, P d ↔ Q d)
    (h : Anc boot s P names) : Anc boot s Q names := by
  rcases h with ⟨h1, h2⟩ | ⟨d, hd, h1, h2, h3⟩
  · exact Or.inl ⟨fun d hd hq => h1 d hd ((hpq d hd).mpr hq), h2⟩
  · exact Or.inr ⟨d, hd, (hpq d hd).mp h1, fun d' hd' hq => h2 d' hd' ((hpq d' hd').mpr hq), h3⟩

def VLt (a b : Nat × Nat) : Prop := VLe a b ∧ a ≠ b

theorem VLt.iff {a b : Nat × Nat} : VLt a b ↔ ¬ VLe b a := by
  constructor
  · intro h h'; exact h.2 (h.1.antisymm h')
  · intro h
    refine ⟨(VLe.total a b).resolve_right h, ?_⟩
    intro he; rw [he] at h; exact h (VLe.refl _)

/-- From the changes before a membership to those up to it. -/
theorem Anc.weak (h : Inv boot s) {c : Conf} (hc : Created boot s.hist c) (hu : Unique s c.term)
    (ha : Anc boot s (fun d => VLt d.old.key c.key) c.names) :
    Anc boot s (fun d => VLe d.old.key c.key) c.names := by
  by_cases hx : ∃ d ∈ s.hist.changes, d.old.key = c.key
  · obtain ⟨d, hd, hk⟩ := hx
    have : c = d.old := uniq_key h hu hc (old_created h hd) hk.symm
    exact Or.inr ⟨d, hd, by show VLe d.old.key c.key; rw [hk]; exact VLe.refl _, fun d' hd' hle => by rw [hk]; exact hle, Or.inl (by rw [this])⟩
  · refine ha.congr ?_
    intro d hd
    exact ⟨fun hlt => hlt.1, fun hle => ⟨hle, fun he => hx ⟨d, hd, he⟩⟩⟩

/-- The members of every membership of a term below `T`. -/
theorem anc_strict (h : Inv boot s) {T : Nat} (hU : ∀ t < T, Unique s t) (hL : ∀ t < T, Latest s t)
    {c : Conf} (hc : Created boot s.hist c) :
    c.term < T → Anc boot s (fun d => VLt d.old.key c.key) c.names := by
  have pos : ∀ d ∈ s.hist.changes, 0 < d.old.term := by
    intro d hd
    obtain ⟨d1, _, _, _, _, ⟨e, he, _, he2, _⟩, _⟩ := h.ch d hd
    have := (h.el e he).2.1
    omega
  have key := created_ind h (P := fun c => Created boot s.hist c → c.term < T → Anc boot s (fun d => VLt d.old.key c.key) c.names)
    ?_ ?_ ?_ hc
  · exact key hc
  · intro _ _
    refine Or.inl ⟨?_, rfl⟩
    intro d hd hlt
    have := pos d hd
    have := hlt.1
    unfold VLe Conf.key at this
    simp only at this
    omega
  · intro e he ih _ hT
    have hT : e.term < T := hT
    obtain ⟨_, e2, e3, _⟩ := h.el e he
    have hb := Anc.weak h e3 (hU _ (by omega)) (ih e3 (by omega))
    change Anc boot s _ e.base.names
    refine hb.congr ?_
    intro d hd
    obtain ⟨d1, _, _, _, _, ⟨e', he', he1, he2, he3⟩, _⟩ := h.ch d hd
    constructor
    · intro hle
      rw [VLt.iff]
      intro hc
      unfold VLe Conf.key Election.conf at *
      simp only at *
      omega
    · intro hlt
      by_cases hdt : d.term < e.term
      · exact hL e.term hT e he rfl d hd hdt
      · exfalso
        have hle := hlt.1
        unfold VLe Conf.key Election.conf at hle
        simp only at hle
        have : d.term = e.term := by omega
        have hw := hU e.term hT e he e' he' rfl (by omega)
        have hee : e = e' := h.el2 e he e' he' (by rw [hw]) (by omega)
        subst hee
        rw [VLt.iff] at hlt
        apply hlt
        unfold VLe Conf.key Election.conf
        simp only
        omega
  · intro c hc ih _ hT
    obtain ⟨c1, c2, c3, _⟩ := h.ch c hc
    refine Or.inr ⟨c, hc, ?_, ?_, Or.inr rfl⟩
    · show VLt c.old.key c.new.key
      rw [VLt.iff]; unfold VLe Conf.key; simp only; omega
    · intro d hd hlt
      rw [VLt.iff] at hlt
      unfold VLe Conf.key at *
      simp only at *
      omega

/-- Majorities of two memberships with the same latest change have a common member. -/
theorem Anc.common (h : Inv boot s) (hb : boot.Nodup) (hcf : ∀ c ∈ s.hist.changes, Careful c)
    {P : Made → Prop} (hu : ∀ d ∈ s.hist.changes, P d → Unique s d.term) {m m' A B : List Nat}
    (ha : Anc boot s P m) (ha' : Anc boot s P m') (hA : Maj A m) (hB : Maj B m') : ∃ x, x ∈ A ∧ x ∈ B := by
  rcases ha with ⟨h1, h2⟩ | ⟨d, hd, h1, h2, h3⟩ <;> rcases ha' with ⟨h1', h2'⟩ | ⟨d', hd', h1', h2', h3'⟩
  · rw [h2] at hA; rw [h2'] at hB; exact hA.same hB
  · exact absurd h1' (h1 d' hd')
  · exact absurd h1 (h1' d hd)
  · have hdd : d = d' := uniq_change h hd hd' (hu d hd h1) ((h2' d hd h1).antisymm (h2 d' hd' h1'))
    subst hdd
    have n1 := (old_created h hd).nodup h hb
    have n2 := (Created.change (boot := boot) hd).nodup h hb
    have ho := (h.ch d hd).2.2.2.1
    have e1 := old_nonempty h hcf hd
    have e2 := (hcf d hd).2
    rcases h3 with h3 | h3 <;> rcases h3' with h3' | h3' <;> rw [h3] at hA <;> rw [h3'] at hB
    · exact hA.same hB
    · exact Maj.overlap n1 n2 e1 e2 ho hA hB
    · obtain ⟨x, hx, hx'⟩ := Maj.overlap n1 n2 e1 e2 ho hB hA
      exact ⟨x, hx', hx⟩
    · exact hA.same hB

/-- A member that confirmed a membership and later voted, voted under one no older. -/
theorem confirmed_voted (h : Inv boot s) {c : Made} {e : Election} (hc : c ∈ s.hist.changes)
    (he : e ∈ s.hist.elected) (ht : c.term < e.term) {y : Nat} (hy : y ∈ c.confirmed) (hy' : y ∈ e.voters) :
    VLe c.old.key e.base.key := by
  obtain ⟨_, _, _, _, _, _, _, _, h9⟩ := h.ch c hc
  have htold := h9 y hy
  obtain ⟨_, _, _, _, _, _, _, e8, e9⟩ := h.el e he
  rcases e8 y hy' with hself | ⟨m, mc, hmem, hcm, m1, m2, m3⟩
  · rw [hself] at htold
    exact e9 _ htold ht
  · obtain ⟨_, _, q, c', v3, v4, v5, v6, _⟩ := h.vote m mc hmem hcm
    rw [m1] at v6
    have hcb : c' = e.base := h.elreq e he q c' v3 (v4.trans m2) (v5.trans m3)
    rw [← hcb]
    exact v6 _ htold (by rw [m3]; exact ht)

/-- A common voter of two elections of a term. -/
theorem voted_twice (h : Inv boot s) {e e' : Election} (he : e ∈ s.hist.elected) (he' : e' ∈ s.hist.elected)
    (ht : e.term = e'.term) (hu : Unique s e.base.term) {y : Nat} (hy : y ∈ e.voters) (hy' : y ∈ e'.voters) :
    e.who = e'.who := by
  have cross : ∀ {a b : Election}, a ∈ s.hist.elected → b ∈ s.hist.elected → a.term = b.term →
      (a.base.key = b.base.key → a.base = b.base) → y = a.who.1 →
      (∃ m c, .vote m c ∈ s.msgs ∧ Counted m ∧ m.src.1 = y ∧ m.cand = b.who ∧ m.term = b.term) → False := by
    intro a b ha hb hab huk hself ⟨m, c, hmem, hcm, m1, m2, m3⟩
    obtain ⟨h1, q, c', h2, h3, h4, h5⟩ := h.elvote a ha m c hmem hcm (by rw [m1, hself]) (by omega)
    have hcb : c' = b.base := h.elreq b hb q c' h2 (h3.trans m2) (h4.trans m3)
    rw [hcb] at h5
    have hbase := huk h5.symm
    have hin := (h.el b hb).2.2.2.1
    rw [← hbase, h1, List.mem_singleton] at hin
    have := (h.vote m c hmem hcm).2.1
    rw [m2, m1, hself] at this
    exact this hin
  obtain ⟨_, _, e3, _, _, _, _, e8, _⟩ := h.el e he
  obtain ⟨_, _, e3', _, _, _, _, e8', _⟩ := h.el e' he'
  rcases e8 y hy with h1 | h1 <;> rcases e8' y hy' with h2 | h2
  · rw [h.el2 e he e' he' (by rw [← h1, ← h2]) ht]
  · exact (cross he he' ht (fun hk => uniq_key h hu e3 e3' hk) h1 h2).elim
  · exact (cross he' he ht.symm (fun hk => (uniq_key h hu e3 e3' hk.symm).symm) h2 h1).elim
  · obtain ⟨m, c, hmem, hcm, m1, m2, m3⟩ := h1
    obtain ⟨m', c', hmem', hcm', m1', m2', m3'⟩ := h2
    rw [← m2, ← m2']
    exact h.vote2 m c m' c' hmem hmem' hcm hcm' (by omega) (by omega)

theorem latest_step (h : Inv boot s) (hb : boot.Nodup) (hcf : ∀ c ∈ s.hist.changes, Careful c) {T : Nat}
    (hU : ∀ t < T, Unique s t) (hL : ∀ t < T, Latest s t) : Latest s T := by
  intro e he het c0 hc0 hc0t
  apply Classical.byContradiction
  intro hno
  obtain ⟨c, hc, ⟨hct, hcn⟩, hmin⟩ := exists_min (fun c : Made => c.old.key)
    (fun c => c.term < T ∧ ¬ VLe c.old.key e.base.key) s.hist.changes ⟨c0, hc0, hc0t, hno⟩
  obtain ⟨_, e2, e3, _⟩ := h.el e he
  have hcot := (h.ch c hc).1
  have hbase := Anc.weak h e3 (hU _ (by omega)) (anc_strict h hU hL e3 (by omega))
  have hold := anc_strict h hU hL (old_created h hc) (by omega)
  have hold' : Anc boot s (fun d => VLe d.old.key e.base.key) c.old.names := by
    refine hold.congr ?_
    intro d hd
    constructor
    · intro hlt
      apply Classical.byContradiction
      intro hd'
      have hdt : d.term < T := by
        have h1 := (h.ch d hd).1
        have h2 := hlt.1
        unfold VLe Conf.key at h2
        simp only at h2
        omega
      exact (VLt.iff.mp hlt) (hmin d hd ⟨hdt, hd'⟩)
    · intro hle
      rw [VLt.iff]
      intro hge
      exact hcn (hge.trans hle)
  obtain ⟨y, hy, hy'⟩ := Anc.common h hb hcf (by
    intro d hd hle
    apply hU
    have h1 := (h.ch d hd).1
    unfold VLe Conf.key at hle
    simp only at hle
    omega) hold' hbase (maj_confirmed h hb hcf hc) (maj_voters h he)
  exact hcn (confirmed_voted h hc he (by omega) hy hy')

theorem unique_step (h : Inv boot s) (hb : boot.Nodup) (hcf : ∀ c ∈ s.hist.changes, Careful c) {T : Nat}
    (hU : ∀ t < T, Unique s t) (hL : ∀ t < T, Latest s t) : Unique s T := by
  have hLT := latest_step h hb hcf hU hL
  intro e he e' he' het het'
  have side : ∀ {a : Election}, a ∈ s.hist.elected → a.term = T → Anc boot s (fun d => d.term < T) a.base.names := by
    intro a ha hat
    obtain ⟨_, a2, a3, _⟩ := h.el a ha
    refine (Anc.weak h a3 (hU _ (by omega)) (anc_strict h hU hL a3 (by omega))).congr ?_
    intro d hd
    have h1 := (h.ch d hd).1
    constructor
    · intro hle
      unfold VLe Conf.key at hle
      simp only at hle
      omega
    · intro hlt
      exact hLT a ha hat d hd hlt
  obtain ⟨y, hy, hy'⟩ := Anc.common h hb hcf (fun d _ hlt => hU _ hlt) (side he het) (side he' het')
    (maj_voters h he) (maj_voters h he')
  have := (h.el e he).2.1
  exact voted_twice h he he' (by omega) (hU _ (by omega)) hy hy'

theorem unique_all (h : Inv boot s) (hb : boot.Nodup) (hcf : ∀ c ∈ s.hist.changes, Careful c) (T : Nat) :
    Unique s T ∧ Latest s T := by
  induction T using Nat.strongRecOn with
  | ind T ih =>
    exact ⟨unique_step h hb hcf (fun t ht => (ih t ht).1) (fun t ht => (ih t ht).2),
      latest_step h hb hcf (fun t ht => (ih t ht).1) (fun t ht => (ih t ht).2)⟩

end
end Verif.Reconfig
