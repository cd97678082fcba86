import Verif.Model.HermesWake

/-! Lemmas on the comparison functions of the ticket queues and on search trees. -/

namespace Verif.HermesWake

/-- The laws of a comparison on the items of which `P` holds. -/
structure Total {α : Type} (cmp : α → α → Int) (P : α → Prop) : Prop where
  flip : ∀ a b, P a → P b → cmp a b = - cmp b a
  trans : ∀ a b c, P a → P b → P c → cmp a b < 0 → cmp b c < 0 → cmp a c < 0

/-- In the order of the tree everything to the left of a node is less and
everything to the right is greater, as the search sees it. -/
def Ordered {α : Type} (cmp : α → α → Int) : Tree α → Prop
  | .nil => True
  | .node l v r => Ordered cmp l ∧ Ordered cmp r ∧
      (∀ x ∈ items l, cmp x v < 0) ∧ (∀ x ∈ items r, 0 < cmp x v)

theorem find_ordered {α : Type} {cmp : α → α → Int} (hrefl : ∀ a, cmp a a = 0) (x : α) (t : Tree α)
    (ho : Ordered cmp t) (hx : x ∈ items t) : find cmp x t = some x := by
  induction t with
  | nil => cases hx
  | node l v r ihl ihr =>
    obtain ⟨hl, hr, h1, h2⟩ := ho
    simp only [items, List.mem_append, List.mem_cons] at hx
    unfold find
    rcases hx with hx | rfl | hx
    · have := h1 x hx
      rw [if_neg (by omega), if_pos this]
      exact ihl hl hx
    · rw [if_pos (hrefl _)]
    · have := h2 x hx
      rw [if_neg (by omega), if_neg (by omega)]
      exact ihr hr hx

theorem find_sound {α : Type} {cmp : α → α → Int} (x y : α) (t : Tree α)
    (h : find cmp x t = some y) : cmp x y = 0 ∧ y ∈ items t := by
  induction t with
  | nil => cases h
  | node l v r ihl ihr =>
    unfold find at h
    simp only [items, List.mem_append, List.mem_cons]
    split at h
    · rename_i hc
      cases h
      exact ⟨hc, .inr (.inl rfl)⟩
    · split at h
      · exact ⟨(ihl h).1, .inl (ihl h).2⟩
      · exact ⟨(ihr h).1, .inr (.inr (ihr h).2)⟩

theorem items_rotL {α : Type} (t : Tree α) : items (rotL t) = items t := by
  unfold rotL
  split
  · simp [items]
  · rfl

theorem items_rotR {α : Type} (t : Tree α) : items (rotR t) = items t := by
  unfold rotR
  split
  · simp [items]
  · rfl

theorem rotL_ordered {α : Type} {cmp : α → α → Int} {P : α → Prop} (hT : Total cmp P) (t : Tree α)
    (hP : ∀ x ∈ items t, P x) (ho : Ordered cmp t) : Ordered cmp (rotL t) := by
  unfold rotL
  split
  · rename_i a v b w c
    obtain ⟨ha, ⟨hb, hc, h3, h4⟩, h1, h2⟩ := ho
    simp only [items, List.mem_append, List.mem_cons] at hP h1 h2 h3 h4
    have hvw : cmp v w < 0 := by
      have := h2 w (.inr (.inl rfl))
      have := hT.flip v w (hP v (by simp)) (hP w (by simp))
      omega
    refine ⟨⟨ha, hb, h1, fun x hx => h2 x (.inl hx)⟩, hc, ?_, h4⟩
    intro x hx
    simp only [items, List.mem_append, List.mem_cons] at hx
    rcases hx with hx | rfl | hx
    · exact hT.trans x v w (hP x (.inl hx)) (hP v (by simp)) (hP w (by simp)) (h1 x hx) hvw
    · exact hvw
    · exact h3 x hx
  · exact ho

theorem rotR_ordered {α : Type} {cmp : α → α → Int} {P : α → Prop} (hT : Total cmp P) (t : Tree α)
    (hP : ∀ x ∈ items t, P x) (ho : Ordered cmp t) : Ordered cmp (rotR t) := by
  unfold rotR
  split
  · rename_i a v b w c
    obtain ⟨⟨ha, hb, h1, h2⟩, hc, h3, h4⟩ := ho
    simp only [items, List.mem_append, List.mem_cons] at hP h1 h2 h3 h4
    have hvw : cmp v w < 0 := h3 v (.inr (.inl rfl))
    have hwv : 0 < cmp w v := by
      have := hT.flip v w (hP v (by simp)) (hP w (by simp))
      omega
    refine ⟨ha, ⟨hb, hc, fun x hx => h3 x (.inr (.inr hx)), h4⟩, h1, ?_⟩
    intro x hx
    simp only [items, List.mem_append, List.mem_cons] at hx
    rcases hx with hx | rfl | hx
    · exact h2 x hx
    · exact hwv
    · have hx4 := h4 x hx
      have f1 := hT.flip x w (hP x (.inr (.inr hx))) (hP w (by simp))
      have := hT.trans v w x (hP v (by simp)) (hP w (by simp)) (hP x (.inr (.inr hx))) hvw (by omega)
      have f2 := hT.flip x v (hP x (.inr (.inr hx))) (hP v (by simp))
      omega
  · exact ho

theorem items_insert {α : Type} {cmp : α → α → Int} (x y : α) (t : Tree α)
    (h : y ∈ items (insert cmp x t)) : y = x ∨ y ∈ items t := by
  induction t with
  | nil => simpa [insert, items] using h
  | node l v r ihl ihr =>
    unfold insert at h
    split at h
    · exact .inr h
    · split at h
      · simp only [items, List.mem_append, List.mem_cons] at h ⊢
        rcases h with h | h
        · rcases ihl h with h | h
          · exact .inl h
          · exact .inr (.inl h)
        · exact .inr (.inr h)
      · simp only [items, List.mem_append, List.mem_cons] at h ⊢
        rcases h with h | h | h
        · exact .inr (.inl h)
        · exact .inr (.inr (.inl h))
        · rcases ihr h with h | h
          · exact .inl h
          · exact .inr (.inr (.inr h))

theorem insert_ordered {α : Type} {cmp : α → α → Int} (x : α) (t : Tree α) (ho : Ordered cmp t) :
    Ordered cmp (insert cmp x t) := by
  induction t with
  | nil => exact ⟨trivial, trivial, fun _ h => (nomatch h), fun _ h => (nomatch h)⟩
  | node l v r ihl ihr =>
    obtain ⟨hl, hr, h1, h2⟩ := ho
    unfold insert
    split
    · exact ⟨hl, hr, h1, h2⟩
    · split
      · rename_i hlt
        refine ⟨ihl hl, hr, ?_, h2⟩
        intro y hy
        rcases items_insert x y l hy with rfl | hy
        · exact hlt
        · exact h1 y hy
      · rename_i hne hlt
        refine ⟨hl, ihr hr, h1, ?_⟩
        intro y hy
        rcases items_insert x y r hy with rfl | hy
        · omega
        · exact h2 y hy

/-! The order of byte strings. -/

theorem lt_or_gt_of_ne {a b : List Nat} (h : a ≠ b) : a < b ∨ b < a := by
  by_cases h1 : a < b
  · exact .inl h1
  · by_cases h2 : b < a
    · exact .inr h2
    · exact absurd (List.le_antisymm (List.not_lt.1 h2) (List.not_lt.1 h1)) h

/-- `cmpTube` is the order by time, TicketID, SessionID. -/
def ltTube (a b : Tkt) : Prop :=
  a.t0 < b.t0 ∨ a.t0 = b.t0 ∧ (a.id < b.id ∨ a.id = b.id ∧ a.session < b.session)

theorem cmpTube_cases (a b : Tkt) :
    (cmpTube (some a) (some b) = -1 ∧ ltTube a b) ∨
    (cmpTube (some a) (some b) = 1 ∧ ltTube b a) ∨
    (cmpTube (some a) (some b) = 0 ∧ a = b) := by
  unfold cmpTube ltTube
  simp only
  by_cases h1 : a.t0 < b.t0
  · rw [if_pos h1]; exact .inl ⟨rfl, .inl h1⟩
  by_cases h2 : b.t0 < a.t0
  · rw [if_neg h1, if_pos h2]; exact .inr (.inl ⟨rfl, .inl h2⟩)
  have e : a.t0 = b.t0 := by omega
  rw [if_neg h1, if_neg h2]
  by_cases h3 : a.id < b.id
  · rw [if_pos h3]; exact .inl ⟨rfl, .inr ⟨e, .inl h3⟩⟩
  by_cases h4 : b.id < a.id
  · rw [if_neg h3, if_pos h4]; exact .inr (.inl ⟨rfl, .inr ⟨e.symm, .inl h4⟩⟩)
  have e' : a.id = b.id := by
    by_cases h : a.id = b.id
    · exact h
    · rcases lt_or_gt_of_ne h with h | h
      · exact absurd h h3
      · exact absurd h h4
  rw [if_neg h3, if_neg h4]
  by_cases h5 : a.session < b.session
  · rw [if_pos h5]; exact .inl ⟨rfl, .inr ⟨e, .inr ⟨e', h5⟩⟩⟩
  by_cases h6 : b.session < a.session
  · rw [if_neg h5, if_pos h6]; exact .inr (.inl ⟨rfl, .inr ⟨e.symm, .inr ⟨e'.symm, h6⟩⟩⟩)
  have e'' : a.session = b.session := by
    by_cases h : a.session = b.session
    · exact h
    · rcases lt_or_gt_of_ne h with h | h
      · exact absurd h h5
      · exact absurd h h6
  rw [if_neg h5, if_neg h6]
  refine .inr (.inr ⟨rfl, ?_⟩)
  cases a
  cases b
  simp only at e e' e''
  subst e e' e''
  rfl

theorem ltTube_trans {a b c : Tkt} (h1 : ltTube a b) (h2 : ltTube b c) : ltTube a c := by
  unfold ltTube at *
  rcases h1 with h1 | ⟨e1, h1⟩
  · rcases h2 with h2 | ⟨e2, _⟩
    · exact .inl (by omega)
    · exact .inl (by omega)
  · rcases h2 with h2 | ⟨e2, h2⟩
    · exact .inl (by omega)
    · refine .inr ⟨by omega, ?_⟩
      rcases h1 with h1 | ⟨f1, h1⟩
      · rcases h2 with h2 | ⟨f2, _⟩
        · exact .inl (List.lt_trans h1 h2)
        · exact .inl (f2 ▸ h1)
      · rcases h2 with h2 | ⟨f2, h2⟩
        · exact .inl (f1 ▸ h2)
        · exact .inr ⟨f1.trans f2, List.lt_trans h1 h2⟩

theorem ltTube_irrefl (a : Tkt) : ¬ ltTube a a := by
  unfold ltTube
  rintro (h | ⟨_, h | ⟨_, h⟩⟩)
  · omega
  · exact List.lt_irrefl _ h
  · exact List.lt_irrefl _ h

theorem cmpTube_lt {a b : Tkt} : cmpTube (some a) (some b) < 0 ↔ ltTube a b := by
  rcases cmpTube_cases a b with ⟨h, k⟩ | ⟨h, k⟩ | ⟨h, k⟩
  · rw [h]; exact ⟨fun _ => k, fun _ => by decide⟩
  · rw [h]
    exact ⟨fun x => absurd x (by decide), fun x => absurd (ltTube_trans x k) (ltTube_irrefl a)⟩
  · rw [h, k]
    exact ⟨fun x => absurd x (by decide), fun x => absurd x (ltTube_irrefl b)⟩

theorem cmpTube_total : Total cmpTube (fun _ => True) := by
  refine ⟨?_, ?_⟩
  · intro a b _ _
    cases a with
    | none => cases b <;> rfl
    | some a =>
      cases b with
      | none => rfl
      | some b =>
        rcases cmpTube_cases a b with ⟨h, k⟩ | ⟨h, k⟩ | ⟨h, k⟩
        · rcases cmpTube_cases b a with ⟨h', k'⟩ | ⟨h', k'⟩ | ⟨h', k'⟩
          · exact absurd (ltTube_trans k k') (ltTube_irrefl a)
          · rw [h, h']
          · subst k'; exact absurd k (ltTube_irrefl _)
        · rcases cmpTube_cases b a with ⟨h', k'⟩ | ⟨h', k'⟩ | ⟨h', k'⟩
          · rw [h, h']; rfl
          · exact absurd (ltTube_trans k k') (ltTube_irrefl b)
          · subst k'; exact absurd k (ltTube_irrefl _)
        · subst k; rw [h]; rfl
  · intro a b c _ _ _ h1 h2
    cases c with
    | none =>
      cases b with
      | none => exact absurd h2 (by decide)
      | some b => exact absurd h2 (by show ¬ (1 : Int) < 0; decide)
    | some c =>
      cases a with
      | none => show (-1 : Int) < 0; decide
      | some a =>
        cases b with
        | none => exact absurd h1 (by show ¬ (1 : Int) < 0; decide)
        | some b => exact cmpTube_lt.2 (ltTube_trans (cmpTube_lt.1 h1) (cmpTube_lt.1 h2))

/-- Two items that differ only in the TicketID. -/
def Tie (a b : Item) : Prop := a.deadline = b.deadline ∧ a.key = b.key ∧ a.id ≠ b.id

theorem cmpHermes_tie {a b : Item} (h : Tie a b) : cmpHermes a b = 1 := by
  obtain ⟨h1, h2, h3⟩ := h
  unfold cmpHermes
  rw [if_pos h1, if_pos h2, if_neg h3, if_neg (List.lt_irrefl _)]

/-- The order by deadline and key. -/
def ltHermes (a b : Item) : Prop :=
  a.deadline < b.deadline ∨ a.deadline = b.deadline ∧ a.key < b.key

theorem cmpHermes_cases (a b : Item) (hn : ¬ Tie a b) :
    (cmpHermes a b = -1 ∧ ltHermes a b) ∨ (cmpHermes a b = 1 ∧ ltHermes b a) ∨
    (cmpHermes a b = 0 ∧ a = b) := by
  unfold cmpHermes ltHermes
  by_cases h1 : a.deadline = b.deadline
  · rw [if_pos h1]
    by_cases h2 : a.key = b.key
    · rw [if_pos h2]
      by_cases h3 : a.id = b.id
      · rw [if_pos h3]
        refine .inr (.inr ⟨rfl, ?_⟩)
        cases a
        cases b
        simp only at h1 h2 h3
        subst h1 h2 h3
        rfl
      · exact absurd ⟨h1, h2, h3⟩ hn
    · rw [if_neg h2]
      rcases lt_or_gt_of_ne h2 with h | h
      · rw [if_pos h]; exact .inl ⟨rfl, .inr ⟨h1, h⟩⟩
      · rw [if_neg (fun k => List.lt_irrefl _ (List.lt_trans h k))]
        exact .inr (.inl ⟨rfl, .inr ⟨h1.symm, h⟩⟩)
  · rw [if_neg h1]
    by_cases h2 : a.deadline < b.deadline
    · rw [if_pos h2]; exact .inl ⟨rfl, .inl h2⟩
    · rw [if_neg h2]; exact .inr (.inl ⟨rfl, .inl (by omega)⟩)

theorem ltHermes_trans {a b c : Item} (h1 : ltHermes a b) (h2 : ltHermes b c) : ltHermes a c := by
  unfold ltHermes at *
  rcases h1 with h1 | ⟨e1, h1⟩
  · rcases h2 with h2 | ⟨e2, _⟩
    · exact .inl (by omega)
    · exact .inl (by omega)
  · rcases h2 with h2 | ⟨e2, h2⟩
    · exact .inl (by omega)
    · exact .inr ⟨by omega, List.lt_trans h1 h2⟩

theorem ltHermes_irrefl (a : Item) : ¬ ltHermes a a := by
  unfold ltHermes
  rintro (h | ⟨_, h⟩)
  · omega
  · exact List.lt_irrefl _ h

theorem cmpHermes_refl (a : Item) : cmpHermes a a = 0 := by
  unfold cmpHermes
  rw [if_pos rfl, if_pos rfl, if_pos rfl]

theorem tie_symm {a b : Item} (h : Tie a b) : Tie b a := ⟨h.1.symm, h.2.1.symm, fun e => h.2.2 e.symm⟩

theorem cmpHermes_total (P : Item → Prop) (hP : ∀ a b, P a → P b → ¬ Tie a b) :
    Total cmpHermes P := by
  refine ⟨?_, ?_⟩
  · intro a b ha hb
    rcases cmpHermes_cases a b (hP a b ha hb) with ⟨h, k⟩ | ⟨h, k⟩ | ⟨h, k⟩
    · rcases cmpHermes_cases b a (hP b a hb ha) with ⟨h', k'⟩ | ⟨h', k'⟩ | ⟨h', k'⟩
      · exact absurd (ltHermes_trans k k') (ltHermes_irrefl a)
      · rw [h, h']
      · subst k'; exact absurd k (ltHermes_irrefl _)
    · rcases cmpHermes_cases b a (hP b a hb ha) with ⟨h', k'⟩ | ⟨h', k'⟩ | ⟨h', k'⟩
      · rw [h, h']; rfl
      · exact absurd (ltHermes_trans k k') (ltHermes_irrefl b)
      · subst k'; exact absurd k (ltHermes_irrefl _)
    · subst k; rw [h]; rfl
  · intro a b c ha hb hc h1 h2
    have f : ∀ x y, P x → P y → cmpHermes x y < 0 → ltHermes x y := by
      intro x y hx hy h
      rcases cmpHermes_cases x y (hP x y hx hy) with ⟨_, k⟩ | ⟨h', _⟩ | ⟨h', _⟩
      · exact k
      · rw [h'] at h; exact absurd h (by decide)
      · rw [h'] at h; exact absurd h (by decide)
    have k := ltHermes_trans (f a b ha hb h1) (f b c hb hc h2)
    rcases cmpHermes_cases a c (hP a c ha hc) with ⟨h, _⟩ | ⟨_, k'⟩ | ⟨_, k'⟩
    · rw [h]; decide
    · exact absurd (ltHermes_trans k k') (ltHermes_irrefl a)
    · subst k'; exact absurd k (ltHermes_irrefl _)

/-- One rotation, anywhere in the tree. -/
inductive Rot {α : Type} : Tree α → Tree α → Prop where
  | l (t : Tree α) : Rot t (rotL t)
  | r (t : Tree α) : Rot t (rotR t)
  | left {l l' : Tree α} {v : α} {r : Tree α} : Rot l l' → Rot (.node l v r) (.node l' v r)
  | right {l : Tree α} {v : α} {r r' : Tree α} : Rot r r' → Rot (.node l v r) (.node l v r')

theorem rot_items {α : Type} {t t' : Tree α} (h : Rot t t') : items t' = items t := by
  induction h with
  | l t => exact items_rotL t
  | r t => exact items_rotR t
  | left _ ih => simp only [items, ih]
  | right _ ih => simp only [items, ih]

theorem rot_ordered {α : Type} {cmp : α → α → Int} {P : α → Prop} (hT : Total cmp P) {t t' : Tree α}
    (h : Rot t t') : (∀ x ∈ items t, P x) → Ordered cmp t → Ordered cmp t' := by
  induction h with
  | l t => exact rotL_ordered hT t
  | r t => exact rotR_ordered hT t
  | left hr ih =>
    intro hP ho
    obtain ⟨a, b, c, d⟩ := ho
    refine ⟨ih (fun x hx => hP x (by simp [items, hx])) a, b, ?_, d⟩
    rw [rot_items hr]
    exact c
  | right hr ih =>
    intro hP ho
    obtain ⟨a, b, c, d⟩ := ho
    refine ⟨a, ih (fun x hx => hP x (by simp [items, hx])) b, c, ?_⟩
    rw [rot_items hr]
    exact d

/-- Trees that come about by inserting items of which `P` holds, with rotations
anywhere in between. -/
inductive Built {α : Type} (cmp : α → α → Int) (P : α → Prop) : Tree α → Prop where
  | nil : Built cmp P .nil
  | insert {t : Tree α} (x : α) : P x → Built cmp P t → Built cmp P (insert cmp x t)
  | rot {t t' : Tree α} : Rot t t' → Built cmp P t → Built cmp P t'

theorem built_ordered {α : Type} {cmp : α → α → Int} {P : α → Prop} (hT : Total cmp P) {t : Tree α}
    (h : Built cmp P t) : (∀ x ∈ items t, P x) ∧ Ordered cmp t := by
  induction h with
  | nil => exact ⟨fun _ h => (nomatch h), trivial⟩
  | insert x hx _ ih =>
    refine ⟨fun y hy => ?_, insert_ordered x _ ih.2⟩
    rcases items_insert x y _ hy with rfl | hy
    · exact hx
    · exact ih.1 y hy
  | rot hr _ ih => exact ⟨by rw [rot_items hr]; exact ih.1, rot_ordered hT hr ih.1 ih.2⟩

end Verif.HermesWake
