import Verif.Proofs.HermesOrder

/-! C138: the queue of deadlines finds every ticket again. -/

namespace Verif.HermesWake

/-! ## C138 -/

/-- The comparison of tube's ticket queue is a total order, zero only for the same
ticket (time of arrival, TicketID and SessionID). -/
theorem C138_tube_order :
    (∀ a b, cmpTube a b = - cmpTube b a) ∧
    (∀ a b c, cmpTube a b < 0 → cmpTube b c < 0 → cmpTube a c < 0) ∧
    (∀ a b, cmpTube a b = 0 ↔ a = b) := by
  refine ⟨fun a b => cmpTube_total.flip a b trivial trivial,
    fun a b c => cmpTube_total.trans a b c trivial trivial trivial, ?_⟩
  intro a b
  cases a with
  | none =>
    cases b with
    | none => exact ⟨fun _ => rfl, fun _ => rfl⟩
    | some b => exact ⟨fun h => absurd h (by show ¬ (-1 : Int) = 0; decide), fun h => (nomatch h)⟩
  | some a =>
    cases b with
    | none => exact ⟨fun h => absurd h (by show ¬ (1 : Int) = 0; decide), fun h => (nomatch h)⟩
    | some b =>
      rcases cmpTube_cases a b with ⟨h, k⟩ | ⟨h, k⟩ | ⟨h, k⟩
      · rw [h]
        refine ⟨fun x => absurd x (by decide), fun x => ?_⟩
        cases x
        exact absurd k (ltTube_irrefl _)
      · rw [h]
        refine ⟨fun x => absurd x (by decide), fun x => ?_⟩
        cases x
        exact absurd k (ltTube_irrefl _)
      · exact ⟨fun _ => by rw [k], fun _ => h⟩

example : cmpTube (some ⟨5, [97], [1]⟩) (some ⟨5, [97], [2]⟩) = -1 ∧
    cmpTube (some ⟨5, [97, 98], [1]⟩) (some ⟨5, [97], [2]⟩) = 1 := by decide

/-- In tube's queue every ticket in the tree is found, however the tree has been
balanced. -/
theorem C138_tube_found {t : Tree (Option Tkt)} (h : Built cmpTube (fun _ => True) t)
    (x : Option Tkt) (hx : x ∈ items t) : find cmpTube x t = some x :=
  find_ordered (fun a => (C138_tube_order.2.2 a a).2 rfl) x t (built_ordered cmpTube_total h).2 hx

/-- The Hermes comparison: a total order on every set of items of which no two have
the same deadline and the same key. What is missing: that case. -/
theorem C138_hermes_order_partial (P : Item → Prop)
    (hP : ∀ a b, P a → P b → a.deadline = b.deadline → a.key = b.key → a.id = b.id) :
    (∀ a b, P a → P b → cmpHermes a b = - cmpHermes b a) ∧
    (∀ a b c, P a → P b → P c → cmpHermes a b < 0 → cmpHermes b c < 0 → cmpHermes a c < 0) ∧
    (∀ a b, P a → P b → (cmpHermes a b = 0 ↔ a = b)) := by
  have hn : ∀ a b, P a → P b → ¬ Tie a b := fun a b ha hb ht => ht.2.2 (hP a b ha hb ht.1 ht.2.1)
  refine ⟨(cmpHermes_total P hn).flip, (cmpHermes_total P hn).trans, ?_⟩
  intro a b ha hb
  rcases cmpHermes_cases a b (hn a b ha hb) with ⟨h, k⟩ | ⟨h, k⟩ | ⟨h, k⟩
  · rw [h]
    exact ⟨fun x => absurd x (by decide), fun x => by subst x; exact absurd k (ltHermes_irrefl _)⟩
  · rw [h]
    exact ⟨fun x => absurd x (by decide), fun x => by subst x; exact absurd k (ltHermes_irrefl _)⟩
  · exact ⟨fun _ => k, fun _ => h⟩

/-- And then every item in the tree is found. -/
theorem C138_hermes_found_partial (P : Item → Prop)
    (hP : ∀ a b, P a → P b → a.deadline = b.deadline → a.key = b.key → a.id = b.id)
    {t : Tree Item} (h : Built cmpHermes P t) (x : Item) (hx : x ∈ items t) :
    find cmpHermes x t = some x :=
  find_ordered cmpHermes_refl x t
    (built_ordered (cmpHermes_total P (fun a b ha hb ht => ht.2.2 (hP a b ha hb ht.1 ht.2.1))) h).2 hx

/-- Two items of one key, with different deadlines. -/
def sample (a : Item) : Prop := a = ⟨5, [1], [7]⟩ ∨ a = ⟨6, [1], [8]⟩

example : (∀ a b, sample a → sample b → a.deadline = b.deadline → a.key = b.key → a.id = b.id) ∧
    Built cmpHermes sample (insert cmpHermes ⟨5, [1], [7]⟩ (insert cmpHermes ⟨6, [1], [8]⟩ .nil)) := by
  refine ⟨?_, .insert _ (.inl rfl) (.insert _ (.inr rfl) .nil)⟩
  intro a b ha hb hd _
  rcases ha with rfl | rfl <;> rcases hb with rfl | rfl <;> first | rfl | cases hd

/-- Any two different tickets with the same deadline and key: each is greater than
the other. -/
theorem C138_hermes_order_counterexample (a b : Item) (hd : a.deadline = b.deadline)
    (hk : a.key = b.key) (hi : a.id ≠ b.id) : cmpHermes a b = 1 ∧ cmpHermes b a = 1 :=
  ⟨cmpHermes_tie ⟨hd, hk, hi⟩, cmpHermes_tie (tie_symm ⟨hd, hk, hi⟩)⟩

/-- Any three of them, inserted one after the other; the tree is then rotated at
its root (as a red-black tree is after the third). All three are in it, and the
first is not found: it cannot be deleted, nor can its deadline be moved. -/
theorem C138_hermes_lost_counterexample (a b c : Item) (hab : Tie a b) (hbc : Tie b c) (hac : Tie a c) :
    ∃ t, Built cmpHermes (fun x => x = a ∨ x = b ∨ x = c) t ∧
      t = rotL (insert cmpHermes c (insert cmpHermes b (insert cmpHermes a .nil))) ∧
      items t = [a, b, c] ∧ find cmpHermes a t = none := by
  refine ⟨_, .rot (.l _) (.insert c (.inr (.inr rfl)) (.insert b (.inr (.inl rfl))
    (.insert a (.inl rfl) .nil))), rfl, ?_⟩
  have hba := cmpHermes_tie (tie_symm hab)
  have hca := cmpHermes_tie (tie_symm hac)
  have hcb := cmpHermes_tie (tie_symm hbc)
  have hab' := cmpHermes_tie hab
  have hac' := cmpHermes_tie hac
  have e : rotL (insert cmpHermes c (insert cmpHermes b (insert cmpHermes a .nil))) =
      .node (.node .nil a .nil) b (.node .nil c .nil) := by
    simp [insert, hba, hca, hcb, rotL]
  rw [e]
  refine ⟨rfl, ?_⟩
  simp [find, hab', hac']

example : Tie ⟨5, [1], [7]⟩ ⟨5, [1], [8]⟩ ∧ Tie ⟨5, [1], [8]⟩ ⟨5, [1], [9]⟩ ∧
    Tie ⟨5, [1], [7]⟩ ⟨5, [1], [9]⟩ := by
  unfold Tie
  decide

/-- In a tree of any shape: an item to the left of a node with the same deadline and
key, and another TicketID, is not found, if no item of its TicketID is to the
right. -/
theorem C138_hermes_left_counterexample (l r : Tree Item) (x v : Item) (ht : Tie x v)
    (hr : ∀ y ∈ items r, y.id ≠ x.id) : find cmpHermes x (.node l v r) = none := by
  have h1 := cmpHermes_tie ht
  have : find cmpHermes x (.node l v r) = find cmpHermes x r := by
    rw [find, if_neg (by omega), if_neg (by omega)]
  rw [this]
  cases h : find cmpHermes x r with
  | none => rfl
  | some y =>
    obtain ⟨h2, h3⟩ := find_sound x y r h
    by_cases hT : Tie x y
    · rw [cmpHermes_tie hT] at h2
      cases h2
    · rcases cmpHermes_cases x y hT with ⟨h', _⟩ | ⟨h', _⟩ | ⟨_, h'⟩
      · rw [h'] at h2; cases h2
      · rw [h'] at h2; cases h2
      · subst h'
        exact absurd rfl (hr _ h3)

end Verif.HermesWake
