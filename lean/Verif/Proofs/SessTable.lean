import Verif.Spec.SessTable
/-
Lemmas about the session table.
-/
namespace Verif.SessTable

theorem upd_same {β : Type} (f : Nat → β) (x : Nat) (v : β) : upd f x v x = v := by simp [upd]
theorem upd_ne {β : Type} (f : Nat → β) {x y : Nat} (v : β) (h : y ≠ x) : upd f x v y = f y := by simp [upd, h]

def SortedT (h : Nat → Ste) (l : List Nat) : Prop := l.Pairwise (fun p q => before h p q = true)

theorem before_iff {h : Nat → Ste} {p q : Nat} :
    before h p q = true ↔ (h p).endx < (h q).endx ∨ ((h p).endx = (h q).endx ∧ (h p).id < (h q).id) := by
  simp [before]

theorem same_iff {h : Nat → Ste} {p q : Nat} : same h p q = true ↔ (h p).endx = (h q).endx ∧ (h p).id = (h q).id := by
  simp [same]

theorem before_trans {h : Nat → Ste} {p q r : Nat} (h1 : before h p q = true) (h2 : before h q r = true) : before h p r = true := by
  rw [before_iff] at *
  omega

/-- Ids tell pointers apart. -/
def Uniq (h : Nat → Ste) (n : Nat) : Prop := ∀ p q, p < n → q < n → (h p).id = (h q).id → p = q

theorem mem_treeDel {h : Nat → Ste} {n p : Nat} {l : List Nat} (hu : Uniq h n) (hp : p < n) (hl : ∀ q ∈ l, q < n) (q : Nat) :
    q ∈ treeDel h p l ↔ q ∈ l ∧ q ≠ p := by
  unfold treeDel
  rw [List.mem_filter]
  constructor
  · rintro ⟨h1, h2⟩
    refine ⟨h1, ?_⟩
    rintro rfl
    have : same h q q = true := same_iff.2 ⟨rfl, rfl⟩
    rw [this] at h2
    cases h2
  · rintro ⟨h1, h2⟩
    refine ⟨h1, ?_⟩
    cases hs : same h p q
    · rfl
    · exact absurd (hu p q hp (hl q h1) (same_iff.1 hs).2).symm h2

theorem sorted_treeDel {h : Nat → Ste} {p : Nat} {l : List Nat} (hl : SortedT h l) : SortedT h (treeDel h p l) :=
  List.Pairwise.sublist List.filter_sublist hl

theorem treeAdd_spec {h : Nat → Ste} {p : Nat} : ∀ {l : List Nat}, (∀ q ∈ l, (h q).id ≠ (h p).id) → SortedT h l →
    (∀ q, q ∈ treeAdd h p l ↔ q = p ∨ q ∈ l) ∧ SortedT h (treeAdd h p l)
  | [], _, _ => ⟨fun q => by simp [treeAdd], List.pairwise_singleton _ _⟩
  | a :: l, hn, hs => by
    have hs' := List.pairwise_cons.1 hs
    have ih := treeAdd_spec (h := h) (p := p) (l := l) (fun q hq => hn q (List.mem_cons_of_mem _ hq)) hs'.2
    unfold treeAdd
    by_cases hb : before h p a = true
    · rw [if_pos hb]
      refine ⟨fun q => by simp, List.pairwise_cons.2 ⟨?_, hs⟩⟩
      intro x hx
      rcases List.mem_cons.1 hx with rfl | hx
      · exact hb
      · exact before_trans hb (hs'.1 x hx)
    · have hsm : ¬ same h p a = true := fun e => hn a List.mem_cons_self (same_iff.1 e).2.symm
      rw [if_neg hb, if_neg hsm]
      refine ⟨fun q => ?_, List.pairwise_cons.2 ⟨?_, ih.2⟩⟩
      · simp only [List.mem_cons, ih.1]
        constructor <;> (rintro (h | h | h) <;> simp [h])
      · intro x hx
        rcases (ih.1 x).1 hx with rfl | hx
        · have := hn a List.mem_cons_self
          rw [before_iff] at *
          omega
        · exact hs'.1 x hx

theorem sorted_congr {h h' : Nat → Ste} {l : List Nat} (he : ∀ q ∈ l, h' q = h q) (hs : SortedT h l) : SortedT h' l := by
  refine List.Pairwise.imp_of_mem ?_ hs
  intro a b ha hb hab
  unfold before
  rw [he a ha, he b hb]
  exact hab

/-- Of a list in order, the front part that has ended is all that has. -/
theorem split_ended {h : Nat → Ste} {t : Nat} : ∀ {l : List Nat}, SortedT h l →
    l.takeWhile (fun p => decide ((h p).endx ≤ t)) = l.filter (fun p => decide ((h p).endx ≤ t)) ∧
    l.drop (l.takeWhile (fun p => decide ((h p).endx ≤ t))).length = l.filter (fun p => !decide ((h p).endx ≤ t))
  | [], _ => ⟨rfl, rfl⟩
  | a :: l, hs => by
    have hs' := List.pairwise_cons.1 hs
    have ih := split_ended (t := t) hs'.2
    by_cases ha : (h a).endx ≤ t
    · rw [List.takeWhile_cons_of_pos (by simpa using ha), List.filter_cons_of_pos (by simpa using ha),
        List.filter_cons_of_neg (by simpa using ha)]
      refine ⟨by rw [ih.1], ?_⟩
      show (a :: l).drop ((l.takeWhile _).length + 1) = _
      rw [List.drop_succ_cons]
      exact ih.2
    · rw [List.takeWhile_cons_of_neg (by simpa using ha), List.filter_cons_of_neg (by simpa using ha),
        List.filter_cons_of_pos (by simpa using ha)]
      have late : ∀ b ∈ l, ¬ (h b).endx ≤ t := by
        intro b hb
        have := hs'.1 b hb
        rw [before_iff] at this
        omega
      refine ⟨(List.filter_eq_nil_iff.2 (fun b hb => by simpa using late b hb)).symm, ?_⟩
      show a :: l = _
      rw [List.filter_eq_self.2 (fun b hb => by simpa using late b hb)]

/-! What clean-up does -/

theorem gcOne_frame (s : Node) (p : Nat) : (gcOne s p).heap = s.heap ∧ (gcOne s p).next = s.next ∧ (gcOne s p).tree = s.tree ∧
    (gcOne s p).lhlc = s.lhlc := ⟨rfl, rfl, rfl, rfl⟩

theorem forgetName_iff (h : Nat → Ste) (b : Nat → Option Nat) (c i n q : Nat) : forgetName h b c i n = some q ↔
    b n = some q ∧ (c = n → (h q).id ≠ i) := by
  unfold forgetName
  by_cases hn : n = c
  · subst hn
    cases hb : b n with
    | none => simp [hb]
    | some r =>
      show (if (h r).id = i then upd b n none else b) n = some q ↔ _
      by_cases hr : (h r).id = i
      · rw [if_pos hr, upd_same]
        constructor
        · intro e; cases e
        · rintro ⟨e, k⟩; cases e; exact absurd hr (k rfl)
      · rw [if_neg hr, hb]
        constructor
        · intro e; cases e; exact ⟨rfl, fun _ => hr⟩
        · exact fun h => h.1
  · have e : ∀ x : Option Nat, (match x with
        | some q => if (h q).id = i then upd b c none else b
        | none => b) n = b n := by
      intro x
      cases x with
      | none => rfl
      | some r =>
        show (if (h r).id = i then upd b c none else b) n = b n
        by_cases hr : (h r).id = i
        · rw [if_pos hr]; exact upd_ne _ _ hn
        · rw [if_neg hr]
    cases hb : b c with
    | none => exact ⟨fun h => ⟨h, fun e => absurd e.symm hn⟩, fun h => h.1⟩
    | some r =>
      show (if (h r).id = i then upd b c none else b) n = some q ↔ _
      have := e (some r)
      simp only at this
      rw [this]
      exact ⟨fun h => ⟨h, fun e => absurd e.symm hn⟩, fun h => h.1⟩

theorem gcOne_byName (s : Node) (p n q : Nat) : (gcOne s p).byName n = some q ↔
    s.byName n = some q ∧ ((s.heap p).client = n → (s.heap q).id ≠ (s.heap p).id) := forgetName_iff _ _ _ _ _ _

theorem gcFold (d : List Nat) : ∀ s : Node, (d.foldl gcOne s).heap = s.heap ∧ (d.foldl gcOne s).next = s.next ∧
    (d.foldl gcOne s).tree = s.tree ∧ (d.foldl gcOne s).lhlc = s.lhlc ∧
    (∀ id, (d.foldl gcOne s).table id = if ∃ p ∈ d, (s.heap p).id = id then none else s.table id) ∧
    (∀ n q, (d.foldl gcOne s).byName n = some q ↔ s.byName n = some q ∧
      ∀ p ∈ d, (s.heap p).client = n → (s.heap q).id ≠ (s.heap p).id) := by
  induction d with
  | nil => intro s; exact ⟨rfl, rfl, rfl, rfl, fun id => by simp, fun n q => by simp⟩
  | cons a d ih =>
    intro s
    obtain ⟨h1, h2, h3, h4, h5, h6⟩ := ih (gcOne s a)
    refine ⟨h1, h2, h3, h4, ?_, ?_⟩
    · intro id
      show (d.foldl gcOne (gcOne s a)).table id = _
      rw [h5]
      show (if ∃ p ∈ d, (s.heap p).id = id then none else upd s.table (s.heap a).id none id) = _
      by_cases hd : ∃ p ∈ d, (s.heap p).id = id
      · rw [if_pos hd, if_pos]
        obtain ⟨p, hp, e⟩ := hd
        exact ⟨p, List.mem_cons_of_mem _ hp, e⟩
      · rw [if_neg hd]
        by_cases ha : id = (s.heap a).id
        · rw [ha, upd_same, if_pos ⟨a, List.mem_cons_self, rfl⟩]
        · rw [upd_ne _ _ ha, if_neg]
          rintro ⟨p, hp, e⟩
          rcases List.mem_cons.1 hp with rfl | hp
          · exact ha e.symm
          · exact hd ⟨p, hp, e⟩
    · intro n q
      show (d.foldl gcOne (gcOne s a)).byName n = some q ↔ _
      rw [h6, gcOne_byName]
      show (_ ∧ ∀ p ∈ d, (s.heap p).client = n → (s.heap q).id ≠ (s.heap p).id) ↔ _
      simp only [List.mem_cons, forall_eq_or_imp]
      exact and_assoc

/-- The three structures fit together. -/
structure Inv (l : List Action) (s : Node) : Prop where
  uniq : Uniq s.heap s.next
  made : ∀ p, p < s.next → Made l (s.heap p).id (s.heap p).client (s.heap p).t0
  tab : ∀ id p, s.table id = some p → (s.heap p).id = id ∧ p < s.next ∧ p ∈ s.tree ∧ s.byName (s.heap p).client = some p
  tree : ∀ p ∈ s.tree, s.table (s.heap p).id = some p
  sorted : SortedT s.heap s.tree
  name : ∀ n p, s.byName n = some p → (s.heap p).client = n ∧ p < s.next

theorem Made.mono {l l' : List Action} (h : ∀ a ∈ l, a ∈ l') {i c t : Nat} (hm : Made l i c t) : Made l' i c t := by
  obtain ⟨d, x, hx⟩ := hm
  exact ⟨d, x, h _ hx⟩

theorem Inv.treeLt {l : List Action} {s : Node} (I : Inv l s) : ∀ q ∈ s.tree, q < s.next :=
  fun q hq => (I.tab _ q (I.tree q hq)).2.1

theorem Inv.mono {l l' : List Action} {s : Node} (h : ∀ a ∈ l, a ∈ l') (I : Inv l s) : Inv l' s :=
  { I with made := fun p hp => (I.made p hp).mono h }

theorem Inv.reach {l : List Action} {s : Node} (I : Inv l s) (t : Nat) : Inv l (reach s t) :=
  ⟨I.uniq, I.made, I.tab, I.tree, I.sorted, I.name⟩

theorem gc_spec {l : List Action} {s : Node} (I : Inv l s) : Inv l (gc s) ∧ (gc s).lhlc = s.lhlc ∧
    ∀ id, (gc s).known id = (s.known id).filter (fun r => decide (s.lhlc < r.ends)) := by
  obtain ⟨e1, e2⟩ := split_ended (t := s.lhlc) I.sorted
  obtain ⟨h1, h2, h3, h4, h5, h6⟩ := gcFold (s.tree.takeWhile (fun p => decide ((s.heap p).endx ≤ s.lhlc)))
    { s with tree := s.tree.drop (s.tree.takeWhile (fun p => decide ((s.heap p).endx ≤ s.lhlc))).length }
  change (gc s).heap = s.heap at h1
  change (gc s).next = s.next at h2
  change (gc s).tree = _ at h3
  change (gc s).lhlc = s.lhlc at h4
  change ∀ id, (gc s).table id = (if ∃ p ∈ _, (s.heap p).id = id then none else s.table id) at h5
  change ∀ n q, (gc s).byName n = some q ↔ s.byName n = some q ∧ ∀ p ∈ _, (s.heap p).client = n → (s.heap q).id ≠ (s.heap p).id at h6
  rw [e1] at h5 h6
  change (gc s).tree = s.tree.drop _ at h3
  rw [e2] at h3
  have ht : ∀ id p, s.table id = some p → (gc s).table id = if (s.heap p).endx ≤ s.lhlc then none else some p := by
    intro id p hp
    have hi := I.tab id p hp
    rw [h5]
    by_cases he : (s.heap p).endx ≤ s.lhlc
    · rw [if_pos he, if_pos ⟨p, List.mem_filter.2 ⟨hi.2.2.1, by simpa using he⟩, hi.1⟩]
    · rw [if_neg he, if_neg, hp]
      rintro ⟨q, hq, e⟩
      have hq' := List.mem_filter.1 hq
      have : q = p := I.uniq q p (I.treeLt q hq'.1) hi.2.1 (e.trans hi.1.symm)
      subst this
      exact he (by simpa using hq'.2)
  have hsome : ∀ id p, (gc s).table id = some p → s.table id = some p ∧ ¬ (s.heap p).endx ≤ s.lhlc := by
    intro id p hp
    cases hs : s.table id with
    | none =>
      rw [h5, hs] at hp
      split at hp <;> cases hp
    | some q =>
      rw [ht id q hs] at hp
      by_cases he : (s.heap q).endx ≤ s.lhlc
      · rw [if_pos he] at hp; cases hp
      · rw [if_neg he] at hp; cases hp; exact ⟨rfl, he⟩
  refine ⟨?_, h4, ?_⟩
  · constructor
    · rw [h1, h2]; exact I.uniq
    · rw [h1, h2]; exact I.made
    · intro id p hp
      obtain ⟨hp', he⟩ := hsome id p hp
      obtain ⟨i1, i2, i3, i4⟩ := I.tab id p hp'
      rw [h1, h2, h3]
      refine ⟨i1, i2, List.mem_filter.2 ⟨i3, by simpa using he⟩, ?_⟩
      rw [h6]
      refine ⟨i4, ?_⟩
      intro q hq _ e
      have hq' := List.mem_filter.1 hq
      have : p = q := I.uniq p q i2 (I.treeLt q hq'.1) e
      subst this
      exact he (by simpa using hq'.2)
    · intro p hp
      rw [h3] at hp
      have hp' := List.mem_filter.1 hp
      rw [h1, ht _ p (I.tree p hp'.1), if_neg (by simpa using hp'.2)]
    · rw [h1, h3]
      exact List.Pairwise.sublist List.filter_sublist I.sorted
    · intro n p hp
      rw [h1, h2]
      exact I.name n p ((h6 n p).1 hp).1
  · intro id
    unfold Node.known
    rw [h1]
    cases hs : s.table id with
    | none =>
      rw [h5, hs]
      split <;> rfl
    | some p =>
      rw [ht id p hs]
      by_cases he : (s.heap p).endx ≤ s.lhlc
      · rw [if_pos he]
        simp [Option.filter, Nat.not_lt.2 he]
      · rw [if_neg he]
        simp [Option.filter, Nat.lt_of_not_le he]

end Verif.SessTable
