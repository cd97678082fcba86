import Verif.Proofs.ArtIter
/-
Ranges: what a whole iteration gives, and what it gives next after the tree has changed.
-/
namespace Verif.Art

set_option linter.unusedSectionVars false
variable {V : Type}

theorem split_unique {α : Type} {P : α → Prop} {l1 l2 pre post : List α} {e f : α}
    (h : l1 ++ e :: l2 = pre ++ f :: post) (h1 : ∀ x ∈ l1, ¬ P x) (he : P e) (h2 : ∀ x ∈ pre, ¬ P x) (hf : P f) :
    l1 = pre ∧ e = f ∧ l2 = post := by
  induction l1 generalizing pre with
  | nil =>
    cases pre with
    | nil => simpa using h
    | cons x pre => simp at h; exact absurd (h.1 ▸ he) (h2 x (by simp))
  | cons y l1 ih =>
    cases pre with
    | nil => simp at h; exact absurd (h.1 ▸ hf) (h1 y (by simp))
    | cons x pre =>
      simp only [List.cons_append, List.cons.injEq] at h
      obtain ⟨g1, g2, g3⟩ := ih h.2 (fun z hz => h1 z (by simp [hz])) (fun z hz => h2 z (by simp [hz]))
      exact ⟨by rw [h.1, g1], g2, g3⟩

/-- The iterator's index after its first step is the place of the first leaf in the range. -/
def IdxOk (it : Iter V) (L : List (Key × V)) : Prop :=
  ∀ pre f post, order it.reverse L = pre ++ f :: post → (∀ x ∈ pre, it.inRange x.1 = false) → it.inRange f.1 = true →
    it.curIdx = if it.reverse then post.length else pre.length

/-- A whole walk from the start. -/
theorem drain_fresh {t : Tree V} {L : List (Key × V)} (ht : TreeOk t L) (hne : L ≠ []) {it : Iter V}
    (hc : it.closed = false) (hv : it.version = t.version) (hs : it.stack = [])
    (hidx : IdxOk { it with curIdx := if it.reverse then it.curIdx - 1 else it.curIdx + 1 } L)
    (n : Nat) (hn : L.length < n) : t.drain n it = (order it.reverse L).filter fun x => it.inRange x.1 := by
  obtain ⟨n, rfl⟩ : ∃ m, n = m + 1 := ⟨n - 1, by omega⟩
  have hnext : t.next it = t.go { it with curIdx := if it.reverse then it.curIdx - 1 else it.curIdx + 1 } := by
    unfold Tree.next
    rw [if_neg (by simp [hc]), if_neg (by simp [hv])]
  rw [Tree.drain, hnext]
  generalize hit : ({ it with curIdx := if it.reverse then it.curIdx - 1 else it.curIdx + 1 } : Iter V) = it2 at hidx
  have hir : ∀ k, it.inRange k = it2.inRange k := by intro k; subst hit; rfl
  have hrev : it.reverse = it2.reverse := by subst hit; rfl
  simp only [hir, hrev]
  have hc2 : it2.closed = false := by subst hit; exact hc
  have hv2 : it2.version = t.version := by subst hit; exact hv
  have hs2 : it2.stack = [] := by subst hit; exact hs
  by_cases h2 : 2 ≤ L.length
  · rcases go_fresh ht h2 hc2 hv2 hs2 with ⟨g1, g2, g3⟩ | ⟨pre, f, post, g1, g2, g3, g4, g5, g6, g7, g8⟩
    · generalize t.go it2 = res at g1 g2
      obtain ⟨it', b⟩ := res
      simp only at g1
      subst g1
      symm
      rw [List.filter_eq_nil_iff]
      intro x hx; simp [g3 x hx]
    · have hat := g6 (hidx pre f post g1 g2 g3)
      have hw : ∀ k, within (t.go it2).1 k = within it2 k := by intro k; unfold within; rw [g7, g8]
      have hcur : (t.go it2).1.cursor = f.1 := hat.cursor
      have hord := order_sorted (rev := it2.reverse) ht.sorted
      generalize t.go it2 = res at g4 g5 g7 g8 hw hat
      obtain ⟨it', b⟩ := res
      simp only at g4 g5
      subst g4
      dsimp only at hat hw ⊢
      have hlen : post.length < L.length := by
        have h3 : (order it2.reverse L).length = L.length := by unfold order; split <;> simp
        rw [g1] at h3
        simp at h3
        omega
      rw [g5, drain_at ht hat n (by omega), g1, List.filter_append]
      have hpre : (pre.filter fun x => it2.inRange x.1) = [] := by
        rw [List.filter_eq_nil_iff]; intro x hx; simp [g2 x hx]
      rw [hpre]
      simp only [List.filter_cons, g3, if_true, Option.toList, List.singleton_append, List.nil_append]
      congr 1
      refine List.filter_congr fun x hx => ?_
      rw [hw]
      rw [g1, List.pairwise_append, List.pairwise_cons] at hord
      have hfx := hord.2.1.1 x hx
      unfold Iter.inRange at g3 ⊢
      unfold within
      cases hr : it2.reverse with
      | false =>
        rw [hr] at g3 hfx
        simp only [Bool.false_eq_true, if_false, Bool.and_eq_true, decide_eq_true_eq] at g3 hfx ⊢
        have : cmp x.1 it2.cursor ≠ .lt := by
          rw [Ne, cmp_lt] at g3 ⊢
          intro hlt; exact g3.1 (klt_trans hfx hlt)
        simp [this]
      | true =>
        rw [hr] at g3 hfx
        simp only [if_true, Bool.and_eq_true, Bool.or_eq_true, decide_eq_true_eq] at g3 hfx ⊢
        rcases g3.1 with h | h
        · have : cmp x.1 it2.cursor ≠ .gt := by
            rw [Ne, cmp_gt] at h ⊢
            intro hlt; exact h (klt_trans hlt hfx)
          simp [this]
        · simp [h]
  · obtain ⟨e, rfl⟩ : ∃ e, L = [e] := by
      match L, hne, h2 with
      | [e], _, _ => exact ⟨e, rfl⟩
      | a :: b :: rest, _, h => simp at h
    have ho : order it2.reverse [e] = [e] := by unfold order; split <;> simp
    rw [go_single ht hs2, ho]
    by_cases hin : it2.inRange e.1 = true
    · simp only [hin, if_true]
      rw [drain_closed rfl]
      simp [hin]
    · simp [hin]

theorem below_nil (L : List (Key × V)) : ¬ Below [] L := by
  rintro ⟨-, i, c, h, -⟩; simp at h

/-- The first key of an ascending range. -/
theorem gte_start {t : Tree V} {L : List (Key × V)} (ht : TreeOk t L) (hne : L ≠ []) {q : Key} (hb : ¬ Below q L) :
    ((t.find .gte q).found = true ∧ ∃ l1 e l2, L = l1 ++ e :: l2 ∧ (t.find .gte q).idx = l1.length ∧ ¬ e.1 < q ∧
      ∀ x ∈ l1, x.1 < q) ∨
    ((t.find .gte q).found = false ∧ ∀ e ∈ L, e.1 < q) := by
  by_cases hq : q = []
  · subst hq
    have := find_nil ht hne .gte (by simp)
    left
    simp only [true_or, if_true] at this
    cases L with
    | nil => exact absurd rfl hne
    | cons a L => exact ⟨this.1, [], a, L, rfl, by simpa using this.2.2, by simp, by simp⟩
  · rcases find_up ht hq (sm := .gte) (.inl rfl) (by simp) with ⟨h1, -, l1, e, l2, h2, h3, -, h5, h6⟩ | ⟨h1, h2 | h2⟩
    · left
      exact ⟨h1, l1, e, l2, h2, h3, h5, fun x hx => by simpa [Good] using h6 x hx⟩
    · right; exact ⟨h1, fun e he => by simpa [Good] using h2 e he⟩
    · exact absurd h2 hb

theorem lte_start {t : Tree V} {L : List (Key × V)} (ht : TreeOk t L) (hne : L ≠ []) {q : Key} :
    ((t.find .lte q).found = true ∧ ∃ l1 e l2, L = l1 ++ e :: l2 ∧ (t.find .lte q).idx = l1.length ∧
      (q = [] ∨ ¬ q < e.1) ∧ ∀ x ∈ l2, q ≠ [] ∧ q < x.1) ∨
    ((t.find .lte q).found = false ∧ ∀ e ∈ L, q ≠ [] ∧ q < e.1) := by
  by_cases hq : q = []
  · subst hq
    have := find_nil ht hne .lte (by simp)
    left
    simp only [reduceCtorEq, or_self, if_false] at this
    cases hl : L.getLast? with
    | none => simp at hl; exact absurd hl hne
    | some e =>
      obtain ⟨A, hA⟩ := last_split hl
      subst hA
      exact ⟨this.1, A, e, [], rfl, by simpa using this.2.2, .inl rfl, by simp⟩
  · rcases find_down ht hq (sm := .lte) (.inl rfl) (by simp) with ⟨h1, l1, e, l2, h2, h3, -, h5, h6⟩ | ⟨h1, h2⟩
    · left
      exact ⟨h1, l1, e, l2, h2, h3, .inr h5, fun x hx => ⟨hq, by simpa [Good] using h6 x hx⟩⟩
    · right; exact ⟨h1, fun e he => ⟨hq, by simpa [Good] using h2 e he⟩⟩

/-- No key before the end: nothing to give. -/
theorem lt_stop {t : Tree V} {L : List (Key × V)} (ht : TreeOk t L) (hne : L ≠ []) {q : Key}
    (hf : (t.find .lt q).found = false) : q ≠ [] ∧ ∀ e ∈ L, ¬ e.1 < q := by
  have hq : q ≠ [] := by
    rintro rfl
    rw [(find_nil ht hne .lt (by simp)).1] at hf
    simp at hf
  refine ⟨hq, ?_⟩
  by_cases hx : ∃ e, L = [e] ∧ e.1 = q
  · obtain ⟨e, rfl, rfl⟩ := hx
    intro x hx; simp at hx; subst hx; exact klt_irrefl _
  · rcases find_down ht hq (sm := .lt) (.inr rfl) (fun _ e h1 h2 => hx ⟨e, h1, h2⟩) with ⟨h1, -⟩ | ⟨-, h2⟩
    · rw [h1] at hf; simp at hf
    · exact h2

theorem gt_stop {t : Tree V} {L : List (Key × V)} (ht : TreeOk t L) (hne : L ≠ []) {q : Key} (hb : ¬ Below q L)
    (hf : (t.find .gt q).found = false) : q ≠ [] ∧ ∀ e ∈ L, ¬ q < e.1 := by
  have hq : q ≠ [] := by
    rintro rfl
    rw [(find_nil ht hne .gt (by simp)).1] at hf
    simp at hf
  refine ⟨hq, ?_⟩
  by_cases hx : ∃ e, L = [e] ∧ e.1 = q
  · obtain ⟨e, rfl, rfl⟩ := hx
    intro x hx; simp at hx; subst hx; exact klt_irrefl _
  · rcases find_up ht hq (sm := .gt) (.inr rfl) (fun _ e h1 h2 => hx ⟨e, h1, h2⟩) with ⟨h1, -⟩ | ⟨-, h2 | h2⟩
    · rw [h1] at hf; simp at hf
    · exact h2
    · exact absurd h2 hb

theorem iter_idx {t : Tree V} {L : List (Key × V)} (ht : TreeOk t L) (hne : L ≠ []) {start stop : Key}
    (hb : ¬ Below start L) (hf : (t.find .gte start).found = true) :
    IdxOk ({ version := t.version, cursor := start, terminate := stop,
             curIdx := ((t.find .gte start).idx - 1 : Int) + 1 } : Iter V) L := by
  intro pre f post h1 h2 h3
  simp only [order, Bool.false_eq_true, if_false] at h1 ⊢
  rcases gte_start ht hne hb with ⟨-, l1, e, l2, g1, g2, g3, g4⟩ | ⟨g, -⟩
  · have hs := ht.sorted
    have hsp := split_unique (P := fun x : Key × V => ¬ x.1 < start) (g1.symm.trans h1)
      (fun x hx h => h (g4 x hx)) g3 ?_ ?_
    · rw [g2, hsp.1]; omega
    · intro x hx hn
      have hxf := h2 x hx
      rw [h1, List.pairwise_append, List.pairwise_cons] at hs
      have hlt := hs.2.2 x hx f (by simp)
      unfold Iter.inRange at hxf h3
      simp only [Bool.false_eq_true, if_false, Bool.and_eq_true, decide_eq_true_eq, Bool.or_eq_true] at h3
      simp only [Bool.false_eq_true, if_false, Bool.and_eq_false_iff, decide_eq_false_iff_not, Bool.or_eq_false_iff] at hxf
      rw [Ne, cmp_lt] at hxf h3
      rcases hxf with hxf | ⟨ha, hb2⟩
      · exact hxf hn
      · rcases h3.2 with h | h
        · rw [h] at ha; simp at ha
        · rw [cmp_lt] at h hb2
          exact hb2 (klt_trans hlt h)
    · unfold Iter.inRange at h3
      simp only [Bool.false_eq_true, if_false, Bool.and_eq_true, decide_eq_true_eq] at h3
      rw [Ne, cmp_lt] at h3
      exact h3.1
  · rw [hf] at g; simp at g

theorem rev_idx {t : Tree V} {L : List (Key × V)} (ht : TreeOk t L) (hne : L ≠ []) {start stop : Key}
    (hf : (t.find .lte start).found = true) :
    IdxOk ({ version := t.version, reverse := true, cursor := start, terminate := stop,
             curIdx := ((t.find .lte start).idx + 1 : Int) - 1 } : Iter V) L := by
  intro pre f post h1 h2 h3
  simp only [order, if_true] at h1 ⊢
  rcases lte_start ht hne (q := start) with ⟨-, l1, e, l2, g1, g2, g3, g4⟩ | ⟨g, -⟩
  · have hs := order_sorted (rev := true) ht.sorted
    simp only [order, if_true] at hs
    have h1' : l2.reverse ++ e :: l1.reverse = pre ++ f :: post := by rw [← h1, g1]; simp
    have hsp := split_unique (P := fun x : Key × V => start = [] ∨ ¬ start < x.1) h1'
      (fun x hx h => by
        have := g4 x (by simpa using hx)
        rcases h with h | h
        · exact this.1 h
        · exact h this.2) g3 ?_ ?_
    · rw [g2, ← hsp.2.2]; simp
    · intro x hx hn
      have hxf := h2 x hx
      rw [h1, List.pairwise_append, List.pairwise_cons] at hs
      have hlt := hs.2.2 x hx f (by simp)
      unfold Iter.inRange at hxf h3
      simp only [if_true, Bool.and_eq_true, decide_eq_true_eq, Bool.or_eq_true] at h3
      simp only [if_true, Bool.and_eq_false_iff, decide_eq_false_iff_not, Bool.or_eq_false_iff] at hxf
      rw [Ne, cmp_gt] at hxf h3
      rcases hxf with ⟨hxf, hxe⟩ | ⟨ha, hb2⟩
      · rcases hn with hn | hn
        · subst hn; simp at hxe
        · exact hxf hn
      · rcases h3.2 with h | h
        · rw [h] at ha; simp at ha
        · rw [cmp_gt] at h hb2
          exact hb2 (klt_trans h hlt)
    · unfold Iter.inRange at h3
      simp only [if_true, Bool.and_eq_true, decide_eq_true_eq, Bool.or_eq_true] at h3
      rw [Ne, cmp_gt] at h3
      rcases h3.1 with h | h
      · exact .inr h
      · left; simpa using h
  · rw [hf] at g; simp at g

/-- An ascending range. -/
theorem ascend_ok {t : Tree V} {L : List (Key × V)} (ht : TreeOk t L) {start stop : Key} (hb : ¬ Below start L)
    (n : Nat) (hn : L.length < n) :
    t.drain n (t.iter start stop) = L.filter fun e => decide (¬ e.1 < start ∧ (stop = [] ∨ e.1 < stop)) := by
  unfold Tree.iter
  by_cases hne : L = []
  · subst hne
    have hr : t.root = none := by
      have := ht.root
      cases hr : t.root with
      | none => rfl
      | some r => rw [hr] at this; exact absurd this.2.symm this.1.ne_nil
    rw [if_pos (by simp [hr]), drain_closed rfl]; rfl
  · obtain ⟨r, hr, -, -⟩ := ht.root_some hne
    have hsz : ¬ t.size < 1 := by rw [ht.size]; have := List.length_pos_iff.2 hne; omega
    rw [if_neg (by simp [hr]; omega)]
    by_cases h1 : (t.find .gte start).found = true
    · rw [if_neg (by simp [h1])]
      by_cases h2 : (t.find .lt stop).found = true
      · rw [if_neg (by simp [h2]), drain_fresh ht hne rfl rfl rfl (iter_idx ht hne hb h1) n hn]
        simp only [order, Bool.false_eq_true, if_false]
        refine List.filter_congr fun x _ => ?_
        unfold Iter.inRange
        rw [Bool.eq_iff_iff]
        simp [cmp_lt]
      · have h2' : (t.find .lt stop).found = false := by simpa using h2
        rw [if_pos (by simp [h2']), drain_closed rfl]
        symm
        rw [List.filter_eq_nil_iff]
        intro e he
        obtain ⟨g1, g2⟩ := lt_stop ht hne h2'
        have g3 := g2 e he
        simp only [decide_eq_true_eq]
        rintro ⟨-, h | h⟩
        · exact g1 h
        · exact g3 h
    · have h1' : (t.find .gte start).found = false := by simpa using h1
      rw [if_pos (by simp [h1']), drain_closed rfl]
      symm
      rw [List.filter_eq_nil_iff]
      intro e he
      rcases gte_start ht hne hb with ⟨g, -⟩ | ⟨-, g⟩
      · rw [h1'] at g; simp at g
      · simp only [decide_eq_true_eq]
        exact fun h => h.1 (g e he)

/-- A descending range. -/
theorem descend_ok {t : Tree V} {L : List (Key × V)} (ht : TreeOk t L) {start stop : Key} (hb : ¬ Below stop L)
    (n : Nat) (hn : L.length < n) :
    t.drain n (t.revIter stop start) =
      (L.filter fun e => decide ((start = [] ∨ ¬ start < e.1) ∧ (stop = [] ∨ stop < e.1))).reverse := by
  unfold Tree.revIter
  by_cases hne : L = []
  · subst hne
    have hr : t.root = none := by
      have := ht.root
      cases hr : t.root with
      | none => rfl
      | some r => rw [hr] at this; exact absurd this.2.symm this.1.ne_nil
    rw [if_pos (by simp [hr]), drain_closed rfl]; rfl
  · obtain ⟨r, hr, -, -⟩ := ht.root_some hne
    have hsz : ¬ t.size < 1 := by rw [ht.size]; have := List.length_pos_iff.2 hne; omega
    rw [if_neg (by simp [hr]; omega)]
    by_cases h1 : (t.find .lte start).found = true
    · rw [if_neg (by simp [h1])]
      by_cases h2 : (t.find .gt stop).found = true
      · rw [if_neg (by simp [h2]), drain_fresh ht hne rfl rfl rfl (rev_idx ht hne h1) n hn]
        simp only [order, if_true]
        rw [List.filter_reverse]
        congr 1
        refine List.filter_congr fun x _ => ?_
        unfold Iter.inRange
        rw [Bool.eq_iff_iff]
        simp [cmp_gt, or_comm]
      · have h2' : (t.find .gt stop).found = false := by simpa using h2
        rw [if_pos (by simp [h2']), drain_closed rfl]
        symm
        rw [List.reverse_eq_nil_iff, List.filter_eq_nil_iff]
        intro e he
        obtain ⟨g1, g2⟩ := gt_stop ht hne hb h2'
        have g3 := g2 e he
        simp only [decide_eq_true_eq]
        rintro ⟨-, h | h⟩
        · exact g1 h
        · exact g3 h
    · have h1' : (t.find .lte start).found = false := by simpa using h1
      rw [if_pos (by simp [h1']), drain_closed rfl]
      symm
      rw [List.reverse_eq_nil_iff, List.filter_eq_nil_iff]
      intro e he
      rcases lte_start ht hne (q := start) with ⟨g, -⟩ | ⟨-, g⟩
      · rw [h1'] at g; simp at g
      · simp only [decide_eq_true_eq]
        rintro ⟨h | h, -⟩
        · exact (g e he).1 h
        · exact h (g e he).2

end Verif.Art
