import Verif.Proofs.ArtRange
/-
An iterator over a tree that changes.
-/
namespace Verif.Art

set_option linter.unusedSectionVars false
variable {V : Type}

/-- What a call to `Next` answers. -/
def ResOk (L : List (Key × V)) (P : Key → Prop) (rev : Bool) (r : Iter V × Bool) : Prop :=
  (r.2 = false ∧ ∀ e ∈ L, ¬ P e.1) ∨
  (r.2 = true ∧ ∃ l1 f l2, L = l1 ++ f :: l2 ∧ r.1.leaf = some f ∧ r.1.curIdx = l1.length ∧ P f.1 ∧
    ∀ x ∈ L, P x.1 → ¬ After rev x.1 f.1)

theorem mem_order {rev : Bool} {L : List (Key × V)} {x : Key × V} : x ∈ order rev L ↔ x ∈ L := by
  unfold order; split <;> simp

theorem after_asymm {rev : Bool} {a b : Key} (h : After rev a b) : ¬ After rev b a := by
  unfold After at *; cases rev <;> simp at * <;> exact klt_asymm h
theorem after_irrefl {rev : Bool} (a : Key) : ¬ After rev a a := by
  unfold After; cases rev <;> simp
theorem after_trans {rev : Bool} {a b c : Key} (h : After rev a b) (h2 : After rev b c) : After rev a c := by
  unfold After at *; cases rev <;> simp at *
  · exact klt_trans h h2
  · exact klt_trans h2 h

theorem order_after {rev : Bool} {L : List (Key × V)} (h : L.Pairwise fun a b => a.1 < b.1) :
    (order rev L).Pairwise fun a b => After rev a.1 b.1 := order_sorted h

theorem first_of_split {rev : Bool} {L pre post : List (Key × V)} {f : Key × V} {P : Key → Prop}
    (hs : L.Pairwise fun a b => a.1 < b.1) (h : order rev L = pre ++ f :: post) (hp : ∀ x ∈ pre, ¬ P x.1) :
    ∀ x ∈ L, P x.1 → ¬ After rev x.1 f.1 := by
  intro x hx hP
  have ho := order_after (rev := rev) hs
  rw [h, List.pairwise_append, List.pairwise_cons] at ho
  have hx2 : x ∈ order rev L := mem_order.2 hx
  rw [h] at hx2
  rcases List.mem_append.1 hx2 with h1 | h1
  · exact absurd hP (hp x h1)
  · rcases List.mem_cons.1 h1 with rfl | h1
    · exact after_irrefl _
    · exact after_asymm (ho.2.1.1 x h1)

theorem At.place {t : Tree V} {L : List (Key × V)} {it : Iter V} {done rest : List (Key × V)} {e : Key × V}
    (h : At t L it done e rest) : ∃ l1 l2, L = l1 ++ e :: l2 ∧ it.curIdx = l1.length := by
  have h1 := h.split
  have h2 := h.idx
  cases hr : it.reverse with
  | false => rw [hr] at h1 h2; exact ⟨done, rest, by simpa [order] using h1, by simpa using h2⟩
  | true =>
    rw [hr] at h1 h2
    simp only [order, if_true] at h1 h2
    refine ⟨rest.reverse, done.reverse, ?_, by simpa using h2⟩
    have := congrArg List.reverse h1
    simpa using this

/-- The iterator has given a key, and may go on. -/
structure Live (t : Tree V) (L : List (Key × V)) (it : Iter V) (k : Key) : Prop where
  closed : it.closed = false
  cursor : it.cursor = k
  version : it.version ≤ t.version
  same : it.version = t.version → ∃ done e rest, e.1 = k ∧ At t L it done e rest

/-- The next step of an iterator that stands on a key of an unchanged tree. -/
theorem next_same {t : Tree V} {L : List (Key × V)} (ht : TreeOk t L) {it : Iter V} {done rest : List (Key × V)}
    {e : Key × V} (h : At t L it done e rest) :
    ResOk L (fun k => After it.reverse e.1 k ∧ within it k = true) it.reverse (t.next it) ∧
    ((t.next it).2 = true → ∀ f, (t.next it).1.leaf = some f → Live t L (t.next it).1 f.1 ∧
      (t.next it).1.reverse = it.reverse ∧ (t.next it).1.terminate = it.terminate) := by
  have ho := order_after (rev := it.reverse) ht.sorted
  have hsplit := h.split
  rw [hsplit, List.pairwise_append, List.pairwise_cons] at ho
  rcases next_at ht h with ⟨h1, h2, h3⟩ | ⟨f, post, h1, h2, h3, h4, h5, h6, h7⟩
  · refine ⟨.inl ⟨h1, ?_⟩, by rw [h1]; simp⟩
    rintro x hx ⟨ha, hw⟩
    have hx2 : x ∈ order it.reverse L := mem_order.2 hx
    rw [hsplit] at hx2
    rcases List.mem_append.1 hx2 with h | h
    · exact after_asymm ha (ho.2.2 x h e (by simp))
    · rcases List.mem_cons.1 h with rfl | h
      · exact after_irrefl _ ha
      · rw [h3 x h] at hw; simp at hw
  · obtain ⟨l1, l2, p1, p2⟩ := h5.place
    have hef : After it.reverse e.1 f.1 := ho.2.1.1 f (by rw [h1]; simp)
    refine ⟨.inr ⟨h2, l1, f, l2, p1, h3, p2, ⟨hef, h4⟩, ?_⟩, ?_⟩
    · refine first_of_split (P := fun k => After it.reverse e.1 k ∧ within it k = true) (f := f) (pre := done ++ [e]) (post := post) ht.sorted (by rw [hsplit, h1]; simp) ?_
      rintro x hx ⟨ha, -⟩
      rcases List.mem_append.1 hx with h | h
      · exact after_asymm ha (ho.2.2 x h e (by simp))
      · simp at h; subst h; exact after_irrefl _ ha
    · intro _ g hg
      rw [h3] at hg
      simp at hg; subst hg
      exact ⟨⟨h5.closed, h5.cursor, by rw [h5.version]; exact Nat.le_refl _, fun _ => ⟨_, f, _, rfl, h5⟩⟩, h6, h7⟩

/-- A fresh walk from the root. -/
theorem go_res {t : Tree V} {L : List (Key × V)} (ht : TreeOk t L) (hne : L ≠ []) {it : Iter V}
    (hc : it.closed = false) (hv : it.version = t.version) (hs : it.stack = []) (hidx : IdxOk it L) :
    ResOk L (fun k => it.inRange k = true) it.reverse (t.go it) ∧
    ((t.go it).2 = true → 2 ≤ L.length → ∀ f, (t.go it).1.leaf = some f → Live t L (t.go it).1 f.1 ∧
      (t.go it).1.reverse = it.reverse ∧ (t.go it).1.terminate = it.terminate) := by
  by_cases h2 : 2 ≤ L.length
  · rcases go_fresh ht h2 hc hv hs with ⟨g1, g2, g3⟩ | ⟨pre, f, post, g1, g2, g3, g4, g5, g6, g7, g8⟩
    · refine ⟨.inl ⟨g1, fun e he => by simp [g3 e (mem_order.2 he)]⟩, by rw [g1]; simp⟩
    · have hat := g6 (hidx pre f post g1 g2 g3)
      obtain ⟨l1, l2, p1, p2⟩ := hat.place
      refine ⟨.inr ⟨g4, l1, f, l2, p1, g5, p2, g3, ?_⟩, ?_⟩
      · exact first_of_split (P := fun k => it.inRange k = true) ht.sorted g1 (fun x hx => by rw [g2 x hx]; simp)
      · intro _ _ g hg
        rw [g5] at hg
        simp at hg; subst hg
        exact ⟨⟨hat.closed, hat.cursor, by rw [hat.version]; exact Nat.le_refl _, fun _ => ⟨_, f, _, rfl, hat⟩⟩, g7, g8⟩
  · refine ⟨?_, fun _ h => absurd h h2⟩
    obtain ⟨e, rfl⟩ : ∃ e, L = [e] := by
      match L, hne, h2 with
      | [e], _, _ => exact ⟨e, rfl⟩
      | a :: b :: rest, _, h => simp at h
    rw [go_single ht hs]
    by_cases hin : it.inRange e.1 = true
    · rw [if_pos hin]
      right
      have := hidx [] e [] (by unfold order; split <;> simp) (by simp) hin
      refine ⟨rfl, [], e, [], rfl, rfl, by rw [this]; simp, hin, ?_⟩
      intro x hx _
      simp at hx; subst hx; exact after_irrefl _
    · rw [if_neg hin]
      left
      exact ⟨rfl, by intro x hx; simp at hx; subst hx; exact hin⟩

/-- A search for the key after the last one given. -/
theorem find_after {t : Tree V} {L : List (Key × V)} (ht : TreeOk t L) {rev : Bool} {c : Key} (hc : c ≠ [])
    (h1 : ∀ e, L = [e] → e.1 ≠ c) :
    let r := t.find (if rev then .lt else .gt) c
    (r.found = true ∧ ∃ pre f post, order rev L = pre ++ f :: post ∧ r.idx = (if rev then post.length else pre.length) ∧
      r.lf = some f ∧ After rev c f.1 ∧ ∀ x ∈ pre, ¬ After rev c x.1) ∨
    (r.found = false ∧ ((∀ e ∈ L, ¬ After rev c e.1) ∨ (rev = false ∧ Below c L))) := by
  cases rev with
  | false =>
    rcases find_up ht hc (sm := .gt) (.inr rfl) (fun _ => h1) with ⟨g1, -, l1, e, l2, g2, g3, g4, g5, g6⟩ | ⟨g1, g2 | g2⟩
    · left
      exact ⟨g1, l1, e, l2, g2, g3, g4, g5, g6⟩
    · right; exact ⟨g1, .inl g2⟩
    · right; exact ⟨g1, .inr ⟨rfl, g2⟩⟩
  | true =>
    rcases find_down ht hc (sm := .lt) (.inr rfl) (fun _ => h1) with ⟨g1, l1, e, l2, g2, g3, g4, g5, g6⟩ | ⟨g1, g2⟩
    · left
      refine ⟨g1, l2.reverse, e, l1.reverse, by simp [order, g2], by simpa using g3, g4, g5, ?_⟩
      intro x hx
      exact g6 x (by simpa using hx)
    · right; exact ⟨g1, .inl g2⟩

theorem inRange_at {it : Iter V} {f : Key × V} (hc : it.cursor = f.1) : it.inRange f.1 = within it f.1 := by
  unfold Iter.inRange within
  rw [hc]
  have h1 : cmp f.1 f.1 ≠ .lt := by rw [Ne, cmp_lt]; exact klt_irrefl _
  have h2 : cmp f.1 f.1 ≠ .gt := by rw [Ne, cmp_gt]; exact klt_irrefl _
  simp [h1, h2]

/-- The next step after the tree has changed. -/
theorem next_changed {t : Tree V} {L : List (Key × V)} (ht : TreeOk t L) {it : Iter V} (hcl : it.closed = false)
    (hv : it.version ≠ t.version) (hc : it.cursor ≠ []) (h1 : ∀ e, L = [e] → e.1 ≠ it.cursor)
    (hE : ∀ e ∈ L, e.1 ≠ []) :
    ((it.reverse = false → ¬ Below it.cursor L) →
      ResOk L (fun k => After it.reverse it.cursor k ∧ within it k = true) it.reverse (t.next it)) ∧
    ((t.next it).2 = true → 2 ≤ L.length → ∀ f, (t.next it).1.leaf = some f → Live t L (t.next it).1 f.1 ∧
      After it.reverse it.cursor f.1 ∧ within it f.1 = true ∧
      (t.next it).1.reverse = it.reverse ∧ (t.next it).1.terminate = it.terminate) ∧
    (it.reverse = false → Below it.cursor L → (t.next it).2 = false) := by
  have hbelow : it.reverse = false → Below it.cursor L → (t.find .gt it.cursor).found = false := by
    intro hr hb
    rcases find_up ht hc (sm := .gt) (.inr rfl) (fun _ => h1) with ⟨-, g, -⟩ | ⟨g1, -⟩
    · exact absurd hb g
    · exact g1
  unfold Tree.next
  rw [if_neg (by simp [hcl]), if_pos hv]
  unfold Tree.reseek
  rcases find_after ht (rev := it.reverse) hc h1 with ⟨g1, pre, f, post, g2, g3, g4, g5, g6⟩ | ⟨g1, g2⟩
  · dsimp only
    rw [if_pos g1, g4]
    simp only [Option.map_some]
    generalize hit : ({ it with curIdx := ((t.find (if it.reverse = true then SMod.lt else SMod.gt) it.cursor).idx : Int),
                                leaf := some f, version := t.version, cursor := f.1, stack := [] } : Iter V) = it2
    have hrev : it2.reverse = it.reverse := by subst hit; rfl
    have hwi : ∀ k, within it2 k = within it k := by intro k; subst hit; rfl
    have hcur : it2.cursor = f.1 := by subst hit; rfl
    have hidx2 : it2.curIdx = if it.reverse then post.length else pre.length := by
      subst hit; simp only [g3]
    have htm : it2.terminate = it.terminate := by subst hit; rfl
    have hne : L ≠ [] := by
      rintro rfl; simp [order] at g2
    have ho := order_after (rev := it.reverse) ht.sorted
    rw [g2, List.pairwise_append, List.pairwise_cons] at ho
    have hnot : ∀ x ∈ pre, it2.inRange x.1 = false := by
      intro x hx
      have hxf := ho.2.2 x hx f (by simp)
      unfold Iter.inRange
      rw [hrev, hcur]
      unfold After at hxf
      have hfne : f.1 ≠ [] := hE f (mem_order.1 (by rw [g2]; simp))
      cases hr : it.reverse with
      | false =>
        rw [hr] at hxf
        simp only [Bool.false_eq_true, if_false] at hxf ⊢
        have : cmp x.1 f.1 = .lt := cmp_lt.2 hxf
        simp [this]
      | true =>
        rw [hr] at hxf
        simp only [if_true] at hxf ⊢
        have : cmp x.1 f.1 = .gt := cmp_gt.2 hxf
        simp [this, hfne]
    have hfin : it2.inRange f.1 = within it f.1 := by rw [inRange_at hcur, hwi]
    have hpost : ∀ x ∈ post, it2.inRange x.1 = within it x.1 := by
      intro x hx
      have hfx := ho.2.1.1 x hx
      rw [← hwi]
      refine inRange_after ?_
      rw [hrev, hcur]
      exact hfx
    have hidx : IdxOk it2 L := by
      intro pre' f' post' k1 k2 k3
      rw [hrev] at k1 ⊢
      rw [hidx2]
      have hwf : it2.inRange f.1 = true := by
        cases hwf : it2.inRange f.1 with
        | true => rfl
        | false =>
          exfalso
          have hmem : f' ∈ pre ++ f :: post := by rw [← g2, k1]; simp
          rcases List.mem_append.1 hmem with h | h
          · rw [hnot f' h] at k3; simp at k3
          · rcases List.mem_cons.1 h with h | h
            · rw [h, hwf] at k3; simp at k3
            · rw [hpost f' h] at k3
              rw [hfin] at hwf
              rw [within_mono (ho.2.1.1 f' h) k3] at hwf
              simp at hwf
      have := split_unique (P := fun x : Key × V => it2.inRange x.1 = true) (g2.symm.trans k1)
        (fun x hx => by rw [hnot x hx]; simp) hwf (fun x hx => by rw [k2 x hx]; simp) k3
      rw [this.1, this.2.2]
    obtain ⟨hres, hlive⟩ := go_res ht hne (it := it2) (by subst hit; exact hcl) (by subst hit; rfl) (by subst hit; rfl) hidx
    rw [hrev] at hres
    have hiff : ∀ x ∈ L, it2.inRange x.1 = true ↔ (After it.reverse it.cursor x.1 ∧ within it x.1 = true) := by
      intro x hx
      have hx2 : x ∈ pre ++ f :: post := by rw [← g2]; exact mem_order.2 hx
      rcases List.mem_append.1 hx2 with h | h
      · rw [hnot x h]
        have := g6 x h
        simp [this]
      · rcases List.mem_cons.1 h with h | h
        · rw [h, hfin]; simp [g5]
        · rw [hpost x h]
          have := after_trans g5 (ho.2.1.1 x h)
          simp [this]
    refine ⟨fun _ => ?_, ?_, ?_⟩
    · rcases hres with ⟨r1, r2⟩ | ⟨r1, l1, e, l2, r2, r3, r4, r5, r6⟩
      · exact .inl ⟨r1, fun e he h => r2 e he ((hiff e he).2 h)⟩
      · exact .inr ⟨r1, l1, e, l2, r2, r3, r4, (hiff e (by rw [r2]; simp)).1 r5,
          fun x hx h => r6 x hx ((hiff x hx).2 h)⟩
    · intro ht2 hl2 e he
      rcases hres with ⟨r1, r2⟩ | ⟨r1, l1, e', l2, r2, r3, r4, r5, r6⟩
      · rw [ht2] at r1; simp at r1
      · obtain ⟨q1, q2, q3⟩ := hlive ht2 hl2 e he
        rw [r3] at he
        simp at he; subst he
        have := (hiff e' (by rw [r2]; simp)).1 r5
        exact ⟨q1, this.1, this.2, by rw [q2, hrev], by rw [q3, htm]⟩
    · intro hr hb
      have := hbelow hr hb
      rw [hr] at g1
      simp only [Bool.false_eq_true, if_false] at g1
      rw [this] at g1; simp at g1
  · dsimp only
    rw [if_neg (by rw [g1]; simp)]
    refine ⟨fun hb => .inl ⟨rfl, ?_⟩, by simp, by simp⟩
    rcases g2 with g2 | ⟨h3, h4⟩
    · exact fun e he h => g2 e he h.1
    · exact absurd h4 (hb h3)

theorem within_iff {it : Iter V} {k : Key} : within it k = true ↔
    (it.terminate = [] ∨ (if it.reverse then it.terminate < k else k < it.terminate)) := by
  unfold within
  cases it.reverse <;> simp [cmp_lt, cmp_gt]

/-- The iterator at the start of a range. -/
def startIter (t : Tree V) (rev : Bool) (a b : Key) : Iter V := if rev then t.revIter a b else t.iter a b

theorem inRange_start {it : Iter V} {rev : Bool} {a b k : Key} (h1 : it.reverse = rev)
    (h2 : it.cursor = if rev then b else a) (h3 : it.terminate = if rev then a else b) :
    it.inRange k = true ↔ InRange rev a b k := by
  unfold Iter.inRange InRange
  rw [h1, h2, h3]
  cases rev <;> simp [cmp_lt, cmp_gt, or_comm]

/-- The first step. -/
theorem first_res {t : Tree V} {L : List (Key × V)} (ht : TreeOk t L) (rev : Bool) (a b : Key) :
    (¬ Below a L → ResOk L (InRange rev a b) rev (t.next (startIter t rev a b))) ∧
    (Below a L → (t.next (startIter t rev a b)).2 = false) ∧
    ((t.next (startIter t rev a b)).2 = true → 2 ≤ L.length → ∀ f, (t.next (startIter t rev a b)).1.leaf = some f →
      Live t L (t.next (startIter t rev a b)).1 f.1 ∧ InRange rev a b f.1 ∧
      (t.next (startIter t rev a b)).1.reverse = rev ∧
      (t.next (startIter t rev a b)).1.terminate = if rev then a else b) := by
  have closedCase : ∀ it : Iter V, it.closed = true → startIter t rev a b = it →
      (¬ Below a L → ∀ e ∈ L, ¬ InRange rev a b e.1) →
      (¬ Below a L → ResOk L (InRange rev a b) rev (t.next (startIter t rev a b))) ∧
      (Below a L → (t.next (startIter t rev a b)).2 = false) ∧
      ((t.next (startIter t rev a b)).2 = true → 2 ≤ L.length → ∀ f, (t.next (startIter t rev a b)).1.leaf = some f →
        Live t L (t.next (startIter t rev a b)).1 f.1 ∧ InRange rev a b f.1 ∧
        (t.next (startIter t rev a b)).1.reverse = rev ∧
        (t.next (startIter t rev a b)).1.terminate = if rev then a else b) := by
    intro it hc hst hno
    rw [hst, next_closed hc]
    exact ⟨fun hb => .inl ⟨rfl, hno hb⟩, fun _ => rfl, by simp⟩
  have openCase : ∀ it : Iter V, it.closed = false → it.version = t.version → it.stack = [] → it.reverse = rev →
      it.cursor = (if rev then b else a) → it.terminate = (if rev then a else b) → startIter t rev a b = it →
      IdxOk { it with curIdx := if it.reverse then it.curIdx - 1 else it.curIdx + 1 } L → L ≠ [] → ¬ Below a L →
      (¬ Below a L → ResOk L (InRange rev a b) rev (t.next (startIter t rev a b))) ∧
      (Below a L → (t.next (startIter t rev a b)).2 = false) ∧
      ((t.next (startIter t rev a b)).2 = true → 2 ≤ L.length → ∀ f, (t.next (startIter t rev a b)).1.leaf = some f →
        Live t L (t.next (startIter t rev a b)).1 f.1 ∧ InRange rev a b f.1 ∧
        (t.next (startIter t rev a b)).1.reverse = rev ∧
        (t.next (startIter t rev a b)).1.terminate = if rev then a else b) := by
    intro it hc hv hs hr hcur htm hst hidx hne hnb
    rw [hst]
    have hnext : t.next it = t.go { it with curIdx := if it.reverse then it.curIdx - 1 else it.curIdx + 1 } := by
      unfold Tree.next
      rw [if_neg (by simp [hc]), if_neg (by simp [hv])]
    rw [hnext]
    generalize hit : ({ it with curIdx := if it.reverse then it.curIdx - 1 else it.curIdx + 1 } : Iter V) = it2 at hidx
    have hr2 : it2.reverse = rev := by subst hit; exact hr
    have htm2 : it2.terminate = if rev then a else b := by subst hit; exact htm
    have hir : ∀ k, it2.inRange k = true ↔ InRange rev a b k :=
      fun k => inRange_start hr2 (by subst hit; exact hcur) htm2
    obtain ⟨hres, hlive⟩ := go_res ht hne (it := it2)
      (by subst hit; exact hc) (by subst hit; exact hv) (by subst hit; exact hs) hidx
    simp only [hir] at hres
    rw [hr2] at hres hlive
    rw [htm2] at hlive
    refine ⟨fun _ => hres, fun h => absurd h hnb, ?_⟩
    intro h1 h2 f hf
    obtain ⟨q1, q2, q3⟩ := hlive h1 h2 f hf
    refine ⟨q1, ?_, q2, q3⟩
    rcases hres with ⟨r1, -⟩ | ⟨-, l1, e, l2, -, r3, -, r5, -⟩
    · rw [h1] at r1; simp at r1
    · rw [hf] at r3; simp at r3; subst r3; exact r5
  by_cases hne : L = []
  · subst hne
    have hr : t.root = none := by
      have := ht.root
      cases hr : t.root with
      | none => rfl
      | some r => rw [hr] at this; exact absurd this.2.symm this.1.ne_nil
    refine closedCase { closed := true } rfl ?_ (by simp)
    unfold startIter Tree.iter Tree.revIter
    simp [hr]
  · obtain ⟨r, hr, -, -⟩ := ht.root_some hne
    have hsz : ¬ t.size < 1 := by rw [ht.size]; have := List.length_pos_iff.2 hne; omega
    have hg : ¬ (t.root.isNone = true ∨ t.size < 1) := by simp [hr]; omega
    cases rev with
    | false =>
      by_cases h1 : (t.find .gte a).found = true
      · by_cases h2 : (t.find .lt b).found = true
        · have hnb : ¬ Below a L := by
            intro hb
            have ha : a ≠ [] := by rintro rfl; exact below_nil L hb
            rcases find_up ht ha (sm := .gte) (.inl rfl) (by simp) with ⟨-, g, -⟩ | ⟨g, -⟩
            · exact g hb
            · rw [h1] at g; simp at g
          refine openCase { version := t.version, cursor := a, terminate := b, curIdx := (t.find .gte a).idx - 1 }
            rfl rfl rfl rfl rfl rfl ?_ (iter_idx ht hne hnb h1 (stop := b)) hne hnb
          unfold startIter Tree.iter
          rw [if_neg (by simp), if_neg hg, if_neg (by simp [h1]), if_neg (by simp [h2])]
        · have h2' : (t.find .lt b).found = false := by simpa using h2
          refine closedCase { closed := true } rfl ?_ ?_
          · unfold startIter Tree.iter
            rw [if_neg (by simp), if_neg hg, if_neg (by simp [h1]), if_pos (by simp [h2'])]
          · rintro - e he ⟨-, h⟩
            obtain ⟨g1, g2⟩ := lt_stop ht hne h2'
            rcases h with h | h
            · exact g1 h
            · exact g2 e he h
      · have h1' : (t.find .gte a).found = false := by simpa using h1
        refine closedCase { closed := true } rfl ?_ ?_
        · unfold startIter Tree.iter
          rw [if_neg (by simp), if_neg hg, if_pos (by simp [h1'])]
        · rintro hb e he ⟨h, -⟩
          rcases gte_start ht hne hb with ⟨g, -⟩ | ⟨-, g⟩
          · rw [h1'] at g; simp at g
          · exact h (g e he)
    | true =>
      by_cases h1 : (t.find .lte b).found = true
      · by_cases h2 : (t.find .gt a).found = true
        · have hnb : ¬ Below a L := by
            intro hb
            have ha : a ≠ [] := by rintro rfl; exact below_nil L hb
            have hl : ∀ e, L = [e] → e.1 ≠ a := by
              rintro e rfl; obtain ⟨hl, -⟩ := hb; simp at hl
            rcases find_up ht ha (sm := .gt) (.inr rfl) (fun _ => hl) with ⟨-, g, -⟩ | ⟨g, -⟩
            · exact g hb
            · rw [h2] at g; simp at g
          refine openCase { version := t.version, reverse := true, cursor := b, terminate := a,
                             curIdx := (t.find .lte b).idx + 1 }
            rfl rfl rfl rfl rfl rfl ?_ (rev_idx ht hne h1 (stop := a)) hne hnb
          unfold startIter Tree.revIter
          rw [if_pos rfl, if_neg hg, if_neg (by simp [h1]), if_neg (by simp [h2])]
        · have h2' : (t.find .gt a).found = false := by simpa using h2
          refine closedCase { closed := true } rfl ?_ ?_
          · unfold startIter Tree.revIter
            rw [if_pos rfl, if_neg hg, if_neg (by simp [h1]), if_pos (by simp [h2'])]
          · rintro hb e he ⟨-, h⟩
            obtain ⟨g1, g2⟩ := gt_stop ht hne hb h2'
            rcases h with h | h
            · exact g1 h
            · exact g2 e he h
      · have h1' : (t.find .lte b).found = false := by simpa using h1
        refine closedCase { closed := true } rfl ?_ ?_
        · unfold startIter Tree.revIter
          rw [if_pos rfl, if_neg hg, if_pos (by simp [h1'])]
        · rintro hb e he ⟨h, -⟩
          rcases lte_start ht hne (q := b) with ⟨g, -⟩ | ⟨-, g⟩
          · rw [h1'] at g; simp at g
          · rcases h with h | h
            · exact (g e he).1 h
            · exact h (g e he).2

/-! ### From lists to maps -/

theorem getD_append_right' (a b : Key) (i : Nat) : Key.get (a ++ b) (a.length + i) = Key.get b i := by
  by_cases h : i < b.length
  · rw [get_lt (by simp; omega), get_lt h]; simp
  · rw [get_ge (by simp; omega), get_ge (by omega)]

theorem get_app_left (a b : Key) {j : Nat} (h : j < a.length) : Key.get (a ++ b) j = Key.get a j := by
  rw [get_lt (by simp; omega), get_lt h, List.getElem_append_left h]

theorem lists_mem {L : List (Key × V)} {m : Key → Option V} (h : Lists L m) {k : Key} :
    m k ≠ none ↔ ∃ v, (k, v) ∈ L := by
  cases hk : m k with
  | none =>
    simp only [ne_eq, not_true, false_iff, not_exists]
    intro v hv
    rw [(h.2 k v).1 hv] at hk; simp at hk
  | some v => simp only [ne_eq, reduceCtorEq, not_false_iff, true_iff]; exact ⟨v, (h.2 k v).2 hk⟩

theorem below_iff {L : List (Key × V)} {m : Key → Option V} (h : Lists L m) (q : Key) :
    Below q L ↔ 2 ≤ L.length ∧ Under q m := by
  unfold Below Under
  refine and_congr_right fun _ => ⟨?_, ?_⟩
  · rintro ⟨i, c, hi, hc, hall⟩
    refine ⟨q.take i, c, q[i], q.drop (i + 1), ?_, ?_, ?_⟩
    · rw [List.getElem_cons_drop, List.take_append_drop]
    · rw [get_lt hi] at hc; exact hc
    · intro k hk
      obtain ⟨v, hv⟩ := (lists_mem h).1 hk
      obtain ⟨h1, h2⟩ := hall _ hv
      dsimp only at h1 h2
      have hik : i < k.length := get_pos (b := q.get i) (by rw [h1]; exact hc)
      rw [List.prefix_iff_eq_take]
      have hl : (q.take i ++ [c]).length = i + 1 := by simp; omega
      rw [hl, List.take_succ_eq_append_getElem hik]
      rw [get_lt hik] at h1
      rw [h1]
      congr 1
      refine List.ext_getElem (by simp; omega) ?_
      intro j hj1 hj2
      have hj : j < i := by simp at hj1; omega
      have := h2 j hj
      rw [get_lt (by omega), get_lt (by omega)] at this
      simp [this]
  · rintro ⟨p, c, d, s, rfl, hd, hall⟩
    refine ⟨p.length, c, by simp, ?_, ?_⟩
    · have := getD_append_right' p (d :: s) 0
      rw [Nat.add_zero] at this
      rw [this]; simpa [Key.get] using hd
    · intro e he
      obtain ⟨z, hz⟩ := hall e.1 ((lists_mem h).2 ⟨e.2, he⟩)
      rw [← hz, List.append_assoc]
      refine ⟨?_, fun j hj => ?_⟩
      · have := getD_append_right' p ([c] ++ z) 0
        rw [Nat.add_zero] at this
        rw [this]; simp [Key.get]
      · rw [get_app_left _ _ hj, get_app_left _ _ hj]

theorem sorted_keys_nodup {L : List (Key × V)} (h : L.Pairwise fun a b => a.1 < b.1) : (L.map (·.1)).Nodup := by
  rw [List.Nodup, List.pairwise_map]
  exact h.imp fun h => klt_ne h

theorem rank_of {L l1 l2 : List (Key × V)} {f : Key × V} {m : Key → Option V} (h : Lists L m)
    (hs : L = l1 ++ f :: l2) : Rank m f.1 l1.length := by
  have hp := h.1
  rw [hs, List.pairwise_append, List.pairwise_cons] at hp
  refine ⟨l1.map (·.1), sorted_keys_nodup hp.1, ?_, by simp⟩
  intro a
  rw [lists_mem h, hs]
  simp only [List.mem_map]
  constructor
  · rintro ⟨x, hx, rfl⟩
    exact ⟨⟨x.2, by simp [hx]⟩, hp.2.2 x hx f (by simp)⟩
  · rintro ⟨⟨v, hv⟩, hlt⟩
    rcases List.mem_append.1 hv with h1 | h1
    · exact ⟨_, h1, rfl⟩
    · rcases List.mem_cons.1 h1 with h1 | h1
      · rw [← h1] at hlt; exact absurd hlt (klt_irrefl _)
      · exact absurd hlt (klt_asymm (hp.2.1.1 _ h1))

theorem count_of {L : List (Key × V)} {m : Key → Option V} (h : Lists L m) : Count m L.length := by
  refine ⟨L.map (·.1), sorted_keys_nodup h.1, ?_, by simp⟩
  intro a
  rw [lists_mem h]
  simp

theorem nodup_length {l l' : List Key} (h : l.Nodup) (h' : l'.Nodup) (he : ∀ a, a ∈ l ↔ a ∈ l') : l.length = l'.length :=
  ((List.perm_ext_iff_of_nodup h h').2 he).length_eq

theorem count_unique {m : Key → Option V} {a b : Nat} (h : Count m a) (h' : Count m b) : a = b := by
  obtain ⟨l, h1, h2, rfl⟩ := h
  obtain ⟨l', h1', h2', rfl⟩ := h'
  exact nodup_length h1 h1' fun x => by rw [h2, h2']

/-- The answer in terms of the map. -/
theorem firstIs_of {L : List (Key × V)} {m : Key → Option V} (h : Lists L m) {P : Key → Prop} {rev : Bool}
    {t : Tree V} {it : Iter V} (hr : ResOk L P rev (t.next it)) :
    FirstIs m P rev (t.answer it) ∧ ∀ k v, t.answer it = some (k, v) →
      ∃ i : Nat, (t.next it).1.curIdx = i ∧ Rank m k i := by
  unfold Tree.answer
  rcases hr with ⟨h1, h2⟩ | ⟨h1, l1, f, l2, h2, h3, h4, h5, h6⟩
  · rw [h1]
    refine ⟨?_, by simp⟩
    intro a ha
    obtain ⟨v, hv⟩ := (lists_mem h).1 ha
    exact h2 _ hv
  · rw [if_pos h1, h3]
    refine ⟨⟨(h.2 f.1 f.2).1 (by rw [h2]; simp), h5, ?_⟩, ?_⟩
    · intro a ha hP
      obtain ⟨v, hv⟩ := (lists_mem h).1 ha
      exact h6 _ hv hP
    · intro k v hkv
      simp at hkv; subst hkv
      exact ⟨l1.length, h4, rank_of h h2⟩

theorem run_cons_version {ops : List (Op V)} {op : Op V} {t t' : Tree V} (h : run ops = some t)
    (h' : run (op :: ops) = some t') : t'.version = t.version + 1 ∨ t' = t := by
  cases op with
  | insert k v =>
    simp only [run, h, Option.bind_some] at h'
    unfold Tree.insert at h'
    cases hr : t.root with
    | none => rw [hr] at h'; simp at h'; left; rw [← h']
    | some r =>
      rw [hr] at h'
      cases hi : r.insert k v 0 with
      | none => simp [hi] at h'
      | some x => simp [hi] at h'; left; rw [← h']
  | remove k =>
    simp only [run, h, Option.map_some, Option.some.injEq] at h'
    unfold Tree.remove at h'
    cases hr : t.root with
    | none => rw [hr] at h'; right; exact h'.symm
    | some r =>
      rw [hr] at h'
      dsimp only at h'
      cases hi : r.del k 0 with
      | none => rw [hi] at h'; right; exact h'.symm
      | some x => rw [hi] at h'; left; rw [← h']

theorem ResOk.mem {L : List (Key × V)} {P : Key → Prop} {rev : Bool} {r : Iter V × Bool} (h : ResOk L P rev r)
    (ht : r.2 = true) {f : Key × V} (hf : r.1.leaf = some f) : f ∈ L ∧ P f.1 := by
  rcases h with ⟨r1, -⟩ | ⟨-, l1, e, l2, r2, r3, -, r5, -⟩
  · rw [ht] at r1; simp at r1
  · rw [hf] at r3; simp at r3; subst r3; exact ⟨by rw [r2]; simp, r5⟩

theorem ResOk.congr {L : List (Key × V)} {P Q : Key → Prop} {rev : Bool} {r : Iter V × Bool} (h : ResOk L P rev r)
    (hpq : ∀ k, P k ↔ Q k) : ResOk L Q rev r := by
  have : P = Q := funext fun k => propext (hpq k)
  rw [← this]; exact h

/-- What is left of the range. -/
theorem left_iff {it : Iter V} {rev : Bool} {a b c : Key} (h1 : it.reverse = rev)
    (h3 : it.terminate = if rev then a else b) (hc : InRange rev a b c) (k : Key) :
    (After it.reverse c k ∧ within it k = true) ↔ (InRange rev a b k ∧ After rev c k) := by
  rw [within_iff, h1, h3]
  unfold InRange After at *
  cases rev with
  | false =>
    simp only [Bool.false_eq_true, if_false] at hc ⊢
    constructor
    · rintro ⟨g1, g2⟩
      exact ⟨⟨fun h => hc.1 (klt_trans g1 h), g2⟩, g1⟩
    · rintro ⟨⟨g1, g2⟩, g3⟩
      exact ⟨g3, g2⟩
  | true =>
    simp only [if_true] at hc ⊢
    constructor
    · rintro ⟨g1, g2⟩
      exact ⟨⟨hc.1.imp id fun h h2 => h (klt_trans h2 g1), g2⟩, g1⟩
    · rintro ⟨⟨g1, g2⟩, g3⟩
      exact ⟨g3, g2⟩

/-- A step from a key. -/
theorem live_res {t : Tree V} {L : List (Key × V)} (ht : TreeOk t L) {it : Iter V} {c : Key} (h : Live t L it c)
    (hc : c ≠ []) (h1 : ∀ e, L = [e] → e.1 ≠ c) (hE : ∀ e ∈ L, e.1 ≠ []) :
    ((it.reverse = false → ¬ Below c L) →
      ResOk L (fun k => After it.reverse c k ∧ within it k = true) it.reverse (t.next it)) ∧
    (it.version ≠ t.version → it.reverse = false → Below c L → (t.next it).2 = false) ∧
    ((t.next it).2 = true → 2 ≤ L.length → ∀ f, (t.next it).1.leaf = some f → Live t L (t.next it).1 f.1 ∧
      f ∈ L ∧ After it.reverse c f.1 ∧ within it f.1 = true ∧
      (t.next it).1.reverse = it.reverse ∧ (t.next it).1.terminate = it.terminate) := by
  by_cases hv : it.version = t.version
  · obtain ⟨done, e, rest, rfl, hat⟩ := h.same hv
    obtain ⟨h2, h3⟩ := next_same ht hat
    refine ⟨fun _ => h2, fun h => absurd hv h, ?_⟩
    intro g1 g2 f hf
    obtain ⟨q1, q2, q3⟩ := h3 g1 f hf
    obtain ⟨m1, m2⟩ := h2.mem g1 hf
    exact ⟨q1, m1, m2.1, m2.2, q2, q3⟩
  · have hcur := h.cursor
    subst hcur
    obtain ⟨h2, h3, h4⟩ := next_changed ht h.closed hv hc h1 hE
    refine ⟨h2, fun _ => h4, ?_⟩
    intro g1 g2 f hf
    obtain ⟨q1, q2, q3, q4, q5⟩ := h3 g1 g2 f hf
    have hb : it.reverse = false → ¬ Below it.cursor L := by
      intro hr hb; rw [h4 hr hb] at g1; simp at g1
    exact ⟨q1, ((h2 hb).mem g1 hf).1, q2, q3, q4, q5⟩

/-- What holds during a walk. -/
theorem walk_inv {rev : Bool} {a b : Key} {ops : List (Op V)} {t : Tree V} {it : Iter V} {last : Option Key}
    (h : Walk rev a b ops t it last) (hs : Separate ops) :
    run ops = some t ∧ ∃ L, TreeOk t L ∧ Lists L (contents ops) ∧ match last with
      | none => it = startIter t rev a b
      | some k => Live t L it k ∧ k ≠ [] ∧ InRange rev a b k ∧ it.reverse = rev ∧
          it.terminate = if rev then a else b := by
  induction h with
  | @start ops t hr =>
    obtain ⟨t', h1, L, h2, h3⟩ := run_holds ops hs
    rw [hr] at h1; simp at h1; subst h1
    exact ⟨hr, L, h2, h3, rfl⟩
  | @call ops t it k op t' hw hr ih =>
    have hs' : Separate ops := by cases op with
      | insert k v => exact hs.2
      | remove k => exact hs
    obtain ⟨h1, L, h2, h3, h4, h5⟩ := ih hs'
    obtain ⟨t'', g1, L', g2, g3⟩ := run_holds (op :: ops) hs
    rw [hr] at g1; simp at g1; subst g1
    refine ⟨hr, ?_⟩
    rcases run_cons_version h1 hr with hv | hv
    · refine ⟨L', g2, g3, ⟨h4.closed, h4.cursor, by have := h4.version; omega, ?_⟩, h5⟩
      intro he; have := h4.version; omega
    · subst hv
      have hL : L = L' := by
        have e1 := h2.root
        have e2 := g2.root
        cases hr2 : t'.root with
        | none => rw [hr2] at e1 e2; rw [e1, e2]
        | some r => rw [hr2] at e1 e2; rw [e1.2, e2.2]
      subst hL
      exact ⟨L, g2, g3, h4, h5⟩
  | @next ops t it last k v hw hE h2 ha ih =>
    obtain ⟨h1, L, h3, h4, h5⟩ := ih hs
    refine ⟨h1, L, h3, h4, ?_⟩
    have hE' : ∀ e ∈ L, e.1 ≠ [] := by
      intro e he hn
      have := (h4.2 e.1 e.2).1 he
      rw [hn, hE] at this; simp at this
    have hlen : 2 ≤ L.length := by rw [← h3.size]; exact h2
    unfold Tree.answer at ha
    have ht : (t.next it).2 = true := by
      cases hb : (t.next it).2 with
      | true => rfl
      | false => rw [hb] at ha; simp at ha
    rw [if_pos ht] at ha
    cases last with
    | none =>
      dsimp only at h5
      subst h5
      obtain ⟨r1, r2, q⟩ := first_res h3 rev a b
      obtain ⟨q1, q2, q3, q4⟩ := q ht hlen _ ha
      have hb : ¬ Below a L := by intro hb; rw [r2 hb] at ht; simp at ht
      exact ⟨q1, hE' _ ((r1 hb).mem ht ha).1, q2, q3, q4⟩
    | some c =>
      obtain ⟨g1, g2, g3, g4, g5⟩ := h5
      obtain ⟨-, -, q⟩ := live_res h3 g1 g2 (by rintro e rfl; simp at hlen) hE'
      obtain ⟨q1, q2, q3, q4, q5, q6⟩ := q ht hlen _ ha
      exact ⟨q1, hE' _ q2, ((left_iff g4 g5 g3 _).1 ⟨q3, q4⟩).1, by rw [q5, g4], by rw [q6, g5]⟩

end Verif.Art
