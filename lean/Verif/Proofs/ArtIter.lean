import Verif.Proofs.ArtTree
/-
The iterator: what is left to visit, and what each step does to it.
-/
namespace Verif.Art

set_option linter.unusedSectionVars false
variable {V : Type}

/-- The children not yet visited at one level. -/
def kidsLeft (rev : Bool) (c : Check V) : Kids V :=
  match c.cur with
  | none => c.kids
  | some b => if rev then c.kids.filter fun e => e.1 < b else c.kids.filter fun e => b < e.1

/-- The leaves not yet visited at one level. -/
def todo (rev : Bool) (c : Check V) : List (Key × V) :=
  if rev then (leavesOf (kidsLeft rev c)).reverse else leavesOf (kidsLeft rev c)

def todos (rev : Bool) : List (Check V) → List (Key × V)
  | [] => []
  | c :: below => todo rev c ++ todos rev below

def costs (rev : Bool) : List (Check V) → Nat
  | [] => 0
  | c :: below => stepsOf (kidsLeft rev c) + 1 + costs rev below

def KidsOk (kids : Kids V) : Prop :=
  (kids.Pairwise fun a b => a.1 < b.1) ∧ ∀ e ∈ kids, ∃ p, Ok p e.2

def StackOk (s : List (Check V)) : Prop := ∀ c ∈ s, KidsOk c.kids

theorem stepsOf_append (a b : Kids V) : stepsOf (a ++ b) = stepsOf a + stepsOf b := by
  induction a with
  | nil => simp [stepsOf]
  | cons x a ih => obtain ⟨y, n⟩ := x; simp [stepsOf, ih, Nat.add_assoc]

/-- Taking the next child off the front. -/
theorem find_filter {kids : Kids V} (hs : kids.Pairwise fun a b => a.1 < b.1) (b : UInt8) :
    match kids.find? fun p => b < p.1 with
    | none => (kids.filter fun e => b < e.1) = []
    | some x => (kids.filter fun e => b < e.1) = x :: (kids.filter fun e => x.1 < e.1) := by
  induction kids with
  | nil => simp
  | cons r rest ih =>
    rw [List.pairwise_cons] at hs
    by_cases h : b < r.1
    · simp only [List.find?_cons, h, decide_true, List.filter_cons, if_true]
      have h1 : ¬ r.1 < r.1 := by grind
      simp only [h1, decide_false, Bool.false_eq_true, if_false]
      congr 1
      refine List.filter_congr fun e he => ?_
      have := hs.1 e he
      grind
    · simp only [List.find?_cons, h, decide_false, List.filter_cons, Bool.false_eq_true, if_false]
      have ih := ih hs.2
      cases hf : rest.find? fun p => b < p.1 with
      | none => rw [hf] at ih; exact ih
      | some x =>
        rw [hf] at ih
        have hx := List.find?_some hf
        have h2 : ¬ x.1 < r.1 := by simp at hx; grind
        simpa [h2] using ih

theorem filter_all {kids : Kids V} {x : UInt8} (h : ∀ e ∈ kids, x < e.1) : (kids.filter fun e => x < e.1) = kids := by
  rw [List.filter_eq_self]; intro e he; simpa using h e he

theorem find_filter_rev {kids : Kids V} (hs : kids.Pairwise fun a b => a.1 < b.1) (b : UInt8) :
    match kids.reverse.find? fun p => p.1 < b with
    | none => (kids.filter fun e => e.1 < b) = []
    | some x => (kids.filter fun e => e.1 < b) = (kids.filter fun e => e.1 < x.1) ++ [x] := by
  obtain ⟨A, B, h1, h2, h3⟩ := split_bytes hs b
  have hp := kPrev_split h2 h3
  unfold kPrev at hp
  rw [← h1] at hp
  dsimp only at hp
  rw [hp]
  have hB : ∀ y, y ≤ b → (B.filter fun e => e.1 < y) = [] := by
    intro y hy
    rw [List.filter_eq_nil_iff]
    intro e he
    have := h3 e he
    simp; grind
  have hA : (A.filter fun e => e.1 < b) = A := by
    rw [List.filter_eq_self]; intro e he; simpa using h2 e he
  have hf : (kids.filter fun e => e.1 < b) = A := by
    rw [h1, List.filter_append, hA, hB b (by grind)]; simp
  rw [hf]
  cases hl : A.getLast? with
  | none => simpa using hl
  | some x =>
    obtain ⟨A', rfl⟩ := last_split hl
    dsimp only
    have hx : x.1 < b := h2 x (by simp)
    have hA' : (A'.filter fun e => e.1 < x.1) = A' := by
      rw [List.filter_eq_self]
      intro e he
      rw [h1, List.pairwise_append, List.pairwise_append] at hs
      simpa using hs.1.2.2 e he x (by simp)
    have hxx : ¬ x.1 < x.1 := by grind
    rw [h1, List.filter_append, List.filter_append, hA', hB x.1 (by grind)]
    simp [hxx]

/-- One step of the walk over the children. -/
theorem child_ok (it : Iter V) (c : Check V) (hk : KidsOk c.kids) :
    match it.child c with
    | none => kidsLeft it.reverse c = []
    | some x => x ∈ c.kids ∧
      todo it.reverse c = (if it.reverse then x.2.leaves.reverse else x.2.leaves) ++
        todo it.reverse { c with cur := some x.1 } ∧
      stepsOf (kidsLeft it.reverse c) = x.2.steps + stepsOf (kidsLeft it.reverse { c with cur := some x.1 }) := by
  obtain ⟨hs, -⟩ := hk
  unfold Iter.child
  cases hr : it.reverse with
  | false =>
    simp only [Bool.false_eq_true, if_false]
    have key : ∀ o, kNext c.cur c.kids = o → match o with
        | none => kidsLeft false c = []
        | some x => x ∈ c.kids ∧ kidsLeft false c = x :: kidsLeft false { c with cur := some x.1 } := by
      intro o ho
      unfold kNext at ho
      cases hc : c.cur with
      | none =>
        rw [hc] at ho
        simp only [kidsLeft, hc]
        subst ho
        cases hkids : c.kids with
        | nil => simp
        | cons y ys =>
          rw [hkids, List.pairwise_cons] at hs
          have hy : ¬ y.1 < y.1 := by grind
          simp only [List.head?_cons, List.filter_cons, hy, decide_false, Bool.false_eq_true, if_false]
          refine ⟨by simp, ?_⟩
          rw [filter_all hs.1]
      | some b =>
        rw [hc] at ho
        dsimp only at ho
        simp only [kidsLeft, hc]
        have := find_filter hs b
        rw [ho] at this
        cases o with
        | none => simpa using this
        | some x => exact ⟨List.mem_of_find?_eq_some ho, by simpa using this⟩
    have := key _ rfl
    cases ho : kNext c.cur c.kids with
    | none => rw [ho] at this; exact this
    | some x =>
      rw [ho] at this
      obtain ⟨h1, h2⟩ := this
      obtain ⟨b, n⟩ := x
      refine ⟨h1, ?_, ?_⟩
      · simp only [todo, Bool.false_eq_true, if_false]
        rw [h2]; simp [leavesOf]
      · rw [h2]; simp [stepsOf]
  | true =>
    simp only [if_true]
    have key : ∀ o, kPrev c.cur c.kids = o → match o with
        | none => kidsLeft true c = []
        | some x => x ∈ c.kids ∧ kidsLeft true c = kidsLeft true { c with cur := some x.1 } ++ [x] := by
      intro o ho
      unfold kPrev at ho
      cases hc : c.cur with
      | none =>
        rw [hc] at ho
        simp only [kidsLeft, hc]
        dsimp only at ho
        subst ho
        cases hl : c.kids.getLast? with
        | none => simpa using hl
        | some x =>
          obtain ⟨A', hA'⟩ := last_split hl
          simp only
          rw [hA'] at hs ⊢
          rw [List.pairwise_append] at hs
          refine ⟨by simp, ?_⟩
          have h1 : (A'.filter fun e => e.1 < x.1) = A' := by
            rw [List.filter_eq_self]
            intro e he
            simpa using hs.2.2 e he x (by simp)
          have hxx : ¬ x.1 < x.1 := by grind
          rw [if_pos trivial, List.filter_append, h1]
          simp [hxx]
      | some b =>
        rw [hc] at ho
        dsimp only at ho
        simp only [kidsLeft, hc]
        have := find_filter_rev hs b
        rw [ho] at this
        cases o with
        | none => simpa using this
        | some x => exact ⟨by simpa using List.mem_of_find?_eq_some ho, by simpa using this⟩
    have := key _ rfl
    cases ho : kPrev c.cur c.kids with
    | none => rw [ho] at this; exact this
    | some x =>
      rw [ho] at this
      obtain ⟨h1, h2⟩ := this
      obtain ⟨b, n⟩ := x
      refine ⟨h1, ?_, ?_⟩
      · simp only [todo, if_true]
        rw [h2]; simp [leavesOf_append, leavesOf]
      · rw [h2]; simp [stepsOf_append, stepsOf]; omega

/-- What `iterate` answers. -/
def Answered (it : Iter V) (todo : List (Key × V)) (cost : Nat) (r : Iter V × Bool) : Prop :=
  (r.2 = false ∧ r.1.closed = true ∧ ∀ e ∈ todo, it.inRange e.1 = false) ∨
  (r.2 = true ∧ ∃ pre e post, todo = pre ++ e :: post ∧ (∀ x ∈ pre, it.inRange x.1 = false) ∧
    it.inRange e.1 = true ∧ todos it.reverse r.1.stack = post ∧ StackOk r.1.stack ∧ r.1.stack ≠ [] ∧
    costs it.reverse r.1.stack ≤ cost ∧
    r.1 = { it with stack := r.1.stack, cursor := e.1, leaf := some e })

theorem iterate_ok (fuel : Nat) (it : Iter V) (hs : StackOk it.stack)
    (hf : costs it.reverse it.stack ≤ fuel) :
    Answered it (todos it.reverse it.stack) (costs it.reverse it.stack) (Iter.iterate fuel it) := by
  induction fuel generalizing it with
  | zero =>
    cases hst : it.stack with
    | nil => left; simp [Iter.iterate, todos]
    | cons c below => rw [hst] at hf; simp [costs] at hf
  | succ fuel ih =>
    rw [Iter.iterate]
    cases hst : it.stack with
    | nil => left; simp [todos]
    | cons c below =>
      rw [hst] at hs hf
      simp only [costs] at hf
      have hc := child_ok it c (hs c (by simp))
      dsimp only
      cases hch : it.child c with
      | none =>
        rw [hch] at hc
        dsimp only at hc ⊢
        have := ih { it with stack := below } (fun x hx => hs x (by simp [hx])) (by dsimp only; omega)
        have ht : todo it.reverse c = [] := by simp [todo, hc, leavesOf]
        simp only [todos, ht, List.nil_append]
        rcases this with h | ⟨h1, pre, e, post, h2, h3, h4, h5, h6, h7, h8, h9⟩
        · exact .inl h
        · right
          refine ⟨h1, pre, e, post, h2, h3, h4, h5, h6, h7, ?_, h9⟩
          dsimp only at h8
          simp only [costs]; omega
      | some x =>
        rw [hch] at hc
        obtain ⟨b, n⟩ := x
        dsimp only at hc ⊢
        obtain ⟨h1, h2, h3⟩ := hc
        have hok : StackOk ({ c with cur := some b } :: below) := by
          intro y hy
          rcases List.mem_cons.1 hy with rfl | hy
          · exact hs c (by simp)
          · exact hs y (by simp [hy])
        cases n with
        | leaf k v =>
          have hlv : (if it.reverse then (Node.leaf k v : Node V).leaves.reverse else (Node.leaf k v : Node V).leaves)
              = [(k, v)] := by split <;> simp [Node.leaves]
          rw [hlv] at h2
          simp only [Node.steps] at h3
          dsimp only
          by_cases hin : it.inRange k = true
          · rw [if_pos (by simpa [Iter.inRange] using hin)]
            right
            refine ⟨rfl, [], (k, v), _, ?_, by simp, hin, rfl, hok, by simp, ?_, rfl⟩
            · simp [todos, h2]
            · simp only [costs]; omega
          · rw [if_neg (by simpa [Iter.inRange] using hin)]
            have := ih { it with stack := { c with cur := some b } :: below } hok (by simp only [costs]; omega)
            simp only [todos, h2, List.append_assoc]
            have hin' : it.inRange k = false := by simpa using hin
            rcases this with ⟨g1, g2, g3⟩ | ⟨g1, pre, e, post, g2, g3, g4, g5, g6, g7, g8, g9⟩
            · left
              refine ⟨g1, g2, ?_⟩
              intro e he
              rcases List.mem_append.1 he with h | h
              · simp at h; subst h; exact hin'
              · exact g3 e h
            · right
              refine ⟨g1, (k, v) :: pre, e, post, ?_, ?_, g4, g5, g6, g7, ?_, g9⟩
              · simp only [todos] at g2; simp [g2]
              · intro x hx
                rcases List.mem_cons.1 hx with rfl | hx
                · exact hin'
                · exact g3 x hx
              · simp only [costs] at g8 ⊢; omega
        | inner comp kind subN kids =>
          simp only [Node.steps] at h3
          dsimp only
          have hkids : KidsOk kids := by
            obtain ⟨p, hp⟩ := (hs c (by simp)).2 _ h1
            cases hp with
            | inner sorted two low cap kid sub len => exact ⟨sorted, fun e he => ⟨_, kid e he⟩⟩
          have hok2 : StackOk ({ kids := kids } :: { c with cur := some b } :: below) := by
            intro y hy
            rcases List.mem_cons.1 hy with rfl | hy
            · exact hkids
            · exact hok y hy
          have := ih { it with stack := { kids := kids } :: { c with cur := some b } :: below } hok2
            (by simp only [costs, kidsLeft] at *; omega)
          have htd : todos it.reverse ({ kids := kids } :: { c with cur := some b } :: below) =
              todos it.reverse (c :: below) := by
            simp only [todos, h2, Node.leaves]
            simp [todo, kidsLeft]
          rw [htd] at this
          have hcs : costs it.reverse ({ kids := kids } :: { c with cur := some b } :: below) ≤
              costs it.reverse (c :: below) := by
            simp only [costs, kidsLeft] at h3 ⊢; omega
          rcases this with ⟨g1, g2, g3⟩ | ⟨g1, pre, e, post, g2, g3, g4, g5, g6, g7, g8, g9⟩
          · exact .inl ⟨g1, g2, g3⟩
          · right
            refine ⟨g1, pre, e, post, g2, g3, g4, g5, g6, g7, ?_, g9⟩
            exact Nat.le_trans g8 hcs

/-- The leaves in the order of the walk. -/
def order (rev : Bool) (L : List (Key × V)) : List (Key × V) := if rev then L.reverse else L

/-- The walk does not go beyond its end. -/
def within (it : Iter V) (k : Key) : Bool :=
  if it.reverse then it.terminate.isEmpty || cmp k it.terminate = .gt
  else it.terminate.isEmpty || cmp k it.terminate = .lt

/-- The iterator stands on a leaf of a tree that has not changed since. -/
structure At (t : Tree V) (L : List (Key × V)) (it : Iter V) (done : List (Key × V)) (e : Key × V)
    (rest : List (Key × V)) : Prop where
  closed : it.closed = false
  cursor : it.cursor = e.1
  version : it.version = t.version
  split : order it.reverse L = done ++ e :: rest
  todos : todos it.reverse it.stack = rest
  ok : StackOk it.stack
  ne : it.stack ≠ []
  cost : ∀ r, t.root = some r → costs it.reverse it.stack ≤ r.steps
  idx : it.curIdx = if it.reverse then rest.length else done.length

theorem order_sorted {rev : Bool} {L : List (Key × V)} (h : L.Pairwise fun a b => a.1 < b.1) :
    (order rev L).Pairwise fun a b => if rev then b.1 < a.1 else a.1 < b.1 := by
  cases rev with
  | false => simpa [order] using h
  | true => simpa [order, List.pairwise_reverse] using h

theorem TreeOk.root_some {t : Tree V} {L : List (Key × V)} (h : TreeOk t L) (hne : L ≠ []) :
    ∃ r, t.root = some r ∧ Ok [] r ∧ L = r.leaves := by
  have := h.root
  cases hr : t.root with
  | none => rw [hr] at this; exact absurd this hne
  | some r => rw [hr] at this; exact ⟨r, rfl, this⟩

/-- Further along, being in the range means not being beyond the end. -/
theorem inRange_after {it : Iter V} {k : Key} (h : if it.reverse then k < it.cursor else it.cursor < k) :
    it.inRange k = within it k := by
  unfold Iter.inRange within
  cases hr : it.reverse with
  | false =>
    rw [hr] at h
    have h1 : cmp k it.cursor ≠ .lt := by rw [Ne, cmp_lt]; exact klt_asymm (by simpa using h)
    simp [h1]
  | true =>
    rw [hr] at h
    have h1 : cmp k it.cursor ≠ .gt := by rw [Ne, cmp_gt]; exact klt_asymm (by simpa using h)
    simp [h1]

/-- The end has been passed for good. -/
theorem within_mono {it : Iter V} {a b : Key} (h : if it.reverse then b < a else a < b)
    (hb : within it b = true) : within it a = true := by
  unfold within at hb ⊢
  cases hr : it.reverse with
  | false =>
    rw [hr] at h hb
    simp [cmp_lt] at h hb ⊢
    rcases hb with hb | hb
    · exact .inl hb
    · exact .inr (klt_trans h hb)
  | true =>
    rw [hr] at h hb
    simp [cmp_gt] at h hb ⊢
    rcases hb with hb | hb
    · exact .inl hb
    · exact .inr (klt_trans hb h)

theorem go_stack {t : Tree V} {it : Iter V} {r : Node V} (hr : t.root = some r) (hs : it.stack ≠ []) :
    t.go it = Iter.iterate r.steps it := by
  unfold Tree.go
  cases h : it.stack with
  | nil => exact absurd h hs
  | cons c b => rw [hr]

/-- The next leaf of a tree that has not changed. -/
theorem next_at {t : Tree V} {L : List (Key × V)} (ht : TreeOk t L) {it : Iter V} {done rest : List (Key × V)}
    {e : Key × V} (h : At t L it done e rest) :
    ((t.next it).2 = false ∧ (t.next it).1.closed = true ∧ ∀ x ∈ rest, within it x.1 = false) ∨
    (∃ f post, rest = f :: post ∧ (t.next it).2 = true ∧ (t.next it).1.leaf = some f ∧ within it f.1 = true ∧
      At t L (t.next it).1 (done ++ [e]) f post ∧ (t.next it).1.reverse = it.reverse ∧
      (t.next it).1.terminate = it.terminate) := by
  have hL : L ≠ [] := by
    rintro rfl
    have := h.split
    cases hr : it.reverse <;> simp [hr, order] at this
  obtain ⟨r, hr, -, -⟩ := ht.root_some hL
  unfold Tree.next
  rw [if_neg (by simp [h.closed]), if_neg (by simp [h.version])]
  rw [go_stack hr (by simpa using h.ne)]
  have hord := order_sorted (rev := it.reverse) ht.sorted
  rw [h.split, List.pairwise_append, List.pairwise_cons] at hord
  have hi := iterate_ok r.steps { it with curIdx := if it.reverse then it.curIdx - 1 else it.curIdx + 1 }
    h.ok (h.cost r hr)
  have htd : todos it.reverse it.stack = rest := h.todos
  have hin : ∀ x ∈ rest, ({ it with curIdx := if it.reverse then it.curIdx - 1 else it.curIdx + 1 } : Iter V).inRange x.1
      = within it x.1 := by
    intro x hx
    have h1 := hord.2.1.1 x hx
    rw [← h.cursor] at h1
    exact inRange_after (it := { it with curIdx := if it.reverse then it.curIdx - 1 else it.curIdx + 1 }) h1
  generalize Iter.iterate r.steps { it with curIdx := if it.reverse then it.curIdx - 1 else it.curIdx + 1 } = res at hi
  rcases hi with ⟨g1, g2, g3⟩ | ⟨g1, pre, f, post, g2, g3, g4, g5, g6, g7, g8, g9⟩
  · left
    refine ⟨g1, g2, fun x hx => ?_⟩
    rw [← hin x hx]
    exact g3 x (by rw [htd]; exact hx)
  · right
    dsimp only at g2 g5 g8
    rw [htd] at g2
    have hpre : pre = [] := by
      cases pre with
      | nil => rfl
      | cons x pre =>
        exfalso
        have hx : x ∈ rest := by rw [g2]; simp
        have hf : f ∈ rest := by rw [g2]; simp
        have h1 := g3 x (by simp)
        rw [hin x hx] at h1
        rw [hin f hf] at g4
        have h2 := hord.2.1.2
        rw [g2, List.cons_append, List.pairwise_cons] at h2
        have h3 := h2.1 f (by simp)
        rw [within_mono h3 g4] at h1
        exact absurd h1 (by simp)
    subst hpre
    rw [List.nil_append] at g2
    have hf : f ∈ rest := by rw [g2]; simp
    rw [hin f hf] at g4
    refine ⟨f, post, g2, g1, by rw [g9], g4, ?_, by rw [g9], by rw [g9]⟩
    have e1 : res.1.reverse = it.reverse := by rw [g9]
    refine ⟨by rw [g9]; exact h.closed, by rw [g9], by rw [g9]; exact h.version, ?_, by rw [e1]; exact g5, g6, g7, ?_, ?_⟩
    · rw [e1, h.split, g2]; simp
    · intro r' hr'
      rw [e1]
      exact Nat.le_trans g8 (h.cost r' hr')
    · have hc : res.1.curIdx = if it.reverse then it.curIdx - 1 else it.curIdx + 1 := by rw [g9]
      rw [hc, e1, h.idx, g2]
      split
      · simp
      · simp

/-- An iterator without a stack walks the whole tree. -/
theorem go_fresh {t : Tree V} {L : List (Key × V)} (ht : TreeOk t L) (h2 : 2 ≤ L.length) {it : Iter V}
    (hc : it.closed = false) (hv : it.version = t.version) (hs : it.stack = []) :
    ((t.go it).2 = false ∧ (t.go it).1.closed = true ∧ ∀ x ∈ order it.reverse L, it.inRange x.1 = false) ∨
    (∃ pre f post, order it.reverse L = pre ++ f :: post ∧ (∀ x ∈ pre, it.inRange x.1 = false) ∧
      it.inRange f.1 = true ∧ (t.go it).2 = true ∧ (t.go it).1.leaf = some f ∧
      ((it.curIdx = if it.reverse then post.length else pre.length) → At t L (t.go it).1 pre f post) ∧
      (t.go it).1.reverse = it.reverse ∧ (t.go it).1.terminate = it.terminate) := by
  obtain ⟨r, hr, hok, rfl⟩ := ht.root_some (by intro h; rw [h] at h2; simp at h2)
  unfold Tree.go
  rw [hs, hr]
  cases hok with
  | leaf h => simp [Node.leaves] at h2
  | @inner _ comp kind subN kids sorted two low cap kid sub len =>
    dsimp only
    have hso : StackOk ([{ kids := kids }] : List (Check V)) := by
      intro c hc; simp at hc; subst hc; exact ⟨sorted, fun e he => ⟨_, kid e he⟩⟩
    have hi := iterate_ok (Node.steps (.inner comp kind subN kids)) { it with stack := [{ kids := kids }] } hso
      (by simp [costs, kidsLeft, Node.steps])
    have htd : todos it.reverse [({ kids := kids } : Check V)] = order it.reverse (Node.inner comp kind subN kids).leaves := by
      simp [todos, todo, kidsLeft, order, Node.leaves]
    generalize Iter.iterate (Node.steps (.inner comp kind subN kids)) { it with stack := [{ kids := kids }] } = res at hi
    rcases hi with ⟨g1, g2, g3⟩ | ⟨g1, pre, f, post, g2, g3, g4, g5, g6, g7, g8, g9⟩
    · left
      exact ⟨g1, g2, fun x hx => g3 x (by rw [htd]; exact hx)⟩
    · right
      dsimp only at g2 g5 g8
      rw [htd] at g2
      refine ⟨pre, f, post, g2, g3, g4, g1, by rw [g9], ?_, by rw [g9], by rw [g9]⟩
      intro hidx
      have e1 : res.1.reverse = it.reverse := by rw [g9]
      refine ⟨by rw [g9]; exact hc, by rw [g9], by rw [g9]; exact hv, by rw [e1]; exact g2, by rw [e1]; exact g5, g6, g7,
        ?_, by rw [e1, ← hidx, g9]⟩
      intro r' hr'
      rw [hr] at hr'
      simp only [Option.some.injEq] at hr'
      subst hr'
      rw [e1]
      refine Nat.le_trans g8 ?_
      simp [costs, kidsLeft, Node.steps]

theorem go_single {t : Tree V} {e : Key × V} (ht : TreeOk t [e]) {it : Iter V} (hs : it.stack = []) :
    t.go it = if it.inRange e.1 then ({ it with closed := true, leaf := some e }, true)
      else ({ it with closed := true }, false) := by
  obtain ⟨r, hr, hok, hl⟩ := ht.root_some (by simp)
  obtain ⟨k, v, rfl⟩ := one_leaf hok (by rw [← hl]; rfl)
  simp [Node.leaves] at hl
  subst hl
  unfold Tree.go
  rw [hs, hr]

theorem next_closed {t : Tree V} {it : Iter V} (h : it.closed = true) : t.next it = (it, false) := by
  unfold Tree.next; rw [if_pos h]

theorem drain_closed {t : Tree V} {it : Iter V} (h : it.closed = true) (n : Nat) : t.drain n it = [] := by
  cases n with
  | zero => rfl
  | succ n => rw [Tree.drain, next_closed h]

/-- Everything that is still to come. -/
theorem drain_at {t : Tree V} {L : List (Key × V)} (ht : TreeOk t L) {it : Iter V} {done rest : List (Key × V)}
    {e : Key × V} (h : At t L it done e rest) (n : Nat) (hn : rest.length < n) :
    t.drain n it = rest.filter fun x => within it x.1 := by
  induction n generalizing it done e rest with
  | zero => omega
  | succ n ih =>
    rw [Tree.drain]
    rcases next_at ht h with ⟨h1, h2, h3⟩ | ⟨f, post, h1, h2, h3, h4, h5, h6, h7⟩
    · generalize t.next it = res at h1 h2
      obtain ⟨it', b⟩ := res
      simp only at h1
      subst h1
      symm
      rw [List.filter_eq_nil_iff]
      intro x hx; simp [h3 x hx]
    · have hw : ∀ k, within (t.next it).1 k = within it k := by intro k; unfold within; rw [h6, h7]
      generalize t.next it = res at h2 h3 h5 h6 h7 hw
      obtain ⟨it', b⟩ := res
      simp only at h2 h3
      subst h2
      subst h1
      dsimp only at h5 hw ⊢
      rw [h3, ih h5 (by simp at hn; omega)]
      simp only [List.filter_cons, h4, if_true, Option.toList, List.singleton_append]
      congr 1
      exact List.filter_congr fun x _ => by rw [hw]

end Verif.Art
