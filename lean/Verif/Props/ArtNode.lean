import Verif.Proofs.ArtNode
/-
C36, the nodes. The tree's theorems (Props/Art.lean) are about nodes that are lists of children;
here the arrays of the four node types, with their growing and shrinking, are shown to be such
lists.
-/
namespace Verif.Art

variable {V : Type}

/-- What `insert` and `del` do to a node: a child for a byte that has none, another child for a byte that has one,
and no child for a byte that has one. -/
inductive NodeOp (V : Type) where
  | add (b : UInt8) (c : Node V)
  | put (b : UInt8) (c : Node V)
  | remove (b : UInt8)

/-- The operations on the arrays. -/
def NodeOp.arrays (n : ANode V) : NodeOp V → ANode V
  | .add b c => n.add b c
  | .put b c => n.put b c
  | .remove b => n.remove b

/-- What the operations mean: which bytes have which child. -/
def NodeOp.meaning (m : UInt8 → Option (Node V)) : NodeOp V → UInt8 → Option (Node V)
  | .add b c, x => if x = b then some c else m x
  | .put b c, x => if x = b then some c else m x
  | .remove b, x => if x = b then none else m x

/-- When the operation is used. -/
def NodeOp.Allowed (m : UInt8 → Option (Node V)) : NodeOp V → Prop
  | .add b _ => m b = none
  | .put b _ => m b ≠ none
  | .remove b => m b ≠ none

/-- Each operation is used as the code does. -/
def Proper (m : UInt8 → Option (Node V)) : List (NodeOp V) → Prop
  | [] => True
  | op :: ops => op.Allowed m ∧ Proper (op.meaning m) ops

/-- The least byte that has a child and meets a condition, and its child. -/
def Least (m : UInt8 → Option (Node V)) (P : UInt8 → Prop) : Option (UInt8 × Node V) → Prop
  | none => ∀ b, P b → m b = none
  | some (b, c) => P b ∧ m b = some c ∧ ∀ x, x < b → P x → m x = none

/-- The greatest. -/
def Greatest (m : UInt8 → Option (Node V)) (P : UInt8 → Prop) : Option (UInt8 × Node V) → Prop
  | none => ∀ b, P b → m b = none
  | some (b, c) => P b ∧ m b = some c ∧ ∀ x, b < x → P x → m x = none

theorem least_find {kids : Kids V} (hs : Sorted kids) (P : UInt8 → Prop) [DecidablePred P] :
    Least (fun b => child b kids) P (kids.find? fun e => decide (P e.1)) := by
  cases h : kids.find? fun e => decide (P e.1) with
  | none =>
    rw [List.find?_eq_none] at h
    intro b hb
    rw [child_none]
    intro e he hbe
    exact h e he (by rw [hbe]; simpa using hb)
  | some e =>
    obtain ⟨b, c⟩ := e
    rw [List.find?_eq_some_iff_append] at h
    obtain ⟨hp, A, B, rfl, hA⟩ := h
    refine ⟨by simpa using hp, (child_some hs).2 (by simp), ?_⟩
    intro x hx hPx
    rw [child_none]
    intro e he hex
    rw [Sorted, List.pairwise_append, List.pairwise_cons] at hs
    rw [List.mem_append, List.mem_cons] at he
    rcases he with he | he | he
    · have := hA e he
      simp [hex, hPx] at this
    · rw [he] at hex; simp only at hex; rw [hex] at hx; exact UInt8.lt_irrefl _ hx
    · have := hs.2.1.1 e he
      rw [hex] at this
      exact UInt8.lt_asymm this hx

theorem greatest_find {kids : Kids V} (hs : Sorted kids) (P : UInt8 → Prop) [DecidablePred P] :
    Greatest (fun b => child b kids) P (kids.reverse.find? fun e => decide (P e.1)) := by
  cases h : kids.reverse.find? fun e => decide (P e.1) with
  | none =>
    rw [List.find?_eq_none] at h
    intro b hb
    rw [child_none]
    intro e he hbe
    exact h e (by simpa using he) (by rw [hbe]; simpa using hb)
  | some e =>
    obtain ⟨b, c⟩ := e
    rw [List.find?_eq_some_iff_append] at h
    obtain ⟨hp, A, B, hAB, hA⟩ := h
    have hmem : ∀ e, e ∈ kids ↔ e ∈ A ++ (b, c) :: B := by intro e; rw [← hAB, List.mem_reverse]
    refine ⟨by simpa using hp, (child_some hs).2 ((hmem _).2 (by simp)), ?_⟩
    intro x hx hPx
    rw [child_none]
    intro e he hex
    rw [Sorted, ← List.pairwise_reverse, hAB, List.pairwise_append, List.pairwise_cons] at hs
    rw [hmem, List.mem_append, List.mem_cons] at he
    rcases he with he | he | he
    · have := hA e he
      simp [hex, hPx] at this
    · rw [he] at hex; simp only at hex; rw [hex] at hx; exact UInt8.lt_irrefl _ hx
    · have := hs.2.1.1 e he
      simp only [hex] at this
      exact UInt8.lt_asymm this hx

theorem run_rep (ops : List (NodeOp V)) : ∀ (n : ANode V) (kind : Kind) (kids : Kids V), n.Rep kind kids →
    Proper (fun b => child b kids) ops →
    ∃ kind' kids', (ops.foldl NodeOp.arrays n).Rep kind' kids' ∧
      (fun b => child b kids') = ops.foldl NodeOp.meaning fun b => child b kids := by
  induction ops with
  | nil => intro n kind kids h _; exact ⟨kind, kids, h, rfl⟩
  | cons op ops ih =>
    intro n kind kids h hp
    obtain ⟨ha, hp⟩ := hp
    have key : ∃ kind' kids', (op.arrays n).Rep kind' kids' ∧ (fun b => child b kids') = op.meaning fun b => child b kids := by
      cases op with
      | add b c => exact ⟨_, _, h.add ha c, funext fun x => child_addChild ha⟩
      | put b c => exact ⟨_, _, h.put ha c, funext fun x => child_setChild ha⟩
      | remove b => exact ⟨_, _, h.remove ha, funext fun x => child_delChild h.sorted⟩
    obtain ⟨kind', kids', h', e⟩ := key
    obtain ⟨kind'', kids'', h'', e''⟩ := ih _ kind' kids' h' (by rw [e]; exact hp)
    exact ⟨kind'', kids'', h'', by rw [e'', e]; rfl⟩

/-- **C36, nodes.** Any sequence of additions, replacements and removals of children, starting with an empty node4, with
the growing and shrinking between the four node types: each byte has the child that the operations gave it, and the
searches by which the tree finds its way find the nearest byte that has one. -/
theorem C36_nodes (ops : List (NodeOp V)) (hp : Proper (fun _ => none) ops) :
    let n := ops.foldl NodeOp.arrays (.small (Small.empty 4))
    let m := ops.foldl NodeOp.meaning fun _ => none
    (∀ b, (n.child b).2 = m b) ∧
    Least m (fun _ => True) (n.next none) ∧ (∀ k, Least m (k < ·) (n.next (some k))) ∧ (∀ k, Least m (k ≤ ·) (n.gte k)) ∧
    Greatest m (fun _ => True) (n.prev none) ∧ (∀ k, Greatest m (· < k) (n.prev (some k))) ∧
    (∀ k, Greatest m (· ≤ k) (n.lte k)) ∧
    n.first = (n.next none).map (·.2) ∧ (n.lth ≠ 0 → n.last = (n.prev none).map (·.2)) ∧
    n.lth = (bytes.filter fun b => (m b).isSome).length := by
  obtain ⟨kind, kids, h, e⟩ := run_rep ops (.small (Small.empty 4)) .n4 [] ⟨rfl, Small.Rep.empty 4⟩ hp
  have e : (fun b => child b kids) = ops.foldl NodeOp.meaning fun _ => none := e
  simp only
  rw [← e]
  generalize ops.foldl NodeOp.arrays (.small (Small.empty 4)) = n at h ⊢
  refine ⟨h.child, ?_, ?_, ?_, ?_, ?_, ?_, ?_, ?_, ?_⟩
  · rw [h.next, kNext, ← find_true]
    have := least_find h.sorted fun _ => True
    simpa using this
  · intro k; rw [h.next]; exact least_find h.sorted (k < ·)
  · intro k; rw [h.gte]; exact least_find h.sorted (k ≤ ·)
  · rw [h.prev, kPrev, ← List.head?_reverse, ← find_true]
    have := greatest_find h.sorted fun _ => True
    simpa using this
  · intro k; rw [h.prev]; exact greatest_find h.sorted (· < k)
  · intro k; rw [h.lte]; exact greatest_find h.sorted (· ≤ k)
  · rw [h.first, h.next]; rfl
  · intro hl
    rw [h.last (by intro h0; rw [h.lth, h0] at hl; exact hl rfl), h.prev]; rfl
  · rw [h.lth]
    have := congrArg List.length (collect h.sorted)
    rw [← this]
    have : ∀ l : List UInt8, (l.filterMap fun b => (child b kids).map fun c => (b, c)).length =
        (l.filter fun b => (child b kids).isSome).length := by
      intro l
      induction l with
      | nil => rfl
      | cons x l ih =>
        simp only [List.filterMap_cons, List.filter_cons]
        cases child x kids <;> simp [ih]
    exact this bytes

/-- 20 children are added, in descending order, and all but three of them are removed again: a node4 that has been a
node48. -/
def C36_nodes_ops : List (NodeOp Nat) :=
  ((List.range 20).map fun i => .add (200 - UInt8.ofNat i) (.leaf [] i)) ++ [.put 190 (.leaf [] 77)] ++
  ((List.range 17).map fun i => .remove (184 + UInt8.ofNat i))

instance (m : UInt8 → Option (Node Nat)) (op : NodeOp Nat) : Decidable (op.Allowed m) := by
  cases op with
  | add b c => exact decidable_of_iff ((m b).isNone = true) (by simp [NodeOp.Allowed])
  | put b c => exact decidable_of_iff ((m b).isSome = true) (by simp [NodeOp.Allowed, Option.isSome_iff_ne_none])
  | remove b => exact decidable_of_iff ((m b).isSome = true) (by simp [NodeOp.Allowed, Option.isSome_iff_ne_none])

def decProper : ∀ (m : UInt8 → Option (Node Nat)) (ops : List (NodeOp Nat)), Decidable (Proper m ops)
  | _, [] => .isTrue trivial
  | m, op :: ops => @instDecidableAnd _ _ inferInstance (decProper (op.meaning m) ops)

instance (m : UInt8 → Option (Node Nat)) (ops : List (NodeOp Nat)) : Decidable (Proper m ops) := decProper m ops

example : Proper (fun _ => none) C36_nodes_ops := by decide +kernel
example : ((C36_nodes_ops.take 20).foldl NodeOp.arrays (.small (Small.empty 4))).kind = .n48 ∧
    (C36_nodes_ops.foldl NodeOp.arrays (.small (Small.empty 4))).kind = .n4 := by decide +kernel

/-- **C36, nodes and lists.** The node as Model/Art.lean has it: the same children are found in the same way, and
the node is of the same type. -/
theorem C36_nodes_are_lists {n : ANode V} {kind : Kind} {kids : Kids V} (h : n.Rep kind kids) :
    (n.kind = kind ∧ n.lth = kids.length ∧ ∀ b, (n.child b).2 = child b kids) ∧
    (∀ k, n.next k = kNext k kids) ∧ (∀ k, n.gte k = kGte k kids) ∧
    (∀ k, n.prev k = kPrev k kids) ∧ (∀ k, n.lte k = kLte k kids) ∧
    (∀ b c, child b kids = none →
      (n.add b c).Rep (if kids.length = kind.cap then kind.grow else kind) (addChild b c kids)) ∧
    (∀ b c, child b kids ≠ none → (n.put b c).Rep kind (setChild b c kids)) ∧
    (∀ b, child b kids ≠ none →
      (n.remove b).Rep (if kids.length ≤ kind.low ∧ kind ≠ .n4 then kind.shrink else kind) (delChild b kids)) :=
  ⟨⟨h.kind, h.lth, h.child⟩, h.next, h.gte, h.prev, h.lte, fun _ c hb => h.add hb c, fun _ c hb => h.put hb c, fun _ hb => h.remove hb⟩

example : (ANode.small (Small.empty 4) : ANode Nat).Rep .n4 [] := ⟨rfl, Small.Rep.empty 4⟩

end Verif.Art
