import Verif.Model.Art
/-
The four node types of tube/art as they are in memory: n4.go, n16.go, n48.go, n256.go. Model/Art.lean
works with the list of children instead; Props/ArtNode.lean proves that this is the same.

A Go array is a list of fixed length. A nil child is `none`. Reading outside an array, which panics
in Go, gives the zero value here; Props/ArtNode.lean proves what is read, so it does not happen.
-/
namespace Verif.Art

variable {V : Type}

/-- Go's `copy(l[off:], src)`. -/
def copyInto {α : Type} (l : List α) (off : Nat) (src : List α) : List α :=
  l.take off ++ src.take (l.length - off) ++ l.drop (off + src.length)

/-- A search's answer: a byte and a child, or no child. -/
abbrev Ans (V : Type) := Option (UInt8 × Node V)

/-- node4 (n4.go:5-10, `cap` 4) and node16 (n16.go:5-9, `cap` 16): the code of their methods is
the same, except for what they grow and shrink to. -/
structure Small (V : Type) where
  cap : Nat
  lth : Nat
  keys : List UInt8
  children : List (Option (Node V))

/-- `&node4{}`, `&node16{}`. -/
def Small.empty (cap : Nat) : Small V :=
  { cap := cap, lth := 0, keys := List.replicate cap 0, children := List.replicate cap none }

/-- The keys with the children at the same indexes. -/
def Small.slots (n : Small V) : List (UInt8 × Option (Node V)) := n.keys.zip n.children

/-- `return b, n.children[i]`. -/
def answer : UInt8 × Option (Node V) → Ans V
  | (b, some c) => some (b, c)
  | (_, none) => none

/-- n4.go:42-49, n16.go:45-52 `index`. -/
def Small.index (n : Small V) (k : UInt8) : Nat := (n.keys.findIdx? fun b => decide (k ≤ b)).getD n.lth

/-- n4.go:51-53, n16.go:11-13 `last`. -/
def Small.last (n : Small V) : Ans V := n.slots[n.lth - 1]?.bind answer

/-- n4.go:55-57, n16.go:14-16 `first`. -/
def Small.first (n : Small V) : Ans V := n.slots[0]?.bind answer

/-- n4.go:59-87, n16.go:76-86, 113-123 `next` and `gt`. -/
def Small.next (n : Small V) : Option UInt8 → Ans V
  | none => n.slots[0]?.bind answer
  | some k => (n.slots.find? fun s => decide (k < s.1)).bind answer

/-- n4.go:95-105, n16.go:94-105 `gte` with a key. -/
def Small.gte (n : Small V) (k : UInt8) : Ans V := (n.slots.find? fun s => decide (k ≤ s.1)).bind answer

/-- n4.go:107-122, 217-229 and n16.go:125-137, 230-241 `prev` and `lt`. -/
def Small.prev (n : Small V) : Option UInt8 → Ans V
  | none => if n.lth = 0 then none else n.slots[n.lth - 1]?.bind answer
  | some k => ((n.slots.take n.lth).reverse.find? fun s => decide (s.1 < k)).bind answer

/-- n4.go:237-249, n16.go:249-260 `lte` with a key. -/
def Small.lte (n : Small V) (k : UInt8) : Ans V :=
  ((n.slots.take n.lth).reverse.find? fun s => decide (s.1 ≤ k)).bind answer

/-- n4.go:124-132, n16.go:65-74 `child`: the index and the child. (Without a child node16 gives another index, which
is not used.) -/
def Small.child (n : Small V) (k : UInt8) : Nat × Option (Node V) :=
  match n.keys.findIdx? fun b => k == b with
  | some i => (i, n.children.getD i none)
  | none => (0, none)

/-- n4.go:134-142, n16.go:163-171 `addChild`. -/
def Small.addChild (n : Small V) (k : UInt8) (c : Node V) : Small V :=
  let idx := n.index k
  { n with
    children := (copyInto n.children (idx + 1) (n.children.drop idx)).set idx (some c)
    keys := (copyInto n.keys (idx + 1) (n.keys.drop idx)).set idx k
    lth := n.lth + 1 }

/-- n4.go:162-180, n16.go:139-157 `replace`. -/
def Small.replace (n : Small V) (idx : Nat) : Option (Node V) → Small V
  | none =>
    { n with
      keys := (copyInto n.keys idx (n.keys.drop (idx + 1))).set (n.lth - 1) 0
      children := (copyInto n.children idx (n.children.drop (idx + 1))).set (n.lth - 1) none
      lth := n.lth - 1 }
  | some c => { n with children := n.children.set idx (some c) }

/-- n4.go:186-193 `grow` (to a node16) and n16.go:211-218 `shrink` (to a node4): the arrays are
copied as far as they fit. -/
def Small.resize (n : Small V) (cap : Nat) : Small V :=
  { cap := cap, lth := n.lth, keys := copyInto (List.replicate cap 0) 0 n.keys,
    children := copyInto (List.replicate cap none) 0 n.children }

/-- n48.go:9-15 `node48`. -/
structure N48 (V : Type) where
  lth : Nat
  keys : List Nat
  children : List (Option (Node V))

/-- n256.go:9-12 `node256`. -/
structure N256 (V : Type) where
  lth : Nat
  children : List (Option (Node V))

/-- The indexes of the arrays with 256 entries, as bytes, in the order of a Go loop. -/
def bytes : List UInt8 := (List.range 256).map UInt8.ofNat

/-- `n.keys[k]`. -/
def N48.key (n : N48 V) (b : UInt8) : Nat := n.keys.getD b.toNat 0
/-- `n.children[idx-1]`. -/
def N48.slot (n : N48 V) (idx : Nat) : Option (Node V) := n.children.getD (idx - 1) none
/-- The byte and its child, when a loop has stopped at this byte. -/
def N48.found (n : N48 V) (b : UInt8) : Ans V := answer (b, n.slot (n.key b))

/-- n48.go:28-36 `first`: its byte is not used (node.go:331, 341, inner.go:449-454, lte.go:295). -/
def N48.first (n : N48 V) : Option (Node V) :=
  (bytes.find? fun b => decide (n.key b ≠ 0)).bind fun b => n.slot (n.key b)
/-- n48.go:17-26 `last`: likewise. -/
def N48.last (n : N48 V) : Option (Node V) :=
  (bytes.reverse.find? fun b => decide (n.key b ≠ 0)).bind fun b => n.slot (n.key b)

/-- n48.go:71-77 `child`. -/
def N48.child (n : N48 V) (k : UInt8) : Nat × Option (Node V) :=
  if n.key k = 0 then (0, none) else (k.toNat, n.slot (n.key k))

/-- n48.go:79-86, 103-115 `next` and `gt`. -/
def N48.next (n : N48 V) (k : Option UInt8) : Ans V :=
  (bytes.find? fun b => (match k with | none => true | some x => decide (x < b)) && decide (n.key b ≠ 0)).bind n.found

/-- n48.go:94-101 `gte` with a key. -/
def N48.gte (n : N48 V) (k : UInt8) : Ans V :=
  (bytes.find? fun b => decide (k ≤ b) && decide (n.key b ≠ 0)).bind n.found

/-- n48.go:117-130, 274-289 `prev` and `lt`. -/
def N48.prev (n : N48 V) (k : Option UInt8) : Ans V :=
  (bytes.reverse.find? fun b =>
    (match k with | none => true | some x => decide (b < x)) && decide (n.key b ≠ 0)).bind n.found

/-- n48.go:251-266 `lte` with a key. -/
def N48.lte (n : N48 V) (k : UInt8) : Ans V :=
  (bytes.reverse.find? fun b => decide (b ≤ k) && decide (n.key b ≠ 0)).bind n.found

/-- n48.go:136-147 `addChild`. -/
def N48.addChild (n : N48 V) (k : UInt8) (c : Node V) : N48 V :=
  match n.children.findIdx? Option.isNone with
  | some idx => { keys := n.keys.set k.toNat (idx + 1), children := n.children.set idx (some c), lth := n.lth + 1 }
  | none => n

/-- n48.go:183-202 `replace`; the index is the byte. -/
def N48.replace (n : N48 V) (k : Nat) (c : Option (Node V)) : N48 V :=
  let idx := n.keys.getD k 0
  let children := n.children.set (idx - 1) c
  match c with
  | none => { keys := n.keys.set k 0, children := children, lth := n.lth - 1 }
  | some _ => { n with children := children }

/-- n256.go:64-66 `child`. -/
def N256.slot (n : N256 V) (b : UInt8) : Option (Node V) := n.children.getD b.toNat none
def N256.child (n : N256 V) (k : UInt8) : Nat × Option (Node V) := (k.toNat, n.slot k)

/-- n256.go:25-33 `first`, 14-23 `last`. -/
def N256.first (n : N256 V) : Ans V :=
  (bytes.find? fun b => (n.slot b).isSome).bind fun b => answer (b, n.slot b)
def N256.last (n : N256 V) : Ans V :=
  (bytes.reverse.find? fun b => (n.slot b).isSome).bind fun b => answer (b, n.slot b)

/-- n256.go:68-75, 92-104 `next` and `gt`. -/
def N256.next (n : N256 V) (k : Option UInt8) : Ans V :=
  (bytes.find? fun b => (match k with | none => true | some x => decide (x < b)) && (n.slot b).isSome).bind
    fun b => answer (b, n.slot b)

/-- n256.go:83-90 `gte` with a key. -/
def N256.gte (n : N256 V) (k : UInt8) : Ans V :=
  (bytes.find? fun b => decide (k ≤ b) && (n.slot b).isSome).bind fun b => answer (b, n.slot b)

/-- n256.go:106-115, 229-245 `prev` and `lt`. -/
def N256.prev (n : N256 V) (k : Option UInt8) : Ans V :=
  (bytes.reverse.find? fun b => (match k with | none => true | some x => decide (b < x)) && (n.slot b).isSome).bind
    fun b => answer (b, n.slot b)

/-- n256.go:206-222 `lte` with a key. -/
def N256.lte (n : N256 V) (k : UInt8) : Ans V :=
  (bytes.reverse.find? fun b => decide (b ≤ k) && (n.slot b).isSome).bind fun b => answer (b, n.slot b)

/-- n256.go:137-141 `addChild`. -/
def N256.addChild (n : N256 V) (k : UInt8) (c : Node V) : N256 V :=
  { children := n.children.set k.toNat (some c), lth := n.lth + 1 }

/-- n256.go:117-132 `replace`. -/
def N256.replace (n : N256 V) (k : Nat) (c : Option (Node V)) : N256 V :=
  { children := n.children.set (k % 256) c, lth := if c.isNone then n.lth - 1 else n.lth }

/-- n16.go:192-205 `grow`. -/
def Small.grow48 (n : Small V) : N48 V :=
  { lth := n.lth
    children := copyInto (List.replicate 48 none) 0 n.children
    keys := (List.range n.children.length).foldl (fun keys i =>
      if (n.children.getD i none).isNone then keys else keys.set (n.keys.getD i 0).toNat (i + 1)) (List.replicate 256 0) }

/-- n48.go:169-181 `grow`. -/
def N48.grow (n : N48 V) : N256 V :=
  { lth := n.lth
    children := bytes.map fun b => if n.key b = 0 then none else n.slot (n.key b) }

/-- n48.go:208-226 `shrink`: the children in order of their bytes go to the next free place. -/
def N48.shrink (n : N48 V) : Small V :=
  let found := bytes.filterMap fun b => if n.key b = 0 then none else (n.slot (n.key b)).map fun c => (b, c)
  { cap := 16, lth := n.lth
    keys := copyInto (List.replicate 16 0) 0 (found.map (·.1))
    children := copyInto (List.replicate 16 none) 0 (found.map fun e => some e.2) }

/-- n256.go:170-186 `shrink`: one more place is taken for each child. -/
def N256.shrink (n : N256 V) : N48 V :=
  let r := bytes.foldl (fun (s : N48 V × Nat) b =>
    match n.slot b with
    | none => s
    | some c => ({ s.1 with keys := s.1.keys.set b.toNat (s.2 + 1), children := s.1.children.set s.2 (some c) }, s.2 + 1))
    ({ lth := n.lth, keys := List.replicate 256 0, children := List.replicate 48 none }, 0)
  r.1

/-- node.go:289-323 `inode`: a node of one of the four types. -/
inductive ANode (V : Type) where
  | small (n : Small V)
  | n48 (n : N48 V)
  | n256 (n : N256 V)

/-- `kind()`. -/
def ANode.kind : ANode V → Kind
  | .small n => if n.cap = 4 then .n4 else .n16
  | .n48 _ => .n48
  | .n256 _ => .n256

def ANode.lth : ANode V → Nat
  | .small n => n.lth
  | .n48 n => n.lth
  | .n256 n => n.lth

def ANode.child (k : UInt8) : ANode V → Nat × Option (Node V)
  | .small n => n.child k
  | .n48 n => n.child k
  | .n256 n => n.child k

def ANode.next (k : Option UInt8) : ANode V → Ans V
  | .small n => n.next k
  | .n48 n => n.next k
  | .n256 n => n.next k

def ANode.prev (k : Option UInt8) : ANode V → Ans V
  | .small n => n.prev k
  | .n48 n => n.prev k
  | .n256 n => n.prev k

def ANode.gte (k : UInt8) : ANode V → Ans V
  | .small n => n.gte k
  | .n48 n => n.gte k
  | .n256 n => n.gte k

def ANode.lte (k : UInt8) : ANode V → Ans V
  | .small n => n.lte k
  | .n48 n => n.lte k
  | .n256 n => n.lte k

def ANode.first : ANode V → Option (Node V)
  | .small n => n.first.map (·.2)
  | .n48 n => n.first
  | .n256 n => n.first.map (·.2)

def ANode.last : ANode V → Option (Node V)
  | .small n => n.last.map (·.2)
  | .n48 n => n.last
  | .n256 n => n.last.map (·.2)

/-- `full()`: n4.go:182, n16.go:159, n48.go:132, n256.go:133. -/
def ANode.full (n : ANode V) : Bool := n.lth = n.kind.cap

/-- `min()`: n4.go:195, n16.go:207, n48.go:204, n256.go:166. -/
def ANode.min (n : ANode V) : Bool := n.lth ≤ n.kind.low

/-- `grow()`. A node256 gives nil, and is never asked. -/
def ANode.grow : ANode V → ANode V
  | .small n => if n.cap = 4 then .small (n.resize 16) else .n48 n.grow48
  | .n48 n => .n256 n.grow
  | .n256 n => .n256 n

/-- `shrink()`. A node4 panics, and is never asked. -/
def ANode.shrink : ANode V → ANode V
  | .small n => .small (n.resize 4)
  | .n48 n => .small n.shrink
  | .n256 n => .n48 n.shrink

def ANode.addChild (k : UInt8) (c : Node V) : ANode V → ANode V
  | .small n => .small (n.addChild k c)
  | .n48 n => .n48 (n.addChild k c)
  | .n256 n => .n256 (n.addChild k c)

def ANode.replace (idx : Nat) (c : Option (Node V)) : ANode V → ANode V
  | .small n => .small (n.replace idx c)
  | .n48 n => .n48 (n.replace idx c)
  | .n256 n => .n256 (n.replace idx c)

/-- inner.go:110-115: a child is added, after the node has grown if it is full. -/
def ANode.add (n : ANode V) (k : UInt8) (c : Node V) : ANode V :=
  if n.full then n.grow.addChild k c else n.addChild k c

/-- inner.go:126, 222: a child is replaced by another. -/
def ANode.put (n : ANode V) (k : UInt8) (c : Node V) : ANode V := n.replace (n.child k).1 (some c)

/-- inner.go:175-211: a child is removed; a node at its minimum shrinks then. (A node4 with two
children gives way to the one that is left, Model/Art.lean `Node.del`.) -/
def ANode.remove (n : ANode V) (k : UInt8) : ANode V :=
  let m := n.replace (n.child k).1 none
  if n.min ∧ n.kind ≠ .n4 then m.shrink else m

end Verif.Art
