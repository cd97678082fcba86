/-
The adaptive radix tree of tube/art: insert, remove, the searches, order statistics and the
iterator.

Simplified throughout:
* The four node types (node4, node16, node48, node256) are one: the list of the children in
  ascending order of their key byte, and which of the four types it is. The arrays of the four
  types are in Model/ArtNode.lean, and Props/ArtNode.lean shows that they are such lists. For a
  byte that occurs twice (see C36) the list is right for node4 and node16.
* `pren` is a cache of the number of leaves in the children before this one, thrown away
  (`prenOK = false`) by every change and filled again by the next read (node.go:403-480). Here
  the number is computed when it is read.
* Locks are left out. `keybyte` is for debugging only.
* A leaf is its key and its value; the other fields go with the value.
-/
namespace Verif.Art

/-- leaf.go:45 `Key`. -/
abbrev Key := List UInt8

/-- node.go:201-209 `Key.At`: 0 beyond the end. -/
def Key.get (k : Key) (pos : Nat) : UInt8 := k.getD pos 0

/-- `bytes.Compare`. -/
def cmp : Key → Key → Ordering
  | [], [] => .eq
  | [], _ :: _ => .lt
  | _ :: _, [] => .gt
  | a :: as, b :: bs => if a < b then .lt else if b < a then .gt else cmp as bs

/-- The number of bytes in which two strings agree from the start: inner.go:14-23
`comparePrefix`, inner.go:30-41 `compressedMismatch`. -/
def commonLen : Key → Key → Nat
  | a :: as, b :: bs => if a = b then commonLen as bs + 1 else 0
  | _, _ => 0

/-- node.go:27-35 `kind`. -/
inductive Kind | n4 | n16 | n48 | n256
deriving DecidableEq, Repr

/-- node.go:54-67 `bnode`, leaf.go:68-106 `Leaf`, node.go:212-243 `inner`. -/
inductive Node (V : Type) where
  | leaf (key : Key) (val : V)
  | inner (comp : Key) (kind : Kind) (subN : Nat) (kids : List (UInt8 × Node V))
deriving Repr

variable {V : Type}

abbrev Kids (V : Type) := List (UInt8 × Node V)

/-! ### The children of a node -/

/-- `full()`: n4.go:182, n16.go:159, n48.go:132, n256.go:133. -/
def Kind.cap : Kind → Nat
  | .n4 => 4 | .n16 => 16 | .n48 => 48 | .n256 => 256

/-- `min()`: n4.go:195, n16.go:207, n48.go:204, n256.go:166. -/
def Kind.low : Kind → Nat
  | .n4 => 2 | .n16 => 5 | .n48 => 17 | .n256 => 49

/-- `grow()`: n4.go:186, n16.go:192, n48.go:169, n256.go:162. A full node256 has a child for every byte, and is never asked to grow. -/
def Kind.grow : Kind → Kind
  | .n4 => .n16 | .n16 => .n48 | .n48 => .n256 | .n256 => .n256

/-- `shrink()`: n4.go:199, n16.go:211, n48.go:208, n256.go:170. A node4 panics, and is never asked to. -/
def Kind.shrink : Kind → Kind
  | .n4 => .n4 | .n16 => .n4 | .n48 => .n16 | .n256 => .n48

/-- `child()`: n4.go:124, n16.go:65, n48.go:71, n256.go:64. -/
def child (b : UInt8) (kids : Kids V) : Option (Node V) :=
  (kids.find? fun p => p.1 == b).map (·.2)

/-- `addChild()` with `index()`: n4.go:42-49, 134-142: before the first key that is not less. -/
def addChild (b : UInt8) (n : Node V) : Kids V → Kids V
  | [] => [(b, n)]
  | (c, m) :: rest => if b ≤ c then (b, n) :: (c, m) :: rest else (c, m) :: addChild b n rest

/-- `replace(idx, nil, true)`: n4.go:162-180. -/
def delChild (b : UInt8) : Kids V → Kids V
  | [] => []
  | (c, m) :: rest => if c = b then rest else (c, m) :: delChild b rest

/-- `next()` and `gt()`: n4.go:59-87. -/
def kNext (k : Option UInt8) (kids : Kids V) : Option (UInt8 × Node V) :=
  match k with
  | none => kids.head?
  | some b => kids.find? fun p => b < p.1

/-- `gte()`: n4.go:95-105. -/
def kGte (b : UInt8) (kids : Kids V) : Option (UInt8 × Node V) := kids.find? fun p => b ≤ p.1

/-- `prev()` and `lt()`: n4.go:107-122, 217-229. -/
def kPrev (k : Option UInt8) (kids : Kids V) : Option (UInt8 × Node V) :=
  match k with
  | none => kids.getLast?
  | some b => kids.reverse.find? fun p => p.1 < b

/-- `lte()`: n4.go:237-249. -/
def kLte (b : UInt8) (kids : Kids V) : Option (UInt8 × Node V) :=
  kids.reverse.find? fun p => p.1 ≤ b

/-- node.go:92-98 `subn`. -/
def Node.subn : Node V → Nat
  | .leaf _ _ => 1
  | .inner _ _ s _ => s

/-- The cached sum `pren` of a child, node.go:54-67 and 403-480. -/
def pren (b : UInt8) : Kids V → Nat
  | [] => 0
  | (c, n) :: rest => if c = b then 0 else n.subn + pren b rest

/-! ### Insert -/

/-- leaf.go:160-204 `Leaf.insert`; the flag says that the value was updated. -/
def leafInsert (k : Key) (v : V) (depth : Nat) (key : Key) (val : V) : Node V × Bool :=
  if k = key then (.leaf k v, true)
  else
    let lp := commonLen (key.drop depth) (k.drop depth)
    (.inner ((key.drop depth).take lp) .n4 2
      (addChild (k.get (depth + lp)) (.leaf k v) (addChild (key.get (depth + lp)) (.leaf key val) [])),
      false)

mutual
/-- inner.go:43-151 `inner.insert`. None: the call panics. `compressedMismatch` (30-41) returns
a negative number for a key that ended before this node, and is used as an index. -/
def Node.insert (k : Key) (v : V) (depth : Nat) : Node V → Option (Node V × Bool)
  | .leaf key val => some (leafInsert k v depth key val)
  | .inner comp kind subN kids =>
    if k.length < depth then none
    else
      let mis := commonLen comp (k.drop depth)
      if mis < comp.length then
        let newChild : Node V := .inner (comp.drop (mis + 1)) kind subN kids
        some (.inner (comp.take mis) .n4 (subN + 1)
          (addChild (comp.getD mis 0) newChild (addChild (k.get (depth + mis)) (.leaf k v) [])), false)
      else
        let b := k.get (depth + mis)
        match insertKid k v (depth + mis + 1) b kids with
        | none => none
        | some none =>
          let kind := if kids.length = kind.cap then kind.grow else kind
          some (.inner comp kind (subN + 1) (addChild b (.leaf k v) kids), false)
        | some (some (kids', u)) => some (.inner comp kind (if u then subN else subN + 1) kids', u)
/-- inner.go:94-150: insert below the child for this byte; `some none` if there is none. -/
def insertKid (k : Key) (v : V) (depth : Nat) (b : UInt8) :
    List (UInt8 × Node V) → Option (Option (List (UInt8 × Node V) × Bool))
  | [] => some none
  | (c, n) :: rest =>
    if c = b then (n.insert k v depth).map fun r => some ((c, r.1) :: rest, r.2)
    else (insertKid k v depth b rest).map fun o => o.map fun r => ((c, n) :: r.1, r.2)
end

/-! ### Remove -/

/-- inner.go:240-259 `checkCompressed`: none if all the bytes there are to compare agree,
otherwise whether the key's byte is the greater one. A key that ends too early agrees. -/
def mismatch : Key → Key → Option Bool
  | a :: as, b :: bs => if a = b then mismatch as bs else some (decide (a < b))
  | _, _ => none

/-- inner.go:330-343 and leaf.go:229 `addPrefixBefore`. -/
def Node.addPrefix (comp : Key) (b : UInt8) : Node V → Node V
  | .leaf k v => .leaf k v
  | .inner c kind s kids => .inner (comp ++ b :: c) kind s kids

mutual
/-- inner.go:153-238 `inner.del`, leaf.go:206-215 `Leaf.del`: what takes the place of this node (nothing, for a leaf), and
the leaf that was removed. None: not found. A node4 has at least two children, so one is left
when it is dissolved. -/
def Node.del (k : Key) (depth : Nat) : Node V → Option (Option (Node V) × (Key × V))
  | .leaf key val => if key = k then some (none, (key, val)) else none
  | .inner comp kind subN kids =>
    if mismatch comp (k.drop depth) ≠ none then none
    else
      let nextDepth := depth + comp.length
      let b := k.get nextDepth
      match delKid k (nextDepth + 1) b kids with
      | none => none
      | some (none, lf) =>
        let kids' := delChild b kids
        if kind = .n4 ∧ kids.length ≤ 2 then
          match kids' with
          | [] => none
          | (lb, left) :: _ => some (some (left.addPrefix comp lb), lf)
        else
          some (some (.inner comp (if kids.length ≤ kind.low then kind.shrink else kind) (subN - 1) kids'), lf)
      | some (some kids', lf) => some (some (.inner comp kind (subN - 1) kids'), lf)
/-- inner.go:162-237: remove below the child for this byte: none, if it is not there; no children, if the child
itself is to go. -/
def delKid (k : Key) (depth : Nat) (b : UInt8) :
    List (UInt8 × Node V) → Option (Option (List (UInt8 × Node V)) × (Key × V))
  | [] => none
  | (c, n) :: rest =>
    if c = b then
      (n.del k depth).map fun r => (r.1.map fun n' => (c, n') :: rest, r.2)
    else (delKid k depth b rest).map fun r => (r.1.map fun l => (c, n) :: l, r.2)
end

/-! ### Searches -/

/-- What the recursive searches return. -/
structure Res (V : Type) where
  value : Option (Key × V) := none
  found : Bool := false
  dir : Int := 0
  id : Nat := 0
deriving Repr, DecidableEq

/-- leaf.go:217-227 `Leaf.get`. -/
def leafGet (q key : Key) (val : V) : Res V :=
  match cmp q key with
  | .eq => { value := some (key, val), found := true }
  | .lt => { value := some (key, val), dir := -1 }
  | .gt => { value := some (key, val), dir := 1 }

/-- node.go:325-347 `recursiveFirst`. -/
def Node.first : Node V → Option (Key × V)
  | .leaf k v => some (k, v)
  | .inner _ _ _ kids => match kids with
    | [] => none
    | (_, n) :: _ => n.first

mutual
/-- node.go:349-370 `recursiveLast`. -/
def Node.last : Node V → Option (Key × V)
  | .leaf k v => some (k, v)
  | .inner _ _ _ kids => lastOf kids
def lastOf : List (UInt8 × Node V) → Option (Key × V)
  | [] => none
  | (_, n) :: [] => n.last
  | _ :: p :: rest => lastOf (p :: rest)
end

mutual
/-- inner.go:268-323 `inner.get`. -/
def Node.get (q : Key) (depth : Nat) : Node V → Res V
  | .leaf key val => leafGet q key val
  | .inner comp _ _ kids =>
    if mismatch comp (q.drop depth) ≠ none then {}
    else
      let nextDepth := depth + comp.length
      match child (q.get nextDepth) kids with
      | none => {}
      | some _ =>
        let r := getKid q (nextDepth + 1) (q.get nextDepth) kids
        { r with id := r.id + pren (q.get nextDepth) kids }
def getKid (q : Key) (depth : Nat) (b : UInt8) : List (UInt8 × Node V) → Res V
  | [] => {}
  | (c, n) :: rest =>
    if c = b then n.get q depth else getKid q depth b rest
end

/-- tree.go:407-416 `SearchModifier`. -/
inductive SMod | exact | gte | lte | gt | lt
deriving DecidableEq, Repr

/-- gte.go:397-409 `byteCmp`. -/
def byteCmp (a b : UInt8) (c : Int) : Int :=
  if c ≠ 0 then c else if b < a then 1 else if a < b then -1 else 0

mutual
/-- gte.go:60-386 `inner.getGTE`; `swd` is `smallestWillDo`, `c` is `keyCmpPath`. Where the
code returns an inner node along with `found = false` (gte.go:292), nothing is returned here. -/
def Node.getGTE (q : Key) (smod : SMod) (depth calldepth : Nat) (swd : Bool) (c : Int) :
    Node V → Res V
  | .leaf key val => leafGet q key val
  | .inner comp kind subN kids =>
    let first := Node.first (.inner comp kind subN kids)
    let last := Node.last (.inner comp kind subN kids)
    if swd then { value := first, found := true }
    else if q = [] then { value := first, found := true }
    else if c = 1 then { value := last, dir := 1 }
    else if c = -1 then { value := first, dir := -1 }
    else match mismatch comp (q.drop depth) with
    | some true => { value := last, dir := 1 }
    | some false => { value := first, dir := -1 }
    | none =>
      let nextDepth := depth + comp.length
      let qk := q.get nextDepth
      match kGte qk kids with
      | none => { dir := 2 }
      | some (nb, next) =>
        let r := gteKid q smod (nextDepth + 1) (calldepth + 1) false (byteCmp qk nb c) nb kids
        let id := r.id + pren nb kids
        if r.found ∧ smod = .gte then { value := r.value, found := true, id }
        else if r.found ∧ smod = .gt then
          if (r.value.map fun p => cmp p.1 q) = some .gt then { value := r.value, found := true, id }
          else match kNext (some nb) kids with
            | none => { dir := 2, id }
            | some (lb, l) => { value := l.first, found := true, id := pren lb kids }
        else if 0 < r.dir then
          match kNext (some qk) kids with
          | none => { dir := 1 }
          | some (nnb, _) =>
            let swd := decide (1 < r.dir)
            let r2 := gteKid q smod nextDepth (calldepth + 1) swd (byteCmp qk nnb c) nnb kids
            let id2 := r2.id + pren nnb kids
            if r2.found then { value := r2.value, found := true, id := id2 }
            else if r2.dir < 0 then { value := r2.value, found := true, id := id2 }
            else { value := r2.value, dir := if swd then 2 else 1, id := id2 }
        else
          match kPrev (some qk) kids with
          | none => { value := first, found := decide (calldepth = 0), dir := -1 }
          | some (pb, _) =>
            let r2 := gteKid q smod (nextDepth + 1) (calldepth + 1) false (byteCmp qk pb c) pb kids
            let id2 := r2.id + pren pb kids
            if r2.found then { value := r2.value, found := true, id := id2 }
            else if 0 < r2.dir then { value := next.first, found := true, id := pren nb kids }
            else { value := r2.value, dir := r2.dir, id := id2 }
def gteKid (q : Key) (smod : SMod) (depth calldepth : Nat) (swd : Bool) (c : Int) (b : UInt8) :
    List (UInt8 × Node V) → Res V
  | [] => {}
  | (x, n) :: rest =>
    if x = b then n.getGTE q smod depth calldepth swd c
    else gteKid q smod depth calldepth swd c b rest
end

mutual
/-- lte.go:60-395 `inner.getLTE`; `lwd` is `largestWillDo`. -/
def Node.getLTE (q : Key) (smod : SMod) (depth calldepth : Nat) (lwd : Bool) (c : Int) :
    Node V → Res V
  | .leaf key val => leafGet q key val
  | .inner comp kind subN kids =>
    let first := Node.first (.inner comp kind subN kids)
    let last := Node.last (.inner comp kind subN kids)
    if lwd then { value := last, found := true, id := subN - 1 }
    else if q = [] then { value := last, found := true, id := subN - 1 }
    else if c = 1 then { value := last, dir := 1, id := subN - 1 }
    else if c = -1 then { value := first, dir := -1 }
    else match mismatch comp (q.drop depth) with
    | some true => { value := last, found := decide (calldepth = 0), dir := 1, id := subN - 1 }
    | some false => { value := first, dir := -1 }
    | none =>
      let nextDepth := depth + comp.length
      let qk := q.get nextDepth
      match kLte qk kids with
      | none => { dir := -2 }
      | some (pb, prev) =>
        let r := lteKid q smod (nextDepth + 1) (calldepth + 1) false (byteCmp qk pb c) pb kids
        let id := r.id + pren pb kids
        if r.found ∧ smod = .lte then { value := r.value, found := true, id }
        else if r.found ∧ smod = .lt then
          if (r.value.map fun p => cmp p.1 q) = some .lt then { value := r.value, found := true, id }
          else match kPrev (some pb) kids with
            | none => { dir := -2, id }
            | some (lb, l) => { value := l.last, found := true, id := pren lb kids + l.subn - 1 }
        else if r.dir < 0 then
          match kPrev (some qk) kids with
          | none => { dir := -1 }
          | some (ppb, _) =>
            let lwd := decide (r.dir < -1)
            let r2 := lteKid q smod nextDepth (calldepth + 1) lwd (byteCmp qk ppb c) ppb kids
            let id2 := r2.id + pren ppb kids
            if r2.found then { value := r2.value, found := true, id := id2 }
            else if 0 < r2.dir then { value := r2.value, found := true, id := id2 }
            else { value := r2.value, dir := if lwd then -2 else 1, id := id2 }
        else
          match kNext (some qk) kids with
          | none => { value := last, found := decide (calldepth = 0), dir := 1, id := subN - 1 }
          | some (nb, _) =>
            let r2 := lteKid q smod (nextDepth + 1) (calldepth + 1) false (byteCmp qk nb c) nb kids
            let id2 := r2.id + pren nb kids
            if r2.found then { value := r2.value, found := true, id := id2 }
            else if r2.dir < 0 then
              { value := prev.last, found := true, id := pren pb kids + prev.subn - 1 }
            else { value := r2.value, dir := r2.dir, id := id2 }
def lteKid (q : Key) (smod : SMod) (depth calldepth : Nat) (lwd : Bool) (c : Int) (b : UInt8) :
    List (UInt8 × Node V) → Res V
  | [] => {}
  | (x, n) :: rest =>
    if x = b then n.getLTE q smod depth calldepth lwd c
    else lteKid q smod depth calldepth lwd c b rest
end

/-! ### The tree -/

/-- tree.go:80-138 `Tree`. -/
structure Tree (V : Type) where
  root : Option (Node V) := none
  size : Nat := 0
  version : Nat := 0

/-- tree.go:188-235 `Insert`, `InsertLeaf`. None: it panics. -/
def Tree.insert (t : Tree V) (k : Key) (v : V) : Option (Tree V × Bool) :=
  match t.root with
  | none => some ({ t with root := some (.leaf k v), size := t.size + 1, version := t.version + 1 }, false)
  | some r => (r.insert k v 0).map fun p =>
    ({ root := some p.1, size := if p.2 then t.size else t.size + 1, version := t.version + 1 }, p.2)

/-- tree.go:439-461 `Remove`. -/
def Tree.remove (t : Tree V) (k : Key) : Tree V × Option (Key × V) :=
  match t.root with
  | none => (t, none)
  | some r => match r.del k 0 with
    | none => (t, none)
    | some (r', lf) => ({ root := r', size := t.size - 1, version := t.version + 1 }, some lf)

/-- The answer of `Find`: leaf, index, found. -/
structure Found (V : Type) where
  lf : Option (Key × V) := none
  idx : Nat := 0
  found : Bool := false
deriving Repr, DecidableEq

/-- tree.go:355-369: the search from the root. -/
def Node.search (r : Node V) (smod : SMod) (q : Key) : Res V :=
  match smod with
  | .gte | .gt => r.getGTE q smod 0 0 false 0
  | .lte | .lt => r.getLTE q smod 0 0 false 0
  | .exact => r.get q 0

/-- tree.go:370-399: the only leaf of a tree. -/
def single (smod : SMod) (x : Res V) : Res V :=
  match smod with
  | .gte => if x.dir ≤ 0 ∧ x.value.isSome then { x with found := true } else x
  | .gt => if x.dir < 0 ∧ x.value.isSome then { x with found := true } else x
  | .lte => if 0 ≤ x.dir ∧ x.value.isSome then { x with found := true } else x
  | .lt => if 0 < x.dir ∧ x.value.isSome then { x with found := true } else x
  | .exact => if x.found then x else { x with value := none }

/-- tree.go:343-405 `find_unlocked`. -/
def Tree.find (t : Tree V) (smod : SMod) (q : Key) : Found V :=
  match t.root with
  | none => {}
  | some r =>
    if q = [] ∧ t.size = 1 then
      { lf := match r with
          | .leaf k v => some (k, v)
          | .inner .. => none, found := true }
    else
      let x := if t.size = 1 then single smod (r.search smod q) else r.search smod q
      { lf := x.value, idx := x.id, found := x.found }

mutual
/-- node.go:100-136 `at`. -/
def Node.at (i : Nat) : Node V → Option (Key × V)
  | .leaf k v => if i = 0 then some (k, v) else none
  | .inner _ _ subN kids => if subN ≤ i then none else atKid i kids
def atKid (i : Nat) : List (UInt8 × Node V) → Option (Key × V)
  | [] => none
  | (_, n) :: rest => if i < n.subn then n.at i else atKid (i - n.subn) rest
end

/-- tree.go:537-551 `Atfar`. -/
def Tree.atfar (t : Tree V) (i : Nat) : Option (Key × V) := t.root.bind (Node.at i)

/-! ### The iterator -/

/-- iterator.go:242-247 `checkpoint`: the children of a node, and the last one visited. -/
structure Check (V : Type) where
  kids : Kids V
  cur : Option UInt8 := none

/-- iterator.go:61-85 `iterator`. -/
structure Iter (V : Type) where
  closed : Bool := false
  version : Nat := 0
  stack : List (Check V) := []
  cursor : Key := []
  terminate : Key := []
  reverse : Bool := false
  curIdx : Int := 0
  leaf : Option (Key × V) := none

/-- iterator.go:116-153 `Iter`. -/
def Tree.iter (t : Tree V) (start stop : Key) : Iter V :=
  if t.root.isNone ∨ t.size < 1 then { closed := true }
  else if ¬ (t.find .gte start).found then { closed := true }
  else if ¬ (t.find .lt stop).found then { closed := true }
  else { version := t.version, cursor := start, terminate := stop,
         curIdx := (t.find .gte start).idx - 1 }

/-- iterator.go:195-240 `RevIter`. -/
def Tree.revIter (t : Tree V) (stop start : Key) : Iter V :=
  if t.root.isNone ∨ t.size < 1 then { closed := true }
  else if ¬ (t.find .lte start).found then { closed := true }
  else if ¬ (t.find .gt stop).found then { closed := true }
  else { version := t.version, reverse := true, cursor := start, terminate := stop,
         curIdx := (t.find .lte start).idx + 1 }

/-- iterator.go:449-458 `inRange`. -/
def Iter.inRange (it : Iter V) (k : Key) : Bool :=
  if it.reverse then
    (cmp k it.cursor ≠ .gt || it.cursor.isEmpty) && (it.terminate.isEmpty || cmp k it.terminate = .gt)
  else
    cmp k it.cursor ≠ .lt && (it.terminate.isEmpty || cmp k it.terminate = .lt)

/-- iterator.go:411-419 `next`. -/
def Iter.child (it : Iter V) (c : Check V) : Option (UInt8 × Node V) :=
  if it.reverse then kPrev c.cur c.kids else kNext c.cur c.kids

mutual
/-- The number of steps it takes to visit everything below a node. -/
def Node.steps : Node V → Nat
  | .leaf _ _ => 1
  | .inner _ _ _ kids => stepsOf kids + 2
def stepsOf : List (UInt8 × Node V) → Nat
  | [] => 0
  | (_, n) :: rest => n.steps + stepsOf rest
end

/-- iterator.go:348-409 `iterate` and `tryAdvance`: go on until a leaf in the range is found, or
nothing is left. `fuel` bounds the number of steps; `Tree.next` gives enough. -/
def Iter.iterate : (fuel : Nat) → Iter V → Iter V × Bool
  | 0, it => ({ it with closed := true }, false)
  | fuel + 1, it =>
    match it.stack with
    | [] => ({ it with closed := true }, false)
    | c :: below =>
      match it.child c with
      | none => Iter.iterate fuel { it with stack := below }
      | some (b, .leaf k v) =>
        let it := { it with stack := { c with cur := some b } :: below }
        if it.inRange k then ({ it with cursor := k, leaf := some (k, v) }, true)
        else Iter.iterate fuel it
      | some (b, .inner _ _ _ kids) =>
        Iter.iterate fuel { it with stack := { kids := kids } :: { c with cur := some b } :: below }

/-- iterator.go:294-300 and 318-346 `init`: start at the root if there is no stack, and go on. -/
def Tree.go (t : Tree V) (it : Iter V) : Iter V × Bool :=
  match it.stack, t.root with
  | [], none => ({ it with closed := true }, false)
  | [], some (.leaf k v) =>
    if it.inRange k then ({ it with closed := true, leaf := some (k, v) }, true)
    else ({ it with closed := true }, false)
  | [], some (.inner c kd s kids) =>
    Iter.iterate (Node.steps (.inner c kd s kids)) { it with stack := [{ kids := kids }] }
  | _ :: _, some r => Iter.iterate r.steps it
  | _ :: _, none => Iter.iterate 1 it

/-- iterator.go:258-284: the tree has changed; the iterator moves to the key after the last one. -/
def Tree.reseek (t : Tree V) (it : Iter V) : Option (Iter V) :=
  let f := t.find (if it.reverse then .lt else .gt) it.cursor
  if f.found then
    f.lf.map fun e => { it with curIdx := f.idx, leaf := some e, version := t.version,
                                cursor := e.1, stack := [] }
  else none

/-- iterator.go:251-316 `Next`. -/
def Tree.next (t : Tree V) (it : Iter V) : Iter V × Bool :=
  if it.closed then (it, false)
  else if it.version ≠ t.version then
    match t.reseek it with
    | none => ({ it with closed := true }, false)
    | some it => t.go it
  else t.go { it with curIdx := if it.reverse then it.curIdx - 1 else it.curIdx + 1 }

/-- All answers of an iterator over a tree that does not change, iterator.go:463-497 `Ascend`
and `Descend`. -/
def Tree.drain (t : Tree V) : (fuel : Nat) → Iter V → List (Key × V)
  | 0, _ => []
  | fuel + 1, it =>
    match t.next it with
    | (it', true) => it'.leaf.toList ++ t.drain fuel it'
    | (_, false) => []

/-- tree.go:557-567: the iterator kept from the last call, when it stands just before index `i`
and the tree has not changed. -/
def Tree.cached (t : Tree V) (cache : Option (Iter V)) (i : Nat) : Option ((Key × V) × Iter V) :=
  match cache with
  | none => none
  | some c =>
    if c.version = t.version ∧ (i : Int) = c.curIdx + 1 ∧ (t.next c).2 then
      (t.next c).1.leaf.map fun lf => (lf, (t.next c).1)
    else none

/-- tree.go:553-579 `at_unlocked`, the work of `At`: the answer and the iterator it keeps. The
index is not negative; the cache is written under the read lock only, which a sequence of calls
does not show. -/
def Tree.at (t : Tree V) (cache : Option (Iter V)) (i : Nat) : Option (Key × V) × Option (Iter V) :=
  match t.root with
  | none => (none, cache)
  | some r => match t.cached cache i with
    | some (lf, c) => (some lf, some c)
    | none => match r.at i with
      | none => (none, none)
      | some lf => (some lf, if 1 < t.size then some (t.next (t.iter lf.1 [])).1 else none)

end Verif.Art
