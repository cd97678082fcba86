/-
Model of the ordered map, /repo/tube/omap.go (same code in /repo/omap.go; /repo/dmap.go differs in
a Go map kept beside the tree and in taking the tree iterator from the element).

* The red-black tree (github.com/glycerine/rbtree, not in /repo) is taken to be what it
  implements: the elements in key order. An iterator is the key it stands on, `none` is Limit; it
  can be used only while its element is in the tree.
* Keys are any type with a strict total order (cmp.Ordered); `isNil` is false for those.
* Elements are values, not pointers: values changed through the pointers handed out by Allokv,
  Cached and Getokv are left out.
-/
namespace Verif.Omap

/-- The order of the keys. -/
class KeyOrder (K : Type) extends LT K where
  dec : DecidableLT K
  irrefl : ∀ a : K, ¬ a < a
  trans : ∀ {a b c : K}, a < b → b < c → a < c
  tri : ∀ a b : K, a < b ∨ a = b ∨ b < a

instance (K : Type) [o : KeyOrder K] : DecidableLT K := o.dec

instance : KeyOrder Nat where
  dec := inferInstance
  irrefl := Nat.lt_irrefl
  trans := Nat.lt_trans
  tri := Nat.lt_trichotomy

variable {K V : Type} [KeyOrder K] [DecidableEq K]

/-- tube/omap.go:58-69 `Omap`. -/
structure Omap (K V : Type) where
  version : Nat := 0
  tree : List (K × V) := []
  cache : List (K × V) := []
  cacheVer : Nat := 0
deriving DecidableEq, Repr

/-- The tree's lookup, FindGE_isEqual. -/
def find (t : List (K × V)) (k : K) : Option V := (t.find? fun x => x.1 = k).map (·.2)

/-- The tree's insertion, or the update of a value in place. -/
def insert (k : K) (v : V) : List (K × V) → List (K × V)
  | [] => [(k, v)]
  | (k', v') :: t =>
    if k = k' then (k, v) :: t
    else if k < k' then (k, v) :: (k', v') :: t
    else (k', v') :: insert k v t

/-- tube/omap.go:429-442 `Get2`. -/
def get2 (m : Omap K V) (k : K) : Option V := find m.tree k

/-- tube/omap.go:206-226 `Set`; answers newlyAdded. -/
def set (m : Omap K V) (k : K) (v : V) : Omap K V × Bool :=
  (⟨m.version + 1, insert k v m.tree, [], 0⟩, (find m.tree k).isNone)

/-- tube/omap.go:142-162 `Delkey`; answers found. -/
def del (m : Omap K V) (k : K) : Omap K V × Bool :=
  match find m.tree k with
  | some _ => (⟨m.version + 1, m.tree.filter fun x => x.1 ≠ k, [], 0⟩, true)
  | none => (m, false)

/-- tube/omap.go:196-201 `DeleteAll`. -/
def deleteAll (m : Omap K V) : Omap K V := ⟨m.version + 1, [], [], 0⟩

/-- tube/omap.go:72-87 `Cached`. -/
def cached (m : Omap K V) : Omap K V × List (K × V) :=
  if m.cache.length = m.tree.length ∧ m.cacheVer = m.version then (m, m.cache)
  else ({ m with cache := m.tree, cacheVer := m.version }, m.tree)

/-- Iterator `Min()`. -/
def minIt (t : List (K × V)) : Option K := t.head?.map (·.1)

/-- Iterator `Next()`; outer `none`: the iterator's element is gone. -/
def nextIt (t : List (K × V)) (it : Option K) : Option (Option K) :=
  match it with
  | none => none
  | some k => if (find t k).isSome then some ((t.find? fun x => decide (k < x.1)).map (·.1)) else none

/-- Where an iteration is, between two calls of yield: in the loop over ordercache (244-283), in
the loop over the tree it falls back to (267-277), in the loop that fills the cache (293-316). -/
inductive Iter (K V : Type) where
  | cached (rest : List (K × V)) (i : Nat) (next : Option K) (vers : Nat)
  | slow (next : Option K)
  | fill (it : Option K) (vers : Nat) (good : Bool)
  | done

/-- What a piece of an iteration does: the map, where it is, and the element yielded, if any. -/
abbrev Piece (K V : Type) := Option (Omap K V × Iter K V × Option (K × V))

/-- tube/omap.go:254-258: top of the loop over ordercache. -/
def cachedHead (m : Omap K V) (rest : List (K × V)) (i : Nat) (next : Option K) (vers : Nat) : Piece K V :=
  match rest with
  | [] => some (m, .done, none)
  | kv :: rest => (nextIt m.tree next).map fun next => (m, .cached rest i next vers, some kv)

/-- tube/omap.go:272-279: top of the fallback loop. -/
def slowHead (m : Omap K V) (next : Option K) : Piece K V :=
  match next with
  | none => some (m, .done, none)
  | some k =>
    match find m.tree k with
    | none => none
    | some v => (nextIt m.tree (some k)).map fun next => (m, .slow next, some (k, v))

/-- tube/omap.go:300-313: top of the loop that fills the cache. -/
def fillHead (m : Omap K V) (it : Option K) (vers : Nat) (good : Bool) : Piece K V :=
  match it with
  | none => some (m, .done, none)
  | some k =>
    match find m.tree k with
    | none => none
    | some v =>
      (nextIt m.tree (some k)).map fun it =>
        (if good then { m with cache := m.cache ++ [(k, v)] } else m, .fill it vers good, some (k, v))

/-- tube/omap.go:239-299 `All`, up to the first yield. -/
def start (m : Omap K V) : Piece K V :=
  if m.cache.length = m.tree.length ∧ m.cacheVer = m.version then
    cachedHead m m.cache 0 (minIt m.tree) m.version
  else fillHead { m with cache := [], cacheVer := m.version } (minIt m.tree) m.version true

/-- From one yield to the next (the loop body asked to go on). -/
def resume (m : Omap K V) : Iter K V → Piece K V
  | .done => some (m, .done, none)
  | .cached rest i next vers =>
    if m.version = vers then cachedHead m rest (i + 1) next vers
    else if m.tree.length ≤ i + 1 then some (m, .done, none)
    else slowHead m next
  | .slow next => slowHead m next
  | .fill it vers good =>
    if m.version ≠ vers then fillHead { m with cache := [], cacheVer := 0 } it vers false
    else fillHead m it vers good

/-- What a program does to the map outside of iterations or in a loop body. -/
inductive Simple (K V : Type) where
  | set (k : K) (v : V)
  | del (k : K)
  | deleteAll
  | cached

def simple (m : Omap K V) : Simple K V → Omap K V
  | .set k v => (set m k v).1
  | .del k => (del m k).1
  | .deleteAll => deleteAll m
  | .cached => (cached m).1

/-- A loop body: for the n-th element visited, what it does and whether it goes on. -/
abbrev Body (K V : Type) := Nat → K → V → List (Simple K V) × Bool

/-- A loop, from the outcome of `start` or `resume`: the map after it, the elements visited, what
was done to the map. `none`: an iterator was used whose element is gone, or `fuel` ran out. -/
def loopFrom (body : Body K V) : Nat → Nat → Piece K V → Option (Omap K V × List (K × V) × List (Simple K V))
  | _, _, none => none
  | _, _, some (m, _, none) => some (m, [], [])
  | 0, _, some (_, _, some _) => none
  | fuel + 1, n, some (m, it, some x) =>
    let b := body n x.1 x.2
    let m := b.1.foldl simple m
    if b.2 then
      (loopFrom body fuel (n + 1) (resume m it)).map fun r => (r.1, x :: r.2.1, b.1 ++ r.2.2)
    else some (m, [x], b.1)

/-- `for k, v := range m.All() { body }`. -/
def loop (body : Body K V) (fuel : Nat) (m : Omap K V) := loopFrom body fuel 0 (start m)

/-- A piece of a program that uses the map, without loops inside loops. -/
inductive Op (K V : Type) where
  | simple (s : Simple K V)
  | loop (body : Body K V) (fuel : Nat)

/-- Run a program: the map and all that was done to it. -/
def run (m : Omap K V) : List (Op K V) → Option (Omap K V × List (Simple K V))
  | [] => some (m, [])
  | .simple s :: ops => (run (simple m s) ops).map fun r => (r.1, s :: r.2)
  | .loop body fuel :: ops =>
    (loop body fuel m).bind fun l => (run l.1 ops).map fun r => (r.1, l.2.2 ++ r.2)

end Verif.Omap
