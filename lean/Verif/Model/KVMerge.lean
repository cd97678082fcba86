import Verif.Model.Art

/-!
# Copies and merges of the key-value store

Model of `ArtTable.clone`, `KVStore.clone` and `KVStore.Merge` (`tube/kv.go:24-35, 58-81,
112-120`), on top of the radix tree in `Verif/Model/Art.lean`. A leaf's value stands for all
that `Leaf.Clone` copies (`tube/art/leaf.go:108-124`: every field but `keybyte`, which is for
logging); what is shared in memory is not modelled. `none`: a panic in the tree.
-/

namespace Verif.KVMerge

open Verif.Art

variable {V : Type}

/-- The loops of `clone` and `Merge` (`tube/kv.go:29-33, 75-79`): iterate over one tree from the
beginning to the end, insert each leaf into the other. The fuel of the iteration is more than the
tree's size. -/
def copyInto (src dst : Tree V) : Option (Tree V) :=
  (src.drain (src.size + 1) (src.iter [] [])).foldlM (fun t e => (t.insert e.1 e.2).map (·.1)) dst

/-- `ArtTable.clone` (`tube/kv.go:24-35`). -/
def cloneTable (t : Tree V) : Option (Tree V) := copyInto t {}

/-- The tables of a store by name (`tube/kv.go:37-42`, the field `m`); the order of the list is
that in which a loop over the Go map gives them. -/
abbrev Store (V : Type) := List (List UInt8 × Tree V)

/-- A table of a store (`s.m[name]`). -/
def table (s : Store V) (n : List UInt8) : Option (Tree V) := List.lookup n s

/-- `s.m[name] = t`. -/
def setTable (n : List UInt8) (t : Tree V) : Store V → Store V
  | [] => [(n, t)]
  | (m, u) :: s => if n = m then (n, t) :: s else (m, u) :: setTable n t s

/-- One round of `Merge` (`tube/kv.go:67-80`). -/
def mergeOne (s : Store V) (e : List UInt8 × Tree V) : Option (Store V) :=
  match table s e.1 with
  | none => (cloneTable e.2).map fun t => setTable e.1 t s
  | some p => (copyInto e.2 p).map fun t => setTable e.1 t s

/-- `KVStore.Merge` (`tube/kv.go:58-81`); the stores are not nil. -/
def merge (s r : Store V) : Option (Store V) := r.foldlM mergeOne s

/-- `KVStore.clone` (`tube/kv.go:112-120`). -/
def cloneStore (s : Store V) : Option (Store V) :=
  s.foldlM (fun acc e => (cloneTable e.2).map fun t => setTable e.1 t acc) []

end Verif.KVMerge
