import Verif.Model.KVMerge
import Verif.Spec.Art

/-! What C141 is about: maps, and what a table or store shows of them. -/

namespace Verif.KVMerge

open Verif.Art

variable {V : Type}

/-- The table has exactly the keys and values of the map, as a user sees it: its size, a loop over
all of it, and a look at every key (but the empty one if there is one key only, see C36). -/
structure Shows (t : Tree V) (m : Key → Option V) : Prop where
  size : Count m t.size
  loop : ∃ l, Lists l m ∧ ∀ n, t.size < n → t.drain n (t.iter [] []) = l
  look : ∀ q, q ≠ [] ∨ t.size ≠ 1 →
    ((t.find .exact q).found = true ↔ m q ≠ none) ∧
    ((t.find .exact q).found = true → (t.find .exact q).lf = (m q).map fun v => (q, v))

/-- The second map's values first. -/
def over (m r : Key → Option V) (q : Key) : Option V :=
  match r q with
  | some v => some v
  | none => m q

/-- What a store has: for each table the writes and deletes that made it. -/
def Made (s : Store V) (p : List UInt8 → Option (List (Op V))) : Prop :=
  ∀ n, match p n with
    | none => table s n = none
    | some ops => Separate ops ∧ ∃ t, table s n = some t ∧ run ops = some t

/-- What a name stands for after the merge: `a` is what the first store has, `b` the second. -/
def Merged (a b : Option (List (Op V))) (t : Option (Tree V)) : Prop :=
  match a, b with
  | none, none => t = none
  | some x, none => ∃ u, t = some u ∧ Shows u (contents x)
  | none, some y => ∃ u, t = some u ∧ Shows u (contents y)
  | some x, some y => ∃ u, t = some u ∧ Shows u (over (contents x) (contents y))

end Verif.KVMerge
