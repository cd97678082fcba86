import Verif.Model.WAL
/-
What the write-ahead log stands for: the entries last written at each index since the last
snapshot, whether or not compaction has discarded them since.
-/
namespace Verif.WAL.Spec

open MsgBin (Bytes)

/-- An entry without the fields the log fills in itself. -/
structure Cell where
  term : Int
  body : Bytes
deriving DecidableEq, Repr

def cell (e : Ent) : Cell := ⟨e.term, e.body⟩

/-- The cell at index start+1+i is `cells[i]`. -/
structure Plain where
  start : Nat
  cells : List Cell
deriving DecidableEq, Repr

def Plain.last (p : Plain) : Nat := p.start + p.cells.length

def Plain.at (p : Plain) (i : Nat) : Option Cell :=
  if p.start < i then p.cells[i - p.start - 1]? else none

/-- Replace everything after index `keep` by `es`. What is at or below `base`, already
compacted, stays. -/
def Plain.overwrite (p : Plain) (base keep : Nat) (es : List Ent) : Plain :=
  if keep + es.length ≤ base ∧ keep < base then p
  else
    { p with cells := p.cells.take (max keep base - p.start) ++ (es.drop (base - keep)).map cell }

/-- The calls of C13, given the compaction base before the call. -/
def Plain.step (p : Plain) (base : Nat) : Op → Plain
  | .append e => { p with cells := p.cells ++ [cell e] }
  | .overwrite keep es _ _ => p.overwrite base keep es
  | .compact _ => p
  | .snapshot i _ => ⟨i, []⟩
  | .reopen => p

/-- Run the log and its plain counterpart side by side. -/
def runBoth (k : Codec) (w : Wal) (p : Plain) : List Op → Option (Wal × Plain)
  | [] => some (w, p)
  | o :: os => (WAL.step k w o).bind fun w' => runBoth k w' (p.step w.idx.base o) os

end Verif.WAL.Spec
