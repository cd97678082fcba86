import Verif.Model.RLE
/-
The plain log of terms that the compressed index stands for.
-/
namespace Verif.RLE.Spec

/-- `dropped` entries were discarded at the front, the last of them with term
`droppedTerm` (0 if none); the entries kept have indexes dropped+1, dropped+2, ... -/
structure Plain where
  dropped : Nat
  droppedTerm : Int
  terms : List Int
deriving DecidableEq, Repr

def Plain.last (p : Plain) : Nat := p.dropped + p.terms.length

/-- The term at an index that is still held. -/
def Plain.termAt (p : Plain) (idx : Nat) : Option Int :=
  if p.dropped < idx then p.terms[idx - p.dropped - 1]? else none

/-- The last term, or that of the discarded part when nothing is held. -/
def Plain.lastTerm (p : Plain) : Int := p.terms.getLast?.getD p.droppedTerm

def Plain.add (p : Plain) (t : Int) : Plain := { p with terms := p.terms ++ [t] }

/-- Forget everything after index `keep`. -/
def Plain.truncate (p : Plain) (keep : Nat) : Plain :=
  if keep < p.dropped then ⟨keep, 0, []⟩
  else { p with terms := p.terms.take (keep - p.dropped) }

/-- Discard everything before index `newBeg`; 0 wipes the log. -/
def Plain.compact (p : Plain) (newBeg : Nat) : Plain :=
  if newBeg = 0 then ⟨0, 0, []⟩
  else
    { dropped := newBeg - 1
      droppedTerm :=
        if newBeg = 1 then 0
        else if newBeg - 1 = p.dropped then p.droppedTerm else (p.termAt (newBeg - 1)).getD (-1)
      terms := p.terms.drop (newBeg - 1 - p.dropped) }

def Plain.step (p : Plain) : Op → Plain
  | .add t => p.add t
  | .truncate k => p.truncate k
  | .compact b => p.compact b

def Plain.run (p : Plain) (ops : List Op) : Plain := ops.foldl Plain.step p

/-- Length of the longest common prefix of two lists. -/
def commonPrefix : List Int → List Int → Nat
  | a :: as, b :: bs => if a = b then commonPrefix as bs + 1 else 0
  | _, _ => 0

/-- Two full logs satisfy log matching: the same term at the same position means
the same entries up to there. -/
def LogMatching (L F : List Int) : Prop :=
  ∀ (i : Nat) (t : Int), L[i]? = some t → F[i]? = some t → L.take i = F.take i

def Plain.empty : Plain := ⟨0, 0, []⟩

/-- Calls made within their documented use: terms do not decrease, the new beginning
is an index held, and truncation either removes nothing or everything held. -/
def Plain.plainUse (p : Plain) : Op → Prop
  | .add t => p.lastTerm ≤ t ∧ p.droppedTerm ≤ t
  | .truncate k => k ≤ p.dropped ∨ p.last < k
  | .compact b => b = 0 ∨ (p.dropped < b ∧ b ≤ p.last)

/-- Every call of the history is in plain use at its time. -/
def Plain.plainHistory (p : Plain) : List Op → Prop
  | [] => True
  | o :: os => p.plainUse o ∧ (p.step o).plainHistory os

/-- The term of the last of the first `m` entries, 0 if `m` is 0. -/
def termBefore (L : List Int) (m : Nat) : Int := (L.take m).getLast?.getD 0

/-- `s` was made by calls that leave the plain log `L` with its first `m` entries
discarded, and remembers the right term for the discarded part. -/
def StandsFor (s : T) (L : List Int) (m : Nat) : Prop :=
  m ≤ L.length ∧ s.compactTerm = termBefore L m ∧
  ∃ ops dt, run new ops = some s ∧ Plain.empty.run ops = ⟨m, dt, L.drop m⟩

end Verif.RLE.Spec
