/-
Model of the run-length compressed term index, /repo/tube/rle.go.

Indexes and counts are `Nat` (the code never stores negative ones), terms are
`Int` because -1 is used as "unknown".  `none` is a Go panic.
The `syncme` out-parameter only copies (BaseC, CompactTerm) out and is left out.
-/
namespace Verif.RLE

/-- tube.go `TermRLE`: (Term, Count). -/
abbrev Run := Int × Nat

/-- tube.go `TermsRLE`: BaseC, Endi, CompactTerm, Runs. -/
structure T where
  base : Nat
  endi : Nat
  compactTerm : Int
  runs : List Run
deriving DecidableEq, Repr

/-- rle.go:92-95 `newTermsRLE`. -/
def new : T := { base := 0, endi := 0, compactTerm := 0, runs := [] }

/-- rle.go:51-61 `lastIndex`. -/
def lastIndex (s : T) : Option Nat :=
  if s.runs = [] then (if s.base ≠ s.endi then none else some s.base) else some s.endi

/-- rle.go:63-69 `lastTerm`. -/
def lastTerm (s : T) : Int :=
  match s.runs.getLast? with
  | none => s.compactTerm
  | some r => r.1

/-- Add one to the last run or append a new run, rle.go:108-128. -/
def addRun (term : Int) : List Run → Option (List Run)
  | [] => some [(term, 1)]
  | [(t, c)] =>
    if t = term then some [(t, c + 1)]
    else if term < t then none
    else some [(t, c), (term, 1)]
  | r :: r' :: rs => (addRun term (r' :: rs)).map (r :: ·)

/-- rle.go:97-129 `AddTerm`. -/
def addTerm (s : T) (term : Int) : Option T :=
  let endi := if s.endi = 0 then s.base + 1 else s.endi + 1
  if term < s.compactTerm then none
  else (addRun term s.runs).map fun r => { s with endi := endi, runs := r }

/-- The loop of `Truncate`, rle.go:158-183: the runs kept, and the term of the last
of them. -/
def cutRuns (keep base : Nat) : List Run → Option (List Run × Int)
  | [] => none
  | (t, c) :: rs =>
    if keep = base + c then some ([(t, c)], t)
    else if keep < base + c then some ([(t, c - (base + c - keep))], t)
    else (cutRuns keep (base + c) rs).map fun p => ((t, c) :: p.1, p.2)

/-- rle.go:132-187 `Truncate(keepIndex)`. Note lines 166 and 174: CompactTerm
becomes the term of the last kept run although BaseC stays. -/
def truncate (s : T) (keep : Nat) : Option T :=
  if keep ≤ s.base then
    some { base := keep, endi := keep, runs := [],
           compactTerm := if keep < s.base then 0 else s.compactTerm }
  else if s.endi < keep then some s
  else (cutRuns keep s.base s.runs).map fun p =>
    { s with endi := keep, runs := p.1, compactTerm := p.2 }

/-- rle.go:1057-1065, the loop of `getTermForIndex`. -/
def lookup (idx base : Nat) : List Run → Option Int
  | [] => none
  | (t, c) :: rs => if idx ≤ base + c then some t else lookup idx (base + c) rs

/-- rle.go:1047-1067 `getTermForIndex`; -1 means "don't have it". -/
def getTermForIndex (s : T) (idx : Nat) : Option Int :=
  if 0 < idx ∧ idx = s.base then some s.compactTerm
  else if idx < s.base ∨ s.endi < idx then some (-1)
  else lookup idx s.base s.runs

/-- rle.go:281-311, the last loop of `CompactNewBeg`. -/
def dropRuns (newBeg base : Nat) : List Run → Option (List Run)
  | [] => none
  | (t, c) :: rs =>
    if newBeg = base + 1 then some ((t, c) :: rs)
    else if base < newBeg ∧ newBeg ≤ base + c then some ((t, base + c - newBeg + 1) :: rs)
    else dropRuns newBeg (base + c) rs

/-- rle.go:192-313 `CompactNewBeg(newBeg)`. -/
def compactNewBeg (s : T) (newBeg : Nat) : Option T :=
  if newBeg = 0 then some { base := 0, endi := 0, compactTerm := 0, runs := [] }
  else
    match (if newBeg = 1 then some 0 else getTermForIndex s (newBeg - 1)) with
    | none => none
    | some ct =>
      if newBeg ≤ s.base then none
      else if s.endi = 0 then none
      else if newBeg = s.endi then
        match s.runs.getLast? with
        | none => none
        | some r => some { s with base := newBeg - 1, compactTerm := ct, runs := [(r.1, 1)] }
      else if s.endi < newBeg then none
      else
        match s.runs with
        | [] => none
        | [r] =>
          some { s with base := newBeg - 1, compactTerm := ct, runs := [(r.1, s.endi - newBeg + 1)] }
        | rs =>
          (dropRuns newBeg s.base rs).map fun r =>
            { s with base := newBeg - 1, compactTerm := ct, runs := r }

/-- Consecutive indexes from `idx`, all with term `t`. -/
def expand (t : Int) : Nat → Nat → List (Int × Nat)
  | _, 0 => []
  | idx, n + 1 => (t, idx) :: expand t (idx + 1) n

/-- rle.go:1029-1036: the runs after the first one found. -/
def expandAll (idx : Nat) : List Run → List (Int × Nat)
  | [] => []
  | (t, c) :: rs => expand t idx c ++ expandAll (idx + c) rs

/-- rle.go:1013-1037: skip runs that end before `idx`; `nextIdx` numbers the yields. -/
def yieldFrom (idx nextIdx base : Nat) : List Run → List (Int × Nat)
  | [] => []
  | (t, c) :: rs =>
    if base + c < idx then yieldFrom idx nextIdx (base + c) rs
    else expand t nextIdx (base + c - idx + 1) ++ expandAll (nextIdx + (base + c - idx + 1)) rs

/-- rle.go:998-1039 `getTermIndexStartingAt(idx)`: the list of (term, index) pairs
it yields. (When idx = BaseC the yields after the first are numbered one too low:
`nextIdx` is not advanced at line 1008. `Extends` never starts there.) -/
def termsFrom (s : T) (idx : Nat) : Option (List (Int × Nat)) :=
  if idx < s.base ∨ s.endi < idx then none
  else if idx = s.base then
    some ((s.compactTerm, s.base) :: yieldFrom (idx + 1) idx s.base s.runs)
  else some (yieldFrom idx idx s.base s.runs)

/-- rle.go:729-744 (and 842-857): walk both logs in step. `mEnd`, `fEnd` are the
last indexes of leader and follower. -/
def walk (mEnd fEnd : Nat) : List (Int × Nat) → Int → Nat → List (Int × Nat) → Bool × Nat
  | [], _, _, _ => (decide (fEnd ≤ mEnd), min fEnd mEnd)
  | (tF, iF) :: F, tL, iL, L =>
    if tF ≠ tL then (false, iF - 1)
    else
      match L with
      | [] => (decide (fEnd ≤ mEnd), iL)
      | (t', i') :: L' => walk mEnd fEnd F t' i' L'

/-- rle.go:641-642 and 723-744: compare from the first index both still hold. -/
def overlap (l f : T) : Option (Bool × Nat) :=
  match termsFrom l (max f.base l.base + 1) with
  | none => none
  | some [] => none
  | some ((tL, iL) :: L) =>
    match termsFrom f (max f.base l.base + 1) with
    | none => none
    | some F => some (walk l.endi f.endi F tL iL L)

/-- rle.go:748-858 `extends_aware_but_no_compaction_here` (both BaseC = 0, both
logs non-empty at its only call). -/
def extendsNoCompaction (l f : T) : Option (Bool × Nat) :=
  if l.base ≠ 0 ∨ f.base ≠ 0 then none
  else if l.runs = [] then (if f.runs = [] then some (true, 0) else some (false, 0))
  else if f.runs = [] then some (true, 0)
  else if f.endi ≤ l.base then some (true, f.endi)
  else if l.endi ≤ f.base then some (false, l.endi)
  else overlap l f

/-- rle.go:443-745 `leaderLog.Extends(followerLog)` for non-nil logs: (extends,
largestCommonRaftIndex, needLeaderSnapshot). -/
def Extends (l f : T) : Option (Bool × Nat × Bool) :=
  if f.base = 0 ∧ f.runs = [] then some (true, 0, false)
  else if l.runs = [] then
    if l.base = 0 then some (false, 0, false)
    else if f.base = l.base then
      (if f.runs = [] then some (true, l.base, false) else some (false, l.base, false))
    else if l.base < f.base then some (false, l.base, false)
    else some (false, f.base, true)
  else if l.base = 0 ∧ f.base = 0 then
    (extendsNoCompaction l f).map fun p => (p.1, p.2, false)
  else if f.endi ≤ l.base then
    if f.base < f.endi then
      if f.runs = [] then none
      else if f.endi = l.base ∧ lastTerm f = l.compactTerm then some (true, f.endi, false)
      else some (false, f.base, true)
    else if f.base < l.base then some (false, f.base, true)
    else if f.base ≠ l.base then none
    else if f.compactTerm = l.compactTerm then some (true, f.base, false)
    else some (false, f.base, false)
  else if f.runs = [] then some (true, f.base, false)
  else if l.endi ≤ f.base then some (false, l.endi, false)
  else (overlap l f).map fun p => (p.1, p.2, false)

/-- Operations on the index, for stating properties of histories. -/
inductive Op where
  | add (t : Int)
  | truncate (keep : Nat)
  | compact (newBeg : Nat)
deriving DecidableEq, Repr

def step (s : T) : Op → Option T
  | .add t => addTerm s t
  | .truncate k => truncate s k
  | .compact b => compactNewBeg s b

/-- Run a history; `none` as soon as one call panics. -/
def run (s : T) : List Op → Option T
  | [] => some s
  | o :: os => (step s o).bind fun s' => run s' os

end Verif.RLE
