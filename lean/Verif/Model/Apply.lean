/-
Model of applying committed entries, /repo/tube/tube.go:10249-10577 `commitWhatWeCan`, and of
what else moves the quantities it reads: appending, overwriting a log suffix, raising the
commit index, compaction, and a crash with restart. What an operation does to the store is
left out; applying an entry is recorded in `done`.
-/
namespace Verif.Apply

/-- tube.go `RaftLogEntry`: Term, Ticket.LogIndex, the operation, and the unexported in-memory
flag `committed`. -/
structure Ent where
  term : Nat
  tktIndex : Nat
  op : Nat
  committed : Bool := false
deriving DecidableEq, Repr

/-- What the state file holds of this (persistor.go): indexes and the state machine. -/
structure Saved where
  commit : Nat := 0
  lastApplied : Nat := 0
  lastTerm : Nat := 0
  done : List (Nat × Nat) := []
deriving DecidableEq, Repr

/-- `base` is CompactionDiscardedLast.Index; `log` holds the entries base+1, base+2, ...;
`done` is the sequence of (index, operation) the state machine has been fed. -/
structure St where
  base : Nat := 0
  log : List Ent := []
  commit : Nat := 0
  lastApplied : Nat := 0
  lastTerm : Nat := 0
  done : List (Nat × Nat) := []
  saved : Saved := {}
deriving DecidableEq, Repr

/-- wal.go `LogicalLen`. -/
def St.len (s : St) : Nat := s.base + s.log.length

/-- wal.go `GetEntry` for a 1-based index. -/
def St.get (s : St) (i : Nat) : Option Ent := if i ≤ s.base then none else s.log[i - s.base - 1]?

/-- persistor.go `save`. -/
def St.save (s : St) : St := { s with saved := ⟨s.commit, s.lastApplied, s.lastTerm, s.done⟩ }

/-- One pass of the loop, tube.go:10300-10545, for index `i`; `none` is a panic. -/
def applyOne (s : St) (i : Nat) : Option St :=
  if s.len < i then none
  else if i ≤ s.base then some { s with lastApplied := i }
  else
    match s.get i with
    | none => none
    | some e =>
      if e.committed then some { s with lastApplied := i }
      else if e.term < s.lastTerm then none
      else if e.tktIndex ≠ i then none
      else
        some { s with
          lastApplied := i, lastTerm := e.term,
          log := s.log.set (i - s.base - 1) { e with committed := true },
          done := s.done ++ [(i, e.op)] }

/-- The loop over `k` indexes from `i`. -/
def applyFrom (s : St) (i : Nat) : Nat → Option St
  | 0 => some s
  | k + 1 => (applyOne s i).bind fun s' => applyFrom s' (i + 1) k

/-- tube.go:10249-10577 `commitWhatWeCan`. -/
def commitWhatWeCan (s : St) : Option St :=
  (applyFrom s (s.lastApplied + 1) (s.commit - s.lastApplied)).map fun s' =>
    if s.lastApplied < s'.lastApplied then s'.save else s'

inductive Op where
  /-- new entries (term, operation) at the end of the log: `replicateBatch`, or an
  AppendEntries that extends the log -/
  | append (es : List (Nat × Nat))
  /-- keep the log up to index `keep`, then these entries: wal.go `overwriteEntries` -/
  | overwrite (keep : Nat) (es : List (Nat × Nat))
  /-- the commit index is raised (leader: tube.go:10086; follower: 7985, 8540) -/
  | setCommit (c : Nat)
  | apply
  /-- wal.go `Compact`: entries up to `b` are dropped, nothing beyond LastApplied -/
  | compact (b : Nat)
  /-- a restart reads the state file and the log back; the in-memory flags are gone -/
  | crash
deriving DecidableEq, Repr

/-- Entries as they are put into the log: tickets carry their index (tube.go:6222, 6440). -/
def mkEnts (i : Nat) : List (Nat × Nat) → List Ent
  | [] => []
  | (t, op) :: es => ⟨t, i, op, false⟩ :: mkEnts (i + 1) es

/-- `none`: a panic, or an operation the code never does. -/
def step (s : St) : Op → Option St
  | .append es => some { s with log := s.log ++ mkEnts (s.len + 1) es }
  | .overwrite keep es =>
    -- wal.go:837, tube.go:8369: "don't kill a committed log entry"
    if keep < s.commit ∨ keep < s.base ∨ s.len < keep then none
    else some { s with log := s.log.take (keep - s.base) ++ mkEnts (keep + 1) es }
  | .setCommit c =>
    if s.commit ≤ c ∧ c ≤ s.len then some { s with commit := c } else none
  | .apply => commitWhatWeCan s
  | .compact b =>
    if s.base ≤ b ∧ b ≤ s.lastApplied then
      some { s with base := b, log := s.log.drop (b - s.base) }
    else none
  | .crash =>
    some { s with log := s.log.map fun e => { e with committed := false },
                  commit := s.saved.commit, lastApplied := s.saved.lastApplied,
                  lastTerm := s.saved.lastTerm, done := s.saved.done }

def run (s : St) : List Op → Option St
  | [] => some s
  | o :: os => (step s o).bind fun s' => run s' os

end Verif.Apply
