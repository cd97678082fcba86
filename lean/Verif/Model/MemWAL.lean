import Verif.Model.WAL
/-
Model of the log kept in memory only (TubeConfig.NoDisk), /repo/tube/memwal.go, and of the parts of
/repo/tube/wal.go it shares with the log on disk (Model/WAL).

Indexes are `Nat`, terms `Int`; `none` is a panic. The parlog is never read here; only the number of its records
decides anything (truncate panics when asked to keep more than there are). `onOverwriteNotifyMe` and the tests'
assertions are left out, as in Model/WAL. `clone` is for tests.
-/
namespace Verif.MemWAL

open WAL (Ent Op)

/-- wal.go:17-63 `raftWriteAheadLog`: the fields used with `nodisk`. `par` is the parlog's n. -/
structure MWal where
  log : List Ent
  lli : Nat
  llt : Int
  par : Nat
  idx : RLE.T
  prevApplied : Nat
  noCompact : Bool
deriving DecidableEq, Repr

/-- memwal.go:13-38 `newRaftWriteAheadLogMemoryOnlyTestingOnly`. -/
def new (noCompact : Bool) : MWal :=
  { log := [], lli := 0, llt := 0, par := 0, idx := RLE.new, prevApplied := 0, noCompact := noCompact }

/-- memwal.go:44-69 `saveRaftLogEntry_NODISK`. PrevIndex and PrevTerm of the entry stay as they are. -/
def saveEntry (m : MWal) (e : Ent) : Option MWal :=
  let lastIndex := match m.log.getLast? with
    | some l => l.index
    | none => m.idx.base
  if lastIndex + 1 ≠ e.index then none
  else
    match RLE.addTerm m.idx e.term with
    | none => none
    | some idx =>
      some { m with idx := idx, log := m.log ++ [e], lli := m.lli + 1, llt := e.term, par := m.par + 1 }

/-- The loop over `es`, memwal.go:176-182. -/
def saveAll (m : MWal) : List Ent → Option MWal
  | [] => some m
  | e :: es => (saveEntry m e).bind fun m' => saveAll m' es

/-- wal.go:1153-1217 `Compact` with memwal.go:260-271 `Compact_NODISK`. The parlog is left as it is. -/
def compact (m : MWal) (keepIndex : Nat) : Option MWal :=
  if m.noCompact then none
  else
    match m.log.head?, m.log.getLast? with
    | some first, some last =>
      if keepIndex = 0 then some m
      else if last.index < keepIndex then none
      else if keepIndex ≤ m.idx.base ∨ keepIndex ≤ first.index then some m
      else
        match RLE.compactNewBeg m.idx keepIndex with
        | none => none
        | some idx => some { m with idx := idx, log := m.log.drop (keepIndex - first.index) }
    | _, _ => some m

/-- memwal.go:186-196 with wal.go:929-960 `maybeCompact`: no size test. -/
def maybeCompact (m : MWal) (lastApplied : Nat) : Option MWal :=
  if m.noCompact = false ∧ m.prevApplied < lastApplied then
    compact { m with prevApplied := lastApplied } lastApplied
  else some m

/-- memwal.go:117-171: drop the entries after the first `keepCount`, of which there is at least one. Without log
compaction a committed one panics; `commit` = none is -1. -/
def cutTail (m : MWal) (keepIndex keepCount : Nat) (commit : Option Nat) : Option MWal :=
  if m.noCompact = true ∧
      ((m.log.drop keepCount).any fun e => match commit with
        | none => false
        | some c => decide (e.index ≤ c)) = true then none
  else if m.par < keepCount then none
  else
    match RLE.truncate m.idx keepIndex with
    | none => none
    | some idx =>
      let log := m.log.take keepCount
      some { m with
        log := log
        par := keepCount
        idx := idx
        lli := keepIndex
        llt := match log.getLast? with | none => 0 | some e => e.term }

/-- wal.go:729-737 earliestMustKeepBarrier. -/
def barrier (m : MWal) : Nat :=
  match m.log.head? with
  | none => m.lli
  | some e => e.index - 1

/-- wal.go:770-803 and memwal.go:117-171. -/
def cutAfter (m : MWal) (keepIndex : Nat) (commit : Option Nat) : Option MWal :=
  match m.log.head?, m.log.getLast? with
  | some first, some last =>
    if last.index ≤ keepIndex then some m
    else if keepIndex < first.index then cutTail m (first.index - 1) 0 commit
    else cutTail m keepIndex (keepIndex - first.index + 1) commit
  | _, _ => some m

/-- wal.go:704-803 `overwriteEntries` on a follower, with memwal.go:102-196 `overwriteEntries_NODISK`. -/
def overwrite (m : MWal) (keepIndex : Nat) (es : List Ent) (commit : Option Nat) (lastApplied : Nat) : Option MWal :=
  if keepIndex < barrier m ∧ keepIndex + es.length ≤ barrier m then some m
  else
    ((cutAfter m (max keepIndex (barrier m)) commit).bind fun m' =>
      saveAll m' (es.drop (barrier m - keepIndex))).bind fun m' => maybeCompact m' lastApplied

/-- wal.go:1393-1424 `installedSnapshot`. -/
def installedSnapshot (m : MWal) (index : Nat) (term : Int) : MWal :=
  { m with
    lli := index, llt := term, log := [], par := 0
    idx := { base := index, endi := index, compactTerm := term, runs := [] } }

/-- wal.go:1089-1107 `GetEntry`; `none` is an error. -/
def getEntry (m : MWal) (i : Nat) : Option Ent :=
  match m.log.head? with
  | none => none
  | some first => if i < first.index then none else m.log[i - first.index]?

/-- wal.go:1059-1087 `GetAllEntriesFrom`: the entries, and preBase. -/
def getAllEntriesFrom (m : MWal) (i : Nat) : Option (List Ent × Bool) :=
  if i < 1 then none
  else match m.log.head? with
    | none => some ([], false)
    | some first =>
      if i < first.index then some ([], true)
      else some (m.log.drop (i - first.index), false)

/-- The calls that change the log. A restarted node begins with a new log. -/
def step (m : MWal) : Op → Option MWal
  | .append e => saveEntry m e
  | .overwrite keep es commit applied => overwrite m keep es commit applied
  | .compact keep => compact m keep
  | .snapshot i t => some (installedSnapshot m i t)
  | .reopen => some (new m.noCompact)

def run (m : MWal) : List Op → Option MWal
  | [] => some m
  | o :: os => (step m o).bind fun m' => run m' os

end Verif.MemWAL
