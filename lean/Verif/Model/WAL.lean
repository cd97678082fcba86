import Verif.Model.MsgBin
import Verif.Model.RLE
/-
Model of Raft's write-ahead log on disk, /repo/tube/wal.go and /repo/tube/par.go.

Indexes are `Nat`, terms `Int`. The log file is a byte list; the parlog file is a list of its 400
byte records, of which only RLEblake3 (the hash of the entry's bytes) decides anything:
`validateParLog` panics whenever that hash differs. `none` is a panic. msgpack marshalling
of entries and of the checksum record and the Blake3 hash are parameters.

Not modelled: file system errors, read-only opening, `onOverwriteNotifyMe`, the assertions
`assertConsistentWalAndIndex` / `assertCompactOK` (C13 shows that the first holds).
-/
namespace Verif.WAL

open MsgBin (Bytes frame nextframe)

/-- tube.go `RaftLogEntry`: Index, Term, PrevIndex, PrevTerm, and everything else as `body`. -/
structure Ent where
  index : Nat
  term : Int
  prevIndex : Nat
  prevTerm : Int
  body : Bytes
deriving DecidableEq, Repr

/-- An entry in memory together with `msgbytes`, the bytes it has on disk. -/
structure Rec where
  ent : Ent
  bytes : Bytes
deriving DecidableEq, Repr

/-- The parameters: RaftLogEntry.MarshalMsg / UnmarshalMsg, Blake3sum's (Sum33B, Sum33Bchain), and
the hash. -/
structure Codec where
  ser : Ent → Bytes
  deser : Bytes → Option Ent
  serSum : Bytes × Bytes → Bytes
  deserSum : Bytes → Option (Bytes × Bytes)
  H : Bytes → Bytes

/-- wal.go:17-63 `raftWriteAheadLog`: the fields used. `seek` is begseekpos, `par` the hashes in
the parlog file. -/
structure Wal where
  log : List Rec
  lli : Nat
  llt : Int
  seek : List Nat
  file : Bytes
  par : List Bytes
  idx : RLE.T
  prevApplied : Nat
  noCompact : Bool
  threshold : Nat
deriving DecidableEq, Repr

/-- wal.go:250-272: the struct made for an empty log file. -/
def new (noCompact : Bool) (threshold : Nat) : Wal :=
  { log := [], lli := 0, llt := 0, seek := [], file := [], par := [], idx := RLE.new,
    prevApplied := 0, noCompact := noCompact, threshold := threshold }

/-- wal.go:966-969 `yggdrasill`. -/
def yggdrasill : Bytes := [121, 103, 103, 100, 114, 97, 115, 105, 108, 108]

/-- wal.go:971-981 `lastEntryBytes`, given the entries before. -/
def lastEntryBytes (log : List Rec) : Bytes :=
  if log.length = 0 then []
  else if log.length = 1 then yggdrasill
  else match log.getLast? with
    | none => []
    | some r => r.bytes

section
variable (k : Codec)

/-- wal.go:646-680 `saveBlake3sumFor`: the two hashes. -/
def sums (by_ prev : Bytes) : Bytes × Bytes := (k.H by_, k.H (by_ ++ prev))

/-- The bytes written for one entry, wal.go:462-479. -/
def recordBytes (by_ prev : Bytes) : Bytes := frame by_ ++ frame (k.serSum (sums k by_ prev))

/-- wal.go:419-492 `saveRaftLogEntryDoFsync` with the file position at the end of the file.
An entry of 4 GB or more (whose frame length would be cut) is taken as a failure. -/
def saveEntry (w : Wal) (e : Ent) : Option Wal :=
  if w.lli + 1 ≠ e.index then none
  else if RLE.lastTerm w.idx ≠ w.llt then none
  else if RLE.lastIndex w.idx ≠ some w.lli then none
  else
    match RLE.addTerm w.idx e.term with
    | none => none
    | some idx =>
      let e' := { e with prevTerm := w.llt, prevIndex := w.lli }
      let b := k.ser e'
      if 2 ^ 32 ≤ b.length then none
      else
        some { w with
          idx := idx
          seek := w.seek ++ [w.file.length]
          file := w.file ++ recordBytes k b (lastEntryBytes w.log)
          log := w.log ++ [⟨e', b⟩]
          lli := w.lli + 1
          llt := e.term
          par := w.par ++ [k.H b] }

/-- The loop over `es` in wal.go:864-873. -/
def saveAll (w : Wal) : List Ent → Option Wal
  | [] => some w
  | e :: es => (saveEntry k w e).bind fun w' => saveAll w' es

/-- One round of the loop of wal.go:296-360 `loadPathHelper` after the frame of the entry was
read: loadRaftLogEntry 494-556 with validateParLog 566-593, then the linking checks. `r1` is the
rest of the file after the entry's frame. Gives the new state and the rest after both frames. -/
def loadOne (w : Wal) (by_ r1 : Bytes) : Option (Wal × Bytes) :=
  match k.deser by_ with
  | none => none
  | some e =>
    match nextframe r1 with
    | .ok s r2 =>
      match k.deserSum s with
      | none => none
      | some (h, c) =>
        if h ≠ k.H by_ then none
        else if c ≠ k.H (by_ ++ lastEntryBytes w.log) then none
        else if w.par[w.log.length]? ≠ some (k.H by_) then none
        else
          let linked : Option (RLE.T × Nat) :=
            match w.log.getLast? with
            | none =>
              if e.prevIndex + 1 ≠ e.index then none
              else some ({ w.idx with base := e.prevIndex, compactTerm := e.prevTerm }, e.prevIndex)
            | some p =>
              if p.ent.index ≠ e.prevIndex then none
              else if p.ent.term ≠ e.prevTerm then none
              else some (w.idx, w.lli)
          match linked with
          | none => none
          | some (idx, lli) =>
            match RLE.addTerm idx e.term with
            | none => none
            | some idx' =>
              some ({ w with
                log := w.log ++ [⟨e, by_⟩], lli := lli + 1, llt := e.term, idx := idx' }, r2)
    | _ => none

/-- wal.go:296-360 `loadPathHelper`, on `rest`, the part of `w.file` not read yet. The current position
is noted in begseekpos before the end of the file is noticed (line 302). `fuel` bounds the
recursion; the callers give more than the number of records. -/
def loadLoop : (fuel : Nat) → Wal → (rest : Bytes) → Option Wal
  | 0, _, _ => none
  | fuel + 1, w, rest =>
    let w := { w with seek := w.seek ++ [w.file.length - rest.length] }
    match nextframe rest with
    | .eof => some w
    | .bad => none
    | .ok by_ r1 =>
      match loadOne k w by_ r1 with
      | none => none
      | some (w', r2) => loadLoop fuel w' r2

/-- wal.go:169-279 `newRaftWriteAheadLog` on existing files. -/
def openWal (noCompact : Bool) (threshold : Nat) (file : Bytes) (par : List Bytes) : Option Wal :=
  let w := { new noCompact threshold with file := file, par := par }
  if file = [] then some w else loadLoop k (file.length + 1) w file

/-- Close and open again. -/
def reopen (w : Wal) : Option Wal := openWal k w.noCompact w.threshold w.file w.par

/-- wal.go:1153-1366 `Compact(keepIndex)`: build a new pair of files from the entries in memory,
rename them over the old ones and load. `TermsRLE.Equal` compares Endi, BaseC and the runs. -/
def compact (w : Wal) (keepIndex : Nat) : Option Wal :=
  if w.noCompact then none
  else
    match w.log.head?, w.log.getLast? with
    | some first, some last =>
      if keepIndex = 0 then some w
      else if last.ent.index < keepIndex then none
      else if keepIndex ≤ w.idx.base ∨ keepIndex ≤ first.ent.index then some w
      else
        match RLE.compactNewBeg w.idx keepIndex with
        | none => none
        | some idx1 =>
          let s2 : Wal := { new w.noCompact w.threshold with
            lli := idx1.base, llt := idx1.compactTerm
            idx := { base := idx1.base, endi := idx1.base, compactTerm := idx1.compactTerm, runs := [] } }
          match saveAll k s2 ((w.log.drop (keepIndex - first.ent.index)).map (·.ent)) with
          | none => none
          | some s2 =>
            if idx1.endi ≠ s2.idx.endi ∨ idx1.base ≠ s2.idx.base ∨ idx1.runs ≠ s2.idx.runs then none
            else
              loadLoop k (s2.file.length + 1)
                { w with
                  log := [], seek := [], file := s2.file, par := s2.par
                  idx := { RLE.new with base := idx1.base, compactTerm := idx1.compactTerm } }
                s2.file
    | _, _ => some w

/-- wal.go:929-960 `maybeCompact`, behind the size test of wal.go:885-899. -/
def maybeCompact (w : Wal) (lastApplied : Nat) : Option Wal :=
  if w.noCompact = false ∧ w.threshold < w.file.length ∧ w.prevApplied < lastApplied then
    compact k { w with prevApplied := lastApplied } lastApplied
  else some w

/-- The checks of wal.go:831-841 for one killed entry, made only without log compaction: an index
past `replacements`, an equal entry (tube.go:10938: same Term and Index), or a committed one
panics. -/
def killedOK (commit : Option Nat) (replacements : List Ent) (i : Nat) (killed : Rec) : Bool :=
  match replacements[i]? with
  | none => false
  | some r =>
    !(r.term == killed.ent.term && r.index == killed.ent.index) &&
    !(match commit with
      | none => false
      | some c => decide (killed.ent.index ≤ c))

/-- The first `n` bytes, zero-filled if the file is shorter (seeking past the end and
writing there). -/
def padTake (n : Nat) (f : Bytes) : Bytes := f.take n ++ List.replicate (n - f.length) 0

/-- wal.go:811-860: drop the entries after the first `keepCount`, of which there is at least one.
The bytes after the new position are either all overwritten or cut off at the end of
overwriteEntries (lines 876-882), so they are dropped here at once. -/
def cutTail (w : Wal) (keepIndex keepCount : Nat) (es : List Ent) (commit : Option Nat) : Option Wal :=
  match w.seek[keepCount]? with
  | none => none
  | some beg =>
    if es = [] then none      -- es[:-1]
    else
      let killed := w.log.drop keepCount
      let replacements := es.take (min killed.length (es.length - 1))
      if w.noCompact = true ∧
          (killed.zipIdx.all fun p => killedOK commit replacements p.2 p.1) = false then none
      else if w.par.length < keepCount then none
      else
        match RLE.truncate w.idx keepIndex with
        | none => none
        | some idx =>
          let log := w.log.take keepCount
          some { w with
            seek := w.seek.take keepCount
            log := log
            par := w.par.take keepCount
            idx := idx
            lli := keepIndex
            llt := match log.getLast? with | none => 0 | some r => r.ent.term
            file := padTake beg w.file }

/-- wal.go:729-737 earliestMustKeepBarrier: the index before the first entry. -/
def barrier (w : Wal) : Nat :=
  match w.log.head? with
  | none => w.lli
  | some r => r.ent.index - 1

/-- wal.go:770-860: remove the entries after `keepIndex`, if any. -/
def cutAfter (w : Wal) (keepIndex : Nat) (es : List Ent) (commit : Option Nat) : Option Wal :=
  match w.log.head?, w.log.getLast? with
  | some first, some last =>
    if last.ent.index ≤ keepIndex then some w
    else if keepIndex < first.ent.index then cutTail w (first.ent.index - 1) 0 es commit
    else cutTail w keepIndex (keepIndex - first.ent.index + 1) es commit
  | _, _ => some w

/-- wal.go:704-901 `overwriteEntries(keepIndex, es)` on a follower. `commit` = none is
curCommitIndex -1. -/
def overwrite (w : Wal) (keepIndex : Nat) (es : List Ent) (commit : Option Nat) (lastApplied : Nat) :
    Option Wal :=
  if keepIndex < barrier w ∧ keepIndex + es.length ≤ barrier w then some w
  else
    ((cutAfter w (max keepIndex (barrier w)) (es.drop (barrier w - keepIndex)) commit).bind fun w' =>
      saveAll k w' (es.drop (barrier w - keepIndex))).bind fun w' => maybeCompact k w' lastApplied

/-- wal.go:1393-1424 `installedSnapshot`. begseekpos is not cleared. -/
def installedSnapshot (w : Wal) (index : Nat) (term : Int) : Wal :=
  { w with
    lli := index, llt := term, log := []
    idx := { base := index, endi := index, compactTerm := term, runs := [] }
    file := [], par := [] }

/-- wal.go:1089-1107 `GetEntry`; `none` is an error. -/
def getEntry (w : Wal) (i : Nat) : Option Ent :=
  match w.log.head? with
  | none => none
  | some first => if i < first.ent.index then none else (w.log[i - first.ent.index]?).map (·.ent)

/-- wal.go:1059-1087 `GetAllEntriesFrom`: the entries, and preBase. -/
def getAllEntriesFrom (w : Wal) (i : Nat) : Option (List Ent × Bool) :=
  if i < 1 then none
  else match w.log.head? with
    | none => some ([], false)
    | some first =>
      if i < first.ent.index then some ([], true)
      else some ((w.log.drop (i - first.ent.index)).map (·.ent), false)

/-- The calls that change the log. -/
inductive Op where
  | append (e : Ent)
  | overwrite (keep : Nat) (es : List Ent) (commit : Option Nat) (applied : Nat)
  | compact (keep : Nat)
  | snapshot (index : Nat) (term : Int)
  | reopen
deriving DecidableEq, Repr

def step (w : Wal) : Op → Option Wal
  | .append e => saveEntry k w e
  | .overwrite keep es commit applied => overwrite k w keep es commit applied
  | .compact keep => compact k w keep
  | .snapshot i t => some (installedSnapshot w i t)
  | .reopen => reopen k w

def run (w : Wal) : List Op → Option Wal
  | [] => some w
  | o :: os => (step k w o).bind fun w' => run w' os

end
end Verif.WAL
