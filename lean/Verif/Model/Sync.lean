import Verif.Model.CDC
import Verif.Model.Numeric

/-!
# Bringing a file up to date (jsync)

The plan that says which chunks the other side lacks, the packing of chunks into
messages, and the two ways a plan is carried out: in memory
(`UpdateLocalWithRemoteDiffs`) and as the messages arrive (the taker's loop).

A panic is `none`; so is a loop that never ends. Hash functions are parameters:
`hash` for chunks and `fhash` for whole files. File meta data (owner, mode,
times), progress reports and the network are left out: messages arrive in the
order sent (C53, C59 treat the transport).
-/

namespace Verif.Sync

open Verif.CDC

variable {δ : Type} [DecidableEq δ]

/-- `Chunks` (jsync/rsync.go:69-93) without the path: the chunk list of a file, or
a plan. `unwritBeg` and `unwritEndx` are `PreAllocUnwritBeg` and
`PreAllocUnwritEndx`; the two other preallocation fields have no reader in what is
modelled. -/
structure Chunks (δ : Type) where
  chunks : List (Chunk δ) := []
  fileSize : Nat := 0
  fileCry : δ
  unwritBeg : Nat := 0
  unwritEndx : Nat := 0

/-- `n` zero bytes. -/
def zeros (n : Nat) : Bytes := List.replicate n 0

/-! ## The plan -/

/-- `getCryMap` (jsync/rsync.go:730-738): the last chunk with a given `Cry` is the
one kept. -/
def cryMap (cs : List (Chunk δ)) (k : Cry δ) : Option (Chunk δ) :=
  cs.foldl (fun m c => if c.cry = k then some c else m) none

/-- Membership in `updatememap` (jsync/rsync.go:550-562). -/
def hasCry (updateme : List (Chunk δ)) (k : Cry δ) : Bool :=
  updateme.any (fun c => decide (c.cry ≠ .rle0 ∧ c.cry = k))

/-- `markToSendHeavyFromFile` (jsync/rsync.go:514). -/
def mark : Bytes := [72]

/-- The body of the loop of `GetPlanToUpdateFromGoal` with place holders
(jsync/rsync.go:567-588). -/
def holdChunk (updateme : List (Chunk δ)) (c : Chunk δ) : Chunk δ :=
  match c.cry with
  | .rle0 => c
  | .unwrit => c
  | .digest d => if hasCry updateme (.digest d) then c else { c with data := mark }

/-- `GetPlanToUpdateFromGoal` with `usePlaceHolders` (jsync/rsync.go:565-591). -/
def planHold (updateme : List (Chunk δ)) (goal : Chunks δ) : Option (Chunks δ) :=
  if goal.chunks.all (fun c => c.data.isEmpty) then
    some { goal with chunks := goal.chunks.map (holdChunk updateme) }
  else none

/-- The body of the loop of `GetPlanToUpdateFromGoal` without place holders
(jsync/rsync.go:606-637). `blobs` is the blob store's map. Dropping the data from
the goal (`dropGoalData`) changes the goal, not the plan, and is left out. -/
def dataChunk (blobs : Cry δ → Option (Chunk δ)) (updateme : List (Chunk δ)) (c : Chunk δ) :
    Option (Chunk δ) :=
  let ok := match c.cry with
    | .rle0 => true
    | .unwrit => true
    | .digest d => hasCry updateme (.digest d)
  if ok then some { c with data := [] }
  else if c.data.isEmpty then
    match blobs c.cry with
    | some b => if b.data.isEmpty then none else some { c with data := b.data }
    | none => none
  else some c

/-- `GetPlanToUpdateFromGoal` without place holders (jsync/rsync.go:593-640). -/
def planData (blobs : Cry δ → Option (Chunk δ)) (updateme : List (Chunk δ)) (goal : Chunks δ) :
    Option (Chunks δ) :=
  (goal.chunks.mapM (dataChunk blobs updateme)).map fun cs => { goal with chunks := cs }

/-- `Diff` (jsync/rsync.go:1178-1197), keys only: what is left of `onlyA`, then
`onlyB` and `both`, each with the keys in the order they were first put in. -/
def diffLoop : (onlyA onlyB both : List (Cry δ)) → List (Chunk δ) →
    List (Cry δ) × List (Cry δ) × List (Cry δ)
  | onlyA, onlyB, both, [] => (onlyA, onlyB, both)
  | onlyA, onlyB, both, c :: cs =>
    if c.cry ∈ onlyA then diffLoop (onlyA.filter (· ≠ c.cry)) onlyB (both.insert c.cry) cs
    else diffLoop onlyA (onlyB.insert c.cry) both cs

/-- `Diff` (jsync/rsync.go:1178-1197). -/
def diff (a b : List (Chunk δ)) : List (Cry δ) × List (Cry δ) × List (Cry δ) :=
  diffLoop ((a.map Chunk.cry).foldl (fun s k => s.insert k) []) [] [] b

/-! ## Packing -/

/-- The bytes `[beg:endx)` of a file, as `Seek` and `io.ReadFull` return them: a
read that would pass the end is an error, and the caller panics. -/
def readRange (file : Bytes) (beg endx : Nat) : Option Bytes :=
  if beg ≤ endx ∧ endx ≤ file.length then some ((file.take endx).drop beg) else none

/-- `CloneNoData` and the reading of the contents of a marked chunk
(jsync/giver.go:816-837 and 849-868), with `sendDataWithoutOneByteMarkers` false, as
in the only call (giver.go:555-567). -/
def fillChunk (file : Bytes) (c : Chunk δ) : Option (Chunk δ) :=
  if c.data.isEmpty then some { c with data := [] }
  else if c.cry = .rle0 then none
  else (readRange file c.beg c.endx).map fun b => { c with data := b }

/-- The inner loop of `packAndSendChunksJustInTime` (jsync/giver.go:840-892): how
many of the chunks go into the next message, and what is left. `msize` is
`Msgsize`, `max` is `UserMaxPayload - 10_000`. A chunk that does not fit is read
again for the next message. -/
def packOne (msize : Chunk δ → Nat) (max : Nat) (file : Bytes) :
    (used : Nat) → List (Chunk δ) → Option (List (Chunk δ) × List (Chunk δ))
  | _, [] => some ([], [])
  | used, c :: cs =>
    match fillChunk file c with
    | none => none
    | some f =>
      if used + msize f < max then
        (packOne msize max file (used + msize f) cs).map fun p => (f :: p.1, p.2)
      else some ([], c :: cs)

/-- `packAndSendChunksJustInTime` (jsync/giver.go:754-916): the contents of the
messages sent; the last one is marked as such. A chunk that fits in no message is
retried for ever. -/
def packAll (msize : Chunk δ → Nat) (max : Nat) (file : Bytes) (cs : List (Chunk δ)) :
    Option (List (List (Chunk δ))) :=
  if cs.length = 0 then some []
  else
    match packOne msize max file 0 cs with
    | none => none
    | some (p, rest) =>
      if _h : rest.length < cs.length then (packAll msize max file rest).map (p :: ·)
      else none
termination_by cs.length

/-! ## Carrying out a plan in memory -/

/-- What `UpdateLocalWithRemoteDiffs` has done so far: `out` is `newvers[:j]`,
`hashed` what went into the file hash, `sparse` the holes to make. -/
structure MemState where
  out : Bytes := []
  hashed : Bytes := []
  sparse : List Numeric.SparseSpan := []

/-- `copy(newvers[j:], src)` with `len(newvers) = size` (jsync/rsync.go:193, 206). -/
def MemState.copy (s : MemState) (size : Nat) (src : Bytes) : MemState :=
  { s with out := s.out ++ src.take (size - s.out.length), hashed := s.hashed ++ src }

/-- One chunk in `UpdateLocalWithRemoteDiffs` (jsync/rsync.go:203-289). The zeros of
a run are copied 4096 at a time; here at once. Preallocation (`Fallocate` with
`KEEP_SIZE`) does not change the contents. -/
def memChunk (size : Nat) (localMap : Cry δ → Option (Chunk δ)) (isLast : Bool) (s : MemState)
    (c : Chunk δ) : Option MemState :=
  match c.cry with
  | .rle0 =>
    match Numeric.alignedSparseSpan c.beg c.endx with
    | none => none
    | some (span, _) =>
      some { s.copy size (zeros (c.endx - c.beg)) with sparse := s.sparse ++ span.toList }
  | .unwrit => if isLast then some s else none
  | .digest d =>
    if c.data.isEmpty then
      match localMap (.digest d) with
      | none => none
      | some lc =>
        if lc.data.length ≤ size - s.out.length ∧ lc.data.length = lc.endx - lc.beg then
          some (s.copy size lc.data)
        else none
    else if c.data.length ≤ size - s.out.length ∧ c.data.length = c.endx - c.beg then
      some (s.copy size c.data)
    else none

/-- The loop over the chunks (jsync/rsync.go:199-290). -/
def memLoop (size : Nat) (localMap : Cry δ → Option (Chunk δ)) :
    MemState → List (Chunk δ) → Option MemState
  | s, [] => some s
  | s, c :: cs =>
    match memChunk size localMap cs.isEmpty s c with
    | none => none
    | some s' => memLoop size localMap s' cs

/-- `write(2)` at a file position; writing past the end fills the gap with zeros. -/
def writeAt (f : Bytes) (pos : Nat) (b : Bytes) : Bytes :=
  if b.isEmpty then f
  else (f ++ zeros (pos - f.length)).take pos ++ b ++ f.drop (pos + b.length)

/-- The writing of the new version around the holes (jsync/rsync.go:316-334). The
first argument is the file, the next two the file position and `offset`; they
are equal whenever something is written. -/
def writeSparse (newvers : Bytes) : (f : Bytes) → (pos offset : Nat) →
    List Numeric.SparseSpan → Bytes
  | f, pos, offset, [] => if offset < newvers.length then writeAt f pos (newvers.drop offset) else f
  | f, pos, offset, sp :: rest =>
    writeSparse newvers
      (if offset < sp.beg then writeAt f pos ((newvers.take sp.beg).drop offset) else f)
      sp.endx sp.endx rest

/-- `UpdateLocalWithRemoteDiffs` (jsync/rsync.go:143-347): the bytes of the file
that replaces the old one. -/
def updateLocal (fhash : Bytes → δ) (localMap : Cry δ → Option (Chunk δ)) (remote : Chunks δ) :
    Option Bytes :=
  if remote.fileSize = 0 then some []
  else
    match remote.chunks.getLast? with
    | none => none
    | some l =>
      if remote.fileSize > l.endx then none
      else
        match memLoop remote.fileSize localMap {} remote.chunks with
        | none => none
        | some s =>
          if fhash s.hashed ≠ remote.fileCry then none
          else
            let newvers := s.out ++ zeros (remote.fileSize - s.out.length)
            if s.sparse.isEmpty then some newvers
            else some (writeSparse newvers (zeros remote.fileSize) 0 0 s.sparse)

/-! ## Carrying out a plan as it arrives -/

/-- What the taker has done so far: the new file, the file position, what went
into the file hash, and `newversFdUnwritPreallocDone`. -/
structure TakerState where
  file : Bytes := []
  pos : Nat := 0
  hashed : Bytes := []
  prealloc : Bool := false

/-- The start of the new file (jsync/taker.go:409-475): its size is set at once,
except when part of it is to be preallocated. -/
def takerStart (giverFileSize unwritEndx : Nat) : TakerState :=
  if unwritEndx = 0 then { file := zeros giverFileSize }
  else { prealloc := true }

/-- `newversFd.Write(data)` and `h.Write(data)`. -/
def TakerState.write (s : TakerState) (b : Bytes) : TakerState :=
  { s with file := writeAt s.file s.pos b, pos := s.pos + b.length, hashed := s.hashed ++ b }

/-- `Write(zeros4k[:n])` (jsync/taker.go:497, 535): a slice of a 4096-byte array. -/
def TakerState.wing (s : TakerState) : Option Numeric.SparseSpan → Option TakerState
  | none => some s
  | some w => if w.endx - w.beg ≤ 4096 then some (s.write (zeros (w.endx - w.beg))) else none

/-- `Fallocate(fd, FALLOC_FL_PUNCH_HOLE, pos, n)`: the range reads as zeros, the size
is kept. -/
def punch (f : Bytes) (pos n : Nat) : Bytes :=
  f.take pos ++ zeros ((f.drop pos).take n).length ++ f.drop (pos + n)

/-- The hole of a run of zeros (jsync/taker.go:502-532). -/
def TakerState.hole (s : TakerState) : Option Numeric.SparseSpan → Option TakerState
  | none => some s
  | some sp =>
    if (sp.endx - sp.beg) % 4096 ≠ 0 then none
    else
      some { s with
        file := punch s.file s.pos (sp.endx - sp.beg)
        pos := sp.endx
        hashed := s.hashed ++ zeros (sp.endx - sp.beg) }

/-- One chunk in the taker's loop (jsync/taker.go:480-627). `orig` is the file as it
is before the update (`nil` when there is none), `bufLen` the length of `buf`
(taker.go:123). -/
def takerChunk (orig : Option Bytes) (bufLen : Nat) (localMap : Cry δ → Option (Chunk δ))
    (s : TakerState) (c : Chunk δ) : Option TakerState :=
  if c.data.isEmpty then
    match c.cry with
    | .rle0 =>
      match Numeric.alignedSparseSpan c.beg c.endx with
      | none => none
      | some (span, wings) =>
        ((s.wing (wings.bind (·.pre))).bind (·.hole span)).bind (·.wing (wings.bind (·.post)))
    | .unwrit => if s.prealloc then some s else none
    | .digest d =>
      match localMap (.digest d) with
      | none => none
      | some lc =>
        let data := match orig with
          | none => some lc.data
          | some f => if lc.endx - lc.beg ≤ bufLen then readRange f lc.beg lc.endx else none
        match data with
        | none => none
        | some b => if b.length = lc.endx - lc.beg then some (s.write b) else none
  else if c.data.length = c.endx - c.beg then some (s.write c.data)
  else none

/-- The loop over the chunks of the messages. -/
def takerLoop (orig : Option Bytes) (bufLen : Nat) (localMap : Cry δ → Option (Chunk δ)) :
    TakerState → List (Chunk δ) → Option TakerState
  | s, [] => some s
  | s, c :: cs =>
    match takerChunk orig bufLen localMap s c with
    | none => none
    | some s' => takerLoop orig bufLen localMap s' cs

/-- The taker (jsync/taker.go:396-665), given the messages of one file: the bytes of
the file that replaces the old one. The light plan, with the hash of the whole
file, has arrived before. Without any message the taker waits for ever. -/
def taker (fhash : Bytes → δ) (orig : Option Bytes) (bufLen : Nat)
    (localMap : Cry δ → Option (Chunk δ)) (giverFileSize : Nat) (plan : Chunks δ)
    (packs : List (List (Chunk δ))) : Option Bytes :=
  if packs.isEmpty then none
  else
    match takerLoop orig bufLen localMap (takerStart giverFileSize plan.unwritEndx)
        packs.flatten with
    | none => none
    | some s => if fhash s.hashed ≠ plan.fileCry then none else some s.file

end Verif.Sync
