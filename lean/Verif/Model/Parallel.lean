import Verif.Model.CDC

/-!
# Chunking a file in parallel

`ChunkFile2` (jsync/parallel.go:67-604), which is what `ChunkFile` calls: the
file is cut into segments, goroutines compute candidate cut points of each
segment on their own, one loop selects the cut points to keep, goroutines hash
the chunks of each segment, and the lists are put together.

Simplifications common to the whole file:
* offsets are `Nat` (the code has `int64`); where the code can compute a negative
  slice index the model says so;
* the file does not change while it is read, and is neither empty nor sparse nor
  preallocated: `ChunkFile2` hands those to the serial code of `Model/CDC`
  (parallel.go:91-132);
* a panic is `none`. So is a call that never returns;
* the jobs of one phase write to disjoint memory (`job`, `buf[worker]`), so the
  order in which workers take them matters only where a worker leaves for good.
-/

namespace Verif.Parallel

open CDC

/-- The sizes `ChunkFile2` works with: `mincut`, `maxcut` (parallel.go:136, 260)
and `segment` (193-208). `preRead` is twice and `postRead` once `maxcut`
(218-219). By default 4096, 16384 and 1 MB (service.go:92, parallel.go:193). -/
structure Sizes where
  min : Nat
  max : Nat
  segment : Nat

/-- One entry of the parallel slices `job.cand` and `job.rle0` (parallel.go:36-37). -/
structure Cand where
  pos : Nat
  rle0 : Bool
deriving Repr, DecidableEq

/-- The loop of `LongestZeroSpan` (bytes/zero.go:141-154) with the lines after it
(157-162); `i` is the index of the first byte of the list. -/
def longestLoop : (i curStart curLen maxStart maxLen : Nat) → Bytes → Nat × Nat
  | _, curStart, curLen, maxStart, maxLen, [] =>
    if curLen > maxLen then (curStart, curLen) else (maxStart, maxLen)
  | i, curStart, curLen, maxStart, maxLen, b :: rest =>
    if b = 0 then
      longestLoop (i + 1) (if curLen = 0 then i else curStart) (curLen + 1) maxStart maxLen rest
    else if curLen > maxLen then longestLoop (i + 1) curStart 0 curStart curLen rest
    else longestLoop (i + 1) curStart 0 maxStart maxLen rest

/-- `LongestZeroSpan` (bytes/zero.go:129-163): start and length of the first
longest run of zeros. -/
def longestZeroSpan (b : Bytes) : Nat × Nat := longestLoop 0 0 0 0 0 b

/-- The loop over `NextCut` of phase one (parallel.go:346-352). A cut of length
zero would repeat for ever, one beyond the data panics. The first argument bounds
the number of rounds; every round takes at least one byte, so the length of the
data is enough. -/
def candLoop (next : Bytes → Nat) (min : Nat) : (fuel off : Nat) → (data : Bytes) →
    Option (List Cand)
  | 0, _, data => if data.length < min then some [] else none
  | fuel + 1, off, data =>
    if data.length < min then some []
    else if 0 < next data ∧ next data ≤ data.length then
      (candLoop next min fuel (off + next data) (data.drop (next data))).map
        (⟨off + next data, false⟩ :: ·)
    else none

/-- `endx` of job `i` (parallel.go:406-410). -/
def endxOf (s : Sizes) (sz i : Nat) : Nat :=
  if (i + 1) * s.segment > sz then sz else (i + 1) * s.segment

/-- `nJobs` (parallel.go:254). -/
def nJobs (s : Sizes) (sz : Nat) : Nat := (sz + s.segment - 1) / s.segment

/-- `seek0` of job `i` in phase one (parallel.go:285-288, 306). -/
def seekOf (s : Sizes) (i : Nat) : Nat :=
  i * s.segment - (if i * s.segment < 2 * s.max then i * s.segment else 2 * s.max)

/-- `lenseg` of job `i` in phase one (parallel.go:309-319). -/
def lenOf (s : Sizes) (sz i : Nat) : Nat :=
  if i + 1 ≠ nJobs s sz then
    if endxOf s sz i + s.max > sz then sz - seekOf s i
    else endxOf s sz i - seekOf s i + s.max
  else endxOf s sz i - seekOf s i

/-- Phase one for job `i` (parallel.go:285-353): the candidates. The second value
of `LongestZeroSpan` is a length; the code calls it `endx0` and uses it as an end,
which is the same for a span that starts at 0. -/
def candidates (s : Sizes) (next : Bytes → Nat) (file : Bytes) (i : Nat) : Option (List Cand) :=
  let seek0 := seekOf s i
  let lenseg := lenOf s file.length i
  if lenseg = 0 then none
  else if lenseg > 7 * s.segment then none
  else if seek0 + lenseg > file.length then none
  else
    let data := (file.drop seek0).take lenseg
    let z := longestZeroSpan data
    if z.1 = 0 ∧ z.2 ≥ 64 then
      (candLoop next s.min (lenseg - z.2) (seek0 + z.2) (data.drop z.2)).map (⟨seek0 + z.2, true⟩ :: ·)
    else candLoop next s.min lenseg seek0 data

/-- What the selection loop leaves behind for one job: `prev`, the job's `cuts`,
and the cut handed to the next job when the end of the segment was reached. -/
structure Sel where
  prev : Nat
  cuts : List Nat
  link : Option Nat

/-- The inner selection loop (parallel.go:450-489). -/
def select (s : Sizes) (endx : Nat) : (prev : Nat) → (cuts : List Nat) → List Cand → Sel
  | prev, cuts, [] => ⟨prev, cuts, none⟩
  | prev, cuts, c :: rest =>
    if c.pos ≤ prev then select s endx prev cuts rest
    else if c.rle0 = false ∧ c.pos - prev < s.min then select s endx prev cuts rest
    else
      let cut := if c.rle0 = false ∧ c.pos - prev ≥ s.max then prev + s.max else c.pos
      let cuts' := if cuts.getLast? = some cut then cuts else cuts ++ [cut]
      if cut ≥ endx then ⟨cut, cuts', some cut⟩
      else select s endx cut cuts' rest

/-- The outer selection loop from job `i` on (parallel.go:436-490): `start` is
what `cuts` of this job holds already. The list has the candidates of the jobs
that are left; the link of the last job is not used (481). -/
def selectAll (s : Sizes) (sz : Nat) : (i prev : Nat) → (start : List Nat) → List (List Cand) →
    List (List Nat)
  | _, _, _, [] => []
  | i, prev, start, cs :: rest =>
    let r := select s (endxOf s sz i) prev start cs
    r.cuts :: selectAll s sz (i + 1) r.prev r.link.toList rest

/-- The concluding case (parallel.go:492-503): the end of the file becomes a cut
of the last job, or of the one before when the last has none. -/
def conclude (sz : Nat) : List (List Nat) → List (List Nat)
  | [] => []
  | [a] => if a.getLast? = some sz then [a] else [a ++ [sz]]
  | [a, b] =>
    if b.getLast? = some sz then [a, b]
    else if b = [] then [a ++ [sz], b]
    else [a, b ++ [sz]]
  | a :: b :: c :: rest => a :: conclude sz (b :: c :: rest)

variable {δ : Type}

/-- The loop over the cuts of one job in phase two (parallel.go:365-392); `beg` is
`job.beg`, where `data` starts, so that a `dataoff` below it is a negative slice
index. An empty chunk panics (370), a cut before the one it follows makes the
slice bounds wrong. -/
def chunkLoop (hash : Bytes → δ) (beg : Nat) (data : Bytes) : (dataoff : Nat) → List Nat →
    Option (List (Chunk δ))
  | _, [] => some []
  | dataoff, cut :: rest =>
    if cut ≤ dataoff then none
    else if dataoff < beg then none
    else if cut - beg > data.length then none
    else
      let slc := (data.take (cut - beg)).drop (dataoff - beg)
      (chunkLoop hash beg data cut rest).map
        (⟨dataoff, cut, if allZero slc then .rle0 else .digest (hash slc), []⟩ :: ·)

/-- Phase two for a job that has cuts (parallel.go:289-329, 360-392). -/
def hashJob (hash : Bytes → δ) (s : Sizes) (file : Bytes) (i : Nat) (c0 : Nat) (cuts : List Nat) :
    Option (List (Chunk δ)) :=
  let beg := i * s.segment
  let lastCut := (c0 :: cuts).getLast (by simp)
  let newEndx := if endxOf s file.length i < lastCut then lastCut else endxOf s file.length i
  if newEndx - beg = 0 then none
  else if newEndx - beg > 7 * s.segment then none
  else if newEndx > file.length then none
  else chunkLoop hash beg ((file.drop beg).take (newEndx - beg)) c0 cuts

/-- Phase two from job `i` on, with `w` workers left (parallel.go:527-540). The
jobs are taken from the channel in order; the worker that meets a job without
cuts leaves (294-296). With no worker left the jobs stay unhashed, and the
sender blocks for good once the channel (1024 places) is full. -/
def phase2 (hash : Bytes → δ) (s : Sizes) (file : Bytes) : (w i : Nat) → List (List Nat) →
    Option (List (List (Chunk δ)))
  | _, _, [] => some []
  | 0, _, js => if js.length > 1024 then none else some (js.map fun _ => [])
  | w + 1, i, [] :: rest => (phase2 hash s file w (i + 1) rest).map ([] :: ·)
  | w + 1, i, (c0 :: cuts) :: rest =>
    match hashJob hash s file i c0 cuts with
    | none => none
    | some cs => (phase2 hash s file (w + 1) (i + 1) rest).map (cs :: ·)

/-- The loop that puts the lists together (parallel.go:545-568); a list that does
not start where the previous ends is "bad append!". -/
def assemble : (acc : List (Chunk δ)) → List (List (Chunk δ)) → Option (List (Chunk δ))
  | acc, [] => some acc
  | acc, cs :: rest =>
    match acc.getLast?, cs.head? with
    | some l, some h => if h.beg ≠ l.endx then none else assemble (acc ++ cs) rest
    | _, _ => assemble (acc ++ cs) rest

/-- The loop that joins runs of zeros (parallel.go:574-594). `run` is the pending
`lastRLE`, whose end is moved in place; here it is put out when the run ends. -/
def coalesce : (run : Option (Chunk δ)) → List (Chunk δ) → List (Chunk δ)
  | run, [] => run.toList
  | run, c :: rest =>
    match c.cry with
    | .rle0 =>
      match run with
      | some l => coalesce (some { l with endx := c.endx }) rest
      | none => coalesce (some c) rest
    | _ => run.toList ++ c :: coalesce none rest

/-- `nWorkers` (parallel.go:223-241): `ngoro` is the number asked for or the
number of CPUs. The rounding up of `segN` (224) compares the wrong way round and
never happens. -/
def nWorkers (s : Sizes) (sz ngoro : Nat) : Nat :=
  let segN := if sz / s.segment = 0 then 1 else sz / s.segment
  if segN < ngoro then segN else ngoro

/-- The candidates of all jobs (parallel.go:397-426). -/
def allCandidates (s : Sizes) (next : Bytes → Nat) (file : Bytes) : Option (List (List Cand)) :=
  (List.range (nJobs s file.length)).mapM (candidates s next file)

/-- The cut points per job (parallel.go:397-503): job 0 starts with the cut 0 (439). -/
def cutsPerJob (s : Sizes) (next : Bytes → Nat) (file : Bytes) : Option (List (List Nat)) :=
  (allCandidates s next file).map fun cands =>
    conclude file.length (selectAll s file.length 0 0 [0] cands)

/-- `ChunkFile2` on a file that is neither empty nor sparse nor preallocated
(parallel.go:133-604): the chunk list. -/
def chunkFile (hash : Bytes → δ) (s : Sizes) (next : Bytes → Nat) (ngoro : Nat) (file : Bytes) :
    Option (List (Chunk δ)) :=
  match cutsPerJob s next file with
  | none => none
  | some js =>
    match phase2 hash s file (nWorkers s file.length ngoro) 0 js with
    | none => none
    | some ls =>
      match assemble [] ls with
      | none => none
      | some cs => if (coalesce none cs).length = 0 then none else some (coalesce none cs)

end Verif.Parallel
