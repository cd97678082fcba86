/-!
# Content-defined chunking

The chunkers of `jcdc`: how far the next chunk reaches into the data that is
left, and the loops that turn this into the list of cut points of a buffer.
Then the two ways the file synchroniser reads a file through a buffer:
`GetHashesOneByOne` and `CutpointsAndAllZero`.

Simplifications common to the whole file:
* sizes are `Nat`; the Go code uses `int`, and configurations with negative
  sizes are not modelled (`Validate` of every algorithm but FNV refuses them);
* every caller passes `n = len(data)` to `Algorithm`, so `n` is not a separate
  argument and the check `n > len(data)` never fires;
* the 256-entry gear tables are parameters: nothing below depends on what they
  contain;
* a loop that makes no progress (and so never ends, being deterministic) and a
  slice out of range (a panic) are both `none`.
-/

set_option linter.unusedVariables false

namespace Verif.CDC

abbrev Bytes := List UInt8

/-- `CDC_Config` (jcdc/ultracdc.go:60-64). -/
structure Config where
  minSize : Nat
  targetSize : Nat
  maxSize : Nat
deriving Repr, DecidableEq

/-- `Validate` of FastCDC_Plakar (jcdc/fastcdc4.go:67-78), and with the same
text of FastCDC_Stadia (fastcdc2.go:51-66), UltraCDC (ultracdc.go:102-117) and
RabinKarpCDC (rabin.go:133-147). -/
def validate (c : Config) : Bool :=
  !(c.targetSize == 0 || c.targetSize < 64 || c.targetSize > 1024 * 1024 * 1024) &&
  !(c.minSize < 64 || c.minSize > 1024 * 1024 * 1024 || c.minSize ≥ c.targetSize) &&
  !(c.maxSize < 64 || c.maxSize > 1024 * 1024 * 1024 || c.maxSize ≤ c.targetSize)

/-- `FNVCDC.Validate` (jcdc/fnv1a.go:56-62): only the target is looked at. -/
def fnvValidate (c : Config) : Bool :=
  !(c.targetSize == 0 || c.targetSize < 64 || c.targetSize > 1024 * 1024 * 1024)

/-! ## FastCDC, Plakar's variant -/

/-- `MaskS` (jcdc/fastcdc4.go:219). -/
def plakarMaskS : UInt64 := 0x0003590703530000
/-- `MaskL` (jcdc/fastcdc4.go:220). -/
def plakarMaskL : UInt64 := 0x0000d90003530000

/-- The loop of `FastCDC_Plakar.Algorithm` (jcdc/fastcdc4.go:235-243), over the
bytes `data[i:n]`; the last line returns `n`. -/
def plakarLoop (gear : UInt8 → UInt64) (target n : Nat) :
    (i : Nat) → (mask fp : UInt64) → Bytes → Nat
  | _, _, _, [] => n
  | i, mask, fp, b :: rest =>
    let mask' := if i = target then plakarMaskL else mask
    let fp' := (fp <<< 1) + gear b
    if fp' &&& mask' = 0 then i
    else plakarLoop gear target n (i + 1) mask' fp' rest

/-- `FastCDC_Plakar.Algorithm` (jcdc/fastcdc4.go:212-245). -/
def plakar (gear : UInt8 → UInt64) (c : Config) (data : Bytes) : Nat :=
  if data.length ≤ c.minSize then data.length
  else if data.length ≥ c.maxSize then
    plakarLoop gear c.targetSize c.maxSize c.minSize plakarMaskS 0
      ((data.take c.maxSize).drop c.minSize)
  else
    let target := if data.length ≤ c.targetSize then data.length else c.targetSize
    plakarLoop gear target data.length c.minSize plakarMaskS 0 (data.drop c.minSize)

/-! ## FastCDC, Stadia's variant -/

/-- The inner loop of `FastCDC_Stadia.Algorithm` (jcdc/fastcdc2.go:147-149):
shift the mask until no bit of the hash is left under it. After 64 shifts the
mask is zero, so 64 rounds are enough. -/
def regressMask (hash : UInt64) : (fuel : Nat) → (mask : UInt64) → UInt64
  | 0, mask => mask
  | k + 1, mask => if hash &&& mask ≠ 0 then regressMask hash k (mask <<< 1) else mask

/-- The main loop of `FastCDC_Stadia.Algorithm` (jcdc/fastcdc2.go:136-157), over
`data[i:n]`; `rl` and `rm` are `regressionLen` and `regressionMask`. -/
def stadiaLoop (gear : UInt8 → UInt64) (thresh : UInt64) :
    (i rl : Nat) → (rm hash : UInt64) → Bytes → Nat
  | i, rl, rm, hash, [] => if hash &&& rm ≠ 0 then rl else i
  | i, rl, rm, hash, b :: rest =>
    if hash &&& rm = 0 then
      if hash ≤ thresh then i
      else
        stadiaLoop gear thresh (i + 1) i (regressMask hash 64 0xffffffffffffffff)
          ((hash <<< 1) + gear b) rest
    else stadiaLoop gear thresh (i + 1) rl rm ((hash <<< 1) + gear b) rest

/-- `FastCDC_Stadia.Algorithm` (jcdc/fastcdc2.go:89-163). The threshold divides
by `normalSize - minSize + 1` in wrapping 64-bit arithmetic; a zero divisor
panics in Go and needs `minSize = targetSize + 1`. -/
def stadia (gear : UInt8 → UInt64) (c : Config) (data : Bytes) : Nat :=
  let thresh : UInt64 := 0xffffffffffffffff /
    (UInt64.ofNat c.targetSize - UInt64.ofNat c.minSize + 1)
  if data.length ≤ c.minSize then data.length
  else
    let n := if data.length ≥ c.maxSize then c.maxSize else data.length
    let warm := (data.take c.minSize).drop (if c.minSize > 64 then c.minSize - 64 else 0)
    let hash := warm.foldl (fun (h : UInt64) b => (h <<< 1) + gear b) 0xffffffffffffffff
    stadiaLoop gear thresh c.minSize n 0 hash ((data.take n).drop c.minSize)

/-! ## UltraCDC -/

/-- Number of bits set in the low `k` bits of `x`. -/
def popcount : (k : Nat) → Nat → Nat
  | 0, _ => 0
  | k + 1, x => x % 2 + popcount k (x / 2)

/-- `hammingDistanceTo0xAA` (jcdc/ultracdc_precomputed.go), equal to
`bits.OnesCount8(v ^ 0xAA)` (ultracdc.go:184). -/
def ham (b : UInt8) : Int := (popcount 8 (b ^^^ 0xAA).toNat : Nat)

/-- The eight steps of the inner loop of `UltraCDC.Algorithm`
(jcdc/ultracdc.go:229-259): `.inl j` when the cut is found at step `j`,
otherwise the new distance. `dist` is never negative, so `toNat` is the Go
conversion to `uint64`. -/
def ultraInner (mask : Nat) : (j : Nat) → (dist : Int) → (outs ins : Bytes) → Nat ⊕ Int
  | j, dist, o :: outs, b :: ins =>
    if dist.toNat &&& mask = 0 then .inl j
    else ultraInner mask (j + 1) (dist + (ham b - ham o)) outs ins
  | _, dist, _, _ => .inr dist

/-- The outer loop of `UltraCDC.Algorithm` (jcdc/ultracdc.go:188-265). -/
def ultraLoop (data : Bytes) (n normal : Nat)
    (i mask low : Nat) (dist : Int) (outWin : Bytes) : Nat :=
  if h : i + 8 ≤ n then
    let mask' := if i ≥ normal then 0x2C else mask
    let inWin := (data.drop i).take 8
    if inWin = outWin then
      if low + 1 ≥ 64 then i + 8
      else ultraLoop data n normal (i + 8) mask' (low + 1) dist outWin
    else
      match ultraInner mask' 0 dist ((data.drop (i - 8)).take 8) inWin with
      | .inl j => i + j
      | .inr d => ultraLoop data n normal (i + 8) mask' 0 d inWin
  else n
termination_by n - i

/-- `UltraCDC.Algorithm` (jcdc/ultracdc.go:133-266). -/
def ultra (c : Config) (data : Bytes) : Nat :=
  let minSize := if c.minSize < 8 then 8 else c.minSize
  if data.length ≤ minSize + 8 then data.length
  else
    let n := if data.length ≥ c.maxSize then c.maxSize else data.length
    let normal :=
      if data.length ≥ c.maxSize then c.targetSize
      else if data.length ≤ c.targetSize then data.length else c.targetSize
    let win := (data.drop minSize).take 8
    ultraLoop data n normal (minSize + 8) 0x2F 0 ((win.map ham).sum) win

/-- One round of the loop of `UltraCDC.Cutpoints` (jcdc/ultracdc.go:300-441),
which repeats the text of `Algorithm` with small differences. `slack` is the
spare capacity of the slice behind `data`: `data[minSize:minSize+8]` may reach
into it, and panics beyond it. `.inl` ends the whole function with this cut. -/
def ultraRound (c : Config) (slack : Nat) (data : Bytes) : Option (Nat ⊕ Nat) :=
  let stop := if data.length < c.maxSize then data.length else c.maxSize
  if stop ≤ c.minSize then some (.inl stop)
  else if data.length + slack < c.minSize + 8 then none
  else
    let normal := if stop ≤ c.targetSize then stop else c.targetSize
    let win := (data.drop c.minSize).take 8
    some (.inr (ultraLoop data stop normal (c.minSize + 8) 0x2F 0 ((win.map ham).sum) win))

/-- `UltraCDC.Cutpoints` (jcdc/ultracdc.go:279-444) with `maxPoints ≤ 0`; `off`
is `cutpoint`. -/
def ultraCutpoints (c : Config) (slack : Nat) (off : Nat) (data : Bytes) :
    Option (List Nat) :=
  if c.minSize = 0 then none
  else
    match ultraRound c slack data with
    | none => none
    | some (.inl cut) => some [off + cut]
    | some (.inr cut) =>
      if h : 0 < cut ∧ cut ≤ data.length then
        if data.length = cut then some [off + cut]
        else (ultraCutpoints c slack (off + cut) (data.drop cut)).map ((off + cut) :: ·)
      else none
termination_by data.length
decreasing_by
  rw [List.length_drop]; omega

/-! ## FNV-1a -/

/-- The loop of `FNVCDC.Algorithm` (jcdc/fnv1a.go:110-117), over `data[i:n]`. -/
def fnvLoop (minSize n : Nat) (mask : UInt32) : (i : Nat) → (hash : UInt32) → Bytes → Nat
  | _, _, [] => n
  | i, hash, b :: rest =>
    let hash' := (hash ^^^ b.toUInt32) * 16777619
    if i ≥ minSize ∧ hash' &&& mask = 0 then i + 1
    else fnvLoop minSize n mask (i + 1) hash' rest

/-- `FNVCDC.Algorithm` (jcdc/fnv1a.go:85-120). The number of zero bits asked for
is computed from the configuration in floating point (fnv1a.go:27); here the
mask `(1<<bits)-1` is a parameter. `normalSize` is assigned but not used. -/
def fnv (mask : UInt32) (c : Config) (data : Bytes) : Nat :=
  if data.length ≤ c.minSize then data.length
  else
    let n := if data.length ≥ c.maxSize then c.maxSize else data.length
    fnvLoop c.minSize n mask 0 2166136261 (data.take n)

/-! ## Rabin-Karp -/

/-- The rolling loop of `RabinKarpCDC.Algorithm` (jcdc/rabin.go:187-201);
`olds` runs over `data[i-windowSize:]`, the last argument over `data[i:n]`. -/
def rabinLoop (minSize n : Nat) (mult mask : UInt32) :
    (i : Nat) → (sum multn : UInt32) → (olds news : Bytes) → Nat
  | i, sum, multn, o :: olds, b :: news =>
    let sum' := (sum - multn * o.toUInt32) * mult + b.toUInt32
    if i ≥ minSize ∧ sum' &&& mask = 0 then i + 1
    else rabinLoop minSize n mult mask (i + 1) sum' (multn * mult) olds news
  | _, _, _, _, _ => n

/-- `RabinKarpCDC.Algorithm` (jcdc/rabin.go:154-204). `w` is `WindowSize` and
`mask` the boundary mask, both computed from the target size when the chunker is
made (rabin.go:54-101). The state kept in the receiver (`sum`, `multn`) is reset
at the start of every call. -/
def rabin (w : Nat) (mult mask : UInt32) (c : Config) (data : Bytes) : Nat :=
  if data.length ≤ c.minSize then data.length
  else
    let n := if data.length ≥ c.maxSize then c.maxSize else data.length
    let d := data.take n
    let init := (d.take w).foldl
      (fun (s : UInt32 × UInt32) b => (s.1 * mult + b.toUInt32, s.2 * mult)) (0, 1)
    rabinLoop c.minSize n mult mask w init.1 init.2 d (d.drop w)

/-! ## Restic's chunker -/

/-- `ResticRabinCDC.Algorithm` (jcdc/restic.go:46-72). `split` is
`BaseChunker.NextSplitPoint` of the external package, which is not modelled:
`none` for its `-1`. The minimum and the maximum size are compared with the
length, but the outcome of the second comparison (`n = maxSize`) is not used. -/
def restic (split : Bytes → Option Nat) (c : Config) (data : Bytes) : Nat :=
  if data.length ≤ c.minSize then data.length
  else
    match split data with
    | some k => k
    | none => data.length

/-! ## Cut points of a buffer -/

/-- `Cutpoints` of FastCDC_Plakar (jcdc/fastcdc4.go:196-210) and FastCDC_Stadia
(fastcdc2.go:179-195), and of FNVCDC (fnv1a.go:72-83), RabinKarpCDC
(rabin.go:211-227) and ResticRabinCDC (restic.go:80-96) with `maxPoints ≤ 0`:
`next` is `Algorithm`, `off` is `cutpoint`. The first two ignore `maxPoints`. -/
def cutpoints (next : Bytes → Nat) (off : Nat) (data : Bytes) : Option (List Nat) :=
  if data.length = 0 then some []
  else if h : 0 < next data ∧ next data ≤ data.length then
    (cutpoints next (off + next data) (data.drop (next data))).map ((off + next data) :: ·)
  else none
termination_by data.length
decreasing_by
  rw [List.length_drop]; omega

/-- `Cutpoints` with `maxPoints = k > 0`, where it is honoured (jcdc/fnv1a.go:72-83,
rabin.go:211-227, restic.go:80-96). -/
def cutpointsMax (next : Bytes → Nat) : (k : Nat) → (off : Nat) → Bytes → Option (List Nat)
  | 0, _, _ => some []
  | k + 1, off, data =>
    if data.length = 0 then some []
    else if 0 < next data ∧ next data ≤ data.length then
      (cutpointsMax next k (off + next data) (data.drop (next data))).map
        ((off + next data) :: ·)
    else none

/-! ## The chunk list of a file -/

/-- The `Cry` field of a chunk (jsync/rsync.go:52-57): in Go a string, being the
hash of the contents or one of the two marks `"RLE0;"` and `"UNWRIT;"`, which no
hash string (they start with `"blake3.33B-"`) equals. -/
inductive Cry (δ : Type) where
  | rle0
  | unwrit
  | digest (d : δ)
deriving Repr, DecidableEq

/-- `Chunk` (jsync/rsync.go:40-57); `data` empty stands for a nil `Data`. -/
structure Chunk (δ : Type) where
  beg : Nat
  endx : Nat
  cry : Cry δ
  data : Bytes := []
deriving Repr, DecidableEq

/-- `allZero` (jcdc/fastcdc4.go:187-194; jsync has a copy). -/
def allZero (b : Bytes) : Bool := b.all (· == 0)

variable {δ : Type}

/-- The closure `addChunk` of `GetHashesOneByOne` (jsync/rsync.go:1331-1360): a
run of zeros that follows another is merged into it. The hash of the whole file,
written at the same time, is left out. -/
def addChunk (hash : Bytes → δ) (cs : List (Chunk δ)) (slc : Bytes) (beg : Nat) :
    List (Chunk δ) :=
  if allZero slc then
    match cs.getLast? with
    | some ⟨b, e, .rle0, d⟩ => cs.dropLast ++ [⟨b, e + slc.length, .rle0, d⟩]
    | _ => cs ++ [⟨beg, beg + slc.length, .rle0, []⟩]
  else cs ++ [⟨beg, beg + slc.length, .digest (hash slc), []⟩]

/-- The loop that ends `GetHashesOneByOne` when the whole file has been read
(jsync/rsync.go:1413-1418). -/
def drain (hash : Bytes → δ) (next : Bytes → Nat) (cs : List (Chunk δ)) (off : Nat)
    (data : Bytes) : Option (List (Chunk δ)) :=
  if data.length = 0 then some cs
  else if h : 0 < next data ∧ next data ≤ data.length then
    drain hash next (addChunk hash cs (data.take (next data)) off) (off + next data)
      (data.drop (next data))
  else none
termination_by data.length
decreasing_by
  rw [List.length_drop]; omega

/-- The main loop of `GetHashesOneByOne` (jsync/rsync.go:1396-1459). `data` is
what of the buffer has not been cut yet, `rest` what has not been read from the
file. `io.ReadFull` fills the buffer whatever pieces the file system delivers; a
full buffer reads nothing, without error, and the loop then repeats for ever.
The file does not change while it is read. -/
def oneByOneLoop (hash : Bytes → δ) (next : Bytes → Nat) (maxSize bufsz : Nat)
    (cs : List (Chunk δ)) (off : Nat) (data rest : Bytes) : Option (List (Chunk δ)) :=
  if data.length = 0 then some cs
  else if data.length ≥ maxSize then
    if h : 0 < next data ∧ next data ≤ data.length then
      let cs' := addChunk hash cs (data.take (next data)) off
      let off' := off + next data
      let data' := data.drop (next data)
      if data'.length > maxSize then
        oneByOneLoop hash next maxSize bufsz cs' off' data' rest
      else if rest.length = 0 then drain hash next cs' off' data'
      else
        oneByOneLoop hash next maxSize bufsz cs' off'
          (data' ++ rest.take (bufsz - data'.length)) (rest.drop (bufsz - data'.length))
    else none
  else if rest.length = 0 then drain hash next cs off data
  else if hb : data.length < bufsz then
    oneByOneLoop hash next maxSize bufsz cs off
      (data ++ rest.take (bufsz - data.length)) (rest.drop (bufsz - data.length))
  else none
termination_by (data.length + rest.length, rest.length)
decreasing_by
  · apply Prod.Lex.left
    simp only [List.length_drop]; omega
  · apply Prod.Lex.left
    simp only [List.length_append, List.length_take, List.length_drop]
    omega
  · have : (data ++ rest.take (bufsz - data.length)).length
        + (rest.drop (bufsz - data.length)).length = data.length + rest.length := by
      simp only [List.length_append, List.length_take, List.length_drop]; omega
    rw [this]
    apply Prod.Lex.right
    simp only [List.length_drop]; omega

/-- `GetHashesOneByOne` (jsync/rsync.go:1263-1463): the chunk list of a file of
these bytes. The first read fills the buffer. -/
def oneByOne (hash : Bytes → δ) (next : Bytes → Nat) (maxSize bufsz : Nat)
    (file : Bytes) : Option (List (Chunk δ)) :=
  oneByOneLoop hash next maxSize bufsz [] 0 (file.take bufsz) (file.drop bufsz)

/-! ## Reading a file span by span -/

/-- One entry of the parallel slices `cuts`, `allzero`, `preun`. -/
structure Cut where
  pos : Nat
  zero : Bool
  unwrit : Bool
deriving Repr, DecidableEq

/-- The body of the loop over `dCuts` (jcdc/fastcdc4.go:148-169): a run of zeros
extends a preceding run (which may be a hole). -/
def pushCut (acc : List Cut) (zero : Bool) (pos : Nat) : List Cut :=
  match acc.getLast? with
  | some l => if zero && l.zero && !l.unwrit then acc.dropLast ++ [{ l with pos := pos }]
              else acc ++ [⟨pos, zero, false⟩]
  | none => acc ++ [⟨pos, zero, false⟩]

/-- The loop over `dCuts` (jcdc/fastcdc4.go:147-180) for the cuts it uses; `prev`
is `prevcut`. -/
def pushCuts (d : Bytes) (from_ : Nat) : (acc : List Cut) → (prev : Nat) → List Nat → List Cut
  | acc, _, [] => acc
  | acc, prev, cut :: cuts =>
    pushCuts d from_ (pushCut acc (allZero ((d.take cut).drop prev)) (from_ + cut)) cut cuts

/-- Which of the cuts of a buffer are used (jcdc/fastcdc4.go:139-146, 171-179):
the last cut of a buffer that does not reach the end of the span is not, unless
it is the only one: then `stopAt` is -1, matches no index, and the whole list is
used. -/
def usedCuts (isLast : Bool) (dcuts : List Nat) : List Nat :=
  if isLast then dcuts else if dcuts.length = 1 then dcuts else dcuts.dropLast

/-- The loop `readAtOffset` (jcdc/fastcdc4.go:116-182) over the bytes of one data
span that are still to be chunked; `bufsz` is the size of the buffer (1 MB in
the code). -/
def readSpan (next : Bytes → Nat) (bufsz : Nat) (acc : List Cut) (off : Nat) (rem : Bytes) :
    Option (List Cut) :=
  if rem.length = 0 then some acc
  else
    match cutpoints next 0 (rem.take bufsz) with
    | none => none
    | some dcuts =>
      if rem.length ≤ bufsz then some (pushCuts (rem.take bufsz) off acc 0 dcuts)
      else
        if h : 0 < (usedCuts false dcuts).getLast?.getD 0 then
          readSpan next bufsz
            (pushCuts (rem.take bufsz) off acc 0 (usedCuts false dcuts))
            (off + (usedCuts false dcuts).getLast?.getD 0)
            (rem.drop ((usedCuts false dcuts).getLast?.getD 0))
        else none
termination_by rem.length
decreasing_by
  rw [List.length_drop]; omega

/-- The kinds of `SparseSpan` (jsync/sparsified): a hole, a preallocated and
never written range, or data. A span lists the bytes a read of it returns. -/
inductive Span where
  | hole (bytes : Bytes)
  | unwrit (bytes : Bytes)
  | data (bytes : Bytes)
deriving Repr, DecidableEq

/-- The bytes a reader sees in a span. -/
def Span.bytes : Span → Bytes
  | .hole b => b
  | .unwrit b => b
  | .data b => b

/-- `FastCDC_Plakar.CutpointsAndAllZero` (jcdc/fastcdc4.go:84-186): the cuts of a
file made of these spans. The spans come from the file system
(`FindSparseRegions`, Model/Sparse) and follow one another. -/
def cutSpans (next : Bytes → Nat) (bufsz : Nat) : (acc : List Cut) → (off : Nat) →
    List Span → Option (List Cut)
  | acc, _, [] => some acc
  | acc, off, .hole b :: rest =>
    cutSpans next bufsz (acc ++ [⟨off + b.length, true, false⟩]) (off + b.length) rest
  | acc, off, .unwrit b :: rest =>
    cutSpans next bufsz (acc ++ [⟨off + b.length, false, true⟩]) (off + b.length) rest
  | acc, off, .data b :: rest =>
    match readSpan next bufsz acc off b with
    | none => none
    | some acc' => cutSpans next bufsz acc' (off + b.length) rest

/-- The loop of `SummarizeBytesInCDCHashes` over the cuts (jsync/rsync.go:1052-1142):
chunk contents are read from the file, through a buffer that only saves reads.
The small unwritten range that ends a file is left out of the list. -/
def summarize (hash : Bytes → δ) (file : Bytes) (keepData : Bool) :
    (prev : Nat) → List Cut → List (Chunk δ)
  | _, [] => []
  | prev, c :: rest =>
    if c.zero then
      ⟨prev, c.pos, .rle0, []⟩ :: summarize hash file keepData c.pos rest
    else if c.unwrit then
      if c.pos - prev < 4096 ∧ rest = [] then []
      else ⟨prev, c.pos, .unwrit, []⟩ :: summarize hash file keepData c.pos rest
    else
      let slc := (file.take c.pos).drop prev
      ⟨prev, c.pos, .digest (hash slc), if keepData then slc else []⟩
        :: summarize hash file keepData c.pos rest

/-- `SummarizeFileInCDCHashes` (jsync/rsync.go:787-860): the chunk list of a file
made of these spans. -/
def summarizeFile (hash : Bytes → δ) (next : Bytes → Nat) (bufsz : Nat) (keepData : Bool)
    (spans : List Span) : Option (List (Chunk δ)) :=
  (cutSpans next bufsz [] 0 spans).map
    (summarize hash ((spans.map Span.bytes).flatten) keepData 0)

end Verif.CDC
