/-!
# Rolling hashes and the exponential chunker

Model of `jcdc/rolling.go` and of `IsBlock` and `AddBlock` in `jcdc/chunker.go`. The FNV hash at the
end of `rolling.go` is the one in `Verif/Model/CDC.lean`. Left out: the computation of the chunker's
average length and probability in floating point (the probability is any number), and its table of
blocks.
-/

namespace Verif.Rolling

/-- The prime of `NewRabinKarp` (`jcdc/rolling.go:121`). -/
def prime : UInt64 := 16777619

/-- `RabinKarp` (`jcdc/rolling.go:112-118`). -/
structure RabinKarp where
  window : List UInt8 := []
  hash : UInt64 := 0
  size : Nat
  pow : UInt64
deriving DecidableEq

/-- The loop for the power of the oldest byte (`jcdc/rolling.go:128-131`). -/
def power (p : UInt64) : Nat → UInt64
  | 0 => 1
  | n + 1 => power p n * p

/-- `NewRabinKarp` (`jcdc/rolling.go:120-133`); the window size is not negative, that would panic. -/
def newRabinKarp (size : Nat) : RabinKarp := { size := size, pow := power prime (size - 1) }

/-- `RabinKarp.Roll` (`jcdc/rolling.go:135-148`). None: the index is out of range, with a window of
no bytes. -/
def RabinKarp.roll (rk : RabinKarp) (b : UInt8) : Option RabinKarp :=
  if rk.window.length = rk.size then
    match rk.window with
    | [] => none
    | oldest :: w =>
      some { rk with window := w ++ [b], hash := (rk.hash - oldest.toUInt64 * rk.pow) * prime + b.toUInt64 }
  else some { rk with window := rk.window ++ [b], hash := rk.hash * prime + b.toUInt64 }

/-- Rolling through a stream. -/
def RabinKarp.rolls (rk : RabinKarp) (bs : List UInt8) : Option RabinKarp := bs.foldlM RabinKarp.roll rk

/-- The hash of `GearHash` (`jcdc/rolling.go:151-156`); the window is kept but never looked at. -/
structure GearHash where
  window : List UInt8 := []
  hash : UInt64 := 0
  size : Nat
deriving DecidableEq

/-- `GearHash.Roll` (`jcdc/rolling.go:172-181`); with a window of no bytes the first call panics. -/
def GearHash.roll (table : UInt8 → UInt64) (gh : GearHash) (b : UInt8) : Option GearHash :=
  if gh.window.length = gh.size then
    match gh.window with
    | [] => none
    | _ :: w => some { gh with window := w ++ [b], hash := (gh.hash <<< 1) + table b }
  else some { gh with window := gh.window ++ [b], hash := (gh.hash <<< 1) + table b }

/-- Rolling through a stream. -/
def GearHash.rolls (table : UInt8 → UInt64) (gh : GearHash) (bs : List UInt8) : Option GearHash :=
  bs.foldlM (GearHash.roll table) gh

/-- `Buzhash` (`jcdc/rolling.go:191-196`). -/
structure Buzhash where
  window : List UInt8 := []
  hash : UInt32 := 0
  size : Nat
deriving DecidableEq

/-- `generateBuzTable` (`jcdc/rolling.go:222-226`): the table is made and not filled. -/
def buzTable (_ : UInt8) : UInt32 := 0

/-- `Buzhash.Roll` (`jcdc/rolling.go:206-220`). -/
def Buzhash.roll (table : UInt8 → UInt32) (bh : Buzhash) (b : UInt8) : Option Buzhash :=
  if bh.window.length = bh.size then
    match bh.window with
    | [] => none
    | oldest :: w =>
      let h := ((bh.hash <<< 1) ||| (bh.hash >>> 31)) ^^^ table oldest
      some { bh with window := w ++ [b], hash := h ^^^ table b }
  else some { bh with window := bh.window ++ [b], hash := 0 ^^^ table b }

/-- Rolling through a stream. -/
def Buzhash.rolls (table : UInt8 → UInt32) (bh : Buzhash) (bs : List UInt8) : Option Buzhash :=
  bs.foldlM (Buzhash.roll table) bh

/-- The constants of `NewRollingHash` (`jcdc/rolling.go:75-82`). -/
def lcgA : UInt32 := 1664525
def lcgC : UInt32 := 1013904223
def lcgM : UInt32 := 0xFFFFFFFF

/-- `RollingHash.Next` (`jcdc/rolling.go:85-88`): the new state, which is also the result. -/
def next (v : UInt32) : UInt32 := (lcgA * v + lcgC) &&& lcgM

/-- The loop of `Skip` (`jcdc/rolling.go:97-101`). -/
def skipPower : Nat → UInt32
  | 0 => 1
  | n + 1 => (skipPower n * lcgA) &&& lcgM

/-- `RollingHash.Skip` (`jcdc/rolling.go:91-106`); a negative number is as zero. -/
def skip (v : UInt32) (n : Nat) : UInt32 :=
  (((skipPower n * v) &&& lcgM) + lcgC * ((skipPower n - 1) / (lcgA - 1))) &&& lcgM

/-- `Chunker.IsBlock` (`jcdc/chunker.go:71-74`), on the block length: the new one and the answer. -/
def isBlock (minLen maxLen : Int) (prob : UInt32) (blockLen : Int) (r : UInt32) : Int × Bool :=
  (blockLen + 1, decide (blockLen + 1 ≥ minLen) && (decide (r < prob) || decide (blockLen + 1 ≥ maxLen)))

/-- The chunker's use (`jcdc/chunker_test.go:39-57`): `AddBlock` whenever `IsBlock` says so. The
lengths of the blocks added (`jcdc/chunker.go:77-85`), and the length of the one begun. -/
def blocks (minLen maxLen : Int) (prob : UInt32) : Int → List UInt32 → List Int × Int
  | len, [] => ([], len)
  | len, r :: rs =>
    let (len', yes) := isBlock minLen maxLen prob len r
    if yes then
      let (ls, rest) := blocks minLen maxLen prob 0 rs
      (len' :: ls, rest)
    else blocks minLen maxLen prob len' rs

end Verif.Rolling
