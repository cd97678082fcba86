import Verif.Model.CDC

/-!
# What the Rabin-Karp chunker computes from its configuration
-/

namespace Verif.CDC

/-- The loops `for targetSize > 1 { …++; targetSize >>= 1 }` and
`for size > 1 { bits++; size >>= 1 }` (jcdc/rabin.go:63-66, 94-97): how often the
counter is increased. -/
def halvings (n : Nat) : Nat :=
  if h : n ≤ 1 then 0 else halvings (n / 2) + 1
termination_by n
decreasing_by omega

/-- `WindowSize` (jcdc/rabin.go:60-76): one more than the number of halvings,
kept between 4 and 128. -/
def rabinWindow (target : Nat) : Nat :=
  let w := 1 + halvings target
  let w := if w < 4 then 4 else w
  if w > 128 then 128 else w

/-- `mult` (jcdc/rabin.go:80). -/
def rabinMult : UInt32 := 0x08104225

/-- `mask` (jcdc/rabin.go:92-98). -/
def rabinMask (target : Nat) : UInt32 :=
  ((1 : UInt32) <<< UInt32.ofNat (1 + halvings target)) - 1

/-- `NextCut` of the chunker that `NewRabinKarpCDC` makes from a configuration
(jcdc/rabin.go:46-53, 150-152). -/
def rabinNew (c : Config) (data : Bytes) : Nat :=
  rabin (rabinWindow c.targetSize) rabinMult (rabinMask c.targetSize) c data

/-- The mask of the FNV chunker for a number of zero bits
(jcdc/fnv1a.go:114); the number is computed in floating point (fnv1a.go:26). -/
def fnvMask (bits : Nat) : UInt32 := ((1 : UInt32) <<< UInt32.ofNat bits) - 1

end Verif.CDC
