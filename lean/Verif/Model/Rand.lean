/-
Model of the random number helpers, /repo/mathrand.go, rand.go and their copies in tube/ and jsync/, and of the
waiting times drawn with them.

* A word is what 8 random bytes are as a little-endian uint64. The source (crypto/rand, BLAKE3, ChaCha8) is the list of
  words still to come; a failing crypto/rand, which panics, is left out.
* int64 is `Int`; nothing here overflows but where it is modelled.
-/
namespace Verif.Rand

abbrev Word := Fin (2 ^ 64)

/-- math.MaxInt64. -/
def maxInt : Int := 2 ^ 63 - 1

/-- math.MinInt64. -/
def minInt : Int := -2 ^ 63

/-- `int64(u)`. -/
def signed (u : Word) : Int := if u.val < 2 ^ 63 then (u.val : Int) else (u.val : Int) - 2 ^ 64

/-- How a call ends: `more` is a loop that has used all words and goes on. -/
inductive Out (α : Type) where
  | panic
  | more
  | ret (r : α) (rest : List Word)
deriving DecidableEq, Repr

/-- Draw until a word is taken. -/
def loop {α : Type} (take : Word → Option α) : List Word → Out α
  | [] => .more
  | u :: us =>
    match take u with
    | some r => .ret r us
    | none => loop take us

/-- The number made of a word in rand.go:25-39 `cryptoRandNonNegInt64`, mathrand.go:113-127. -/
def nonNegOf (u : Word) : Int :=
  if signed u < 0 then
    if signed u = minInt then 0 else -signed u
  else signed u

/-- rand.go:25-39 `cryptoRandNonNegInt64`. -/
def nonNeg : List Word → Out Int := loop fun u => some (nonNegOf u)

/-- rand.go:13-22 `cryptoRandPositiveInt64`, mathrand.go:130-142. -/
def positive : List Word → Out Int := loop fun u => if nonNegOf u ≠ maxInt then some (nonNegOf u + 1) else none

/-- rand.go:42-50 `cryptoRandInt64`, mathrand.go:145-153. -/
def int64 : List Word → Out Int := loop fun u => some (signed u)

/-- rand.go:90, mathrand.go:209. -/
def redrawAbove (n : Int) : Int := maxInt - (maxInt % n + 1) % n

/-- One round of the loop, rand.go:95-128, mathrand.go:212-243. -/
def rangeTake (n : Int) (u : Word) : Option Int :=
  if signed u < 0 ∧ signed u = minInt then some 0
  else
    let r := if signed u < 0 then -signed u else signed u
    if redrawAbove n < r then none else some (r % n)

/-- rand.go:77-131 `cryptoRandNonNegInt64Range`, mathrand.go:177-246 `PseudoRandNonNegInt64Range`. -/
def range (n : Int) (ws : List Word) : Out Int :=
  if n ≤ 1 then .panic
  else if n = maxInt then nonNeg ws
  else loop (rangeTake n) ws

/-- tube/mathrand.go:90-160 `pseudoRandNonNegInt64Range`: no panic. -/
def rangeTube (n : Int) (ws : List Word) : Out Int :=
  if n ≤ 1 then .ret 0 ws
  else if n = maxInt then nonNeg ws
  else loop (rangeTake n) ws

def Out.map {α β : Type} (f : α → β) : Out α → Out β
  | .panic => .panic
  | .more => .more
  | .ret r rest => .ret (f r) rest

/-- rand.go:150-200 `cryptoRandInt64RangePosOrNeg`, mathrand.go:264-317. The shifts are a division and a product by 2. -/
def posOrNeg (l : Int) (ws : List Word) : Out Int :=
  if l < 1 then .panic
  else if l = maxInt then loop (fun u => if signed u = minInt then none else some (signed u)) ws
  else if l < maxInt / 2 then (range (1 + l * 2) ws).map fun r => -l + r
  else loop (fun u => if signed u < -l then none else if l < signed u then none else some (signed u)) ws

/-- rand.go:52-60 `cryptoRandBool`, mathrand.go:155-162, of a random byte. -/
def boolOf (b : Fin 256) : Bool := b.val % 2 == 0

/-- jsync/mathrand.go and jsync/sparsified/mathrand.go:25-35 `pseudoRandNonNegInt64`: the negation of MinInt64 is
MinInt64. -/
def nonNegSync : List Word → Out Int := loop fun u =>
  some (if signed u < 0 then if signed u = minInt then minInt else -signed u else signed u)

/-- jsync/sparsified/mathrand.go:38-51 `pseudoRandPositiveInt64`. -/
def positiveSync : List Word → Out Int := loop fun u =>
  let r := if signed u < 0 then if signed u = minInt then minInt else -signed u else signed u
  if r ≠ maxInt then some (r + 1) else none

/-! ### Waiting times -/

/-- simnet_api.go:177-191 `rngHop`. -/
def hop (minHop maxHop : Int) (ws : List Word) : Out Int :=
  if maxHop ≤ minHop then .ret minHop ws
  else (range (maxHop - minHop) ws).map fun r => r + minHop

/-- tube.go:6611-6637 `electionTimeoutDur`, nanoseconds. `minDur` is cfg.MinElectionDur; `rd` rounds to a float64, after
each operation; the conversion to time.Duration cuts off the fraction. -/
def electionTimeout (rd : Rat → Rat) (minDur : Int) (clusterSize : Int) (ws : List Word) : Out Int :=
  let t : Int := if 0 < minDur then minDur else 150000000
  if 0 < minDur ∧ minDur < 10000000 then .panic
  else
    (range 100000000 ws).map fun k : Int =>
      let frac := rd (rd (k : Rat) / 100000000)
      let spread := rd ((max 1 (clusterSize - 2) : Int) : Rat)
      let r := (rd (rd (rd (t : Rat) * spread) * frac)).floor
      t + r

/-- tube.go:6653-6665 `minElectionTimeoutDur`. -/
def minElectionTimeout (minDur : Int) : Int := if 0 < minDur then minDur else 150000000

/-- tube.go:6639-6651 `maxElectionTimeoutDur`. -/
def maxElectionTimeout (minDur : Int) : Int := 2 * minElectionTimeout minDur

end Verif.Rand
