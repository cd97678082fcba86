/-
Model of two small arithmetic functions: AlignedSparseSpan (/repo/jsync/sparsified/align.go)
and Padme (/repo/jcdc/padme.go). int64 is modelled by unbounded numbers; the theorems
say where that matters. `none` is a panic.
-/
namespace Verif.Numeric

/-- sparsified `SparseSpan`: Beg, Endx. -/
structure SparseSpan where
  beg : Nat
  endx : Nat
deriving DecidableEq, Repr

/-- align.go:3-6 `SparseWings`. -/
structure Wings where
  pre : Option SparseSpan
  post : Option SparseSpan
deriving DecidableEq, Repr

def block : Nat := 4096

/-- align.go:12-95 `AlignedSparseSpan`: (span or nil, wings or nil). -/
def alignedSparseSpan (beg endx : Int) : Option (Option SparseSpan × Option Wings) :=
  if beg < 0 then none
  else if endx < 0 then none
  else
    let beg := beg.toNat
    let endx := endx.toNat
    if endx ≤ beg then some (none, none)
    else
      let sz := endx - beg
      if sz < block then some (none, some ⟨some ⟨beg, endx⟩, none⟩)
      else if beg = 0 then
        let n := endx / block
        let rem := endx % block
        if rem = 0 then some (some ⟨0, endx⟩, none)
        else some (some ⟨0, n * block⟩, some ⟨none, some ⟨n * block, endx⟩⟩)
      else
        let b := beg / block
        let brem := beg % block
        let start := if brem = 0 then beg else (b + 1) * block
        let pre := if brem = 0 then none else some ⟨beg, start⟩
        -- avail is a signed difference in the code, hence the first test
        if endx < start ∨ endx - start < block then some (none, some ⟨some ⟨beg, endx⟩, none⟩)
        else
          let blocksAvail := (endx - start) / block
          let e := start + blocksAvail * block
          some (some ⟨start, e⟩, some ⟨pre, some ⟨e, endx⟩⟩)

/-- bits.Len64: number of bits needed to write n. -/
def len64 (n : Nat) : Nat := if n = 0 then 0 else n.log2 + 1

/-- padme.go:19-34 `Padme`: the padding to add. For n = 0 the code shifts by a
negative count, a panic. Unbounded integers: for n within 12 percent of 2^63 the
code's `n + m` would overflow int64. `&^ m` clears the bits of m. -/
def padme (n : Int) : Option Int :=
  if n < 0 then none
  else if n = 0 then none
  else
    let x := len64 n.toNat - 1
    let b := len64 x
    -- z = x - b is negative only for x < b, which needs x = 0, b = 0: never
    let z := x - b
    let m := 2 ^ z - 1
    let y := n.toNat + m
    some ((y - (y &&& m) : Nat) - n)

end Verif.Numeric
