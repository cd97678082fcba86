/-
Model of /repo/tube/span.go: half-open integer intervals [beg, endx).
int64 is modelled as Int (no arithmetic is done except the +1 of spanBegxEndi).
-/
namespace Verif.Span

/-- span.go:5-8. -/
structure Span where
  beg : Int
  endx : Int
deriving DecidableEq, Repr

/-- span.go:10-15 `spanBegxEndi(begx, endi)`. -/
def spanBegxEndi (begx endi : Int) : Span := ⟨begx + 1, endi + 1⟩

/-- span.go:16-21 `spanBegiEndx`. -/
def spanBegiEndx (begi endx : Int) : Span := ⟨begi, endx⟩

/-- span.go:23-25. -/
def after (a b : Span) : Bool := decide (a.beg ≥ b.endx)

/-- span.go:26-28. -/
def before (a b : Span) : Bool := decide (a.endx ≤ b.beg)

/-- span.go:30-76 `overlaps`. -/
def overlaps (a b : Span) : Bool :=
  let bpoint := decide (b.endx = b.beg)
  let apoint := decide (a.endx = a.beg)
  if apoint && bpoint then decide (a.beg = b.beg)
  else if apoint then decide (a.beg ≥ b.beg ∧ a.beg < b.endx)
  else if bpoint then decide (b.beg ≥ a.beg ∧ b.beg < a.endx)
  else if a.endx ≤ b.beg then false
  else if b.endx ≤ a.beg then false
  else true

/-- span.go:79-92 `isSuperSetOf`. -/
def isSuperSetOf (a b : Span) : Bool :=
  if b.beg < a.beg then false
  else if b.endx > a.endx then false
  else true

/-- span.go:94-102 `contains`. -/
def contains (a : Span) (x : Int) : Bool :=
  if x < a.beg then false
  else if x ≥ a.endx then false
  else true

/-- span.go:104-112 `equal`. -/
def equal (a b : Span) : Bool :=
  if a.beg ≠ b.beg then false
  else if a.endx ≠ b.endx then false
  else true

/-- span.go:114-155 `intersect`: the interval, and whether it is empty. -/
def intersect (a b : Span) : Span × Bool :=
  if ¬ overlaps a b then (⟨0, 0⟩, true)
  else if a.beg = a.endx then (⟨0, 0⟩, true)
  else if b.beg = b.endx then (⟨0, 0⟩, true)
  else if isSuperSetOf a b then (b, false)
  else if isSuperSetOf b a then (a, false)
  else if a.beg < b.beg then (⟨b.beg, a.endx⟩, false)
  else (⟨a.beg, b.endx⟩, false)

end Verif.Span
