import Verif.Model.CDC

/-!
# What chunking a file should mean

Stated on the file's bytes and the list of cut points alone.
-/

namespace Verif.CDC

/-- The pieces of `data` between consecutive cut points, starting at `prev`. -/
def pieces (data : Bytes) : (prev : Nat) → List Nat → List Bytes
  | _, [] => []
  | prev, c :: cs => (data.take c).drop prev :: pieces data c cs

/-- The cut points cover the input exactly, and every piece but the last is
within the configured sizes. -/
structure GoodCuts (c : Config) (data : Bytes) (cuts : List Nat) : Prop where
  /-- they strictly increase, starting above 0 -/
  increasing : (0 :: cuts).Pairwise (· < ·)
  /-- the last one is the end of the input -/
  reaches : (0 :: cuts).getLast? = some data.length
  /-- the pieces concatenate to the input -/
  concat : (pieces data 0 cuts).flatten = data
  /-- all pieces but the last are within bounds -/
  sized : ∀ p ∈ (pieces data 0 cuts).dropLast, c.minSize ≤ p.length ∧ p.length ≤ c.maxSize

/-- A chunk is never empty and never longer than the data. -/
def Progress (next : Bytes → Nat) : Prop :=
  ∀ d : Bytes, d ≠ [] → 0 < next d ∧ next d ≤ d.length

/-- Where the next chunk ends depends on at most the first `maxSize` bytes. -/
def LocalTo (maxSize : Nat) (next : Bytes → Nat) : Prop :=
  ∀ d e : Bytes, d.take maxSize = e.take maxSize → next d = next e

/-- A chunk that ends before the data ends would end there if there were more
data. -/
def Stable (next : Bytes → Nat) : Prop :=
  ∀ d e : Bytes, next d < d.length → next (d ++ e) = next d

/-- Adjacent pieces that hold only zeros, joined. -/
def joinZeros : List Bytes → List Bytes
  | [] => []
  | p :: ps =>
    match joinZeros ps with
    | [] => [p]
    | q :: qs => if allZero p ∧ allZero q then (p ++ q) :: qs else p :: q :: qs

/-- The spans of a file as the file system reports them: none is empty, and
ranges that hold no data read as zeros. -/
def Span.Ok : Span → Prop
  | .hole b => b ≠ [] ∧ allZero b = true
  | .unwrit b => b ≠ [] ∧ allZero b = true
  | .data b => b ≠ []

variable {δ : Type}

/-- The chunk records of consecutive pieces of a file, the first at `off`: zeros
are marked as such, other contents are identified by their hash. -/
def label (hash : Bytes → δ) : (off : Nat) → List Bytes → List (Chunk δ)
  | _, [] => []
  | off, p :: ps =>
    ⟨off, off + p.length, if allZero p then .rle0 else .digest (hash p), []⟩
      :: label hash (off + p.length) ps

/-- A chunk list describes these bytes: the chunks follow one another from `off`
to the end, none is empty, and each is marked correctly. -/
def Describes (hash : Bytes → δ) : (off : Nat) → (bytes : Bytes) → List (Chunk δ) → Prop
  | _, bytes, [] => bytes = []
  | off, bytes, c :: cs =>
    c.beg = off ∧ off < c.endx ∧ c.endx ≤ off + bytes.length ∧
    (match c.cry with
      | .rle0 => allZero (bytes.take (c.endx - off)) = true
      | .unwrit => allZero (bytes.take (c.endx - off)) = true
      | .digest d => d = hash (bytes.take (c.endx - off))) ∧
    Describes hash c.endx (bytes.drop (c.endx - off)) cs

end Verif.CDC
