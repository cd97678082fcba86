import Verif.Spec.CDC
import Verif.Model.Sync

/-!
# What synchronising a file should mean

Stated on the bytes of the two files and on chunk lists that describe them
(`CDC.Describes`).
-/

namespace Verif.Sync

open Verif.CDC

variable {δ : Type}

/-- The bytes a chunk stands for. -/
def content (file : Bytes) (c : Chunk δ) : Bytes := (file.take c.endx).drop c.beg

/-- The chunk is identified by a hash, not marked as zeros or unwritten. -/
def Hashed (c : Chunk δ) : Prop := ∃ d, c.cry = .digest d

/-- The hash has no collision between the chunks of the two files. -/
def NoCollision (hash : Bytes → δ) (goal : Bytes) (goalCs : List (Chunk δ)) (loc : Bytes)
    (localCs : List (Chunk δ)) : Prop :=
  ∀ c ∈ goalCs, ∀ l ∈ localCs, hash (content goal c) = hash (content loc l) →
    content goal c = content loc l

/-- Zeros are marked as such and not hashed, as the chunkers do. -/
def ZerosMarked (file : Bytes) (cs : List (Chunk δ)) : Prop :=
  ∀ c ∈ cs, Hashed c → allZero (content file c) = false

/-- Chunks that follow one another from `off`. -/
def Follow : (off : Nat) → List (Chunk δ) → Prop
  | _, [] => True
  | off, c :: cs => c.beg = off ∧ c.beg < c.endx ∧ Follow c.endx cs

/-- The chunks name what they stand for: a run of zeros comes without data, no
range is unwritten, and a chunk of the old file that is used for
one of the new has its length. -/
def Faithful (lm : Cry δ → Option (Chunk δ)) (c : Chunk δ) : Prop :=
  (c.cry = .rle0 → c.data = []) ∧ c.cry ≠ .unwrit ∧
  ∀ lc, c.data = [] → lm c.cry = some lc → lc.endx - lc.beg = c.endx - c.beg

end Verif.Sync
