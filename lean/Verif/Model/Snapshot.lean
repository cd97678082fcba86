/-
Model of sending and reassembling state snapshots, /repo/tube/tube.go:17340-17510
(`handleRequestStateSnapshot`, `handleStateSnapshotEnclosed`). The checksum (blake3) is a
parameter `H`; serialisation of the snapshot is left out: a snapshot is its bytes.
-/
namespace Verif.Snapshot

abbrev Bytes := List UInt8

/-- The fragment fields used: FragPart, the user argument b3checksumWhole (absent in a
single-part transfer), Payload, and whether it comes from the node taken as leader. -/
structure Frag (D : Type) where
  part : Int
  sum : Option D
  payload : Bytes
  fromLeader : Bool
deriving DecidableEq, Repr

variable {D : Type}

/-- Cut into pieces of at most `mx` bytes (tube.go:17391-17404); `fuel` bounds the loop, which
shortens `bts` each time. -/
def pieces (mx : Nat) (bts : Bytes) : Nat → List Bytes
  | 0 => []
  | fuel + 1 => if bts = [] then [] else bts.take mx :: pieces mx (bts.drop mx) fuel

/-- Number the pieces from `i`; the last number is negated (tube.go:17401-17410). -/
def number (c : D) : Nat → List Bytes → List (Frag D)
  | _, [] => []
  | i, [p] => [⟨-(i : Int), some c, p, true⟩]
  | i, p :: q :: ps => ⟨i, some c, p, true⟩ :: number c (i + 1) (q :: ps)

/-- tube.go:17340-17428 `handleRequestStateSnapshot`: the fragments sent for one snapshot. -/
def fragsOf (H : Bytes → D) (mx : Nat) (bts : Bytes) : List (Frag D) :=
  if mx < bts.length then number (H bts) 1 (pieces mx bts bts.length)
  else [⟨0, none, bts, true⟩]

/-- Receiver state: snapInProgressLastPart, snapInProgressB3checksumWhole ("" is `none`), the
bytes fed to snapInProgressHasher (`none`: nil hasher), snapInProgress. -/
structure Recv (D : Type) where
  last : Int := 0
  sum : Option D := none
  hashed : Option Bytes := none
  buf : Bytes := []

/-- tube.go:17430 `resetToNoSnapshotInProgress`. -/
def reset : Recv D := {}

/-- Outcome of handling a fragment. -/
inductive Res (D : Type) where
  | panic
  | keep (r : Recv D)
  | install (r : Recv D) (bts : Bytes)

/-- tube.go:17437-17510 `handleStateSnapshotEnclosed`. -/
def handle [DecidableEq D] (H : Bytes → D) (r : Recv D) (f : Frag D) : Res D :=
  if !f.fromLeader then .keep r
  else if f.sum.isNone ∧ f.part ≠ 0 then .panic
  else if f.part = 1 then .keep ⟨1, f.sum, some f.payload, f.payload⟩
  else if 1 < f.part then
    if r.sum ≠ f.sum then .keep reset
    else if f.part ≠ r.last + 1 then .keep reset
    else
      match r.hashed with
      | none => .panic
      | some h => .keep ⟨f.part, r.sum, some (h ++ f.payload), r.buf ++ f.payload⟩
  else if f.part < 0 then
    if r.sum ≠ f.sum then .keep reset
    else if -f.part ≠ r.last + 1 then .keep reset
    else
      match r.hashed with
      | none => .panic
      | some h =>
        if some (H (h ++ f.payload)) ≠ f.sum then .keep reset
        else .install reset (r.buf ++ f.payload)
  else .install reset f.payload

/-- Handle fragments one after the other: what gets installed, `none` on a panic. -/
def handleAll [DecidableEq D] (H : Bytes → D) (r : Recv D) : List (Frag D) → Option (List Bytes)
  | [] => some []
  | f :: fs =>
    match handle H r f with
    | .panic => none
    | .keep r' => handleAll H r' fs
    | .install r' b => (handleAll H r' fs).map (b :: ·)

end Verif.Snapshot
