import Verif.Proofs.Snapshot
/-
C26. Snapshot parts reassemble to the snapshot sent.
-/
namespace Verif.Snapshot

variable {D : Type} [DecidableEq D]

/-- **C26.** Let any snapshots `S` be sent, in parts of at most `mx` bytes. Whatever fragments
of those transfers reach a fresh receiver, in whatever order and number, and from whichever
senders the receiver does or does not take as its leader, handling them never panics and every
byte string installed is one of the snapshots sent. The checksum need only tell apart the
snapshots that were sent. -/
theorem C26_installed_was_sent (H : Bytes → D) (mx : Nat) (hmx : 1 ≤ mx) (S : List Bytes)
    (inj : ∀ a ∈ S, ∀ b ∈ S, H a = H b → a = b) (fs : List (Frag D))
    (hfs : ∀ f ∈ fs, ∃ b ∈ S, ∃ g ∈ fragsOf H mx b, f = { g with fromLeader := f.fromLeader }) :
    ∃ out, handleAll H {} fs = some out ∧ ∀ b ∈ out, b ∈ S :=
  handleAll_ok hmx inj fs (Or.inl rfl) hfs

/-- **C26**, fragments from anywhere. Even when payloads are arbitrary, a byte string installed
from a multi-part transfer has the checksum announced by its last fragment; only a single-part
snapshot is installed unchecked. The one fragment that makes the receiver panic is a numbered
part without a checksum. -/
theorem C26_installed_matches_checksum (H : Bytes → D) (fs : List (Frag D))
    (hfs : ∀ f ∈ fs, f.sum = none → f.part = 0) :
    ∃ out, handleAll H {} fs = some out ∧
      ∀ b ∈ out, ∃ f ∈ fs, f.sum = some (H b) ∨ (f.part = 0 ∧ f.payload = b) :=
  handleAll_fed fs (Or.inl rfl) hfs

/-- **C26**, progress. A transfer delivered whole and in order is installed, whatever partial
transfer the receiver held before. -/
theorem C26_whole_transfer_installed (H : Bytes → D) (mx : Nat) (hmx : 1 ≤ mx) (r : Recv D) (b : Bytes) :
    handleAll H r (fragsOf H mx b) = some [b] :=
  handleAll_transfer hmx r b

/-- Two interleaved transfers of three parts each, one of them delivered whole at the end: the
hypotheses hold (the checksum here is the sum of the bytes), and that one is installed. -/
example :
    let H : Bytes → Nat := fun b => b.foldl (fun a x => a + x.toNat) 0
    let a : Bytes := [1, 2, 3, 4, 5]
    let b : Bytes := [9, 9, 9, 9, 9]
    let fa := fragsOf H 2 a
    let fb := fragsOf H 2 b
    let fs := fa.take 2 ++ fb.take 1 ++ fa.drop 2 ++ fb.drop 2 ++ fa ++ fa.drop 2
    (∀ x ∈ [a, b], ∀ y ∈ [a, b], H x = H y → x = y) ∧ (∀ f ∈ fs, f ∈ fa ∨ f ∈ fb) ∧
      handleAll H {} fs = some [a] := by
  decide +kernel

end Verif.Snapshot
