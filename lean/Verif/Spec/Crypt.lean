import Verif.Model.Crypt
import Verif.Spec.Wire
namespace Verif.Crypt.Spec
open Verif.Wire

/-- The AEAD opens what it sealed, and adds `overhead` bytes. -/
def Correct (a : AEAD) : Prop :=
  ∀ nonce aad plain, a.openF nonce aad (a.sealF nonce aad plain) = some plain ∧
    (a.sealF nonce aad plain).length = plain.length + a.overhead

/-- The nonce carried by an encrypted frame: the `n` bytes after the 8 length bytes. -/
def nonceOf (n : Nat) (frame : Bytes) : Bytes := (frame.drop 8).take n

/-- The number a nonce stands for: first byte least significant. -/
def value : Bytes → Nat
  | [] => 0
  | b :: bs => b.toNat + 256 * value bs

end Verif.Crypt.Spec
