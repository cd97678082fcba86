import Verif.Model.Handshake
/-
X25519 as golang.org/x/crypto/curve25519 `X25519` computes it (RFC 7748, section
5), called in /repo/symmetric.go 195, 375, 460, 538, 642.  The library is not part
of /repo; this is the function it documents, with the error it documents for
all-zero results ("bad input point: low order point").
-/
namespace Verif.X25519
open Verif.Wire Verif.Handshake

/-- The prime of the field. -/
def p : Nat := 2 ^ 255 - 19

def add (a b : Nat) : Nat := (a + b) % p
def sub (a b : Nat) : Nat := (a + (p - b)) % p
def mul (a b : Nat) : Nat := (a * b) % p

/-- The state of the ladder: two points in projective coordinates. -/
structure Ladder where
  x2 : Nat
  z2 : Nat
  x3 : Nat
  z3 : Nat
deriving DecidableEq, Repr

/-- One step of the ladder of RFC 7748. -/
def step (x1 : Nat) (s : Ladder) : Ladder :=
  let a := add s.x2 s.z2
  let aa := mul a a
  let b := sub s.x2 s.z2
  let bb := mul b b
  let e := sub aa bb
  let c := add s.x3 s.z3
  let d := sub s.x3 s.z3
  let da := mul d a
  let cb := mul c b
  let t := add da cb
  let u := sub da cb
  { x3 := mul t t, z3 := mul x1 (mul u u), x2 := mul aa bb, z2 := mul e (add aa (mul 121665 e)) }

def swap (s : Ladder) : Ladder := ⟨s.x3, s.z3, s.x2, s.z2⟩

/-- One bit of the scalar. -/
def bitStep (x1 : Nat) (s : Ladder) (bit : Bool) : Ladder :=
  if bit then swap (step x1 (swap s)) else step x1 s

/-- The 255 low bits of a number, highest first. -/
def bits (n : Nat) : List Bool := (List.range 255).reverse.map n.testBit

/-- Exponentiation by the bits of the exponent, highest first. -/
def powBits (z : Nat) (e : List Bool) : Nat :=
  e.foldl (fun acc b => if b then mul (mul acc acc) z else mul acc acc) 1

/-- The u coordinate of the multiple of the point with u coordinate `u`. -/
def scalarMult (k u : Nat) : Nat :=
  let s := (bits k).foldl (bitStep u) ⟨1, 0, u, 1⟩
  mul s.x2 (powBits s.z2 (bits (p - 2)))

/-- Little endian numbers. -/
def leNat : Bytes → Nat
  | [] => 0
  | b :: bs => b.toNat + 256 * leNat bs

/-- Little endian, `n` bytes. -/
def natLe : Nat → Nat → Bytes
  | 0, _ => []
  | n + 1, v => UInt8.ofNat (v % 256) :: natLe n (v / 256)

/-- `curve25519.X25519(scalar, point)`: `none` is the error. The top bit of the
point is ignored; the scalar is clamped. -/
def x25519 (scalar point : Bytes) : Option Bytes :=
  if scalar.length ≠ 32 ∨ point.length ≠ 32 then none
  else
    let out := natLe 32 (scalarMult (leNat (clamp scalar)) (leNat point % 2 ^ 255 % p))
    if out = List.replicate 32 0 then none else some out

/-- `curve25519.X25519(scalar, curve25519.Basepoint)`, which cannot fail. -/
def pubOf (scalar : Bytes) : Bytes := natLe 32 (scalarMult (leNat (clamp scalar)) 9)

/-- The primitives of symmetric.go other than X25519. -/
structure Rest where
  Sig : Type
  Raw : Type
  Cert : Type
  SPub : Type
  SPriv : Type
  Psk : Type
  Key : Type
  Pool : Type
  hkdf : Bytes → Psk → Key
  sign : SPriv → Bytes → Sig
  verify : SPub → Bytes → Sig → Bool
  parse : Raw → Option Cert
  chains : Pool → Nat → Cert → Bool
  certKey : Cert → Option SPub

/-- The primitives of symmetric.go with X25519 itself and the check of public
keys of symmetric.go:794-808. -/
def goPrims (R : Rest) : Prims where
  Pub := Bytes
  Priv := Bytes
  Sig := R.Sig
  Raw := R.Raw
  Cert := R.Cert
  SPub := R.SPub
  SPriv := R.SPriv
  Sec := Bytes
  Psk := R.Psk
  Key := R.Key
  Pool := R.Pool
  pubOf := pubOf
  validPub := isValidX25519PublicKey
  x25519 := x25519
  hkdf := R.hkdf
  sign := R.sign
  verify := R.verify
  parse := R.parse
  chains := R.chains
  certKey := R.certKey

end Verif.X25519
