import Verif.Model.Wire
/-
Model of the encrypted framing: /repo/chacha.go.

The AEAD (Ascon128a plus the PACT tag rewriting, chacha.go:497-500, 566-569) is
a parameter.  The greenpack encoding of the message is an opaque byte string.
-/
namespace Verif.Crypt
open Verif.Wire

/-- An AEAD: `sealF nonce aad plain` is ciphertext with tag, `openF` undoes it.
chacha.go:170-175 (Ascon128a, noncesize 16, overhead 16); the PACT tag rewriting
is part of `sealF`/`openF`. -/
structure AEAD where
  noncesize : Nat
  overhead : Nat
  sealF : Bytes → Bytes → Bytes → Bytes
  openF : Bytes → Bytes → Bytes → Option Bytes

/-- chacha.go:324-334 `incrementNonce`: little endian increment, wraps. -/
def incrementNonce : Bytes → Bytes
  | [] => []
  | b :: bs => if b + 1 ≠ 0 then (b + 1) :: bs else (b + 1) :: incrementNonce bs

/-- chacha.go:199-211: the starting nonce made from the random bytes `rnd`. The
last byte is the most significant. -/
def startNonce (isServer : Bool) (rnd : Bytes) : Bytes :=
  match rnd.reverse with
  | [] => []
  | top :: low =>
    let t := top &&& 63
    (( if isServer then t ||| 127 else t) :: low).reverse

/-- The fields of `encoder` (chacha.go:60-100) that matter. -/
structure Enc where
  writeNonce : Bytes
  magic7 : UInt8
  compress : Bool
  isServer : Bool
deriving DecidableEq, Repr

/-- chacha.go:424-448: the tag put in magic byte 7 of an encrypted message. -/
def chooseTag (e : Enc) (lastRead : UInt8) (noSys : Bool) : UInt8 :=
  if noSys then 7
  else if e.compress then
    if e.isServer then (if 8 ≤ lastRead.toNat then e.magic7 else lastRead) else e.magic7
  else 0

/-- chacha.go:381-529 `encoder.sendMessage`.  Returns what is handed to the single
`writeFull`, and the encoder afterwards.  `lastRead` is
`spair.lastReadMagic7` at that moment. -/
def sendMessage (a : AEAD) (k : Codec) (e : Enc) (lastRead : UInt8) (noSys : Bool) (body : Bytes) :
    Res Bytes × Enc :=
  if maxMessage < body.length then (.err .tooLong, e)
  else
    let tag := chooseTag e lastRead noSys
    let packed : Res Bytes :=
      if !noSys && e.compress then handleCompress k tag body else .ok body
    match packed with
    | .err x => (.err x, e)
    | .panic => (.panic, e)
    | .ok p =>
      if e.magic7 ≠ tag then (.panic, e)
      else
        let sz := a.noncesize + 8 + p.length + a.overhead
        let aad := be64 sz
        let sealed := a.sealF e.writeNonce aad (magic.take 7 ++ [tag] ++ p)
        (.ok (aad ++ e.writeNonce ++ sealed), { e with writeNonce := incrementNonce e.writeNonce })

/-- compress.go:225-282 called through a possibly nil `*decomp`
(chacha.go:627, decomp is nil when CompressionOff): tags 0 and 7 do not touch
the receiver, tag 1 dereferences it. -/
def decompress (k : Codec) (hasDecomp : Bool) (tag : UInt8) (b : Bytes) : Res Bytes :=
  if tag = 1 ∧ hasDecomp = false then .panic else handleDecompress k tag b

/-- chacha.go:534-639 `decoder.readMessage` up to the greenpack decoding.
Line 567 `encrypted[len(encrypted)-d.overhead:]` panics for frames shorter than
the tag; line 605 `message[8:]` panics for plaintexts shorter than 8 bytes. (For
a frame shorter than the nonce but not than the tag the slice expression of line
564 reads into the rest of the buffer; with the AEAD used noncesize = overhead,
so this does not arise; the model panics there.) -/
def readMessage (a : AEAD) (k : Codec) (hasDecomp : Bool) (c : Conn) : Res (UInt8 × Bytes) × Conn :=
  match readFull 8 [] c with
  | (.err e, c1) => (.err e, c1)
  | (.panic, c1) => (.panic, c1)
  | (.ok l, c1) =>
    if maxMessage < deBe l then (.err .tooLong, c1)
    else
      match readFull (deBe l) [] c1 with
      | (.err e, c2) => (.err e, c2)
      | (.panic, c2) => (.panic, c2)
      | (.ok enc, c2) =>
        if enc.length < a.noncesize ∨ enc.length < a.overhead then (.panic, c2)
        else
          match a.openF (enc.take a.noncesize) l (enc.drop a.noncesize) with
          | none => (.err (.other 0), c2)
          | some m =>
            if m.length < 8 then (.panic, c2)
            else if m.take 7 ≠ magic.take 7 then (.err .magicWrong, c2)
            else
              let tag := (m.drop 7).head?.getD 0
              match decompress k hasDecomp tag (m.drop 8) with
              | .ok x => (.ok (tag, x), c2)
              | .err e => (.err e, c2)
              | .panic => (.panic, c2)

/-- Successive sends by one encoder: the results, and the encoder afterwards.
Each request is (lastRead, noSys, body). -/
def sendMany (a : AEAD) (k : Codec) (e : Enc) : List (UInt8 × Bool × Bytes) →
    List (Res Bytes) × Enc
  | [] => ([], e)
  | (lr, ns, b) :: rs =>
    let (r, e1) := sendMessage a k e lr ns b
    let (l, e2) := sendMany a k e1 rs
    (r :: l, e2)

end Verif.Crypt
