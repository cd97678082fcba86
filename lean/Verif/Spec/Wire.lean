import Verif.Model.Wire
/-
Specification vocabulary for the wire properties (C01-C05): what a byte stream
and a frame are, said without the reading and writing code.
-/
namespace Verif.Wire.Spec
open Verif.Wire

/-- All bytes a connection delivers before its first error (or its end). -/
def stream : Conn → Bytes
  | [] => []
  | c :: tl => c.data ++ (if c.err.isSome then [] else stream tl)

/-- Eight bytes, most significant first. -/
def bigEndian8 (n : Nat) : Bytes := (List.range 8).map fun i => UInt8.ofNat (n / 256 ^ (7 - i))

/-- The documented frame layout: 7 fixed magic bytes, one tag byte, 8 length
bytes, then that many payload bytes. -/
def frame (tag : UInt8) (payload : Bytes) : Bytes :=
  [0xb3, 0x5d, 0x18, 0x39, 0xac, 0x8e, 0x1d, tag] ++ bigEndian8 payload.length ++ payload

/-- How a payload relates to the user's message body: compressed with s2 for tag
1, unchanged for tags 0 and 7. -/
def carries (k : Codec) (tag : UInt8) (payload body : Bytes) : Prop :=
  (tag = 0 ∧ payload = body) ∨ (tag = 7 ∧ payload = body) ∨ (tag = 1 ∧ k.decomp payload = some body)

/-- The compressor is lossless. -/
def Lossless (k : Codec) : Prop := ∀ b, k.decomp (k.comp b) = some b

/-- What one sender call looks like: workspace settings, last tag read from the
peer, the NoSystemCompression flag and the message body. -/
structure Sent where
  ws : WS
  lastRead : UInt8
  noSys : Bool
  body : Bytes

/-- The payload length limit, for the payload as sent. -/
def fits (k : Codec) (s : Sent) : Prop :=
  s.body.length ≤ 1310640 ∧ (k.comp s.body).length ≤ 1310640

end Verif.Wire.Spec
