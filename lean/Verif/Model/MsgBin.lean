/-
Model of the length-prefixed frames used in Raft's files: /repo/tube/msgbin.go and
`msgp.AppendBytes` / `ByteSlice.MarshalMsg` (tube_gen.go:4103-4111).
-/
namespace Verif.MsgBin

abbrev Bytes := List UInt8

/-- Big-endian bytes of a number below 256^2. -/
def be16 (n : Nat) : Bytes := [UInt8.ofNat (n / 256 % 256), UInt8.ofNat (n % 256)]

/-- Big-endian bytes of a number below 256^4. -/
def be32 (n : Nat) : Bytes :=
  [UInt8.ofNat (n / 16777216 % 256), UInt8.ofNat (n / 65536 % 256), UInt8.ofNat (n / 256 % 256),
   UInt8.ofNat (n % 256)]

/-- `ByteSlice(b).MarshalMsg(nil)`, i.e. msgp.AppendBytes: the msgpack bin8 / bin16 / bin32
header followed by the bytes. (For 2^32 bytes or more the length is cut, as uint32(sz)
is in the library.) -/
def frame (b : Bytes) : Bytes :=
  if b.length ≤ 255 then 0xc4 :: UInt8.ofNat b.length :: b
  else if b.length ≤ 65535 then 0xc5 :: (be16 b.length ++ b)
  else 0xc6 :: (be32 b.length ++ b)

/-- msgbin.go:78-117 `unframeBinMsgpack` on the 5 bytes peeked: (ninside, nheader). `none` is
the panic on another first byte. -/
def unframe (p0 p1 p2 p3 p4 : UInt8) : Option (Nat × Nat) :=
  if p0 = 0xc4 then some (p1.toNat, 2)
  else if p0 = 0xc5 then some (p1.toNat * 256 + p2.toNat, 3)
  else if p0 = 0xc6 then
    some (p1.toNat * 16777216 + p2.toNat * 65536 + p3.toNat * 256 + p4.toNat, 5)
  else none

/-- What reading one frame at the current file position gives. `bad` stands for every
error that the callers turn into a panic. -/
inductive Next where
  | eof
  | bad
  | ok (payload : Bytes) (rest : Bytes)
deriving DecidableEq, Repr

/-- msgbin.go:11-41 `nextframe` followed by `ByteSlice.UnmarshalMsg`, on the bytes from the
current position to the end of the file: the payload and the bytes after the new position.
Five bytes are always consumed, even by a shorter frame. -/
def nextframe : Bytes → Next
  | [] => .eof
  | p0 :: p1 :: p2 :: p3 :: p4 :: tl =>
    match unframe p0 p1 p2 p3 p4 with
    | none => .bad
    | some (ninside, nheader) =>
      let f := p0 :: p1 :: p2 :: p3 :: p4 :: tl
      if f.length < nheader + ninside then .bad
      else .ok ((f.take (nheader + ninside)).drop nheader) (f.drop (max 5 (nheader + ninside)))
  | _ => .bad

end Verif.MsgBin
