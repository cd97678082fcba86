import Verif.Model.Greenpack

/-!
# An implementation of the `msgp` primitives

`github.com/glycerine/greenpack/msgp` is not in `/repo`.  This file follows the
MessagePack specification: which first bytes mean what, lengths and numbers
big-endian, the shortest form chosen when writing, every form of the right type
accepted when reading.  It serves to show that the assumption `Lib.Sound` about
the library can be met, and to compute examples.  What the generated code in
`/repo` itself contains of the format, the literal bytes of field keys, agrees
with it: see the examples in `Verif/Props/Greenpack.lean`.
-/

namespace Verif.Greenpack

/-- `k` bytes, big-endian. -/
def be : Nat → Nat → Bytes
  | 0, _ => []
  | k + 1, n => UInt8.ofNat (n / 256 ^ k) :: be k n

/-- Read `k` bytes, big-endian. -/
def readBe : Nat → Nat → Bytes → Option (Nat × Bytes)
  | 0, acc, b => some (acc, b)
  | _ + 1, _, [] => none
  | k + 1, acc, x :: b => readBe k (acc * 256 + x.toNat) b

/-- Read `n` bytes. -/
def readN (n : Nat) (b : Bytes) : Option (Bytes × Bytes) :=
  if b.length < n then none else some (b.take n, b.drop n)

/-- A signed number from its two's complement in `k` bytes. -/
def signed (k n : Nat) : Int := if n < 256 ^ k / 2 then n else (n : Int) - 256 ^ k

/-- The two's complement of a number in `k` bytes. -/
def unsigned (k : Nat) (i : Int) : Nat := (i % 256 ^ k).toNat

/-- A string: length and bytes. -/
def putStr (s : Bytes) : Bytes :=
  (if s.length < 32 then [UInt8.ofNat (0xa0 + s.length)]
   else if s.length < 2 ^ 8 then 0xd9 :: be 1 s.length
   else if s.length < 2 ^ 16 then 0xda :: be 2 s.length
   else 0xdb :: be 4 s.length) ++ s

/-- A byte slice: length and bytes. -/
def putBin (s : Bytes) : Bytes :=
  (if s.length < 2 ^ 8 then 0xc4 :: be 1 s.length
   else if s.length < 2 ^ 16 then 0xc5 :: be 2 s.length
   else 0xc6 :: be 4 s.length) ++ s

/-- A signed number, in the shortest signed form. -/
def putInt (i : Int) : Bytes :=
  if -32 ≤ i ∧ i < 128 then be 1 (unsigned 1 i)
  else if -2 ^ 7 ≤ i ∧ i < 2 ^ 7 then 0xd0 :: be 1 (unsigned 1 i)
  else if -2 ^ 15 ≤ i ∧ i < 2 ^ 15 then 0xd1 :: be 2 (unsigned 2 i)
  else if -2 ^ 31 ≤ i ∧ i < 2 ^ 31 then 0xd2 :: be 4 (unsigned 4 i)
  else 0xd3 :: be 8 (unsigned 8 i)

/-- An unsigned number, in the shortest unsigned form. -/
def putUint (n : Nat) : Bytes :=
  if n < 128 then be 1 n
  else if n < 2 ^ 8 then 0xcc :: be 1 n
  else if n < 2 ^ 16 then 0xcd :: be 2 n
  else if n < 2 ^ 32 then 0xce :: be 4 n
  else 0xcf :: be 8 n

/-- A map header. -/
def putMapHdr (n : Nat) : Bytes :=
  if n < 16 then [UInt8.ofNat (0x80 + n)]
  else if n < 2 ^ 16 then 0xde :: be 2 n
  else 0xdf :: be 4 n

/-- An array header. -/
def putArrHdr (n : Nat) : Bytes :=
  if n < 16 then [UInt8.ofNat (0x90 + n)]
  else if n < 2 ^ 16 then 0xdc :: be 2 n
  else 0xdd :: be 4 n

/-- The basic values. -/
def putVal : PVal → Bytes
  | .str s => putStr s
  | .bin s => putBin s
  | .boo b => [if b then 0xc3 else 0xc2]
  | .int i => putInt i
  | .uint n => putUint n
  | .tim s n => 0xc7 :: 12 :: 0xff :: (be 4 n ++ be 8 (unsigned 8 s))
  | .f64 x => 0xcb :: be 8 x.toNat

/-- Read a string. -/
def getStr : Bytes → Option (Bytes × Bytes)
  | [] => none
  | x :: b =>
      if 0xa0 ≤ x.toNat ∧ x.toNat < 0xc0 then readN (x.toNat - 0xa0) b
      else
        let k := if x = 0xd9 then 1 else if x = 0xda then 2 else if x = 0xdb then 4 else 0
        if k = 0 then none else (readBe k 0 b).bind fun r => readN r.1 r.2

/-- Read a byte slice. -/
def getBin : Bytes → Option (Bytes × Bytes)
  | [] => none
  | x :: b =>
      let k := if x = 0xc4 then 1 else if x = 0xc5 then 2 else if x = 0xc6 then 4 else 0
      if k = 0 then none else (readBe k 0 b).bind fun r => readN r.1 r.2

/-- Read a number in any of its forms. -/
def getNum : Bytes → Option (Int × Bytes)
  | [] => none
  | x :: b =>
      if x.toNat < 128 then some (x.toNat, b)
      else if 0xe0 ≤ x.toNat then some ((x.toNat : Int) - 256, b)
      else
        let u := if x = 0xcc then 1 else if x = 0xcd then 2 else if x = 0xce then 4
          else if x = 0xcf then 8 else 0
        let s := if x = 0xd0 then 1 else if x = 0xd1 then 2 else if x = 0xd2 then 4
          else if x = 0xd3 then 8 else 0
        if u ≠ 0 then (readBe u 0 b).map fun r => ((r.1 : Int), r.2)
        else if s ≠ 0 then (readBe s 0 b).map fun r => (signed s r.1, r.2)
        else none

/-- A number within bounds, or an overflow error. -/
def within (lo hi : Int) (r : Option (Int × Bytes)) : Option (Int × Bytes) :=
  r.bind fun r => if lo ≤ r.1 ∧ r.1 < hi then some r else none

/-- Read a header of a map or an array. -/
def getHdr (fix two four : Nat) : Bytes → Option (Nat × Bytes)
  | [] => none
  | x :: b =>
      if fix ≤ x.toNat ∧ x.toNat < fix + 16 then some (x.toNat - fix, b)
      else if x.toNat = two then readBe 2 0 b
      else if x.toNat = four then readBe 4 0 b
      else none

/-- Read a time: the 96 bit timestamp. -/
def getTim : Bytes → Option (PVal × Bytes)
  | x :: y :: z :: b =>
      if x = 0xc7 ∧ y = 12 ∧ z = 0xff then
        (readBe 4 0 b).bind fun n => (readBe 8 0 n.2).map fun s => (.tim (signed 8 s.1) n.1, s.2)
      else none
  | _ => none

/-- Read a basic value of the given kind. -/
def getVal : Prim → Bytes → Option (PVal × Bytes)
  | .str, b => (getStr b).map fun r => (.str r.1, r.2)
  | .bin, b => (getBin b).map fun r => (.bin r.1, r.2)
  | .boo, b =>
      match b with
      | x :: b => if x = 0xc3 then some (.boo true, b) else if x = 0xc2 then some (.boo false, b) else none
      | [] => none
  | .i64, b => (within (-2 ^ 63) (2 ^ 63) (getNum b)).map fun r => (.int r.1, r.2)
  | .i32, b => (within (-2 ^ 31) (2 ^ 31) (getNum b)).map fun r => (.int r.1, r.2)
  | .u64, b => (within 0 (2 ^ 64) (getNum b)).map fun r => (.uint r.1.toNat, r.2)
  | .u32, b => (within 0 (2 ^ 32) (getNum b)).map fun r => (.uint r.1.toNat, r.2)
  | .tim, b => getTim b
  | .f64, b =>
      match b with
      | x :: b => if x = 0xcb then (readBe 8 0 b).map fun r => (.f64 (UInt64.ofNat r.1), r.2) else none
      | [] => none

/-- The first byte of an object, for skipping: how many bytes of length field
follow, how many more bytes belong to it for each unit of that length (1) plus
how many in any case, and how many objects follow for each unit of the length.
Fields: size of the length field, fixed length if that is 0, extra bytes,
bytes per unit, objects per unit. -/
def form (x : Nat) : Option (Nat × Nat × Nat × Nat × Nat) :=
  if x < 0x80 then some (0, 0, 0, 1, 0)
  else if x < 0x90 then some (0, x - 0x80, 0, 0, 2)
  else if x < 0xa0 then some (0, x - 0x90, 0, 0, 1)
  else if x < 0xc0 then some (0, x - 0xa0, 0, 1, 0)
  else if 0xe0 ≤ x then some (0, 0, 0, 1, 0)
  else match x with
    | 0xc0 => some (0, 0, 0, 1, 0)
    | 0xc2 => some (0, 0, 0, 1, 0)
    | 0xc3 => some (0, 0, 0, 1, 0)
    | 0xc4 => some (1, 0, 0, 1, 0)
    | 0xc5 => some (2, 0, 0, 1, 0)
    | 0xc6 => some (4, 0, 0, 1, 0)
    | 0xc7 => some (1, 0, 1, 1, 0)
    | 0xc8 => some (2, 0, 1, 1, 0)
    | 0xc9 => some (4, 0, 1, 1, 0)
    | 0xca => some (0, 4, 0, 1, 0)
    | 0xcb => some (0, 8, 0, 1, 0)
    | 0xcc => some (0, 1, 0, 1, 0)
    | 0xcd => some (0, 2, 0, 1, 0)
    | 0xce => some (0, 4, 0, 1, 0)
    | 0xcf => some (0, 8, 0, 1, 0)
    | 0xd0 => some (0, 1, 0, 1, 0)
    | 0xd1 => some (0, 2, 0, 1, 0)
    | 0xd2 => some (0, 4, 0, 1, 0)
    | 0xd3 => some (0, 8, 0, 1, 0)
    | 0xd4 => some (0, 1, 1, 1, 0)
    | 0xd5 => some (0, 2, 1, 1, 0)
    | 0xd6 => some (0, 4, 1, 1, 0)
    | 0xd7 => some (0, 8, 1, 1, 0)
    | 0xd8 => some (0, 16, 1, 1, 0)
    | 0xd9 => some (1, 0, 0, 1, 0)
    | 0xda => some (2, 0, 0, 1, 0)
    | 0xdb => some (4, 0, 0, 1, 0)
    | 0xdc => some (2, 0, 0, 0, 1)
    | 0xdd => some (4, 0, 0, 0, 1)
    | 0xde => some (2, 0, 0, 0, 2)
    | 0xdf => some (4, 0, 0, 0, 2)
    | _ => none

/-- Skip the own bytes of an object: the number of objects inside it and the
rest of the input. -/
def skipHead : Bytes → Option (Nat × Bytes)
  | [] => none
  | x :: b =>
      match form x.toNat with
      | none => none
      | some (k, n, extra, perByte, perObj) =>
        match readBe k n b with
        | none => none
        | some (n, b) => (readN (extra + perByte * n) b).map fun r => (perObj * n, r.2)

/-- Skip a number of objects; the first argument bounds the number of steps. -/
def skipMany : Nat → Nat → Bytes → Option Bytes
  | _, 0, b => some b
  | 0, _ + 1, _ => none
  | fuel + 1, n + 1, b =>
      match skipHead b with
      | none => none
      | some (m, b) => skipMany fuel (m + n) b

/-- The library, from the MessagePack specification. -/
def msgpack : Lib where
  put _ x := putVal x
  get := getVal
  mapHdr := putMapHdr
  getMapHdr := getHdr 0x80 0xde 0xdf
  arrHdr := putArrHdr
  getArrHdr := getHdr 0x90 0xdc 0xdd
  skip b := skipMany b.length 1 b

end Verif.Greenpack
