/-
# The generated greenpack code

Every struct this repository sends over a connection or writes to disk is
encoded by code that the greenpack tool generated: `hdr_gen.go`, `ckt_gen.go`,
`symmetric_gen.go`, `jcdc/ultracdc_gen.go`, `jsync/*_gen.go`, `tube/*_gen.go`
and `tube/art/*_gen.go`.  All of it follows one template, instantiated with a
struct's list of fields.  This file models the template: `fieldsNotEmpty`,
`MarshalMsg` and `UnmarshalMsgWithCfg`, as functions of the list of fields.
`Verif/Model/Schemas.lean` lists the fields of the structs in `/repo`.

Byte-level primitives (`msgp.AppendString`, `msgp.ReadStringBytes`,
`msgp.Skip` and so on) come from a library outside `/repo`.  They are the
record `Lib` here, and theorems assume `Lib.Sound`.  `Verif/Model/Msgpack.lean`
gives one implementation, from the MessagePack specification, and
`Verif/Proofs/Msgpack.lean` proves it sound.

Simplifications:
* a nil slice and an empty slice are the same value, so are a nil map and an
  empty one.  The generated code omits both, and a fresh target gets nil;
* a Go map is a list of pairs without repeated keys, in the order in which the
  encoder happens to visit them;
* a `time.Time` is a number of seconds and nanoseconds: monotonic reading and
  location are not in the encoding;
* a slice of the target that is reused (`cap(z.F) >= n`) offers its old
  elements for reuse.  The model offers those within the old length, and zero
  values beyond it, where Go offers what the backing array holds there;
* a struct by value that is missing from the input is reset field by field.
  The code does this by decoding a one byte input (0xc0) into it;
* the hooks (`PreSaveHook`, `PostLoadHook`) are in `Verif/Model/Hooks.lean`.
-/

namespace Verif.Greenpack

/-- A byte string. -/
abbrev Bytes := List UInt8

/-- The kinds of basic field: what the suffix of a field's key names, and which
`msgp.Append...` function `MarshalMsg` calls (hdr_gen.go 757-906,
tube/tube_gen.go 850-1058, 16339-16447). -/
inductive Prim where
  /-- `string`: `msgp.AppendString` -/
  | str
  /-- `[]byte` and types made from it: `msgp.AppendBytes` -/
  | bin
  /-- `bool`: `msgp.AppendBool` -/
  | boo
  /-- `int64`, `int`, `time.Duration` and types made from them:
  `msgp.AppendInt64`, `msgp.AppendInt`, `msgp.AppendDuration` -/
  | i64
  /-- `int32`: `msgp.AppendInt32` -/
  | i32
  /-- `uint64`: `msgp.AppendUint64` -/
  | u64
  /-- `uint32`: `msgp.AppendUint32` -/
  | u32
  /-- `time.Time`: `msgp.AppendTime` -/
  | tim
  /-- `float64`, by its bits: `msgp.AppendFloat64` -/
  | f64
deriving DecidableEq, Repr

/-- The value of a basic field. -/
inductive PVal where
  | str (s : Bytes)
  | bin (s : Bytes)
  | boo (b : Bool)
  | int (i : Int)
  | uint (n : Nat)
  | tim (sec : Int) (nsec : Nat)
  | f64 (bits : UInt64)
deriving DecidableEq, Repr

/-- The seconds of Go's zero `time.Time`, 1 January of year 1, since 1970. -/
def zeroSec : Int := -62135596800

/-- The zero value of a kind: what the `nbs.Read...` functions return when
`nbs.AlwaysNil` is set (hdr_gen.go 955-975). -/
def Prim.zero : Prim → PVal
  | .str => .str []
  | .bin => .bin []
  | .boo => .boo false
  | .i64 => .int 0
  | .i32 => .int 0
  | .u64 => .uint 0
  | .u32 => .uint 0
  | .tim => .tim zeroSec 0
  | .f64 => .f64 0

/-- The values of a kind.  For `float64`, minus zero is left out: it is `== 0`,
so `fieldsNotEmpty` drops it and it comes back as plus zero
(tube/tube_gen.go 16210-16330). -/
def Prim.Has : Prim → PVal → Prop
  | .str, .str s => s.length < 2 ^ 32
  | .bin, .bin s => s.length < 2 ^ 32
  | .boo, .boo _ => True
  | .i64, .int i => -2 ^ 63 ≤ i ∧ i < 2 ^ 63
  | .i32, .int i => -2 ^ 31 ≤ i ∧ i < 2 ^ 31
  | .u64, .uint n => n < 2 ^ 64
  | .u32, .uint n => n < 2 ^ 32
  | .tim, .tim s n => -2 ^ 63 ≤ s ∧ s < 2 ^ 63 ∧ n < 10 ^ 9
  | .f64, .f64 b => b ≠ 0x8000000000000000
  | _, _ => False

/-- The type of a field. -/
inductive Ty where
  /-- a basic type -/
  | prim (p : Prim)
  /-- a pointer to the struct of that name -/
  | ptr (name : String)
  /-- a slice -/
  | slc (elem : Ty)
  /-- a map with keys of a basic type -/
  | map (key : Prim) (elem : Ty)
  /-- a struct by value: the number of slots of the template's `maxFields`,
  and for each field its key, whether it is left out when empty, and its type -/
  | rct (slots : Nat) (fields : List (String × Bool × Ty))

/-- A field: key, whether it is left out when empty, type. -/
abbrev Field := String × Bool × Ty

/-- The key of a field, for instance `"Seqno_zid09_u64"`. -/
def Field.key (f : Field) : String := f.1
/-- Is the field left out when empty?  In `fieldsNotEmpty`, a line
`isempty[i] = false` says no (hdr_gen.go 1347-1369, tube/tube_gen.go 17316-). -/
def Field.omit (f : Field) : Bool := f.2.1
/-- The type of the field. -/
def Field.ty (f : Field) : Ty := f.2.2

/-- A struct declaration: `maxFields` of the template and the fields. -/
structure Struct where
  slots : Nat
  fields : List Field

/-- The struct declarations, by name. -/
abbrev Env := String → Struct

/-- A value. -/
inductive Val where
  | prim (x : PVal)
  /-- a nil pointer -/
  | nil
  | list (vs : List Val)
  | map (kvs : List (PVal × Val))
  /-- a struct, or a pointer to one: the values of its fields -/
  | rct (vs : List Val)

mutual
/-- The zero value of a type. -/
def Ty.zero : Ty → Val
  | .prim p => .prim p.zero
  | .ptr _ => .nil
  | .slc _ => .list []
  | .map _ _ => .map []
  | .rct _ fs => .rct (Ty.zeros fs)
/-- The zero values of a list of fields. -/
def Ty.zeros : List (String × Bool × Ty) → List Val
  | [] => []
  | (_, _, t) :: fs => t.zero :: Ty.zeros fs
end

mutual
/-- `v` is a value of type `t`: lengths fit into 32 bits, keys of a map differ. -/
def Has (E : Env) : Ty → Val → Prop
  | .prim p, .prim x => p.Has x
  | .ptr _, .nil => True
  | .ptr n, .rct vs => HasFields E (E n).fields vs
  | .slc t, .list vs => vs.length < 2 ^ 32 ∧ HasAll E t vs
  | .map k t, .map kvs =>
      kvs.length < 2 ^ 32 ∧ (kvs.map (·.1)).Nodup ∧ HasMap E k t kvs
  | .rct _ fs, .rct vs => HasFields E fs vs
  | _, _ => False
/-- Every element is a value of type `t`. -/
def HasAll (E : Env) (t : Ty) : List Val → Prop
  | [] => True
  | v :: vs => Has E t v ∧ HasAll E t vs
/-- Every pair has a key of kind `k` and a value of type `t`. -/
def HasMap (E : Env) (k : Prim) (t : Ty) : List (PVal × Val) → Prop
  | [] => True
  | (x, v) :: kvs => k.Has x ∧ Has E t v ∧ HasMap E k t kvs
/-- One value for each field, of the field's type. -/
def HasFields (E : Env) : List Field → List Val → Prop
  | [], [] => True
  | f :: fs, v :: vs => Has E f.ty v ∧ HasFields E fs vs
  | _, _ => False
end

/-- The functions of the `msgp` library that generated code calls.  The library
is not in `/repo`. -/
structure Lib where
  /-- `msgp.AppendString` and the other basic `Append` functions: what they append -/
  put : Prim → PVal → Bytes
  /-- `nbs.ReadStringBytes` and the others: value and rest, or an error -/
  get : Prim → Bytes → Option (PVal × Bytes)
  /-- `msgp.AppendMapHeader` -/
  mapHdr : Nat → Bytes
  /-- `nbs.ReadMapHeaderBytes` -/
  getMapHdr : Bytes → Option (Nat × Bytes)
  /-- `msgp.AppendArrayHeader` -/
  arrHdr : Nat → Bytes
  /-- `nbs.ReadArrayHeaderBytes` -/
  getArrHdr : Bytes → Option (Nat × Bytes)
  /-- `msgp.Skip` -/
  skip : Bytes → Option Bytes

/-- `msgp.AppendNil`: the byte 0xc0. -/
def nilByte : UInt8 := 0xc0

/-- `msgp.IsNil`: the next object is nil. -/
def isNil : Bytes → Bool
  | b :: _ => b == nilByte
  | [] => false

/-- The bytes of a field's key.  The generated code contains them as a literal,
the key encoded as a string (hdr_gen.go 771: 0xb1 and seventeen characters). -/
def keyStr (k : String) : PVal := .str k.toUTF8.data.toList

/-- Is a field empty?  `fieldsNotEmpty` compares numbers with 0, takes `len` of
strings, byte slices, slices and maps, `IsZero` of times, `== nil` of pointers
(hdr_gen.go 356-451, tube/tube_gen.go 375-490).  A struct by value is never
empty. -/
def isEmpty : Ty → Val → Bool
  | .prim p, .prim x => x == p.zero
  | .ptr _, .nil => true
  | .slc _, .list [] => true
  | .map _ _, .map [] => true
  | _, _ => false

/-- `empty[i]` of `MarshalMsg`: the field is not written. -/
def dropped (f : Field) (v : Val) : Bool := f.omit && isEmpty f.ty v

/-- `fieldsInUse`, the result of `fieldsNotEmpty`: it starts at the number of
fields and is decremented for each empty one (hdr_gen.go 356-451). -/
def fieldsInUse : List Field → List Val → Nat
  | f :: fs, v :: vs => fieldsInUse fs vs + (if dropped f v then 0 else 1)
  | _, _ => 0

mutual
/-- `MarshalMsg`, the part for one value: hdr_gen.go 757-906 (basic fields, a
map), 1450-1490 (a struct by value), tube/tube_gen.go 850-1058 and 10038-10158
(pointers and slices). -/
def enc (L : Lib) (E : Env) : Ty → Val → Bytes
  | .prim p, .prim x => L.put p x
  | .ptr _, .nil => [nilByte]
  | .ptr n, .rct vs => L.mapHdr (fieldsInUse (E n).fields vs) ++ encFields L E (E n).fields vs
  | .slc t, .list vs => L.arrHdr vs.length ++ encAll L E t vs
  | .map k t, .map kvs => L.mapHdr kvs.length ++ encMap L E k t kvs
  | .rct _ fs, .rct vs => L.mapHdr (fieldsInUse fs vs) ++ encFields L E fs vs
  | _, _ => []
/-- The loop over the elements of a slice (tube/tube_gen.go 10053-10067). -/
def encAll (L : Lib) (E : Env) (t : Ty) : List Val → Bytes
  | [] => []
  | v :: vs => enc L E t v ++ encAll L E t vs
/-- The loop over a map (hdr_gen.go 815-822). -/
def encMap (L : Lib) (E : Env) (k : Prim) (t : Ty) : List (PVal × Val) → Bytes
  | [] => []
  | (x, v) :: kvs => L.put k x ++ (enc L E t v ++ encMap L E k t kvs)
/-- The fields of a struct, one after the other: key and value, unless the field
is left out (hdr_gen.go 769-905). -/
def encFields (L : Lib) (E : Env) : List Field → List Val → Bytes
  | f :: fs, v :: vs =>
      (if dropped f v then [] else L.put .str (keyStr f.key) ++ enc L E f.ty v) ++
        encFields L E fs vs
  | _, _ => []
end

mutual
/-- What a missing field, or one that is nil in the input, does to the target:
basic values are set to zero, slices cut to length 0, maps emptied; a pointer
that is nil stays nil, any other pointer stays and the struct behind it is reset
(hdr_gen.go 955-1180, tube/tube_gen.go 1202-1205, 1263-1273, 1360-1368). -/
def reset (E : Env) : Ty → Val → Val
  | .prim p, _ => .prim p.zero
  | .slc _, _ => .list []
  | .map _ _, _ => .map []
  | .ptr n, .rct vs => .rct (resetAll E (E n).fields vs)
  | .ptr _, _ => .nil
  | .rct _ fs, .rct vs => .rct (resetAll E fs vs)
  | .rct n fs, _ => (Ty.rct n fs).zero
/-- The same for all fields of a struct. -/
def resetAll (E : Env) : List Field → List Val → List Val
  | f :: fs, v :: vs => reset E f.ty v :: resetAll E fs vs
  | _, _ => []
end

/-- What the decoder of one value is: target before, input; target after, rest
of the input, or an error. -/
abbrev Dec := Ty → Val → Bytes → Option (Val × Bytes)

/-- The loop `for i := range z.F` over a slice of `n` elements, whose old
elements are decoded into (tube/tube_gen.go 1213-1247). -/
def decAll (dec : Dec) (t : Ty) : Nat → List Val → Bytes → Option (List Val × Bytes)
  | 0, _, b => some ([], b)
  | n + 1, olds, b =>
      match dec t (olds.headD t.zero) b with
      | none => none
      | some (v, b) =>
        match decAll dec t n olds.tail b with
        | none => none
        | some (vs, b) => some (v :: vs, b)

/-- `m[k] = v`. -/
def setKey (k : PVal) (v : Val) : List (PVal × Val) → List (PVal × Val)
  | [] => [(k, v)]
  | (k', v') :: m => if k' = k then (k, v) :: m else (k', v') :: setKey k v m

/-- The loop over the pairs of a map, each decoded into fresh variables
(tube/tube_gen.go 1383-1397). -/
def decMap (L : Lib) (dec : Dec) (k : Prim) (t : Ty) :
    Nat → List (PVal × Val) → Bytes → Option (List (PVal × Val) × Bytes)
  | 0, m, b => some (m, b)
  | n + 1, m, b =>
      match L.get k b with
      | none => none
      | some (x, b) =>
        match dec t t.zero b with
        | none => none
        | some (v, b) => decMap L dec k t n (setKey x v m) b

/-- Which `case` of the `switch curField` a key selects. -/
def caseOf (fs : List Field) (k : PVal) : Option Nat := fs.findIdx? fun f => keyStr f.key == k

/-- The loop over the encoded fields: a key selects a field, sets `found` and
decodes the value into the field; a key that selects none has its value skipped
(hdr_gen.go 930-950 and the cases, 1180-1186). -/
def decKeys (L : Lib) (dec : Dec) (fs : List Field) :
    Nat → List Val → List Bool → Bytes → Option (List Val × List Bool × Bytes)
  | 0, vs, found, b => some (vs, found, b)
  | n + 1, vs, found, b =>
      match L.get .str b with
      | none => none
      | some (k, b) =>
        match caseOf fs k with
        | none =>
          match L.skip b with
          | none => none
          | some b => decKeys L dec fs n vs found b
        | some i =>
          match fs[i]?, vs[i]? with
          | some f, some v =>
            match dec f.ty v b with
            | none => none
            | some (v, b) => decKeys L dec fs n (vs.set i v) (found.set i true) b
          | _, _ => none

/-- The loop over the missing fields: the first `left` fields that were not
found, in order, are reset (hdr_gen.go 951-965). -/
def resetMissing (E : Env) : List Field → List Val → List Bool → Nat → List Val
  | f :: fs, v :: vs, fd :: found, left =>
      if fd then v :: resetMissing E fs vs found left
      else match left with
        | 0 => v :: resetMissing E fs vs found 0
        | left + 1 => reset E f.ty v :: resetMissing E fs vs found left
  | _, vs, _, _ => vs

/-- `missingFieldsLeft := maxFields - totalEncodedFields`, a `uint32`
(hdr_gen.go 927). -/
def missingLeft (slots total : Nat) : Nat := (slots + 2 ^ 32 - total % 2 ^ 32) % 2 ^ 32

/-- `UnmarshalMsgWithCfg` of a struct whose input is not nil
(hdr_gen.go 909-1188). -/
def decStruct (L : Lib) (E : Env) (dec : Dec) (slots : Nat) (fs : List Field) (old : List Val)
    (b : Bytes) : Option (List Val × Bytes) :=
  match L.getMapHdr b with
  | none => none
  | some (total, b) =>
    match decKeys L dec fs total old (fs.map fun _ => false) b with
    | none => none
    | some (vs, found, b) => some (resetMissing E fs vs found (missingLeft slots total), b)

/-- The fields of the target of a struct: those it has, or fresh ones if the
pointer is nil, `new(T)` (tube/tube_gen.go 1283-1285). -/
def target (fs : List Field) : Val → List Val
  | .rct vs => vs
  | _ => Ty.zeros fs

/-- `UnmarshalMsgWithCfg`, the part for one value.  The first argument bounds
the nesting; `unmarshal` starts it at the length of the input, which every level
of nesting shortens. -/
def dec (L : Lib) (E : Env) : Nat → Dec
  | 0, _, _, _ => none
  | n + 1, .prim p, _, b =>
      if p = .bin ∧ isNil b = true then some (.prim p.zero, b.tail)
      else (L.get p b).map fun r => (.prim r.1, r.2)
  | n + 1, .ptr s, old, b =>
      if isNil b then some (reset E (.ptr s) old, b.tail)
      else (decStruct L E (dec L E n) (E s).slots (E s).fields (target (E s).fields old) b).map
        fun r => (.rct r.1, r.2)
  | n + 1, .slc t, old, b =>
      match L.getArrHdr b with
      | none => none
      | some (k, b) =>
        (decAll (dec L E n) t k (match old with | .list vs => vs | _ => []) b).map
          fun r => (.list r.1, r.2)
  | n + 1, .map k t, _, b =>
      match L.getMapHdr b with
      | none => none
      | some (c, b) => (decMap L (dec L E n) k t c [] b).map fun r => (.map r.1, r.2)
  | n + 1, .rct s fs, old, b =>
      if isNil b then some (reset E (.rct s fs) old, b.tail)
      else (decStruct L E (dec L E n) s fs (target fs old) b).map fun r => (.rct r.1, r.2)

/-- `z.MarshalMsg(nil)` for a struct. -/
def marshal (L : Lib) (E : Env) (s : Struct) (v : Val) : Bytes :=
  enc L E (.rct s.slots s.fields) v

/-- `z.UnmarshalMsg(b)` for a struct whose fields are `old`: the value of `z`
afterwards and the rest of the input, or an error. -/
def unmarshal (L : Lib) (E : Env) (s : Struct) (old : Val) (b : Bytes) : Option (Val × Bytes) :=
  dec L E (b.length + 1) (.rct s.slots s.fields) old b

end Verif.Greenpack
