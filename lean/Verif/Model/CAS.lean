/-
Model of the content-addressed store, /repo/jsync/cas.go. Files are byte lists; the s2 codec
and the Blake3 string hash are parameters. `none` is a panic. One operation at a time (the
code serialises Append and disk Gets with s.mut). Not modelled: preallocation, fsync
failures, crashes in the middle of Append, the byte totals kept for statistics.
-/
namespace Verif.CAS

abbrev Bytes := List UInt8

/-- cas.go:636-658 `CASIndexEntry`. int32 fields are integers here; the marshalling
below reduces them to 32 bits. -/
structure Entry where
  blake3 : Bytes
  beg : Nat
  clen : Int
  ulen : Int
deriving DecidableEq, Repr

/-- cas.go:767-772 `fromInt32`: big-endian two's complement. -/
def fromInt32 (i : Int) : Bytes :=
  let n := (i % 4294967296).toNat
  [UInt8.ofNat (n / 16777216 % 256), UInt8.ofNat (n / 65536 % 256), UInt8.ofNat (n / 256 % 256),
   UInt8.ofNat (n % 256)]

/-- cas.go:758-761 `toInt32`. The bytes occupy disjoint bit ranges, so | is +; the top
bit is the sign. -/
def toInt32 (b0 b1 b2 b3 : UInt8) : Int :=
  let n : Int := b0.toNat * 16777216 + b1.toNat * 65536 + b2.toNat * 256 + b3.toNat
  if n < 2147483648 then n else n - 4294967296

/-- cas.go:702-717 `ManualMarshalMsg`. `Blake3[:55]` panics on a shorter string. -/
def marshal (e : Entry) : Option Bytes :=
  if e.blake3.length < 55 then none
  else some (10 :: e.blake3.take 55 ++ fromInt32 e.clen ++ fromInt32 e.ulen)

/-- cas.go:721-727 `ManualUnmarshalMsg`: entry (Beg left zero) and the remaining bytes.
Slicing past the end panics. -/
def unmarshal (b : Bytes) : Option (Entry × Bytes) :=
  match b.drop 56 with
  | c0 :: c1 :: c2 :: c3 :: u0 :: u1 :: u2 :: u3 :: rest =>
    some (⟨(b.take 56).drop 1, 0, toInt32 c0 c1 c2 c3, toInt32 u0 u1 u2 u3⟩, rest)
  | _ => none

/-- Beg of the record after one at `beg`: `endx := beg + int64(e.Clen)`; negative offsets
cannot come from a file Append wrote and are cut to 0 here. -/
def nextBeg (beg : Nat) (e : Entry) : Nat := (beg + e.clen).toNat

/-- The record loop of cas.go:153-238 `loadIndex`. The code reads 1 MB (16384 whole records) at
a time, so records never straddle reads; here all at once. A torn tail or a repeated
hash panics. `fuel` only bounds the recursion; callers give the file length. -/
def loadRecords : (fuel : Nat) → (beg : Nat) → (seen : List Entry) → Bytes → Option (List Entry)
  | _, _, seen, [] => some seen
  | 0, _, _, _ :: _ => none
  | fuel + 1, beg, seen, b =>
    match unmarshal b with
    | none => none
    | some (e0, rest) =>
      let e := { e0 with beg := beg }
      if seen.any (fun x => x.blake3 == e.blake3) then none
      else loadRecords fuel (nextBeg beg e) (seen ++ [e]) rest

/-- cas.go:153-238 `loadIndex`. -/
def loadIndex (file : Bytes) : Option (List Entry) := loadRecords file.length 0 [] file

/-- cas.go:30-76 `CASIndex`: both files, the sync.Map index (a list in insertion order),
the cache mapData, and memkeys (nMemBlob is its length). -/
structure Store where
  data : Bytes := []
  indexFile : Bytes := []
  index : List Entry := []
  mapData : List (Bytes × Bytes) := []
  memkeys : List Bytes := []
  maxMemBlob : Nat
deriving DecidableEq, Repr

/-- s.index.Load. -/
def findEntry (l : List Entry) (k : Bytes) : Option Entry := l.find? (fun e => e.blake3 == k)

/-- s.mapData.Load. -/
def findData (l : List (Bytes × Bytes)) (k : Bytes) : Option Bytes :=
  (l.find? (fun p => p.1 == k)).map (·.2)

/-- cas.go:578-632 `addToMapData`; `ev` is the pseudo random number. -/
def addToMapData (s : Store) (k v : Bytes) (ev : Nat) : Option Store :=
  if s.maxMemBlob = 0 then some s
  else
    let m := if (findData s.mapData k).isSome then s.mapData else (k, v) :: s.mapData
    if s.memkeys.length = s.maxMemBlob then
      let i := ev % s.memkeys.length
      match s.memkeys[i]? with
      | none => none
      | some victim =>
        if (findData m victim).isNone then none
        else some { s with mapData := m.filter (fun p => p.1 != victim), memkeys := s.memkeys.set i k }
    else some { s with mapData := m, memkeys := s.memkeys ++ [k] }

section
variable (H : Bytes → Bytes) (enc : Bytes → Bytes) (dec : Bytes → Option Bytes)

/-- cas.go:370-441 `Get`: result (none is not found) and the new state. The header check's
error is overwritten by the next assignment to err, so it has no effect. -/
def get (s : Store) (k : Bytes) (ev : Nat) : Option (Option Bytes × Store) :=
  match findEntry s.index k with
  | none => some (none, s)
  | some e =>
    match findData s.mapData k with
    | some v => some (some v, s)
    | none =>
      if e.clen ≤ 64 then none
      else if e.clen > 1048576 then none   -- s.workbuf[:sz] out of range
      else
        let buf := (s.data.drop e.beg).take e.clen.toNat
        if buf.length < e.clen.toNat then none
        else match dec (buf.drop 64) with
          | none => none
          | some data =>
            if e.ulen ≠ data.length then none
            else match addToMapData s e.blake3 data ev with
              | none => none
              | some s' => some (some data, s')

/-- One blob of cas.go:443-572 `Append`. The index record is buffered and flushed at the end
of the call in the code; a panic in between loses the store object, so here it is
appended at once. -/
def appendOne (s : Store) (b : Bytes) (ev : Nat) : Option Store :=
  if b = [] then none
  else
    let k := H b
    let alreadyData := (findData s.mapData k).isSome
    let alreadyIndex := (findEntry s.index k).isSome
    if alreadyIndex ≠ alreadyData then none
    else if alreadyData then some s
    else
      let c := enc b
      let e : Entry := ⟨k, s.data.length, (c.length : Int) + 64, b.length⟩
      if k.length > 56 then none   -- NewCASIndexEntry
      else match addToMapData s k b ev with
        | none => none
        | some s =>
          match marshal e with
          | none => none
          | some hdr =>
            some { s with index := s.index ++ [e], indexFile := s.indexFile ++ hdr,
                          data := s.data ++ hdr ++ c }

/-- cas.go:443-572 `Append`, each blob with the random number used should it evict. -/
def append (s : Store) : List (Bytes × Nat) → Option Store
  | [] => some s
  | (b, ev) :: bs => match appendOne H enc s b ev with
    | none => none
    | some s' => append s' bs

/-- cas.go:91-150 `NewCASIndex` without VerifyData, on existing files. -/
def reopen (s : Store) (maxMem : Nat) : Option Store :=
  match loadIndex s.indexFile with
  | none => none
  | some es => some { data := s.data, indexFile := s.indexFile, index := es, maxMemBlob := maxMem }

/-- The loop of cas.go:244-368 `verifyDataAgainstIndex`: what is left of the data file, the
offset, the number of records found. The 1 MB window is not modelled: the whole rest of
the file is at hand. Evictions take `ev`. -/
def verifyLoop (ev : Nat) : (fuel : Nat) → Store → Nat → Nat → Bytes → Option (Store × Nat)
  | 0, _, _, _, _ => none
  | fuel + 1, s, beg, found, rest =>
    if ¬ rest.length > 64 then some (s, found)
    else match unmarshal rest with
      | none => none
      | some (e0, after) =>
        let e := { e0 with beg := beg }
        if e.clen < 64 then none
        else
          let sz := (e.clen - 64).toNat
          if after.length < sz then none   -- torn
          else match findEntry s.index e.blake3 with
            | none => none
            | some first =>
              if first ≠ e then none
              else match addToMapData s e.blake3 (after.take sz) ev with
                | none => none
                | some s' => verifyLoop ev fuel s' (nextBeg beg e) (found + 1) (after.drop sz)

/-- cas.go:91-150 `NewCASIndex` with VerifyData. -/
def reopenVerify (s : Store) (maxMem ev : Nat) : Option Store :=
  match reopen s maxMem with
  | none => none
  | some s1 =>
    if s1.data = [] then (if s1.indexFile.length / 64 = 0 then some s1 else none)
    else if s1.data.length < 64 then none
    else match verifyLoop ev (s1.data.length + 1) s1 0 0 s1.data with
      | none => none
      | some (s2, found) => if s1.indexFile.length / 64 = found then some s2 else none

/-- What a user can do. -/
inductive Op
  | append (bs : List (Bytes × Nat))
  | get (k : Bytes) (ev : Nat)
  | reopen (maxMem : Nat)
deriving DecidableEq, Repr

def step (s : Store) : Op → Option Store
  | .append bs => append H enc s bs
  | .get k ev => (get dec s k ev).map (·.2)
  | .reopen m => reopen s m

def run (s : Store) : List Op → Option Store
  | [] => some s
  | o :: os => match step H enc dec s o with
    | none => none
    | some s' => run s' os
end

end Verif.CAS
