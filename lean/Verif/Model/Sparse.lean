import Verif.Model.CDC
/-
Model of /repo/jsync/sparsified/sparse.go: FindSparseRegions, CopySparseFile, SparseDiff.

A file is its bytes, a map telling which positions hold written, allocated data (what SEEK_DATA finds; reserved
but unwritten space counts as a hole, as on ext4 and xfs), and its disk usage (st_blocks * 512). The file system's
block size is not modelled: a hole may begin and end anywhere. Errors of the system calls other than ENXIO, and
files that change meanwhile, are left out.
-/
namespace Verif.Sparse

abbrev Bytes := List UInt8

structure File where
  bytes : Bytes := []
  data : Nat → Bool := fun _ => false
  disk : Nat := 0

/-- st_size. -/
def File.size (f : File) : Nat := f.bytes.length

/-- lseek(2) SEEK_DATA: the next position at or after `off` that holds data; `none` is ENXIO. -/
def seekData (f : File) (off : Nat) : Option Nat := (List.range' off (f.size - off)).find? f.data

/-- lseek(2) SEEK_HOLE: the next position at or after `off` without data, the end of the file at the latest;
ENXIO from the end of the file on. -/
def seekHole (f : File) (off : Nat) : Option Nat :=
  if f.size ≤ off then none
  else some (((List.range' off (f.size - off)).find? fun i => !f.data i).getD f.size)

/-- sparse.go:263-374 `SparseFileSize`, the flag IsSparse. -/
def isSparse (f : File) : Bool :=
  match seekHole f 0 with
  | none => false
  | some h => decide (h < f.size)

/-- sparse.go:48-61 `SparseSpan`. -/
structure Span where
  hole : Bool := false
  pre : Bool := false
  beg : Nat
  endx : Nat
deriving DecidableEq, Repr

/-- sparse.go:236-243 `SparseSum`, what FindSparseRegions fills in beyond the sizes. -/
structure Sum where
  sparse : Bool
  unwritBeg : Nat := 0
  unwritEndx : Nat := 0
deriving DecidableEq, Repr

/-- The span of a hole before `d`, if there is one (sparse.go:474-481). -/
def holeSpan (off d : Nat) : List Span := if off < d then [{ hole := true, beg := off, endx := d }] else []

/-- sparse.go:450-515, the loop of `FindSparseRegions`; `none` when the fuel does not suffice. -/
def regionLoop (f : File) : Nat → Nat → Option (List Span)
  | 0, off => if off < f.size then none else some []
  | fuel + 1, off =>
    if off < f.size then
      match seekData f off with
      | none => some [{ hole := true, beg := off, endx := f.size }]
      | some d =>
        if f.size ≤ d then some (holeSpan off d)
        else
          match seekHole f d with
          | none => some (holeSpan off d ++ [{ beg := d, endx := f.size }])
          | some h => (regionLoop f fuel h).map fun r => holeSpan off d ++ { beg := d, endx := h } :: r
    else some []

/-- sparse.go:380-516 `FindSparseRegions`. -/
def regions (f : File) : Sum × Option (List Span) :=
  if f.size < f.disk ∧ isSparse f = false then
    (if f.size + 4096 ≤ f.disk then ⟨false, f.size, f.disk⟩ else ⟨false, 0, 0⟩,
     some ((if 0 < f.size then [{ beg := 0, endx := f.size }] else []) ++
       [{ pre := true, beg := f.size, endx := f.disk }]))
  else if isSparse f = false then (⟨false, 0, 0⟩, some [{ beg := 0, endx := f.size }])
  else (⟨true, 0, 0⟩, regionLoop f f.size 0)

/-- ftruncate(2): a grown part is a hole. -/
def File.truncate (f : File) (n : Nat) : File :=
  { f with bytes := f.bytes.take n ++ List.replicate (n - f.size) 0, data := fun i => f.data i && decide (i < n) }

/-- write(2) at position `pos`; a gap before it is a hole. -/
def File.write (f : File) (pos : Nat) (b : Bytes) : File :=
  if b = [] then f
  else
    { f with
      bytes := f.bytes.take pos ++ List.replicate (pos - f.size) 0 ++ b ++ f.bytes.drop (pos + b.length)
      data := fun i => f.data i || decide (pos ≤ i ∧ i < pos + b.length) }

/-- fallocate(2) FALLOC_FL_PUNCH_HOLE|FALLOC_FL_KEEP_SIZE (sparse_linux.go:201-206 adds the second). -/
def File.punch (f : File) (off len : Nat) : File :=
  { f with
    bytes := f.bytes.mapIdx fun i b => if off ≤ i ∧ i < off + len then 0 else b
    data := fun i => f.data i && !decide (off ≤ i ∧ i < off + len) }

/-- io.CopyN(dest, src, sz) with both files at position `beg`. -/
def copyRange (src dst : File) (beg endx : Nat) : File := dst.write beg ((src.bytes.take endx).drop beg)

/-- sparse.go:908-1003, the loop of `CopySparseFile`. -/
def copyLoop (src : File) (didPre : Bool) : Nat → File → Nat → Option File
  | 0, dst, off => if off < src.size then none else some dst
  | fuel + 1, dst, off =>
    if off < src.size then
      match seekData src off with
      | none => some (if didPre then dst else dst.punch off (src.size - off))
      | some d =>
        let dst := if off < d then dst.punch off (d - off) else dst
        if src.size ≤ d then some dst
        else
          match seekHole src d with
          | none => some (copyRange src dst d src.size)
          | some h => copyLoop src didPre fuel (copyRange src dst d h) h
    else some dst

/-- Files by path. -/
abbrev FS := Nat → Option File

def FS.set (fs : FS) (p : Nat) (f : File) : FS := fun q => if q = p then some f else fs q

/-- sparse.go:762-1006 `CopySparseFile`: the files afterwards; `none` is a panic. os.Create empties a file that
is there. Reserving space (FALLOC_FL_KEEP_SIZE) changes neither bytes nor map; the disk usage of the new file is
not followed. -/
def copy (fs : FS) (srcp dstp : Nat) : Option FS :=
  match fs srcp with
  | none => none
  | some _ =>
    let fs := fs.set dstp {}
    match fs srcp with
    | none => none
    | some src =>
      if src.size = 0 then some fs
      else
        let didPre := decide (src.size < src.disk)
        if isSparse src = false then some (fs.set dstp (copyRange src {} 0 src.size))
        else
          let dst : File := if didPre then {} else ({} : File).truncate src.size
          (copyLoop src didPre src.size dst 0).map (fs.set dstp)

/-- sparse.go:606-760, the loop of `SparseDiff`: `some true` is nil, `some false` an error. -/
def diffLoop (a b : File) : Nat → Nat → Option Bool
  | 0, off => if off < a.size then none else some true
  | fuel + 1, off =>
    if off < a.size then
      match seekData a off, seekData b off with
      | none, none => some true
      | none, some _ => some false
      | some _, none => some false
      | some d, some d' =>
        if d ≠ d' then some false
        else if a.size ≤ d then some true
        else
          match seekHole a d, seekHole b d with
          | some h, some h' =>
            if h ≠ h' then some false
            else if (a.bytes.take h).drop d ≠ (b.bytes.take h).drop d then some false
            else diffLoop a b fuel h
          | none, none =>
            if (a.bytes.take a.size).drop d ≠ (b.bytes.take a.size).drop d then some false else none
          | _, _ => some false
    else some true

/-- sparse.go:606-760 `SparseDiff`. -/
def diff (a b : File) : Option Bool :=
  if isSparse a ≠ isSparse b then some false
  else if a.disk ≠ b.disk then some false
  else if a.size ≠ b.size then some false
  else diffLoop a b a.size 0

/-- The regions as the chunker of jcdc/fastcdc4.go:84-186 reads them (Model/CDC); reserved space beyond the end
would read as zeros. -/
def toCDC (f : File) (s : Span) : CDC.Span :=
  if s.hole then .hole ((f.bytes.take s.endx).drop s.beg)
  else if s.pre then .unwrit (List.replicate (s.endx - s.beg) 0)
  else .data ((f.bytes.take s.endx).drop s.beg)

end Verif.Sparse
