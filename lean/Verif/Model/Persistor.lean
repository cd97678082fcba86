import Verif.Model.MsgBin
/-
Model of the durable save of the Raft state, /repo/tube/persistor.go, over a small model of
a POSIX file system.

The file system: file contents live in inodes; an inode is clean when its whole content has been
synced. Directory changes are pending until the directory is synced. A machine crash keeps
clean inodes, leaves arbitrary content in the others, and keeps any selection of the
pending directory changes (each of them atomic). Killing only the process is the special
case where nothing is lost.
-/
namespace Verif.Persistor

open MsgBin (Bytes frame nextframe)

structure Inode where
  data : Bytes
  clean : Bool
deriving DecidableEq, Repr

/-- Name 0 is the state file; name k+1 is the k-th temporary file (the code draws a random
15 byte suffix; that it does not repeat is assumed here). -/
abbrev Name := Nat

inductive DirOp where
  /-- a new directory entry -/
  | link (name ino : Nat)
  /-- rename(src, dst), where src is the file `ino` -/
  | move (src dst ino : Nat)
deriving DecidableEq, Repr

abbrev Dir := Name → Option Nat

def DirOp.apply (d : Dir) : DirOp → Dir
  | .link n i => fun x => if x = n then some i else d x
  | .move s t i => fun x => if x = t then some i else if x = s then none else d x

structure FS where
  inodes : List Inode
  durable : Dir
  pending : List DirOp

/-- The directory as programs see it. -/
def FS.dir (fs : FS) : Dir := fs.pending.foldl DirOp.apply fs.durable

/-- The system calls `save` makes, in order. `tmp` is the number of the new inode; the
temporary file's name is tmp+1. -/
inductive Call where
  | create              -- os.Create(tmppath)
  | write (b : Bytes)   -- fd.Write
  | sync                -- fd.Sync
  | rename              -- os.Rename(tmppath, s.path)
  | syncDir             -- s.parentDirFd.Sync
deriving DecidableEq, Repr

def exec1 (tmp : Nat) (fs : FS) : Call → FS
  | .create =>
    { fs with inodes := fs.inodes ++ [⟨[], false⟩], pending := fs.pending ++ [.link (tmp + 1) tmp] }
  | .write b => { fs with inodes := fs.inodes.modify tmp fun i => ⟨i.data ++ b, false⟩ }
  | .sync => { fs with inodes := fs.inodes.modify tmp fun i => { i with clean := true } }
  | .rename => { fs with pending := fs.pending ++ [.move (tmp + 1) 0 tmp] }
  | .syncDir => { fs with durable := fs.dir, pending := [] }

section
variable {S : Type} (ser : S → Bytes) (deser : Bytes → Option S)
  (serSum : Bytes → Bytes) (deserSum : Bytes → Option Bytes) (H : Bytes → Bytes)

/-- persistor.go:117-160 `save`: the calls made. (`LastSaveTimestamp = now` is part of the
state given.) saveBlake3sumFor writes the frame of the marshalled Blake3sum of the bytes. -/
def saveCalls (st : S) : List Call :=
  [.create, .write (frame (ser st)), .write (frame (serSum (H (ser st)))), .sync, .rename, .syncDir]

/-- The file system after the first k calls of a save. -/
def execSave (fs : FS) (st : S) (k : Nat) : FS :=
  ((saveCalls ser serSum H st).take k).foldl (exec1 fs.inodes.length) fs

/-- The whole save. -/
def save (fs : FS) (st : S) : FS := execSave ser serSum H fs st (saveCalls ser serSum H st).length

/-- persistor.go:162-205 `load` on the content of the file; `none` is a panic. -/
def load (file : Bytes) : Option S :=
  match nextframe file with
  | .ok b rest =>
    match deser b with
    | none => none
    | some st =>
      match nextframe rest with
      | .ok s _ =>
        match deserSum s with
        | none => none
        | some h => if h = H b then some st else none
      | _ => none
  | _ => none

/-- persistor.go:43-91 `NewRaftStatePersistor`: the state found (`none` if the file was empty or
missing), and the file system after. Outer `none` is a panic. -/
def reopen (fs : FS) : Option (Option S × FS) :=
  match fs.dir 0 with
  | none =>
    some (none, { fs with inodes := fs.inodes ++ [⟨[], true⟩],
                          pending := fs.pending ++ [.link 0 fs.inodes.length] })
  | some i =>
    match fs.inodes[i]? with
    | none => none
    | some f =>
      let fs' := { fs with inodes := fs.inodes.modify i fun x => { x with clean := true } }
      if f.data = [] then some (none, fs')
      else (load deser deserSum H f.data).map fun st => (some st, fs')

end

/-- `fs'` is a possible content of the disk after the machine stopped at `fs`. -/
def Crash (fs fs' : FS) : Prop :=
  (∃ kept : List DirOp, kept.Sublist fs.pending ∧ fs'.durable = kept.foldl DirOp.apply fs.durable) ∧
  fs'.pending = [] ∧ fs'.inodes.length = fs.inodes.length ∧
  ∀ (i : Nat) (f : Inode), fs.inodes[i]? = some f → ∃ f' : Inode, fs'.inodes[i]? = some f' ∧ f'.clean = true ∧
    (f.clean = true → f'.data = f.data)

/-- A directory without the state file. -/
def fresh : FS := ⟨[], fun _ => none, []⟩

end Verif.Persistor
