/-
Directory sync (jsync/dirtaker.go, dirgiver.go, dirscan.go, walk.go): the giver lists its
directory, the taker makes directories, writes links, asks for the files it takes to have
changed, and deletes what the giver does not list. `useTempDir` is false (dirtaker.go:30).

Simplified throughout:
* The file system is a map from absolute paths to directories, regular files and symbolic
  links; no devices, hard links, owners, and no denial by permission bits (as for root).
  Directories have no times of their own.
* Times are nanoseconds since 1970.
* The giver does not change during a sync, and the transfer of one file (modelled in
  Model/Sync.lean, theorems C43 and C44) delivers the giver's contents. A transfer is one
  step: the file `..._accept_plan_tmp_...` it is collected in is left out.
* The operations of the workers on single paths are atomic, in any order.
* Neither root has a trailing slash; both are absolute and clean.
-/
namespace Verif.DirSync

/-- One component of a path. -/
abbrev Name := List Char

/-- A path from the root of the file system, or below the root of a sync. -/
abbrev Path := List Name

/-- What a path leads to: permission bits and, for files and links, the modification time. -/
inductive Entry where
  | dir (mode : Nat)
  | file (data : List UInt8) (mode mtime : Nat)
  | link (target : List Char) (mtime : Nat)
deriving DecidableEq, Repr

def Entry.isDir : Entry → Bool
  | .dir _ => true
  | _ => false

def Entry.isLink : Entry → Bool
  | .link _ _ => true
  | _ => false

/-- A file system; the root directory is not in the list. -/
abbrev FS := List (Path × Entry)

/-- The entry of a path, links not followed. -/
def get (fs : FS) (p : Path) : Option Entry := (fs.find? (fun x => x.1 = p)).map (·.2)

def del (fs : FS) (p : Path) : FS := fs.filter (fun x => x.1 ≠ p)

def set (fs : FS) (p : Path) (e : Entry) : FS := (p, e) :: del fs p

/-- Everything at and below a path is removed. -/
def delBelow (fs : FS) (p : Path) : FS := fs.filter (fun x => !p.isPrefixOf x.1)

/-- The components of the text of a link (as the kernel splits it). -/
def split : List Char → List Name
  | [] => [[]]
  | c :: cs =>
    if c = '/' then [] :: split cs
    else match split cs with
      | [] => [[c]]
      | n :: ns => (c :: n) :: ns

def dot : Name := ['.']
def dotdot : Name := ['.', '.']

/-- The kernel's walk along the components of a path, from the directory `cur`; at a link that
is followed it goes on with `k`. The last component may be absent. -/
def go (fs : FS) (k : Path → List Name → Option Path) (follow : Bool) :
    Path → List Name → Option Path
  | cur, [] => some cur
  | cur, c :: cs =>
    if c = [] ∨ c = dot then go fs k follow cur cs
    else if c = dotdot then go fs k follow cur.dropLast cs
    else match get fs (cur ++ [c]) with
      | some (.dir _) => go fs k follow (cur ++ [c]) cs
      | some (.file _ _ _) => if cs = [] then some (cur ++ [c]) else none
      | some (.link t _) =>
        if cs = [] ∧ follow = false then some (cur ++ [c])
        else k (if t.head? = some '/' then [] else cur) (split t ++ cs)
      | none => if cs = [] then some (cur ++ [c]) else none

/-- The walk with at most so many links. -/
def walk (fs : FS) (follow : Bool) : Nat → Path → List Name → Option Path
  | 0 => go fs (fun _ _ => none) follow
  | n + 1 => go fs (walk fs follow n) follow

/-- Where a path leads to (path_resolution(7): at most 40 links). -/
def namei (fs : FS) (follow : Bool) (p : Path) : Option Path := walk fs follow 40 [] p

/-- os.Stat. The root is a directory. -/
def stat (fs : FS) (p : Path) : Option Entry :=
  match namei fs true p with
  | some [] => some (.dir 0o755)
  | some q => get fs q
  | none => none

/-- os.Lstat. -/
def lstat (fs : FS) (p : Path) : Option Entry :=
  match namei fs false p with
  | some [] => some (.dir 0o755)
  | some q => get fs q
  | none => none

/-- os.MkdirAll(path, 0700): from the first component on. -/
def mkdirGo (fs : FS) (cur : Path) : List Name → Option FS
  | [] => some fs
  | c :: cs =>
    match stat fs (cur ++ [c]) with
    | some (.dir _) => mkdirGo fs (cur ++ [c]) cs
    | some _ => none
    | none =>
      match namei fs false (cur ++ [c]) with
      | some q => if get fs q = none then mkdirGo (set fs q (.dir 0o700)) (cur ++ [c]) cs else none
      | none => none

def mkdirAll (fs : FS) (p : Path) : Option FS := mkdirGo fs [] p

/-- os.Chmod: follows links. -/
def chmod (fs : FS) (p : Path) (mode : Nat) : Option FS :=
  match namei fs true p with
  | some q =>
    match get fs q with
    | some (.dir _) => some (set fs q (.dir mode))
    | some (.file d _ t) => some (set fs q (.file d mode t))
    | _ => none
  | none => none

/-- Something lies below a path. -/
def hasBelow (fs : FS) (p : Path) : Bool := fs.any (fun x => p.isPrefixOf x.1 && x.1 != p)

/-- os.Remove with its error ignored: a directory only when empty. -/
def remove (fs : FS) (p : Path) : FS :=
  match namei fs false p with
  | some q =>
    match get fs q with
    | some (.dir _) => if hasBelow fs q then fs else del fs q
    | _ => del fs q
  | none => fs

/-- os.RemoveAll with its error ignored. -/
def removeAll (fs : FS) (p : Path) : FS :=
  match namei fs false p with
  | some q => if q = [] then fs else delBelow fs q
  | none => fs

/-- os.Symlink. -/
def symlink (fs : FS) (p : Path) (target : List Char) (mtime : Nat) : Option FS :=
  match namei fs false p with
  | some q => if q ≠ [] ∧ get fs q = none then some (set fs q (.link target mtime)) else none
  | none => none

/-- fileutil_unix.go:41-45 `updateLinkModTime`: microseconds. -/
def micro (ns : Nat) : Nat := ns / 1000 * 1000

/-- fileutil_unix.go:41-45 on a path known to be a link; an error is ignored. -/
def lutimes (fs : FS) (p : Path) (mtime : Nat) : FS :=
  match namei fs false p with
  | some q =>
    match get fs q with
    | some (.link t _) => set fs q (.link t (micro mtime))
    | _ => fs
  | none => fs

/-- dirscan.go `File`: the path below the giver's root, and what the scan flags, FileMode,
ModTime, SymLinkTarget say; for a file also the contents the giver will send (so Size is their
length). -/
inductive Kind where
  | leaf (mode : Nat)
  | mid (mode : Nat)
  | link (target : List Char) (mtime : Nat)
  | file (data : List UInt8) (mode mtime : Nat)
deriving DecidableEq, Repr

structure Rec where
  path : List Name
  kind : Kind
deriving DecidableEq, Repr

/-- filepath.Join(root, path) with a clean absolute root: cleaned by the text alone. -/
def join (root : Path) (path : List Name) : Path :=
  path.foldl (fun p c => if c = [] ∨ c = dot then p else if c = dotdot then p.dropLast else p ++ [c]) root

/-- strings.HasPrefix(f.Path, "..") (dirtaker.go:344). -/
def startsDotdot (path : List Name) : Bool :=
  match path with
  | c :: _ => dotdot.isPrefixOf c
  | [] => false

/-- The request: the target directory, DryRun, and whether the giver chunks in parallel. -/
structure Req where
  root : Path
  dry : Bool
  par : Bool
deriving DecidableEq, Repr

/-- walk.go:617-747 `ParallelWalk` of the target, by paths below it, and whether each is a
directory. Links are not followed; the target itself is in the list. Simplified: the walk
itself is the package parallelwalk, taken to visit everything below the target once. -/
def catalog (fs : FS) (root : Path) : List (Path × Bool) :=
  match lstat fs root with
  | some (.dir _) =>
    match namei fs false root with
    | some q => (fs.filter (fun x => q.isPrefixOf x.1)).map (fun x => (x.1.drop q.length, x.2.isDir))
    | none => []
  | some _ => [([], false)]
  | none => []

/-- State of the taker while it reads the listing: `failed` when DirTaker has panicked or
returned, `upd` is needUpdate. -/
structure St where
  fs : FS
  upd : List Rec := []
  failed : Bool := false

/-- dirtaker.go:623-655: the link must be written. -/
def writeLink (fs : FS) (p : Path) (target : List Char) (mtime : Nat) : Option FS :=
  (symlink (remove fs p) p target mtime).map (fun fs => lutimes fs p mtime)

/-- dirtaker.go:605-658 `takeOneFile` for a link. -/
def takeLink (fs : FS) (p : Path) (target : List Char) (mtime : Nat) : Option FS :=
  match lstat fs p with
  | some (.link t m) =>
    if t ≠ target then writeLink fs p target mtime
    else if m ≠ mtime then some (lutimes fs p mtime)
    else some fs
  | _ => writeLink fs p target mtime

def second (ns : Nat) : Nat := ns / 1000000000

/-- dirtaker.go:585-605, 660-667 `takeOneFile` for a file: size, or time in seconds, differs.
Simplified: a directory in its place always differs (its size and time are not modelled). -/
def needs (cur : Option Entry) (data : List UInt8) (mtime : Nat) : Bool :=
  match cur with
  | none => true
  | some (.dir _) => true
  | some (.file d _ m) => second m != second mtime || d.length != data.length
  | some (.link t m) => second m != second mtime || t.length != data.length

/-- One file of the listing (dirtaker.go:337-381). After a failure nothing more is done; the
workers that are busy when another fails are covered by the order of the listing. -/
def take (rq : Req) (s : St) (r : Rec) : St :=
  if s.failed then s else
  match r.kind with
  | .leaf _ =>
    if startsDotdot r.path then { s with failed := true }
    else match mkdirAll s.fs (join rq.root r.path) with
      | some fs => { s with fs := fs }
      | none => { s with failed := true }
  | .mid mode =>
    match chmod s.fs (join rq.root r.path) mode with
    | some fs => { s with fs := fs }
    | none => { s with failed := true }
  | .link target mtime =>
    match takeLink s.fs (join rq.root r.path) target mtime with
    | some fs => { s with fs := fs }
    | none => { s with fs := remove s.fs (join rq.root r.path), failed := true }
  | .file data _ mtime =>
    if needs (lstat s.fs (join rq.root r.path)) data mtime then { s with upd := s.upd ++ [r] } else s

/-- The bits a new file is given (taker.go:702-712, 779-791): for an empty file the giver's
summary has no bits when chunking in parallel (parallel.go:119-122, rsync.go:862-910). -/
def newMode (par : Bool) (data : List UInt8) (mode : Nat) : Nat :=
  if mode = 0 ∨ (data = [] ∧ par) then 0o600 else mode

/-- One file requested (dirtaker.go:757-935, taker.go:130-189, 347-396, 668-720, 733-812);
`none` when the worker panics. An existing file that is not empty makes the assertion of
dirtaker.go:845-848 panic, a directory the chunking or taker.go:180-182. Otherwise contents are
written to a new file that is renamed to the path; an empty file is made, or kept, in place
(taker.go:766-812, 366-396), links followed. -/
def transfer (rq : Req) (fs : FS) (r : Rec) : Option FS :=
  match r.kind with
  | .file data mode mtime =>
    match stat fs (join rq.root r.path) with
    | some (.dir _) => none
    | some (.link _ _) => none
    | some (.file (_ :: _) _ _) => none
    | _ =>
      match namei fs (data = []) (join rq.root r.path) with
      | some q => if q = [] then none else some (set fs q (.file data (newMode rq.par data mode) mtime))
      | none => none
  | _ => some fs

/-- State during the requests: `panicked` when a worker has. -/
structure Up where
  fs : FS
  panicked : Bool := false

/-- The workers' loop (dirtaker.go:722-956). Once a worker has panicked the batch is stopped:
a file for which `skip` holds is not requested any more. -/
def update (rq : Req) (skip : Rec → Bool) (u : Up) (r : Rec) : Up :=
  if u.panicked && skip r then u
  else match transfer rq u.fs r with
    | some fs => { u with fs := fs }
    | none => { u with panicked := true }

/-- One path left in the catalog (dirtaker.go:463-483). -/
def prune (rq : Req) (listed : List (List Name)) (fs : FS) (c : Path × Bool) : FS :=
  if c.1 = [] ∨ c.1 ∈ listed ∨ rq.dry then fs
  else if c.2 then removeAll fs (join rq.root c.1)
  else remove fs (join rq.root c.1)

/-- What the goroutines' scheduling and Go's map order decide: the order of the requests, the
files not requested any more after a panic, and the order of the deletions. -/
structure Sched where
  ordU : List Rec → List Rec
  skip : Rec → Bool
  ordD : List (Path × Bool) → List (Path × Bool)

/-- The end of a sync: `ok` when it reports success. -/
structure Out where
  fs : FS
  ok : Bool
  asked : List Rec

/-- dirtaker.go:237-509: the taker's run over a listing. The error of the requests is only
printed (dirtaker.go:416-420). The times of the target itself (dirtaker.go:484-488) are left
out. -/
def run (rq : Req) (sch : Sched) (fs : FS) (listing : List Rec) : Out :=
  let s := listing.foldl (take rq) { fs := fs }
  if s.failed then { fs := s.fs, ok := false, asked := [] }
  else
    let u := (sch.ordU s.upd).foldl (update rq sch.skip) { fs := s.fs }
    { fs := (sch.ordD (catalog fs rq.root)).foldl (prune rq (listing.map (·.path))) u.fs
      ok := true
      asked := s.upd }

/-- What lies at and below the giver's root, by paths below it. -/
def below (fs : FS) (root : Path) : List (Path × Entry) :=
  (fs.filter (fun x => root.isPrefixOf x.1)).map (fun x => (x.1.drop root.length, x.2))

/-- walk.go:369-377: a directory has a subdirectory. -/
def hasSub (es : List (Path × Entry)) (r : Path) : Bool :=
  es.any (fun x => x.2.isDir && (r.isPrefixOf x.1 && x.1.length == r.length + 1))

/-- walk.go:344-505 `OneWalkForAll` for one entry. -/
def recOf (es : List (Path × Entry)) (x : Path × Entry) : Rec :=
  match x.2 with
  | .dir m => if hasSub es x.1 then ⟨x.1, .mid m⟩ else ⟨x.1, .leaf m⟩
  | .file d m t => ⟨x.1, .file d m t⟩
  | .link t m => ⟨x.1, .link t m⟩

def Rec.isLeaf (r : Rec) : Bool :=
  match r.kind with
  | .leaf _ => true
  | _ => false

/-- dirscan.go:395-535 `ScanDirTreeOnePass`: the directories without subdirectories. -/
def leaves (fs : FS) (root : Path) : List Rec :=
  ((below fs root).map (recOf (below fs root))).filter Rec.isLeaf

/-- dirscan.go:395-535: files and links, then the other directories. The workers of the taker
handle them in any order, also among the directories, so the two are not told apart. -/
def others (fs : FS) (root : Path) : List Rec :=
  ((below fs root).map (recOf (below fs root))).filter (fun r => !r.isLeaf)

end Verif.DirSync
