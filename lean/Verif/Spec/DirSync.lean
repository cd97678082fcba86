import Verif.Model.DirSync
/-
What directory sync is to do, said with the entries of the two file systems only.
-/
namespace Verif.DirSync

/-- A name of a directory entry. -/
def Proper (c : Name) : Prop := c ≠ [] ∧ c ≠ dot ∧ c ≠ dotdot

instance (c : Name) : Decidable (Proper c) := inferInstanceAs (Decidable (_ ∧ _ ∧ _))

/-- There is a directory at a path. -/
def Dir (fs : FS) (p : Path) : Prop := ∃ m, get fs p = some (.dir m)

/-- What lies below `root` in a file system makes a tree (`root` itself may be absent). -/
structure Tree (fs : FS) (root : Path) : Prop where
  keys : (fs.map (·.1)).Nodup
  names : ∀ r, get fs (root ++ r) ≠ none → ∀ c ∈ r, Proper c
  parents : ∀ r c, get fs (root ++ (r ++ [c])) ≠ none → Dir fs (root ++ r)

/-- Same kind, contents and link target. -/
def Same : Option Entry → Option Entry → Prop
  | none, none => True
  | some (.dir _), some (.dir _) => True
  | some (.file d _ _), some (.file d' _ _) => d = d'
  | some (.link t _), some (.link t' _) => t = t'
  | _, _ => False

/-- The setting of a sync from `g` in `gfs` into `t` in `fs`: two trees, the taker's reached
through directories only; no directory at the giver's top has a name starting with two dots;
the taker has no file or link where the giver has a directory, and no directory where the giver
has a file or link, and no link where the giver has a file. -/
structure Fits (fs : FS) (t : Path) (gfs : FS) (g : Path) : Prop where
  taker : Tree fs t
  giver : Tree gfs g
  giverDir : Dir gfs g
  top : t ≠ []
  topNames : ∀ c ∈ t, Proper c
  above : ∀ q, q ≠ [] → q <+: t → q ≠ t → Dir fs q
  here : get fs t = none ∨ Dir fs t
  noDots : ∀ r, Dir gfs (g ++ r) → startsDotdot r = false
  dirs : ∀ r, Dir gfs (g ++ r) → get fs (t ++ r) = none ∨ Dir fs (t ++ r)
  links : ∀ r tg m, get gfs (g ++ r) = some (.link tg m) → ¬ Dir fs (t ++ r)
  files : ∀ r d m mt, get gfs (g ++ r) = some (.file d m mt) →
    get fs (t ++ r) = none ∨ ∃ d0 m0 mt0, get fs (t ++ r) = some (.file d0 m0 mt0)

/-- The listing of the giver, in any order the scan and the workers may bring about:
directories without subdirectories first. -/
def Listing (gfs : FS) (g : Path) (l : List Rec) : Prop :=
  ∃ a b, l = a ++ b ∧ a.Perm (leaves gfs g) ∧ b.Perm (others gfs g)

/-- The schedule reorders, and neither adds nor loses. -/
def Sched.Fair (s : Sched) : Prop := (∀ l, (s.ordU l).Perm l) ∧ (∀ l, (s.ordD l).Perm l)

/-- There is a link below the target, before the sync or by the listing. -/
def LinkAt (fs : FS) (t : Path) (l : List Rec) (q : Path) : Prop :=
  (∃ tg m, get fs (t ++ q) = some (.link tg m)) ∨ ∃ x ∈ l, x.path = q ∧ ∃ tg m, x.kind = .link tg m

/-- Entries of a listing whose handling follows a link in their place: directories with
subdirectories, and empty files. -/
def Kind.follows : Kind → Bool
  | .mid _ => true
  | .file [] _ _ => true
  | _ => false

/-- A listing that does not lead out of the target: proper names only, and nothing is listed
below a link, nor in the place of a link that would be followed. The target is reached through
directories only. -/
structure Tame (fs : FS) (t : Path) (l : List Rec) : Prop where
  taker : Tree fs t
  top : t ≠ []
  topNames : ∀ c ∈ t, Proper c
  above : ∀ q, q ≠ [] → q <+: t → q ≠ t → Dir fs q
  here : get fs t = none ∨ Dir fs t
  names : ∀ x ∈ l, ∀ c ∈ x.path, Proper c
  noLinks : ∀ x ∈ l, ∀ q, q <+: x.path → LinkAt fs t l q → q = x.path ∧ x.kind.follows = false

end Verif.DirSync
