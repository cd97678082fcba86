import Verif.Model.Omap
/- What the statements about the ordered map are made of. -/
namespace Verif.Omap
variable {K V : Type} [KeyOrder K] [DecidableEq K]

/-- What an operation does to a finite map. -/
def spec (f : K → Option V) : Simple K V → K → Option V
  | .set k v => fun j => if j = k then some v else f j
  | .del k => fun j => if j = k then none else f j
  | .deleteAll => fun _ => none
  | .cached => f

/-- A map some program can have: loops with any bodies (which may set, delete, clear, stop), but no
loop inside the body of another loop over the same map. -/
def Reached (m : Omap K V) : Prop := ∃ ops done, run {} ops = some (m, done)

/-- The finite map that results from what was done, from the empty one. -/
def finiteMap (done : List (Simple K V)) : K → Option V := done.foldl spec fun _ => none

/-- `l` lists the map `f` in ascending key order, each key once. -/
def Lists (f : K → Option V) (l : List (K × V)) : Prop :=
  l.Pairwise (fun a b => a.1 < b.1) ∧ ∀ k v, (k, v) ∈ l ↔ f k = some v

/-- The loop body that deletes the elements for which `p` says so. -/
def deleting (p : Nat → Bool) : Body K V := fun n k _ => (if p n then [.del k] else [], true)

/-- The elements left of `l`, numbered from `n`. -/
def kept (p : Nat → Bool) : Nat → List (K × V) → List (K × V)
  | _, [] => []
  | n, x :: l => if p n then kept p (n + 1) l else x :: kept p (n + 1) l

end Verif.Omap
