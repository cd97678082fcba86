/-!
# Limits on the instances of a service

Model of `Config.GetLimitMax` and `Config.UpdateLimitMax` (`cli.go:1261-1301`), and of the places in
tube that set the limit of replicas. How the limit is enforced is in `Verif/Model/PeerSvc.lean`.
-/

namespace Verif.SvcLimit

/-- `LimitedServiceNames` and `LimitedServiceMax` (`cli.go:1248-1249`). -/
structure Limits where
  names : List String := []
  maxs : List Int := []
deriving DecidableEq

/-- The loop of `GetLimitMax` (`cli.go:1272-1278`). -/
def search (name : String) : List String → List Int → Int
  | n :: ns, m :: ms => if n = name then m else search name ns ms
  | _, _ => 0

/-- `GetLimitMax` (`cli.go:1261-1279`). None: panic. -/
def getLimitMax (c : Limits) (name : String) : Option Int :=
  if c.names.length ≠ c.maxs.length then none
  else if c.names.length = 0 then some 0
  else some (search name c.names c.maxs)

/-- The loop of `UpdateLimitMax` (`cli.go:1289-1294`), from index `i` on: the new limits and the
index. None: the name is not there. -/
def replace (name : String) (lim : Int) : Nat → List String → List Int → Option (List Int × Nat)
  | i, n :: ns, m :: ms =>
    if n = name then some (lim :: ms, i)
    else (replace name lim (i + 1) ns ms).map fun r => (m :: r.1, r.2)
  | _, _, _ => none

/-- `UpdateLimitMax` (`cli.go:1281-1299`). None: panic. -/
def updateLimitMax (c : Limits) (name : String) (lim : Int) : Option (Limits × Nat) :=
  if c.names.length ≠ c.maxs.length then none
  else match replace name lim 0 c.names c.maxs with
    | some (ms, i) => some ({ c with maxs := ms }, i)
    | none => some (⟨c.names ++ [name], c.maxs ++ [lim]⟩, (c.names ++ [name]).length - 1)

/-- `TUBE_REPLICA`. -/
def replica : String := "tube-replica"

/-- `RunTubeServiceMain`, what it does before `Init` (`tube/tubecmd.go:106-111`). -/
def prepare (c : Limits) : Option Limits :=
  match getLimitMax c replica with
  | none => none
  | some l => if l = 0 then some ⟨c.names ++ [replica], c.maxs ++ [1]⟩ else some c

/-- `ProdConfigSaneOrPanic`, its end (`tube/admin.go:512-521`). None: panic. -/
def check (c : Limits) : Option Limits :=
  match getLimitMax c replica with
  | none => none
  | some l =>
    if l ≠ 0 ∧ l ≠ 1 then none
    else if l ≠ 1 then (updateLimitMax c replica 1).map (·.1)
    else some c

/-- `RunTubeServiceMain` (`tube/tubecmd.go:106-144`): the preparation, then the check. -/
def start (c : Limits) : Option Limits := (prepare c).bind check

/-- A sequence of updates. -/
def updates (c : Limits) : List (String × Int) → Option Limits
  | [] => some c
  | (n, l) :: us => (updateLimitMax c n l).bind fun r => updates r.1 us

end Verif.SvcLimit
