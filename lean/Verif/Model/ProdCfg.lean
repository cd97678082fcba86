import Verif.Model.SvcLimit

/-!
# The configuration of a replica in production

Model of what `RunTubeServiceMain` does with the configuration (`tube/tubecmd.go:126-144`), of
`ProdConfigSaneOrPanic` (`tube/admin.go:418-521`) and of `insaneConfig` (`tube/tube.go:11621-11647`).
Durations are in nanoseconds, 64-bit integers whose arithmetic wraps. Whether a directory can be
written is given.
-/

namespace Verif.ProdCfg

/-- A 64-bit result. -/
def wrap (x : Int) : Int := x.bmod (2 ^ 64)

/-- `time.Millisecond`. -/
def ms : Int := 1000000

/-- `rpc.Config`, the fields checked (`tube/admin.go:438-520`). -/
structure Rpc where
  noTLS : Bool
  clientKey : String
  serverKey : String
  simNet : Bool
  autoCli : Bool
  limits : SvcLimit.Limits
deriving DecidableEq

/-- `TubeConfig` (`tube/tube.go:513`), the fields checked. `confDir` and `dataDir`: whether the
directory is set and, if so, whether it can be written. -/
structure Cfg where
  service : String
  name : String
  cluster : String
  simNet : Bool
  noTLS : Bool
  confDir : Option Bool
  dataDir : Option Bool
  noDisk : Bool
  noFaultTol : Int
  drift : Int
  hb : Int
  minElec : Int
  batch : Int
  rpc : Option Rpc
  nodes : List String
  me : String
deriving DecidableEq

/-- `ProdConfigSaneOrPanic`, the timings (`tube/admin.go:468-488`). -/
def timingOK (c : Cfg) : Bool :=
  !(decide (c.noFaultTol > 7200000 * ms)) && !(decide (c.drift > 60000 * ms)) &&
  !(decide (c.hb < 5 * ms)) && !(decide (c.minElec < 50 * ms)) &&
  !(decide (c.minElec < wrap (c.hb * 5))) && !(decide (c.minElec ≤ wrap (c.drift * 2))) &&
  !(decide (c.batch < 0) || decide (c.batch > 10000 * ms))

/-- `ProdConfigSaneOrPanic` (`tube/admin.go:418-521`). None: panic; a missing `RpcCfg` panics where
it is first read (438). -/
def check (c : Cfg) (isReplica : Bool) : Option Cfg :=
  if c.service = "" then none
  else if c.name = "" then none
  else if c.cluster = "" then none
  else if c.simNet then none
  else match c.rpc with
  | none => none
  | some r =>
    if c.noTLS ≠ r.noTLS then none
    else if !c.noTLS && (r.clientKey = "" || r.serverKey = "") then none
    else if c.confDir = some false then none
    else if c.dataDir = some false && isReplica then none
    else if isReplica && (c.noDisk || !timingOK c) then none
    else if r.simNet then none
    else if !r.autoCli then none
    else if isReplica && !(c.nodes.contains c.me) then none
    else (SvcLimit.check r.limits).map fun l => { c with rpc := some { r with limits := l } }

/-- `RunTubeServiceMain`, the defaults (`tube/tubecmd.go:125-138`). -/
def defaults (c : Cfg) : Cfg :=
  { c with
    simNet := false
    hb := if c.hb ≤ 0 then 200 * ms else c.hb
    minElec := if c.minElec ≤ 0 then 1200 * ms else c.minElec
    drift := if c.drift ≤ 0 then 500 * ms else c.drift
    rpc := c.rpc.map fun r => { r with noTLS := c.noTLS, autoCli := true } }

/-- `RunTubeServiceMain` (`tube/tubecmd.go:125-144`); what comes before (`Init`, the limit) is left
out, the limit is in `SvcLimit.prepare`. -/
def start (c : Cfg) (clientOnly : Bool) : Option Cfg := check (defaults c) (!clientOnly)

/-- `insaneConfig` (`tube/tube.go:11621-11647`). -/
def insane (c : Cfg) : Bool :=
  decide (c.hb < 5 * ms) || decide (c.minElec < 50 * ms) || decide (c.minElec < wrap (c.hb * 5)) ||
  decide (wrap (c.minElec - c.drift) < 5 * ms)

end Verif.ProdCfg
