import Verif.Model.KV
/-
Model of reliable membership, /repo/tube/czar.go: the members of a group, one of which, the czar,
holds a lease on the key "czar" of the replicated store and keeps the list of members, which the
others learn by pinging it.

* The store is that of Model/KV: a write of the key is `doCAS` at the time stamped by a leader. The
  bytes stored are replaced by the list they encode (C66): `cur` is the list behind the key's
  value. Nobody else writes the key. Each request is applied at most once.
* `slow` is false, as NewCzar leaves it (czar.go:128-176): no session, no "members" table.
* A member handles one event at a time (the loop czar.go:937-1566); while it waits for the answer to
  a write or a ping (`busy`) it handles nothing else. Waiting and retry times are left out: an event
  may occur at any time at which the code would accept it.
* `time.Now()` is read several times by one event; here twice, at its begin and its end.
* A panic ends the process: `dead`.
-/
namespace Verif.Czar
open Verif.KV (Key Store Leaf Ticket lookup put erase)

/-- czar.go:1613-1620 `RMVersionTuple`; time 0 is Go's zero time. LeaseUpdateCounter is never set. -/
structure Vers where
  epoch : Nat := 0
  within : Nat := 0
  until_ : Int := 0
  writeIdx : Nat := 0
  t0 : Int := 0
deriving DecidableEq, Repr

/-- czar.go:1968-1985 `VersionCompare`. -/
def versionCompare (i j : Vers) : Int :=
  if i.epoch = j.epoch ∧ i.within = j.within then 0
  else if i.epoch < j.epoch then -1
  else if j.epoch < i.epoch then 1
  else if i.within < j.within then -1
  else if j.within < i.within then 1
  else 0

/-- czar.go:1911-1922 `VersionGT`. -/
def versionGT (i j : Vers) : Bool :=
  if j.epoch < i.epoch then true else if i.epoch = j.epoch then decide (j.within < i.within) else false

/-- czar.go:1924-1935 `VersionLT`. -/
def versionLT (i j : Vers) : Bool :=
  if i.epoch < j.epoch then true else if i.epoch = j.epoch then decide (i.within < j.within) else false

/-- czar.go:1937-1948 `VersionGTE`. -/
def versionGTE (i j : Vers) : Bool :=
  if j.epoch < i.epoch then true else if i.epoch = j.epoch then decide (j.within ≤ i.within) else false

/-- czar.go:1950-1961 `VersionLTE`. -/
def versionLTE (i j : Vers) : Bool :=
  if i.epoch < j.epoch then true else if i.epoch = j.epoch then decide (i.within ≤ j.within) else false

/-- czar.go:1963-1966 `VersionEqual`. -/
def versionEqual (i j : Vers) : Bool := i.epoch = j.epoch && i.within = j.within

/-- tube.go:13453-13467 `PeerDetail`, with the strings URL, PeerServiceName and
PeerServiceNameVersion in one field, and without Hostname. -/
structure Det where
  name : Key := []
  peerID : Key := []
  addr : Key := []
  other : Key := []
  nonVoting : Bool := false
  pid : Nat := 0
deriving DecidableEq, Repr

/-- czar.go:1582-1605 `detailsChanged`. -/
def detailsChanged (a b : Det) : Bool :=
  a.name ≠ b.name || a.other ≠ b.other || a.peerID ≠ b.peerID || a.addr ≠ b.addr || a.nonVoting ≠ b.nonVoting

/-- czar.go:1659-1707 `PeerDetailPlus`. -/
structure Plus where
  det : Det := {}
  until_ : Int := 0
  dur : Int := 0
  shadow : Bool := false
deriving DecidableEq, Repr

/-- czar.go:1709-1718: the clone has no BootstrapShadowMode. -/
def Plus.clone (p : Plus) : Plus := { p with shadow := false }

/-- czar.go:1774-1805 `ReliableMembershipList`; `peers` is the ordered map PeerNames. -/
structure RList where
  czarName : Key := []
  czarDet : Option Plus := none
  stale : Option Vers := none
  peers : List (Key × Plus) := []
  leaseDur : Int := 0
deriving DecidableEq, Repr

/-- czar.go:1841-1859 `Clone`: without MemberLeaseDur. -/
def RList.clone (l : RList) : RList :=
  { l with czarDet := l.czarDet.map Plus.clone, peers := l.peers.map fun x => (x.1, x.2.clone), leaseDur := 0 }

/-- What `hashPeerIDs` digests (czar.go:1808-1823): the version and the bytes written. The
digest is replaced by its input. A missing CzarDet, which would panic, does not occur. -/
def hashOf (l : RList) (v : Vers) : Nat × Nat × Key :=
  (v.epoch, v.within, l.czarName ++ ((l.czarDet.map fun p => p.det.peerID).getD []) ++
    l.peers.flatMap fun x => x.1 ++ x.2.det.peerID)

inductive CState where
  | unknown | amCzar | notCzar
deriving DecidableEq, Repr

/-- What a member waits for: number of the write or of the ping. -/
inductive Wait where
  | cas (k : Nat) | renew (k : Nat) | ping (k : Nat)
deriving DecidableEq, Repr

/-- czar.go:64-126 `Czar` and the variables of `start`. `hash` is listhash ("" is `none`), `conn`
says whether rpcClientToCzar is set. -/
structure Mem where
  state : CState := .unknown
  members : RList := {}
  vers : Vers := {}
  hash : Option (Nat × Nat × Key) := none
  heard : List (Key × Int) := []
  t0 : Int := 0
  conn : Bool := false
  busy : Option Wait := none
  dead : Bool := false
deriving DecidableEq, Repr

/-- The group: the details of each member, its clock (as a function of true time), the clocks of
the store's nodes, ClockDriftBound, memberLeaseDur (6 s), leaseDurCzar (5 s) and the 2 s that must
be left of a lease just won (czar.go:1057). -/
structure Cfg where
  det : Nat → Det
  clk : Nat → Nat → Int
  lclk : Nat → Nat → Int
  drift : Int
  memDur : Int
  czDur : Int
  minLeft : Int

/-- A view delivered on UpcallMembershipChangeCh, or answered to a ping. -/
abbrev View := Vers × RList

/-- czar.go:219-269 `setVers`; `none` is an error (lease expired, or the version would decrease). -/
def setVers (m : Mem) (v : Vers) (l : RList) (upcall : Bool) (now : Int) : Option (Mem × List View) :=
  if v.until_ < now then none
  else if versionCompare v m.vers < 0 then none
  else
    let h := hashOf l v
    some ({ m with members := l.clone, vers := v, hash := some h, t0 := now },
      if m.hash ≠ some h ∧ upcall = true then [(v, l.clone.clone)] else [])

/-- czar.go:310-345: whether the entry `x` is to be removed. -/
def silent (c : Cfg) (me : Key) (m : Mem) (now : Int) (x : Key × Plus) : Bool :=
  if x.1 = me then false
  else
    match lookup m.heard x.1 with
    | none => x.2.until_ = 0 || (decide (c.memDur < now - m.t0) && decide (x.2.until_ + c.drift < now))
    | some h => x.2.until_ = 0 || (decide (c.memDur < now - h) && decide (x.2.until_ + c.drift < now))

/-- czar.go:302-358 `expireSilentNodes`: the names removed. (`fromList` is not used by the code:
the new list is made from s.members.) -/
def silentNames (c : Cfg) (me : Key) (m : Mem) (now : Int) : List Key :=
  (m.members.peers.filter (silent c me m now)).map (·.1)

/-- The list after `expireSilentNodes`, and `delete(s.heard, name)`. -/
def withoutNames (m : Mem) (ks : List Key) : RList :=
  let l := m.members.clone
  { l with peers := l.peers.filter fun x => x.1 ∉ ks }

def forget (m : Mem) (ks : List Key) : Mem := { m with heard := m.heard.filter fun x => x.1 ∉ ks }

/-- czar.go:537-561: the caller is not in the list, or with other details. -/
def isNew (m : Mem) (d : Det) : Bool :=
  match lookup m.members.peers d.name with
  | none => true
  | some p => detailsChanged p.det d

/-- czar.go:541-542, 551-552: the list with the caller. -/
def withCaller (c : Cfg) (m : Mem) (d : Det) (now : Int) : RList :=
  { m.members.clone with
    peers := put d.name { det := d, until_ := now + c.memDur, dur := c.memDur } m.members.clone.peers }

/-- czar.go:564-573: the lease is written into the entry found (`det` points into the list, unless
the caller is new), and the caller is noted as heard of. -/
def touch (c : Cfg) (me : Key) (m : Mem) (d : Det) (now : Int) : Mem :=
  { m with
    members := { m.members with
      leaseDur := c.memDur
      peers := if isNew m d then m.members.peers
        else put d.name { ((lookup m.members.peers d.name).getD {}) with until_ := now + c.memDur, dur := c.memDur }
          m.members.peers }
    heard := put me now (put d.name now m.heard) }

/-- czar.go:477-598 `handlePing`, not inspectOnly; `d` is the caller's detail with the address seen
by the czar. `none` is the panic at 585; the last component is the answer, `none` for ErrNotCzar. -/
def handlePing (c : Cfg) (me : Key) (m : Mem) (d : Det) (now now2 : Int) :
    Option (Mem × List View × Option View) :=
  if m.state ≠ .amCzar then some (m, [], none)
  else if m.vers.until_ < now then some ({ m with state := .unknown }, [], none)
  else
    let m1 := touch c me m d now
    let gone := silentNames c me m1 now
    if gone = [] ∧ isNew m d = false then some (m1, [], some (m1.vers, m1.members.clone))
    else
      (setVers (forget m1 gone) { m.vers with within := m.vers.within + 1 }
        (if gone = [] then withCaller c m d now else withoutNames m1 gone) true now2).map fun r =>
          (r.1, r.2, some (r.1.vers, r.1.members.clone))

/-- czar.go:1213-1222: the top of the loop; a czar whose lease is over is one no more. -/
def settle (m : Mem) (now : Int) : Mem :=
  if m.state = .amCzar ∧ m.vers.until_ < now then { m with state := .unknown } else m

/-- czar.go:963-987: the list a member writes to become czar. -/
def bidList (d : Det) (m : Mem) : RList :=
  let l := m.members.clone
  { l with peers := erase d.name (erase l.czarName l.peers), czarName := d.name, czarDet := some { det := d } }

/-- czar.go:1096-1106, 1177-1187: the version made from the ticket that came back. -/
def versOf (m : Mem) (a : Ticket) (won : Bool) : Vers :=
  { epoch := a.epoch
    within := if a.epoch = m.vers.epoch then m.vers.within else 0
    until_ := a.endTm
    writeIdx := if won then a.idx else a.writeIdx
    t0 := if won then a.tm else a.epochT0 }

/-- czar.go:1041-1198: the answer to the write of a would-be czar. `bid` is what was written, `cur`
the list found if the write was refused. The checks that the answer repeats the request are left
out. The last component is the view taken over without delivery. -/
def onBid (c : Cfg) (d : Det) (m : Mem) (a : Ticket) (bid cur : RList) (now now2 : Int) :
    Mem × List View × List View :=
  match a.err with
  | none =>
    if a.endTm - now < c.minLeft then (m, [], [])
    else
      match setVers { m with state := .amCzar } (versOf m a true) bid true now2 with
      | none => ({ m with state := .amCzar }, [], [])
      | some (m', us) => (m', us, [])
  | some .keyNotFound => (m, [], [])
  | some _ =>
    if cur.czarName = d.name ∧ a.endTm ≠ 0 then ({ m with dead := true }, [], [])
    else
      match setVers { m with state := .notCzar } (versOf m a false) { cur with leaseDur := c.memDur } false now2 with
      | none => ({ m with state := .notCzar }, [], [])
      | some (m', us) => (m', us, [(m'.vers, m'.members)])

/-- czar.go:1264-1335: before and after the write that renews the lease. -/
def renewing (d : Det) (m : Mem) : Mem :=
  { m with members := { m.members with
      peers := erase d.name m.members.peers, czarDet := some { det := d }, stale := some m.vers } }

/-- The second component is what is sent on OperatingLeaseRenewCh. -/
def onRenew (m : Mem) (a : Ticket) : Mem × List Int :=
  if a.err.isSome then ({ m with state := .unknown }, [])
  else if a.epoch < m.vers.epoch then ({ m with dead := true }, [])
  else ({ m with vers := { m.vers with epoch := a.epoch, until_ := a.endTm } }, [a.endTm])

/-- czar.go:1432-1443, 1487-1556: the answer to a ping. The first on a connection is taken as it
is; later ones must have the member in the list, and not come from a czar whose lease is over. -/
def onReply (c : Cfg) (d : Det) (m : Mem) (r : View) (now now2 : Int) : Mem × List View × List Int :=
  if m.conn = false then
    let m := { m with conn := true }
    match setVers m r.1 r.2 true now2 with
    | none => (m, [], [])
    | some (m', u) => (m', u, [])
  else
    match lookup r.2.peers d.name with
    | none => ({ m with dead := true }, [], [])
    | some p =>
      if r.1.until_ ≠ 0 ∧ r.1.until_ - c.drift ≤ now then
        ({ m with conn := false, state := .unknown }, [], [])
      else
        let ls := if r.1.until_ ≠ 0 then [p.until_] else []
        match setVers m r.1 r.2 true now2 with
        | none => (m, [], ls)
        | some (m', u) => (m', u, ls)

/-- A write of the czar key under way: by whom, what, expected epoch, since when. -/
structure Req where
  src : Nat
  list : RList
  epoch : Nat
  at_ : Nat
deriving DecidableEq, Repr

/-- Members, store and messages; then, never read by a step, what happened: `owner` the epochs
with the members that wrote the key in them, `ups` the views delivered, `served` the pings
answered (by whom and when), `leases` what was sent on OperatingLeaseRenewCh, `quiet` the views
taken from the czar key without delivery. -/
structure Sys where
  mem : Nat → Mem := fun _ => {}
  kv : Store := none
  cur : RList := {}
  idx : Nat := 0
  reqs : List Req := []
  ans : List (Nat × Ticket × RList) := []
  pings : List (Nat × Det) := []
  replies : List (Nat × View) := []
  now : Nat := 0
  owner : List (Nat × Nat) := []
  ups : List (Nat × View) := []
  served : List (Nat × Nat × View) := []
  leases : List (Nat × Int) := []
  quiet : List (Nat × View) := []

inductive Act where
  /-- a member that does not know who is czar writes the key, czar.go:963-1034 -/
  | bid (i : Nat)
  /-- the czar renews its lease, czar.go:1264-1297 -/
  | renew (i : Nat)
  /-- write `k` is stamped by node `n` at time `r`, and applied now -/
  | apply (k n r : Nat)
  /-- a member gives up waiting for its write, czar.go:1036-1039, 1127-1145, 1298-1304 -/
  | giveUp (i : Nat)
  /-- the answer to its write arrives -/
  | answer (i : Nat)
  /-- a member pings the czar, which sees it at address `addr`; without a connection it dials the
  czar it knows of (1348-1384; the panic at 1371) -/
  | ping (i : Nat) (addr : Key)
  /-- the ping fails, or the connection is lost, czar.go:1385-1406, 1417-1429, 1456-1464, 1475-1486 -/
  | pingFail (i : Nat)
  /-- ping `k` is handled by `j`, czar.go:1232-1238, 1558-1560 -/
  | serve (j k : Nat)
  /-- the answer to its ping arrives -/
  | reply (i : Nat)
  /-- expireCheckCh, czar.go:1254-1262 -/
  | expire (j : Nat)
  /-- the czar's lease runs out, czar.go:1240-1245 -/
  | lapse (j : Nat)
deriving DecidableEq, Repr

def tableName : Key := [104]
def keyName : Key := [99]

/-- The ticket of `cli.CAS` (czar.go:1032, 1295; prepared by tube.go:6348-6366). -/
def ticketOf (c : Cfg) (r : Req) (tm : Int) (idx : Nat) : Ticket :=
  KV.prepOne { op := .cas, table := tableName, key := keyName, leasor := (c.det r.src).name,
               fromID := (c.det r.src).peerID, reqDur := c.czDur, oldEpoch := r.epoch } tm idx

def upd {α : Type} (f : Nat → α) (i : Nat) (x : α) : Nat → α := fun j => if j = i then x else f j

def answerTo (s : Sys) (k : Nat) : Option (Ticket × RList) := (s.ans.find? fun x => x.1 = k).map (·.2)
def replyTo (s : Sys) (k : Nat) : Option View := (s.replies.find? fun x => x.1 = k).map (·.2)

/-- Member `i` becomes `m`; views delivered. -/
def Sys.put (s : Sys) (i : Nat) (m : Mem) (us : List View) : Sys :=
  { s with mem := upd s.mem i m, ups := s.ups ++ us.map fun u => (i, u) }

/-- A write waiting for its answer, which is `a`. -/
def onAnswer (c : Cfg) (s : Sys) (i : Nat) (t t2 : Nat) : Option Sys :=
  let m := s.mem i
  match m.busy with
  | some (.cas k) =>
    match answerTo s k, s.reqs[k]? with
    | some (a, cur), some q =>
      let r := onBid c (c.det i) { m with busy := none } a q.list cur (c.clk i t) (c.clk i t2)
      some { s.put i (settle r.1 (c.clk i t2)) r.2.1 with quiet := s.quiet ++ r.2.2.map fun v => (i, v) }
    | _, _ => none
  | some (.renew k) =>
    match answerTo s k with
    | some (a, _) =>
      let r := onRenew { m with busy := none } a
      some { s.put i (settle r.1 (c.clk i t2)) [] with leases := s.leases ++ r.2.map fun u => (i, u) }
    | none => none
  | _ => none

/-- One event between times `t` and `t2`. -/
def event (c : Cfg) (s : Sys) (t t2 : Nat) : Act → Option Sys
  | .bid i =>
    let m := s.mem i
    if m.state = .unknown ∧ m.busy = none ∧ m.dead = false then
      some { s.put i { m with busy := some (.cas s.reqs.length) } [] with
        reqs := s.reqs ++ [⟨i, bidList (c.det i) m, m.vers.epoch, t⟩] }
    else none
  | .renew i =>
    let m := s.mem i
    if m.state = .amCzar ∧ m.busy = none ∧ m.dead = false then
      let m := renewing (c.det i) m
      some { s.put i { m with busy := some (.renew s.reqs.length) } [] with
        reqs := s.reqs ++ [⟨i, m.members, m.vers.epoch, t⟩] }
    else none
  | .apply k n r =>
    match s.reqs[k]? with
    | none => none
    | some q =>
      if answerTo s k = none ∧ q.at_ ≤ r ∧ r ≤ t then
        (KV.doCAS c.drift s.kv (ticketOf c q (c.lclk n r) (s.idx + 1))).map fun a =>
          { s with
            kv := a.1
            cur := if a.2.swapped then q.list else s.cur
            idx := s.idx + 1
            ans := s.ans ++ [(k, a.2, s.cur)]
            owner := if a.2.swapped then s.owner ++ [(a.2.epoch, q.src)] else s.owner }
      else none
  | .giveUp i =>
    let m := s.mem i
    match m.busy with
    | some (.cas _) => if m.dead then none else some (s.put i { m with busy := none } [])
    | some (.renew _) =>
      if m.dead then none else some (s.put i { m with busy := none, state := .unknown } [])
    | _ => none
  | .answer i => if (s.mem i).dead then none else onAnswer c s i t t2
  | .ping i addr =>
    let m := s.mem i
    if m.state = .notCzar ∧ m.busy = none ∧ m.dead = false then
      if m.conn = false ∧ m.members.czarName = (c.det i).name then
        some (s.put i { m with state := .unknown } [])
      else if m.conn = false ∧ m.members.czarDet = none then
        some (s.put i { m with dead := true } [])
      else
        some { s.put i { m with busy := some (.ping s.pings.length) } [] with
          pings := s.pings ++ [(i, { c.det i with addr := addr })] }
    else none
  | .pingFail i =>
    let m := s.mem i
    if m.state = .notCzar ∧ m.dead = false then
      some (s.put i { m with busy := none, conn := false, state := .unknown } [])
    else none
  | .serve j k =>
    let m := s.mem j
    match s.pings[k]? with
    | none => none
    | some (i, d) =>
      if i ≠ j ∧ m.state ≠ .unknown ∧ m.busy = none ∧ m.dead = false ∧ replyTo s k = none then
        match handlePing c (c.det j).name m d (c.clk j t) (c.clk j t2) with
        | none => some (s.put j { m with dead := true } [])
        | some (m', us, r) =>
          some { s.put j (settle m' (c.clk j t2)) us with
            replies := s.replies ++ r.toList.map fun v => (k, v)
            served := s.served ++ r.toList.map fun v => (j, t, v) }
      else none
  | .reply i =>
    let m := s.mem i
    match m.busy with
    | some (.ping k) =>
      match replyTo s k with
      | none => none
      | some v =>
        if m.dead then none
        else
          let r := onReply c (c.det i) { m with busy := none } v (c.clk i t) (c.clk i t2)
          some { s.put i r.1 r.2.1 with leases := s.leases ++ r.2.2.map fun u => (i, u) }
    | _ => none
  | .expire j =>
    let m := s.mem j
    if m.state = .amCzar ∧ m.busy = none ∧ m.dead = false then
      let gone := silentNames c (c.det j).name m (c.clk j t)
      if gone = [] then some (s.put j (settle m (c.clk j t2)) [])
      else
        let r := (setVers (forget m gone) { m.vers with within := m.vers.within + 1 } (withoutNames m gone)
          true (c.clk j t2)).getD (forget m gone, [])
        some (s.put j (settle r.1 (c.clk j t2)) r.2)
    else none
  | .lapse j =>
    let m := s.mem j
    if m.state = .amCzar ∧ m.busy = none ∧ m.dead = false ∧ m.vers.until_ ≤ c.clk j t then
      some (s.put j { m with state := .unknown } [])
    else none

/-- One event, from time `t` to `t2`; events follow one another in time. -/
def step (c : Cfg) (s : Sys) (x : Nat × Nat × Act) : Option Sys :=
  if s.now ≤ x.1 ∧ x.1 ≤ x.2.1 then (event c s x.1 x.2.1 x.2.2).map fun s' => { s' with now := x.2.1 }
  else none

def run (c : Cfg) (s : Sys) : List (Nat × Nat × Act) → Option Sys
  | [] => some s
  | x :: xs => (step c s x).bind fun s' => run c s' xs

end Verif.Czar
