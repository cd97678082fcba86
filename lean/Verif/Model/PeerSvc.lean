/-
Starting instances of a peer service: the table of running instances kept for a service name, local
starts, and the handling of a remote's request to start one or to open a circuit to one.
/repo/ckt.go (RegisterPeerServiceFunc, StartLocalPeer, unlockedStartLocalPeer, bootstrapCircuit,
StartRemotePeer), /repo/ckt2.go (implRemotePeerAndGetCircuit), /repo/cli.go (GetLimitMax).

One service name on one host. Everything between taking and giving back `chanmut` is one step, except
that an instance may leave the table in between (its goroutine takes only the table's own mutex).
-/
namespace Verif.PeerSvc

abbrev Str := List UInt8

/-- cli.go 1261-1280 `Config.GetLimitMax`: 0 is no limit, `none` is the panic on lists of different
lengths. Limits are natural numbers here (a negative one is no limit either, ckt.go 1619 and 2008). -/
def getLimitMax (names : List Str) (maxes : List Nat) (svc : Str) : Option Nat :=
  if names.length ≠ maxes.length then none
  else some (((names.zip maxes).find? (fun p => p.1 == svc)).elim 0 (·.2))

/-- A table of instances by id, ckt.go 1510-1516 `knownLocalPeer.active` (mutmap.go `Mutexmap`). -/
abbrev Table := List (Str × Nat)

/-- mutmap.go 88-94 `Mutexmap.Del`. -/
def Table.del (t : Table) (id : Str) : Table := t.filter (fun e => e.1 != id)

/-- mutmap.go 81-85 `Mutexmap.Set`. -/
def Table.set (t : Table) (id : Str) (n : Nat) : Table := (id, n) :: t.del id

/-- mutmap.go 23-28 `Mutexmap.Get`. -/
def Table.get (t : Table) (id : Str) : Option Nat := (t.find? (fun e => e.1 == id)).map (·.2)

/-- An instance: ckt.go 1645-1674, the LocalPeer and the variables its goroutine holds on to. `reg` is
the registration it was started from (the captured `knownLocalPeer`). -/
structure Inst where
  num : Nat
  reg : Nat
  id : Str
deriving DecidableEq

/-- The types of request, ckt.go 1838-1842. -/
inductive Typ where
  | start | startCircuit | takeToID | atMostOne
deriving DecidableEq

/-- A request as received: hdr.go `HDR.Typ`, `ToPeerID`, `Args`. `args = none` is a nil map, which is
what an empty map decodes to (hdr_gen.go leaves it out, hdr.go 324 decodes into a new Message);
`some a` is a map whose entry "#pleaseAssignNewPeerID" is `a`. -/
structure Req where
  typ : Typ
  toID : Str
  args : Option (Option Str)
deriving DecidableEq

/-- ckt.go 1721-1747 `StartRemotePeer`: the request sent. NewHDR (hdr.go 452-471) leaves Args nil; the
argument `preferExtant` is not used. -/
def startRemotePeer (_preferExtant : Bool) : Req := ⟨.start, [], none⟩

/-- ckt2.go 159-240 `implRemotePeerAndGetCircuit`: the request sent; `id` is the NewCallID made up for
the remote. -/
def startRemotePeerAndGetCircuit (preferExtant : Bool) (id : Str) : Req :=
  if preferExtant then ⟨.atMostOne, [], some none⟩ else ⟨.takeToID, id, some (some id)⟩

/-- `regs`: the table of each registration made so far (`none` is the nil pointer of ckt.go 1515).
`cur`: the one in localServiceNameMap. `running`: instances whose service function has not returned.
`leaving`: those whose function has returned but which are still in the table (ckt.go 1667-1671).
`started`: the ids of all instances ever started. `dead`: the host has panicked. -/
structure State where
  regs : List (Option Table) := []
  cur : Option Nat := none
  running : List Inst := []
  leaving : List Inst := []
  next : Nat := 0
  started : List Str := []
  dead : Bool := false
deriving DecidableEq

/-- What a call or request leads to. `refused` is the error of unlockedStartLocalPeer. -/
inductive Out where
  | none | refused | rejected | panicked
  | started (i : Inst)
  | served (num : Nat)
deriving DecidableEq

/-- The table of the current registration. -/
def State.table (s : State) (r : Nat) : Option Table := (s.regs[r]?).join

/-- ckt.go 1519-1530 `RegisterPeerServiceFunc`: a new knownLocalPeer, its table nil. -/
def register (s : State) : State :=
  { s with regs := s.regs ++ [none]
           cur := some s.regs.length }

/-- ckt.go 1592-1685 `unlockedStartLocalPeer` for a registered name, `assign` the id asked for and
`fresh` a NewCallID. Left out: what becomes of the circuit handed over (the instance runs anyway). -/
def startPeer (lim : Nat) (s : State) (r : Nat) (assign fresh : Str) : State × Out :=
  if lim > 0 ∧ (s.table r).isSome ∧ ((s.table r).getD []).length ≥ lim then (s, .refused)
  else
    let id := if assign = [] then fresh else assign
    let i : Inst := ⟨s.next, r, id⟩
    ({ s with regs := s.regs.set r (some (((s.table r).getD []).set id s.next))
              running := s.running ++ [i]
              next := s.next + 1
              started := s.started ++ [id] }, .started i)

/-- ckt.go 1552-1578 `StartLocalPeer`; an unknown name is an error (1612-1616). -/
def startLocal (lim : Nat) (s : State) (fresh : Str) : State × Out :=
  match s.cur with
  | none => (s, .refused)
  | some r => startPeer lim s r [] fresh

/-- The service function of an instance returns (ckt.go 1663). -/
def ret (s : State) (num : Nat) : State :=
  { s with running := s.running.filter (fun i => i.num != num)
           leaving := s.leaving ++ s.running.filter (fun i => i.num == num) }

/-- ckt.go 1671: an instance that has returned takes its id out of the table it was started from. -/
def leave (s : State) (num : Nat) : State :=
  match s.leaving.find? (fun i => i.num == num) with
  | none => s
  | some i =>
    { s with regs := s.regs.modify i.reg (Option.map (Table.del · i.id))
             leaving := s.leaving.filter (fun j => j.num != num) }

/-- ckt.go 1903-1909: a nil table is replaced by an empty one. -/
def ensureTable (s : State) (r : Nat) : State :=
  { s with regs := s.regs.set r (some ((s.table r).getD [])) }

/-- What bootstrapCircuit decides before it looks at the limit. -/
inductive Choice where
  | panic | fresh | use (num : Nat)
deriving DecidableEq

/-- ckt.go 1931-1994: `old` is the table as copied at 1911 (`none` when it was nil), `now` the table at
1961 and 1981. -/
def choose (old : Option Table) (now : Table) (q : Req) : Choice :=
  match q.typ with
  | .takeToID =>
    match q.args.join with
    | none => .panic
    | some a => if q.toID ≠ a then .panic else .fresh
  | .atMostOne =>
    match old with
    | none => .fresh
    | some t =>
      if t.length = 0 then .fresh
      else if t.length = 1 then
        match now with
        | [] => .panic
        | e :: _ => .use e.2
      else .panic
  | _ =>
    match old with
    | none => .fresh
    | some _ =>
      if q.toID = [] then .fresh
      else match now.get q.toID with
        | none => .fresh
        | some n => .use n

/-- ckt.go 1852-2094 `bootstrapCircuit`. `mid` are the instances that leave the table after it has been
copied at 1911. The assignment to a nil map at 2009 panics. Left out: answers and acknowledgements. -/
def bootstrap (lim : Nat) (s : State) (q : Req) (mid : List Nat) (fresh : Str) : State × Out :=
  match s.cur with
  | none => (s, .rejected)
  | some r =>
    let old := s.table r
    let s := mid.foldl leave (ensureTable s r)
    match choose old ((s.table r).getD []) q with
    | .panic => ({ s with dead := true }, .panicked)
    | .use n => (s, .served n)
    | .fresh =>
      if lim > 0 ∧ (old.getD []).length ≥ lim then
        if q.args.isNone then ({ s with dead := true }, .panicked) else (s, .rejected)
      else startPeer lim s r (q.args.join.getD []) fresh

/-- The operations. -/
inductive Op where
  | register
  | startLocal (fresh : Str)
  | request (q : Req) (mid : List Nat) (fresh : Str)
  | ret (num : Nat)
  | leave (num : Nat)
deriving DecidableEq

/-- One operation. A server does not recover from a panic in its read loop (srv.go 777), so nothing
happens after one; a client's read loop does recover (cli.go 362), but its mutexes stay taken. -/
def step (lim : Nat) (s : State) (o : Op) : State × Out :=
  if s.dead then (s, .none)
  else match o with
    | .register => (PeerSvc.register s, .none)
    | .startLocal f => PeerSvc.startLocal lim s f
    | .request q mid f => bootstrap lim s q mid f
    | .ret n => (PeerSvc.ret s n, .none)
    | .leave n => (PeerSvc.leave s n, .none)

/-- A series of operations. -/
def run (lim : Nat) (s : State) (ops : List Op) : State :=
  ops.foldl (fun s o => (step lim s o).1) s

end Verif.PeerSvc
