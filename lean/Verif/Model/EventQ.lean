/-
Model of the event queues of the simulated network: /repo/pq.go (all six comparisons and the queue operations), and of the
parts of /repo/simnet.go that order events: mop.tm, priority, whence, bestName, setPseudorandom, add2meq, distributeMEQ
(up to the call of the handlers) and releaseReady.

* Names and positions in the source are lists of bytes, compared as Go compares strings.
* Times are numbers, 0 the zero time, and durations are not negative. The events of a queue do not change while they are in it.
* The red-black tree (a library) is a list kept in the order of the comparison; an element that compares equal to one
  present is not inserted.
* Pointers: two mops are the same when their sn are, so the tests of pointer equality in front are left out.
-/
namespace Verif.EventQ

/-- simnet.go:1392-1412. -/
inductive Kind where
  | newGoro | scenario | clientReg | serverReg | faultCkt | faultHost | repairCkt | repairHost | alterHost | alterNode
  | batch | send | read | timer | timerDiscard | closeSimnode | snapshot | newCallID
deriving DecidableEq, Repr

/-- The fields of a mop that the comparisons look at, simnet.go:40-170. The node is its name. -/
structure Ev where
  sn : Nat
  kind : Kind
  reqtm : Nat := 0
  arrivalTm : Nat := 0
  initTm : Nat := 0
  completeTm : Nat := 0
  unmaskedCompleteTm : Nat := 0
  discardCalled : Bool := false
  origin : Option (List Nat) := none
  target : Option (List Nat) := none
  earlyName : List Nat := []
  goroName : List Nat := []
  sendLine : List Nat := []
  readLine : List Nat := []
  timerLine : List Nat := []
  where_ : List Nat := []
  originCli : Bool := false
  timerDur : Nat := 0
  dispatchTm : Nat := 0
  issueBatch : Nat := 0
  pseudorandom : Nat := 0
deriving DecidableEq, Repr

/-- simnet.go:181-189. -/
def Ev.bestName (e : Ev) : List Nat :=
  if e.kind = .newGoro then e.goroName else e.origin.getD e.earlyName

/-- simnet.go:193-219. -/
def Ev.whence (e : Ev) : List Nat :=
  match e.kind with
  | .send => e.sendLine
  | .read => e.readLine
  | .timer => e.timerLine
  | .timerDiscard => e.timerLine
  | _ => e.where_

/-- simnet.go:227-273. -/
def Kind.priority : Kind → Nat
  | .newGoro => 100
  | .scenario => 200
  | .clientReg => 300
  | .serverReg => 400
  | .faultCkt => 500
  | .faultHost => 600
  | .repairCkt => 700
  | .repairHost => 800
  | .alterHost => 900
  | .alterNode => 1000
  | .batch => 1100
  | .send => 1200
  | .read => 1300
  | .timer => 1400
  | .timerDiscard => 1500
  | .closeSimnode => 1600
  | .snapshot => 1700
  | .newCallID => 1800

/-- simnet.go:274-332. None: panic, "mop kind needs tm". -/
def Ev.tm (e : Ev) : Option Nat :=
  match e.kind with
  | .send => some (if e.arrivalTm = 0 then e.reqtm else e.arrivalTm)
  | .read => some (if e.initTm = 0 then e.reqtm else e.initTm)
  | .timer => some (if e.unmaskedCompleteTm = 0 then e.reqtm else e.completeTm)
  | .timerDiscard => some (if e.discardCalled then e.initTm else e.reqtm)
  | .batch => none
  | _ => some e.reqtm

/-- simnet_api.go:1402-1408: cut at the first "___". -/
def chomp : List Nat → List Nat
  | [] => []
  | c :: s => if c = 95 ∧ s.take 2 = [95, 95] then [] else c :: chomp s

/-- if a < b { return -1 }; if a > b { return 1 }, for numbers and times. -/
def cmpNat (a b : Nat) : Ordering := if a < b then .lt else if b < a then .gt else .eq

/-- The same for strings. -/
def cmpStr : List Nat → List Nat → Ordering
  | [], [] => .eq
  | [], _ :: _ => .lt
  | _ :: _, [] => .gt
  | a :: s, b :: t => (cmpNat a b).then (cmpStr s t)

/-- Nil before non-nil. -/
def cmpNil (a b : Option (List Nat)) : Ordering :=
  match a, b with
  | none, some _ => .lt
  | some _, none => .gt
  | _, _ => .eq

/-- cliOrSrvString, simnet.go:643-649: "CLIENT" < "SERVER". -/
def cmpCli (a b : Bool) : Ordering :=
  match a, b with
  | true, false => .lt
  | false, true => .gt
  | _, _ => .eq

/-- pq.go:156-205 and its five copies: priority, origin, name, target, whence, client or server. -/
def cmpWhat (a b : Ev) : Ordering :=
  (cmpNat a.kind.priority b.kind.priority).then <|
  (cmpNil a.origin b.origin).then <|
  (cmpStr (chomp a.bestName) (chomp b.bestName)).then <|
  (cmpNil a.target b.target).then <|
  (match a.target, b.target with
    | some s, some t => cmpStr (chomp s) (chomp t)
    | _, _ => .eq).then <|
  (cmpStr a.whence b.whence).then <|
  cmpCli a.originCli b.originCli

/-- pq.go:233-249. -/
def cmpDispatch (a b : Ev) : Ordering :=
  match decide (a.dispatchTm = 0), decide (b.dispatchTm = 0) with
  | true, false => .lt
  | false, true => .gt
  | true, true => .eq
  | false, false => cmpNat a.dispatchTm b.dispatchTm

/-- tm() of both; the callers have seen to it that there is one. -/
def cmpTm (a b : Ev) : Ordering := cmpNat (a.tm.getD 0) (b.tm.getD 0)

/-- pq.go:124-262, preArrQ. -/
def cmpArrival (a b : Ev) : Ordering :=
  if a.sn = b.sn then .eq else
  (cmpNat a.arrivalTm b.arrivalTm).then <| (cmpWhat a b).then <| (cmpTm a b).then <| (cmpDispatch a b).then <| cmpNat a.sn b.sn

/-- pq.go:281-390, readQ. -/
def cmpInit (a b : Ev) : Ordering :=
  if a.sn = b.sn then .eq else (cmpNat a.initTm b.initTm).then <| (cmpWhat a b).then <| cmpNat a.sn b.sn

/-- pq.go:396-510, timerQ. -/
def cmpComplete (a b : Ev) : Ordering :=
  if a.sn = b.sn then .eq else (cmpNat a.completeTm b.completeTm).then <| (cmpWhat a b).then <| cmpNat a.sn b.sn

/-- pq.go:525-638, the master event queue. -/
def cmpMaster (a b : Ev) : Ordering :=
  if a.sn = b.sn then .eq else (cmpTm a b).then <| (cmpWhat a b).then <| cmpNat a.sn b.sn

/-- pq.go:648-766, the queue of a time slice. -/
def cmpSlice (a b : Ev) : Ordering :=
  if a.sn = b.sn then .eq else
  (cmpNat a.pseudorandom b.pseudorandom).then <| (cmpWhat a b).then <| (cmpTm a b).then <| cmpNat a.sn b.sn

/-- pq.go:776-925, the queue of those to be released. -/
def cmpRelease (a b : Ev) : Ordering :=
  if a.sn = b.sn then .eq else
  (cmpNat a.issueBatch b.issueBatch).then <| (cmpWhat a b).then <| (cmpTm a b).then <|
  (if a.kind = .timer ∧ b.kind = .timer then (cmpNat a.timerDur b.timerDur).then (cmpNat a.initTm b.initTm) else .eq).then <|
  (cmpDispatch a b).then <| cmpNat a.sn b.sn

/-- pq.go:77-87 add. -/
def add (cmp : Ev → Ev → Ordering) (e : Ev) : List Ev → List Ev
  | [] => [e]
  | f :: q => match cmp e f with
    | .lt => e :: f :: q
    | .eq => f :: q
    | .gt => f :: add cmp e q

/-- pq.go:89-100 del: FindGE_isEqual descends by the comparison. -/
def del (cmp : Ev → Ev → Ordering) (e : Ev) : List Ev → List Ev × Bool
  | [] => ([], false)
  | f :: q => match cmp e f with
    | .lt => (f :: q, false)
    | .eq => (q, true)
    | .gt => let r := del cmp e q; (f :: r.1, r.2)

/-- All events, put in one after the other. -/
def fill (cmp : Ev → Ev → Ordering) (es : List Ev) : List Ev := es.foldl (fun q e => add cmp e q) []

/-- simnet.go:2573-2586 add2meq: armTimer (3201-3207) asks the first event for its time, and so does the comparison with any
other one. None: the scheduler panics. -/
def add2meq (e : Ev) (q : List Ev) : Option (List Ev) :=
  if e.tm = none then none else some (add cmpMaster e q)

/-- The requests of a slice, one after the other. -/
def submit : List Ev → List Ev → Option (List Ev)
  | [], q => some q
  | e :: es, q => (add2meq e q).bind (submit es)

/-- simnet.go:172-179: the next number of the generator that is not 0. The stream has none left out. -/
def number (rng : Nat → Nat) : Nat → List Ev → List Ev
  | _, [] => []
  | k, e :: l => { e with pseudorandom := rng k } :: number rng (k + 1) l

/-- simnet.go:2814-2878, distributeMEQ: what is due is taken out in the order of the master queue, numbered at random, and
sorted by these numbers. The events are handled in this order. -/
def slice (rng : Nat → Nat) (now : Nat) (meq : List Ev) : List Ev :=
  fill cmpSlice (number rng 0 (meq.takeWhile (fun e => decide (e.tm.getD 0 ≤ now))))

/-- simnet.go:345-388, releaseReady: the same with what has been finished. -/
def release (rng : Nat → Nat) (ready : List Ev) : List Ev := fill cmpSlice (number rng 0 ready)

end Verif.EventQ
