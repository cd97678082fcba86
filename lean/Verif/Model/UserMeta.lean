/-!
# Metadata of a local peer

Model of `addUserMeta` (`ckt.go:1325-1343`), of the places that call it, of the arguments of a
fragment (`ckt.go:316-372`) and of `leaderWasUpdated` (`tube/tube.go:18559-18594`).

A Go map is a list of entries with each key once; the list's order is the order of iteration. A nil
map is the empty list: reading it is the same, and it is made before it is written to. The locks of
`Mutexmap` (`mutmap.go`) make each change one step.
-/

namespace Verif.UserMeta

/-- A `map[string]string`. -/
abbrev Dict := List (String × String)

/-- `m[k]` with the second result (`mutmap.go:24-29`). -/
def get (m : Dict) (k : String) : Option String := m.lookup k

/-- `m[k] = v` (`mutmap.go:82-86`). -/
def set (m : Dict) (k v : String) : Dict := (k, v) :: m.filter fun e => e.1 ≠ k

/-- `delete(m, k)` (`mutmap.go:89-95`). -/
def del (m : Dict) (k : String) : Dict := m.filter fun e => e.1 ≠ k

/-- `k == "" || k[0] == '#'` (`ckt.go:1334`); '#' is one byte. -/
def reserved (k : String) : Bool :=
  match k.toList with
  | [] => true
  | c :: _ => c == '#'

/-- `SetUserArg` (`ckt.go:322-335`). None: panic. -/
def setUserArg (args : Dict) (k v : String) : Option Dict :=
  if reserved k then none else some (set args k v)

/-- `GetUserArg` (`ckt.go:339-349`) for a key without '#', with which it panics. -/
def getUserArg (args : Dict) (k : String) : Option String :=
  if k = "" then none else get args k

/-- The loop's body in `addUserMeta` (`ckt.go:1333-1341`). None: panic. -/
def addOne (args : Dict) (e : String × String) : Option Dict :=
  if reserved e.1 then none else some (set args e.1 e.2)

/-- `addUserMeta` (`ckt.go:1325-1343`): the message's arguments. -/
def addUserMeta (md : Dict) (args : Dict) : Option Dict := md.foldlM addOne args

/-- The arguments of the message that `SendOneWay` sends (`ckt.go:735-737`): the fragment's map is
copied (`ckt.go:907-916`), so the fragment itself is as before. -/
def sendArgs (md : Dict) (frag : Dict) : Option Dict := addUserMeta md frag

/-- What a new circuit tells the other side of itself (`ckt.go:1187-1195`). -/
structure Origin where
  fromService : String
  toService : String
  toVersion : String
  circuitName : String
  userString : String
  baseServerName : String
  baseServerAddr : String
  hostname : String
  pid : String
deriving DecidableEq

/-- `newCircuit`: the arguments of the message that opens a circuit (`ckt.go:1159-1196`). -/
def openArgs (o : Origin) (md : Dict) (frag : Dict) : Option Dict :=
  let a := set frag "#fromServiceName" o.fromService
  let a := set a "#toServiceName" o.toService
  let a := set a "#toPeerServiceNameVersion" o.toVersion
  let a := set a "#circuitName" o.circuitName
  let a := set a "#userString" o.userString
  let a := set a "#fromBaseServerName" o.baseServerName
  let a := set a "#fromBaseServerAddr" o.baseServerAddr
  let a := set a "#fromHostname" o.hostname
  let a := set a "#fromPID" o.pid
  addUserMeta md a

/-- `newCircuit`: the arguments of the acknowledgement (`ckt.go:1258-1292`). -/
def ackArgs (o : Origin) (md : Dict) (frag : Dict) : Option Dict :=
  let a := set frag "#fromServiceName" o.fromService
  let a := set a "#fromBaseServerName" o.baseServerName
  let a := set a "#fromBaseServerAddr" o.baseServerAddr
  let a := set a "#fromHostname" o.hostname
  let a := set a "#fromPID" o.pid
  let a := set a "#toServiceName" o.toService
  let a := set a "#toPeerServiceNameVersion" o.toVersion
  let a := set a "#circuitName" o.circuitName
  let a := set a "#userString" o.userString
  addUserMeta md a

/-- The leader as a node knows it: `leaderName`, `leaderURL`, `leaderID`, `leaderTerm`. -/
structure Leader where
  name : String
  url : String
  id : String
  term : Int
deriving DecidableEq

/-- `leaderWasUpdated` (`tube/tube.go:18562-18594`); `itoa` is `i64toa`, any function. -/
def leaderWasUpdated (itoa : Int → String) (m : Dict) (l : Leader) : Dict :=
  if l.name = "" then del (del (del (del m "leaderName") "leaderURL") "leaderID") "leaderTerm"
  else
    let m := set m "leaderName" l.name
    let m := if l.url = "" then del m "leaderURL" else set m "leaderURL" l.url
    let m := if l.id = "" then del m "leaderID" else set m "leaderID" l.id
    if l.term = 0 then del m "leaderTerm" else set m "leaderTerm" (itoa l.term)

/-- Changes to the metadata: by the user (`Mutexmap.Set`, `Mutexmap.Del`), by a new leader. -/
inductive Change
  | put (k v : String)
  | remove (k : String)
  | leader (l : Leader)
deriving DecidableEq

/-- One change. -/
def change (itoa : Int → String) (m : Dict) : Change → Dict
  | .put k v => set m k v
  | .remove k => del m k
  | .leader l => leaderWasUpdated itoa m l

/-- The metadata after changes, from the empty map (`ckt.go:821`). -/
def metaAfter (itoa : Int → String) (cs : List Change) : Dict := cs.foldl (change itoa) []

/-- A node: the leader it knows and its metadata. -/
structure Node where
  leader : Leader
  md : Dict
deriving DecidableEq

/-- What a node hears of the leader. -/
inductive News
  /-- All four fields are set, then `leaderWasUpdated` (`tube/tube.go:1671-1680`, `1213-1228`,
  `1433-1437`, `6741-6745`, `7254-7258`, `7964-7970`, `8139-8143` and others). -/
  | learn (l : Leader)
  /-- A reply to an inspection (`tube/tube.go:13409-13419`): whether the node is a client and the
  responder is none, and the responder's leader. -/
  | inspected (client : Bool) (l : Leader)
  /-- A ticket's guess of the leader (`tube/tube.go:13990-13991`). -/
  | guess (id : String)
  /-- The acknowledgement of a new circuit, its arguments (`tube/tube.go:18596-18622`). -/
  | ack (name id url : Option String) (term : Option Int)
  /-- A leader tells its clients that it stepped down (`tube/tube.go:1935-1953`). -/
  | steppedDown (name id url : Option String) (term : Option Int)
deriving DecidableEq

/-- `x, ok := args[k]; if ok && x != "" { field = x }`. -/
def nonEmpty (old : String) : Option String → String
  | some x => if x = "" then old else x
  | none => old

/-- One piece of news. Left out: `mustAtoi64`'s panic on a term that is no number. -/
def hear (itoa : Int → String) (n : Node) : News → Node
  | .learn l => ⟨l, leaderWasUpdated itoa n.md l⟩
  | .inspected client l => if client ∧ l.term > n.leader.term then { n with leader := l } else n
  | .guess id => { n with leader := { n.leader with id := id } }
  | .ack name id url term =>
    let l : Leader := ⟨name.getD n.leader.name, url.getD n.leader.url, id.getD n.leader.id,
      term.getD n.leader.term⟩
    ⟨l, if term.isSome then leaderWasUpdated itoa n.md l else n.md⟩
  | .steppedDown name id url term =>
    let l : Leader := ⟨nonEmpty n.leader.name name, nonEmpty n.leader.url url, nonEmpty n.leader.id id,
      term.getD n.leader.term⟩
    ⟨l, leaderWasUpdated itoa n.md l⟩

end Verif.UserMeta
