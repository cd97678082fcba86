/-!
# Looking for the leader

Model of `TubeNode.HelperFindLeader` (`tube/helper.go:75-372`). The nodes' answers are given: the
model has no network, no time limits and no circuits. The two loops are over Go maps, so the order
of either list of answers is arbitrary. The nodes asked in the second loop are collected from the
answers of the first (`tube/helper.go:222-261`); here they are any list. The list of inspections
that the function also returns is left out. Names are strings, the empty one is "no leader".
-/

namespace Verif.FindLeader

/-- What a node answers (`GetPeerListFrom`, or `Inspect` for the own node;
`tube/helper.go:112-136, 281`): the name of the node asked, who it says is leader, and where; an
error; the index and term at the end of its log, if it gave an inspection; whether it is a client
(looked at for the own node only); whether its address is "pending" (second loop only). -/
structure Answer where
  name : String
  leader : String
  url : String := ""
  err : Bool := false
  insp : Option (Int × Int) := none
  client : Bool := false
  pending : Bool := false
deriving DecidableEq

/-- The local variables (`tube/helper.go:75, 82-84`). The map `leaders` has for a name the node
that said so and its last log index and term. -/
structure St where
  notMe : Bool := false
  url : String := ""
  name : String := ""
  insp : Option (Int × Int) := none
  really : Bool := false
  leaders : List (String × (String × Int × Int)) := []
deriving DecidableEq

/-- `leaders[name] = &set{...}`. -/
def put (k : String) (v : String × Int × Int) :
    List (String × (String × Int × Int)) → List (String × (String × Int × Int))
  | [] => [(k, v)]
  | e :: l => if e.1 = k then (k, v) :: l else e :: put k v l

/-- `s == nil || llt > s.llt` (`tube/helper.go:215, 304`). -/
def newer (old : Option (String × Int × Int)) (llt : Int) : Bool :=
  match old with
  | none => true
  | some s => decide (s.2.2 < llt)

/-- The end of a round of the first loop (`tube/helper.go:181-219`): only what a node says of itself
counts. -/
def tell (me : String) (s : St) (a : Answer) : St :=
  if a.leader = "" then s
  else if a.leader ≠ a.name then s
  else if a.leader = me ∧ s.notMe = true then s
  else
    let i := a.insp.getD (0, 0)
    { s with
      insp := a.insp.orElse fun _ => s.insp
      name := a.leader
      url := a.url
      really := true
      leaders := if newer (s.leaders.lookup a.leader) i.2 then put a.leader (a.name, i.1, i.2) s.leaders
        else s.leaders }

/-- A round of the first loop (`tube/helper.go:104-220`): the own node, or another. -/
def ask (me : String) (s : St) (a : Answer) : St :=
  if a.name = me then
    tell me (if a.client = true ∨ a.leader = "" then { s with notMe := true } else s) a
  else if a.leader ≠ a.name then s
  else if a.err then s
  else tell me s a

/-- A round of the second loop (`tube/helper.go:263-309`). -/
def askExtra (me : String) (s : St) (x : Answer) : St :=
  if x.name = me then s
  else if x.pending then s
  else if x.err then s
  else if x.leader = "" then s
  else
    let i := x.insp.getD (0, 0)
    { s with
      insp := x.insp
      name := x.leader
      url := x.url
      really := true
      leaders := if newer (s.leaders.lookup x.leader) i.2 then [(x.leader, (x.name, i.1, i.2))]
        else s.leaders }

/-- A round of the loop for the highest term (`tube/helper.go:316-328`). -/
def higher (b : Option (String × (String × Int × Int))) (e : String × (String × Int × Int)) :
    Option (String × (String × Int × Int)) :=
  match b with
  | none => some e
  | some h => if h.2.2.2 < e.2.2.2 then some e else some h

/-- The reduction to the highest term (`tube/helper.go:311-330`). -/
def highest (l : List (String × (String × Int × Int))) : List (String × (String × Int × Int)) :=
  if 1 < l.length then
    (l.foldl higher none).toList
  else l

/-- What the caller gets. -/
structure Result where
  url : String
  name : String
  insp : Option (Int × Int)
  really : Bool
  err : Bool
deriving DecidableEq

/-- The deferred function (`tube/helper.go:86-99`). -/
def deferred (me : String) (notMe : Bool) (r : Result) : Result :=
  if r.name = me ∧ notMe = true then { r with name := "", url := "", really := false } else r

/-- The end (`tube/helper.go:331-372`). `addr` is `FixAddrPrefix(cfg.Node2Addr[name])`. None: the
process exits (`os.Exit(1)`). -/
def finish (me initial contact : String) (only : Bool) (addr : String → String) (s : St) : Option Result :=
  if (highest s.leaders).length = 1 then
    if contact ≠ "" ∧ s.name ≠ contact ∧ only = true then none
    else some (deferred me s.notMe ⟨s.url, s.name, s.insp, s.really, false⟩)
  else if contact = "" then
    if initial = "" then some (deferred me s.notMe ⟨s.url, s.name, s.insp, s.really, true⟩)
    else some (deferred me s.notMe ⟨addr initial, initial, s.insp, s.really, false⟩)
  else some (deferred me s.notMe ⟨addr contact, contact, s.insp, s.really, false⟩)

/-- `HelperFindLeader` (`tube/helper.go:75-372`), with the answers in the order they come in: those
of the configured nodes, then those of the others. -/
def find (me initial contact : String) (only : Bool) (addr : String → String)
    (answers extras : List Answer) : Option Result :=
  finish me initial contact only addr (extras.foldl (askExtra me) (answers.foldl (ask me) {}))

end Verif.FindLeader
