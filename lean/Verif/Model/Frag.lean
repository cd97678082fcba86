/-
Model of Fragment / Message conversion and Fragment comparison, /repo/ckt.go.
Strings are byte strings (Go compares strings bytewise). Integers are unbounded:
no arithmetic is done on them here.
-/
namespace Verif.Frag

abbrev Str := List UInt8

/-- A Go string literal, as its bytes. -/
def lit (s : String) : Str := s.toUTF8.data.toList

/-- A Go map[string]string as an association list, newest binding first. -/
abbrev ArgsMap := List (Str × Str)

/-- Map lookup `m[k]` with presence. -/
def ArgsMap.get (m : ArgsMap) (k : Str) : Option Str := (m.find? (fun p => p.1 == k)).map (·.2)

/-- Map assignment `m[k] = v`. -/
def ArgsMap.set (m : ArgsMap) (k v : Str) : ArgsMap := (k, v) :: m

/-- Reading a possibly nil map. -/
def getArg (m : Option ArgsMap) (k : Str) : Option Str := m.bind (fun m => ArgsMap.get m k)

/-- ckt.go:283-314 `Fragment`. `args = none` is the nil map. `created` is a timestamp. -/
structure Fragment where
  fromPeerID : Str := []
  fromPeerName : Str := []
  fromPeerServiceName : Str := []
  fromPeerServiceNameVersion : Str := []
  toPeerID : Str := []
  toPeerName : Str := []
  toPeerServiceName : Str := []
  toPeerServiceNameVersion : Str := []
  circuitID : Str := []
  serial : Int := 0
  typ : Int := 0
  fragOp : Int := 0
  fragSubject : Str := []
  fragPart : Int := 0
  args : Option ArgsMap := none
  payload : Str := []
  err : Str := []
  created : Int := 0
deriving DecidableEq, Repr

/-- hdr.go `HDR` and `Message`, the fields the two conversions touch. -/
structure Message where
  created : Int := 0
  from_ : Str := []
  to : Str := []
  fromPeerID : Str := []
  fromPeerName : Str := []
  fromServiceName : Str := []
  fromPeerServiceNameVersion : Str := []
  toPeerID : Str := []
  toPeerName : Str := []
  toServiceName : Str := []
  toPeerServiceNameVersion : Str := []
  callID : Str := []
  serial : Int := 0
  typ : Int := 0
  fragOp : Int := 0
  subject : Str := []
  streamPart : Int := 0
  args : Option ArgsMap := none
  jobSerz : Str := []
  jobErrs : Str := []
deriving DecidableEq, Repr

/-- ckt.go `Circuit`, the fields used to fill in blanks (and the LocalPeer / RemotePeer
fields reached through LpbFrom / RpbTo). -/
structure Circuit where
  circuitID : Str
  localPeerID : Str
  localPeerName : Str
  localServiceName : Str
  localPeerServiceNameVersion : Str
  remotePeerID : Str
  remotePeerName : Str
  remoteServiceName : Str
  remotePeerServiceNameVersion : Str
  rpbToNetAddr : Str
  lpbFromNetAddr : Str
  baseServerName : Str
  baseServerAddr : Str
  hostname : Str
  pid : Str
deriving DecidableEq, Repr

/-- hdr.go:83-84. -/
def callPeerTraffic : Int := 117
def callPeerError : Int := 118

/-- ckt.go:322-340 `SetUserArg`; `none` is a panic. -/
def setUserArg (f : Fragment) (k v : Str) : Option Fragment :=
  if k = [] then none
  else if k.head? = some 35 then none
  else some { f with args := some ((f.args.getD []).set k v) }

/-- hdr.go:269-278 `copyArgsMap`. -/
def copyArgsMap (m : Option ArgsMap) : Option ArgsMap :=
  match m with
  | none => none
  | some [] => none
  | some m => some m

/-- ckt.go:849-873 `convertMessageToFragment`. -/
def convertMessageToFragment (m : Message) : Fragment :=
  { created := m.created
    fromPeerID := m.fromPeerID
    fromPeerName := m.fromPeerName
    fromPeerServiceName := m.fromServiceName
    fromPeerServiceNameVersion := m.fromPeerServiceNameVersion
    toPeerID := m.toPeerID
    toPeerName := m.toPeerName
    toPeerServiceName := m.toServiceName
    toPeerServiceNameVersion := m.toPeerServiceNameVersion
    circuitID := m.callID
    serial := m.serial
    typ := m.typ
    fragOp := m.fragOp
    fragSubject := m.subject
    fragPart := m.streamPart
    args := m.args
    payload := m.jobSerz
    err := m.jobErrs }

/-- ckt.go:875-928 `Fragment.ToMessage`. `now` is the clock, `fresh` the result of
issueSerial() should it be called. -/
def toMessage (now fresh : Int) (f : Fragment) : Message :=
  let m : Message :=
    { created := now
      fromPeerID := f.fromPeerID
      fromPeerName := f.fromPeerName
      fromServiceName := f.fromPeerServiceName
      fromPeerServiceNameVersion := f.fromPeerServiceNameVersion
      toPeerID := f.toPeerID
      toPeerName := f.toPeerName
      toServiceName := f.toPeerServiceName
      toPeerServiceNameVersion := f.toPeerServiceNameVersion
      callID := f.circuitID
      serial := if f.serial = 0 then fresh else f.serial
      typ := if f.typ = 0 then callPeerTraffic else f.typ
      fragOp := f.fragOp
      subject := f.fragSubject
      streamPart := f.fragPart
      args := if f.args = none then none else copyArgsMap f.args
      jobSerz := f.payload
      jobErrs := f.err }
  if f.err ≠ [] then { m with typ := callPeerError } else m

/-- `if field == "" { field = v }`. -/
def fillBlank (field v : Str) : Str := if field = [] then v else field

/-- ckt.go:933-982 `Circuit.ConvertFragmentToMessage`. The blanks are filled field by field;
no test looks at another field, so one record update says the same. -/
def convertFragmentToMessage (now fresh : Int) (c : Circuit) (f : Fragment) : Message :=
  let m := toMessage now fresh f
  { m with
    toPeerID := fillBlank m.toPeerID c.remotePeerID
    toPeerName := fillBlank m.toPeerName c.remotePeerName
    toServiceName := fillBlank m.toServiceName c.remoteServiceName
    toPeerServiceNameVersion := fillBlank m.toPeerServiceNameVersion c.remotePeerServiceNameVersion
    fromPeerID := fillBlank m.fromPeerID c.localPeerID
    fromPeerName := fillBlank m.fromPeerName c.localPeerName
    fromServiceName := fillBlank m.fromServiceName c.localServiceName
    fromPeerServiceNameVersion := fillBlank m.fromPeerServiceNameVersion c.localPeerServiceNameVersion
    callID := fillBlank m.callID c.circuitID
    to := fillBlank m.to c.rpbToNetAddr
    from_ := fillBlank m.from_ c.lpbFromNetAddr
    args := some <| ArgsMap.set (k := lit "#fromPID") (v := c.pid) <|
      ArgsMap.set (k := lit "#fromHostname") (v := c.hostname) <|
      ArgsMap.set (k := lit "#fromBaseServerAddr") (v := c.baseServerAddr) <|
      ArgsMap.set (k := lit "#fromBaseServerName") (v := c.baseServerName) <|
      ArgsMap.set (k := lit "#fromPeerServiceNameVersion") (v := c.localPeerServiceNameVersion) <|
      ArgsMap.set (k := lit "#fromServiceName") (v := c.localServiceName) <|
      m.args.getD [] }

/-- The `if x < y return -1; if x > y return 1` pattern, then continue. -/
def cmpThen {α} [LT α] [DecidableRel (α := α) (· < ·)] (x y : α) (k : Int) : Int :=
  if x < y then -1 else if y < x then 1 else k

/-- bytes.Compare. -/
def bytesCompare (x y : Str) : Int := if x < y then -1 else if y < x then 1 else 0

/-- ckt.go:2358-2450 `Fragment.Compare`, for two distinct non-nil fragments. -/
def compare (a b : Fragment) : Int :=
  cmpThen a.circuitID b.circuitID <|
  cmpThen a.fromPeerID b.fromPeerID <|
  cmpThen a.toPeerID b.toPeerID <|
  cmpThen a.serial b.serial <|
  cmpThen a.toPeerServiceName b.toPeerServiceName <|
  cmpThen a.fromPeerServiceName b.fromPeerServiceName <|
  cmpThen a.typ b.typ <|
  cmpThen a.fragOp b.fragOp <|
  cmpThen a.fragPart b.fragPart <|
  cmpThen a.fragSubject b.fragSubject <|
  cmpThen a.err b.err <|
  let cmp := bytesCompare a.payload b.payload
  if cmp < 0 then -1
  else if cmp > 1 then 1
  else 0

end Verif.Frag
