/-!
# Saving a received stream of parts to a file

Model of `ReceiveFileInParts` and `WriteOneMsgToFile` in `example.go:409-567`, and of the writer with
a buffer in `jsync/todisk.go:56-140`. Each has one temporary file and one path.

Left out: the digest of the whole and the text of the reply; directories; a rename that fails for
other reasons than a missing temporary file.
-/

namespace Verif.ToDisk

abbrev Bytes := List UInt8

/-- A part: a message of the stream, with what the receiver and the disk make of it. -/
structure Part where
  /-- `HDR.StreamPart`. -/
  num : Int
  data : Bytes
  /-- `Args["blake3"]`: missing, or whether it is that of the data. -/
  sum : Option Bool
  /-- `Args["readFile"]` is there, or the name is overridden. -/
  named : Bool := true
  /-- Whether this is the last part. -/
  last : Bool
  /-- Whether the temporary file can be created, asked for part 0. -/
  creates : Bool := true
  /-- How many bytes the disk still takes. -/
  room : Nat
deriving DecidableEq

/-- The file handle. -/
inductive Fd
  | none
  | opened (content : Bytes)
  | closed
deriving DecidableEq

/-- `PerCallID_FileToDiskState` (`example.go:348-364`), `FileToDiskState` (`jsync/todisk.go:23-38`):
the writer's buffer with its error is used by the second only. `path` is what is at the final path. -/
structure State where
  seen : Nat := 0
  parts : List Int := []
  fd : Fd := .none
  buf : Bytes := []
  broken : Bool := false
  bytesWrit : Nat := 0
  path : Option Bytes
deriving DecidableEq

/-- How a call ends. -/
inductive Res
  | ok
  | err
  | panic
deriving DecidableEq

/-- `os.File.Write` on an open file: what is in it then, the bytes written, whether all were. -/
def osWrite (content : Bytes) (room : Nat) (data : Bytes) : Bytes × Nat × Bool :=
  if data.length ≤ room then (content ++ data, data.length, true)
  else (content ++ data.take room, room, false)

/-- `io.Copy(s.Fd, bytes.NewBuffer(req.JobSerz))` (`example.go:541-552`). False: an error, also on a
handle that is nil or closed. -/
def copyOut (s : State) (p : Part) : State × Bool :=
  if p.data = [] then (s, true)
  else match s.fd with
    | .opened c =>
      let (c', n, ok) := osWrite c p.room p.data
      ({ s with fd := .opened c', bytesWrit := s.bytesWrit + n }, ok)
    | _ => (s, false)

/-- The end of a file (`example.go:553-558`): close, whose error is dropped, and rename. Without a
temporary file the rename fails, `panicOn`. -/
def finish (s : State) : State × Res :=
  match s.fd with
  | .opened c => ({ s with fd := .closed, path := some c }, .ok)
  | _ => (s, .panic)

/-- `WriteOneMsgToFile` from `part := req.HDR.StreamPart` on (`example.go:519-560`). -/
def writeRest (s : State) (p : Part) : State × Res :=
  if p.num ∈ s.parts then (s, .panic)
  else
    let s := { s with parts := p.num :: s.parts }
    if p.num > 0 ∧ p.sum ≠ some true then (s, .panic)
    else
      let r := copyOut s p
      if r.2 = false then (r.1, .err)
      else if p.last then finish r.1 else (r.1, .ok)

/-- `PerCallID_FileToDiskState.WriteOneMsgToFile` (`example.go:474-560`). -/
def writeOne (s : State) (p : Part) : State × Res :=
  let s := { s with seen := s.seen + 1 }
  if p.num = 0 then
    if s.seen ≠ 1 then (s, .panic)
    else if p.named = false then ({ s with parts := [] }, .panic)
    else if p.sum = some false then ({ s with parts := [] }, .panic)
    else if p.creates = false then ({ s with parts := [] }, .err)
    else writeRest { s with parts := [], fd := .opened [] } p
  else writeRest s p

/-- `ReceiveFileInParts` (`example.go:409-472`) for one call, not cancelled. -/
def receive (s : State) (p : Part) : State × Res :=
  if p.num ≠ s.seen then (s, .panic) else writeOne s p

/-- `beginReadStream` (`srv.go:2962-3010`): the parts in turn, up to the last one or the first error.
A panic ends it too. -/
def run (step : State → Part → State × Res) : State → List Part → State × Res
  | s, [] => (s, .ok)
  | s, p :: ps =>
    let r := step s p
    if r.2 = .ok ∧ p.last = false then run step r.1 ps else r

/-- `bufio.Writer.Flush` (standard library), on the open temporary file. False: an error. -/
def flush (s : State) (room : Nat) : State × Bool :=
  if s.broken then (s, false)
  else if s.buf = [] then (s, true)
  else match s.fd with
    | .opened c =>
      let (c', n, ok) := osWrite c room s.buf
      ({ s with fd := .opened c', buf := s.buf.drop n, broken := !ok }, ok)
    | _ => ({ s with broken := true }, false)

/-- `bufio.Writer.Write`'s write of data that do not fit an empty buffer: past it. -/
def direct (s : State) (room : Nat) (data : Bytes) : State × Nat × Bool :=
  match s.fd with
  | .opened c =>
    let (c', n, ok) := osWrite c room data
    ({ s with fd := .opened c', broken := !ok }, n, ok)
  | _ => ({ s with broken := true }, 0, false)

/-- `bufio.Writer.Write` (standard library) with a buffer of `cap` bytes: the bytes taken, and
whether without an error. Its loop runs at most twice. The room is that of the first write to disk;
a second one in the same call has what that leaves. -/
def bufWrite (cap : Nat) (s : State) (room : Nat) (data : Bytes) : State × Nat × Bool :=
  if s.broken then (s, 0, false)
  else if data.length ≤ cap - s.buf.length then ({ s with buf := s.buf ++ data }, data.length, true)
  else if s.buf = [] then direct s room data
  else
    let k := cap - s.buf.length
    let full := s.buf ++ data.take k
    let r := flush { s with buf := full } room
    if r.2 = false then (r.1, k, false)
    else if (data.drop k).length ≤ cap then ({ r.1 with buf := data.drop k }, data.length, true)
    else
      let d := direct r.1 (room - full.length) (data.drop k)
      (d.1, k + d.2.1, d.2.2)

/-- The end of a file in jsync (`jsync/todisk.go:127-135`): the error of `Flush` is dropped. -/
def finishBuf (s : State) (room : Nat) : State × Res :=
  match s.fd with
  | .none => (s, .panic)
  | _ => finish (flush s room).1

/-- `FileToDiskState.WriteOneMsgToFile` from `part := req.HDR.StreamPart` on
(`jsync/todisk.go:93-137`). A nil writer panics. -/
def bufRest (cap : Nat) (s : State) (p : Part) : State × Res :=
  if p.num ∈ s.parts then (s, .panic)
  else
    let s := { s with parts := p.num :: s.parts }
    if p.data = [] then if p.last then finishBuf s p.room else (s, .ok)
    else if s.fd = .none then (s, .panic)
    else
      let w := bufWrite cap s p.room p.data
      let s' := { w.1 with bytesWrit := s.bytesWrit + w.2.1 }
      if w.2.2 = false then (s', .err)
      else if p.last then finishBuf s' p.room else (s', .ok)

/-- `FileToDiskState.WriteOneMsgToFile` (`jsync/todisk.go:56-137`); `cap` is
`rpc.UserMaxPayload+10_000`. -/
def bufOne (cap : Nat) (s : State) (p : Part) : State × Res :=
  let s := { s with seen := s.seen + 1 }
  if p.num = 0 then
    if s.seen ≠ 1 then (s, .panic)
    else if p.creates = false then ({ s with parts := [] }, .err)
    else bufRest cap { s with parts := [], fd := .opened [], buf := [], broken := false } p
  else bufRest cap s p

end Verif.ToDisk
