/-
Model of the unencrypted wire framing of rpc25519.

Source: /repo/common.go (readFull, writeFull, workspace.readMessage,
workspace.sendMessage), /repo/magic7.go, /repo/compress.go.

Bytes are `List UInt8`.  The greenpack (msgpack) encoding of a Message is an
opaque byte string here ("body"); `msg.AsGreenpack` / `MessageFromGreenpack`
are not modelled.
-/
namespace Verif.Wire

abbrev Bytes := List UInt8

/-- Errors that can come back from the connection or the framing code.
common.go:27 `ErrTooLong`, magic7.go:25 `ErrMagicWrong`, `io.EOF`; any other
connection error is `other`. `deadline` is `os.ErrDeadlineExceeded` (or an error
whose text says "timeout"). -/
inductive Err where
  | eof
  | deadline
  | magicWrong
  | tooLong
  | unknownMagic7
  | unknownAlgo
  | other (n : Nat)
deriving DecidableEq, Repr

/-- Outcome of a Go call: a value, an error value, or a panic. -/
inductive Res (α : Type) where
  | ok (a : α)
  | err (e : Err)
  | panic
deriving DecidableEq, Repr

/-- One piece of data as the transport hands it out: the bytes, and possibly an
error that comes with (after) them.  Go's `Read` may return data together with
an error. -/
structure Chunk where
  data : Bytes
  err : Option Err
deriving DecidableEq, Repr

/-- The reading side of a connection: the sequence of pieces still to be
delivered.  When it is exhausted every `Read` gives `io.EOF`.  Any behaviour of
`conn.Read` that delivers a byte stream in order can be written this way by
cutting the stream where the individual Reads ended. -/
abbrev Conn := List Chunk

/-- What is left of a piece after `n` of its bytes were taken.  A piece whose
bytes are used up but that carries an error keeps reporting that error. -/
def Chunk.rest (c : Chunk) (n : Nat) (tl : Conn) : Conn :=
  if c.data.length ≤ n then
    match c.err with
    | none => tl
    | some e => { data := [], err := some e } :: tl
  else { data := c.data.drop n, err := c.err } :: tl

/-- common.go:409-433 `readFull`. `need` = `len(buf)`, `acc` = the part of `buf`
already filled.  Returns the filled buffer or the error, and the connection
afterwards.  As in the code: enough bytes wins over an error that came with
them; an error with too few bytes is returned. -/
def readFull (need : Nat) (acc : Bytes) : Conn → Res Bytes × Conn
  | [] => if need = 0 then (.ok acc, []) else (.err .eof, [])
  | c :: tl =>
    if need = 0 then (.ok acc, c :: tl)
    else if need ≤ c.data.length then
      (.ok (acc ++ c.data.take need), c.rest need tl)
    else
      match c.err with
      | some e => (.err e, { data := [], err := some e } :: tl)
      | none => readFull (need - c.data.length) (acc ++ c.data) tl

/-- Result of one `conn.Write(p)` call: how many bytes the connection took, and
the error if any. -/
structure WriteEv where
  n : Nat
  err : Option Err
deriving DecidableEq, Repr

/-- Outcome of writeFull: returned nil, returned an error, or the connection
never answered the last Write (the list of Write results ran out). -/
inductive WRes where
  | ok
  | err (e : Err)
  | blocked
deriving DecidableEq, Repr

/-- common.go:436-507 `writeFull`.  `evs` are the results of the successive
`conn.Write` calls; a Write of a buffer of length k takes `min n k` bytes.
Returns the bytes handed to the connection and the outcome.
Line 464: with a deadline and some bytes written, one deadline error is
retried. -/
def writeFull (haveDeadline : Bool) (deadlineHit : Bool) (total : Nat) (buf : Bytes) :
    List WriteEv → Bytes × WRes
  | [] => if buf.length ≤ total then ([], .ok) else ([], .blocked)
  | ev :: evs =>
    if buf.length ≤ total then ([], .ok)
    else
      let n := min ev.n (buf.length - total)
      let out := (buf.drop total).take n
      if total + n = buf.length then (out, .ok)
      else
        match ev.err with
        | none =>
          let r := writeFull haveDeadline deadlineHit (total + n) buf evs
          (out ++ r.1, r.2)
        | some e =>
          if haveDeadline && decide (0 < total + n) && !deadlineHit && decide (e = .deadline) then
            let r := writeFull haveDeadline true (total + n) buf evs
            (out ++ r.1, r.2)
          else (out, .err e)

/-- magic7.go:23 -/
def magic : Bytes := [0xb3, 0x5d, 0x18, 0x39, 0xac, 0x8e, 0x1d, 0x00]

/-- common.go:15-20: msgsz = 1_200_000, msgoverhead = 110_720 (see lines 15-18). -/
def maxMessage : Nat := 1200000 + 110720 - 80

/-- magic7.go:61-85 `decodeMagic7`. -/
def decodeMagic7 (m : UInt8) : Res String :=
  if m = 0 then .ok "compression-none"
  else if m = 1 then .ok "s2"
  else if m = 2 then .ok "lz4"
  else if m = 3 then .ok "zstd:01"
  else if m = 4 then .ok "zstd:03"
  else if m = 5 then .ok "zstd:07"
  else if m = 6 then .ok "zstd:11"
  else if m = 7 then .ok "no-system-compression"
  else .err .unknownMagic7

/-- magic7.go:87-116 `encodeMagic7`. -/
def encodeMagic7 (s : String) : Res UInt8 :=
  if s = "" ∨ s = "compression-none" then .ok 0
  else if s = "s2" then .ok 1
  else if s = "lz4" then .ok 2
  else if s = "zstd:01" then .ok 3
  else if s = "zstd:03" then .ok 4
  else if s = "zstd:07" then .ok 5
  else if s = "zstd:11" then .ok 6
  else if s = "no-system-compression" then .ok 7
  else .err .unknownAlgo

/-- The s2 compressor and decompressor (github.com/klauspost/compress/s2), left
abstract.  `decomp` gives `none` on data it cannot decompress. -/
structure Codec where
  comp : Bytes → Bytes
  decomp : Bytes → Option Bytes

/-- compress.go:166-223 `handleCompress`: tags 0 and 7 leave the bytes alone, tag
1 is s2, every other tag panics. -/
def handleCompress (k : Codec) (tag : UInt8) (b : Bytes) : Res Bytes :=
  if tag = 0 then .ok b
  else if tag = 1 then .ok (k.comp b)
  else if tag = 7 then .ok b
  else .panic

/-- compress.go:225-282 `handleDecompress`. Line 270 `panicOn(err)`: data that s2
rejects panics. -/
def handleDecompress (k : Codec) (tag : UInt8) (b : Bytes) : Res Bytes :=
  if tag = 0 then .ok b
  else if tag = 1 then
    match k.decomp b with
    | some x => .ok x
    | none => .panic
  else if tag = 7 then .ok b
  else .panic

/-- encoding/binary BigEndian.PutUint64 (for values below 2^64). -/
def be64 (n : Nat) : Bytes :=
  [UInt8.ofNat (n / 2^56), UInt8.ofNat (n / 2^48), UInt8.ofNat (n / 2^40), UInt8.ofNat (n / 2^32),
   UInt8.ofNat (n / 2^24), UInt8.ofNat (n / 2^16), UInt8.ofNat (n / 2^8), UInt8.ofNat n]

/-- encoding/binary BigEndian.Uint64. -/
def deBe (b : Bytes) : Nat := b.foldl (fun a x => a * 256 + x.toNat) 0

/-- The parts of `workspace` (common.go:65-110) that influence framing:
`compress` = !cfg.CompressionOff, `isServer`, `defaultMagic7`. -/
structure WS where
  compress : Bool
  isServer : Bool
  defaultTag : UInt8
deriving DecidableEq, Repr

/-- common.go:128-196 `newWorkspace`: the default tag comes from the configured
algorithm name; an unknown name panics (magic7.go:118-127). -/
def newWorkspace (compressionOff isServer : Bool) (algo : String) : Res WS :=
  if compressionOff then .ok { compress := false, isServer := isServer, defaultTag := 0 }
  else
    match encodeMagic7 algo with
    | .ok t => .ok { compress := true, isServer := isServer, defaultTag := t }
    | _ => .panic

/-- common.go:333-364: which tag is put in magic byte 7.  `lastRead` is the value
of `spair.lastReadMagic7` at that moment (the server echoes the client's tag);
`noSys` is `msg.HDR.NoSystemCompression`. -/
def chooseTag (w : WS) (lastRead : UInt8) (noSys : Bool) : UInt8 :=
  if w.compress then
    if noSys then 7
    else if w.isServer then (if 8 ≤ lastRead.toNat then w.defaultTag else lastRead)
    else w.defaultTag
  else 0

/-- common.go:323-386 `sendMessage`: the three buffers that are handed to
`writeFull` one after the other (magic, length, body). -/
def sendWrites (k : Codec) (w : WS) (lastRead : UInt8) (noSys : Bool) (body : Bytes) :
    Res (List Bytes) :=
  let tag := chooseTag w lastRead noSys
  let framed (b : Bytes) : List Bytes := [magic.take 7 ++ [tag], be64 b.length, b]
  if w.compress && !noSys then
    match handleCompress k tag body with
    | .ok b => .ok (framed b)
    | .err e => .err e
    | .panic => .panic
  else .ok (framed body)

/-- The bytes one `sendMessage` puts on the connection. -/
def sendMessage (k : Codec) (w : WS) (lastRead : UInt8) (noSys : Bool) (body : Bytes) : Res Bytes :=
  match sendWrites k w lastRead noSys body with
  | .ok l => .ok l.flatten
  | .err e => .err e
  | .panic => .panic

/-- common.go:199-319 `readMessage`, up to the greenpack decoding of the body.
`hasDecomp` is `w.decomp != nil` (false on the first read of a workspace with
compression off).  Returns the tag and the decompressed body. -/
def readMessage (k : Codec) (hasDecomp : Bool) (c : Conn) : Res (UInt8 × Bytes) × Conn :=
  match readFull 8 [] c with
  | (.err e, c1) => (.err e, c1)
  | (.panic, c1) => (.panic, c1)
  | (.ok m, c1) =>
    if m.take 7 ≠ magic.take 7 then (.err .magicWrong, c1)
    else
      let tag := m.getLast?.getD 0
      match readFull 8 [] c1 with
      | (.err e, c2) => (.err e, c2)
      | (.panic, c2) => (.panic, c2)
      | (.ok l, c2) =>
        if maxMessage < deBe l then (.err .tooLong, c2)
        else
          match readFull (deBe l) [] c2 with
          | (.err e, c3) => (.err e, c3)
          | (.panic, c3) => (.panic, c3)
          | (.ok b, c3) =>
            if hasDecomp then
              match handleDecompress k tag b with
              | .ok x => (.ok (tag, x), c3)
              | .err e => (.err e, c3)
              | .panic => (.panic, c3)
            else if tag = 0 then (.ok (tag, b), c3)
            else
              match decodeMagic7 tag with
              | .ok _ =>
                match handleDecompress k tag b with
                | .ok x => (.ok (tag, x), c3)
                | .err e => (.err e, c3)
                | .panic => (.panic, c3)
              | _ => (.panic, c3)

/-- The read loops (cli.go:348, srv.go:619) call `readMessage` again and again.
`readMany n` is n successive reads; it stops at the first failure.
`hasDecomp` becomes true after the first compressed message (common.go:286). -/
def readMany (k : Codec) (hasDecomp : Bool) : Nat → Conn → Res (List (UInt8 × Bytes)) × Conn
  | 0, c => (.ok [], c)
  | n + 1, c =>
    match readMessage k hasDecomp c with
    | (.ok (t, b), c1) =>
      match readMany k (hasDecomp || t != 0) n c1 with
      | (.ok l, c2) => (.ok ((t, b) :: l), c2)
      | (.err e, c2) => (.err e, c2)
      | (.panic, c2) => (.panic, c2)
    | (.err e, c1) => (.err e, c1)
    | (.panic, c1) => (.panic, c1)

end Verif.Wire
