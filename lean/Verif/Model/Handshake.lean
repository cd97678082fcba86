import Verif.Model.Wire
/-
Model of the key agreement that sets up the inner encryption layer:
/repo/symmetric.go, and of who calls it: cli.go:2745-2785 `setupPSK`,
srv.go:356-404 `serveConn`, quic_server.go:233-269.

The primitives (X25519, HKDF, ed25519, x509, HMAC) are a record `Prims`.  The
same handshake functions are used with two kinds of primitives: any functions on
bytes (key agreement, framing), and a term algebra (Model/HandshakeSym.lean) for
what an attacker on the network can learn.

Left out: the "caboose" (symmetric.go:387-427 and 650-690; `useCaboose` is the
constant false, symmetric.go:265), timeouts of the writes, `encryptWithPubKey`
and `decryptWithPrivKey` (used by tests only).
-/
namespace Verif.Handshake
open Verif.Wire

/-- The cryptographic library as seen by symmetric.go.  Key generation with the
base point cannot fail (curve25519.X25519 special-cases it); any other X25519
call fails when the result is all zeros or the point has the wrong length. -/
structure Prims where
  /-- X25519 public keys as sent -/
  Pub : Type
  /-- X25519 private keys -/
  Priv : Type
  Sig : Type
  /-- certificates as sent -/
  Raw : Type
  /-- parsed certificates -/
  Cert : Type
  /-- ed25519 public keys -/
  SPub : Type
  /-- ed25519 private keys -/
  SPriv : Type
  /-- results of X25519 -/
  Sec : Type
  Psk : Type
  Key : Type
  /-- pools of trusted certificate authorities -/
  Pool : Type
  /-- symmetric.go:441-468 `generateX25519KeyPair`: clamp and multiply the base point. -/
  pubOf : Priv → Pub
  /-- symmetric.go:794-808 `isValidX25519PublicKey` -/
  validPub : Pub → Bool
  x25519 : Priv → Pub → Option Sec
  /-- symmetric.go:470-492 -/
  hkdf : Sec → Psk → Key
  sign : SPriv → Pub → Sig
  verify : SPub → Pub → Sig → Bool
  /-- x509.ParseCertificate -/
  parse : Raw → Option Cert
  /-- x509.Certificate.Verify with the pool as roots, no intermediates, and a time -/
  chains : Pool → Nat → Cert → Bool
  /-- the ed25519 key of the certificate, if that is its kind of key -/
  certKey : Cert → Option SPub

/-- symmetric.go:221-226 `verifiedHandshake`. -/
structure Shake (P : Prims) where
  ephem : P.Pub
  sig : P.Sig
  cert : P.Raw
  sentAt : Nat

/-- The fields used of `selfcert.Creds`. -/
structure Creds (P : Prims) where
  nodeKey : P.SPriv
  nodeCert : P.Raw
  pool : P.Pool

/-- Why a handshake is refused. -/
inductive Refuse where
  /-- nothing decodable was read -/
  | unreadable
  | badEphemeral
  | badCert
  | untrusted
  | notEd25519
  | badSignature
  /-- our own message could not be written -/
  | unwritable
deriving DecidableEq, Repr

/-- What an accepted handshake hands to its caller. -/
structure Accepted (P : Prims) where
  key : P.Key
  cliEphem : P.Pub
  srvEphem : P.Pub
  peer : Option P.SPub

/-- End of a handshake. -/
inductive End (P : Prims) where
  | ok (a : Accepted P)
  | refuse (r : Refuse)
  | panic

/-- The checks made of a received handshake, in the order of the code:
symmetric.go:315-352 at the server, 599-636 at the client. -/
def checkPeer (P : Prims) (pool : P.Pool) (now : Nat) (s : Shake P) : Except Refuse P.SPub :=
  if P.validPub s.ephem = false then .error .badEphemeral
  else match P.parse s.cert with
    | none => .error .badCert
    | some c =>
      if P.chains pool now c = false then .error .untrusted
      else match P.certKey c with
        | none => .error .notEd25519
        | some pk => if P.verify pk s.ephem s.sig = false then .error .badSignature else .ok pk

/-- The handshake message a side sends: symmetric.go:571-581 client, 303 and 361-366 server. -/
def ownShake (P : Prims) (c : Creds P) (eph : P.Priv) (now : Nat) : Shake P :=
  { ephem := P.pubOf eph, sig := P.sign c.nodeKey (P.pubOf eph), cert := c.nodeCert, sentAt := now }

/-- symmetric.go:283-430 `symmetricServerVerifiedHandshake`: what is sent to the
client, and the result.  `got` is the decoded message of the client, `none` if
reading or decoding failed; `writeOk` tells whether our message could be
written.  X25519's error is a panic (line 377), after our answer was sent. -/
def serverVerified (P : Prims) (psk : P.Psk) (c : Creds P) (eph : P.Priv) (now : Nat)
    (got : Option (Shake P)) (writeOk : Bool) : Option (Shake P) × End P :=
  match got with
  | none => (none, .refuse .unreadable)
  | some s =>
    match checkPeer P c.pool now s with
    | .error r => (none, .refuse r)
    | .ok pk =>
      if writeOk = false then (none, .refuse .unwritable)
      else
        let mine := ownShake P c eph now
        match P.x25519 eph s.ephem with
        | none => (some mine, .panic)
        | some sec =>
          (some mine, .ok { key := P.hkdf sec psk, cliEphem := s.ephem, srvEphem := P.pubOf eph, peer := some pk })

/-- symmetric.go:552-693 `symmetricClientVerifiedHandshake` after its message
`ownShake` was written (a failed write ends the handshake with `unwritable`, lines 586-589). -/
def clientVerified (P : Prims) (psk : P.Psk) (c : Creds P) (eph : P.Priv) (now : Nat)
    (got : Option (Shake P)) : End P :=
  match got with
  | none => .refuse .unreadable
  | some s =>
    match checkPeer P c.pool now s with
    | .error r => .refuse r
    | .ok pk =>
      match P.x25519 eph s.ephem with
      | none => .panic
      | some sec =>
        .ok { key := P.hkdf sec psk, cliEphem := P.pubOf eph, srvEphem := s.ephem, peer := some pk }

/-- symmetric.go:155-207 `symmetricServerHandshake`, the variant without
certificates: what is sent, and the result. -/
def serverPlain (P : Prims) (psk : P.Psk) (eph : P.Priv) (got : Option P.Pub) (writeOk : Bool) :
    Option P.Pub × End P :=
  match got with
  | none => (none, .refuse .unreadable)
  | some p =>
    if P.validPub p = false then (none, .refuse .badEphemeral)
    else if writeOk = false then (none, .refuse .unwritable)
    else match P.x25519 eph p with
      | none => (some (P.pubOf eph), .panic)
      | some sec =>
        (some (P.pubOf eph), .ok { key := P.hkdf sec psk, cliEphem := p, srvEphem := P.pubOf eph, peer := none })

/-- symmetric.go:499-549 `symmetricClientHandshake` after its public key was written. -/
def clientPlain (P : Prims) (psk : P.Psk) (eph : P.Priv) (got : Option P.Pub) : End P :=
  match got with
  | none => .refuse .unreadable
  | some p =>
    if P.validPub p = false then .refuse .badEphemeral
    else match P.x25519 eph p with
      | none => .panic
      | some sec => .ok { key := P.hkdf sec psk, cliEphem := P.pubOf eph, srvEphem := p, peer := none }

/-! ### Which key the traffic is encrypted with -/

/-- The transport of a connection. -/
inductive Transport where
  /-- TCPonly_no_TLS -/
  | tcp
  | tls
  | quic
deriving DecidableEq, Repr

/-- What of the configuration matters. `encryptPSK` is set when a pre-shared key
file is configured and present, cli.go:1370-1393. -/
structure Cfg (P : Prims) where
  transport : Transport
  encryptPSK : Bool
  psk : P.Psk

/-- How a connection starts. -/
inductive Start (P : Prims) where
  /-- the inner layer is off: messages are sent as they are -/
  | plaintext
  /-- messages are encrypted with this key -/
  | encrypted (k : P.Key)
  /-- no messages are exchanged -/
  | refused
  | crashed

/-- The key the send and read loops of a client use: `setupPSK`
(cli.go:2745-2750: nothing is done for TCPonly_no_TLS) and then
cli.go:376-387, 614-622 (`randomSymmetricSessKeyFromPreSharedKey` if encryptPSK).
`zero` is the all-zero key such a field starts with, `hs` the end of the
handshake if one is made. -/
def clientStart (P : Prims) (zero : P.Key) (cfg : Cfg P) (hs : End P) : Start P :=
  if cfg.encryptPSK = false then .plaintext
  else if cfg.transport = .tcp then .encrypted zero
  else match hs with
    | .ok a => .encrypted a.key
    | .refuse _ => .refused
    | .panic => .crashed

/-- The same at a server: srv.go:364-392 (`!TCPonly_no_TLS && encryptPSK`),
quic_server.go:239-267, and srv.go:498-506, 641-649. -/
def serverStart (P : Prims) (zero : P.Key) (cfg : Cfg P) (hs : End P) : Start P :=
  if cfg.encryptPSK = false then .plaintext
  else
    let shakes : Bool := match cfg.transport with
      | .tcp => false
      | .tls => true
      | .quic => true
    if shakes = false then .encrypted zero
    else match hs with
      | .ok a => .encrypted a.key
      | .refuse _ => .refused
      | .panic => .crashed

/-! ### Framing of the handshake messages -/

/-- symmetric.go:275 -/
def maxHandshakeBytes : Nat := 914

/-- symmetric.go:695 -/
def authTagLen : Nat := 32

/-- symmetric.go:794-808 `isValidX25519PublicKey`. -/
def isValidX25519PublicKey (b : Bytes) : Bool :=
  if b.length ≠ 32 then false
  else if b = List.replicate 32 0 then false
  else true

/-- symmetric.go:453-458 the clamping of a private key. -/
def clamp (seed : Bytes) : Bytes :=
  let a := seed.set 0 (seed.getD 0 0 &&& 248)
  let b := a.set 31 (a.getD 31 0 &&& 127)
  b.set 31 (b.getD 31 0 ||| 64)

/-- symmetric.go:708-742 `sendLenThenBytesTag`: the bytes written.  `hmac key msg`. -/
def sendLenThenBytesTag (hmac : Bytes → Bytes → Bytes) (shake : Bytes) : Res Bytes :=
  let n := shake.length
  if maxHandshakeBytes < 8 + n + authTagLen then .panic
  else
    let lenby := be64 n
    .ok (lenby ++ shake ++ hmac lenby shake)

/-- symmetric.go:758-787 `readLenThenBytesTag` on a connection that delivers
`inp` and then ends: the message, its tag and the bytes left on the connection. -/
def readLenThenBytesTag (hmac : Bytes → Bytes → Bytes) (inp : Bytes) : Res (Bytes × Bytes × Bytes) :=
  if inp.length < 8 then .err .eof
  else
    let lenby := inp.take 8
    let n := deBe lenby
    if maxHandshakeBytes < n then .err .tooLong
    else
      let rest := inp.drop 8
      if rest.length < n + authTagLen then .err .eof
      else
        let shake := rest.take n
        let tag := (rest.drop n).take authTagLen
        if tag ≠ hmac lenby shake then .err (.other 0)
        else .ok (shake, tag, rest.drop (n + authTagLen))

/-- How many bytes are allocated for a message that announces length `n`
(symmetric.go:764-772). -/
def allocated (inp : Bytes) : Nat :=
  if inp.length < 8 then 8
  else
    let n := deBe (inp.take 8)
    if maxHandshakeBytes < n then 8 else 8 + (n + authTagLen)

/-- symmetric.go:746-756 `readLenThenShakeTag`.  The error of the reading is
overwritten by that of the decoding, which is then given no bytes at all. -/
def readLenThenShakeTag {α : Type} (hmac : Bytes → Bytes → Bytes) (decode : Bytes → Option α) (inp : Bytes) :
    Option α :=
  match readLenThenBytesTag hmac inp with
  | .ok (shake, _, _) => decode shake
  | .err _ => decode []
  | .panic => decode []

end Verif.Handshake
