/-
Model of /repo/hostkey.go, the files known_client_keys and known_server_keys, and
of what the accept loops of srv.go and quic_server.go do with its verdict.

Text is a list of characters.  The encoding of public keys as text (base58 with a
check sum, an outside library) is a parameter.  The line numbers kept with the
entries are never used and left out, as is the key type, always "ed25519".
`PubKeyMap` is only asked whether a key is in it; its keys are always those of
`Hosts`, so the list stands for both.  Errors of the file system other than a
missing file are left out (os.Create would panic).
-/
namespace Verif.HostKey

abbrev Text := List Char

/-- unicode.IsSpace -/
def isSpace (c : Char) : Bool :=
  c = ' ' || (9 ≤ c.toNat && c.toNat ≤ 13) || c.toNat = 0x85 || c.toNat = 0xA0 || c.toNat = 0x1680 ||
    (0x2000 ≤ c.toNat && c.toNat ≤ 0x200a) || c.toNat = 0x2028 || c.toNat = 0x2029 || c.toNat = 0x202f ||
    c.toNat = 0x205f || c.toNat = 0x3000

/-- strings.Split(s, sep) for a separator of one character: never empty. -/
def split (sep : Char) : Text → List Text
  | [] => [[]]
  | c :: cs => if c = sep then [] :: split sep cs else
    match split sep cs with
    | [] => [[c]]
    | w :: ws => (c :: w) :: ws

/-- strings.TrimSpace -/
def trimSpace (s : Text) : Text := ((s.dropWhile isSpace).reverse.dropWhile isSpace).reverse

/-- The words of a text; `cur` is the word being read, reversed. -/
def fieldsAux : Text → Text → List Text
  | cur, [] => if cur = [] then [] else [cur.reverse]
  | cur, c :: cs =>
    if isSpace c then (if cur = [] then fieldsAux [] cs else cur.reverse :: fieldsAux [] cs)
    else fieldsAux (c :: cur) cs

/-- strings.Fields -/
def fields (s : Text) : List Text := fieldsAux [] s

/-- hostkey.go:24-30 `knownKey` -/
structure KnownKey where
  addr : Text
  pubKey : Text
  emails : Text
deriving DecidableEq, Repr

/-- hostkey.go:120 -/
def prefixText : Text := "pubkey@edwardsRPC-ed25519-b58c-".toList

/-- hostkey.go:32-34 `knownKey.String` -/
def KnownKey.text (k : KnownKey) : Text := k.addr ++ ' ' :: (prefixText ++ (k.pubKey ++ ':' :: k.emails))

/-- hostkey.go:68 the first line of the file -/
def header : Text := "# known_pub_keys file: address pubkey-identity-string".toList

/-- hostkey.go:56-73 `WriteOut`: the new contents of the file. -/
def writeOut (hosts : List KnownKey) : Text :=
  header ++ '\n' :: (hosts.map fun k => k.text ++ ['\n']).flatten

/-- hostkey.go:75-82 `Add` -/
def add (hosts : List KnownKey) (k : KnownKey) : List KnownKey :=
  if hosts.any (fun h => h.pubKey = k.pubKey) then hosts else hosts ++ [k]

/-- hostkey.go:103-140 one line: an entry, nothing, or an error. -/
def readLine (line : Text) : Except Unit (Option KnownKey) :=
  let l := trimSpace line
  match l with
  | [] => .ok none
  | c :: _ =>
    if c = '#' then .ok none
    else match fields l with
      | addr :: ident :: _ =>
        if prefixText.isPrefixOf ident = false then .error ()
        else match split ':' (ident.drop prefixText.length) with
          | pub :: emails :: _ => .ok (some ⟨addr, pub, emails⟩)
          | _ => .error ()
      | _ => .ok none

/-- hostkey.go:101-141 all lines -/
def readLines : List Text → Except Unit (List KnownKey)
  | [] => .ok []
  | l :: ls => match readLine l with
    | .error e => .error e
    | .ok none => readLines ls
    | .ok (some k) => match readLines ls with
      | .error e => .error e
      | .ok ks => .ok (k :: ks)

/-- hostkey.go:86-143 `readknownKeys` for a file that exists. -/
def readKnown (s : Text) : Except Unit (List KnownKey) := readLines (split '\n' s)

/-- A certificate of the peer: its ed25519 key as text (`none`: a key of another
kind, or an empty one) and its email addresses. -/
structure Cert where
  key : Option Text
  emails : List Text
deriving DecidableEq, Repr

/-- The file of known keys: `none` if there is none, else whether any of its write
bits is set (fileutil.go:48-60), and its contents. -/
abbrev File := Option (Bool × Text)

inductive Verdict where
  /-- err0 = nil -/
  | accept
  | refuse
  | panic
deriving DecidableEq, Repr

/-- strings.Join(emails, ",") -/
def joinComma : List Text → Text
  | [] => []
  | [e] => e
  | e :: es => e ++ ',' :: joinComma es

/-- hostkey.go:205-300 the loop over the certificates when there is a file.
`host` is `none` if the remote address cannot be split.  `good`: an identity was
accepted before; `bad`: one was found unknown.  The third part of the result is
what has been written to the file, if anything. -/
def loop (tofu : Bool) (host : Option Text) :
    List Cert → List KnownKey → Bool → Bool → Option Text → Verdict × Option Text
  | [], _, good, bad, out => (if bad && !good then .refuse else .accept, out)
  | c :: cs, hosts, good, bad, out =>
    match c.key with
    | none => (.refuse, out)
    | some pub =>
      match host with
      | none => (.panic, out)
      | some h =>
        if hosts.any (fun k => k.pubKey = pub) then (.accept, out)
        else if tofu then
          let hosts' := add hosts ⟨h, pub, joinComma c.emails⟩
          loop tofu host cs hosts' true bad (some (writeOut hosts'))
        else loop tofu host cs hosts good true out

/-- hostkey.go:205-233 the loop when there is no file. -/
def loopNoFile : List Cert → Verdict
  | [] => .accept
  | c :: cs => if c.key.isNone then .refuse else loopNoFile cs

/-- hostkey.go:153-300 `hostKeyVerifies`: the verdict and the file afterwards.  The
branch of lines 183-190 (no file, though there was one a moment ago) is left out;
a file that was written is writable. -/
def hostKeyVerifies (file : File) (certs : List Cert) (host : Option Text) : Verdict × File :=
  match file with
  | none => if certs = [] then (.panic, none) else (loopNoFile certs, none)
  | some (writable, text) =>
    match readKnown text with
    | .error _ => (.refuse, file)
    | .ok hosts =>
      if certs = [] then (.panic, file)
      else match loop writable host certs hosts false false none with
        | (v, none) => (v, file)
        | (v, some text') => (v, some (true, text'))

/-- One connection attempt: what the peer presents, where from, and whether the
operator has the file writable at that time. -/
structure Attempt where
  certs : List Cert
  host : Option Text
  writable : Bool
deriving DecidableEq, Repr

/-- The operator makes the file writable or read-only (README.md:1035-1060). -/
def chmod (writable : Bool) : File → File
  | none => none
  | some (_, t) => some (writable, t)

/-- Connection attempts one after the other. -/
def attempts (file : File) : List Attempt → File
  | [] => file
  | a :: as => attempts (hostKeyVerifies (chmod a.writable file) a.certs a.host).2 as

/-! ### The accept loops -/

/-- How a connection attempt at a server goes. -/
inductive Fate where
  /-- the TLS handshake fails -/
  | tlsFails
  /-- `hostKeyVerifies` refuses -/
  | keysRefused
  /-- the handshake with the pre-shared key fails -/
  | pskFails
  | served
deriving DecidableEq, Repr

/-- A server that accepts connections. -/
structure Srv where
  /-- the accept loop runs -/
  running : Bool
  /-- connections accepted and not closed, served or not -/
  held : Nat
  /-- of these, those being served -/
  live : Nat
deriving DecidableEq, Repr

/-- srv.go:233-260 and handleTLSConnection, 404-473; serveConn, 356-402: a TLS
server, with the limit on connections of limitlsn.go if there is one (Model/
Limit.lean).  `none`: the attempt has to wait.  Refused connections are closed by
line 441 only. -/
def acceptTLS (limit : Option Nat) (s : Srv) (f : Fate) : Option Srv :=
  if s.running = false then none
  else if (match limit with | none => false | some n => decide (n ≤ s.held)) = true then none
  else match f with
    | .tlsFails => some s
    | .keysRefused => some { s with held := s.held + 1 }
    | .pskFails => some { s with held := s.held + 1 }
    | .served => some { s with held := s.held + 1, live := s.live + 1 }

/-- quic_server.go:146-262 `runQUICServer`: a client refused at lines 186 and 190
ends the accept loop; QUIC knows no limit.  A failing pre-shared key handshake
ends the connection (lines 199-202). -/
def acceptQUIC (s : Srv) (f : Fate) : Option Srv :=
  if s.running = false then none
  else match f with
    | .tlsFails => some s
    | .keysRefused => some { s with running := false }
    | .pskFails => some s
    | .served => some { s with held := s.held + 1, live := s.live + 1 }

/-- srv.go:635 a served connection ends, for whatever reason. -/
def finish (s : Srv) : Option Srv :=
  if s.live = 0 then none else some { s with held := s.held - 1, live := s.live - 1 }

/-- What happens at a server. -/
inductive SrvEv where
  | attempt (f : Fate)
  | finish
deriving DecidableEq, Repr

/-- A server over time; `none`: an attempt was not taken. -/
def srvRun (accept : Srv → Fate → Option Srv) : Srv → List SrvEv → Option Srv
  | s, [] => some s
  | s, .attempt f :: es => match accept s f with
    | none => none
    | some s' => srvRun accept s' es
  | s, .finish :: es => match finish s with
    | none => none
    | some s' => srvRun accept s' es

/-- A server that just started. -/
def srvInit : Srv := { running := true, held := 0, live := 0 }

end Verif.HostKey
