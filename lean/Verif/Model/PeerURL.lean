/-
Model of ParsePeerURL and the URL builders, /repo/ckt.go, together with the part of Go's
net/url.Parse (Go 1.24, the version in go.mod) they go through. Strings are byte strings.
-/
namespace Verif.PeerURL

abbrev Str := List UInt8

/-- The bytes of a Go string literal. -/
def lit (s : String) : Str := s.toUTF8.data.toList

/-- A byte literal. -/
def ch (c : Char) : UInt8 := c.val.toUInt8

/-- strings.Cut at the first occurrence of a byte: before, and after if found. -/
def cutAt (b : UInt8) : Str → Str × Option Str
  | [] => ([], none)
  | c :: t => if c = b then ([], some t) else (c :: (cutAt b t).1, (cutAt b t).2)

/-- Split at the last occurrence of a byte (strings.LastIndex): before and after. -/
def cutLast (b : UInt8) : Str → Option (Str × Str)
  | [] => none
  | c :: t => match cutLast b t with
    | some (x, y) => some (c :: x, y)
    | none => if c = b then some ([], t) else none

/-- strings.Split(s, "/"). -/
def splitSlash : Str → List Str
  | [] => [[]]
  | c :: t => if c = ch '/' then [] :: splitSlash t
    else match splitSlash t with
      | [] => [[c]]
      | x :: xs => (c :: x) :: xs

def isAlpha (c : UInt8) : Bool := (97 ≤ c && c ≤ 122) || (65 ≤ c && c ≤ 90)
def isDigit (c : UInt8) : Bool := 48 ≤ c && c ≤ 57
def toLower (c : UInt8) : UInt8 := if 65 ≤ c && c ≤ 90 then c + 32 else c
def isHex (c : UInt8) : Bool := isDigit c || (97 ≤ c && c ≤ 102) || (65 ≤ c && c ≤ 70)
def unhex (c : UInt8) : UInt8 :=
  if isDigit c then c - 48 else if 97 ≤ c && c ≤ 102 then c - 97 + 10
  else if 65 ≤ c && c ≤ 70 then c - 65 + 10 else 0

/-- net/url shouldEscape for host and zone modes. -/
def badHostByte (c : UInt8) : Bool :=
  !(isAlpha c || isDigit c || (lit "-_.~!$&'()*+,;=:[]<>\"").contains c)

inductive Mode | path | host | zone
deriving DecidableEq, Repr

/-- net/url unescape, for the three modes used here; `none` is an error. '+' is only special
in query mode. -/
def unescape (m : Mode) : Str → Option Str
  | [] => some []
  | c :: t =>
    if c = ch '%' then
      match t with
      | a :: b :: t' =>
        if !(isHex a && isHex b) then none
        else if m = .host && unhex a < 8 && !(a = ch '2' && b = ch '5') then none
        else
          let v := (unhex a <<< 4) ||| unhex b
          if m = .zone && !(a = ch '2' && b = ch '5') && v ≠ ch ' ' && badHostByte v then none
          else (unescape m t').map (v :: ·)
      | _ => none
    else if m ≠ .path && c < 0x80 && badHostByte c then none
    else (unescape m t).map (c :: ·)

/-- net/url validOptionalPort. -/
def validOptionalPort : Str → Bool
  | [] => true
  | c :: t => c = ch ':' && t.all isDigit

/-- First occurrence of "%25": (before, from there on). -/
def cutZone : Str → Option (Str × Str)
  | [] => none
  | c :: t =>
    if (lit "%25").isPrefixOf (c :: t) then some ([], c :: t)
    else (cutZone t).map (fun p => (c :: p.1, p.2))

/-- net/url parseHost. -/
def parseHost (host : Str) : Option Str :=
  match host with
  | c :: _ =>
    if c = ch '[' then
      match cutLast (ch ']') host with
      | none => none
      | some (pre, post) =>
        if !validOptionalPort post then none
        else match cutZone pre with
          | some (h1, h2) =>
            match unescape .host h1, unescape .zone h2, unescape .host (ch ']' :: post) with
            | some a, some b, some c => some (a ++ b ++ c)
            | _, _, _ => none
          | none => unescape .host host
    else
      match cutLast (ch ':') host with
      | some (_, port) => if !validOptionalPort (ch ':' :: port) then none else unescape .host host
      | none => unescape .host host
  | [] => some []

/-- net/url validUserinfo, and the unescaping of its parts. -/
def userinfoOK (u : Str) : Bool :=
  u.all (fun c => isAlpha c || isDigit c || (lit "-._:~!$&'()*+,;=%@").contains c) &&
    (unescape .path u).isSome

/-- net/url parseAuthority, the host only. -/
def parseAuthority (a : Str) : Option Str :=
  match cutLast (ch '@') a with
  | none => parseHost a
  | some (u, h) => if userinfoOK u then parseHost h else none

/-- net/url getScheme: `none` is "missing protocol scheme"; otherwise scheme and rest. -/
def getSchemeAux (raw : Str) : (i : Nat) → Str → Option (Str × Str)
  | _, [] => some ([], raw)
  | i, c :: t =>
    if isAlpha c then getSchemeAux raw (i + 1) t
    else if isDigit c || c = ch '+' || c = ch '-' || c = ch '.' then
      if i = 0 then some ([], raw) else getSchemeAux raw (i + 1) t
    else if c = ch ':' then
      if i = 0 then none else some (raw.take i, t)
    else some ([], raw)

def getScheme (raw : Str) : Option (Str × Str) := getSchemeAux raw 0 raw

/-- The fields of url.URL that ParsePeerURL reads. -/
structure URL where
  scheme : Str := []
  host : Str := []
  path : Str := []
deriving DecidableEq, Repr

/-- url.Parse: an error, "first path segment in URL cannot contain colon", or a URL. -/
inductive UParse
  | err
  | colonErr
  | ok (u : URL)
deriving DecidableEq, Repr

/-- The query is cut off; a lone trailing '?' is dropped; both leave what is before the
first '?'. -/
def beforeQuery (rest : Str) : Str := (cutAt (ch '?') rest).1

/-- net/url setPath on what is left. -/
def finishPath (scheme host rest : Str) : UParse :=
  match unescape .path rest with
  | none => .err
  | some p => .ok ⟨scheme, host, p⟩

/-- net/url.Parse (viaRequest = false). The fragment after '#' is unescaped too, an error
there being an error of Parse. -/
def urlParse (raw : Str) : UParse :=
  let u := (cutAt (ch '#') raw).1
  let frag := ((cutAt (ch '#') raw).2).getD []
  if u.any (fun b => b < 0x20 || b = 0x7f) then .err
  else if (unescape .path frag).isNone then .err
  else if u = lit "*" then .ok { path := lit "*" }
  else match getScheme u with
    | none => .err
    | some (scheme0, rest0) =>
      let scheme := scheme0.map toLower
      let rest := beforeQuery rest0
      if rest.head? ≠ some (ch '/') ∧ scheme ≠ [] then .ok { scheme := scheme }   -- Opaque
      else if rest.head? ≠ some (ch '/') ∧ (cutAt (ch '/') rest).1.contains (ch ':') then .colonErr
      else if (scheme ≠ [] ∨ ¬ (lit "///").isPrefixOf rest) ∧ (lit "//").isPrefixOf rest then
        let a := rest.drop 2
        match cutAt (ch '/') a with
        | (auth, none) =>
          match parseAuthority auth with
          | none => .err
          | some h => finishPath scheme h []
        | (auth, some path) =>
          match parseAuthority auth with
          | none => .err
          | some h => finishPath scheme h (ch '/' :: path)
      else finishPath scheme [] rest

/-- Result of ParsePeerURL. -/
inductive Res
  | ok (netAddr serviceName peerID circuitID : Str)
  | err
  | panic
deriving DecidableEq, Repr

/-- strings.Contains(s, "://"). -/
def containsSep : Str → Bool
  | [] => false
  | c :: t => (lit "://").isPrefixOf (c :: t) || containsSep t

/-- ckt.go:648-671: the part after a successful url.Parse. -/
def fromURL (u : URL) : Res :=
  match splitSlash u.path with
  | [] => .panic   -- strings.Split never returns an empty slice for a non-empty separator
  | s0 :: rest =>
    if s0 ≠ [] then .panic
    else .ok (u.scheme ++ lit "://" ++ u.host) (rest.getD 0 []) (rest.getD 1 []) (rest.getD 2 [])

/-- ckt.go:622-672 `ParsePeerURL`. -/
def parsePeerURL (peerURL : Str) : Res :=
  match urlParse peerURL with
  | .ok u => fromURL u
  | .err => .err
  | .colonErr =>
    if containsSep peerURL then .err
    else match urlParse (lit "tcp://" ++ peerURL) with
      | .ok u => fromURL u
      | _ => .err

/-- ckt.go:175-182, 183-190 `LocalCircuitURL`, `RemoteCircuitURL`. -/
def circuitURL (netAddr svc peer ckt : Str) : Str :=
  netAddr ++ lit "/" ++ svc ++ lit "/" ++ peer ++ lit "/" ++ ckt

/-- ckt.go:193-198 `RemotePeerURL`, 513-518 `LocalPeer.URL`. -/
def peerURL (netAddr svc peer : Str) : Str :=
  netAddr ++ lit "/" ++ svc ++ lit "/" ++ peer

end Verif.PeerURL
