import Verif.Model.Handshake
import Mathlib.Data.Multiset.Count
/-
The handshake of symmetric.go (Model/Handshake.lean) run with symbolic
primitives, by any number of parties, over a network that belongs to the
attacker.

Messages are terms.  A point of the curve is the multiset of the private keys
that the base point was multiplied with, so that the two ways to compute a
shared secret agree and nothing else does; `none` is a point of low order.  A
signature names its signer and what was signed.  HKDF and the ciphers cannot be
inverted.  The attacker sees every message, delivers any message they can put
together, may have any number of certificates from the same authority (parties
whose signing key is leaked), and may later obtain signing keys, pre-shared
keys and ephemeral keys.

Simplified: clocks and certificate expiry play no role (a certificate chains or
does not); all parties trust the one authority.
-/
namespace Verif.HandshakeSym
open Verif.Handshake

/-- Private X25519 keys: those drawn by the code, and the attacker's own. -/
inductive Exp where
  | hon (n : Nat)
  | adv (n : Nat)
deriving DecidableEq, Repr

/-- Points; `none` is of low order (X25519 then fails, and the code does not
reject it: only the all-zero key, here not distinguished from the other low
order points, is refused by `isValidX25519PublicKey`). -/
abbrev Point := Option (Multiset Exp)

/-- Certificates as sent. -/
inductive RawCert where
  | garbage
  /-- parses, but another authority issued it -/
  | foreign (a : Nat)
  /-- issued by our authority, but for another kind of key -/
  | otherKind (a : Nat)
  /-- issued by our authority for the ed25519 key of party `a` -/
  | issued (a : Nat)
deriving DecidableEq, Repr

/-- The symbolic primitives.  Party `a` has signing key `a` and public key `a`. -/
def sym : Prims where
  Pub := Point
  Priv := Exp
  Sig := Option (Nat × Point)
  Raw := RawCert
  Cert := RawCert
  SPub := Nat
  SPriv := Nat
  Sec := Multiset Exp
  Psk := Nat
  Key := Multiset Exp × Nat
  Pool := Unit
  pubOf x := some {x}
  validPub _ := true
  x25519 x p := p.map (x ::ₘ ·)
  hkdf s psk := (s, psk)
  sign a p := some (a, p)
  verify a p s := decide (s = some (a, p))
  parse r := if r = .garbage then none else some r
  chains _ _ c := match c with
    | .issued _ => true
    | .otherKind _ => true
    | _ => false
  certKey c := match c with
    | .issued a => some a
    | _ => none

/-- Contents of application messages: the parties' own, and the attacker's. -/
inductive Datum where
  | hon (n : Nat)
  | adv (n : Nat)
deriving DecidableEq, Repr

/-- What can be seen, known or sent. -/
inductive Term where
  | exp (x : Exp)
  | pt (p : Point)
  | sk (a : Nat)
  | sig (s : Option (Nat × Point))
  | psk (i : Nat)
  | key (k : Multiset Exp × Nat)
  | data (d : Datum)
  /-- an application message encrypted with a session key (Model/Crypt.lean) -/
  | box (k : Multiset Exp × Nat) (d : Datum)

/-- What the attacker can work out from the terms in `obs`.  With `quantum` they
also compute discrete logarithms and forge signatures. -/
inductive Known (quantum : Bool) (obs : List Term) : Term → Prop
  | seen {t} : t ∈ obs → Known quantum obs t
  | ownExp (n : Nat) : Known quantum obs (.exp (.adv n))
  | ownData (n : Nat) : Known quantum obs (.data (.adv n))
  | low : Known quantum obs (.pt none)
  | base : Known quantum obs (.pt (some 0))
  | mul {x p} : Known quantum obs (.exp x) → Known quantum obs (.pt p) →
      Known quantum obs (.pt (p.map (x ::ₘ ·)))
  | garbageSig : Known quantum obs (.sig none)
  | sign {a p} : Known quantum obs (.sk a) → Known quantum obs (.pt p) → Known quantum obs (.sig (some (a, p)))
  | kdf {m i} : Known quantum obs (.pt (some m)) → Known quantum obs (.psk i) → Known quantum obs (.key (m, i))
  | encrypt {k d} : Known quantum obs (.key k) → Known quantum obs (.data d) → Known quantum obs (.box k d)
  | decrypt {k d} : Known quantum obs (.key k) → Known quantum obs (.box k d) → Known quantum obs (.data d)
  | dlog {x m} : quantum = true → Known quantum obs (.pt (some (x ::ₘ m))) → Known quantum obs (.pt (some m)) →
      Known quantum obs (.exp x)
  | forge (a : Nat) : quantum = true → Known quantum obs (.sk a)

/-- One run of the code at one end of a connection. -/
structure Session where
  owner : Nat
  isServer : Bool
  /-- number of the ephemeral key drawn -/
  eph : Nat
  psk : Nat
  /-- what the handshake returned, once it did -/
  result : Option (Accepted sym)

/-- All parties, the network and the attacker. -/
structure World where
  sessions : List Session
  /-- number of ephemeral keys drawn so far -/
  nextEph : Nat
  /-- application messages sent so far: which datum under which key -/
  sent : List (Nat × (Multiset Exp × Nat))
  /-- everything that was on the network, and everything that leaked -/
  obs : List Term
  leakedSk : List Nat
  leakedPsk : List Nat
  leakedEph : List Nat

/-- Nothing has happened yet. -/
def init : World :=
  { sessions := [], nextEph := 0, sent := [], obs := [], leakedSk := [], leakedPsk := [], leakedEph := [] }

/-- The credentials of party `a`. -/
def credsOf (a : Nat) : Creds sym := { nodeKey := a, nodeCert := .issued a, pool := () }

/-- The terms of a handshake message that are not public anyway. -/
def shakeTerms (s : Shake sym) : List Term := [.pt s.ephem, .sig s.sig]

/-- The attacker can deliver this handshake message. -/
def CanSend (quantum : Bool) (w : World) (s : Shake sym) : Prop :=
  Known quantum w.obs (.pt s.ephem) ∧ Known quantum w.obs (.sig s.sig)

/-- One event. -/
inductive Step (quantum : Bool) : World → World → Prop
  /-- a client starts: symmetric.go:552-589 -/
  | clientHello (w : World) (a i now : Nat) :
      Step quantum w { w with
        sessions := w.sessions ++ [⟨a, false, w.nextEph, i, none⟩]
        nextEph := w.nextEph + 1
        obs := shakeTerms (ownShake sym (credsOf a) (.hon w.nextEph) now) ++ w.obs }
  /-- a server gets a handshake message and accepts it: symmetric.go:283-430 -/
  | serverAccept (w : World) (b i now : Nat) (s mine : Shake sym) (r : Accepted sym) :
      CanSend quantum w s →
      serverVerified sym i (credsOf b) (.hon w.nextEph) now (some s) true = (some mine, .ok r) →
      Step quantum w { w with
        sessions := w.sessions ++ [⟨b, true, w.nextEph, i, some r⟩]
        nextEph := w.nextEph + 1
        obs := shakeTerms mine ++ w.obs }
  /-- a server gets a handshake message and crashes after answering: line 377 -/
  | serverCrash (w : World) (b i now : Nat) (s mine : Shake sym) :
      CanSend quantum w s →
      serverVerified sym i (credsOf b) (.hon w.nextEph) now (some s) true = (some mine, .panic) →
      Step quantum w { w with
        sessions := w.sessions ++ [⟨b, true, w.nextEph, i, none⟩]
        nextEph := w.nextEph + 1
        obs := shakeTerms mine ++ w.obs }
  /-- a waiting client gets a handshake message and accepts it: symmetric.go:591-693 -/
  | clientAccept (w : World) (pre post : List Session) (a n i now : Nat) (s : Shake sym) (r : Accepted sym) :
      w.sessions = pre ++ ⟨a, false, n, i, none⟩ :: post →
      CanSend quantum w s →
      clientVerified sym i (credsOf a) (.hon n) now (some s) = .ok r →
      Step quantum w { w with sessions := pre ++ ⟨a, false, n, i, some r⟩ :: post }
  /-- a session whose handshake is done sends an application message -/
  | sendData (w : World) (s : Session) (r : Accepted sym) :
      s ∈ w.sessions → s.result = some r →
      Step quantum w { w with
        sent := (w.sent.length, r.key) :: w.sent
        obs := .box r.key (.hon w.sent.length) :: w.obs }
  | leakSk (w : World) (a : Nat) :
      Step quantum w { w with leakedSk := a :: w.leakedSk, obs := .sk a :: w.obs }
  | leakPsk (w : World) (i : Nat) :
      Step quantum w { w with leakedPsk := i :: w.leakedPsk, obs := .psk i :: w.obs }
  /-- the ephemeral key of one session leaks -/
  | leakEph (w : World) (n : Nat) :
      Step quantum w { w with leakedEph := n :: w.leakedEph, obs := .exp (.hon n) :: w.obs }

/-- Any number of events. -/
inductive Run (quantum : Bool) : World → World → Prop
  | refl (w) : Run quantum w w
  | tail {a b c} : Run quantum a b → Step quantum b c → Run quantum a c

end Verif.HandshakeSym
