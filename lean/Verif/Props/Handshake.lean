import Verif.Proofs.Handshake
import Verif.Proofs.X25519
/-
C69, C70, C73: the handshake for the inner encryption layer (symmetric.go), seen
from its two ends.
-/
namespace Verif.Handshake
open Verif.Wire

/-- At this time, this pool of authorities vouches for the certificate of `c`,
which is for the public key `pk`, which goes with the private key of `c`. -/
structure Trusts (P : Prims) (pool : P.Pool) (now : Nat) (c : Creds P) (pk : P.SPub) : Prop where
  cert : ∃ x, P.parse c.nodeCert = some x ∧ P.chains pool now x = true ∧ P.certKey x = some pk
  keys : ∀ m, P.verify pk m (P.sign c.nodeKey m) = true

/-- The ephemeral keys work: both are valid and both sides compute the same secret. -/
structure DH (P : Prims) (a b : P.Priv) (sec : P.Sec) : Prop where
  validA : P.validPub (P.pubOf a) = true
  validB : P.validPub (P.pubOf b) = true
  atA : P.x25519 a (P.pubOf b) = some sec
  atB : P.x25519 b (P.pubOf a) = some sec

theorem checkPeer_trusts {P : Prims} {pool : P.Pool} {now : Nat} {c : Creds P} {pk : P.SPub}
    (h : Trusts P pool now c pk) {x : P.Priv} (hv : P.validPub (P.pubOf x) = true) (t : Nat) :
    checkPeer P pool now (ownShake P c x t) = .ok pk := by
  obtain ⟨cert, h1, h2, h3⟩ := h.cert
  exact (checkPeer_iff P pool now _ pk).2 ⟨hv, cert, h1, h2, h3, h.keys _⟩

/-- C69: client and server, each trusting the other's certificate, exchange their
frames over a connection (whatever follows the frames on it).  The server
answers, both succeed, they hold the same key and agree on both ephemeral keys,
and each reports the other's long-term key. -/
theorem C69_verified_handshake_agrees (P : Prims) (hmac : Bytes → Bytes → Bytes)
    (hl : ∀ k m, (hmac k m).length = 32) (encode : Shake P → Bytes) (decode : Bytes → Option (Shake P))
    (psk : P.Psk) (cc cs : Creds P) (a b : P.Priv) (sec : P.Sec) (t1 t2 t3 : Nat) (pkC pkS : P.SPub)
    (hC : Trusts P cs.pool t2 cc pkC) (hS : Trusts P cc.pool t3 cs pkS) (hdh : DH P a b sec)
    (hd1 : decode (encode (ownShake P cc a t1)) = some (ownShake P cc a t1))
    (hd2 : decode (encode (ownShake P cs b t2)) = some (ownShake P cs b t2))
    (f1 f2 more1 more2 : Bytes)
    (h1 : sendLenThenBytesTag hmac (encode (ownShake P cc a t1)) = .ok f1)
    (h2 : sendLenThenBytesTag hmac (encode (ownShake P cs b t2)) = .ok f2) :
    ∃ rs rc : Accepted P,
      serverVerified P psk cs b t2 (readLenThenShakeTag hmac decode (f1 ++ more1)) true =
        (some (ownShake P cs b t2), .ok rs) ∧
      clientVerified P psk cc a t3 (readLenThenShakeTag hmac decode (f2 ++ more2)) = .ok rc ∧
      rs.key = rc.key ∧ rs.key = P.hkdf sec psk ∧
      rs.cliEphem = P.pubOf a ∧ rc.cliEphem = P.pubOf a ∧
      rs.srvEphem = P.pubOf b ∧ rc.srvEphem = P.pubOf b ∧
      rs.peer = some pkC ∧ rc.peer = some pkS := by
  have r1 : readLenThenShakeTag hmac decode (f1 ++ more1) = some (ownShake P cc a t1) := by
    unfold readLenThenShakeTag; rw [read_send hl h1]; exact hd1
  have r2 : readLenThenShakeTag hmac decode (f2 ++ more2) = some (ownShake P cs b t2) := by
    unfold readLenThenShakeTag; rw [read_send hl h2]; exact hd2
  refine ⟨⟨P.hkdf sec psk, P.pubOf a, P.pubOf b, some pkC⟩, ⟨P.hkdf sec psk, P.pubOf a, P.pubOf b, some pkS⟩,
    ?_, ?_, rfl, rfl, rfl, rfl, rfl, rfl, rfl, rfl⟩
  · rw [r1]
    simp only [serverVerified, checkPeer_trusts hC hdh.validA]
    have : P.x25519 b (ownShake P cc a t1).ephem = some sec := hdh.atB
    simp only [this]
    rfl
  · rw [r2]
    simp only [clientVerified, checkPeer_trusts hS hdh.validB]
    have : P.x25519 a (ownShake P cs b t2).ephem = some sec := hdh.atA
    simp only [this]
    rfl

/-- C69 for the variant without certificates. -/
theorem C69_plain_handshake_agrees (P : Prims) (psk : P.Psk) (a b : P.Priv) (sec : P.Sec) (hdh : DH P a b sec) :
    ∃ rs rc : Accepted P,
      serverPlain P psk b (some (P.pubOf a)) true = (some (P.pubOf b), .ok rs) ∧
      clientPlain P psk a (some (P.pubOf b)) = .ok rc ∧
      rs.key = rc.key ∧ rs.key = P.hkdf sec psk ∧ rs.cliEphem = rc.cliEphem ∧ rs.srvEphem = rc.srvEphem := by
  refine ⟨⟨P.hkdf sec psk, P.pubOf a, P.pubOf b, none⟩, ⟨P.hkdf sec psk, P.pubOf a, P.pubOf b, none⟩,
    ?_, ?_, rfl, rfl, rfl, rfl⟩
  · simp [serverPlain, hdh.validA, hdh.atB]
  · simp [clientPlain, hdh.validB, hdh.atA]

/-- C69: a handshake message of up to 874 bytes can be sent; a longer one (an
unusually long certificate) panics the sender. -/
theorem C69_frame_fits (hmac : Bytes → Bytes → Bytes) (m : Bytes) :
    (m.length ≤ 874 → sendLenThenBytesTag hmac m = .ok (be64 m.length ++ m ++ hmac (be64 m.length) m)) ∧
    (874 < m.length → sendLenThenBytesTag hmac m = .panic) := by
  have hmax : maxHandshakeBytes = 914 := rfl
  have htl : authTagLen = 32 := rfl
  constructor
  · intro h
    unfold sendLenThenBytesTag
    simp only
    rw [if_neg (by omega)]
  · intro h
    unfold sendLenThenBytesTag
    simp only
    rw [if_pos (by omega)]

/-! An example with X25519 itself and the keys of RFC 7748, section 6.1; the
other primitives are placeholders. -/

def demoRest : X25519.Rest where
  Sig := Unit
  Raw := Unit
  Cert := Unit
  SPub := Nat
  SPriv := Unit
  Psk := Bytes
  Key := Bytes × Bytes
  Pool := Unit
  hkdf s p := (s, p)
  sign _ _ := ()
  verify _ _ _ := true
  parse _ := some ()
  chains _ _ _ := true
  certKey _ := some 7

def demoCreds : Creds (X25519.goPrims demoRest) := ⟨(), (), ()⟩

def rfcAlice : Bytes := [0x77, 0x07, 0x6d, 0x0a, 0x73, 0x18, 0xa5, 0x7d, 0x3c, 0x16, 0xc1, 0x72, 0x51, 0xb2, 0x66,
  0x45, 0xdf, 0x4c, 0x2f, 0x87, 0xeb, 0xc0, 0x99, 0x2a, 0xb1, 0x77, 0xfb, 0xa5, 0x1d, 0xb9, 0x2c, 0x2a]

def rfcBob : Bytes := [0x5d, 0xab, 0x08, 0x7e, 0x62, 0x4a, 0x8a, 0x4b, 0x79, 0xe1, 0x7f, 0x8b, 0x83, 0x80, 0x0e,
  0xe6, 0x6f, 0x3b, 0xb1, 0x29, 0x26, 0x18, 0xb6, 0xfd, 0x1c, 0x2f, 0x8b, 0x27, 0xff, 0x88, 0xe0, 0xeb]

def rfcShared : Bytes := [0x4a, 0x5d, 0x9d, 0x5b, 0xa4, 0xce, 0x2d, 0xe1, 0x72, 0x8e, 0x3b, 0xf4, 0x80, 0x35, 0x0f,
  0x25, 0xe0, 0x7e, 0x21, 0xc9, 0x47, 0xd1, 0x9e, 0x33, 0x76, 0xf0, 0x9b, 0x3c, 0x1e, 0x16, 0x17, 0x42]

theorem validPub_goPrims (R : X25519.Rest) (f : Bytes → Bytes) (hf : (X25519.goPrims R).pubOf = f) (a : Bytes)
    (h : isValidX25519PublicKey (f a) = true) :
    (X25519.goPrims R).validPub ((X25519.goPrims R).pubOf a) = true := by
  rw [hf]; exact h

theorem dh_goPrims (R : X25519.Rest) (a b sec : Bytes) (h1 : isValidX25519PublicKey (X25519.pubOf a) = true)
    (h2 : isValidX25519PublicKey (X25519.pubOf b) = true) (h3 : X25519.x25519 a (X25519.pubOf b) = some sec)
    (h4 : X25519.x25519 b (X25519.pubOf a) = some sec) : DH (X25519.goPrims R) a b sec :=
  ⟨validPub_goPrims R X25519.pubOf rfl a h1, validPub_goPrims R X25519.pubOf rfl b h2, h3, h4⟩

theorem demo_dh : DH (X25519.goPrims demoRest) rfcAlice rfcBob rfcShared :=
  dh_goPrims demoRest _ _ _ (by decide +kernel) (by decide +kernel) (by decide +kernel) (by decide +kernel)

theorem demo_trusts : Trusts (X25519.goPrims demoRest) () 5 demoCreds (7 : Nat) :=
  ⟨⟨(), rfl, rfl, rfl⟩, fun _ => rfl⟩

/-- A stand-in for the greenpack encoding, good for messages of time 5. -/
def demoDecode (b : Bytes) : Option (Shake (X25519.goPrims demoRest)) :=
  if b = [] then none else some ⟨b, (), (), 5⟩

example (hmac : Bytes → Bytes → Bytes) (hl : ∀ k m, (hmac k m).length = 32) (psk : Bytes) :
    ∃ f1 f2 : Bytes,
      sendLenThenBytesTag hmac (X25519.pubOf rfcAlice) = .ok f1 ∧
      sendLenThenBytesTag hmac (X25519.pubOf rfcBob) = .ok f2 ∧
      ∃ rs rc, serverVerified (X25519.goPrims demoRest) psk demoCreds rfcBob 5
          (readLenThenShakeTag hmac demoDecode (f1 ++ [])) true =
            (some (ownShake (X25519.goPrims demoRest) demoCreds rfcBob 5), .ok rs) ∧
        clientVerified (X25519.goPrims demoRest) psk demoCreds rfcAlice 5
          (readLenThenShakeTag hmac demoDecode (f2 ++ [])) = .ok rc ∧ rs.key = rc.key := by
  refine ⟨_, _, (C69_frame_fits hmac _).1 (by decide +kernel), (C69_frame_fits hmac _).1 (by decide +kernel), ?_⟩
  have hA : demoDecode (X25519.pubOf rfcAlice) =
      some (ownShake (X25519.goPrims demoRest) demoCreds rfcAlice 5) := by
    unfold demoDecode
    rw [if_neg (by decide +kernel)]
    rfl
  have hB : demoDecode (X25519.pubOf rfcBob) =
      some (ownShake (X25519.goPrims demoRest) demoCreds rfcBob 5) := by
    unfold demoDecode
    rw [if_neg (by decide +kernel)]
    rfl
  obtain ⟨rs, rc, h1, h2, h3, _⟩ := C69_verified_handshake_agrees (X25519.goPrims demoRest) hmac hl
    (fun s => s.ephem) demoDecode psk demoCreds demoCreds rfcAlice rfcBob rfcShared 5 5 5 (7 : Nat) (7 : Nat)
    demo_trusts demo_trusts demo_dh hA hB _ _ [] [] ((C69_frame_fits hmac _).1 (by decide +kernel))
    ((C69_frame_fits hmac _).1 (by decide +kernel))
  exact ⟨rs, rc, h1, h2, h3⟩

/-! ### C70 -/

/-- C70: exactly when a server accepts, and with what: the message was read, its
ephemeral key is valid, its certificate parses, verifies against the server's
authorities at this time and is for an ed25519 key, that key signed the
ephemeral key, our answer was written and X25519 did not fail. -/
theorem C70_server_accepts_iff (P : Prims) (psk : P.Psk) (c : Creds P) (eph : P.Priv) (now : Nat)
    (got : Option (Shake P)) (writeOk : Bool) (r : Accepted P) :
    (serverVerified P psk c eph now got writeOk).2 = .ok r ↔
      ∃ s cert pk sec, got = some s ∧ P.validPub s.ephem = true ∧ P.parse s.cert = some cert ∧
        P.chains c.pool now cert = true ∧ P.certKey cert = some pk ∧ P.verify pk s.ephem s.sig = true ∧
        writeOk = true ∧ P.x25519 eph s.ephem = some sec ∧
        r = { key := P.hkdf sec psk, cliEphem := s.ephem, srvEphem := P.pubOf eph, peer := some pk } := by
  cases got with
  | none => simp [serverVerified]
  | some s =>
    simp only [serverVerified]
    cases hc : checkPeer P c.pool now s with
    | error e =>
      simp only [reduceCtorEq, false_iff]
      rintro ⟨s', cert, pk, sec, hs, h1, h2, h3, h4, h5, _⟩
      injection hs with hs
      subst hs
      have := (checkPeer_iff P c.pool now s pk).2 ⟨h1, cert, h2, h3, h4, h5⟩
      rw [hc] at this
      cases this
    | ok pk =>
      obtain ⟨h1, cert, h2, h3, h4, h5⟩ := (checkPeer_iff P c.pool now s pk).1 hc
      simp only
      cases writeOk with
      | false => simp
      | true =>
        rw [if_neg (by simp)]
        constructor
        · intro h
          cases hx : P.x25519 eph s.ephem with
          | none => rw [hx] at h; cases h
          | some sec =>
            rw [hx] at h
            injection h with h
            exact ⟨s, cert, pk, sec, rfl, h1, h2, h3, h4, h5, rfl, hx, h.symm⟩
        · rintro ⟨s', cert', pk', sec, hs, _, g2, _, g4, _, _, hx, rfl⟩
          injection hs with hs
          subst hs
          rw [h2] at g2
          injection g2 with g2
          subst g2
          rw [h4] at g4
          injection g4 with g4
          subst g4
          rw [hx]

/-- C70: the same at the client. -/
theorem C70_client_accepts_iff (P : Prims) (psk : P.Psk) (c : Creds P) (eph : P.Priv) (now : Nat)
    (got : Option (Shake P)) (r : Accepted P) :
    clientVerified P psk c eph now got = .ok r ↔
      ∃ s cert pk sec, got = some s ∧ P.validPub s.ephem = true ∧ P.parse s.cert = some cert ∧
        P.chains c.pool now cert = true ∧ P.certKey cert = some pk ∧ P.verify pk s.ephem s.sig = true ∧
        P.x25519 eph s.ephem = some sec ∧
        r = { key := P.hkdf sec psk, cliEphem := P.pubOf eph, srvEphem := s.ephem, peer := some pk } := by
  cases got with
  | none => simp [clientVerified]
  | some s =>
    simp only [clientVerified]
    cases hc : checkPeer P c.pool now s with
    | error e =>
      simp only [reduceCtorEq, false_iff]
      rintro ⟨s', cert, pk, sec, hs, h1, h2, h3, h4, h5, _⟩
      injection hs with hs
      subst hs
      have := (checkPeer_iff P c.pool now s pk).2 ⟨h1, cert, h2, h3, h4, h5⟩
      rw [hc] at this
      cases this
    | ok pk =>
      obtain ⟨h1, cert, h2, h3, h4, h5⟩ := (checkPeer_iff P c.pool now s pk).1 hc
      simp only
      constructor
      · intro h
        cases hx : P.x25519 eph s.ephem with
        | none => rw [hx] at h; cases h
        | some sec =>
          rw [hx] at h
          injection h with h
          exact ⟨s, cert, pk, sec, rfl, h1, h2, h3, h4, h5, hx, h.symm⟩
      · rintro ⟨s', cert', pk', sec, hs, _, g2, _, g4, _, hx, rfl⟩
        injection hs with hs
        subst hs
        rw [h2] at g2
        injection g2 with g2
        subst g2
        rw [h4] at g4
        injection g4 with g4
        subst g4
        rw [hx]

-- Both are reached: see the example after C69_frame_fits.

/-- C70, for the handshake without certificates: it succeeds exactly on a valid key
for which X25519 works, and a server answers nothing to a key that is not valid. -/
theorem C70_plain_accepts_iff (P : Prims) (psk : P.Psk) (eph : P.Priv) (got : Option P.Pub)
    (writeOk : Bool) (r : Accepted P) :
    ((serverPlain P psk eph got writeOk).2 = .ok r ↔
      ∃ p sec, got = some p ∧ P.validPub p = true ∧ writeOk = true ∧ P.x25519 eph p = some sec ∧
        r = { key := P.hkdf sec psk, cliEphem := p, srvEphem := P.pubOf eph, peer := none }) ∧
    (clientPlain P psk eph got = .ok r ↔
      ∃ p sec, got = some p ∧ P.validPub p = true ∧ P.x25519 eph p = some sec ∧
        r = { key := P.hkdf sec psk, cliEphem := P.pubOf eph, srvEphem := p, peer := none }) ∧
    (∀ mine, (serverPlain P psk eph got writeOk).1 = some mine →
      mine = P.pubOf eph ∧ ∃ p, got = some p ∧ P.validPub p = true) := by
  cases got with
  | none => simp [serverPlain, clientPlain]
  | some p =>
    cases hv : P.validPub p with
    | false => simp [serverPlain, clientPlain, hv]
    | true =>
      cases hx : P.x25519 eph p with
      | none => cases writeOk <;> simp [serverPlain, clientPlain, hv, hx, @eq_comm P.Pub]
      | some sec =>
        cases writeOk <;>
          simp [serverPlain, clientPlain, hv, hx, @eq_comm P.Pub, @eq_comm (Accepted P)]

example : DH (X25519.goPrims demoRest) rfcAlice rfcBob rfcShared := demo_dh

/-- C70: the ephemeral key of an accepted peer has 32 bytes that are not all zero. -/
theorem C70_accepted_key_shape (R : X25519.Rest) (psk : R.Psk) (c : Creds (X25519.goPrims R))
    (eph : Bytes) (now : Nat) (got : Option (Shake (X25519.goPrims R))) (writeOk : Bool)
    (r : Accepted (X25519.goPrims R))
    (h : (serverVerified (X25519.goPrims R) psk c eph now got writeOk).2 = .ok r) :
    ∃ p : Bytes, r.cliEphem = p ∧ p.length = 32 ∧ p ≠ List.replicate 32 0 := by
  obtain ⟨s, cert, pk, sec, _, hv, _, _, _, _, _, _, hr⟩ :=
    (C70_server_accepts_iff _ psk c eph now got writeOk r).1 h
  have hv : isValidX25519PublicKey s.ephem = true := hv
  refine ⟨s.ephem, by rw [hr], ?_⟩
  unfold isValidX25519PublicKey at hv
  split at hv
  · cases hv
  · next hl =>
    split at hv
    · cases hv
    · next hz => exact ⟨by simpa using hl, hz⟩

-- Reached: see the example after C69_frame_fits.

/-- C70: a server that writes anything has checked the client's certificate and
signature; what it writes is its own handshake message. -/
theorem C70_server_silent_before_checks (P : Prims) (psk : P.Psk) (c : Creds P) (eph : P.Priv) (now : Nat)
    (got : Option (Shake P)) (writeOk : Bool) (mine : Shake P)
    (h : (serverVerified P psk c eph now got writeOk).1 = some mine) :
    mine = ownShake P c eph now ∧ ∃ s cert pk, got = some s ∧ P.validPub s.ephem = true ∧
      P.parse s.cert = some cert ∧ P.chains c.pool now cert = true ∧ P.certKey cert = some pk ∧
      P.verify pk s.ephem s.sig = true := by
  cases got with
  | none => simp [serverVerified] at h
  | some s =>
    simp only [serverVerified] at h
    cases hc : checkPeer P c.pool now s with
    | error e => rw [hc] at h; simp at h
    | ok pk =>
      obtain ⟨h1, cert, h2, h3, h4, h5⟩ := (checkPeer_iff P c.pool now s pk).1 hc
      rw [hc] at h
      refine ⟨?_, s, cert, pk, rfl, h1, h2, h3, h4, h5⟩
      cases writeOk with
      | false => simp at h
      | true =>
        simp only at h
        rw [if_neg (by simp)] at h
        cases hx : P.x25519 eph s.ephem with
        | none => rw [hx] at h; simpa using h.symm
        | some sec => rw [hx] at h; simpa using h.symm

example : (serverVerified (X25519.goPrims demoRest) [1] demoCreds rfcBob 5
    (some ⟨X25519.pubOf rfcAlice, (), (), 0⟩) true).1 =
      some (ownShake (X25519.goPrims demoRest) demoCreds rfcBob 5) := by
  have h := demo_dh.atB
  have hc : checkPeer (X25519.goPrims demoRest) () 5 ⟨X25519.pubOf rfcAlice, (), (), 0⟩ = .ok (7 : Nat) :=
    (checkPeer_iff _ _ _ _ _).2 ⟨demo_dh.validA, (), rfl, rfl, rfl, rfl⟩
  have hp : demoCreds.pool = () := rfl
  simp only [serverVerified, hp, hc]
  have hx : (X25519.goPrims demoRest).x25519 rfcBob (X25519.pubOf rfcAlice) = some rfcShared := h
  simp only [hx]
  rfl

/-- C70: a handshake message is taken from the connection only in its entirety:
a length of at most 914, that many bytes, and their 32 byte tag; what was decoded
are those bytes.  (The code overwrites the error of the reading by that of the
decoding, so this rests on the decoder refusing empty input.) -/
theorem C70_frames_are_checked {α : Type} (hmac : Bytes → Bytes → Bytes) (decode : Bytes → Option α)
    (hd : decode [] = none) (inp : Bytes) (s : α) (h : readLenThenShakeTag hmac decode inp = some s) :
    ∃ m tag rest, inp = be64 m.length ++ m ++ tag ++ rest ∧ m.length ≤ 914 ∧ tag.length = 32 ∧
      tag = hmac (be64 m.length) m ∧ decode m = some s :=
  readShake_some hd h

example (hmac : Bytes → Bytes → Bytes) (hl : ∀ k m, (hmac k m).length = 32) :
    demoDecode [] = none ∧
    readLenThenShakeTag hmac demoDecode (be64 1 ++ [9] ++ hmac (be64 1) [9] ++ [3, 4]) =
      some ⟨[9], (), (), 5⟩ := by
  refine ⟨rfl, ?_⟩
  have h1 := (C69_frame_fits hmac [9]).1 (by simp)
  unfold readLenThenShakeTag
  rw [show ([9] : Bytes).length = 1 from rfl] at h1
  rw [read_send hl h1]
  rfl

/-- C70: an announced length above the limit is refused without reading or
allocating any more, and never are more than 954 bytes allocated. -/
theorem C70_bounded_memory (hmac : Bytes → Bytes → Bytes) (inp : Bytes) :
    allocated inp ≤ 954 ∧
    (8 ≤ inp.length → 914 < deBe (inp.take 8) →
      allocated inp = 8 ∧ readLenThenBytesTag hmac inp = .err .tooLong) ∧
    (deBe (inp.take 8) ≤ 914 → readLenThenBytesTag hmac inp ≠ .err .tooLong) := by
  have hmax : maxHandshakeBytes = 914 := rfl
  have htl : authTagLen = 32 := rfl
  refine ⟨?_, ?_, ?_⟩
  · unfold allocated
    by_cases h1 : inp.length < 8
    · rw [if_pos h1]; omega
    · rw [if_neg h1]
      simp only
      by_cases h2 : maxHandshakeBytes < deBe (inp.take 8)
      · rw [if_pos h2]; omega
      · rw [if_neg h2]; omega
  · intro h1 h2
    have h3 : ¬ inp.length < 8 := by omega
    unfold allocated readLenThenBytesTag
    rw [if_neg h3, if_neg h3]
    simp only
    rw [if_pos (by omega), if_pos (by omega)]
    exact ⟨rfl, rfl⟩
  · intro h
    unfold readLenThenBytesTag
    by_cases h1 : inp.length < 8
    · rw [if_pos h1]; simp
    · rw [if_neg h1]
      simp only
      rw [if_neg (by omega)]
      split
      · simp
      · split <;> simp

example : 8 ≤ (List.replicate 9 (255 : UInt8)).length ∧ 914 < deBe ((List.replicate 9 (255 : UInt8)).take 8) := by
  decide

/-- C70, the part about crashes that holds: a client or server crashes only on a
message that passed all the checks, and only if X25519 fails for its ephemeral
key.  Missing: that this cannot happen. -/
theorem C70_crashes_only_after_checks_partial (P : Prims) (psk : P.Psk) (c : Creds P) (eph : P.Priv) (now : Nat)
    (got : Option (Shake P)) :
    (∀ writeOk, (serverVerified P psk c eph now got writeOk).2 = .panic →
      ∃ s pk, got = some s ∧ checkPeer P c.pool now s = .ok pk ∧ P.x25519 eph s.ephem = none) ∧
    (clientVerified P psk c eph now got = .panic →
      ∃ s pk, got = some s ∧ checkPeer P c.pool now s = .ok pk ∧ P.x25519 eph s.ephem = none) := by
  cases got with
  | none => simp [serverVerified, clientVerified]
  | some s =>
    cases hc : checkPeer P c.pool now s with
    | error e => simp [serverVerified, clientVerified, hc]
    | ok pk =>
      simp only [serverVerified, clientVerified, hc]
      constructor
      · intro writeOk h
        cases writeOk with
        | false => simp at h
        | true =>
          rw [if_neg (by simp)] at h
          cases hx : P.x25519 eph s.ephem with
          | none => exact ⟨s, pk, rfl, hc, hx⟩
          | some sec => rw [hx] at h; cases h
      · intro h
        cases hx : P.x25519 eph s.ephem with
        | none => exact ⟨s, pk, rfl, hc, hx⟩
        | some sec => rw [hx] at h; cases h

/-- C70 fails: the 32 bytes 1, 0, 0, ... pass the validity check, and whoever has
a certificate and signs them crashes any server and any client, whatever
ephemeral key that drew.  In the variant without certificates anybody can. -/
theorem C70_low_order_key_crashes_counterexample (R : X25519.Rest) :
    isValidX25519PublicKey X25519.lowPoint = true ∧
    (∀ (psk : R.Psk) (c : Creds (X25519.goPrims R)) (eph : Bytes) (now : Nat) (evil : Creds (X25519.goPrims R))
        (pk : R.SPub) (t : Nat), Trusts (X25519.goPrims R) c.pool now evil pk →
      (serverVerified (X25519.goPrims R) psk c eph now
        (some ⟨X25519.lowPoint, R.sign evil.nodeKey X25519.lowPoint, evil.nodeCert, t⟩) true).2 = .panic ∧
      clientVerified (X25519.goPrims R) psk c eph now
        (some ⟨X25519.lowPoint, R.sign evil.nodeKey X25519.lowPoint, evil.nodeCert, t⟩) = .panic) ∧
    (∀ (psk : R.Psk) (eph : Bytes),
      (serverPlain (X25519.goPrims R) psk eph (some X25519.lowPoint) true).2 = .panic ∧
      clientPlain (X25519.goPrims R) psk eph (some X25519.lowPoint) = .panic) := by
  have hv : isValidX25519PublicKey X25519.lowPoint = true := by decide
  refine ⟨hv, ?_, ?_⟩
  · intro psk c eph now evil pk t hT
    obtain ⟨cert, h1, h2, h3⟩ := hT.cert
    have hc : checkPeer (X25519.goPrims R) c.pool now
        ⟨X25519.lowPoint, R.sign evil.nodeKey X25519.lowPoint, evil.nodeCert, t⟩ = .ok pk :=
      (checkPeer_iff _ _ _ _ _).2 ⟨hv, cert, h1, h2, h3, hT.keys X25519.lowPoint⟩
    have hx : (X25519.goPrims R).x25519 eph X25519.lowPoint = none := X25519.x25519_low eph
    constructor
    · simp only [serverVerified, hc, hx]
      rfl
    · simp only [clientVerified, hc, hx]
  · intro psk eph
    have hx : (X25519.goPrims R).x25519 eph X25519.lowPoint = none := X25519.x25519_low eph
    have hv' : (X25519.goPrims R).validPub X25519.lowPoint = true := hv
    constructor
    · simp [serverPlain, hv', hx]
    · simp [clientPlain, hv', hx]

example : Trusts (X25519.goPrims demoRest) demoCreds.pool 5 demoCreds (7 : Nat) := demo_trusts

/-! ### C73 -/

/-- C73, the part that holds: over TLS and QUIC with a pre-shared key, both ends
encrypt with the key of the handshake, or exchange nothing.  Missing: TCP
without TLS. -/
theorem C73_psk_traffic_uses_handshake_key_partial (P : Prims) (zero : P.Key) (cfg : Cfg P) (hs : End P)
    (hpsk : cfg.encryptPSK = true) (ht : cfg.transport ≠ .tcp) :
    (∀ k, clientStart P zero cfg hs = .encrypted k ↔ ∃ a, hs = .ok a ∧ k = a.key) ∧
    (∀ k, serverStart P zero cfg hs = .encrypted k ↔ ∃ a, hs = .ok a ∧ k = a.key) ∧
    clientStart P zero cfg hs ≠ .plaintext ∧ serverStart P zero cfg hs ≠ .plaintext := by
  obtain ⟨tr, enc, psk⟩ := cfg
  simp only at hpsk ht
  subst hpsk
  cases tr with
  | tcp => exact absurd rfl ht
  | tls =>
    cases hs <;> simp [clientStart, serverStart, eq_comm]
  | quic =>
    cases hs <;> simp [clientStart, serverStart, eq_comm]

example : (Cfg.mk (P := X25519.goPrims demoRest) .tls true [1]).encryptPSK = true ∧
    (Cfg.mk (P := X25519.goPrims demoRest) .tls true [1]).transport ≠ .tcp := by
  exact ⟨rfl, by simp⟩

/-- C73 fails for TCP without TLS: both ends skip the handshake and encrypt with
the all-zero key, whatever the pre-shared key is. -/
theorem C73_tcp_uses_zero_key_counterexample (P : Prims) (zero : P.Key) (psk : P.Psk) (hs : End P) :
    clientStart P zero ⟨.tcp, true, psk⟩ hs = .encrypted zero ∧
    serverStart P zero ⟨.tcp, true, psk⟩ hs = .encrypted zero := by
  simp [clientStart, serverStart]

end Verif.Handshake
