import Verif.Proofs.Handshake
import Verif.Proofs.HandshakeSym
/-
C71, C72: the verified handshake against an attacker who owns the network, in
the symbolic model (Model/HandshakeSym.lean).
-/
namespace Verif.HandshakeSym
open Verif.Handshake

theorem mem_drawn {w : World} {b n : Nat} : (b, n) ∈ w.drawn ↔ ∃ t ∈ w.sessions, t.owner = b ∧ t.eph = n := by
  simp [World.drawn]

/-- Two secret factors make a secret key. -/
theorem not_keyOpen {w : World} {x y i : Nat} (hx : x ∉ w.leakedEph) (hy : y ∉ w.leakedEph) :
    ¬ w.KeyOpen (.hon x ::ₘ {.hon y}, i) := by
  intro h
  have h1 := h.1
  unfold Thin at h1
  simp only at h1
  rw [← Multiset.cons_zero (Exp.hon y), Multiset.countP_cons_of_pos (p := Secret w.leakedEph) _ (show Secret _ (.hon x) from hx),
    Multiset.countP_cons_of_pos (p := Secret w.leakedEph) _ (show Secret _ (.hon y) from hy)] at h1
  omega

theorem sent_unique {w : World} (h : Inv w) {n : Nat} {k k' : Multiset Exp × Nat} (h1 : (n, k) ∈ w.sent)
    (h2 : (n, k') ∈ w.sent) : k = k' := by
  have hu := h.sentUniq
  obtain ⟨i, hi, hi'⟩ := List.mem_iff_getElem.1 h1
  obtain ⟨j, hj, hj'⟩ := List.mem_iff_getElem.1 h2
  have : i = j := by
    have hn := List.nodup_iff_pairwise_ne.1 hu
    apply Classical.byContradiction
    intro hij
    have key : (w.sent.map (·.1))[i]'(by simpa using hi) = (w.sent.map (·.1))[j]'(by simpa using hj) := by
      simp [hi', hj']
    rcases Nat.lt_or_ge i j with h3 | h3
    · exact List.pairwise_iff_getElem.1 hn i j (by simpa using hi) (by simpa using hj) h3 key
    · exact List.pairwise_iff_getElem.1 hn j i (by simpa using hj) (by simpa using hi) (by omega) key.symm
  subst this
  rw [hi'] at hj'
  injection hj'

theorem eph_unique {w : World} (h : Inv w) {s t : Session} (h1 : s ∈ w.sessions) (h2 : t ∈ w.sessions)
    (he : s.eph = t.eph) : s = t := by
  have hn := List.nodup_iff_pairwise_ne.1 h.uniq
  obtain ⟨i, hi, hi'⟩ := List.mem_iff_getElem.1 h1
  obtain ⟨j, hj, hj'⟩ := List.mem_iff_getElem.1 h2
  have key : (w.sessions.map (·.eph))[i]'(by simpa using hi) = (w.sessions.map (·.eph))[j]'(by simpa using hj) := by
    simp [hi', hj', he]
  rcases Nat.lt_trichotomy i j with h3 | h3 | h3
  · exact absurd key (List.pairwise_iff_getElem.1 hn i j (by simpa using hi) (by simpa using hj) h3)
  · subst h3
    rw [← hi', ← hj']
  · exact absurd key.symm (List.pairwise_iff_getElem.1 hn j i (by simpa using hj) (by simpa using hi) h3)

/-- C71: a session `s` that finished, reporting a peer `b` whose signing key had
not leaked then.  Whatever happens later, all signing keys and pre-shared keys
leaking included, the attacker does not learn its key, nor anything sent under
it, unless one of the two ephemeral keys leaks: that of `s` or that of the
session of `b` it talked to. -/
theorem C71_forward_secrecy (w w' : World) (hw : Run false init w) (s : Session) (hs : s ∈ w.sessions)
    (r : Accepted sym) (hr : s.result = some r) (b : Nat) (hp : r.peer = some b) (hb : b ∉ w.leakedSk)
    (hw' : Run false w w') :
    ∃ t ∈ w.sessions, t.owner = b ∧ (s.eph ∉ w'.leakedEph → t.eph ∉ w'.leakedEph →
      ¬ Known false w'.obs (.key r.key) ∧
      ∀ n, (n, r.key) ∈ w'.sent → ¬ Known false w'.obs (.data (.hon n))) := by
  have hi := hw.invC inv_init
  have hi' := (hw.trans hw').invC inv_init
  obtain ⟨pk, m, h1, h2, h3, h4⟩ := hi.done s hs r hr
  rw [hp] at h1
  injection h1 with h1
  obtain hl | ⟨n, h5, h6⟩ := hi.met s hs r hr b hp
  · exact absurd hl hb
  · obtain ⟨t, ht, h7, h8⟩ := mem_drawn.1 h5
    refine ⟨t, ht, h7, fun hx hy => ?_⟩
    rw [h2] at h6
    injection h6 with h6
    subst h6
    subst h8
    have hc : ¬ w'.KeyOpen r.key := by rw [h4]; exact not_keyOpen hx hy
    refine ⟨fun hk => hc (Known.safe hi'.safe hk), fun n hn hk => ?_⟩
    obtain ⟨k, g1, g2⟩ := Known.safe hi'.safe hk
    rw [sent_unique hi'.toInv g1 hn] at g2
    exact hc g2

/-- C71: as long as a pre-shared key has not leaked, the attacker learns no key
of any session set up with it, nor anything sent, not even if they compute
discrete logarithms and forge signatures, and whoever the peer is. -/
theorem C71_psk_secrecy (quantum : Bool) (w : World) (hw : Run quantum init w) (s : Session)
    (hs : s ∈ w.sessions) (r : Accepted sym) (hr : s.result = some r) (hp : s.psk ∉ w.leakedPsk) :
    ¬ Known quantum w.obs (.key r.key) ∧
    ∀ n, (n, r.key) ∈ w.sent → ¬ Known quantum w.obs (.data (.hon n)) := by
  have hi := hw.inv inv_init.toInv
  obtain ⟨pk, m, _, _, _, h4⟩ := hi.done s hs r hr
  have hc : ¬ w.PskOpen r.key := by rw [h4]; exact hp
  refine ⟨fun hk => hc (Known.safeQ hi.safeQ hk), fun n hn hk => ?_⟩
  obtain ⟨k, g1, g2⟩ := Known.safeQ hi.safeQ hk
  rw [sent_unique hi g1 hn] at g2
  exact hc g2

/-! ### C72 -/

/-- C72, the part that holds.  A finished session `s` reports its own ephemeral
key and a peer `b`; if the signing key of `b` has not leaked then
* `b` took part: there is a session `t` of `b` that drew the ephemeral key `s` reports for its peer;
* nobody but `s` and `t` ends up with the key of `s`;
* if neither ephemeral key leaks, every message under that key the attacker can
  deliver was sent under it by `s` or `t`;
* if `t` in turn finished with the ephemeral key of `s`, the two hold the same key
  exactly if they use the same pre-shared key.
Missing: that `t` is in the other role and reports the owner of `s` as its peer,
and that `t` is used by one `s` only. -/
theorem C72_peer_took_part_partial (w w' : World) (hw : Run false init w) (s : Session) (hs : s ∈ w.sessions)
    (r : Accepted sym) (hr : s.result = some r) (b : Nat) (hp : r.peer = some b) (hb : b ∉ w.leakedSk)
    (hw' : Run false w w') :
    s.ownEphem r = some {.hon s.eph} ∧
    ∃ t ∈ w.sessions, t.owner = b ∧ s.peerEphem r = some {.hon t.eph} ∧
      (∀ u ∈ w'.sessions, ∀ r', u.result = some r' → r'.key = r.key → u.eph = s.eph ∨ u.eph = t.eph) ∧
      (s.eph ∉ w'.leakedEph → t.eph ∉ w'.leakedEph → ∀ d, Known false w'.obs (.box r.key d) →
        ∃ n, d = .hon n ∧ (n, r.key) ∈ w'.sent ∧
          ∃ u ∈ w'.sessions, (u.eph = s.eph ∨ u.eph = t.eph) ∧ ∃ r', u.result = some r' ∧ r'.key = r.key) ∧
      (∀ u ∈ w'.sessions, ∀ r', u.result = some r' → u.eph = t.eph → u.peerEphem r' = some {.hon s.eph} →
        (r'.key = r.key ↔ u.psk = s.psk)) := by
  have hi := hw.invC inv_init
  have hi' := (hw.trans hw').invC inv_init
  obtain ⟨pk, m, h1, h2, h3, h4⟩ := hi.done s hs r hr
  rw [hp] at h1
  injection h1 with h1
  obtain hl | ⟨n, h5, h6⟩ := hi.met s hs r hr b hp
  · exact absurd hl hb
  · obtain ⟨t, ht, h7, h8⟩ := mem_drawn.1 h5
    rw [h2] at h6
    injection h6 with h6
    subst h6
    subst h8
    have hold : ∀ u ∈ w'.sessions, ∀ r', u.result = some r' → r'.key = r.key → u.eph = s.eph ∨ u.eph = t.eph := by
      intro u hu r' hr' hk
      obtain ⟨_, m', _, _, _, g4⟩ := hi'.done u hu r' hr'
      rw [g4, h4] at hk
      have hm : (Exp.hon u.eph ::ₘ m') = Exp.hon s.eph ::ₘ {Exp.hon t.eph} := congrArg Prod.fst hk
      have hmem : Exp.hon u.eph ∈ Exp.hon s.eph ::ₘ ({Exp.hon t.eph} : Multiset Exp) := by
        rw [← hm]; exact Multiset.mem_cons_self _ _
      rw [Multiset.mem_cons, Multiset.mem_singleton] at hmem
      rcases hmem with h | h
      · injection h with h; exact Or.inl h
      · injection h with h; exact Or.inr h
    refine ⟨h3, t, ht, h7, h2, hold, ?_, ?_⟩
    · intro hx hy d hk
      have hc : ¬ w'.KeyOpen r.key := by rw [h4]; exact not_keyOpen hx hy
      have hsafe := Known.safe hi'.safe hk
      cases d with
      | adv n => exact absurd hsafe hc
      | hon n =>
        rcases hsafe with hsafe | ⟨hsafe, _⟩
        · obtain ⟨u, hu, r', hr', hk'⟩ := hi'.by' _ hsafe
          exact ⟨n, rfl, hsafe, u, hu, hold u hu r' hr' hk', r', hr', hk'⟩
        · exact absurd hsafe hc
    · intro u hu r' hr' he hpe
      obtain ⟨_, m', _, g2, _, g4⟩ := hi'.done u hu r' hr'
      rw [hpe] at g2
      injection g2 with g2
      subst g2
      rw [g4, h4, he]
      constructor
      · intro h
        exact congrArg Prod.snd h
      · intro h
        rw [h]
        have : (Exp.hon t.eph ::ₘ ({Exp.hon s.eph} : Multiset Exp)) = Exp.hon s.eph ::ₘ {Exp.hon t.eph} := by
          rw [← Multiset.cons_zero, ← Multiset.cons_zero, Multiset.cons_swap]
        exact congrArg (fun x => (x, s.psk)) this

/-! ### Executions -/

theorem server_mk (i b now t a : Nat) (x : Exp) (m : Multiset Exp) :
    serverVerified sym i (credsOf b) x now
      (some ⟨(some m : Point), (some (a, some m) : Option (Nat × Point)), RawCert.issued a, t⟩) true =
      (some (ownShake sym (credsOf b) x now),
        .ok { key := ((x ::ₘ m, i) : Multiset Exp × Nat), cliEphem := (some m : Point),
              srvEphem := (some {x} : Point), peer := some a }) := by
  have hc : checkPeer sym () now ⟨(some m : Point), (some (a, some m) : Option (Nat × Point)), RawCert.issued a, t⟩ =
      .ok (a : Nat) :=
    (checkPeer_iff _ _ _ _ _).2 ⟨rfl, RawCert.issued a, rfl, rfl, rfl, decide_eq_true rfl⟩
  rw [serverVerified_eq, hc]

theorem client_mk (i b now t a : Nat) (x : Exp) (m : Multiset Exp) :
    clientVerified sym i (credsOf b) x now
      (some ⟨(some m : Point), (some (a, some m) : Option (Nat × Point)), RawCert.issued a, t⟩) =
        .ok { key := ((x ::ₘ m, i) : Multiset Exp × Nat), cliEphem := (some {x} : Point),
              srvEphem := (some m : Point), peer := some a } := by
  have hc : checkPeer sym () now ⟨(some m : Point), (some (a, some m) : Option (Nat × Point)), RawCert.issued a, t⟩ =
      .ok (a : Nat) :=
    (checkPeer_iff _ _ _ _ _).2 ⟨rfl, RawCert.issued a, rfl, rfl, rfl, decide_eq_true rfl⟩
  rw [clientVerified_eq, hc]

/-- The finished handshake of a client with key `x` and of a server with key `y`. -/
def acc (x y : Nat) (key : Multiset Exp) (psk peer : Nat) : Accepted sym :=
  { key := ((key, psk) : Multiset Exp × Nat), cliEphem := (some {.hon x} : Point),
    srvEphem := (some {.hon y} : Point), peer := some peer }

/-- Party 0 talks to party 1, nobody interferes, a message is sent, and then
both signing keys and the pre-shared key leak. -/
def honestWorld : World :=
  { sessions := [⟨0, false, 0, 9, some (acc 0 1 (.hon 0 ::ₘ {.hon 1}) 9 1)⟩,
                 ⟨1, true, 1, 9, some (acc 0 1 (.hon 1 ::ₘ {.hon 0}) 9 0)⟩]
    nextEph := 2
    sent := []
    obs := [.pt (some {.hon 1}), .sig (some (1, some {.hon 1})), .pt (some {.hon 0}), .sig (some (0, some {.hon 0}))]
    leakedSk := [], leakedPsk := [], leakedEph := [] }

theorem honest_run : Run false init honestWorld := by
  have s1 : Step false init _ := Step.clientHello init 0 9 0
  have s2 := Step.serverAccept (quantum := false)
    { sessions := [⟨0, false, 0, 9, none⟩], nextEph := 1, sent := [],
      obs := [.pt (some {.hon 0}), .sig (some (0, some {.hon 0}))],
      leakedSk := [], leakedPsk := [], leakedEph := [] } 1 9 0 _ _ _ (show CanSend false _ _ from
    ⟨Known.seen (List.Mem.head _), Known.seen (List.Mem.tail _ (List.Mem.head _))⟩)
    (server_mk 9 1 0 0 0 (.hon 1) {.hon 0})
  have s3 := Step.clientAccept (quantum := false)
    { sessions := [⟨0, false, 0, 9, none⟩, ⟨1, true, 1, 9, some (acc 0 1 (.hon 1 ::ₘ {.hon 0}) 9 0)⟩]
      nextEph := 2, sent := []
      obs := [.pt (some {.hon 1}), .sig (some (1, some {.hon 1})), .pt (some {.hon 0}), .sig (some (0, some {.hon 0}))]
      leakedSk := [], leakedPsk := [], leakedEph := [] }
    [] [⟨1, true, 1, 9, some (acc 0 1 (.hon 1 ::ₘ {.hon 0}) 9 0)⟩] 0 0 9 0 _ _ rfl
    (show CanSend false _ _ from ⟨Known.seen (List.Mem.head _), Known.seen (List.Mem.tail _ (List.Mem.head _))⟩)
    (client_mk 9 0 0 0 1 (.hon 0) {.hon 1})
  exact ((Run.refl _ |>.tail s1).tail s2).tail s3

/-- The hypotheses of C71 and C72 are met there. -/
example : ∃ s ∈ honestWorld.sessions, ∃ r, s.result = some r ∧ r.peer = some (1 : Nat) ∧
    (1 : Nat) ∉ honestWorld.leakedSk ∧ s.psk ∉ honestWorld.leakedPsk :=
  ⟨⟨0, false, 0, 9, some (acc 0 1 (.hon 0 ::ₘ {.hon 1}) 9 1)⟩, List.Mem.head _, _, rfl, rfl,
    by simp [honestWorld], by simp [honestWorld]⟩

/-- There is a continuation in which everything but the ephemeral keys leaks and
a message is sent; it stays secret. -/
example : ∃ w', Run false honestWorld w' ∧ (0 : Nat) ∈ w'.leakedSk ∧ (1 : Nat) ∈ w'.leakedSk ∧
    (9 : Nat) ∈ w'.leakedPsk ∧ (0, ((.hon 0 ::ₘ {.hon 1}, 9) : Multiset Exp × Nat)) ∈ w'.sent ∧
    ¬ Known false w'.obs (.data (.hon 0)) := by
  have s1 := Step.sendData (quantum := false) honestWorld _ (acc 0 1 (.hon 0 ::ₘ {.hon 1}) 9 1)
    (List.Mem.head _) rfl
  have hrun := (((Run.refl _ |>.tail s1).tail (Step.leakSk _ 0)).tail (Step.leakSk _ 1)).tail (Step.leakPsk _ 9)
  refine ⟨_, hrun, by simp, by simp, by simp, List.Mem.head _, ?_⟩
  obtain ⟨t, ht, h1, h2⟩ := C71_forward_secrecy _ _ honest_run _ (List.Mem.head _) _ rfl (1 : Nat) rfl
    (by simp [honestWorld]) hrun
  exact (h2 (by simp [honestWorld]) (by simp [honestWorld])).2 0 (List.Mem.head _)

/-- C72 fails: insider 5 passes the hello of 0 on to 1 under their own name.  0
then has a session with 1, and 1 holds the same key but reports 5 as its peer;
5 does not know the key. -/
theorem C72_misbinding_counterexample :
    ∃ w, Run false init w ∧ w.leakedSk = [5] ∧ ∃ s ∈ w.sessions, ∃ t ∈ w.sessions, ∃ r r' : Accepted sym,
      s.owner = 0 ∧ s.isServer = false ∧ s.result = some r ∧ r.peer = some (1 : Nat) ∧
      t.owner = 1 ∧ t.isServer = true ∧ t.result = some r' ∧ r'.peer = some (5 : Nat) ∧ r'.key = r.key := by
  have s0 : Step false init _ := Step.leakSk init 5
  have s1 := Step.clientHello (quantum := false) { init with leakedSk := [5], obs := [.sk 5] } 0 9 0
  have s2 := Step.serverAccept (quantum := false)
    { sessions := [⟨0, false, 0, 9, none⟩], nextEph := 1, sent := [],
      obs := [.pt (some {.hon 0}), .sig (some (0, some {.hon 0})), .sk 5],
      leakedSk := [5], leakedPsk := [], leakedEph := [] } 1 9 0 _ _ _ (show CanSend false _ _ from
    ⟨Known.seen (List.Mem.head _),
      Known.sign (Known.seen (by simp)) (Known.seen (List.Mem.head _))⟩)
    (server_mk 9 1 0 0 5 (.hon 1) {.hon 0})
  have s3 := Step.clientAccept (quantum := false)
    { sessions := [⟨0, false, 0, 9, none⟩, ⟨1, true, 1, 9, some (acc 0 1 (.hon 1 ::ₘ {.hon 0}) 9 5)⟩]
      nextEph := 2, sent := []
      obs := [.pt (some {.hon 1}), .sig (some (1, some {.hon 1})), .pt (some {.hon 0}), .sig (some (0, some {.hon 0})),
        .sk 5]
      leakedSk := [5], leakedPsk := [], leakedEph := [] }
    [] [⟨1, true, 1, 9, some (acc 0 1 (.hon 1 ::ₘ {.hon 0}) 9 5)⟩] 0 0 9 0 _ _ rfl
    (show CanSend false _ _ from ⟨Known.seen (List.Mem.head _), Known.seen (List.Mem.tail _ (List.Mem.head _))⟩)
    (client_mk 9 0 0 0 1 (.hon 0) {.hon 1})
  refine ⟨_, (((Run.refl _ |>.tail s0).tail s1).tail s2).tail s3, rfl, _, List.Mem.head _, _,
    List.Mem.tail _ (List.Mem.head _), _, _, rfl, rfl, rfl, rfl, rfl, rfl, rfl, rfl, ?_⟩
  show (((.hon 1 ::ₘ {.hon 0}, 9) : Multiset Exp × Nat)) = (.hon 0 ::ₘ {.hon 1}, 9)
  rw [← Multiset.cons_zero, ← Multiset.cons_zero, Multiset.cons_swap]

/-- C72 fails: the network echoes a client its own hello, and the client takes
itself for the server. -/
theorem C72_reflection_counterexample :
    ∃ w, Run false init w ∧ w.leakedSk = [] ∧ ∃ s r, w.sessions = [s] ∧ s.owner = 0 ∧ s.isServer = false ∧
      s.result = some r ∧ r.peer = some (0 : Nat) ∧ s.peerEphem r = s.ownEphem r := by
  have s1 : Step false init _ := Step.clientHello init 0 9 0
  have s2 := Step.clientAccept (quantum := false)
    { sessions := [⟨0, false, 0, 9, none⟩], nextEph := 1, sent := [],
      obs := [.pt (some {.hon 0}), .sig (some (0, some {.hon 0}))],
      leakedSk := [], leakedPsk := [], leakedEph := [] } [] [] 0 0 9 0 _ _ rfl
    (show CanSend false _ _ from ⟨Known.seen (List.Mem.head _), Known.seen (List.Mem.tail _ (List.Mem.head _))⟩)
    (client_mk 9 0 0 0 0 (.hon 0) {.hon 0})
  exact ⟨_, (Run.refl _ |>.tail s1).tail s2, rfl, _, _, rfl, rfl, rfl, rfl, rfl, rfl⟩

/-- C72 fails: a recorded hello is accepted again, so two server sessions report
the one client session as their peer. -/
theorem C72_replay_counterexample :
    ∃ w, Run false init w ∧ w.leakedSk = [] ∧ ∃ c s t r r', w.sessions = [c, s, t] ∧ c.owner = 0 ∧
      s.result = some r ∧ t.result = some r' ∧ r.peer = some (0 : Nat) ∧ r'.peer = some (0 : Nat) ∧
      s.peerEphem r = some {.hon c.eph} ∧ t.peerEphem r' = some {.hon c.eph} := by
  have s1 : Step false init _ := Step.clientHello init 0 9 0
  have s2 := Step.serverAccept (quantum := false)
    { sessions := [⟨0, false, 0, 9, none⟩], nextEph := 1, sent := [],
      obs := [.pt (some {.hon 0}), .sig (some (0, some {.hon 0}))],
      leakedSk := [], leakedPsk := [], leakedEph := [] } 1 9 0 _ _ _ (show CanSend false _ _ from
    ⟨Known.seen (List.Mem.head _), Known.seen (List.Mem.tail _ (List.Mem.head _))⟩)
    (server_mk 9 1 0 0 0 (.hon 1) {.hon 0})
  have s3 := Step.serverAccept (quantum := false)
    { sessions := [⟨0, false, 0, 9, none⟩, ⟨1, true, 1, 9, some (acc 0 1 (.hon 1 ::ₘ {.hon 0}) 9 0)⟩]
      nextEph := 2, sent := []
      obs := [.pt (some {.hon 1}), .sig (some (1, some {.hon 1})), .pt (some {.hon 0}), .sig (some (0, some {.hon 0}))]
      leakedSk := [], leakedPsk := [], leakedEph := [] } 1 9 0 _ _ _ (show CanSend false _ _ from
    ⟨Known.seen (by simp), Known.seen (by simp)⟩)
    (server_mk 9 1 0 0 0 (.hon 2) {.hon 0})
  exact ⟨_, ((Run.refl _ |>.tail s1).tail s2).tail s3, rfl, _, _, _, _, _, rfl, rfl, rfl, rfl, rfl, rfl, rfl, rfl⟩

end Verif.HandshakeSym
