import Verif.Model.HandshakeSym
/-
What the attacker can know: invariants of the symbolic handshake model.
-/
namespace Verif.HandshakeSym
open Verif.Handshake

/-- Private keys the attacker has not been given. -/
def Secret (leaked : List Nat) : Exp → Prop
  | .hon n => n ∉ leaked
  | .adv _ => False

instance (leaked : List Nat) : DecidablePred (Secret leaked) := fun x => by
  cases x <;> simp only [Secret] <;> infer_instance

theorem Secret.mono {l l' : List Nat} (h : ∀ n ∈ l, n ∈ l') {x : Exp} : Secret l' x → Secret l x := by
  cases x with
  | hon n => exact fun h1 h2 => h1 (h n h2)
  | adv n => exact id

/-- Who has drawn which ephemeral key. -/
def World.drawn (w : World) : List (Nat × Nat) := w.sessions.map fun s => (s.owner, s.eph)

/-- At most one factor of the point is secret. -/
def Thin (leaked : List Nat) (m : Multiset Exp) : Prop := m.countP (Secret leaked) ≤ 1

theorem Thin.mono {l l' : List Nat} (h : ∀ n ∈ l, n ∈ l') {m : Multiset Exp} (ht : Thin l m) : Thin l' m :=
  Nat.le_trans (by
    induction m using Multiset.induction_on with
    | empty => simp
    | cons a m ih =>
      have := ih (by
        unfold Thin at *
        exact Nat.le_trans (Multiset.countP_le_of_le _ (Multiset.le_cons_self m a)) ht)
      rw [Multiset.countP_cons, Multiset.countP_cons]
      by_cases h1 : Secret l' a
      · rw [if_pos h1, if_pos (Secret.mono h h1)]; omega
      · rw [if_neg h1]; omega) ht

/-- The keys an attacker without a quantum computer may know. -/
def World.KeyOpen (w : World) (k : Multiset Exp × Nat) : Prop := Thin w.leakedEph k.1 ∧ k.2 ∈ w.leakedPsk

/-- What the attacker may know of each kind of term. -/
def World.Safe (w : World) : Term → Prop
  | .exp x => ¬ Secret w.leakedEph x
  | .pt none => True
  | .pt (some m) => Thin w.leakedEph m
  | .sk a => a ∈ w.leakedSk
  | .sig none => True
  | .sig (some (a, p)) => a ∈ w.leakedSk ∨ ∃ n, (a, n) ∈ w.drawn ∧ p = some {.hon n}
  | .psk i => i ∈ w.leakedPsk
  | .key k => w.KeyOpen k
  | .data (.adv _) => True
  | .data (.hon n) => ∃ k, (n, k) ∈ w.sent ∧ w.KeyOpen k
  | .box k (.adv _) => w.KeyOpen k
  | .box k (.hon n) => (n, k) ∈ w.sent ∨ w.KeyOpen k ∧ ∃ k, (n, k) ∈ w.sent ∧ w.KeyOpen k

theorem Known.safe {w : World} (h : ∀ t ∈ w.obs, w.Safe t) {t : Term} (hk : Known false w.obs t) : w.Safe t := by
  induction hk with
  | seen ht => exact h _ ht
  | ownExp n => simp [World.Safe, Secret]
  | ownData n => simp [World.Safe]
  | low => simp [World.Safe]
  | base => simp [World.Safe, Thin]
  | @mul x p _ _ h1 h2 =>
    cases p with
    | none => simp [World.Safe]
    | some m =>
      simp only [World.Safe, Option.map_some, Thin] at *
      rw [Multiset.countP_cons_of_neg _ h1]; exact h2
  | garbageSig => simp [World.Safe]
  | sign _ _ h1 h2 => exact Or.inl h1
  | kdf _ _ h1 h2 => exact ⟨h1, h2⟩
  | @encrypt k d _ _ h1 h2 =>
    cases d with
    | adv n => exact h1
    | hon n => exact Or.inr ⟨h1, h2⟩
  | @decrypt k d _ _ h1 h2 =>
    cases d with
    | adv n => trivial
    | hon n =>
      rcases h2 with h2 | h2
      · exact ⟨k, h2, h1⟩
      · exact h2.2
  | dlog hq => cases hq
  | forge a hq => cases hq

/-- The keys anybody may know. -/
def World.PskOpen (w : World) (k : Multiset Exp × Nat) : Prop := k.2 ∈ w.leakedPsk

/-- What an attacker with a quantum computer may know of each kind of term. -/
def World.SafeQ (w : World) : Term → Prop
  | .psk i => i ∈ w.leakedPsk
  | .key k => w.PskOpen k
  | .data (.hon n) => ∃ k, (n, k) ∈ w.sent ∧ w.PskOpen k
  | .box k (.adv _) => w.PskOpen k
  | .box k (.hon n) => (n, k) ∈ w.sent ∨ w.PskOpen k ∧ ∃ k, (n, k) ∈ w.sent ∧ w.PskOpen k
  | _ => True

theorem Known.safeQ {w : World} {q : Bool} (h : ∀ t ∈ w.obs, w.SafeQ t) {t : Term} (hk : Known q w.obs t) :
    w.SafeQ t := by
  induction hk with
  | seen ht => exact h _ ht
  | ownExp n => trivial
  | ownData n => trivial
  | low => trivial
  | base => trivial
  | mul => trivial
  | garbageSig => trivial
  | sign => trivial
  | kdf _ _ h1 h2 => exact h2
  | @encrypt k d _ _ h1 h2 =>
    cases d with
    | adv n => exact h1
    | hon n => exact Or.inr ⟨h1, h2⟩
  | @decrypt k d _ _ h1 h2 =>
    cases d with
    | adv n => trivial
    | hon n =>
      rcases h2 with h2 | h2
      · exact ⟨k, h2, h1⟩
      · exact h2.2
  | dlog => trivial
  | forge => trivial

/-! ### What a step keeps -/

/-- The world only grows. -/
structure Ext (w w' : World) : Prop where
  drawn : ∀ x ∈ w.drawn, x ∈ w'.drawn
  done : ∀ s ∈ w.sessions, s.result ≠ none → s ∈ w'.sessions
  sent : ∀ x ∈ w.sent, x ∈ w'.sent
  obs : ∀ t ∈ w.obs, t ∈ w'.obs
  sk : ∀ a ∈ w.leakedSk, a ∈ w'.leakedSk
  psk : ∀ a ∈ w.leakedPsk, a ∈ w'.leakedPsk
  eph : ∀ a ∈ w.leakedEph, a ∈ w'.leakedEph

theorem Ext.rfl (w : World) : Ext w w := ⟨by simp, by simp +contextual, by simp, by simp, by simp, by simp, by simp⟩

theorem Ext.trans {a b c : World} (h1 : Ext a b) (h2 : Ext b c) : Ext a c where
  drawn x h := h2.drawn x (h1.drawn x h)
  done s h hn := h2.done s (h1.done s h hn) hn
  sent x h := h2.sent x (h1.sent x h)
  obs x h := h2.obs x (h1.obs x h)
  sk x h := h2.sk x (h1.sk x h)
  psk x h := h2.psk x (h1.psk x h)
  eph x h := h2.eph x (h1.eph x h)

theorem Step.ext {q : Bool} {w w' : World} (h : Step q w w') : Ext w w' := by
  cases h with
  | clientHello a i now => constructor <;> simp +contextual [World.drawn]
  | serverAccept b i now s mine r hc hs => constructor <;> simp +contextual [World.drawn]
  | serverCrash b i now s mine hc hs => constructor <;> simp +contextual [World.drawn]
  | clientAccept pre post a n i now s r hw hc hs =>
    constructor
    · simp [World.drawn, hw]
    · simp only [hw, List.mem_append, List.mem_cons]
      rintro s (h | rfl | h) hn
      · exact Or.inl h
      · exact absurd rfl hn
      · exact Or.inr (Or.inr h)
    all_goals simp
  | sendData s r hs hr => constructor <;> simp +contextual [World.drawn]
  | leakSk a => constructor <;> simp +contextual [World.drawn]
  | leakPsk a => constructor <;> simp +contextual [World.drawn]
  | leakEph a => constructor <;> simp +contextual [World.drawn]

theorem Run.ext {q : Bool} {w w' : World} (h : Run q w w') : Ext w w' := by
  induction h with
  | refl => exact Ext.rfl _
  | tail _ hs ih => exact ih.trans hs.ext

theorem Ext.keyOpen {w w' : World} (e : Ext w w') {k} (h : w.KeyOpen k) : w'.KeyOpen k :=
  ⟨h.1.mono e.eph, e.psk _ h.2⟩

theorem Ext.safe {w w' : World} (e : Ext w w') : ∀ {t : Term}, w.Safe t → w'.Safe t
  | .exp x, h => fun h1 => h (Secret.mono e.eph h1)
  | .pt none, _ => trivial
  | .pt (some m), h => Thin.mono e.eph h
  | .sk a, h => e.sk a h
  | .sig none, _ => trivial
  | .sig (some (a, p)), h => h.elim (fun h => Or.inl (e.sk a h)) fun ⟨n, h1, h2⟩ => Or.inr ⟨n, e.drawn _ h1, h2⟩
  | .psk i, h => e.psk i h
  | .key k, h => e.keyOpen h
  | .data (.adv _), _ => trivial
  | .data (.hon n), ⟨k, h1, h2⟩ => ⟨k, e.sent _ h1, e.keyOpen h2⟩
  | .box k (.adv _), h => e.keyOpen h
  | .box k (.hon n), h => h.elim (fun h => Or.inl (e.sent _ h)) fun ⟨h1, k, h2, h3⟩ =>
      Or.inr ⟨e.keyOpen h1, k, e.sent _ h2, e.keyOpen h3⟩

theorem Ext.safeQ {w w' : World} (e : Ext w w') : ∀ {t : Term}, w.SafeQ t → w'.SafeQ t
  | .exp x, _ => trivial
  | .pt _, _ => trivial
  | .sk a, _ => trivial
  | .sig _, _ => trivial
  | .psk i, h => e.psk i h
  | .key k, h => e.psk _ h
  | .data (.adv _), _ => trivial
  | .data (.hon n), ⟨k, h1, h2⟩ => ⟨k, e.sent _ h1, e.psk _ h2⟩
  | .box k (.adv _), h => e.psk _ h
  | .box k (.hon n), h => h.elim (fun h => Or.inl (e.sent _ h)) fun ⟨h1, k, h2, h3⟩ =>
      Or.inr ⟨e.psk _ h1, k, e.sent _ h2, e.psk _ h3⟩

/-! ### Sessions -/

/-- The ephemeral key a finished handshake reports for the other side. -/
def Session.peerEphem (s : Session) (r : Accepted sym) : Point := if s.isServer then r.cliEphem else r.srvEphem

/-- The ephemeral key a finished handshake reports for its own side. -/
def Session.ownEphem (s : Session) (r : Accepted sym) : Point := if s.isServer then r.srvEphem else r.cliEphem

theorem sym_mul (x : Exp) (m : Multiset Exp) : sym.x25519 x (some m) = some (x ::ₘ m) := rfl

theorem sym_low (x : Exp) : sym.x25519 x none = none := rfl

/-- What `checkPeer` lets pass in the symbolic model. -/
theorem checkPeer_ok {now : Nat} {s : Shake sym} {pk : Nat} (h : checkPeer sym () now s = .ok pk) :
    s.cert = RawCert.issued pk ∧ s.sig = some (pk, s.ephem) := by
  obtain ⟨e, g, c, t⟩ := s
  have hv : sym.validPub e = true := rfl
  cases c with
  | garbage => cases h
  | foreign a => cases h
  | otherKind a => cases h
  | issued a =>
    change Option (Nat × Point) at g
    change Point at e
    have hd : checkPeer sym () now ⟨e, g, RawCert.issued a, t⟩ =
        if decide (g = some (a, e)) = false then Except.error Refuse.badSignature else Except.ok a := rfl
    rw [hd] at h
    by_cases hs : g = some (a, e)
    · rw [if_neg (by simp [hs])] at h
      cases h
      exact ⟨rfl, hs⟩
    · rw [if_pos (by simp [hs])] at h
      cases h

theorem serverVerified_eq {i b now : Nat} {x : Exp} {s : Shake sym} :
    serverVerified sym i (credsOf b) x now (some s) true =
      match checkPeer sym () now s with
      | .error r => (none, .refuse r)
      | .ok pk => match s.ephem with
        | none => (some (ownShake sym (credsOf b) x now), .panic)
        | some m => (some (ownShake sym (credsOf b) x now),
            .ok { key := (x ::ₘ m, i), cliEphem := some m, srvEphem := some {x}, peer := some pk }) := by
  have hp : (credsOf b).pool = () := rfl
  simp only [serverVerified, hp]
  cases hc : checkPeer sym () now s with
  | error r => rfl
  | ok pk =>
    obtain ⟨e, g, c, t⟩ := s
    cases e with
    | none => rfl
    | some m => rfl

theorem clientVerified_eq {i b now : Nat} {x : Exp} {s : Shake sym} :
    clientVerified sym i (credsOf b) x now (some s) =
      match checkPeer sym () now s with
      | .error r => .refuse r
      | .ok pk => match s.ephem with
        | none => .panic
        | some m => .ok { key := (x ::ₘ m, i), cliEphem := some {x}, srvEphem := some m, peer := some pk } := by
  have hp : (credsOf b).pool = () := rfl
  simp only [clientVerified, hp]
  cases hc : checkPeer sym () now s with
  | error r => rfl
  | ok pk =>
    obtain ⟨e, g, c, t⟩ := s
    cases e with
    | none => rfl
    | some m => rfl

theorem serverVerified_ok {i b now : Nat} {x : Exp} {s mine : Shake sym} {r : Accepted sym}
    (h : serverVerified sym i (credsOf b) x now (some s) true = (some mine, .ok r)) :
    ∃ (pk : Nat) (m : Multiset Exp), s.ephem = some m ∧ s.sig = some (pk, some m) ∧
      r = { key := ((x ::ₘ m, i) : Multiset Exp × Nat), cliEphem := (some m : Point),
            srvEphem := (some {x} : Point), peer := some pk } ∧
      mine = ownShake sym (credsOf b) x now := by
  rw [serverVerified_eq] at h
  cases hc : checkPeer sym () now s with
  | error e => rw [hc] at h; cases h
  | ok pk =>
    rw [hc] at h
    obtain ⟨_, h2⟩ := checkPeer_ok hc
    cases he : s.ephem with
    | none => rw [he] at h; cases h
    | some m =>
      rw [he] at h h2
      cases h
      exact ⟨pk, m, rfl, h2, rfl, rfl⟩

theorem serverVerified_panic {i b now : Nat} {x : Exp} {s mine : Shake sym}
    (h : serverVerified sym i (credsOf b) x now (some s) true = (some mine, .panic)) :
      mine = ownShake sym (credsOf b) x now := by
  rw [serverVerified_eq] at h
  cases hc : checkPeer sym () now s with
  | error e => rw [hc] at h; cases h
  | ok pk =>
    rw [hc] at h
    cases he : s.ephem with
    | none => rw [he] at h; cases h; rfl
    | some m => rw [he] at h; cases h

theorem clientVerified_ok {i b now : Nat} {x : Exp} {s : Shake sym} {r : Accepted sym}
    (h : clientVerified sym i (credsOf b) x now (some s) = .ok r) :
    ∃ (pk : Nat) (m : Multiset Exp), s.ephem = some m ∧ s.sig = some (pk, some m) ∧
      r = { key := ((x ::ₘ m, i) : Multiset Exp × Nat), cliEphem := (some {x} : Point),
            srvEphem := (some m : Point), peer := some pk } := by
  rw [clientVerified_eq] at h
  cases hc : checkPeer sym () now s with
  | error e => rw [hc] at h; cases h
  | ok pk =>
    rw [hc] at h
    obtain ⟨_, h2⟩ := checkPeer_ok hc
    cases he : s.ephem with
    | none => rw [he] at h; cases h
    | some m =>
      rw [he] at h h2
      cases h
      exact ⟨pk, m, rfl, h2, rfl⟩

/-- What holds of a finished handshake. -/
def World.Done (_w : World) (s : Session) (r : Accepted sym) : Prop :=
  ∃ (pk : Nat) (m : Multiset Exp), r.peer = some pk ∧ s.peerEphem r = some m ∧ s.ownEphem r = some {.hon s.eph} ∧
    r.key = ((.hon s.eph ::ₘ m, s.psk) : Multiset Exp × Nat)

/-- What holds of a finished handshake when signatures cannot be forged. -/
def World.Met (w : World) (s : Session) (r : Accepted sym) : Prop :=
  ∀ pk : Nat, r.peer = some pk → pk ∈ w.leakedSk ∨ ∃ n, (pk, n) ∈ w.drawn ∧ s.peerEphem r = some {.hon n}

structure Inv (w : World) : Prop where
  eph : ∀ s ∈ w.sessions, s.eph < w.nextEph
  uniq : (w.sessions.map (·.eph)).Nodup
  sent : ∀ x ∈ w.sent, x.1 < w.sent.length
  sentUniq : (w.sent.map (·.1)).Nodup
  by' : ∀ x ∈ w.sent, ∃ s ∈ w.sessions, ∃ r, s.result = some r ∧ r.key = x.2
  done : ∀ s ∈ w.sessions, ∀ r, s.result = some r → w.Done s r
  safeQ : ∀ t ∈ w.obs, w.SafeQ t

structure InvC (w : World) : Prop extends Inv w where
  met : ∀ s ∈ w.sessions, ∀ r, s.result = some r → w.Met s r
  safe : ∀ t ∈ w.obs, w.Safe t

theorem Ext.met {w w' : World} (e : Ext w w') {s r} (h : w.Met s r) : w'.Met s r := fun pk hp =>
  (h pk hp).elim (fun h => Or.inl (e.sk _ h)) fun ⟨n, h1, h2⟩ => Or.inr ⟨n, e.drawn _ h1, h2⟩

theorem inv_init : InvC init where
  eph := by simp [init]
  uniq := by simp [init]
  sent := by simp [init]
  sentUniq := by simp [init]
  by' := by simp [init]
  done := by simp [init]
  safeQ := by simp [init]
  met := by simp [init]
  safe := by simp [init]

theorem Inv.step {q : Bool} {w w' : World} (h : Inv w) (hs : Step q w w') : Inv w' := by
  have e := hs.ext
  have hb : ∀ x ∈ w.sent, ∃ s ∈ w'.sessions, ∃ r, s.result = some r ∧ r.key = x.2 := fun x hx => by
    obtain ⟨s, h1, r, h2, h3⟩ := h.by' x hx
    exact ⟨s, e.done s h1 (by simp [h2]), r, h2, h3⟩
  have add : ∀ (own eph : Nat) (isS : Bool) (i : Nat) (res : Option (Accepted sym)),
      (w.sessions.map (·.eph)).Nodup → eph = w.nextEph →
      ((w.sessions ++ [Session.mk own isS eph i res]).map (·.eph)).Nodup ∧
      ∀ s ∈ w.sessions ++ [Session.mk own isS eph i res], s.eph < w.nextEph + 1 := by
    intro own eph isS i res hu he
    subst he
    constructor
    · rw [List.map_append, List.nodup_append]
      refine ⟨hu, by simp, ?_⟩
      intro a ha b hb
      simp only [List.map_cons, List.map_nil, List.mem_singleton] at hb
      subst hb
      simp only [List.mem_map] at ha
      obtain ⟨s, h1, rfl⟩ := ha
      exact Nat.ne_of_lt (h.eph s h1)
    · intro s hs
      simp only [List.mem_append, List.mem_singleton] at hs
      rcases hs with hs | rfl
      · have := h.eph s hs; omega
      · simp
  have old : ∀ t ∈ w.obs, w'.SafeQ t := fun t ht => e.safeQ (h.safeQ t ht)
  cases hs with
  | clientHello a i now =>
    have ha := add a w.nextEph false i none h.uniq rfl
    refine ⟨ha.2, ha.1, h.sent, h.sentUniq, hb, ?_, ?_⟩
    · intro s hs r hr
      simp only [List.mem_append, List.mem_singleton] at hs
      rcases hs with hs | rfl
      · exact h.done s hs r hr
      · cases hr
    · intro t ht
      simp only [shakeTerms, List.cons_append, List.nil_append, List.mem_cons] at ht
      rcases ht with rfl | rfl | ht
      · trivial
      · trivial
      · exact old t ht
  | serverAccept b i now s mine r hc hv =>
    have ha := add b w.nextEph true i (some r) h.uniq rfl
    obtain ⟨pk, m, h1, h2, rfl, h4⟩ := serverVerified_ok hv
    refine ⟨ha.2, ha.1, h.sent, h.sentUniq, hb, ?_, ?_⟩
    · intro s hs r' hr
      simp only [List.mem_append, List.mem_singleton] at hs
      rcases hs with hs | rfl
      · exact h.done s hs r' hr
      · simp only [Option.some.injEq] at hr
        subst hr
        exact ⟨pk, m, rfl, rfl, rfl, rfl⟩
    · intro t ht
      simp only [shakeTerms, List.cons_append, List.nil_append, List.mem_cons] at ht
      rcases ht with rfl | rfl | ht
      · trivial
      · trivial
      · exact old t ht
  | serverCrash b i now s mine hc hv =>
    have ha := add b w.nextEph true i none h.uniq rfl
    refine ⟨ha.2, ha.1, h.sent, h.sentUniq, hb, ?_, ?_⟩
    · intro s hs r hr
      simp only [List.mem_append, List.mem_singleton] at hs
      rcases hs with hs | rfl
      · exact h.done s hs r hr
      · cases hr
    · intro t ht
      simp only [shakeTerms, List.cons_append, List.nil_append, List.mem_cons] at ht
      rcases ht with rfl | rfl | ht
      · trivial
      · trivial
      · exact old t ht
  | clientAccept pre post a n i now s r hw hc hv =>
    obtain ⟨pk, m, h1, h2, rfl⟩ := clientVerified_ok hv
    refine ⟨?_, ?_, h.sent, h.sentUniq, hb, ?_, old⟩
    · intro s hs
      simp only [List.mem_append, List.mem_cons] at hs
      rcases hs with hs | rfl | hs
      · exact h.eph s (by rw [hw]; simp [hs])
      · exact h.eph ⟨a, false, n, i, none⟩ (by rw [hw]; simp)
      · exact h.eph s (by rw [hw]; simp [hs])
    · have := h.uniq
      rw [hw] at this
      simpa using this
    · intro s hs r' hr
      simp only [List.mem_append, List.mem_cons] at hs
      rcases hs with hs | rfl | hs
      · exact h.done s (by rw [hw]; simp [hs]) r' hr
      · simp only [Option.some.injEq] at hr
        subst hr
        exact ⟨pk, m, rfl, rfl, rfl, rfl⟩
      · exact h.done s (by rw [hw]; simp [hs]) r' hr
  | sendData s r hs hr =>
    refine ⟨h.eph, h.uniq, ?_, ?_, ?_, h.done, ?_⟩
    · intro x hx
      simp only [List.mem_cons] at hx
      rcases hx with rfl | hx
      · simp
      · have := h.sent x hx; simp only [List.length_cons]; omega
    · simp only [List.map_cons, List.nodup_cons]
      refine ⟨?_, h.sentUniq⟩
      intro hx
      simp only [List.mem_map] at hx
      obtain ⟨x, h1, h2⟩ := hx
      exact Nat.lt_irrefl _ (h2 ▸ h.sent x h1)
    · intro x hx
      simp only [List.mem_cons] at hx
      rcases hx with rfl | hx
      · exact ⟨s, hs, r, hr, rfl⟩
      · exact hb x hx
    · intro t ht
      simp only [List.mem_cons] at ht
      rcases ht with rfl | ht
      · exact Or.inl (by simp)
      · exact old t ht
  | leakSk a =>
    refine ⟨h.eph, h.uniq, h.sent, h.sentUniq, hb, h.done, ?_⟩
    intro t ht
    simp only [List.mem_cons] at ht
    rcases ht with rfl | ht
    · trivial
    · exact old t ht
  | leakPsk a =>
    refine ⟨h.eph, h.uniq, h.sent, h.sentUniq, hb, h.done, ?_⟩
    intro t ht
    simp only [List.mem_cons] at ht
    rcases ht with rfl | ht
    · simp [World.SafeQ]
    · exact old t ht
  | leakEph a =>
    refine ⟨h.eph, h.uniq, h.sent, h.sentUniq, hb, h.done, ?_⟩
    intro t ht
    simp only [List.mem_cons] at ht
    rcases ht with rfl | ht
    · trivial
    · exact old t ht

theorem thin_single (l : List Nat) (x : Exp) : Thin l {x} := by
  unfold Thin
  rw [← Multiset.cons_zero, Multiset.countP_cons]
  split <;> simp

theorem InvC.step {w w' : World} (h : InvC w) (hs : Step false w w') : InvC w' := by
  have e := hs.ext
  have base := h.toInv.step hs
  have old : ∀ t ∈ w.obs, w'.Safe t := fun t ht => e.safe (h.safe t ht)
  have oldm : ∀ s ∈ w.sessions, ∀ r, s.result = some r → w'.Met s r := fun s hs r hr => e.met (h.met s hs r hr)
  have hsig : ∀ (s : Shake sym) pk m, CanSend false w s → s.ephem = some m → s.sig = some (pk, some m) →
      pk ∈ w'.leakedSk ∨ ∃ n, (pk, n) ∈ w'.drawn ∧ some m = some {Exp.hon n} := by
    intro s pk m hc h1 h2
    have := e.safe (Known.safe h.safe hc.2)
    rw [h2] at this
    exact this
  have hmine : ∀ a now, (a, w.nextEph) ∈ w'.drawn →
      ∀ t ∈ shakeTerms (ownShake sym (credsOf a) (.hon w.nextEph) now), w'.Safe t := by
    intro a now hd t ht
    simp only [shakeTerms, List.mem_cons, List.not_mem_nil, or_false] at ht
    rcases ht with rfl | rfl
    · exact thin_single _ _
    · exact Or.inr ⟨w.nextEph, hd, rfl⟩
  cases hs with
  | clientHello a i now =>
    refine ⟨base, ?_, ?_⟩
    · intro s hs r hr
      simp only [List.mem_append, List.mem_singleton] at hs
      rcases hs with hs | rfl
      · exact oldm s hs r hr
      · cases hr
    · intro t ht
      rcases List.mem_append.1 ht with ht | ht
      · exact hmine a now (by simp [World.drawn]) t ht
      · exact old t ht
  | serverAccept b i now s mine r hc hv =>
    obtain ⟨pk, m, h1, h2, rfl, h4⟩ := serverVerified_ok hv
    refine ⟨base, ?_, ?_⟩
    · intro s' hs r' hr
      simp only [List.mem_append, List.mem_singleton] at hs
      rcases hs with hs | rfl
      · exact oldm s' hs r' hr
      · simp only [Option.some.injEq] at hr
        subst hr
        intro pk' hp
        cases hp
        exact hsig s pk m hc h1 h2
    · intro t ht
      rcases List.mem_append.1 ht with ht | ht
      · rw [h4] at ht
        exact hmine b now (by simp [World.drawn]) t ht
      · exact old t ht
  | serverCrash b i now s mine hc hv =>
    have h4 := serverVerified_panic hv
    refine ⟨base, ?_, ?_⟩
    · intro s hs r hr
      simp only [List.mem_append, List.mem_singleton] at hs
      rcases hs with hs | rfl
      · exact oldm s hs r hr
      · cases hr
    · intro t ht
      rcases List.mem_append.1 ht with ht | ht
      · rw [h4] at ht
        exact hmine b now (by simp [World.drawn]) t ht
      · exact old t ht
  | clientAccept pre post a n i now s r hw hc hv =>
    obtain ⟨pk, m, h1, h2, rfl⟩ := clientVerified_ok hv
    refine ⟨base, ?_, old⟩
    intro s' hs r' hr
    simp only [List.mem_append, List.mem_cons] at hs
    rcases hs with hs | rfl | hs
    · exact oldm s' (by rw [hw]; simp [hs]) r' hr
    · simp only [Option.some.injEq] at hr
      subst hr
      intro pk' hp
      cases hp
      exact hsig s pk m hc h1 h2
    · exact oldm s' (by rw [hw]; simp [hs]) r' hr
  | sendData s r hs hr =>
    refine ⟨base, oldm, ?_⟩
    intro t ht
    simp only [List.mem_cons] at ht
    rcases ht with rfl | ht
    · exact Or.inl (by simp)
    · exact old t ht
  | leakSk a =>
    refine ⟨base, oldm, ?_⟩
    intro t ht
    simp only [List.mem_cons] at ht
    rcases ht with rfl | ht
    · simp [World.Safe]
    · exact old t ht
  | leakPsk a =>
    refine ⟨base, oldm, ?_⟩
    intro t ht
    simp only [List.mem_cons] at ht
    rcases ht with rfl | ht
    · simp [World.Safe]
    · exact old t ht
  | leakEph a =>
    refine ⟨base, oldm, ?_⟩
    intro t ht
    simp only [List.mem_cons] at ht
    rcases ht with rfl | ht
    · simp [World.Safe, Secret]
    · exact old t ht

theorem Run.inv {q : Bool} {w w' : World} (h : Run q w w') (hi : Inv w) : Inv w' := by
  induction h with
  | refl => exact hi
  | tail _ hs ih => exact ih.step hs

theorem Run.invC {w w' : World} (h : Run false w w') (hi : InvC w) : InvC w' := by
  induction h with
  | refl => exact hi
  | tail _ hs ih => exact ih.step hs

theorem Run.trans {q : Bool} {a b c : World} (h1 : Run q a b) (h2 : Run q b c) : Run q a c := by
  induction h2 with
  | refl => exact h1
  | tail _ hs ih => exact ih.tail hs

end Verif.HandshakeSym
