import Verif.Proofs.RaftMain
import Verif.Spec.Lease
/-
The invariant behind local reads, and its preservation by every timed step.
-/
namespace Verif.Lease
open Verif.Raft

/-! ### Timed steps taken apart -/

/-- The state after a Raft step `a` that turned node `v` into `n'`. -/
def rnext (c : Cfg) (ts : TSys) (t : Nat) (a : Action) (v : Nat) (n' : Node) (ms : List Msg) : TSys :=
  { sys := ts.sys.put c.mem v n' ms
    loc := upd ts.loc v (crown (ts.sys.nodes v) n' (after c ts t n' (ts.loc v) a))
    now := t
    aeOf := newAeOf ts a
    accs := ts.accs ++ newAccs ts t a
    sentAt := ts.sentAt }

inductive TTr (c : Cfg) (ts : TSys) (t : Nat) : Act → TSys → Prop where
  | raft {a v n' ms} : guard c ts t a = true → Tr c.mem ts.sys a v n' ms →
      TTr c ts t (.raft a) (rnext c ts t a v n' ms)
  | send {v beg cnt ps lag} : v ∈ c.mem → (ts.sys.nodes v).role = .leader →
      Tr c.mem ts.sys (.send v beg cnt) v (ts.sys.nodes v) [.ae (mkAE v (ts.sys.nodes v) beg cnt)] →
      TTr c ts t (.send v beg cnt ps lag)
        { ts with
          sys := ts.sys.put c.mem v (ts.sys.nodes v) [.ae (mkAE v (ts.sys.nodes v) beg cnt)]
          loc := upd ts.loc v { ts.loc v with
            info := ps.foldl (fun l p => modify p (ping (c.clk v (t + lag)) ts.sys.msgs.length) l) (ts.loc v).info
            free := t + lag }
          now := t
          sentAt := upd ts.sentAt ts.sys.msgs.length t }
  | preVoteWon {v} : (ts.sys.nodes v).role = .follower → TTr c ts t (.preVoteWon v)
      { ts with
        loc := upd ts.loc v { ts.loc v with
          phase2 := some (c.clk v t + c.minElec v, (ts.sys.nodes v).term + 1) }
        now := t }
  | elapse {v} : (ts.sys.nodes v).role ≠ .leader → (ts.loc v).elec ≤ c.clk v t →
      TTr c ts t (.elapse v)
        { ts with loc := upd ts.loc v { ts.loc v with hasLeader := false }, now := t }
  | shadow {v p} : TTr c ts t (.shadow v p)
      { ts with
        loc := upd ts.loc v { ts.loc v with
          info := (ts.loc v).info.map fun x =>
            if x.1 = p then (x.1, pong (x.2.unacked.map (·.aeid)) (c.minElec p.1) x.2) else x }
        now := t }

theorem actor_of_tr {mem : List Nat} {s : Sys} {a : Action} {v : Nat} {n' : Node} {ms : List Msg}
    (h : Tr mem s a v n' ms) : actor a = v := by cases h <;> rfl

theorem tstep_tr {c : Cfg} {ts ts' : TSys} {t : Nat} {a : Act} (h : tstep c ts t a = some ts') :
    ts.now ≤ t ∧ TTr c ts t a ts' := by
  cases a with
  | raft a =>
    simp only [tstep] at h
    split at h
    · rename_i hg
      rw [Option.map_eq_some_iff] at h
      obtain ⟨s', hs, rfl⟩ := h
      obtain ⟨v, n', ms, ht, rfl⟩ := step_tr hs
      refine ⟨hg.1, ?_⟩
      have := TTr.raft (c := c) hg.2.2 ht
      rw [actor_of_tr ht]
      unfold rnext at this
      rw [put_nodes_self]
      exact this
    · cases h
  | send v beg cnt ps lag =>
    simp only [tstep] at h
    split at h
    · rename_i hg
      rw [Option.map_eq_some_iff] at h
      obtain ⟨s', hs, rfl⟩ := h
      obtain ⟨v', n', ms, ht, rfl⟩ := step_tr hs
      refine ⟨hg.1, ?_⟩
      cases ht with
      | send h1 h2 h3 => exact TTr.send h1 h2 (.send h1 h2 h3)
    · cases h
  | preVoteWon v =>
    simp only [tstep] at h
    split at h
    · rename_i hg; cases h; exact ⟨hg.1, .preVoteWon hg.2.2⟩
    · cases h
  | elapse v =>
    simp only [tstep] at h
    split at h
    · rename_i hg; cases h; exact ⟨hg.1, .elapse hg.2.2.1 hg.2.2.2⟩
    · cases h
  | shadow v p =>
    simp only [tstep] at h
    split at h
    · rename_i hg; cases h; exact ⟨hg.1, .shadow⟩
    · cases h

theorem upd_self {α : Type} (f : Nat → α) (i : Nat) (x : α) : upd f i x i = x := by simp [upd]

theorem upd_ne {α : Type} (f : Nat → α) {i j : Nat} (x : α) (h : j ≠ i) : upd f i x j = f j := by
  simp [upd, h]

/-! ### The invariant -/

/-- The minimal election time of the node has passed on its clock since it accepted. -/
def Expired (c : Cfg) (r : Acc) (t : Nat) : Prop :=
  c.clk r.who r.time + c.minElec r.who ≤ c.clk r.who t

theorem Expired.later {c : Cfg} {r : Acc} {t t' : Nat} (hm : Mono c) (h : Expired c r t) (hle : t ≤ t') :
    Expired c r t' := Nat.le_trans h (hm _ _ _ hle)

/-- The node still follows the leader whose message it accepted, and will for its minimal
election time. -/
structure Prot (c : Cfg) (ts : TSys) (r : Acc) : Prop where
  role : (ts.sys.nodes r.who).role = .follower
  term : (ts.sys.nodes r.who).term = r.term
  leader : (ts.loc r.who).hasLeader = true
  legit : ∃ x, (ts.loc r.who).lastLegit = some x ∧ c.clk r.who r.time ≤ x
  elec : c.clk r.who r.time + c.minElec r.who ≤ (ts.loc r.who).elec
  phase2 : ∀ d T, (ts.loc r.who).phase2 = some (d, T) → c.clk r.who r.time + c.minElec r.who ≤ d

/-- What a leader's record of a peer stands for. -/
def InfoOK (c : Cfg) (δ : Nat) (ts : TSys) (v : Nat) (x : PeerID × Info) : Prop :=
  (∀ p, x.2.unacked = some p → ∃ a, ts.sys.msgs[p.aeid]? = some (.ae a) ∧
    a.term = (ts.sys.nodes v).term ∧ a.src.1 = v ∧ p.sent ≤ c.clk v (ts.sentAt p.aeid) + δ) ∧
  (∀ p, x.2.lastFull = some p → x.2.minElec = c.minElec x.1.1 ∧
    p.sent ≤ c.clk v (ts.sentAt p.aeid) + δ ∧
    ∃ a, ts.sys.msgs[p.aeid]? = some (.ae a) ∧ a.src.1 = v ∧
    ∃ r ∈ ts.accs, r.who = x.1.1 ∧ r.inc = x.1.2 ∧ r.aeid = p.aeid ∧ r.term = (ts.sys.nodes v).term)

structure LInv (c : Cfg) (δ : Nat) (ts : TSys) : Prop where
  inv1 : Inv1 c.mem ts.sys
  sentLe : ∀ k a, ts.sys.msgs[k]? = some (.ae a) → ts.sentAt k ≤ ts.now
  accOK : ∀ r ∈ ts.accs, r.time ≤ ts.now ∧ r.who ∈ c.mem ∧ ts.sentAt r.aeid ≤ r.time ∧
    ∃ a, ts.sys.msgs[r.aeid]? = some (.ae a) ∧ a.src.1 ≠ r.who
  ackMsg : ∀ j m, ts.sys.msgs[j]? = some (.ack m) → ∃ k a, ts.aeOf j = some k ∧
    ts.sys.msgs[k]? = some (.ae a) ∧ (a.term = m.term →
      ∃ r ∈ ts.accs, r.who = m.src.1 ∧ r.inc = m.src.2 ∧ r.aeid = k ∧ r.term = m.term)
  heard : ∀ r ∈ ts.accs, Expired c r ts.now ∨ ((ts.sys.nodes r.who).inc = r.inc ∧
    ∃ x, (ts.loc r.who).lastLegit = some x ∧ c.clk r.who r.time ≤ x)
  prot : ∀ r ∈ ts.accs, Prot c ts r ∨ Expired c r ts.now ∨ ∃ T, r.term < T ∧ Elected ts.sys.hist T
  late : ∀ T T', T < T' → Elected ts.sys.hist T' → ∃ V, Quor c.mem V ∧ ∀ u ∈ V,
    T < (ts.sys.nodes u).saved.term ∧ ∀ r ∈ ts.accs, r.who = u → r.term = T → Expired c r ts.now
  keys : ∀ v, ((ts.loc v).info.map (·.1)).Nodup
  cand : ∀ v, (ts.sys.nodes v).role = .candidate → ∀ x ∈ (ts.loc v).info,
    x.2.unacked = none ∧ x.2.lastFull = none
  lead : ∀ v, (ts.sys.nodes v).role = .leader → ∀ x ∈ (ts.loc v).info, InfoOK c δ ts v x
  noop : ∀ v, (ts.sys.nodes v).role = .leader → ∃ k, (ts.loc v).noop0 = some k ∧ 1 ≤ k ∧
    k ≤ (ts.sys.nodes v).log.length ∧ termAt (ts.sys.nodes v).log k = (ts.sys.nodes v).term

theorem linv_init (c : Cfg) (δ : Nat) : LInv c δ {} := by
  constructor <;> try (intros; simp_all [Elected] <;> done)
  · exact inv1_init _

/-! ### Facts about Raft steps -/

section
variable {mem : List Nat} {s : Sys} {a : Action} {v : Nat} {n' : Node} {ms : List Msg}

theorem getElem?_mono {l l' : List Msg} {k : Nat} {x : Msg} (h : l[k]? = some x) :
    (l ++ l')[k]? = some x := by
  rw [List.getElem?_append_left (List.getElem?_eq_some_iff.1 h).1]; exact h

theorem getElem?_new {l l' : List Msg} {k : Nat} {x : Msg} (h : (l ++ l')[k]? = some x) :
    l[k]? = some x ∨ (l.length ≤ k ∧ l'[k - l.length]? = some x) := by
  by_cases hk : k < l.length
  · rw [List.getElem?_append_left hk] at h; exact Or.inl h
  · rw [List.getElem?_append_right (by omega)] at h; exact Or.inr ⟨by omega, h⟩

theorem tr_no_ae (h : Tr mem s a v n' ms) (hs : ∀ v b c, a ≠ .send v b c) (m : AE) :
    Msg.ae m ∉ ms := by
  cases h with
  | timeout hv hr hb =>
    rcases beginElection_eq hv hr hb with ⟨_, _, rfl⟩ | ⟨_, _, rfl⟩ <;> simp
  | send => exact absurd rfl (hs _ _ _)
  | _ => simp

/-- An acknowledgement sent by a step answers the AppendEntries delivered. -/
theorem tr_ack (h : Tr mem s a v n' ms) {m : Ack} (hm : Msg.ack m ∈ ms) :
    ∃ k noop st nf fo e, a = .deliver v k noop st nf fo ∧ s.msgs[k]? = some (.ae e) ∧
      ms = [.ack m] ∧ m.src = (v, (s.nodes v).inc) ∧
      (e.term = m.term → 1 ≤ e.term ∧ (s.nodes v).term ≤ e.term) := by
  cases h with
  | timeout hv hr hb =>
    rcases beginElection_eq hv hr hb with ⟨_, _, rfl⟩ | ⟨_, _, rfl⟩ <;> simp at hm
  | ae hv hk hne =>
    rename_i k noop st nf fo e
    refine ⟨k, noop, st, nf, fo, e, rfl, hk, ?_⟩
    rcases handleAE_cases v (s.nodes v) e with ⟨_, h⟩ | ⟨n1, rej, ns, q, h, h1, h2⟩
    · rw [h] at hm; simp at hm
    · rw [h] at hm ⊢
      simp only [Option.toList_some, List.map_cons, List.map_nil, List.mem_singleton, Msg.ack.injEq] at hm
      subst hm
      refine ⟨by simp, ?_⟩
      rcases h2 with ⟨hlt, rfl, _⟩ | ⟨hle, rfl, _⟩ | ⟨hle, _, log, _, _, _, _, rfl⟩
      · refine ⟨rfl, fun hx => ?_⟩
        simp only [mkAck] at hx
        omega
      · have f := follow_eq (n := { s.nodes v with commit := max (s.nodes v).commit (min e.commit (commonPrefix e.terms (terms (s.nodes v).log))) }) hle
        refine ⟨?_, fun _ => ⟨h1, hle⟩⟩
        simp only [mkAck]
        rw [f.2.2.2.2.2.2.inc]
      · have f := follow_eq (n := { s.nodes v with commit := max (s.nodes v).commit (min e.commit (commonPrefix e.terms (terms (s.nodes v).log))) }) hle
        refine ⟨?_, fun _ => ⟨h1, hle⟩⟩
        simp only [mkAck]
        rw [f.2.2.2.2.2.2.inc]
  | _ => simp at hm

/-- Accepting AppendEntries makes a follower of its term. -/
theorem handleAE_accept {me : Nat} {n : Node} {m : AE} (h1 : 1 ≤ m.term) (h2 : n.term ≤ m.term) :
    (handleAppendEntries me n m).1.role = .follower ∧ (handleAppendEntries me n m).1.term = m.term ∧
    (handleAppendEntries me n m).1.inc = n.inc := by
  have hi := (up_handleAE me n m).inc
  suffices hs : _ ∧ _ from ⟨hs.1, hs.2, hi⟩
  rcases handleAE_cases me n m with ⟨hx, _⟩ | ⟨n1, rej, ns, q, h, _, h3⟩
  · omega
  · rw [h]
    have cw := commitWhatWeCan_eq n1
    dsimp only
    rw [cw.1, cw.2.1]
    have f := follow_eq (n := { n with commit := max n.commit (min m.commit (commonPrefix m.terms (terms n.log))) }) h2
    rcases h3 with ⟨hlt, _⟩ | ⟨_, rfl, _⟩ | ⟨_, _, log, _, _, _, _, rfl⟩
    · omega
    · exact ⟨f.1, f.2.1⟩
    · exact ⟨f.1, f.2.1⟩

/-- Other AppendEntries leave role and term alone. -/
theorem handleAE_refuse {me : Nat} {n : Node} {m : AE} (h : ¬ (1 ≤ m.term ∧ n.term ≤ m.term)) :
    (handleAppendEntries me n m).1.role = n.role ∧ (handleAppendEntries me n m).1.term = n.term ∧
    (handleAppendEntries me n m).1.inc = n.inc := by
  have hi := (up_handleAE me n m).inc
  suffices hs : _ ∧ _ from ⟨hs.1, hs.2, hi⟩
  rcases handleAE_cases me n m with ⟨_, hx⟩ | ⟨n1, rej, ns, q, hx, h1, h3⟩
  · rw [hx]; exact ⟨rfl, rfl⟩
  · rw [hx]
    have cw := commitWhatWeCan_eq n1
    dsimp only
    rw [cw.1, cw.2.1]
    rcases h3 with ⟨hlt, rfl, _⟩ | ⟨h4, _⟩ | ⟨h4, _⟩
    · exact ⟨rfl, rfl⟩
    · exact absurd ⟨h1, h4⟩ h
    · exact absurd ⟨h1, h4⟩ h

end

end Verif.Lease
