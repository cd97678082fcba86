import Verif.Proofs.RaftCompactSnap
import Verif.Spec.RaftCompact
/-
Every execution with compaction and snapshots is matched by states of the Raft model that
satisfy its invariants.
-/
namespace Verif.RaftCompact
open Verif.Raft hiding run step receive restart

/-- State `cs` stands for the state `s` of the Raft model. -/
structure Sim (mem : List Nat) (cs : CSys) (s : Sys) : Prop where
  inv : Invs mem s
  pos : ∀ t, Elected s.hist t → 1 ≤ t
  node : ∀ v, full (cs.nodes v) = s.nodes v
  wf : ∀ v, WF s.hist (cs.nodes v)
  req : ∀ m, CMsg.reqVote m ∈ cs.msgs → Msg.reqVote m ∈ s.msgs
  vote : ∀ m, CMsg.vote m ∈ cs.msgs → Msg.vote m ∈ s.msgs
  ack : ∀ m, CMsg.ack m ∈ cs.msgs ↔ Msg.ack m ∈ s.msgs
  ae : ∀ m, CMsg.ae m ∈ cs.msgs → ∃ P, AEc s m P
  snap : ∀ m, CMsg.snap m ∈ cs.msgs → Snc s m

/-- `s'` is a later state: nothing elected, led or committed is undone. -/
structure Later (mem : List Nat) (s s' : Sys) : Prop where
  el : ∀ t, Elected s.hist t → Elected s'.hist t
  lead : ∀ t, s.hist.lead t <+: s'.hist.lead t
  com : ∀ t i, Committed mem s t i → Committed mem s' t i

theorem Later.refl (mem : List Nat) (s : Sys) : Later mem s s :=
  ⟨fun _ h => h, fun _ => List.prefix_refl _, fun _ _ h => h⟩

theorem Later.trans {mem : List Nat} {a b c : Sys} (h : Later mem a b) (h' : Later mem b c) : Later mem a c :=
  ⟨fun t x => h'.el t (h.el t x), fun t => (h.lead t).trans (h'.lead t), fun t i x => h'.com t i (h.com t i x)⟩

section
variable {mem : List Nat} {cs : CSys} {s : Sys} {v : Nat}

theorem AEc.put {n' : Node} {ms : List Msg} (I : Invs mem s) (G : Goods mem s v n' ms) {m : CAE} {P : List Entry}
    (h : AEc s m P) : AEc (s.put mem v n' ms) m P := by
  obtain ⟨h1, h2, h3, h4, h5, h6⟩ := h
  refine ⟨mem_put_msgs.2 (Or.inl h1), h2.put I.i1 G.g1, h3, h4, ?_, h6⟩
  rcases h5 with h5 | ⟨h5, h7⟩
  · exact Or.inl h5
  · exact Or.inr ⟨h5.put, h7.trans (lead_prefix I.i1 G.g1 _)⟩

theorem Snc.put {n' : Node} {ms : List Msg} (I : Invs mem s) (G : Goods mem s v n' ms) {m : Snap}
    (h : Snc s m) : Snc (s.put mem v n' ms) m := by
  obtain ⟨h1, h2, ⟨Q, h3⟩, h4⟩ := h
  exact ⟨mem_put_msgs.2 (Or.inl h1), h2.put I.i1 G.g1, ⟨Q, put_elected_sub h3⟩, h4⟩

theorem later_put {n' : Node} {ms : List Msg} (I : Invs mem s) (G : Goods mem s v n' ms) :
    Later mem s (s.put mem v n' ms) :=
  ⟨fun _ h => h.put, fun t => lead_prefix I.i1 G.g1 t, fun _ _ h => committed_mono I.i1 G.g1 h⟩

/-- One node changes and messages are sent. -/
theorem sim_put (S : Sim mem cs s) {cn : CNode} {cms : List CMsg} {ms : List Msg}
    (G : Goods mem s v (full cn) ms) (hw : WF s.hist cn)
    (hreq : ∀ m, CMsg.reqVote m ∈ cms → Msg.reqVote m ∈ ms)
    (hvote : ∀ m, CMsg.vote m ∈ cms → Msg.vote m ∈ ms)
    (hack : ∀ m, CMsg.ack m ∈ cms ↔ Msg.ack m ∈ ms)
    (hae : ∀ m, CMsg.ae m ∈ cms → ∃ P, AEc (s.put mem v (full cn) ms) m P)
    (hsnap : ∀ m, CMsg.snap m ∈ cms → Snc (s.put mem v (full cn) ms) m) :
    Sim mem (cs.put v cn cms) (s.put mem v (full cn) ms) ∧ Later mem s (s.put mem v (full cn) ms) := by
  have I := S.inv
  have hnode : ∀ u, (u = v ∧ (cs.put v cn cms).nodes u = cn) ∨ (u ≠ v ∧ (cs.put v cn cms).nodes u = cs.nodes u) := by
    intro u
    by_cases h : u = v
    · exact Or.inl ⟨h, by simp [CSys.put, upd, h]⟩
    · exact Or.inr ⟨h, by simp [CSys.put, upd, h]⟩
  have hmsg : ∀ c, c ∈ (cs.put v cn cms).msgs ↔ c ∈ cs.msgs ∨ c ∈ cms := by
    intro c; exact List.mem_append
  refine ⟨⟨I.put G, ?_, ?_, ?_, ?_, ?_, ?_, ?_, ?_⟩, later_put I G⟩
  · intro t ⟨c, Q, h⟩
    rcases mem_put_elected.1 h with h | ⟨h1, h2, h3⟩
    · exact S.pos t ⟨c, Q, h⟩
    · rw [(Prod.mk.inj h3).1]
      rcases G.g1.lead h1 with h4 | h4
      · exact (h2 h4.1).elim
      · have := h4.2.2.2.1; omega
  · intro u
    rcases hnode u with ⟨rfl, h⟩ | ⟨hne, h⟩ <;> rw [h]
    · rw [put_nodes_self]
    · rw [put_nodes_ne hne]; exact S.node u
  · intro u
    rcases hnode u with ⟨rfl, h⟩ | ⟨hne, h⟩ <;> rw [h]
    · exact hw.put I G
    · exact (S.wf u).put I G
  · intro m h
    rcases (hmsg _).1 h with h | h
    · exact mem_put_msgs.2 (Or.inl (S.req m h))
    · exact mem_put_msgs.2 (Or.inr (hreq m h))
  · intro m h
    rcases (hmsg _).1 h with h | h
    · exact mem_put_msgs.2 (Or.inl (S.vote m h))
    · exact mem_put_msgs.2 (Or.inr (hvote m h))
  · intro m
    rw [hmsg, mem_put_msgs, S.ack m, hack m]
  · intro m h
    rcases (hmsg _).1 h with h | h
    · obtain ⟨P, hP⟩ := S.ae m h
      exact ⟨P, hP.put I G⟩
    · exact hae m h
  · intro m h
    rcases (hmsg _).1 h with h | h
    · exact (S.snap m h).put I G
    · exact hsnap m h

/-- The node keeps its history and nothing is sent. -/
theorem sim_same (S : Sim mem cs s) {cn : CNode} (hf : full cn = full (cs.nodes v)) (hw : WF s.hist cn) :
    Sim mem (cs.put v cn []) s := by
  have hnode : ∀ u, (u = v ∧ (cs.put v cn []).nodes u = cn) ∨ (u ≠ v ∧ (cs.put v cn []).nodes u = cs.nodes u) := by
    intro u
    by_cases h : u = v
    · exact Or.inl ⟨h, by simp [CSys.put, upd, h]⟩
    · exact Or.inr ⟨h, by simp [CSys.put, upd, h]⟩
  have hmsg : (cs.put v cn []).msgs = cs.msgs := List.append_nil _
  refine ⟨S.inv, S.pos, ?_, ?_, by rw [hmsg]; exact S.req, by rw [hmsg]; exact S.vote, by rw [hmsg]; exact S.ack,
    by rw [hmsg]; exact S.ae, by rw [hmsg]; exact S.snap⟩
  · intro u
    rcases hnode u with ⟨rfl, h⟩ | ⟨hne, h⟩ <;> rw [h]
    · rw [hf]; exact S.node u
    · exact S.node u
  · intro u
    rcases hnode u with ⟨rfl, h⟩ | ⟨hne, h⟩ <;> rw [h]
    · exact hw
    · exact S.wf u

/-- A step of the Raft model other than on AppendEntries. -/
theorem sim_tr (S : Sim mem cs s) {a : Action} {r : Node} {ms : List Msg} {cms : List CMsg} (hc : Careful s a)
    (h : Tr mem s a v r ms) (hg : Grow (s.nodes v) r)
    (hreq : ∀ m, CMsg.reqVote m ∈ cms → Msg.reqVote m ∈ ms)
    (hvote : ∀ m, CMsg.vote m ∈ cms → Msg.vote m ∈ ms)
    (hack : ∀ m, CMsg.ack m ∈ cms ↔ Msg.ack m ∈ ms)
    (hae : ∀ m, CMsg.ae m ∉ cms) (hsnap : ∀ m, CMsg.snap m ∉ cms) :
    ∃ s', Sim mem (cs.put v (back (cs.nodes v) r) cms) s' ∧ Later mem s s' := by
  have G := goods_of_tr S.inv hc h
  have hw := S.wf v
  rw [← S.node v] at hg
  have hb := back_wf hw G (hw.kv.trans hg.log) (hg.appl hw.sv) (hg.sv hw.sv)
  have G' : Goods mem s v (full (back (cs.nodes v) r)) ms := by rw [hb.1]; exact G
  exact ⟨_, sim_put S G' hb.2 hreq hvote hack (fun m hm => (hae m hm).elim) (fun m hm => (hsnap m hm).elim)⟩

theorem back_eq {n : CNode} (hw : WF s.hist n) {r : Node} (hl : r.log = (full n).log) (ha : r.applied = n.kv.length) :
    back n r = { n with
      inc := r.inc, role := r.role, term := r.term, vote := r.vote, mcTerm := r.mcTerm,
      commit := r.commit, yes := r.yes, no := r.no, peers := r.peers, saved := r.saved } := by
  unfold back
  rw [ha, Nat.sub_self, List.take_zero, List.append_nil, hl, full_drop hw.base]

theorem full_send {n : CNode} (hw : WF s.hist n) {beg cnt : Nat} (h : cnt = 0 ∨ n.base + 1 ≤ beg) :
    twin (mkCAE v n beg cnt) (full n).log = mkAE v (full n) beg cnt := by
  unfold twin mkCAE mkAE
  dsimp only
  have e : (n.log.drop (beg - 1 - n.base)).take cnt = ((full n).log.drop (beg - 1)).take cnt := by
    rcases h with h | h
    · rw [h, List.take_zero, List.take_zero]
    · rw [← full_drop hw.base, List.drop_drop, show n.base + (beg - 1 - n.base) = beg - 1 by omega]
  rw [e]
  rfl

theorem lift_mem {ms : List Msg} (m : CMsg) : m ∈ ms.filterMap lift ↔ ∃ x ∈ ms, lift x = some m := by
  simp [List.mem_filterMap]

theorem lift_req {ms : List Msg} (m : ReqVote) (h : CMsg.reqVote m ∈ ms.filterMap lift) : Msg.reqVote m ∈ ms := by
  obtain ⟨x, h1, h2⟩ := (lift_mem _).1 h
  cases x <;> simp [lift] at h2
  subst h2; exact h1

theorem lift_vote {ms : List Msg} (m : Vote) (h : CMsg.vote m ∈ ms.filterMap lift) : Msg.vote m ∈ ms := by
  obtain ⟨x, h1, h2⟩ := (lift_mem _).1 h
  cases x <;> simp [lift] at h2
  subst h2; exact h1

theorem lift_ack {ms : List Msg} (m : Ack) : CMsg.ack m ∈ ms.filterMap lift ↔ Msg.ack m ∈ ms := by
  rw [lift_mem]
  constructor
  · rintro ⟨x, h1, h2⟩
    cases x <;> simp [lift] at h2
    subst h2; exact h1
  · intro h; exact ⟨_, h, rfl⟩

theorem lift_ae {ms : List Msg} (m : CAE) : CMsg.ae m ∉ ms.filterMap lift := by
  intro h
  obtain ⟨x, h1, h2⟩ := (lift_mem _).1 h
  cases x <;> simp [lift] at h2

theorem lift_snap {ms : List Msg} (m : Snap) : CMsg.snap m ∉ ms.filterMap lift := by
  intro h
  obtain ⟨x, h1, h2⟩ := (lift_mem _).1 h
  cases x <;> simp [lift] at h2

/-- All the conditions of `Spec/RaftCompact.lean`. -/
def Cond (cs : CSys) (a : CAction) : Prop :=
  FullSend cs a ∧ OneRecord cs a ∧ AckOfTerm cs a ∧ BaseMatch cs a ∧ SnapFresh cs a ∧ KeepsLog cs a

theorem careful_of_ne {k : Nat} {x : Msg} (h : s.msgs[k]? = some x) (hx : ∀ m, x ≠ .ack m) {noop st nf fo} :
    Careful s (.deliver v k noop st nf fo) := by
  intro m hm
  rw [h] at hm
  exact (hx m (Option.some.inj hm)).elim

theorem sim_deliver (S : Sim mem cs s) {k noop : Nat} {st nf fo : Bool} {m : CMsg} {r : CNode × List CMsg}
    (hc : Cond cs (.act (.deliver v k noop st nf fo))) (hk : cs.msgs[k]? = some m) (hv : v ∈ mem)
    (hto : m.toward v = true) (h : receive mem v noop (cs.nodes v) st nf fo m = some r) :
    ∃ s', Sim mem (cs.put v r.1 r.2) s' ∧ Later mem s s' := by
  have I := S.inv
  have hmem : m ∈ cs.msgs := List.mem_of_getElem? hk
  obtain ⟨_, c2, c3, c4, c5, _⟩ := hc
  simp only [OneRecord, AckOfTerm, BaseMatch, SnapFresh, hk] at c2 c3 c4 c5
  cases m with
  | reqVote m =>
    simp only [receive, Option.some.injEq] at h
    subst h
    obtain ⟨k', hk'⟩ := List.mem_iff_getElem?.1 (S.req m hmem)
    have hT : Tr mem s (.deliver v k' noop st nf fo) v (handleRequestVote v (s.nodes v) m st).1
        [.vote (handleRequestVote v (s.nodes v) m st).2] := .reqVote hv hk' (by simpa [CMsg.toward] using hto)
    rw [S.node v]
    exact sim_tr S (careful_of_ne hk' (by simp)) hT (grow_requestVote _ _ _ _) (by simp) (by simp) (by simp) (by simp) (by simp)
  | vote m =>
    simp only [receive, Option.map_eq_some_iff] at h
    obtain ⟨n1, h1, rfl⟩ := h
    obtain ⟨k', hk'⟩ := List.mem_iff_getElem?.1 (S.vote m hmem)
    rw [S.node v] at h1
    have hT : Tr mem s (.deliver v k' noop st nf fo) v n1 [] := .vote hv hk' (by simpa [CMsg.toward] using hto) h1
    exact sim_tr S (careful_of_ne hk' (by simp)) hT (grow_tally h1) (by simp) (by simp) (by simp) (by simp) (by simp)
  | ack m =>
    simp only [receive, Option.some.injEq] at h
    subst h
    obtain ⟨k', hk'⟩ := List.mem_iff_getElem?.1 ((S.ack m).1 hmem)
    have hT : Tr mem s (.deliver v k' noop st nf fo) v (handleAck mem v (s.nodes v) m nf fo) [] :=
      .ack hv hk' (by simpa [CMsg.toward] using hto)
    rw [S.node v]
    refine sim_tr S ?_ hT (grow_ack _ _ _ _ _ _) (by simp) (by simp) (by simp) (by simp) (by simp)
    intro m' hm' hr ht
    rw [hk'] at hm'
    cases hm'
    rw [← S.node v] at hr ht ⊢
    exact ⟨c3 hr ht, c2 hr ht⟩
  | ae m =>
    simp only [receive, Option.map_eq_some_iff] at h
    obtain ⟨⟨n', a⟩, h1, rfl⟩ := h
    obtain ⟨P, hP⟩ := S.ae m hmem
    rcases ae_goods I hv (S.node v) (S.wf v) hP (by simpa [CMsg.toward] using hto) c4 h1 with ⟨rfl, rfl⟩ | ⟨w, rfl, G, hw⟩
    · exact ⟨s, sim_same S rfl (S.wf v), Later.refl _ _⟩
    · exact ⟨_, sim_put S G hw (by simp) (by simp) (by simp) (by simp) (by simp)⟩
  | snap m =>
    simp only [receive, Option.map_eq_some_iff] at h
    obtain ⟨⟨n', a⟩, h1, rfl⟩ := h
    have hS := S.snap m hmem
    by_cases ht : m.term = (cs.nodes v).term
    · obtain ⟨n2, w, h2, G, hw⟩ := snap_goods I hv (S.node v) hS (by simpa [CMsg.toward] using hto) ht (by
        intro a ha h3 h4 h5
        exact c5 _ ((S.ack a).2 ha) a rfl h3 h4 h5)
      rw [h1] at h2
      cases h2
      exact ⟨_, sim_put S G hw (by simp) (by simp) (by simp) (by simp) (by simp)⟩
    · unfold handleSnap at h1
      rw [if_pos ht] at h1
      cases h1
      exact ⟨s, sim_same S rfl (S.wf v), Later.refl _ _⟩

theorem compact_full {n n' : CNode} (hI : LogOK s.hist (full n).log) (hw : WF s.hist n) (h : compact n = some n') :
    full n' = full n ∧ WF s.hist n' := by
  unfold compact at h
  split at h
  · cases h; exact ⟨rfl, hw⟩
  · rename_i h1
    split at h
    · cases h
    · rename_i h2
      cases h
      have hb := hw.base
      have hlt : n.base + 1 < n.kv.length := by omega
      have hlog : n.kv.take (n.kv.length - 1) ++ n.log.drop (n.kv.length - 1 - n.base) = (full n).log := by
        have e1 : n.log.drop (n.kv.length - 1 - n.base) = (full n).log.drop (n.kv.length - 1) := by
          rw [← full_drop hb, List.drop_drop]; congr 1; omega
        have e2 : n.kv.take (n.kv.length - 1) = (full n).log.take (n.kv.length - 1) :=
          (take_prefix_of_prefix hw.kv (by omega)).symm
        rw [e1, e2, List.take_append_drop]
      have hf : full { n with
          base := n.kv.length - 1, baseTerm := termAt n.log (n.kv.length - 1 - n.base),
          log := n.log.drop (n.kv.length - 1 - n.base) } = full n := by
        unfold full at hlog ⊢
        dsimp only at hlog ⊢
        rw [hlog]
      refine ⟨hf, by dsimp only; omega, by rw [hf]; exact hw.kv, hw.sv, ?_⟩
      rw [hf]
      dsimp only
      have hlen := hw.kv.length_le
      have e : termAt n.log (n.kv.length - 1 - n.base) = termAt (full n).log (n.kv.length - 1) := by
        rw [← full_drop hb, termAt_drop (by omega)]
      rw [e]
      exact BaseOK.at hI (by omega)

theorem restart_full {n : CNode} (hI : LogOK s.hist (full n).log) (hw : WF s.hist n) (hk : n.log = [] → n.base = 0) :
    full (restart n) = Raft.restart (full n) ∧ WF s.hist (restart n) := by
  have hbase : (restart n).base = n.base := by
    unfold restart
    dsimp only
    split
    · exact (hk (by assumption)).symm
    · rfl
  have hkv : (restart n).kv = n.kv := rfl
  have hlog : (full (restart n)).log = (full n).log := by
    show (restart n).kv.take (restart n).base ++ (restart n).log = _
    rw [hbase, hkv]; rfl
  have hf : full (restart n) = Raft.restart (full n) := by
    have h1 : n.kv.length = n.saved.applied := hw.sv.symm
    have : full (restart n) = { Raft.restart (full n) with applied := n.kv.length, log := (full (restart n)).log } := rfl
    rw [this, hlog, h1]
    rfl
  refine ⟨hf, by rw [hbase]; exact hw.base, by rw [hlog]; exact hw.kv, hw.sv, ?_⟩
  rw [hlog, hbase]
  have hlen := hw.kv.length_le
  have hb := hw.base
  have ht : n.base = 0 ∨ (restart n).baseTerm = termAt (full n).log n.base := by
    unfold restart
    dsimp only
    split
    · exact Or.inl (hk (by assumption))
    · exact Or.inr (termAt_prefix hw.kv hw.base).symm
  rcases ht with h0 | h0
  · exact Or.inl h0
  · rw [h0]; exact BaseOK.at hI (by omega)

theorem sim_step (S : Sim mem cs s) {a : CAction} {cs' : CSys} (hc : Cond cs a) (h : step mem cs a = some cs') :
    ∃ s', Sim mem cs' s' ∧ Later mem s s' := by
  have I := S.inv
  cases a with
  | act a =>
    cases a with
    | timeout v noop =>
      simp only [step] at h
      split at h
      · rename_i h0
        rw [Option.map_eq_some_iff] at h
        obtain ⟨⟨n', ms⟩, h1, rfl⟩ := h
        rw [S.node v] at h1
        have hT : Tr mem s (.timeout v noop) v n' ms := .timeout h0.1 (by rw [← S.node v]; exact h0.2) h1
        exact sim_tr (a := .timeout v noop) S trivial hT (grow_begin h1) lift_req lift_vote lift_ack lift_ae lift_snap
      · cases h
    | preVote v =>
      simp only [step] at h
      split at h
      · rename_i h0
        cases h
        have hT : Tr mem s (.preVote v) v { s.nodes v with role := .follower } [] :=
          .preVote h0.1 (by rw [← S.node v]; exact h0.2)
        have := sim_tr (cms := []) (a := .preVote v) S trivial hT (Grow.same (List.prefix_refl _) rfl rfl) (by simp) (by simp) (by simp) (by simp) (by simp)
        have e : back (cs.nodes v) { full (cs.nodes v) with role := .follower } =
            { cs.nodes v with role := .follower } :=
          back_eq (r := { full (cs.nodes v) with role := .follower }) (S.wf v) rfl rfl
        rw [← S.node v, e] at this
        exact this
      · cases h
    | stepDown v =>
      simp only [step] at h
      split at h
      · rename_i h0
        cases h
        have hT : Tr mem s (.stepDown v) v (becomeFollower (s.nodes v) (s.nodes v).term 0 true) [] :=
          .stepDown h0.1 (by rw [← S.node v]; exact h0.2)
        have := sim_tr (cms := []) (a := .stepDown v) S trivial hT (grow_becomeFollower _ _ _ _) (by simp) (by simp) (by simp) (by simp) (by simp)
        rw [← S.node v] at this
        exact this
      · cases h
    | deliver v k noop st nf fo =>
      simp only [step] at h
      split at h
      · cases h
      · rename_i m hm
        split at h
        · rename_i h0
          rw [Option.map_eq_some_iff] at h
          obtain ⟨r, h1, rfl⟩ := h
          exact sim_deliver S hc hm h0.1 h0.2 h1
        · cases h
    | client v cmds =>
      simp only [step] at h
      split at h
      · rename_i h0
        cases h
        have hT : Tr mem s (.client v cmds) v (replicateBatch mem (s.nodes v) cmds) [] :=
          .client h0.1 (by rw [← S.node v]; exact h0.2)
        have := sim_tr (cms := []) (a := .client v cmds) S trivial hT (grow_batch _ _ _) (by simp) (by simp) (by simp) (by simp) (by simp)
        rw [← S.node v] at this
        exact this
      · cases h
    | send v beg cnt =>
      simp only [step] at h
      split at h
      · rename_i h0
        cases h
        have hw := S.wf v
        have hl := lastIdx_full hw.base
        have hr : (s.nodes v).role = .leader := by rw [← S.node v]; exact h0.2.1
        have hT : Tr mem s (.send v beg cnt) v (s.nodes v) [.ae (mkAE v (s.nodes v) beg cnt)] := by
          refine .send h0.1 hr ?_
          rw [← S.node v, hl]
          rcases h0.2.2 with h1 | h1
          · exact Or.inl h1
          · exact Or.inr ⟨by omega, h1.2⟩
        have hcar : Careful s (.send v beg cnt) := by
          have := hc.1
          simp only [FullSend] at this
          show cnt = 0 ∨ _
          rw [← S.node v, hl]; exact this
        have G := goods_of_tr I hcar hT
        rw [← S.node v] at G
        have hk : cnt = 0 ∨ (cs.nodes v).base + 1 ≤ beg := by
          rcases h0.2.2 with h1 | h1
          · exact Or.inl h1
          · exact Or.inr h1.1
        refine ⟨_, sim_put S G hw (by simp) (by simp) (by simp) ?_ (by simp)⟩
        intro m hm
        simp only [List.mem_singleton, CMsg.ae.injEq] at hm
        subst hm
        refine ⟨(full (cs.nodes v)).log, ?_⟩
        have htw := full_send (v := v) hw hk
        have hlen : (cs.nodes v).base ≤ (full (cs.nodes v)).log.length := by rw [hl]; unfold lastIdx; omega
        refine ⟨?_, ?_, hlen, ?_, ?_, ?_, ?_⟩
        · rw [htw]; exact mem_put_msgs.2 (Or.inr (by simp))
        · refine AEok.put I.i1 G.g1 ?_
          rw [htw]
          obtain ⟨Q, hQ⟩ := I.i1.leaderEl v hr
          rw [S.node v]
          refine ⟨⟨_, _, hQ⟩, ?_, rfl, ?_, ?_, rfl⟩
          · show (s.nodes v).log <+: s.hist.lead (s.nodes v).term
            rw [I.i1.leadLog v hr]; exact List.prefix_refl _
          · unfold mkAE; dsimp only
            rw [S.node v] at hl
            split <;> omega
          · unfold mkAE; dsimp only; split
            · rename_i h0; rw [h0, List.take_zero]; exact List.nil_prefix
            · exact List.take_prefix _ _
        · show terms (cs.nodes v).log = (terms (full (cs.nodes v)).log).drop (cs.nodes v).base
          rw [← terms_drop, full_drop hw.base]
        · exact (hw.put I G).baseT
        · show (cs.nodes v).base ≤ (cs.nodes v).commit
          have := (I.i3.saved v).2.1
          rw [← S.node v] at this
          exact Nat.le_trans hw.base this
        · rcases hk with h1 | h1
          · left; show ((cs.nodes v).log.drop _).take cnt = []; rw [h1, List.take_zero]
          · by_cases h2 : cnt = 0
            · left; show ((cs.nodes v).log.drop _).take cnt = []; rw [h2, List.take_zero]
            · right; show (cs.nodes v).base ≤ if cnt = 0 then 0 else beg - 1; rw [if_neg h2]; omega
      · cases h
    | join v p =>
      simp only [step] at h
      split at h
      · rename_i h0
        cases h
        have hT : Tr mem s (.join v p) v { s.nodes v with
            peers := ((s.nodes v).peers.filter fun x => x.1.1 ≠ p.1) ++ [(p, 0)] } [] := .join h0.1 h0.2
        have := sim_tr (cms := []) (a := .join v p) S trivial hT (Grow.same (List.prefix_refl _) rfl rfl) (by simp) (by simp) (by simp) (by simp) (by simp)
        have e : back (cs.nodes v) { full (cs.nodes v) with peers := ((full (cs.nodes v)).peers.filter fun x => x.1.1 ≠ p.1) ++ [(p, 0)] } =
            { cs.nodes v with peers := ((cs.nodes v).peers.filter fun x => x.1.1 ≠ p.1) ++ [(p, 0)] } :=
          back_eq (r := { full (cs.nodes v) with peers := ((full (cs.nodes v)).peers.filter fun x => x.1.1 ≠ p.1) ++ [(p, 0)] }) (S.wf v) rfl rfl
        rw [← S.node v, e] at this
        exact this
      · cases h
    | leave v p =>
      simp only [step] at h
      split at h
      · rename_i h0
        cases h
        have hT : Tr mem s (.leave v p) v { s.nodes v with
            peers := (s.nodes v).peers.filter fun x => x.1 ≠ p } [] := .leave h0
        have := sim_tr (cms := []) (a := .leave v p) S trivial hT (Grow.same (List.prefix_refl _) rfl rfl) (by simp) (by simp) (by simp) (by simp) (by simp)
        have e : back (cs.nodes v) { full (cs.nodes v) with peers := (full (cs.nodes v)).peers.filter fun x => x.1 ≠ p } =
            { cs.nodes v with peers := (cs.nodes v).peers.filter fun x => x.1 ≠ p } :=
          back_eq (r := { full (cs.nodes v) with peers := (full (cs.nodes v)).peers.filter fun x => x.1 ≠ p }) (S.wf v) rfl rfl
        rw [← S.node v, e] at this
        exact this
      · cases h
    | crash v =>
      simp only [step] at h
      split at h
      · rename_i h0
        cases h
        have hT : Tr mem s (.crash v) v (Raft.restart (s.nodes v)) [] := .crash h0
        have G := goods_of_tr (a := .crash v) I trivial hT
        have hI := I.i1.logOK v
        rw [← S.node v] at hI G
        have hk : (cs.nodes v).log = [] → (cs.nodes v).base = 0 := hc.2.2.2.2.2
        have hr := restart_full hI (S.wf v) hk
        rw [← hr.1] at G
        exact ⟨_, sim_put S G hr.2 (by simp) (by simp) (by simp) (by simp) (by simp)⟩
      · cases h
  | compact v =>
    simp only [step] at h
    split at h
    · rw [Option.map_eq_some_iff] at h
      obtain ⟨n, h1, rfl⟩ := h
      have hI := I.i1.logOK v
      rw [← S.node v] at hI
      have := compact_full hI (S.wf v) h1
      exact ⟨s, sim_same S this.1 this.2, Later.refl _ _⟩
    · cases h
  | snap v =>
    simp only [step] at h
    split at h
    · rename_i h0
      cases h
      have hw := S.wf v
      have hl := lastIdx_full hw.base
      have hr : (s.nodes v).role = .leader := by rw [← S.node v]; exact h0.2
      have hT : Tr mem s (.send v 1 (s.nodes v).log.length) v (s.nodes v)
          [.ae (mkAE v (s.nodes v) 1 (s.nodes v).log.length)] :=
        .send h0.1 hr (Or.inr ⟨Nat.le_refl _, by omega⟩)
      have hcar : Careful s (.send v 1 (s.nodes v).log.length) := Or.inr (by omega)
      have G := goods_of_tr I hcar hT
      have hP : (mkSnap v (cs.nodes v)).kv ++ (mkSnap v (cs.nodes v)).entries = (s.nodes v).log := by
        show (cs.nodes v).kv ++ (cs.nodes v).log.drop ((cs.nodes v).kv.length - (cs.nodes v).base) = _
        have hb := hw.base
        rw [← S.node v, ← full_drop hb, List.drop_drop,
          show (cs.nodes v).base + ((cs.nodes v).kv.length - (cs.nodes v).base) = (cs.nodes v).kv.length by omega]
        obtain ⟨q, hq⟩ := hw.kv
        rw [← hq, List.drop_left' rfl]
      have htw : snapTwin (mkSnap v (cs.nodes v)) = mkAE v (s.nodes v) 1 (s.nodes v).log.length := by
        unfold snapTwin mkAE
        rw [hP]
        have : (if (s.nodes v).log.length = 0 then 0 else 1 - 1) = 0 := by split <;> rfl
        dsimp only
        rw [this, List.drop_zero, List.take_length, ← S.node v]
        rfl
      obtain ⟨Q, hQ⟩ := I.i1.leaderEl v hr
      have G' : Goods mem s v (full (cs.nodes v)) [.ae (mkAE v (s.nodes v) 1 (s.nodes v).log.length)] := by
        rw [S.node v]; exact G
      have hQ' : ((cs.nodes v).term, (v, (cs.nodes v).inc), Q) ∈ s.hist.elected := by
        rw [← S.node v] at hQ; exact hQ
      refine ⟨_, sim_put S G' hw (by simp) (by simp) (by simp) (by simp) ?_⟩
      intro m hm
      simp only [List.mem_singleton, CMsg.snap.injEq] at hm
      subst hm
      refine ⟨?_, ?_, ⟨Q, put_elected_sub hQ'⟩, ?_, ?_, ?_, ?_⟩
      · rw [htw]; exact mem_put_msgs.2 (Or.inr (by simp))
      · refine AEok.put I.i1 G'.g1 ?_
        rw [hP]
        refine ⟨⟨_, _, hQ'⟩, ?_, by show terms _ = _; rw [hP], Nat.zero_le _, ?_, rfl⟩
        · have e : (snapTwin (mkSnap v (cs.nodes v))).term = (s.nodes v).term := by rw [htw]; rfl
          rw [e, I.i1.leadLog v hr]; exact List.prefix_refl _
        · show (mkSnap v (cs.nodes v)).kv ++ (mkSnap v (cs.nodes v)).entries <+: _
          rw [hP]; exact List.prefix_refl _
      · have := (I.i3.saved v).2.1
        rw [← S.node v] at this
        exact this
      · exact S.pos _ ⟨_, _, hQ'⟩
      · exact hw.base
      · rw [hP, ← S.node v]
        show terms (cs.nodes v).log = (terms (full (cs.nodes v)).log).drop (cs.nodes v).base
        rw [← terms_drop, full_drop hw.base]
    · cases h
  | crashMid v k => exact hc.2.2.2.2.2.elim

theorem sim_init (mem : List Nat) : Sim mem {} {} := by
  refine ⟨⟨inv0_init, inv1_init mem, inv2_init mem, inv3_init mem⟩, ?_, fun _ => rfl, ?_, ?_, ?_, ?_, ?_, ?_⟩
  · rintro t ⟨c, Q, h⟩; simp at h
  · intro v; exact ⟨Nat.le_refl _, List.prefix_refl _, rfl, Or.inl rfl⟩
  all_goals simp

/-- Runs all of whose steps meet the conditions. -/
def CondRun (mem : List Nat) (cs : CSys) : List CAction → Prop
  | [] => True
  | a :: as => Cond cs a ∧ ∀ cs', step mem cs a = some cs' → CondRun mem cs' as

theorem sim_run : ∀ (as : List CAction) {cs cs' : CSys} {s : Sys}, Sim mem cs s → CondRun mem cs as →
    run mem cs as = some cs' → ∃ s', Sim mem cs' s' ∧ Later mem s s'
  | [], cs, cs', s, S, _, h => by cases h; exact ⟨s, S, Later.refl _ _⟩
  | a :: as, cs, cs', s, S, hc, h => by
    simp only [run, Option.bind_eq_some_iff] at h
    obtain ⟨c1, h1, h2⟩ := h
    obtain ⟨s1, S1, L1⟩ := sim_step S hc.1 h1
    obtain ⟨s2, S2, L2⟩ := sim_run as S1 (hc.2 c1 h1) h2
    exact ⟨s2, S2, L1.trans L2⟩

theorem condRun_of {mem : List Nat} : ∀ (as : List CAction) {cs : CSys}, AllSteps FullSend mem cs as →
    AllSteps OneRecord mem cs as → AllSteps AckOfTerm mem cs as → AllSteps BaseMatch mem cs as →
    AllSteps SnapFresh mem cs as → AllSteps KeepsLog mem cs as → CondRun mem cs as
  | [], _, _, _, _, _, _, _ => trivial
  | a :: as, cs, h1, h2, h3, h4, h5, h6 => by
    simp only [AllSteps] at h1 h2 h3 h4 h5 h6
    refine ⟨⟨h1.1, h2.1, h3.1, h4.1, h5.1, h6.1⟩, fun cs' e => ?_⟩
    rw [e] at h1 h2 h3 h4 h5 h6
    exact condRun_of as h1.2 h2.2 h3.2 h4.2 h5.2 h6.2

/-- What was applied at an earlier moment is committed. -/
theorem Later.kv {s s' : Sys} {cs : CSys} (S : Sim mem cs s) (L : Later mem s s') (u : Nat) :
    ComOK mem s' (cs.nodes u).term (cs.nodes u).kv.length (cs.nodes u).kv := by
  have hcom := S.inv.i3.com u
  have hsv := (S.inv.i3.saved u).2.1
  have hst := S.inv.i1.savedTerm u
  rw [← S.node u] at hcom hsv hst
  have hk : (cs.nodes u).kv.length ≤ (cs.nodes u).commit := hsv
  rcases hcom with h | ⟨t, i, h1, h2, h3, h4⟩
  · left; have : (cs.nodes u).commit = 0 := h; omega
  · right
    have h3' : (cs.nodes u).commit ≤ i := h3
    refine ⟨t, i, L.com t i h1, Nat.le_trans h2 hst, by omega, ?_⟩
    have hlen := h1.1.2.1
    have e1 : (s'.hist.lead t).take (cs.nodes u).kv.length = (s.hist.lead t).take (cs.nodes u).kv.length :=
      take_prefix_of_prefix (L.lead t) (by omega)
    have e2 : (full (cs.nodes u)).log.take (cs.nodes u).kv.length = (s.hist.lead t).take (cs.nodes u).kv.length := by
      have h4' : (s.hist.lead t).take (cs.nodes u).commit <+: (full (cs.nodes u)).log := h4
      rw [take_prefix_of_prefix h4' (by simp; omega), List.take_take]; congr 1; omega
    have e3 : (full (cs.nodes u)).log.take (cs.nodes u).kv.length = (cs.nodes u).kv := by
      rw [take_prefix_of_prefix (S.wf u).kv (Nat.le_refl _), List.take_length]
    rw [e1, ← e2, e3]
    exact List.prefix_refl _

end

end Verif.RaftCompact
