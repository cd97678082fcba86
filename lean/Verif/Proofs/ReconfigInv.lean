import Verif.Proofs.ReconfigNode

/- The invariant of the system with membership changes. -/
namespace Verif.Reconfig
open Verif.Raft (Entry PeerID Role ReqVote Vote AE Ack upd)

def VLe (a b : Nat × Nat) : Prop := a.1 < b.1 ∨ a.1 = b.1 ∧ a.2 ≤ b.2

theorem VLe.refl (a : Nat × Nat) : VLe a a := Or.inr ⟨rfl, Nat.le_refl _⟩

theorem VLe.trans {a b c : Nat × Nat} (h : VLe a b) (h' : VLe b c) : VLe a c := by
  unfold VLe at *; omega

def Conf.key (c : Conf) : Nat × Nat := (c.term, c.ver)
def Report.key (r : Report) : Nat × Nat := (r.mcTerm, r.mcVer)

/-- The membership a new leader starts with. -/
def Election.conf (e : Election) : Conf := { e.base with term := e.term }

inductive Created (boot : List Nat) (h : Hist) : Conf → Prop
  | boot : Created boot h ⟨0, 0, boot⟩
  | elected {e : Election} (he : e ∈ h.elected) : Created boot h e.conf
  | change {c : Made} (hc : c ∈ h.changes) : Created boot h c.new

theorem Created.mono {boot : List Nat} {h h' : Hist} {c : Conf} (k : Created boot h c)
    (he : ∀ x ∈ h.elected, x ∈ h'.elected) (hc : ∀ x ∈ h.changes, x ∈ h'.changes) : Created boot h' c := by
  cases k with
  | boot => exact .boot
  | elected k => exact .elected (he _ k)
  | change k => exact .change (hc _ k)

def Known (boot : List Nat) (h : Hist) (c : Conf) : Prop := c = ⟨0, 0, []⟩ ∨ Created boot h c

def Counted (m : Vote) : Prop := m.granted = true ∧ m.srcTerm < m.term

structure Inv (boot : List Nat) (s : Sys) : Prop where
  saved : ∀ v, (s.nodes v).saved.mc = (s.nodes v).mc ∧ (s.nodes v).saved.term ≤ (s.nodes v).term ∧
    (s.nodes v).mc.term ≤ (s.nodes v).saved.term
  known : ∀ v, Known boot s.hist (s.nodes v).mc
  told : ∀ x r, (x, r) ∈ s.hist.told → VLe r.key (s.nodes x).mc.key
  seen : ∀ v x r, (s.nodes v).seen x = some r → r.mcTerm ≠ 0 → (x, r) ∈ s.hist.told
  lead : ∀ v, (s.nodes v).role = .leader → (s.nodes v).mc.term = (s.nodes v).term ∧
    ((∃ e ∈ s.hist.elected, e.who = (v, (s.nodes v).inc) ∧ e.term = (s.nodes v).term ∧ (s.nodes v).mc = e.conf) ∨
      ∃ c ∈ s.hist.changes, c.who = (v, (s.nodes v).inc) ∧ c.term = (s.nodes v).term ∧ (s.nodes v).mc = c.new) ∧
    (∃ e ∈ s.hist.elected, e.who = (v, (s.nodes v).inc) ∧ e.term = (s.nodes v).term ∧ e.base.ver ≤ (s.nodes v).mc.ver) ∧
    ∀ c ∈ s.hist.changes, c.who = (v, (s.nodes v).inc) → c.term = (s.nodes v).term → c.old.ver < (s.nodes v).mc.ver
  cand : ∀ v, (s.nodes v).role = .candidate → v ∈ (s.nodes v).mc.names ∧ (s.nodes v).mc.names.length ≠ 1 ∧
    (s.nodes v).mc.term < (s.nodes v).term ∧ (s.nodes v).yes.Nodup ∧
    (∀ x ∈ (s.nodes v).yes, x ∈ (s.nodes v).mc.names) ∧
    ∀ x ∈ (s.nodes v).yes, x = v ∨ ∃ m c, .vote m c ∈ s.msgs ∧ Counted m ∧ m.src.1 = x ∧
      m.cand = (v, (s.nodes v).inc) ∧ m.term = (s.nodes v).term
  self : ∀ v, (s.nodes v).role = .candidate → ∀ m c, .vote m c ∈ s.msgs → Counted m → m.src.1 = v →
    m.term ≠ (s.nodes v).term
  says : ∀ m ∈ s.msgs, ∀ c t, m.says = some (c, t) → Known boot s.hist c ∧ c.term ≤ t
  ae : ∀ m c, .ae m c ∈ s.msgs → c.term = m.term
  rep : ∀ m ∈ s.msgs, ∀ p, m.report = some p → p ∈ s.hist.told ∧ p.2.mcTerm ≤ p.2.term
  req : ∀ q c, .reqVote q c ∈ s.msgs → q.src.2 ≤ (s.nodes q.src.1).inc ∧ c.names.length ≠ 1 ∧ q.src.1 ∈ c.names ∧
    (q.src.2 = (s.nodes q.src.1).inc → q.term ≤ (s.nodes q.src.1).term ∧
      (q.term = (s.nodes q.src.1).term → c = (s.nodes q.src.1).mc ∨
        (s.nodes q.src.1).mc.term = (s.nodes q.src.1).term))
  req2 : ∀ q c q' c', .reqVote q c ∈ s.msgs → .reqVote q' c' ∈ s.msgs → q.src = q'.src → q.term = q'.term → c = c'
  vote : ∀ m c, .vote m c ∈ s.msgs → Counted m → m.term ≤ (s.nodes m.src.1).saved.term ∧ m.cand.1 ≠ m.src.1 ∧
    ∃ q c', .reqVote q c' ∈ s.msgs ∧ q.src = m.cand ∧ q.term = m.term ∧
      (∀ r, (m.src.1, r) ∈ s.hist.told → r.term < m.term → VLe r.key c'.key) ∧
      ((s.nodes m.src.1).saved.term = m.term → (s.nodes m.src.1).mc.key = c'.key ∨ (s.nodes m.src.1).mc.term = m.term)
  vote2 : ∀ m c m' c', .vote m c ∈ s.msgs → .vote m' c' ∈ s.msgs → Counted m → Counted m' →
    m.src.1 = m'.src.1 → m.term = m'.term → m.cand = m'.cand
  el : ∀ e ∈ s.hist.elected, e.term ≤ (s.nodes e.who.1).mc.term ∧ e.base.term < e.term ∧
    Created boot s.hist e.base ∧ e.who.1 ∈ e.base.names ∧ e.voters.Nodup ∧ (∀ x ∈ e.voters, x ∈ e.base.names) ∧
    e.base.names.length / 2 + 1 ≤ e.voters.length ∧
    (∀ y ∈ e.voters, y = e.who.1 ∨ ∃ m c, .vote m c ∈ s.msgs ∧ Counted m ∧ m.src.1 = y ∧ m.cand = e.who ∧ m.term = e.term) ∧
    ∀ r, (e.who.1, r) ∈ s.hist.told → r.term < e.term → VLe r.key e.base.key
  elreq : ∀ e ∈ s.hist.elected, ∀ q c, .reqVote q c ∈ s.msgs → q.src = e.who → q.term = e.term → c = e.base
  el2 : ∀ e ∈ s.hist.elected, ∀ e' ∈ s.hist.elected, e.who.1 = e'.who.1 → e.term = e'.term → e = e'
  elvote : ∀ e ∈ s.hist.elected, ∀ m c, .vote m c ∈ s.msgs → Counted m → m.src.1 = e.who.1 → m.term = e.term →
    e.base.names = [e.who.1] ∧ ∃ q c', .reqVote q c' ∈ s.msgs ∧ q.src = m.cand ∧ q.term = m.term ∧ c'.key = e.base.key
  ch : ∀ c ∈ s.hist.changes, c.old.term = c.term ∧ c.new.term = c.old.term ∧ c.new.ver = c.old.ver + 1 ∧
    quorumsOverlap c.old.names c.new.names = true ∧ (∃ d : Change, d.apply c.old.names = some c.new.names) ∧
    (∃ e ∈ s.hist.elected, e.who = c.who ∧ e.term = c.term ∧ e.base.ver ≤ c.old.ver) ∧
    ((∃ e ∈ s.hist.elected, e.who = c.who ∧ e.term = c.term ∧ c.old = e.conf) ∨
      ∃ d ∈ s.hist.changes, d.who = c.who ∧ d.term = c.term ∧ c.old = d.new) ∧
    (∃ p : Nat → Bool, c.confirmed = c.old.names.filter p) ∧
    ∀ y ∈ c.confirmed, (y, (⟨c.old.term, c.old.ver, c.term⟩ : Report)) ∈ s.hist.told
  ch2 : ∀ c ∈ s.hist.changes, ∀ d ∈ s.hist.changes, c.who = d.who → c.term = d.term → c.old.ver = d.old.ver → c = d

theorem Inv.init (boot : List Nat) : Inv boot (init boot) := by
  have hn : ∀ v, (Reconfig.init boot).nodes v = { mc := ⟨0, 0, boot⟩, saved := { mc := ⟨0, 0, boot⟩ } } ∨
      (Reconfig.init boot).nodes v = {} := by
    intro v
    by_cases h : v ∈ boot
    · exact Or.inl (if_pos h)
    · exact Or.inr (if_neg h)
  have hm : (Reconfig.init boot).msgs = [] := rfl
  have hh : (Reconfig.init boot).hist = {} := rfl
  constructor
  all_goals try (intros; simp_all [Reconfig.init]; done)
  · intro v; rcases hn v with h | h <;> rw [h] <;> simp
  · intro v; rcases hn v with h | h <;> rw [h]
    · exact Or.inr .boot
    · exact Or.inl rfl
  · intro v x r h
    rcases hn v with h' | h' <;> rw [h'] at h <;> cases h
  · intro v h
    rcases hn v with h' | h' <;> rw [h'] at h <;> cases h
  · intro v h
    rcases hn v with h' | h' <;> rw [h'] at h <;> cases h

/-! ### What `put` adds -/

section
variable {boot : List Nat} {s : Sys} {v : Nat} {n' : Node} {out : List Msg}

theorem mem_put_msgs {m : Msg} : m ∈ (s.put v n' out).msgs ↔ m ∈ s.msgs ∨ m ∈ out := List.mem_append

theorem put_told {p : Nat × Report} : p ∈ (s.put v n' out).hist.told ↔
    p ∈ s.hist.told ∨ p = (v, (s.nodes v).tell) ∨ p = (v, n'.tell) := by
  simp [Sys.put]

theorem put_elected_old {e : Election} (h : e ∈ s.hist.elected) : e ∈ (s.put v n' out).hist.elected := by
  simp only [Sys.put]
  split
  · exact List.mem_append_left _ h
  · exact h

theorem put_elected {e : Election} (h : e ∈ (s.put v n' out).hist.elected) :
    e ∈ s.hist.elected ∨ n'.role = .leader ∧ (s.nodes v).role ≠ .leader ∧
      e = ⟨n'.term, (v, n'.inc), (s.nodes v).mc, if (s.nodes v).mc.names.length = 1 then [v] else n'.yes⟩ := by
  simp only [Sys.put] at h
  split at h
  · rename_i hc
    rcases List.mem_append.mp h with h | h
    · exact Or.inl h
    · exact Or.inr ⟨hc.1, hc.2, List.mem_singleton.mp h⟩
  · exact Or.inl h

theorem put_changes_old {c : Made} (h : c ∈ s.hist.changes) : c ∈ (s.put v n' out).hist.changes := by
  simp only [Sys.put]
  split
  · exact List.mem_append_left _ h
  · exact h

theorem put_changes {c : Made} (h : c ∈ (s.put v n' out).hist.changes) :
    c ∈ s.hist.changes ∨ n'.role = .leader ∧ (s.nodes v).role = .leader ∧ n'.mc ≠ (s.nodes v).mc ∧
      c = ⟨(v, (s.nodes v).inc), (s.nodes v).term, (s.nodes v).mc, n'.mc, confirmed v (s.nodes v)⟩ := by
  simp only [Sys.put] at h
  split at h
  · rename_i hc
    rcases List.mem_append.mp h with h | h
    · exact Or.inl h
    · exact Or.inr ⟨hc.1, hc.2.1, hc.2.2, List.mem_singleton.mp h⟩
  · exact Or.inl h

theorem put_elected_new (h : n'.role = .leader) (h' : (s.nodes v).role ≠ .leader) :
    (⟨n'.term, (v, n'.inc), (s.nodes v).mc, if (s.nodes v).mc.names.length = 1 then [v] else n'.yes⟩ : Election)
      ∈ (s.put v n' out).hist.elected := by
  simp only [Sys.put]
  rw [if_pos ⟨h, h'⟩]
  simp

theorem put_changes_new (h : n'.role = .leader) (h' : (s.nodes v).role = .leader) (h2 : n'.mc ≠ (s.nodes v).mc) :
    (⟨(v, (s.nodes v).inc), (s.nodes v).term, (s.nodes v).mc, n'.mc, confirmed v (s.nodes v)⟩ : Made)
      ∈ (s.put v n' out).hist.changes := by
  simp only [Sys.put]
  rw [if_pos ⟨h, h', h2⟩]
  simp

theorem Created.put {c : Conf} (h : Created boot s.hist c) : Created boot (s.put v n' out).hist c := by
  cases h with
  | boot => exact .boot
  | elected he => exact .elected (put_elected_old he)
  | change hc => exact .change (put_changes_old hc)

theorem Known.put {c : Conf} (h : Known boot s.hist c) : Known boot (s.put v n' out).hist c := by
  rcases h with h | h
  · exact Or.inl h
  · exact Or.inr h.put

/-! ### General consequences of a small step -/

theorem Micro.monoSaved (h : Inv boot s) (hm : Micro s.msgs v (s.nodes v) n' out) :
    n'.saved.mc = n'.mc ∧ n'.saved.term ≤ n'.term ∧ n'.mc.term ≤ n'.saved.term ∧
    (s.nodes v).saved.term ≤ n'.saved.term ∧ VLe (s.nodes v).mc.key n'.mc.key ∧
    (s.nodes v).saved.term ≤ n'.term := by
  obtain ⟨a1, a2, a3⟩ := h.saved v
  cases hm with
  | quiet hi ht hm hr hy hs hseen ho =>
    rw [hm, ht]
    rcases hs with ⟨h1, h2⟩ | ⟨h1, h2⟩
    · rw [h1, h2]; exact ⟨a1, a2, a3, Nat.le_refl _, VLe.refl _, a2⟩
    · rw [h1, h2]; exact ⟨rfl, Nat.le_refl _, by omega, a2, VLe.refl _, a2⟩
  | advance hi ht hr hm hs hseen ho =>
    rw [hs.1, hs.2]
    refine ⟨rfl, Nat.le_refl _, ?_, by omega, ?_, by omega⟩
    · rcases hm with hm | ⟨_, m, hm, hsay⟩
      · rw [hm]; omega
      · exact (h.says m hm _ _ hsay).2
    · rcases hm with hm | ⟨hg, _⟩
      · rw [hm]; exact VLe.refl _
      · rw [gt_iff] at hg; unfold VLe Conf.key; simp only; omega
  | grant q c hq hv hi ht hqt hr hm hle hge hs hseen ho =>
    rw [hs.1, hs.2]
    refine ⟨rfl, Nat.le_refl _, ?_, by omega, ?_, by omega⟩
    · rcases hm with hm | ⟨_, hm⟩
      · rw [hm]; omega
      · have := (h.says _ hq c q.term rfl).2
        rw [hm]; omega
    · rcases hm with hm | ⟨hg, _⟩
      · rw [hm]; exact VLe.refl _
      · rw [gt_iff] at hg; unfold VLe Conf.key; simp only; omega
  | adopt m hmem hmt hi ht hr hgt hs hseen ho =>
    rw [hs.1, hs.2]
    refine ⟨rfl, Nat.le_refl _, ?_, by omega, ?_, by omega⟩
    · have := h.ae m _ hmem; omega
    · rw [gt_iff] at hgt; unfold VLe Conf.key; simp only; omega
  | stand hrn hin hlen hi ht hr hm hy hs hseen ho =>
    rw [hs, hm]
    exact ⟨a1, by omega, a3, Nat.le_refl _, VLe.refl _, by omega⟩
  | elect hrn hlen hc hq hlt hi ht hr hm hs hseen ho =>
    rw [hs.1, hs.2, hm, ht]
    refine ⟨rfl, Nat.le_refl _, Nat.le_refl _, a2, ?_, a2⟩
    unfold VLe Conf.key; simp only; omega
  | direct hrn hin hlt hi ht hr hm hs hseen ho =>
    rw [hs.1, hs.2, hm]
    refine ⟨rfl, Nat.le_refl _, Nat.le_refl _, by omega, ?_, by omega⟩
    unfold VLe Conf.key; simp only; omega
  | change hrn c hc ho hi ht hr hmt hmv hs hseen hout =>
    rw [hs.1, hs.2, ht]
    refine ⟨rfl, Nat.le_refl _, by omega, a2, ?_, a2⟩
    unfold VLe Conf.key; simp only; omega
  | crash hi ht hr hm hs hseen ho =>
    rw [hs, hm, ht]
    refine ⟨rfl, Nat.le_refl _, by rw [a1]; exact a3, Nat.le_refl _, ?_, Nat.le_refl _⟩
    rw [a1]; exact VLe.refl _

/-- The version of nobody's membership goes down. -/
theorem put_mc_mono (h : Inv boot s) (hm : Micro s.msgs v (s.nodes v) n' out) (x : Nat) :
    VLe (s.nodes x).mc.key ((s.put v n' out).nodes x).mc.key ∧
    (s.nodes x).saved.term ≤ ((s.put v n' out).nodes x).saved.term := by
  by_cases hx : x = v
  · subst hx
    rw [put_self]
    exact ⟨(hm.monoSaved h).2.2.2.2.1, (hm.monoSaved h).2.2.2.1⟩
  · rw [put_other s n' out hx]
    exact ⟨VLe.refl _, Nat.le_refl _⟩

/-- Every message of a small step is plain, a counted vote of a follower, or a request for votes. -/
theorem Micro.outs (hm : Micro s.msgs v (s.nodes v) n' out) :
    (∀ m ∈ out, Plain v (s.nodes v) n' m) ∨
    (∃ q c, .reqVote q c ∈ s.msgs ∧ q.src.1 ≠ v ∧ (s.nodes v).term < n'.term ∧ q.term = n'.term ∧
      n'.role = .follower ∧ n'.mc.key = c.key ∧ n'.saved.term = n'.term ∧ n'.inc = (s.nodes v).inc ∧
      out = [.vote ⟨(v, (s.nodes v).inc), (s.nodes v).term, q.src, n'.term, true, (s.nodes v).mc.term⟩ (s.nodes v).mc]) ∨
    ((s.nodes v).role = .follower ∧ v ∈ (s.nodes v).mc.names ∧ (s.nodes v).mc.names.length ≠ 1 ∧
      n'.inc = (s.nodes v).inc ∧ n'.term = (s.nodes v).term + 1 ∧ n'.mc = (s.nodes v).mc ∧
      n'.role = .candidate ∧
      ∃ a b, out = [.reqVote ⟨(v, (s.nodes v).inc), n'.term, a, b, (s.nodes v).mc.term⟩ (s.nodes v).mc]) := by
  have nil : ∀ {o : List Msg}, o = [] → ∀ m ∈ o, Plain v (s.nodes v) n' m := by
    intro o ho m hmem; rw [ho] at hmem; cases hmem
  cases hm with
  | quiet hi ht hm hr hy hs hseen ho => exact Or.inl ho
  | advance hi ht hr hm hs hseen ho => exact Or.inl ho
  | grant q c hq hv hi ht hqt hr hm hle hge hs hseen ho =>
    refine Or.inr (Or.inl ⟨q, c, hq, hv, ht, hqt, hr, ?_, hs.2, hi, ho⟩)
    rw [gt_false] at hle hge
    unfold Conf.key
    have h1 : n'.mc.term = c.term := by omega
    have h2 : n'.mc.ver = c.ver := by omega
    rw [h1, h2]
  | adopt m hmem hmt hi ht hr hgt hs hseen ho => exact Or.inl ho
  | stand hrn hin hlen hi ht hr hm hy hs hseen ho => exact Or.inr (Or.inr ⟨hrn, hin, hlen, hi, ht, hm, hr, ho⟩)
  | elect hrn hlen hc hq hlt hi ht hr hm hs hseen ho => exact Or.inl (nil ho)
  | direct hrn hin hlt hi ht hr hm hs hseen ho => exact Or.inl (nil ho)
  | change hrn c hc ho hi ht hr hmt hmv hs hseen hout => exact Or.inl (nil hout)
  | crash hi ht hr hm hs hseen ho => exact Or.inl (nil ho)

/-- A counted vote that is new was granted just now. -/
theorem new_vote (hm : Micro s.msgs v (s.nodes v) n' out) {m : Vote} {c : Conf}
    (hmem : .vote m c ∈ out) (hc : Counted m) :
    ∃ q c', .reqVote q c' ∈ s.msgs ∧ q.src.1 ≠ v ∧ (s.nodes v).term < n'.term ∧ q.term = n'.term ∧
      n'.role = .follower ∧ n'.mc.key = c'.key ∧ n'.saved.term = n'.term ∧
      m.src.1 = v ∧ m.cand = q.src ∧ m.term = n'.term ∧ m.srcTerm = (s.nodes v).term ∧ c = (s.nodes v).mc := by
  rcases hm.outs with h | ⟨q, c', h1, h2, h3, h4, h5, h6, h7, h8, ho⟩ | ⟨_, _, _, _, _, _, _, a, b, ho⟩
  · have := h _ hmem
    obtain ⟨_, _, _, _, hg⟩ := this
    have := hg hc.1
    have := hc.2
    omega
  · rw [ho, List.mem_singleton] at hmem
    cases hmem
    exact ⟨q, c', h1, h2, h3, h4, h5, h6, h7, rfl, rfl, rfl, rfl, rfl⟩
  · rw [ho, List.mem_singleton] at hmem
    cases hmem

/-- A request for votes that is new was sent by a node just become candidate. -/
theorem new_req (hm : Micro s.msgs v (s.nodes v) n' out) {q : ReqVote} {c : Conf}
    (hmem : .reqVote q c ∈ out) :
    (s.nodes v).role = .follower ∧ v ∈ (s.nodes v).mc.names ∧ (s.nodes v).mc.names.length ≠ 1 ∧
      n'.inc = (s.nodes v).inc ∧ n'.term = (s.nodes v).term + 1 ∧ n'.mc = (s.nodes v).mc ∧
      n'.role = .candidate ∧ q.src = (v, (s.nodes v).inc) ∧ q.term = n'.term ∧ c = (s.nodes v).mc := by
  rcases hm.outs with h | ⟨q, c', h1, h2, h3, h4, h5, h6, h7, h8, ho⟩ | ⟨g1, g2, g3, g4, g5, g6, g7, a, b, ho⟩
  · exact absurd (h _ hmem) (by simp [Plain])
  · rw [ho, List.mem_singleton] at hmem
    cases hmem
  · rw [ho, List.mem_singleton] at hmem
    cases hmem
    exact ⟨g1, g2, g3, g4, g5, g6, g7, rfl, rfl, rfl⟩

/-- What it takes to be recorded as elected. -/
theorem new_elected (hm : Micro s.msgs v (s.nodes v) n' out) (hr : n'.role = .leader)
    (hr' : (s.nodes v).role ≠ .leader) :
    n'.inc = (s.nodes v).inc ∧ (s.nodes v).mc.term < n'.term ∧ n'.mc = { (s.nodes v).mc with term := n'.term } ∧
    n'.saved.term = n'.term ∧ out = [] ∧
    ((s.nodes v).role = .candidate ∧ (s.nodes v).mc.names.length ≠ 1 ∧ n'.term = (s.nodes v).term ∧
        Counts s.msgs v (s.nodes v) n'.yes ∧ (s.nodes v).mc.names.length / 2 + 1 ≤ n'.yes.length ∨
     (s.nodes v).mc.names = [v] ∧ (n'.term = (s.nodes v).term ∨ n'.term = (s.nodes v).term + 1)) := by
  cases hm with
  | quiet hi ht hm hr2 hy hs hseen ho =>
    rcases hr2 with h | h
    · rw [h] at hr; exact absurd hr hr'
    · rw [h] at hr; cases hr
  | advance hi ht hr2 hm hs hseen ho => rw [hr2] at hr; cases hr
  | grant q c hq hv hi ht hqt hr2 hm hle hge hs hseen ho => rw [hr2] at hr; cases hr
  | adopt m hmem hmt hi ht hr2 hgt hs hseen ho => rw [hr2] at hr; cases hr
  | stand hrn hin hlen hi ht hr2 hm hy hs hseen ho => rw [hr2] at hr; cases hr
  | elect hrn hlen hc hq hlt hi ht hr hm hs hseen ho =>
    exact ⟨hi, by omega, by rw [ht]; exact hm, hs.2, ho, Or.inl ⟨hrn, hlen, ht, hc, hq⟩⟩
  | direct hrn hin hlt hi ht hr hm hs hseen ho =>
    exact ⟨hi, hlt, hm, hs.2, ho, Or.inr ⟨hin, ht⟩⟩
  | change hrn c hc ho hi ht hr hmt hmv hs hseen hout => exact absurd hrn hr'
  | crash hi ht hr2 hm hs hseen ho => rw [hr2] at hr; cases hr

/-- What it takes to be recorded as a change. -/
theorem new_change (hm : Micro s.msgs v (s.nodes v) n' out) (hr : n'.role = .leader)
    (hr' : (s.nodes v).role = .leader) (hne : n'.mc ≠ (s.nodes v).mc) :
    n'.inc = (s.nodes v).inc ∧ n'.term = (s.nodes v).term ∧ n'.mc.term = (s.nodes v).mc.term ∧
    n'.mc.ver = (s.nodes v).mc.ver + 1 ∧ (∃ c : Change, c.apply (s.nodes v).mc.names = some n'.mc.names) ∧
    quorumsOverlap (s.nodes v).mc.names n'.mc.names = true := by
  cases hm with
  | quiet hi ht hm hr2 hy hs hseen ho => exact absurd hm hne
  | advance hi ht hr2 hm hs hseen ho => rw [hr2] at hr; cases hr
  | grant q c hq hv hi ht hqt hr2 hm hle hge hs hseen ho => rw [hr2] at hr; cases hr
  | adopt m hmem hmt hi ht hr2 hgt hs hseen ho => rw [hr2] at hr; cases hr
  | stand hrn hin hlen hi ht hr2 hm hy hs hseen ho => rw [hr2] at hr; cases hr
  | elect hrn hlen hc hq hlt hi ht hr hm hs hseen ho => rw [hrn] at hr'; cases hr'
  | direct hrn hin hlt hi ht hr hm hs hseen ho => rw [hrn] at hr'; cases hr'
  | change hrn c hc ho hi ht hr hmt hmv hs hseen hout => exact ⟨hi, ht, hmt, hmv, ⟨c, hc⟩, ho⟩
  | crash hi ht hr2 hm hs hseen ho => rw [hr2] at hr; cases hr

/-- Staying leader without a change keeps incarnation, term and membership. -/
theorem stay_leader (hm : Micro s.msgs v (s.nodes v) n' out) (hr : n'.role = .leader)
    (hr' : (s.nodes v).role = .leader) (he : n'.mc = (s.nodes v).mc) :
    n'.inc = (s.nodes v).inc ∧ n'.term = (s.nodes v).term := by
  cases hm with
  | quiet hi ht hm hr2 hy hs hseen ho => exact ⟨hi, ht⟩
  | advance hi ht hr2 hm hs hseen ho => rw [hr2] at hr; cases hr
  | grant q c hq hv hi ht hqt hr2 hm hle hge hs hseen ho => rw [hr2] at hr; cases hr
  | adopt m hmem hmt hi ht hr2 hgt hs hseen ho => rw [hr2] at hr; cases hr
  | stand hrn hin hlen hi ht hr2 hm hy hs hseen ho => rw [hr2] at hr; cases hr
  | elect hrn hlen hc hq hlt hi ht hr hm hs hseen ho => rw [hrn] at hr'; cases hr'
  | direct hrn hin hlt hi ht hr hm hs hseen ho => rw [hrn] at hr'; cases hr'
  | change hrn c hc ho hi ht hr hmt hmv hs hseen hout => exact ⟨hi, ht⟩
  | crash hi ht hr2 hm hs hseen ho => rw [hr2] at hr; cases hr

theorem new_created (h : Inv boot s) (hin : v ∈ (s.nodes v).mc.names) : Created boot s.hist (s.nodes v).mc := by
  rcases h.known v with hk | hk
  · rw [hk] at hin; cases hin
  · exact hk

/-! ### Each part is kept -/

theorem keep_known (h : Inv boot s) (hm : Micro s.msgs v (s.nodes v) n' out) :
    Known boot (s.put v n' out).hist n'.mc := by
  by_cases hl : n'.role = .leader ∧ (s.nodes v).role ≠ .leader
  · have he := put_elected_new (out := out) hl.1 hl.2
    obtain ⟨_, _, h3, _⟩ := new_elected hm hl.1 hl.2
    have := Created.elected (boot := boot) he
    refine Or.inr ?_
    unfold Election.conf at this
    rw [h3]
    exact this
  · have hk := (h.known v).put (v := v) (n' := n') (out := out)
    cases hm with
    | quiet hi ht hm hr2 hy hs hseen ho => rw [hm]; exact hk
    | advance hi ht hr2 hm hs hseen ho =>
      rcases hm with hm | ⟨_, m, hmem, hsay⟩
      · rw [hm]; exact hk
      · exact (h.says m hmem _ _ hsay).1.put
    | grant q c hq hv hi ht hqt hr2 hm hle hge hs hseen ho =>
      rcases hm with hm | ⟨_, hm⟩
      · rw [hm]; exact hk
      · rw [hm]; exact (h.says _ hq c q.term rfl).1.put
    | adopt m hmem hmt hi ht hr2 hgt hs hseen ho => exact (h.says _ hmem n'.mc m.term rfl).1.put
    | stand hrn hin hlen hi ht hr2 hm hy hs hseen ho => rw [hm]; exact hk
    | elect hrn hlen hc hq hlt hi ht hr hm hs hseen ho => exact absurd ⟨hr, by rw [hrn]; simp⟩ hl
    | direct hrn hin hlt hi ht hr hm hs hseen ho => exact absurd ⟨hr, by rw [hrn]; simp⟩ hl
    | change hrn c hc ho hi ht hr hmt hmv hs hseen hout =>
      refine Or.inr (.change (put_changes_new hr hrn ?_))
      intro he; rw [he] at hmv; omega
    | crash hi ht hr2 hm hs hseen ho => rw [hm, (h.saved v).1]; exact hk

theorem keep_seen (h : Inv boot s) (hm : Micro s.msgs v (s.nodes v) n' out) (x : Nat) (r : Report)
    (hx : n'.seen x = some r) (h0 : r.mcTerm ≠ 0) : (x, r) ∈ (s.put v n' out).hist.told := by
  have old : (s.nodes v).seen x = some r → (x, r) ∈ (s.put v n' out).hist.told :=
    fun hs => put_told.mpr (Or.inl (h.seen v x r hs h0))
  cases hm with
  | quiet hi ht hm hr2 hy hs hseen ho =>
    rcases hseen x r hx with hs | ⟨m, hmem, r0, hr, h1, h2, h3⟩
    · exact old hs
    · have := h.rep m hmem _ hr
      refine put_told.mpr (Or.inl ?_)
      have hlt : r0.mcTerm ≤ r0.term := this.2
      rcases h3 with h3 | h3
      · have : r = r0 := by cases r; cases r0; simp_all
        rw [this]; exact (h.rep m hmem _ hr).1
      · omega
  | advance hi ht hr2 hm hs hseen ho => rw [hseen] at hx; exact old hx
  | grant q c hq hv hi ht hqt hr2 hm hle hge hs hseen ho => rw [hseen] at hx; exact old hx
  | adopt m hmem hmt hi ht hr2 hgt hs hseen ho => rw [hseen] at hx; exact old hx
  | stand hrn hin hlen hi ht hr2 hm hy hs hseen ho => rw [hseen] at hx; exact old hx
  | elect hrn hlen hc hq hlt hi ht hr hm hs hseen ho => rw [hseen] at hx; exact old hx
  | direct hrn hin hlt hi ht hr hm hs hseen ho => rw [hseen] at hx; exact old hx
  | change hrn c hc ho hi ht hr hmt hmv hs hseen hout => rw [hseen] at hx; exact old hx
  | crash hi ht hr2 hm hs hseen ho => rw [hseen] at hx; cases hx

theorem keep_lead (h : Inv boot s) (hm : Micro s.msgs v (s.nodes v) n' out) (x : Nat)
    (hl : ((s.put v n' out).nodes x).role = .leader) :
    ((s.put v n' out).nodes x).mc.term = ((s.put v n' out).nodes x).term ∧
    ((∃ e ∈ (s.put v n' out).hist.elected, e.who = (x, ((s.put v n' out).nodes x).inc) ∧
        e.term = ((s.put v n' out).nodes x).term ∧ ((s.put v n' out).nodes x).mc = e.conf) ∨
      ∃ c ∈ (s.put v n' out).hist.changes, c.who = (x, ((s.put v n' out).nodes x).inc) ∧
        c.term = ((s.put v n' out).nodes x).term ∧ ((s.put v n' out).nodes x).mc = c.new) ∧
    (∃ e ∈ (s.put v n' out).hist.elected, e.who = (x, ((s.put v n' out).nodes x).inc) ∧
        e.term = ((s.put v n' out).nodes x).term ∧ e.base.ver ≤ ((s.put v n' out).nodes x).mc.ver) ∧
    ∀ c ∈ (s.put v n' out).hist.changes, c.who = (x, ((s.put v n' out).nodes x).inc) →
      c.term = ((s.put v n' out).nodes x).term → c.old.ver < ((s.put v n' out).nodes x).mc.ver := by
  have others : ∀ {e : Election}, e ∈ s.hist.elected → e ∈ (s.put v n' out).hist.elected := put_elected_old
  by_cases hx : x = v
  · subst hx
    rw [put_self] at hl ⊢
    by_cases hr : (s.nodes x).role = .leader
    · obtain ⟨l1, l2, ⟨e, he, he1, he2, he3⟩, l4⟩ := h.lead x hr
      by_cases hne : n'.mc = (s.nodes x).mc
      · obtain ⟨hi, ht⟩ := stay_leader hm hl hr hne
        rw [hi, ht, hne]
        refine ⟨l1, ?_, ⟨e, put_elected_old he, he1, he2, he3⟩, ?_⟩
        · rcases l2 with ⟨e, he, hh⟩ | ⟨c, hc, hh⟩
          · exact Or.inl ⟨e, put_elected_old he, hh⟩
          · exact Or.inr ⟨c, put_changes_old hc, hh⟩
        · intro c hc
          rcases put_changes hc with hc | ⟨_, _, hc, _⟩
          · exact l4 c hc
          · exact absurd hne hc
      · obtain ⟨hi, ht, hmt, hmv, _, _⟩ := new_change hm hl hr hne
        rw [hi, ht, hmt, hmv]
        refine ⟨l1, Or.inr ⟨_, put_changes_new hl hr hne, rfl, rfl, rfl⟩, ⟨e, put_elected_old he, he1, he2, by omega⟩, ?_⟩
        intro c hc h1 h2
        rcases put_changes hc with hc | ⟨_, _, _, hc⟩
        · have := l4 c hc h1 h2; omega
        · rw [hc]; exact Nat.lt_succ_self _
    · obtain ⟨hi, hlt, hmc, _, _, _⟩ := new_elected hm hl hr
      have he := put_elected_new (out := out) hl hr
      refine ⟨by rw [hmc], Or.inl ⟨_, he, rfl, rfl, hmc⟩, ⟨_, he, rfl, rfl, by rw [hmc]; exact Nat.le_refl _⟩, ?_⟩
      intro c hc h1 h2
      rcases put_changes hc with hc | ⟨_, hc, _, _⟩
      · obtain ⟨_, _, _, _, _, ⟨e, he, he1, he2, _⟩, _⟩ := h.ch c hc
        have := (h.el e he).1
        rw [he1, h1] at this
        simp only at this
        omega
      · exact absurd hc hr
  · rw [put_other s n' out hx] at hl ⊢
    obtain ⟨l1, l2, ⟨e, he, he'⟩, l4⟩ := h.lead x hl
    refine ⟨l1, ?_, ⟨e, put_elected_old he, he'⟩, ?_⟩
    · rcases l2 with ⟨e, he, hh⟩ | ⟨c, hc, hh⟩
      · exact Or.inl ⟨e, put_elected_old he, hh⟩
      · exact Or.inr ⟨c, put_changes_old hc, hh⟩
    · intro c hc h1 h2
      rcases put_changes hc with hc | ⟨_, _, _, hc⟩
      · exact l4 c hc h1 h2
      · rw [hc] at h1
        exact absurd (congrArg Prod.fst h1).symm hx

/-- Adding a counted vote keeps the votes in order. -/
theorem Counts.keep {yes : List Nat} (hc : Counts s.msgs v (s.nodes v) yes) (h1 : (s.nodes v).yes.Nodup)
    (h2 : ∀ x ∈ (s.nodes v).yes, x ∈ (s.nodes v).mc.names)
    (h3 : ∀ x ∈ (s.nodes v).yes, x = v ∨ ∃ m c, .vote m c ∈ s.msgs ∧ Counted m ∧ m.src.1 = x ∧
      m.cand = (v, (s.nodes v).inc) ∧ m.term = (s.nodes v).term) :
    yes.Nodup ∧ (∀ x ∈ yes, x ∈ (s.nodes v).mc.names) ∧
    ∀ x ∈ yes, x = v ∨ ∃ m c, .vote m c ∈ (s.put v n' out).msgs ∧ Counted m ∧ m.src.1 = x ∧
      m.cand = (v, (s.nodes v).inc) ∧ m.term = (s.nodes v).term := by
  have old : ∀ x ∈ (s.nodes v).yes, x = v ∨ ∃ m c, .vote m c ∈ (s.put v n' out).msgs ∧ Counted m ∧ m.src.1 = x ∧
      m.cand = (v, (s.nodes v).inc) ∧ m.term = (s.nodes v).term := by
    intro x hx
    rcases h3 x hx with h | ⟨m, c, hm, hh⟩
    · exact Or.inl h
    · exact Or.inr ⟨m, c, mem_put_msgs.mpr (Or.inl hm), hh⟩
  rcases hc with hc | ⟨m, c, hm, g1, g2, g3, g4, g5, g6, hc⟩
  · rw [hc]; exact ⟨h1, h2, old⟩
  · rw [hc]
    refine ⟨?_, ?_, ?_⟩
    · rw [List.nodup_append]
      refine ⟨h1, List.nodup_cons.mpr ⟨List.not_mem_nil, List.nodup_nil⟩, ?_⟩
      intro a ha b hb hab
      rw [List.mem_singleton] at hb
      subst hab; subst hb
      exact g5 ha
    · intro x hx
      rcases List.mem_append.mp hx with hx | hx
      · exact h2 x hx
      · rw [List.mem_singleton] at hx; rw [hx]; exact g6
    · intro x hx
      rcases List.mem_append.mp hx with hx | hx
      · exact old x hx
      · rw [List.mem_singleton] at hx
        exact Or.inr ⟨m, c, mem_put_msgs.mpr (Or.inl hm), ⟨g1, by omega⟩, hx.symm, g2, g3⟩

theorem keep_cand (h : Inv boot s) (hm : Micro s.msgs v (s.nodes v) n' out) (hc : n'.role = .candidate) :
    v ∈ n'.mc.names ∧ n'.mc.names.length ≠ 1 ∧ n'.mc.term < n'.term ∧ n'.yes.Nodup ∧
    (∀ x ∈ n'.yes, x ∈ n'.mc.names) ∧
    (∀ x ∈ n'.yes, x = v ∨ ∃ m c, .vote m c ∈ (s.put v n' out).msgs ∧ Counted m ∧ m.src.1 = x ∧
      m.cand = (v, n'.inc) ∧ m.term = n'.term) ∧
    ∀ m c, .vote m c ∈ (s.put v n' out).msgs → Counted m → m.src.1 = v → m.term ≠ n'.term := by
  have noNew : ∀ m c, .vote m c ∈ out → Counted m → False := by
    intro m c hmem hcm
    obtain ⟨_, _, _, _, _, _, hr, _⟩ := new_vote hm hmem hcm
    rw [hr] at hc; cases hc
  have hm0 := hm
  cases hm with
  | quiet hi ht hmc hr2 hy hs hseen ho =>
    have hr : (s.nodes v).role = .candidate := by
      rcases hr2 with h | h
      · rw [← h]; exact hc
      · rw [h] at hc; cases hc
    obtain ⟨c1, c2, c3, c4, c5, c6⟩ := h.cand v hr
    obtain ⟨k1, k2, k3⟩ := hy.keep (n' := n') (out := out) c4 c5 c6
    rw [hmc, ht, hi]
    refine ⟨c1, c2, c3, k1, k2, k3, ?_⟩
    intro m c hmem hcm hsrc
    rcases mem_put_msgs.mp hmem with hmem | hmem
    · exact h.self v hr m c hmem hcm hsrc
    · exact (noNew m c hmem hcm).elim
  | advance hi ht hr2 hm hs hseen ho => rw [hr2] at hc; cases hc
  | grant q c hq hv hi ht hqt hr2 hm hle hge hs hseen ho => rw [hr2] at hc; cases hc
  | adopt m hmem hmt hi ht hr2 hgt hs hseen ho => rw [hr2] at hc; cases hc
  | stand hrn hin hlen hi ht hr2 hmc hy hs hseen ho =>
    obtain ⟨a1, a2, a3⟩ := h.saved v
    rw [hmc, hy]
    refine ⟨hin, hlen, by omega, List.nodup_cons.mpr ⟨List.not_mem_nil, List.nodup_nil⟩, ?_, ?_, ?_⟩
    · intro x hx; rw [List.mem_singleton] at hx; rw [hx]; exact hin
    · intro x hx; rw [List.mem_singleton] at hx; exact Or.inl hx
    · intro m c hmem hcm hsrc
      rcases mem_put_msgs.mp hmem with hmem | hmem
      · have := (h.vote m c hmem hcm).1
        rw [hsrc] at this
        omega
      · exact (noNew m c hmem hcm).elim
  | elect hrn hlen hc2 hq hlt hi ht hr hm hs hseen ho => rw [hr] at hc; cases hc
  | direct hrn hin hlt hi ht hr hm hs hseen ho => rw [hr] at hc; cases hc
  | change hrn c hc2 ho hi ht hr hmt hmv hs hseen hout => rw [hr] at hc; cases hc
  | crash hi ht hr2 hm hs hseen ho => rw [hr2] at hc; cases hc

/-- New messages: the membership and term they speak for, and their report. -/
theorem keep_out (h : Inv boot s) (hm : Micro s.msgs v (s.nodes v) n' out) {m : Msg} (hmem : m ∈ out) :
    (∀ c t, m.says = some (c, t) → Known boot (s.put v n' out).hist c ∧ c.term ≤ t) ∧
    (∀ a c, m = .ae a c → c.term = a.term) ∧
    ∀ p, m.report = some p → p ∈ (s.put v n' out).hist.told ∧ p.2.mcTerm ≤ p.2.term := by
  obtain ⟨a1, a2, a3⟩ := h.saved v
  have hk := (h.known v).put (v := v) (n' := n') (out := out)
  have hk' := keep_known h hm
  have t1 : (v, (s.nodes v).tell) ∈ (s.put v n' out).hist.told := put_told.mpr (Or.inr (Or.inl rfl))
  have t2 : (v, n'.tell) ∈ (s.put v n' out).hist.told := put_told.mpr (Or.inr (Or.inr rfl))
  obtain ⟨b1, b2, b3, b4, b5, b6⟩ := hm.monoSaved h
  rcases hm.outs with ho | ⟨q, c', h1, h2, h3, h4, h5, h6, h7, h8, ho⟩ | ⟨g1, g2, g3, g4, g5, g6, g7, a, b, ho⟩
  · have hp := ho m hmem
    cases m with
    | reqVote q c => exact absurd hp (by simp [Plain])
    | preReq q c => exact ⟨by simp [Msg.says], by simp, by simp [Msg.report]⟩
    | vote q c =>
      obtain ⟨p1, p2, p3, p4, _⟩ := hp
      refine ⟨?_, by simp, ?_⟩
      · intro c' t hs; cases hs; rw [p2]; exact ⟨hk, by omega⟩
      · intro p hp
        simp only [Msg.report, Option.some.injEq] at hp
        rw [← hp, p1, p2, p3]
        refine ⟨t1, ?_⟩
        change (s.nodes v).mc.term ≤ (s.nodes v).term
        omega
    | preVote q c =>
      obtain ⟨p1, p2, p3⟩ := hp
      refine ⟨by simp [Msg.says], by simp, ?_⟩
      intro p hp
      simp only [Msg.report, Option.some.injEq] at hp
      rw [← hp, p1, p2, p3]
      refine ⟨t1, ?_⟩
      change (s.nodes v).mc.term ≤ (s.nodes v).term
      omega
    | ae q c =>
      obtain ⟨p1, p2, p3, p4⟩ := hp
      refine ⟨?_, ?_, ?_⟩
      · intro c' t hs; cases hs; rw [p2]; exact ⟨hk, by omega⟩
      · intro a c' he
        cases he
        rw [p2, p3]; exact (h.lead v p4).1
      · intro p hp
        simp only [Msg.report, Option.some.injEq] at hp
        rw [← hp, p1, p2, p3]
        refine ⟨t1, ?_⟩
        change (s.nodes v).mc.term ≤ (s.nodes v).term
        omega
    | ack q c =>
      obtain ⟨p1, p2, p3⟩ := hp
      refine ⟨?_, by simp, ?_⟩
      · intro c' t hs; cases hs; rw [p2]; exact ⟨hk', by omega⟩
      · intro p hp
        simp only [Msg.report, Option.some.injEq] at hp
        rw [← hp, p1, p2, p3]
        refine ⟨t2, ?_⟩
        change n'.mc.term ≤ n'.term
        omega
  · rw [ho, List.mem_singleton] at hmem
    rw [hmem]
    refine ⟨?_, by simp, ?_⟩
    · intro c t hs
      simp only [Msg.says, Option.some.injEq, Prod.mk.injEq] at hs
      rw [← hs.1, ← hs.2]
      exact ⟨hk, by omega⟩
    · intro p hp
      simp only [Msg.report, Option.some.injEq] at hp
      rw [← hp]
      refine ⟨t1, ?_⟩
      change (s.nodes v).mc.term ≤ (s.nodes v).term
      omega
  · rw [ho, List.mem_singleton] at hmem
    rw [hmem]
    refine ⟨?_, by simp, by simp [Msg.report]⟩
    intro c t hs
    simp only [Msg.says, Option.some.injEq, Prod.mk.injEq] at hs
    rw [← hs.1, ← hs.2]
    exact ⟨hk, by omega⟩

/-- While the term stays, the membership stays too or belongs to that term. -/
theorem keep_req (h : Inv boot s) (hm : Micro s.msgs v (s.nodes v) n' out) :
    (s.nodes v).inc ≤ n'.inc ∧ (n'.inc = (s.nodes v).inc → (s.nodes v).term ≤ n'.term ∧
      (n'.term = (s.nodes v).term → n'.mc = (s.nodes v).mc ∨ n'.mc.term = n'.term)) := by
  cases hm with
  | quiet hi ht hmc hr2 hy hs hseen ho => exact ⟨by omega, fun _ => ⟨by omega, fun _ => Or.inl hmc⟩⟩
  | advance hi ht hr2 hm hs hseen ho => exact ⟨by omega, fun _ => ⟨by omega, fun _ => by omega⟩⟩
  | grant q c hq hv hi ht hqt hr2 hm hle hge hs hseen ho =>
    exact ⟨by omega, fun _ => ⟨by omega, fun _ => by omega⟩⟩
  | adopt m hmem hmt hi ht hr2 hgt hs hseen ho =>
    have := h.ae m _ hmem
    exact ⟨by omega, fun _ => ⟨by omega, fun _ => Or.inr (by omega)⟩⟩
  | stand hrn hin hlen hi ht hr2 hmc hy hs hseen ho => exact ⟨by omega, fun _ => ⟨by omega, fun _ => by omega⟩⟩
  | elect hrn hlen hc2 hq hlt hi ht hr hmc hs hseen ho =>
    exact ⟨by omega, fun _ => ⟨by omega, fun _ => Or.inr (by rw [hmc, ht])⟩⟩
  | direct hrn hin hlt hi ht hr hmc hs hseen ho =>
    exact ⟨by omega, fun _ => ⟨by omega, fun _ => Or.inr (by rw [hmc])⟩⟩
  | change hrn c hc2 ho hi ht hr hmt hmv hs hseen hout =>
    have := (h.lead v hrn).1
    exact ⟨by omega, fun _ => ⟨by omega, fun _ => Or.inr (by omega)⟩⟩
  | crash hi ht hr2 hm hs hseen ho => exact ⟨by omega, fun hx => by omega⟩

/-- While the saved term stays, the membership stays too or belongs to that term. -/
theorem keep_base (h : Inv boot s) (hm : Micro s.msgs v (s.nodes v) n' out) {t : Nat} {k : Nat × Nat}
    (ht : t ≤ (s.nodes v).saved.term)
    (hb : (s.nodes v).saved.term = t → (s.nodes v).mc.key = k ∨ (s.nodes v).mc.term = t)
    (hs' : n'.saved.term = t) : n'.mc.key = k ∨ n'.mc.term = t := by
  obtain ⟨a1, a2, a3⟩ := h.saved v
  cases hm with
  | quiet hi htm hmc hr2 hy hs hseen ho =>
    rw [hmc]
    rcases hs with ⟨_, hs⟩ | ⟨_, hs⟩
    · exact hb (by omega)
    · exact hb (by omega)
  | advance hi htm hr2 hm hs hseen ho => omega
  | grant q c hq hv hi htm hqt hr2 hm hle hge hs hseen ho => omega
  | adopt m hmem hmt hi htm hr2 hgt hs hseen ho =>
    have := h.ae m _ hmem
    exact Or.inr (by omega)
  | stand hrn hin hlen hi htm hr2 hmc hy hs hseen ho =>
    rw [hmc]; rw [hs] at hs'; exact hb hs'
  | elect hrn hlen hc2 hq hlt hi htm hr hmc hs hseen ho => refine Or.inr ?_; rw [hmc]; simp only; omega
  | direct hrn hin hlt hi htm hr hmc hs hseen ho => refine Or.inr ?_; rw [hmc]; simp only; omega
  | change hrn c hc2 ho hi htm hr hmt hmv hs hseen hout =>
    have := (h.lead v hrn).1
    exact Or.inr (by omega)
  | crash hi htm hr2 hmc hs hseen ho => rw [hmc, a1]; rw [hs] at hs'; exact hb hs'

/-- What was told of `x`, including what this step adds, is bounded as before. -/
theorem keep_told (h : Inv boot s) (hm : Micro s.msgs v (s.nodes v) n' out) {x t : Nat} {k : Nat × Nat}
    (ht : t ≤ (s.nodes x).saved.term) (hb : ∀ r, (x, r) ∈ s.hist.told → r.term < t → VLe r.key k)
    {r : Report} (hr : (x, r) ∈ (s.put v n' out).hist.told) (hlt : r.term < t) : VLe r.key k := by
  rcases put_told.mp hr with hr | hr | hr
  · exact hb r hr hlt
  · cases hr
    have := (h.saved v).2.1
    simp only [Node.tell] at hlt
    omega
  · cases hr
    have := (hm.monoSaved h).2.2.2.2.2
    simp only [Node.tell] at hlt
    omega

theorem keep_vote (h : Inv boot s) (hm : Micro s.msgs v (s.nodes v) n' out) (m : Vote) (c : Conf)
    (hmem : .vote m c ∈ (s.put v n' out).msgs) (hc : Counted m) :
    m.term ≤ ((s.put v n' out).nodes m.src.1).saved.term ∧ m.cand.1 ≠ m.src.1 ∧
    ∃ q c', .reqVote q c' ∈ (s.put v n' out).msgs ∧ q.src = m.cand ∧ q.term = m.term ∧
      (∀ r, (m.src.1, r) ∈ (s.put v n' out).hist.told → r.term < m.term → VLe r.key c'.key) ∧
      (((s.put v n' out).nodes m.src.1).saved.term = m.term →
        ((s.put v n' out).nodes m.src.1).mc.key = c'.key ∨ ((s.put v n' out).nodes m.src.1).mc.term = m.term) := by
  rcases mem_put_msgs.mp hmem with hold | hnew
  · obtain ⟨v1, v2, q, c', v3, v4, v5, v6, v7⟩ := h.vote m c hold hc
    refine ⟨Nat.le_trans v1 (put_mc_mono h hm _).2, v2, q, c', mem_put_msgs.mpr (Or.inl v3), v4, v5, ?_, ?_⟩
    · intro r hr hlt
      exact keep_told h hm v1 v6 hr hlt
    · by_cases hx : m.src.1 = v
      · rw [hx, put_self]
        rw [hx] at v1 v7
        exact keep_base h hm v1 v7
      · rw [put_other s n' out hx]; exact v7
  · obtain ⟨q, c', g1, g2, g3, g4, g5, g6, g7, g8, g9, g10, g11, g12⟩ := new_vote hm hnew hc
    rw [g8, put_self, g10]
    refine ⟨by omega, by rw [g9]; exact g2, q, c', mem_put_msgs.mpr (Or.inl g1), g9.symm, g4, ?_, fun _ => Or.inl g6⟩
    intro r hr hlt
    rw [← g6]
    rcases put_told.mp hr with hr | hr | hr
    · exact (h.told v r hr).trans (hm.monoSaved h).2.2.2.2.1
    · cases hr; exact (hm.monoSaved h).2.2.2.2.1
    · cases hr; simp only [Node.tell] at hlt; omega

theorem keep_vote2 (h : Inv boot s) (hm : Micro s.msgs v (s.nodes v) n' out) (m m' : Vote) (c c' : Conf)
    (h1 : .vote m c ∈ (s.put v n' out).msgs) (h2 : .vote m' c' ∈ (s.put v n' out).msgs)
    (k1 : Counted m) (k2 : Counted m') (hs : m.src.1 = m'.src.1) (ht : m.term = m'.term) : m.cand = m'.cand := by
  have mixed : ∀ {a b : Vote} {x y : Conf}, .vote a x ∈ s.msgs → .vote b y ∈ out → Counted a → Counted b →
      a.src.1 = b.src.1 → a.term = b.term → False := by
    intro a b x y ha hb ka kb hs ht
    obtain ⟨_, _, _, _, g3, _, _, _, _, g8, _, g10, _⟩ := new_vote hm hb kb
    have := (h.vote a x ha ka).1
    have := (h.saved v).2.1
    rw [hs, g8] at *
    omega
  rcases mem_put_msgs.mp h1 with o1 | n1 <;> rcases mem_put_msgs.mp h2 with o2 | n2
  · exact h.vote2 m c m' c' o1 o2 k1 k2 hs ht
  · exact (mixed o1 n2 k1 k2 hs ht).elim
  · exact (mixed o2 n1 k2 k1 hs.symm ht.symm).elim
  · rcases hm.outs with h | ⟨q, c', _, _, _, _, _, _, _, _, ho⟩ | ⟨_, _, _, _, _, _, _, a, b, ho⟩
    · obtain ⟨_, _, _, _, hg⟩ := h _ n1
      have := hg k1.1
      have := k1.2
      omega
    · rw [ho, List.mem_singleton] at n1 n2
      cases n1; cases n2; rfl
    · rw [ho, List.mem_singleton] at n1
      cases n1

/-- The voters recorded for an election just won. -/
theorem new_voters (h : Inv boot s) (hm : Micro s.msgs v (s.nodes v) n' out) (hr : n'.role = .leader)
    (hr' : (s.nodes v).role ≠ .leader) (vs : List Nat)
    (hvs : vs = if (s.nodes v).mc.names.length = 1 then [v] else n'.yes) :
    v ∈ (s.nodes v).mc.names ∧ vs.Nodup ∧ (∀ x ∈ vs, x ∈ (s.nodes v).mc.names) ∧
    (s.nodes v).mc.names.length / 2 + 1 ≤ vs.length ∧
    ∀ y ∈ vs, y = v ∨ ∃ m c, .vote m c ∈ (s.put v n' out).msgs ∧ Counted m ∧ m.src.1 = y ∧
      m.cand = (v, (s.nodes v).inc) ∧ m.term = n'.term := by
  obtain ⟨_, _, _, _, _, hk⟩ := new_elected hm hr hr'
  rcases hk with ⟨k1, k2, k3, k4, k5⟩ | ⟨k1, _⟩
  · obtain ⟨c1, c2, c3, c4, c5, c6⟩ := h.cand v k1
    rw [if_neg k2] at hvs
    subst hvs
    obtain ⟨x1, x2, x3⟩ := k4.keep (n' := n') (out := out) c4 c5 c6
    rw [k3]
    exact ⟨c1, x1, x2, k5, x3⟩
  · have hl : (s.nodes v).mc.names.length = 1 := by rw [k1]; rfl
    rw [if_pos hl] at hvs
    subst hvs
    rw [k1]
    refine ⟨List.mem_singleton.mpr rfl, List.nodup_cons.mpr ⟨List.not_mem_nil, List.nodup_nil⟩, fun x hx => hx, by simp, ?_⟩
    intro y hy
    exact Or.inl (List.mem_singleton.mp hy)

theorem keep_el (h : Inv boot s) (hm : Micro s.msgs v (s.nodes v) n' out) (e : Election)
    (he : e ∈ (s.put v n' out).hist.elected) :
    e.term ≤ ((s.put v n' out).nodes e.who.1).mc.term ∧ e.base.term < e.term ∧
    Created boot (s.put v n' out).hist e.base ∧ e.who.1 ∈ e.base.names ∧ e.voters.Nodup ∧
    (∀ x ∈ e.voters, x ∈ e.base.names) ∧ e.base.names.length / 2 + 1 ≤ e.voters.length ∧
    (∀ y ∈ e.voters, y = e.who.1 ∨ ∃ m c, .vote m c ∈ (s.put v n' out).msgs ∧ Counted m ∧ m.src.1 = y ∧
      m.cand = e.who ∧ m.term = e.term) ∧
    ∀ r, (e.who.1, r) ∈ (s.put v n' out).hist.told → r.term < e.term → VLe r.key e.base.key := by
  rcases put_elected he with hold | ⟨hr, hr', hnew⟩
  · obtain ⟨e1, e2, e3, e4, e5, e6, e7, e8, e9⟩ := h.el e hold
    refine ⟨?_, e2, e3.put, e4, e5, e6, e7, ?_, ?_⟩
    · have := (put_mc_mono h hm e.who.1).1
      unfold VLe Conf.key at this
      simp only at this
      omega
    · intro y hy
      rcases e8 y hy with hh | ⟨m, c, hmem, hh⟩
      · exact Or.inl hh
      · exact Or.inr ⟨m, c, mem_put_msgs.mpr (Or.inl hmem), hh⟩
    · intro r hrt hlt
      refine keep_told h hm ?_ e9 hrt hlt
      exact Nat.le_trans e1 (h.saved _).2.2
  · obtain ⟨k1, k2, k3, k4, k5, k6⟩ := new_elected hm hr hr'
    obtain ⟨w1, w2, w3, w4, w5⟩ := new_voters h hm hr hr' _ rfl
    subst hnew
    simp only
    rw [put_self]
    refine ⟨by rw [k3]; exact Nat.le_refl _, k2, (new_created h w1).put, w1, w2, w3, w4, ?_, ?_⟩
    · rw [k1]; exact w5
    · intro r hrt hlt
      rcases put_told.mp hrt with hrt | hrt | hrt
      · exact h.told v r hrt
      · cases hrt; exact VLe.refl _
      · cases hrt; simp only [Node.tell] at hlt; omega

theorem keep_elreq (h : Inv boot s) (hm : Micro s.msgs v (s.nodes v) n' out) (e : Election)
    (he : e ∈ (s.put v n' out).hist.elected) (q : ReqVote) (c : Conf)
    (hq : .reqVote q c ∈ (s.put v n' out).msgs) (hs : q.src = e.who) (ht : q.term = e.term) : c = e.base := by
  rcases put_elected he with hold | ⟨hr, hr', hnew⟩
  · rcases mem_put_msgs.mp hq with qo | qn
    · exact h.elreq e hold q c qo hs ht
    · obtain ⟨_, _, _, _, g5, _, _, g8, g9, _⟩ := new_req hm qn
      have h1 := (h.el e hold).1
      have h2 := h.saved v
      rw [← hs, g8] at h1
      simp only at h1
      omega
  · obtain ⟨k1, k2, k3, k4, k5, k6⟩ := new_elected hm hr hr'
    rcases mem_put_msgs.mp hq with qo | qn
    · subst hnew
      simp only at hs ht ⊢
      obtain ⟨q1, q2, q3, q4⟩ := h.req q c qo
      rw [hs] at q4
      simp only at q4
      obtain ⟨q4, q5⟩ := q4 k1
      rcases k6 with ⟨j1, j2, j3, _⟩ | ⟨j1, j2⟩
      · rcases q5 (by omega) with hc | hc
        · exact hc
        · omega
      · rcases j2 with j2 | j2
        · rcases q5 (by omega) with hc | hc
          · rw [hc, j1] at q2
            exact absurd rfl q2
          · omega
        · omega
    · rw [k5] at qn; cases qn

theorem keep_elvote (h : Inv boot s) (hm : Micro s.msgs v (s.nodes v) n' out) (e : Election)
    (he : e ∈ (s.put v n' out).hist.elected) (m : Vote) (c : Conf)
    (hmem : .vote m c ∈ (s.put v n' out).msgs) (hc : Counted m) (hs : m.src.1 = e.who.1) (ht : m.term = e.term) :
    e.base.names = [e.who.1] ∧ ∃ q c', .reqVote q c' ∈ (s.put v n' out).msgs ∧ q.src = m.cand ∧ q.term = m.term ∧
      c'.key = e.base.key := by
  rcases put_elected he with hold | ⟨hr, hr', hnew⟩
  · rcases mem_put_msgs.mp hmem with mo | mn
    · obtain ⟨h1, q, c', h2, h3⟩ := h.elvote e hold m c mo hc hs ht
      exact ⟨h1, q, c', mem_put_msgs.mpr (Or.inl h2), h3⟩
    · obtain ⟨_, _, _, _, g3, _, _, _, _, g8, _, g10, _⟩ := new_vote hm mn hc
      have h1 := (h.el e hold).1
      have h2 := h.saved v
      rw [← hs, g8] at h1
      omega
  · obtain ⟨k1, k2, k3, k4, k5, k6⟩ := new_elected hm hr hr'
    rcases mem_put_msgs.mp hmem with mo | mn
    · subst hnew
      simp only at hs ht ⊢
      rcases k6 with ⟨j1, j2, j3, _⟩ | ⟨j1, j2⟩
      · exact absurd (ht.trans j3) (h.self v j1 m c mo hc hs)
      · obtain ⟨v1, v2, q, c', v3, v4, v5, v6, v7⟩ := h.vote m c mo hc
        rw [hs] at v1 v7
        have := h.saved v
        refine ⟨j1, q, c', mem_put_msgs.mpr (Or.inl v3), v4, v5, ?_⟩
        rcases v7 (by omega) with hk | hk
        · exact hk.symm
        · omega
    · rw [k5] at mn; cases mn

theorem keep_el2 (h : Inv boot s) (hm : Micro s.msgs v (s.nodes v) n' out) (e e' : Election)
    (he : e ∈ (s.put v n' out).hist.elected) (he' : e' ∈ (s.put v n' out).hist.elected)
    (hw : e.who.1 = e'.who.1) (ht : e.term = e'.term) : e = e' := by
  have mixed : ∀ {a b : Election}, a ∈ s.hist.elected → n'.role = .leader → (s.nodes v).role ≠ .leader →
      b = ⟨n'.term, (v, n'.inc), (s.nodes v).mc, if (s.nodes v).mc.names.length = 1 then [v] else n'.yes⟩ →
      a.who.1 = b.who.1 → a.term = b.term → False := by
    intro a b ha hr hr' hb hw ht
    have h1 := (h.el a ha).1
    obtain ⟨_, k2, _⟩ := new_elected hm hr hr'
    subst hb
    simp only at hw ht
    rw [hw] at h1
    omega
  rcases put_elected he with o1 | ⟨r1, r1', n1⟩ <;> rcases put_elected he' with o2 | ⟨r2, r2', n2⟩
  · exact h.el2 e o1 e' o2 hw ht
  · exact (mixed o1 r2 r2' n2 hw ht).elim
  · exact (mixed o2 r1 r1' n1 hw.symm ht.symm).elim
  · rw [n1, n2]

theorem keep_ch (h : Inv boot s) (hm : Micro s.msgs v (s.nodes v) n' out) (c : Made)
    (hc : c ∈ (s.put v n' out).hist.changes) :
    c.old.term = c.term ∧ c.new.term = c.old.term ∧ c.new.ver = c.old.ver + 1 ∧
    quorumsOverlap c.old.names c.new.names = true ∧ (∃ d : Change, d.apply c.old.names = some c.new.names) ∧
    (∃ e ∈ (s.put v n' out).hist.elected, e.who = c.who ∧ e.term = c.term ∧ e.base.ver ≤ c.old.ver) ∧
    ((∃ e ∈ (s.put v n' out).hist.elected, e.who = c.who ∧ e.term = c.term ∧ c.old = e.conf) ∨
      ∃ d ∈ (s.put v n' out).hist.changes, d.who = c.who ∧ d.term = c.term ∧ c.old = d.new) ∧
    (∃ p : Nat → Bool, c.confirmed = c.old.names.filter p) ∧
    ∀ y ∈ c.confirmed, (y, (⟨c.old.term, c.old.ver, c.term⟩ : Report)) ∈ (s.put v n' out).hist.told := by
  rcases put_changes hc with hold | ⟨hr, hr', hne, hnew⟩
  · obtain ⟨c1, c2, c3, c4, c5, ⟨e, he, he'⟩, c7, c8, c9⟩ := h.ch c hold
    refine ⟨c1, c2, c3, c4, c5, ⟨e, put_elected_old he, he'⟩, ?_, c8, fun y hy => put_told.mpr (Or.inl (c9 y hy))⟩
    rcases c7 with ⟨e, he, hh⟩ | ⟨d, hd, hh⟩
    · exact Or.inl ⟨e, put_elected_old he, hh⟩
    · exact Or.inr ⟨d, put_changes_old hd, hh⟩
  · obtain ⟨k1, k2, k3, k4, k5, k6⟩ := new_change hm hr hr' hne
    obtain ⟨l1, l2, ⟨e, he, he1, he2, he3⟩, l4⟩ := h.lead v hr'
    subst hnew
    refine ⟨l1, k3, k4, k6, k5, ⟨e, put_elected_old he, he1, he2, he3⟩, ?_, ⟨_, rfl⟩, ?_⟩
    · rcases l2 with ⟨e, he, hh⟩ | ⟨d, hd, hh⟩
      · exact Or.inl ⟨e, put_elected_old he, hh⟩
      · exact Or.inr ⟨d, put_changes_old hd, hh⟩
    · intro y hy
      simp only [confirmed, List.mem_filter, decide_eq_true_eq] at hy
      refine put_told.mpr ?_
      rcases hy.2 with hy | hy
      · subst hy
        exact Or.inr (Or.inl rfl)
      · cases hs : (s.nodes v).seen y with
        | none => rw [hs] at hy; cases hy
        | some r =>
          rw [hs] at hy
          simp only [Option.any_some, Bool.and_eq_true, sameConf, sameTerm, decide_eq_true_eq] at hy
          have hpos : r.mcTerm ≠ 0 := by
            have := (h.el e he).2.1
            omega
          have := h.seen v y r hs hpos
          refine Or.inl ?_
          have hre : r = ⟨(s.nodes v).mc.term, (s.nodes v).mc.ver, (s.nodes v).term⟩ := by
            cases r; simp_all
          rw [← hre]; exact this

theorem keep_ch2 (h : Inv boot s) (c d : Made)
    (hc : c ∈ (s.put v n' out).hist.changes) (hd : d ∈ (s.put v n' out).hist.changes)
    (hw : c.who = d.who) (ht : c.term = d.term) (hv : c.old.ver = d.old.ver) : c = d := by
  have mixed : ∀ {a b : Made}, a ∈ s.hist.changes → (s.nodes v).role = .leader →
      b = ⟨(v, (s.nodes v).inc), (s.nodes v).term, (s.nodes v).mc, n'.mc, confirmed v (s.nodes v)⟩ →
      a.who = b.who → a.term = b.term → a.old.ver = b.old.ver → False := by
    intro a b ha hr hb hw ht hv
    obtain ⟨l1, l2, l3, l4⟩ := h.lead v hr
    subst hb
    have := l4 a ha hw ht
    simp only at hv
    omega
  rcases put_changes hc with o1 | ⟨r1, r1', _, n1⟩ <;> rcases put_changes hd with o2 | ⟨r2, r2', _, n2⟩
  · exact h.ch2 c o1 d o2 hw ht hv
  · exact (mixed o1 r2' n2 hw ht hv).elim
  · exact (mixed o2 r1' n1 hw.symm ht.symm hv.symm).elim
  · rw [n1, n2]

theorem Inv.put (h : Inv boot s) (hm : Micro s.msgs v (s.nodes v) n' out) : Inv boot (s.put v n' out) where
  saved x := by
    by_cases hx : x = v
    · subst hx
      rw [put_self]
      obtain ⟨b1, b2, b3, _⟩ := hm.monoSaved h
      exact ⟨b1, b2, b3⟩
    · rw [put_other s n' out hx]; exact h.saved x
  known x := by
    by_cases hx : x = v
    · subst hx; rw [put_self]; exact keep_known h hm
    · rw [put_other s n' out hx]; exact (h.known x).put
  told x r hr := by
    have hmono := put_mc_mono h hm x
    rcases put_told.mp hr with hr | hr | hr
    · exact (h.told x r hr).trans hmono.1
    · cases hr; exact hmono.1
    · cases hr; rw [put_self]; exact VLe.refl _
  seen x y r hs h0 := by
    by_cases hx : x = v
    · subst hx; rw [put_self] at hs; exact keep_seen h hm y r hs h0
    · rw [put_other s n' out hx] at hs
      exact put_told.mpr (Or.inl (h.seen x y r hs h0))
  lead x hl := keep_lead h hm x hl
  cand x hc := by
    by_cases hx : x = v
    · subst hx
      rw [put_self] at hc ⊢
      obtain ⟨k1, k2, k3, k4, k5, k6, _⟩ := keep_cand h hm hc
      exact ⟨k1, k2, k3, k4, k5, k6⟩
    · rw [put_other s n' out hx] at hc ⊢
      obtain ⟨k1, k2, k3, k4, k5, k6⟩ := h.cand x hc
      refine ⟨k1, k2, k3, k4, k5, ?_⟩
      intro y hy
      rcases k6 y hy with hh | ⟨m, c, hmem, hh⟩
      · exact Or.inl hh
      · exact Or.inr ⟨m, c, mem_put_msgs.mpr (Or.inl hmem), hh⟩
  self x hc m c hmem hcm hs := by
    by_cases hx : x = v
    · subst hx
      rw [put_self] at hc ⊢
      obtain ⟨_, _, _, _, _, _, k7⟩ := keep_cand h hm hc
      exact k7 m c hmem hcm hs
    · rw [put_other s n' out hx] at hc ⊢
      rcases mem_put_msgs.mp hmem with mo | mn
      · exact h.self x hc m c mo hcm hs
      · obtain ⟨_, _, _, _, _, _, _, _, _, g8, _⟩ := new_vote hm mn hcm
        exact absurd (hs.symm.trans g8) hx
  says m hmem c t hsay := by
    rcases mem_put_msgs.mp hmem with mo | mn
    · exact ⟨(h.says m mo c t hsay).1.put, (h.says m mo c t hsay).2⟩
    · exact (keep_out h hm mn).1 c t hsay
  ae m c hmem := by
    rcases mem_put_msgs.mp hmem with mo | mn
    · exact h.ae m c mo
    · exact (keep_out h hm mn).2.1 m c rfl
  rep m hmem p hp := by
    rcases mem_put_msgs.mp hmem with mo | mn
    · exact ⟨put_told.mpr (Or.inl (h.rep m mo p hp).1), (h.rep m mo p hp).2⟩
    · exact (keep_out h hm mn).2.2 p hp
  req q c hq := by
    rcases mem_put_msgs.mp hq with qo | qn
    · obtain ⟨q1, q2, q3, q4⟩ := h.req q c qo
      by_cases hx : q.src.1 = v
      · rw [hx, put_self]
        rw [hx] at q1 q4
        obtain ⟨r1, r2⟩ := keep_req h hm
        refine ⟨by omega, q2, by rw [← hx]; exact q3, ?_⟩
        intro hi
        obtain ⟨r2, r3⟩ := r2 (by omega)
        obtain ⟨q4, q5⟩ := q4 (by omega)
        refine ⟨by omega, ?_⟩
        intro ht
        rcases r3 (by omega) with hr | hr
        · rcases q5 (by omega) with hq5 | hq5
          · exact Or.inl (by rw [hr]; exact hq5)
          · exact Or.inr (by rw [hr]; omega)
        · exact Or.inr hr
      · rw [put_other s n' out hx]
        exact ⟨q1, q2, q3, q4⟩
    · obtain ⟨g1, g2, g3, g4, g5, g6, g7, g8, g9, g10⟩ := new_req hm qn
      rw [g8, g10, put_self]
      exact ⟨by simp only; omega, g3, g2, fun _ => ⟨by omega, fun _ => Or.inl g6.symm⟩⟩
  req2 q c q' c' h1 h2 hs ht := by
    have mixed : ∀ {a b : ReqVote} {x y : Conf}, .reqVote a x ∈ s.msgs → .reqVote b y ∈ out →
        a.src = b.src → a.term = b.term → False := by
      intro a b x y ha hb hs ht
      obtain ⟨_, _, _, _, g5, _, _, g8, g9, _⟩ := new_req hm hb
      obtain ⟨_, _, _, q4⟩ := h.req a x ha
      rw [hs, g8] at q4
      have := (q4 rfl).1
      simp only at this
      omega
    rcases mem_put_msgs.mp h1 with o1 | n1 <;> rcases mem_put_msgs.mp h2 with o2 | n2
    · exact h.req2 q c q' c' o1 o2 hs ht
    · exact (mixed o1 n2 hs ht).elim
    · exact (mixed o2 n1 hs.symm ht.symm).elim
    · obtain ⟨_, _, _, _, _, _, _, _, _, g10⟩ := new_req hm n1
      obtain ⟨_, _, _, _, _, _, _, _, _, g10'⟩ := new_req hm n2
      rw [g10, g10']
  vote m c hmem hc := keep_vote h hm m c hmem hc
  vote2 m c m' c' h1 h2 k1 k2 hs ht := keep_vote2 h hm m m' c c' h1 h2 k1 k2 hs ht
  el e he := keep_el h hm e he
  elreq e he q c hq hs ht := keep_elreq h hm e he q c hq hs ht
  el2 e he e' he' hw ht := keep_el2 h hm e e' he he' hw ht
  elvote e he m c hmem hc hs ht := keep_elvote h hm e he m c hmem hc hs ht
  ch c hc := keep_ch h hm c hc
  ch2 c hc d hd hw ht hv := keep_ch2 h c d hc hd hw ht hv

end

theorem Inv.run {boot : List Nat} {as : List Action} {s : Sys} (h : run (Reconfig.init boot) as = some s) :
    Inv boot s :=
  run_ind (P := Inv boot) (fun _ _ _ _ hs hm _ => hs.put hm)
    (fun _ v hs hc => ⟨(hs.cand v hc).1, (hs.cand v hc).2.1⟩) as (Inv.init boot) h

/-- What was recorded stays recorded. -/
theorem Inv.later {boot : List Nat} {bs : List Action} {s s' : Sys} (hs : Inv boot s) (h : Reconfig.run s bs = some s') :
    Inv boot s' ∧ (∀ e ∈ s.hist.elected, e ∈ s'.hist.elected) ∧ ∀ c ∈ s.hist.changes, c ∈ s'.hist.changes :=
  run_ind (P := fun t => Inv boot t ∧ (∀ e ∈ s.hist.elected, e ∈ t.hist.elected) ∧
      ∀ c ∈ s.hist.changes, c ∈ t.hist.changes)
    (fun _ _ _ _ ht hm _ => ⟨ht.1.put hm, fun e he => put_elected_old (ht.2.1 e he),
      fun c hc => put_changes_old (ht.2.2 c hc)⟩)
    (fun _ v ht hc => ⟨(ht.1.cand v hc).1, (ht.1.cand v hc).2.1⟩) bs
    ⟨hs, fun _ he => he, fun _ hc => hc⟩ h

end Verif.Reconfig
