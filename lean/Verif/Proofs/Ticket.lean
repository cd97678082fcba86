import Verif.Spec.Ticket

/-! Invariant of the request model. -/
namespace Verif.Ticket

/-- Where the one carrier of a request is: nowhere, nowhere with nobody going to answer, in a message, a batch,
or in the log. -/
inductive Loc where
  | gone
  | lost
  | net (d : Nid)
  | batch (n : Nid)
  | logged

/-- Request t stands at index i in what some node has applied. -/
def Backed (s : S) (t : Req) (i : Nat) : Prop :=
  ∃ (n : Nid) (e : Entry), (s.nodes n).log[i - 1]? = some e ∧ e.what = .req t ∧ 0 < i ∧ i ≤ (s.nodes n).applied

/-- An answer is justified. -/
def Just (loc : Req → Loc) (s : S) (t : Req) : Ans → Prop
  | .ok i => Backed s t i
  | .err w => loc t = .gone ∧ (w = .noLeader ∨ w = .notLeader)

def notSame (a b : Msg) : Prop := ∀ t d d', a = .redirect d t → b ≠ .redirect d' t

structure Inv (loc : Req → Loc) (ex : Option Req) (s : S) : Prop where
  net : ∀ d t, Msg.redirect d t ∈ s.net →
    loc t = .net d ∧ t < s.next ∧ (s.callers t).home ≠ d ∧ (s.callers t).fwd = true
  net1 : s.net.Pairwise notSame
  batch : ∀ n t, t ∈ (s.nodes n).batch → loc t = .batch n ∧ t < s.next ∧ (s.nodes n).leading = true ∧
    ((s.callers t).fwd = true → (s.callers t).home ≠ n) ∧ ((s.callers t).fwd = false → self s n t = true)
  batch1 : ∀ n, (s.nodes n).batch.Nodup
  log : ∀ p ∈ s.logged, ∀ t, p.what = .req t → loc t = .logged ∧ t < s.next
  log1 : s.logged.Pairwise fun a b => ∀ t, a.what = .req t → b.what ≠ .req t
  ent : ∀ n (i : Nat) (e : Entry), (s.nodes n).log[i]? = some e →
    ∃ p ∈ s.logged, p.idx = i + 1 ∧ p.term = e.term ∧ p.what = e.what
  own : ∀ n (i : Nat) (e : Entry) t, (s.nodes n).log[i]? = some e → e.own = true → e.what = .req t →
    self s n t = true ∧ (s.callers t).fwd = false
  app : ∀ n, (s.nodes n).applied ≤ (s.nodes n).log.length
  base : ∀ n, (s.nodes n).base ≤ (s.nodes n).applied
  waf : ∀ n t, t ∈ (s.nodes n).waf → (s.callers t).home = n ∧ (s.callers t).fwd = true ∧
    (s.callers t).alive = true ∧ (s.nodes n).idx t = 0 ∧ t < s.next ∧ (s.callers t).finished = false
  wal : ∀ n t, t ∈ (s.nodes n).wal → (s.nodes n).leading = true ∧ t < s.next ∧
    ((s.callers t).fwd = true → (s.callers t).home ≠ n) ∧ ((s.callers t).fwd = false → self s n t = true)
  wal0 : ∀ n t, t ∈ (s.nodes n).wal → (s.nodes n).idx t = 0 → loc t = .gone ∨ loc t = .lost
  walI : ∀ n t, t ∈ (s.nodes n).wal → 0 < (s.nodes n).idx t →
    (∃ e : Entry, (s.nodes n).log[(s.nodes n).idx t - 1]? = some e ∧ e.what = .req t) ∧
    ((s.nodes n).applied < (s.nodes n).idx t ∨ (self s n t = true ∧ (s.callers t).finished = true) ∨ ex = some t)
  fin : ∀ t, (s.callers t).finished = true → (s.callers t).ans ≠ none
  ansm : ∀ t a, Msg.answer t a ∈ s.net → t < s.next ∧ Just loc s t a ∧ (∀ w, a = .err w → (s.callers t).fwd = true)
  ans : ∀ t a, (s.callers t).ans = some a → t < s.next ∧ Just loc s t a
  did : ∀ x ∈ s.did, 0 < x.2.1 ∧ x.2.1 ≤ (s.nodes x.1).applied ∧
    ∃ e : Entry, (s.nodes x.1).log[x.2.1 - 1]? = some e ∧ e.what = .req x.2.2
  did1 : s.did.Pairwise fun a b => a.1 = b.1 → a.2.1 ≠ b.2.1
  idx0 : ∀ n t, 0 < (s.nodes n).idx t → ∃ p ∈ s.logged, p.what = .req t

theorem inv_init : Inv (fun _ => .gone) none init := by
  constructor <;> simp [init]

theorem mem_mset (u t : Req) (w : List Req) : u ∈ mset t w ↔ u = t ∨ u ∈ w := by
  unfold mset; split <;> grind

theorem mem_mdel (u t : Req) (w : List Req) : u ∈ mdel t w ↔ u ≠ t ∧ u ∈ w := by
  unfold mdel; grind

theorem mem_all (nd : Node) (w : List Req) (t : Req) : t ∈ all nd w ↔ t ∈ w ∧ 0 < nd.idx t := by
  simp [all, List.mem_mergeSort]

/-- Facts about answers survive as long as what is applied stays where it is. -/
theorem Backed.mono {s s' : S} {t i} (h : Backed s t i)
    (hl : ∀ n (j : Nat) (e : Entry), j < (s.nodes n).applied → (s.nodes n).log[j]? = some e →
      ∃ e' : Entry, (s'.nodes n).log[j]? = some e' ∧ e'.what = e.what)
    (ha : ∀ n, (s.nodes n).applied ≤ (s'.nodes n).applied) : Backed s' t i := by
  obtain ⟨n, e, h1, h2, h3, h4⟩ := h
  obtain ⟨e', h5, h6⟩ := hl n (i - 1) e (by omega) h1
  exact ⟨n, e', h5, h6.trans h2, h3, Nat.le_trans h4 (ha n)⟩

/-- Parts of the state the invariant does not speak about. -/
theorem Inv.frame {loc ex s} (h : Inv loc ex s) (s' : S) (hc : s'.callers = s.callers) (hn : s'.next = s.next)
    (hm : s'.net = s.net) (hl : s'.logged = s.logged) (hd : s'.did = s.did)
    (hf : ∀ n, (s'.nodes n).leading = (s.nodes n).leading ∧ (s'.nodes n).waf = (s.nodes n).waf ∧
      (s'.nodes n).wal = (s.nodes n).wal ∧ (s'.nodes n).batch = (s.nodes n).batch ∧
      (s'.nodes n).idx = (s.nodes n).idx ∧ (s'.nodes n).log = (s.nodes n).log ∧
      (s'.nodes n).applied = (s.nodes n).applied ∧ (s'.nodes n).base = (s.nodes n).base) : Inv loc ex s' := by
  have hself : ∀ n t, self s' n t = self s n t := fun n t => by unfold self; rw [hc]
  have hJ : ∀ t a, Just loc s t a → Just loc s' t a := by
    intro t a h
    cases a with
    | ok i => exact h.mono (fun n j e _ h => ⟨e, by rw [(hf n).2.2.2.2.2.1]; exact h, rfl⟩) (fun n => by rw [(hf n).2.2.2.2.2.2.1]; exact Nat.le_refl _)
    | err w => exact h
  constructor
  · rw [hm, hn, hc]; exact h.net
  · rw [hm]; exact h.net1
  · intro n t; rw [(hf n).2.2.2.1, hn, hc, (hf n).1, hself]; exact h.batch n t
  · intro n; rw [(hf n).2.2.2.1]; exact h.batch1 n
  · rw [hl, hn]; exact h.log
  · rw [hl]; exact h.log1
  · intro n; rw [(hf n).2.2.2.2.2.1, hl]; exact h.ent n
  · intro n i e t; rw [(hf n).2.2.2.2.2.1, hself, hc]; exact h.own n i e t
  · intro n; rw [(hf n).2.2.2.2.2.1, (hf n).2.2.2.2.2.2.1]; exact h.app n
  · intro n; rw [(hf n).2.2.2.2.2.2.2, (hf n).2.2.2.2.2.2.1]; exact h.base n
  · intro n t; rw [(hf n).2.1, hc, hn, (hf n).2.2.2.2.1]; exact h.waf n t
  · intro n t; rw [(hf n).2.2.1, (hf n).1, hc, hn, hself]; exact h.wal n t
  · intro n t; rw [(hf n).2.2.1, (hf n).2.2.2.2.1]; exact h.wal0 n t
  · intro n t
    rw [(hf n).2.2.1, (hf n).2.2.2.2.1, (hf n).2.2.2.2.2.1, (hf n).2.2.2.2.2.2.1, hc, hself]
    exact h.walI n t
  · rw [hc]; exact h.fin
  · intro t a; rw [hm, hn, hc]; intro hmem; have := h.ansm t a hmem; exact ⟨this.1, hJ _ _ this.2.1, this.2.2⟩
  · intro t a; rw [hn, hc]; intro hmem; have := h.ans t a hmem; exact ⟨this.1, hJ _ _ this.2⟩
  · intro x; rw [hd, (hf x.1).2.2.2.2.2.1, (hf x.1).2.2.2.2.2.2.1]; exact h.did x
  · rw [hd]; exact h.did1
  · intro n t; rw [(hf n).2.2.2.2.1, hl]; exact h.idx0 n t

/-- Messages other than forwards may be sent if they are justified. -/
theorem Inv.send {loc ex s} (h : Inv loc ex s) (m : Msg) (hr : ∀ d t, m ≠ .redirect d t)
    (ha : ∀ t a, m = .answer t a → t < s.next ∧ Just loc s t a ∧ (∀ w, a = .err w → (s.callers t).fwd = true)) :
    Inv loc ex (s.send m) := by
  have hJ : ∀ t a, Just loc (s.send m) t a = Just loc s t a := fun t a => by cases a <;> rfl
  refine ⟨?_, ?_, h.batch, h.batch1, h.log, h.log1, h.ent, h.own, h.app, h.base, h.waf, h.wal, h.wal0, h.walI, h.fin,
    ?_, ?_, h.did, h.did1, h.idx0⟩
  · intro d t hm
    simp only [S.send, List.mem_append, List.mem_singleton] at hm
    rcases hm with hm | hm
    · exact h.net d t hm
    · exact absurd hm.symm (hr d t)
  · simp only [S.send, List.pairwise_append]
    refine ⟨h.net1, List.pairwise_singleton _ _, ?_⟩
    intro a _ b hb
    rw [List.mem_singleton] at hb; subst hb
    intro t d d' _; exact hr d' t
  · intro t a hm
    rw [hJ]
    simp only [S.send, List.mem_append, List.mem_singleton] at hm
    rcases hm with hm | hm
    · exact h.ansm t a hm
    · exact ha t a hm.symm
  · intro t a hm; rw [hJ]; exact h.ans t a hm

/-- Messages may be lost. -/
theorem Inv.sub {loc ex s} (h : Inv loc ex s) (l : List Msg) (hl : l.Sublist s.net) :
    Inv loc ex { s with net := l } := by
  have hJ : ∀ t a, Just loc { s with net := l } t a = Just loc s t a := fun t a => by cases a <;> rfl
  refine ⟨fun d t hm => h.net d t (hl.mem hm), h.net1.sublist hl, h.batch, h.batch1, h.log, h.log1, h.ent, h.own, h.app,
    h.base, h.waf, h.wal, h.wal0, h.walI, h.fin, fun t a hm => ?_, fun t a hm => ?_, h.did, h.did1, h.idx0⟩
  · rw [hJ]; exact h.ansm t a (hl.mem hm)
  · rw [hJ]; exact h.ans t a hm

/-- Nodes may forget waiting tickets and batches. -/
theorem Inv.forget {loc ex s} (h : Inv loc ex s) (n : Nid) (f : Node → Node)
    (hf : ∀ nd : Node, (f nd).leading = nd.leading ∧ (f nd).waf.Sublist nd.waf ∧ (f nd).wal.Sublist nd.wal ∧
      (f nd).batch.Sublist nd.batch ∧ (f nd).idx = nd.idx ∧ (f nd).log = nd.log ∧ (f nd).applied = nd.applied ∧
      (f nd).base = nd.base) : Inv loc ex (s.setNode n f) := by
  have hn : ∀ m, ((s.setNode n f).nodes m).leading = (s.nodes m).leading ∧
      ((s.setNode n f).nodes m).waf.Sublist (s.nodes m).waf ∧ ((s.setNode n f).nodes m).wal.Sublist (s.nodes m).wal ∧
      ((s.setNode n f).nodes m).batch.Sublist (s.nodes m).batch ∧ ((s.setNode n f).nodes m).idx = (s.nodes m).idx ∧
      ((s.setNode n f).nodes m).log = (s.nodes m).log ∧ ((s.setNode n f).nodes m).applied = (s.nodes m).applied ∧
      ((s.setNode n f).nodes m).base = (s.nodes m).base := by
    intro m
    simp only [S.setNode]
    by_cases hm : m = n
    · subst hm; simp only [if_pos]; exact hf _
    · rw [if_neg hm]; exact ⟨rfl, .refl _, .refl _, .refl _, rfl, rfl, rfl, rfl⟩
  generalize hs' : s.setNode n f = s' at hn
  have hc : s'.callers = s.callers := by rw [← hs']; rfl
  have hx : s'.next = s.next := by rw [← hs']; rfl
  have hm : s'.net = s.net := by rw [← hs']; rfl
  have hl : s'.logged = s.logged := by rw [← hs']; rfl
  have hd : s'.did = s.did := by rw [← hs']; rfl
  have hself : ∀ n t, self s' n t = self s n t := fun n t => by unfold self; rw [hc]
  have hJ : ∀ t a, Just loc s t a → Just loc s' t a := by
    intro t a h
    cases a with
    | ok i => exact h.mono (fun n j e _ h => ⟨e, by rw [(hn n).2.2.2.2.2.1]; exact h, rfl⟩) (fun n => by rw [(hn n).2.2.2.2.2.2.1]; exact Nat.le_refl _)
    | err w => exact h
  constructor
  · rw [hm, hx, hc]; exact h.net
  · rw [hm]; exact h.net1
  · intro n t ht; rw [hx, hc, (hn n).1, hself]; exact h.batch n t ((hn n).2.2.2.1.mem ht)
  · intro n; exact (h.batch1 n).sublist (hn n).2.2.2.1
  · rw [hl, hx]; exact h.log
  · rw [hl]; exact h.log1
  · intro n; rw [(hn n).2.2.2.2.2.1, hl]; exact h.ent n
  · intro n i e t; rw [(hn n).2.2.2.2.2.1, hself, hc]; exact h.own n i e t
  · intro n; rw [(hn n).2.2.2.2.2.1, (hn n).2.2.2.2.2.2.1]; exact h.app n
  · intro n; rw [(hn n).2.2.2.2.2.2.2, (hn n).2.2.2.2.2.2.1]; exact h.base n
  · intro n t ht; rw [hc, hx, (hn n).2.2.2.2.1]; exact h.waf n t ((hn n).2.1.mem ht)
  · intro n t ht; rw [(hn n).1, hc, hx, hself]; exact h.wal n t ((hn n).2.2.1.mem ht)
  · intro n t ht; rw [(hn n).2.2.2.2.1]; exact h.wal0 n t ((hn n).2.2.1.mem ht)
  · intro n t ht
    rw [(hn n).2.2.2.2.1, (hn n).2.2.2.2.2.1, (hn n).2.2.2.2.2.2.1, hc, hself]
    exact h.walI n t ((hn n).2.2.1.mem ht)
  · rw [hc]; exact h.fin
  · intro t a; rw [hm, hx, hc]; intro hmem; have := h.ansm t a hmem; exact ⟨this.1, hJ _ _ this.2.1, this.2.2⟩
  · intro t a; rw [hx, hc]; intro hmem; have := h.ans t a hmem; exact ⟨this.1, hJ _ _ this.2⟩
  · intro x; rw [hd, (hn x.1).2.2.2.2.2.1, (hn x.1).2.2.2.2.2.2.1]; exact h.did x
  · rw [hd]; exact h.did1
  · intro n t; rw [(hn n).2.2.2.2.1, hl]; exact h.idx0 n t

theorem mdel_sublist (t : Req) (w : List Req) : (mdel t w).Sublist w := List.filter_sublist

theorem Inv.delWaiting {loc ex s} (h : Inv loc ex s) (n : Nid) (b : Bool) (t : Req) :
    Inv loc ex (delWaiting s n b t) := by
  unfold Ticket.delWaiting
  apply h.forget
  intro nd
  cases b <;> exact ⟨rfl, by first | exact .refl _ | exact mdel_sublist _ _, by first | exact .refl _ | exact mdel_sublist _ _, .refl _, rfl, rfl, rfl, rfl⟩

/-- Changes of a call's record that keep where it was made. -/
theorem Inv.caller {loc ex s} (h : Inv loc ex s) (t : Req) (f : Caller → Caller)
    (hk : ∀ c : Caller, (f c).home = c.home ∧ (f c).fwd = c.fwd ∧ (f c).alive = c.alive)
    (hfi : (s.callers t).finished = true → (f (s.callers t)).finished = true)
    (hw : ∀ n, t ∈ (s.nodes n).waf → (f (s.callers t)).finished = (s.callers t).finished)
    (hfin : (f (s.callers t)).finished = true → (f (s.callers t)).ans ≠ none)
    (ha : ∀ a, (f (s.callers t)).ans = some a → t < s.next ∧ Just loc s t a) : Inv loc ex (s.setCaller t f) := by
  have hc : ∀ u, ((s.setCaller t f).callers u).home = (s.callers u).home ∧
      ((s.setCaller t f).callers u).fwd = (s.callers u).fwd ∧ ((s.setCaller t f).callers u).alive = (s.callers u).alive := by
    intro u
    simp only [S.setCaller]
    by_cases hu : u = t
    · subst hu; simp only [if_pos]; exact hk _
    · simp only [if_neg hu]; exact ⟨trivial, trivial, trivial⟩
  have hself : ∀ n u, self (s.setCaller t f) n u = self s n u := fun n u => by
    unfold self; rw [(hc u).1, (hc u).2.2]
  have hJ : ∀ u a, Just loc (s.setCaller t f) u a = Just loc s u a := fun t a => by cases a <;> rfl
  have hce : ∀ u, u ≠ t → (s.setCaller t f).callers u = s.callers u := fun u hu => if_neg hu
  have hct : (s.setCaller t f).callers t = f (s.callers t) := if_pos rfl
  constructor
  · intro d u hm; rw [(hc u).1, (hc u).2.1]; exact h.net d u hm
  · exact h.net1
  · intro n u hm; rw [(hc u).1, (hc u).2.1, hself]; exact h.batch n u hm
  · exact h.batch1
  · exact h.log
  · exact h.log1
  · exact h.ent
  · intro n i e u; rw [hself, (hc u).2.1]; exact h.own n i e u
  · exact h.app
  · exact h.base
  · intro n u hm
    rw [(hc u).1, (hc u).2.1, (hc u).2.2]
    obtain ⟨w1, w2, w3, w4, w5, w6⟩ := h.waf n u hm
    refine ⟨w1, w2, w3, w4, w5, ?_⟩
    by_cases hu : u = t
    · subst hu; rw [hct, hw n hm]; exact w6
    · rw [hce u hu]; exact w6
  · intro n u hm; rw [(hc u).1, (hc u).2.1, hself]; exact h.wal n u hm
  · exact h.wal0
  · intro n u hm hi
    rw [hself]
    refine ⟨(h.walI n u hm hi).1, ?_⟩
    rcases (h.walI n u hm hi).2 with h1 | h1 | h1
    · exact Or.inl h1
    · refine Or.inr (Or.inl ⟨h1.1, ?_⟩)
      by_cases hu : u = t
      · subst hu; rw [hct]; exact hfi h1.2
      · rw [hce u hu]; exact h1.2
    · exact Or.inr (Or.inr h1)
  · intro u hu
    by_cases he : u = t
    · subst he; rw [hct] at hu ⊢; exact hfin hu
    · rw [hce u he] at hu ⊢; exact h.fin u hu
  · intro u a hm; rw [hJ, (hc u).2.1]; exact h.ansm u a hm
  · intro u a hu
    rw [hJ]
    by_cases he : u = t
    · subst he; rw [hct] at hu; exact ha a hu
    · rw [hce u he] at hu; exact h.ans u a hu
  · exact h.did
  · exact h.did1
  · exact h.idx0

theorem Inv.close {loc ex s} (h : Inv loc ex s) (t : Req) (a : Ans) (ht : t < s.next) (hj : Just loc s t a) :
    Inv loc ex (close s t a) := by
  unfold Ticket.close
  apply h.caller
  · intro c; exact ⟨rfl, rfl, rfl⟩
  · exact id
  · intro _ _; rfl
  · intro _; cases (s.callers t).ans <;> simp
  · intro b
    intro h1
    cases hb : (s.callers t).ans with
    | none => simp only [hb, Option.none_or, Option.some.injEq] at h1; subst h1; exact ⟨ht, hj⟩
    | some c => simp only [hb, Option.some_or, Option.some.injEq] at h1; subst h1; exact h.ans t c hb

/-- FinishTicket of the caller's object: two changes of the record at once. -/
theorem finishOwn_eq (s : S) (n b t a) (hf : (s.callers t).finished = false) :
    finishOwn s n b t a = delWaiting (s.setCaller t fun c =>
      { c with finished := true, ans := c.ans.or (some a) }) n b t := by
  unfold finishOwn
  rw [if_neg (by rw [hf]; simp)]
  simp only [close, delWaiting, S.setNode, S.setCaller]
  congr 1
  funext u
  by_cases hu : u = t
  · subst hu; simp
  · simp [hu]

theorem just_delWaiting (loc s n b t u a) : Just loc s u a → Just loc (Ticket.delWaiting s n b t) u a := by
  cases a with
  | err w => exact id
  | ok i =>
    intro h
    have : ∀ m, (((Ticket.delWaiting s n b t).nodes m).log = (s.nodes m).log) ∧
        (((Ticket.delWaiting s n b t).nodes m).applied = (s.nodes m).applied) := by
      intro m
      simp only [Ticket.delWaiting, S.setNode]
      by_cases hm : m = n
      · subst hm; cases b <;> simp
      · simp [hm]
    exact h.mono (fun n j e _ he => ⟨e, by rw [(this n).1]; exact he, rfl⟩) (fun n => by rw [(this n).2]; exact Nat.le_refl _)

theorem delWaiting_caller (s : S) (n b t) (u : Req) (f : Caller → Caller) :
    Ticket.delWaiting (s.setCaller u f) n b t = (Ticket.delWaiting s n b t).setCaller u f := rfl

theorem delWaiting_mem {s : S} {n b t m} (h : t ∈ ((Ticket.delWaiting s n b t).nodes m).waf) :
    t ∈ (s.nodes m).waf ∧ (m = n → b = true) := by
  simp only [Ticket.delWaiting, S.setNode] at h
  by_cases hm : m = n
  · subst hm
    rw [if_pos rfl] at h
    cases b
    · simp [mem_mdel] at h
    · exact ⟨h, fun _ => rfl⟩
  · rw [if_neg hm] at h; exact ⟨h, fun e => absurd e hm⟩

theorem Inv.finishOwn {loc ex s} (h : Inv loc ex s) (n b t a) (ht : t < s.next) (hj : Just loc s t a)
    (hw : ∀ m, t ∈ (s.nodes m).waf → m = n ∧ b = false) :
    Inv loc ex (finishOwn s n b t a) := by
  by_cases hf : (s.callers t).finished = true
  · unfold Ticket.finishOwn; rw [if_pos hf]; exact h
  · rw [finishOwn_eq _ _ _ _ _ (by simpa using hf), delWaiting_caller]
    have hj' := just_delWaiting loc s n b t t a hj
    have h' := h.delWaiting n b t
    have hc : (Ticket.delWaiting s n b t).callers = s.callers := rfl
    apply h'.caller
    · intro c; exact ⟨rfl, rfl, rfl⟩
    · intro _; rfl
    · intro m hm
      obtain ⟨h1, h2⟩ := delWaiting_mem hm
      obtain ⟨h3, h4⟩ := hw m h1
      rw [h2 h3] at h4; exact nomatch h4
    · intro _; cases ((Ticket.delWaiting s n b t).callers t).ans <;> simp
    · intro b
      intro h1
      cases hb : (s.callers t).ans with
      | none => rw [hc] at h1; simp only [hb, Option.none_or, Option.some.injEq] at h1; subst h1; exact ⟨ht, hj'⟩
      | some c => rw [hc] at h1; simp only [hb, Option.some_or, Option.some.injEq] at h1; subst h1; exact h'.ans t c hb

theorem Inv.finishCopy {loc ex s} (h : Inv loc ex s) (n b t a) (ht : t < s.next) (hj : Just loc s t a) :
    Inv loc ex (finishCopy s n b t a) := by
  unfold Ticket.finishCopy
  split
  · exact (h.delWaiting n b t).close t a ht (just_delWaiting _ _ _ _ _ _ _ hj)
  · exact h.delWaiting n b t

end Verif.Ticket
