import Verif.Proofs.TicketRun

/-! The order in which a leader logs. -/
namespace Verif.Ticket

/-- The parts of the state that matter here are the same. -/
structure Same (s s' : S) : Prop where
  next : s'.next = s.next
  accepted : s'.accepted = s.accepted
  log : s'.logged = s.logged
  node : ∀ n, (s'.nodes n).leading = (s.nodes n).leading ∧ (s'.nodes n).term = (s.nodes n).term ∧
    (s'.nodes n).batch = (s.nodes n).batch ∧ ((s.nodes n).leading = true → (s'.nodes n).log = (s.nodes n).log)

theorem Same.refl (s : S) : Same s s := ⟨rfl, rfl, rfl, fun _ => ⟨rfl, rfl, rfl, fun _ => rfl⟩⟩

theorem Same.trans {s s1 s2 : S} (h : Same s s1) (h' : Same s1 s2) : Same s s2 :=
  ⟨h'.next.trans h.next, h'.accepted.trans h.accepted, h'.log.trans h.log, fun n =>
    ⟨(h'.node n).1.trans (h.node n).1, (h'.node n).2.1.trans (h.node n).2.1, (h'.node n).2.2.1.trans (h.node n).2.2.1,
      fun hl => ((h'.node n).2.2.2 (by rw [(h.node n).1]; exact hl)).trans ((h.node n).2.2.2 hl)⟩⟩

theorem same_setNode (s : S) (n : Nid) (f : Node → Node)
    (hf : ∀ nd : Node, nd = s.nodes n → (f nd).leading = nd.leading ∧ (f nd).term = nd.term ∧ (f nd).batch = nd.batch ∧
      (nd.leading = true → (f nd).log = nd.log)) :
    Same s (s.setNode n f) := by
  refine ⟨rfl, rfl, rfl, fun m => ?_⟩
  dsimp only [S.setNode]
  by_cases hm : m = n
  · rw [if_pos hm, hm]; exact hf _ rfl
  · rw [if_neg hm]; exact ⟨rfl, rfl, rfl, fun _ => rfl⟩

theorem same_setCaller (s : S) (t : Req) (f : Caller → Caller) : Same s (s.setCaller t f) :=
  ⟨rfl, rfl, rfl, fun _ => ⟨rfl, rfl, rfl, fun _ => rfl⟩⟩

theorem same_send (s : S) (m : Msg) : Same s (s.send m) := ⟨rfl, rfl, rfl, fun _ => ⟨rfl, rfl, rfl, fun _ => rfl⟩⟩

theorem same_delWaiting (s : S) (n b t) : Same s (delWaiting s n b t) :=
  same_setNode s n _ fun nd _ => by cases b <;> exact ⟨rfl, rfl, rfl, fun _ => rfl⟩

theorem same_finishOwn (s : S) (n b t a) : Same s (finishOwn s n b t a) := by
  unfold finishOwn
  split
  · exact Same.refl s
  · exact ((same_setCaller s t _).trans (same_delWaiting _ n b t)).trans (same_setCaller _ t _)

theorem same_finishCopy (s : S) (n b t a) : Same s (finishCopy s n b t a) := by
  unfold finishCopy
  split
  · exact (same_delWaiting _ n b t).trans (same_setCaller _ t _)
  · exact same_delWaiting _ n b t

theorem same_respond (s : S) (n own t a) : Same s (respond s n own t a) := by
  have h : Same s (if own then finishOwn s n (s.nodes n).leading t a else finishCopy s n (s.nodes n).leading t a) := by
    split
    · exact same_finishOwn _ _ _ _ _
    · exact same_finishCopy _ _ _ _ _
  unfold respond
  dsimp only
  split
  · exact h
  · exact h.trans (same_send _ _)

theorem same_foldl {α} (f : S → α → S) (hf : ∀ s a, Same s (f s a)) (l : List α) (s : S) : Same s (l.foldl f s) := by
  induction l generalizing s with
  | nil => exact Same.refl s
  | cons a l ih => exact (hf s a).trans (ih _)

theorem same_lostOne (n : Nid) (s : S) (t : Req) : Same s (lostOne n s t) := by
  unfold lostOne
  dsimp only
  have h : Same s (if (s.nodes n).idx t ≤ (s.nodes n).base then respond s n (self s n t) t (.err .truncated) else s) := by
    split
    · exact same_respond _ _ _ _ _
    · exact Same.refl s
  split
  · exact Same.refl s
  · split
    · exact h
    · split
      · exact h
      · exact h.trans (same_respond _ _ _ _ _)

theorem same_advance (s : S) (n d) : Same s (advance s n d) :=
  ⟨rfl, rfl, rfl, (same_setNode s n (fun nd => { nd with applied := nd.applied + 1 }) fun _ _ => ⟨rfl, rfl, rfl, fun _ => rfl⟩).node⟩

theorem same_applyEntry (s : S) (n e) : Same s (applyEntry s n e) := by
  unfold applyEntry
  dsimp only
  split
  · split
    · exact (same_advance s n []).trans (same_setNode _ n _ fun _ _ => ⟨rfl, rfl, rfl, fun _ => rfl⟩)
    · exact same_advance s n []
  · rename_i t _
    refine Same.trans (s1 := advance s n [(n, (s.nodes n).applied + 1, t)]) (same_advance s n _) ?_
    split
    · split
      · exact same_finishOwn _ _ _ _ _
      · exact same_finishCopy _ _ _ _ _
    · split
      · exact same_respond _ _ _ _ _
      · exact Same.refl _

theorem same_applyN (n : Nid) (c : Nat) (s : S) : Same s (applyN s n c) := by
  induction c generalizing s with
  | zero => exact Same.refl s
  | succ c ih =>
    refine Same.trans ?_ (ih _)
    unfold applyOne
    split
    · exact Same.refl s
    · exact same_applyEntry _ _ _

theorem same_commit (s : S) (n c) : Same s (commit s n c) := by
  unfold commit
  dsimp only
  simp only [resubmit_eq, ite_self]
  split
  · exact (same_applyN n c s).trans (same_foldl _ (same_lostOne n) _ _)
  · exact same_applyN n c s

/-- `bt n` is what node n has accepted and not logged. -/
structure Ord (bt : Nid → List Req) (s : S) : Prop where
  pre : ∀ n T, lg s n T <+: acc s n T
  cur : ∀ n, (s.nodes n).leading = true → acc s n (s.nodes n).term = lg s n (s.nodes n).term ++ bt n
  idle : ∀ n, (s.nodes n).leading = false → bt n = []
  acct : ∀ x ∈ s.accepted, x.2.1 ≤ (s.nodes x.1).term
  logt : ∀ p ∈ s.logged, p.term ≤ (s.nodes p.node).term
  len : ∀ p ∈ s.logged, (s.nodes p.node).leading = true → p.term = (s.nodes p.node).term →
    p.idx ≤ (s.nodes p.node).log.length
  inc : s.logged.Pairwise fun a b => a.node = b.node → a.term = b.term → a.idx < b.idx
  here : ∀ p ∈ s.logged, (s.nodes p.node).leading = true → p.term = (s.nodes p.node).term → 0 < p.idx ∧
    ∃ e : Entry, (s.nodes p.node).log[p.idx - 1]? = some e ∧ e.term = p.term ∧ e.what = p.what

def batches (s : S) : Nid → List Req := fun n => (s.nodes n).batch

theorem ord_init : Ord (batches init) init := by
  constructor <;> simp [init, lg, acc, batches]

theorem Same.ord {s s' : S} (h : Same s s') (ho : Ord (batches s) s) : Ord (batches s') s' := by
  have ha : ∀ n T, acc s' n T = acc s n T := fun n T => by unfold acc; rw [h.accepted]
  have hl : ∀ n T, lg s' n T = lg s n T := fun n T => by unfold lg; rw [h.log]
  constructor
  · intro n T; rw [ha, hl]; exact ho.pre n T
  · intro n hn; rw [(h.node n).1] at hn; rw [ha, hl, (h.node n).2.1, batches, (h.node n).2.2.1]; exact ho.cur n hn
  · intro n hn; rw [(h.node n).1] at hn; rw [batches, (h.node n).2.2.1]; exact ho.idle n hn
  · intro x hx; rw [h.accepted] at hx; rw [(h.node x.1).2.1]; exact ho.acct x hx
  · intro p hp; rw [h.log] at hp; rw [(h.node p.node).2.1]; exact ho.logt p hp
  · intro p hp hl
    rw [h.log] at hp
    rw [(h.node p.node).1] at hl
    rw [(h.node p.node).2.1, (h.node p.node).2.2.2 hl]; exact ho.len p hp hl
  · rw [h.log]; exact ho.inc
  · intro p hp hl
    rw [h.log] at hp
    rw [(h.node p.node).1] at hl
    rw [(h.node p.node).2.1, (h.node p.node).2.2.2 hl]; exact ho.here p hp hl

/-- A leader's new record. -/
theorem Ord.record {bt : Nid → List Req} {s s' : S} (ho : Ord bt s) {n : Nid} {w : What}
    (hl : (s.nodes n).leading = true)
    (h : s'.logged = s.logged ++ [⟨(s.nodes n).log.length + 1, (s.nodes n).term, w, n⟩])
    (hn : ∀ m, (s'.nodes m).leading = (s.nodes m).leading ∧ (s'.nodes m).term = (s.nodes m).term ∧
      ∃ own, (s'.nodes m).log = (s.nodes m).log ++ if m = n then [⟨(s.nodes n).term, w, own⟩] else []) :
    (∀ p ∈ s'.logged, (s'.nodes p.node).leading = true → p.term = (s'.nodes p.node).term →
      p.idx ≤ (s'.nodes p.node).log.length) ∧
    (s'.logged.Pairwise fun a b => a.node = b.node → a.term = b.term → a.idx < b.idx) ∧
    ∀ p ∈ s'.logged, (s'.nodes p.node).leading = true → p.term = (s'.nodes p.node).term → 0 < p.idx ∧
      ∃ e : Entry, (s'.nodes p.node).log[p.idx - 1]? = some e ∧ e.term = p.term ∧ e.what = p.what := by
  rw [h]
  refine ⟨?_, ?_, ?_⟩
  · intro p hp hlp ht
    rw [(hn p.node).1] at hlp
    rw [(hn p.node).2.1] at ht
    obtain ⟨own, hlog⟩ := (hn p.node).2.2
    rw [hlog, List.length_append]
    rcases List.mem_append.1 hp with hp | hp
    · exact Nat.le_trans (ho.len p hp hlp ht) (Nat.le_add_right _ _)
    · rw [List.mem_singleton] at hp; subst hp; simp
  · rw [List.pairwise_append]
    refine ⟨ho.inc, List.pairwise_singleton _ _, ?_⟩
    intro a ha b hb
    rw [List.mem_singleton] at hb; subst hb
    intro h1 h2
    dsimp only at h1 h2
    have := ho.len a ha (by rw [h1]; exact hl) (by rw [h1]; exact h2)
    rw [h1] at this
    exact Nat.lt_succ_of_le this
  · intro p hp hlp ht
    rw [(hn p.node).1] at hlp
    rw [(hn p.node).2.1] at ht
    obtain ⟨own, hlog⟩ := (hn p.node).2.2
    rw [hlog]
    rcases List.mem_append.1 hp with hp | hp
    · obtain ⟨h0, e, he, hr⟩ := ho.here p hp hlp ht
      exact ⟨h0, e, by rw [List.getElem?_append_left (List.getElem?_eq_some_iff.1 he).1]; exact he, hr⟩
    · rw [List.mem_singleton] at hp; subst hp
      exact ⟨Nat.succ_pos _, ⟨(s.nodes n).term, w, own⟩, by simp, rfl, rfl⟩

theorem acc_append (s : S) (l : List (Nid × Nat × Req)) (n T) :
    acc { s with accepted := s.accepted ++ l } n T = acc s n T ++ (l.filter fun x => x.1 == n && x.2.1 == T).map fun x => x.2.2 := by
  simp [acc]

theorem replicate_ord {s : S} {n : Nid} {t : Req} (ho : Ord (batches s) s) (hl : (s.nodes n).leading = true) :
    Ord (batches (replicate s n t)) (replicate s n t) := by
  unfold replicate
  generalize hF : (fun nd : Node => if nd.stamp t = 0 then
      { nd with
        stamp := fun u => if u = t then nd.nstamp + 1 else nd.stamp u
        nstamp := nd.nstamp + 1 }
    else nd) = F
  dsimp only
  have h1 : Same s (s.setNode n F) := same_setNode s n F (by
    intro nd _; rw [← hF]; dsimp only; split <;> exact ⟨rfl, rfl, rfl, fun _ => rfl⟩)
  have ho1 := h1.ord ho
  have hl1 : ((s.setNode n F).nodes n).leading = true := by rw [(h1.node n).1]; exact hl
  generalize s.setNode n F = s1 at *
  split
  · generalize hs2 : ({ s1.setNode n (fun nd => { nd with batch := nd.batch ++ [t] }) with
      accepted := s1.accepted ++ [(n, (s1.nodes n).term, t)] } : S) = s2
    have e1 : s2.accepted = s1.accepted ++ [(n, (s1.nodes n).term, t)] := by rw [← hs2]
    have e2 : s2.logged = s1.logged := by rw [← hs2]; rfl
    have e3 : ∀ m, (s2.nodes m).leading = (s1.nodes m).leading ∧ (s2.nodes m).term = (s1.nodes m).term ∧
        (s2.nodes m).batch = (if m = n then (s1.nodes m).batch ++ [t] else (s1.nodes m).batch) ∧
        (s2.nodes m).log = (s1.nodes m).log := by
      intro m
      rw [← hs2]
      dsimp only [S.setNode]
      by_cases hm : m = n
      · subst hm; simp
      · simp [hm]
    have hlg : ∀ m T, lg s2 m T = lg s1 m T := fun m T => by unfold lg; rw [e2]
    have hacc : ∀ m T, acc s2 m T = acc s1 m T ++ if m = n ∧ T = (s1.nodes n).term then [t] else [] := by
      intro m T
      unfold acc
      rw [e1, List.filter_append, List.map_append]
      congr 1
      by_cases hm : n = m ∧ (s1.nodes n).term = T
      · rw [if_pos ⟨hm.1.symm, hm.2.symm⟩]; simp [hm.1, ← hm.2]
      · rw [if_neg (fun hh => hm ⟨hh.1.symm, hh.2.symm⟩)]
        have : (n == m && (s1.nodes n).term == T) = false := by
          rw [Bool.eq_false_iff]
          intro hh
          rw [Bool.and_eq_true] at hh
          exact hm ⟨beq_iff_eq.1 hh.1, beq_iff_eq.1 hh.2⟩
        simp [this]
    constructor
    · intro m T; rw [hlg, hacc]; exact (ho1.pre m T).trans (List.prefix_append _ _)
    · intro m hm
      rw [(e3 m).1] at hm
      rw [(e3 m).2.1, hlg, hacc, batches, (e3 m).2.2.1, ho1.cur m hm]
      by_cases hmn : m = n
      · subst hmn; simp [batches]
      · simp [hmn, batches]
    · intro m hm
      rw [(e3 m).1] at hm
      have hmn : m ≠ n := fun e => by rw [e, hl1] at hm; exact nomatch hm
      rw [batches, (e3 m).2.2.1, if_neg hmn]; exact ho1.idle m hm
    · intro x hx
      rw [e1, List.mem_append, List.mem_singleton] at hx
      rw [(e3 x.1).2.1]
      rcases hx with hx | hx
      · exact ho1.acct x hx
      · subst hx; exact Nat.le_refl _
    · intro p hp; rw [e2] at hp; rw [(e3 p.node).2.1]; exact ho1.logt p hp
    · intro p hp; rw [e2] at hp; rw [(e3 p.node).1, (e3 p.node).2.1, (e3 p.node).2.2.2]; exact ho1.len p hp
    · rw [e2]; exact ho1.inc
    · intro p hp; rw [e2] at hp; rw [(e3 p.node).1, (e3 p.node).2.1, (e3 p.node).2.2.2]; exact ho1.here p hp
  · exact Same.ord (same_setNode s1 n _ (fun _ _ => by exact ⟨rfl, rfl, rfl, fun _ => rfl⟩)) ho1

/-- A new record in the log. -/
theorem lg_record {s s' : S} {p : Logged} (h : s'.logged = s.logged ++ [p]) (n : Nid) (T : Nat) :
    lg s' n T = lg s n T ++ if p.node = n ∧ p.term = T then (reqOf p.what).toList else [] := by
  unfold lg
  rw [h, List.filter_append, List.filterMap_append]
  congr 1
  by_cases hm : p.node = n ∧ p.term = T
  · rw [if_pos hm]
    simp only [hm.1, hm.2, List.filter_cons, beq_self_eq_true, Bool.and_self, if_true, List.filter_nil]
    rw [List.filterMap_cons]
    cases reqOf p.what <;> rfl
  · rw [if_neg hm]
    have : (p.node == n && p.term == T) = false := by
      rw [Bool.eq_false_iff]
      intro hh
      rw [Bool.and_eq_true] at hh
      exact hm ⟨beq_iff_eq.1 hh.1, beq_iff_eq.1 hh.2⟩
    simp [this]

def setAt (bt : Nid → List Req) (n : Nid) (b : List Req) : Nid → List Req := fun m => if m = n then b else bt m

theorem flushOne_acc (n single) (s : S) (t) : (flushOne n single s t).accepted = s.accepted := by
  rw [flushOne_eq]; rfl

theorem flushOne_log (n single) (s : S) (t) (m : Nid) : ∃ own, ((flushOne n single s t).nodes m).log =
    (s.nodes m).log ++ if m = n then [⟨(s.nodes n).term, .req t, own⟩] else [] := by
  rw [flushOne_eq]
  refine ⟨self s n t, ?_⟩
  simp only [S.setNode, flushF]
  by_cases hm : m = n
  · subst hm; simp
  · simp [hm]

theorem flushAll_ord (n : Nid) (single : Bool) (b : List Req) (bt : Nid → List Req) (s : S)
    (ho : Ord (setAt bt n b) s) (hl : (s.nodes n).leading = true) :
    Ord (setAt bt n []) (b.foldl (flushOne n single) s) ∧
      ∀ m, ((b.foldl (flushOne n single) s).nodes m).batch = (s.nodes m).batch := by
  induction b generalizing s with
  | nil => exact ⟨ho, fun _ => rfl⟩
  | cons t b ih =>
    rw [List.foldl_cons]
    obtain ⟨_, _, _, e4, e5⟩ := flushOne_fields n single s t
    have e6 := flushOne_acc n single s t
    have hrec := ho.record hl e4 (fun m => ⟨(e5 m).2.1, (e5 m).2.2, flushOne_log n single s t m⟩)
    generalize flushOne n single s t = s1 at *
    have hacc : ∀ m T, acc s1 m T = acc s m T := fun m T => by unfold acc; rw [e6]
    have hlg := lg_record e4
    have h1 : Ord (setAt bt n b) s1 := by
      constructor
      · intro m T
        rw [hacc, hlg]
        split
        · rename_i hm
          dsimp only at hm
          obtain ⟨hm, hT⟩ := hm
          rw [← hm, ← hT, ho.cur n hl, setAt, if_pos rfl]
          exact ⟨b, by simp [reqOf]⟩
        · rw [List.append_nil]; exact ho.pre m T
      · intro m hm
        rw [(e5 m).2.1] at hm
        rw [(e5 m).2.2, hacc, hlg, ho.cur m hm]
        by_cases hmn : m = n
        · subst hmn; simp [setAt, reqOf]
        · have : ¬ (n = m) := fun e => hmn e.symm
          simp [setAt, hmn, this]
      · intro m hm
        rw [(e5 m).2.1] at hm
        have hmn : m ≠ n := fun e => by rw [e, hl] at hm; exact nomatch hm
        have := ho.idle m hm
        simpa [setAt, hmn] using this
      · intro x hx; rw [e6] at hx; rw [(e5 x.1).2.2]; exact ho.acct x hx
      · intro p hp
        rw [e4, List.mem_append, List.mem_singleton] at hp
        rw [(e5 p.node).2.2]
        rcases hp with hp | hp
        · exact ho.logt p hp
        · subst hp; exact Nat.le_refl _
      · exact hrec.1
      · exact hrec.2.1
      · exact hrec.2.2
    obtain ⟨a, c⟩ := ih s1 h1 (by rw [(e5 n).2.1]; exact hl)
    exact ⟨a, fun m => (c m).trans (e5 m).1⟩

theorem flush_ord {s : S} (ho : Ord (batches s) s) (n : Nid) (single : Bool) :
    Ord (batches (flush s n single)) (flush s n single) := by
  unfold flush
  dsimp only
  have h0 : ∀ m, ((s.setNode n fun nd => { nd with batch := [] }).nodes m).leading = (s.nodes m).leading ∧
      ((s.setNode n fun nd => { nd with batch := [] }).nodes m).term = (s.nodes m).term ∧
      ((s.setNode n fun nd => { nd with batch := [] }).nodes m).batch = (if m = n then [] else (s.nodes m).batch) ∧
      ((s.setNode n fun nd => { nd with batch := [] }).nodes m).log = (s.nodes m).log := by
    intro m
    dsimp only [S.setNode]
    by_cases hm : m = n
    · rw [if_pos hm, hm]; exact ⟨rfl, rfl, by rw [if_pos rfl], rfl⟩
    · rw [if_neg hm]; exact ⟨rfl, rfl, by rw [if_neg hm], rfl⟩
  have ho0 : Ord (setAt (batches s) n (s.nodes n).batch) (s.setNode n fun nd => { nd with batch := [] }) := by
    have hb : setAt (batches s) n (s.nodes n).batch = batches s := by
      funext m; unfold setAt batches
      by_cases hm : m = n
      · rw [if_pos hm, hm]
      · rw [if_neg hm]
    rw [hb]
    constructor
    · exact ho.pre
    · intro m hm; rw [(h0 m).1] at hm; rw [(h0 m).2.1]; exact ho.cur m hm
    · intro m hm; rw [(h0 m).1] at hm; exact ho.idle m hm
    · intro x hx; rw [(h0 x.1).2.1]; exact ho.acct x hx
    · intro p hp; rw [(h0 p.node).2.1]; exact ho.logt p hp
    · intro p hp; rw [(h0 p.node).1, (h0 p.node).2.1, (h0 p.node).2.2.2]; exact ho.len p hp
    · exact ho.inc
    · intro p hp; rw [(h0 p.node).1, (h0 p.node).2.1, (h0 p.node).2.2.2]; exact ho.here p hp
  generalize hs0 : (s.setNode n fun nd => { nd with batch := [] }) = s0 at *
  have h1 : Ord (batches ((s.nodes n).batch.foldl (flushOne n single) s0)) ((s.nodes n).batch.foldl (flushOne n single) s0) := by
    cases hl : (s.nodes n).leading with
    | false =>
      have hb : (s.nodes n).batch = [] := ho.idle n hl
      rw [hb] at ho0 ⊢
      rw [List.foldl_nil]
      have : batches s0 = setAt (batches s) n [] := by
        funext m; unfold setAt batches; rw [(h0 m).2.2.1]
      rw [this]; exact ho0
    | true =>
      obtain ⟨a, c⟩ := flushAll_ord n single _ (batches s) s0 ho0 (by rw [(h0 n).1]; exact hl)
      have : batches ((s.nodes n).batch.foldl (flushOne n single) s0) = setAt (batches s) n [] := by
        funext m; unfold setAt batches; rw [c m, (h0 m).2.2.1]
      rw [this]; exact a
  split
  · exact (same_commit _ n _).ord h1
  · exact h1

/-- A change of role or term. -/
theorem role_ord {s s' : S} (ho : Ord (batches s) s) (n : Nid) (ha : s'.accepted = s.accepted) (hl : s'.logged = s.logged)
    (hm : ∀ m, m ≠ n → s'.nodes m = s.nodes m) (ht : (s.nodes n).term ≤ (s'.nodes n).term)
    (hb : (s'.nodes n).batch = [])
    (hlead : (s'.nodes n).leading = true → (s.nodes n).term < (s'.nodes n).term) : Ord (batches s') s' := by
  have hacc : ∀ n T, acc s' n T = acc s n T := fun n T => by unfold acc; rw [ha]
  have hlg : ∀ n T, lg s' n T = lg s n T := fun n T => by unfold lg; rw [hl]
  constructor
  · intro m T; rw [hacc, hlg]; exact ho.pre m T
  · intro m hlm
    rw [hacc, hlg]
    by_cases hmn : m = n
    · subst hmn
      have hlt := hlead hlm
      have h1 : acc s m (s'.nodes m).term = [] := by
        unfold acc
        rw [List.map_eq_nil_iff, List.filter_eq_nil_iff]
        intro x hx hh
        rw [Bool.and_eq_true] at hh
        have := ho.acct x hx
        rw [beq_iff_eq.1 hh.1, beq_iff_eq.1 hh.2] at this
        exact Nat.not_lt.2 this hlt
      have h2 := ho.pre m (s'.nodes m).term
      rw [h1, List.prefix_nil] at h2
      rw [h1, h2, batches, hb]; rfl
    · rw [batches, hm m hmn]
      exact ho.cur m (by rw [hm m hmn] at hlm; exact hlm)
  · intro m hlm
    by_cases hmn : m = n
    · subst hmn; exact hb
    · rw [batches, hm m hmn]
      exact ho.idle m (by rw [hm m hmn] at hlm; exact hlm)
  · intro x hx
    rw [ha] at hx
    by_cases hmn : x.1 = n
    · rw [hmn]; exact Nat.le_trans (by rw [← hmn]; exact ho.acct x hx) ht
    · rw [hm _ hmn]; exact ho.acct x hx
  · intro p hp
    rw [hl] at hp
    by_cases hmn : p.node = n
    · rw [hmn]; exact Nat.le_trans (by rw [← hmn]; exact ho.logt p hp) ht
    · rw [hm _ hmn]; exact ho.logt p hp
  · intro p hp hlp hpt
    rw [hl] at hp
    by_cases hmn : p.node = n
    · exfalso
      rw [hmn] at hlp hpt
      have h1 := ho.logt p hp
      have h2 := hlead hlp
      rw [hmn] at h1
      omega
    · rw [hm _ hmn] at hlp hpt ⊢; exact ho.len p hp hlp hpt
  · rw [hl]; exact ho.inc
  · intro p hp hlp hpt
    rw [hl] at hp
    by_cases hmn : p.node = n
    · exfalso
      rw [hmn] at hlp hpt
      have h1 := ho.logt p hp
      have h2 := hlead hlp
      rw [hmn] at h1
      omega
    · rw [hm _ hmn] at hlp hpt ⊢; exact ho.here p hp hlp hpt

/-- Logging the first entry of a leadership. -/
theorem noop_ord {s : S} (ho : Ord (batches s) s) (n : Nid) (k T : Nat) (own : Bool) (hl : (s.nodes n).leading = true) :
    Ord (batches (append s n (.noop k T) own)) (append s n (.noop k T) own) := by
  have e1 : (append s n (.noop k T) own).logged = s.logged ++ [⟨(s.nodes n).log.length + 1, (s.nodes n).term, .noop k T, n⟩] := rfl
  have e2 : (append s n (.noop k T) own).accepted = s.accepted := rfl
  have e3 : ∀ m, ((append s n (.noop k T) own).nodes m).leading = (s.nodes m).leading ∧
      ((append s n (.noop k T) own).nodes m).term = (s.nodes m).term ∧
      ((append s n (.noop k T) own).nodes m).batch = (s.nodes m).batch ∧
      ((append s n (.noop k T) own).nodes m).log = (s.nodes m).log ++
        if m = n then [⟨(s.nodes n).term, .noop k T, own⟩] else [] := by
    intro m
    dsimp only [append, S.setNode]
    by_cases hm : m = n
    · subst hm; simp
    · simp [hm]
  have hrec := ho.record hl e1 (fun m => ⟨(e3 m).1, (e3 m).2.1, own, (e3 m).2.2.2⟩)
  generalize append s n (.noop k T) own = s' at *
  have hacc : ∀ m T, acc s' m T = acc s m T := fun m T => by unfold acc; rw [e2]
  have hlg : ∀ m T, lg s' m T = lg s m T := by
    intro m T; rw [lg_record e1]; dsimp only [reqOf, Option.toList]; rw [ite_self, List.append_nil]
  constructor
  · intro m T; rw [hacc, hlg]; exact ho.pre m T
  · intro m hm; rw [(e3 m).1] at hm; rw [hacc, hlg, (e3 m).2.1, batches, (e3 m).2.2.1]; exact ho.cur m hm
  · intro m hm; rw [(e3 m).1] at hm; rw [batches, (e3 m).2.2.1]; exact ho.idle m hm
  · intro x hx; rw [e2] at hx; rw [(e3 x.1).2.1]; exact ho.acct x hx
  · intro p hp
    rw [e1, List.mem_append, List.mem_singleton] at hp
    rw [(e3 p.node).2.1]
    rcases hp with hp | hp
    · exact ho.logt p hp
    · subst hp; exact Nat.le_refl _
  · exact hrec.1
  · exact hrec.2.1
  · exact hrec.2.2

theorem elect_ord {s : S} (ho : Ord (batches s) s) (n : Nid) (T : Nat) (single : Bool) :
    Ord (batches (elect s n T single)) (elect s n T single) := by
  unfold elect
  split
  · exact ho
  · rename_i hc
    have hl : (s.nodes n).leading = false := by
      cases hh : (s.nodes n).leading with
      | false => rfl
      | true => rw [hh] at hc; exact absurd rfl hc
    have hT : (s.nodes n).term < T := by
      rw [hl] at hc; simp only [Bool.false_or, decide_eq_true_eq] at hc; omega
    dsimp only
    have h1 : Ord (batches (s.setNode n fun nd => { nd with leading := true, term := T, leader := some n }))
        (s.setNode n fun nd => { nd with leading := true, term := T, leader := some n }) := by
      refine role_ord ho n rfl rfl (fun m hm => if_neg hm) ?_ ?_ ?_
      · simp [S.setNode]; omega
      · have := ho.idle n hl
        simpa [S.setNode, batches] using this
      · intro _; simpa [S.setNode] using hT
    have hl1 : ((s.setNode n fun nd => { nd with leading := true, term := T, leader := some n }).nodes n).leading = true := by
      simp [S.setNode]
    generalize (s.setNode n fun nd => { nd with leading := true, term := T, leader := some n }) = s1 at *
    have h2 := noop_ord h1 n n T false hl1
    refine Same.ord (same_setNode _ n _ fun _ _ => ⟨rfl, rfl, rfl, fun _ => rfl⟩) ?_
    split
    · exact (same_commit _ n _).ord h2
    · exact h2

theorem depose_ord {s : S} (ho : Ord (batches s) s) (n : Nid) (T : Nat) :
    Ord (batches (depose s n T)) (depose s n T) := by
  obtain ⟨X, _, e⟩ := depose_eq s n T
  rw [e]
  refine role_ord ho n rfl rfl (fun m hm => if_neg hm) ?_ ?_ ?_
  · simp only [S.setNode, deposeF, if_pos]; split <;> omega
  · simp [S.setNode, deposeF]
  · simp [S.setNode, deposeF]

theorem ord_step {s : S} (ho : Ord (batches s) s) (e : Ev) : Ord (batches (step s e)) (step s e) := by
  cases e with
  | submit n c a f =>
    simp only [step, submit]
    have hx : Ord (batches { s with next := s.next + 1 }) { s with next := s.next + 1 } := ⟨ho.pre, ho.cur, ho.idle, ho.acct, ho.logt, ho.len, ho.inc, ho.here⟩
    split
    · rename_i hl
      exact replicate_ord ((same_setCaller { s with next := s.next + 1 } s.next _).ord hx) hl
    · have h1 : Ord (batches ({ s with next := s.next + 1 }.setNode n fun nd => if nd.leader = some n then { nd with leader := none } else nd))
          ({ s with next := s.next + 1 }.setNode n fun nd => if nd.leader = some n then { nd with leader := none } else nd) :=
        (same_setNode _ n _ fun nd _ => by split <;> exact ⟨rfl, rfl, rfl, fun _ => rfl⟩).ord hx
      generalize ({ s with next := s.next + 1 }.setNode n fun nd => if nd.leader = some n then { nd with leader := none } else nd) = s1 at *
      split
      · exact (same_setCaller _ _ _).ord h1
      · rename_i l _
        split
        · have h2 := (same_setCaller s1 s.next fun _ => { home := n, alive := true, fwd := true }).ord h1
          generalize (s1.setCaller s.next fun _ => { home := n, alive := true, fwd := true }) = s2 at *
          have h3 : Ord (batches (if a then s2.send (.redirect l s.next) else s2)) (if a then s2.send (.redirect l s.next) else s2) := by
            split
            · exact (same_send _ _).ord h2
            · exact h2
          split
          · exact h3
          · exact Same.ord (same_setNode _ n _ (fun _ _ => by exact ⟨rfl, rfl, rfl, fun _ => rfl⟩)) h3
        · exact (same_setCaller _ _ _).ord h1
  | deliver i =>
    simp only [step, deliver]
    split
    · exact ho
    · rename_i m _
      have h1 : Ord (batches { s with net := s.net.eraseIdx i }) { s with net := s.net.eraseIdx i } :=
        Same.ord (s := s) ⟨rfl, rfl, rfl, fun _ => ⟨rfl, rfl, rfl, fun _ => rfl⟩⟩ ho
      generalize ({ s with net := s.net.eraseIdx i } : S) = s1 at *
      cases m with
      | redirect d t =>
        dsimp only [onRedirect]
        split
        · rename_i hl; exact replicate_ord h1 hl
        · refine Same.ord (same_finishCopy _ _ _ _ _) ?_
          split
          · exact h1
          · exact (same_send _ _).ord h1
      | answer t a =>
        dsimp only [onAnswer]
        split
        · exact Same.ord ((same_setNode s1 _ _ (fun _ _ => by exact ⟨rfl, rfl, rfl, fun _ => rfl⟩)).trans (same_finishOwn _ _ _ _ _)) h1
        · exact h1
      | stepped t l =>
        dsimp only [onStepped]
        exact Same.ord (same_setNode _ _ _ fun nd _ => by cases l <;> exact ⟨rfl, rfl, rfl, fun _ => rfl⟩) h1
  | lose i => exact Same.ord (s := s) ⟨rfl, rfl, rfl, fun _ => ⟨rfl, rfl, rfl, fun _ => rfl⟩⟩ ho
  | flush n g => exact flush_ord ho n g
  | elect n T g => exact elect_ord ho n T g
  | depose n T => exact depose_ord ho n T
  | learn n l =>
    simp only [step]
    split
    · exact ho
    · exact Same.ord (same_setNode _ _ _ (fun _ _ => by exact ⟨rfl, rfl, rfl, fun _ => rfl⟩)) ho
  | receive n k es =>
    simp only [step, receive]
    split
    · rename_i hc
      simp only [Bool.and_eq_true, Bool.not_eq_true'] at hc
      exact Same.ord (same_setNode _ _ _ (fun nd e => by
        refine ⟨rfl, rfl, rfl, fun hl => ?_⟩
        rw [e, hc.1.1.1] at hl; exact nomatch hl)) ho
    · exact ho
  | install n es =>
    simp only [step, install]
    split
    · rename_i hc
      simp only [Bool.and_eq_true, Bool.not_eq_true'] at hc
      exact Same.ord (same_setNode _ _ _ (fun nd e => by
        refine ⟨rfl, rfl, rfl, fun hl => ?_⟩
        rw [e, hc.1.1.1] at hl; exact nomatch hl)) ho
    · exact ho
  | commit n c => exact (same_commit _ _ _).ord ho
  | compact n b =>
    simp only [step, compact]
    split
    · exact Same.ord (same_setNode _ _ _ (fun _ _ => by exact ⟨rfl, rfl, rfl, fun _ => rfl⟩)) ho
    · exact ho
  | crash n =>
    simp only [step, crash]
    refine role_ord ho n rfl rfl (fun m hm => if_neg hm) ?_ ?_ ?_
    · simp [S.setNode]
    · simp [S.setNode]
    · simp [S.setNode]

theorem ord_run (es : List Ev) {s : S} (ho : Ord (batches s) s) : Ord (batches (run s es)) (run s es) := by
  induction es generalizing s with
  | nil => exact ho
  | cons e es ih => exact ih (ord_step ho e)

end Verif.Ticket
