import Verif.Proofs.TicketFlow

/-! Every event keeps the invariant: batches, elections, replication, restarts. -/
namespace Verif.Ticket

/-- A leader logs something. -/
theorem Inv.appendNode {loc s} (h : Inv loc none s) (n : Nid) (w : What) (own : Bool) (f : Node → Node)
    (hw : ∀ t, w = .req t → loc t = .logged ∧ t < s.next ∧ ∀ q ∈ s.logged, q.what ≠ .req t)
    (hf : ∀ nd : Node, (f nd).leading = nd.leading ∧ (f nd).batch = nd.batch ∧ (f nd).waf = nd.waf ∧
      (f nd).applied = nd.applied ∧ (f nd).base = nd.base ∧ (f nd).log = nd.log ++ [⟨nd.term, w, own⟩])
    (ho : own = true → ∀ t, w = .req t → self s n t = true ∧ (s.callers t).fwd = false)
    (hwaf : ∀ t ∈ (s.nodes n).waf, (f (s.nodes n)).idx t = 0)
    (hwal : ∀ t ∈ (f (s.nodes n)).wal, (t ∈ (s.nodes n).wal ∧ (f (s.nodes n)).idx t = (s.nodes n).idx t) ∨
      (w = .req t ∧ (s.nodes n).leading = true ∧ ((s.callers t).fwd = true → (s.callers t).home ≠ n) ∧
        ((s.callers t).fwd = false → self s n t = true) ∧ (f (s.nodes n)).idx t = (s.nodes n).log.length + 1))
    (hidx : ∀ t, (f (s.nodes n)).idx t = (s.nodes n).idx t ∨ w = .req t) :
    Inv loc none ({ s with logged := s.logged ++ [(⟨(s.nodes n).log.length + 1, (s.nodes n).term, w, n⟩ : Logged)] }.setNode n f) := by
  have h1 := h.record ⟨(s.nodes n).log.length + 1, (s.nodes n).term, w, n⟩ hw
  have ok := h1.nodeOk n
  obtain ⟨f1, f2, f3, f4, f5, f6⟩ := hf (s.nodes n)
  have hget : ∀ (i : Nat) (e : Entry), (f (s.nodes n)).log[i]? = some e →
      (s.nodes n).log[i]? = some e ∨ (i = (s.nodes n).log.length ∧ e = ⟨(s.nodes n).term, w, own⟩) := by
    intro i e he
    rw [f6, List.getElem?_append] at he
    split at he
    · exact Or.inl he
    · rename_i hi
      right
      rw [List.getElem?_singleton] at he
      split at he
      · cases he; exact ⟨by omega, rfl⟩
      · exact nomatch he
  have hold : ∀ (i : Nat) (e : Entry), (s.nodes n).log[i]? = some e → (f (s.nodes n)).log[i]? = some e := by
    intro i e he
    rw [f6, List.getElem?_append_left (List.getElem?_eq_some_iff.1 he).1]; exact he
  refine h1.node n f ?_ (fun j e _ he => ⟨e, hold j e he, rfl⟩) (by show (s.nodes n).applied ≤ (f (s.nodes n)).applied; rw [f4]; exact Nat.le_refl _)
  show NodeOk loc _ n (f (s.nodes n))
  constructor
  · rw [f2, f1]; exact ok.batch
  · rw [f2]; exact ok.batch1
  · intro i e he
    rcases hget i e he with he | ⟨hi, he⟩
    · exact ok.ent i e he
    · subst he hi
      exact ⟨_, List.mem_append_right _ (List.mem_singleton.2 rfl), rfl, rfl, rfl⟩
  · intro i e t he hown hq
    rcases hget i e he with he | ⟨hi, he⟩
    · exact ok.own i e t he hown hq
    · subst he; exact ho hown t hq
  · rw [f4, f6, List.length_append]; exact Nat.le_trans ok.app (Nat.le_add_right _ _)
  · rw [f4, f5]; exact ok.base
  · intro t ht
    rw [f3] at ht
    have := ok.waf t ht
    exact ⟨this.1, this.2.1, this.2.2.1, hwaf t ht, this.2.2.2.2⟩
  · intro t ht
    rw [f1]
    rcases hwal t ht with hh | hh
    · exact ok.wal t hh.1
    · exact ⟨hh.2.1, (hw t hh.1).2.1, hh.2.2.1, hh.2.2.2.1⟩
  · intro t ht hi
    rcases hwal t ht with hh | hh
    · exact ok.wal0 t hh.1 (by rw [← hh.2]; exact hi)
    · rw [hh.2.2.2.2] at hi; exact absurd hi (Nat.succ_ne_zero _)
  · intro t ht hi
    rw [f4]
    rcases hwal t ht with hh | hh
    · rw [hh.2] at hi ⊢
      obtain ⟨⟨e, he, hq⟩, hor⟩ := ok.walI t hh.1 hi
      exact ⟨⟨e, hold _ e he, hq⟩, hor⟩
    · rw [hh.2.2.2.2]
      refine ⟨⟨⟨(s.nodes n).term, w, own⟩, ?_, hh.1⟩, Or.inl (Nat.lt_succ_of_le ok.app)⟩
      rw [f6, Nat.add_sub_cancel]; simp
  · intro t hi
    rcases hidx t with hh | hh
    · rw [hh] at hi; exact ok.idx0 t hi
    · exact ⟨_, List.mem_append_right _ (List.mem_singleton.2 rfl), hh⟩

def flushF (single : Bool) (t : Req) (own : Bool) (nd : Node) : Node :=
  { nd with
    log := nd.log ++ [⟨nd.term, .req t, own⟩]
    idx := fun u => if u = t then nd.log.length + 1 else nd.idx u
    wal := if single then nd.wal else mset t nd.wal }

theorem flushOne_eq (n single) (s : S) (t) : flushOne n single s t =
    { s with logged := s.logged ++ [(⟨(s.nodes n).log.length + 1, (s.nodes n).term, .req t, n⟩ : Logged)] }.setNode n
      (flushF single t (self s n t)) := by
  simp only [flushOne, append, S.setNode, flushF]
  congr 1
  funext m
  by_cases hm : m = n
  · subst hm; simp
  · simp [hm]

theorem Inv.flushOne {loc s t} (h : Inv loc none s) (n : Nid) (single : Bool) (hn : NoCarrier s t)
    (hg : loc t ≠ .gone ∧ loc t ≠ .lost) (ht : t < s.next) (hl : (s.nodes n).leading = true)
    (hf : (s.callers t).fwd = true → (s.callers t).home ≠ n)
    (hf' : (s.callers t).fwd = false → self s n t = true) :
    Inv (upd loc t .logged) none (flushOne n single s t) := by
  rw [flushOne_eq]
  refine (h.reloc hn .logged (Or.inr (Or.inl hg))).appendNode n (.req t) (self s n t) (flushF single t (self s n t)) ?_ ?_ ?_ ?_ ?_ ?_
  · intro u hu; cases hu; exact ⟨if_pos rfl, ht, hn.log⟩
  · intro nd; exact ⟨rfl, rfl, rfl, rfl, rfl, rfl⟩
  · intro ho u hu
    cases hu
    refine ⟨ho, ?_⟩
    cases hfd : (s.callers t).fwd with
    | false => rfl
    | true =>
      unfold self at ho
      rw [Bool.and_eq_true] at ho
      exact absurd (beq_iff_eq.1 ho.1) (hf hfd)
  · intro u hu
    have hw := h.waf n u hu
    have : u ≠ t := by
      intro e; subst e; exact hf hw.2.1 hw.1
    simp only [flushF, if_neg this]
    exact hw.2.2.2.1
  · intro u hu
    have hcase : u ∈ (s.nodes n).wal ∨ u = t := by
      simp only [flushF] at hu
      split at hu
      · exact Or.inl hu
      · rcases (mem_mset _ _ _).1 hu with h1 | h1
        · exact Or.inr h1
        · exact Or.inl h1
    by_cases hut : u = t
    · subst hut
      right
      refine ⟨rfl, hl, hf, hf', ?_⟩
      simp only [flushF, if_pos]
    · left
      refine ⟨hcase.resolve_right hut, ?_⟩
      simp only [flushF, if_neg hut]
  · intro u
    by_cases hut : u = t
    · subst hut; exact Or.inr rfl
    · left; simp only [flushF, if_neg hut]

theorem flushOne_fields (n single) (s : S) (t) : (flushOne n single s t).net = s.net ∧
    (flushOne n single s t).callers = s.callers ∧ (flushOne n single s t).next = s.next ∧
    (flushOne n single s t).logged = s.logged ++ [(⟨(s.nodes n).log.length + 1, (s.nodes n).term, .req t, n⟩ : Logged)] ∧
    (∀ m, ((flushOne n single s t).nodes m).batch = (s.nodes m).batch ∧
      ((flushOne n single s t).nodes m).leading = (s.nodes m).leading ∧
      ((flushOne n single s t).nodes m).term = (s.nodes m).term) := by
  rw [flushOne_eq]
  refine ⟨rfl, rfl, rfl, rfl, ?_⟩
  intro m
  simp only [S.setNode, flushF]
  by_cases hm : m = n
  · subst hm; simp
  · simp [hm]

theorem Inv.flushAll {loc s} (h : Inv loc none s) (n : Nid) (single : Bool) (b : List Req) (hb : b.Nodup)
    (hl : (s.nodes n).leading = true)
    (hbt : ∀ t ∈ b, NoCarrier s t ∧ (loc t ≠ .gone ∧ loc t ≠ .lost) ∧ t < s.next ∧
      ((s.callers t).fwd = true → (s.callers t).home ≠ n) ∧ ((s.callers t).fwd = false → self s n t = true)) (k : Nat) :
    Ok loc k (b.foldl (Ticket.flushOne n single) s) := by
  induction b generalizing loc s with
  | nil => exact h.ok k
  | cons t b ih =>
    rw [List.nodup_cons] at hb
    obtain ⟨a1, a2, a3, a4, a5⟩ := hbt t (List.mem_cons_self ..)
    obtain ⟨e1, e2, e3, e4, e5⟩ := flushOne_fields n single s t
    obtain ⟨loc', h', hk'⟩ := ih (h.flushOne n single a1 a2 a3 hl a4 a5) hb.2 (by rw [(e5 n).2.1]; exact hl) (by
      intro u hu
      obtain ⟨b1, b2, b3, b4, b5⟩ := hbt u (List.mem_cons_of_mem _ hu)
      have hut : u ≠ t := fun e => hb.1 (e ▸ hu)
      unfold Ticket.self
      rw [e2, e3]
      refine ⟨⟨by rw [e1]; exact b1.net, fun m => by rw [(e5 m).1]; exact b1.batch m, ?_⟩, ?_, b3, b4, b5⟩
      · intro p hp
        rw [e4, List.mem_append, List.mem_singleton] at hp
        rcases hp with hp | hp
        · exact b1.log p hp
        · subst hp; intro e; cases e; exact hut rfl
      · rw [show upd loc t .logged u = loc u from if_neg hut]; exact b2)
    exact ⟨loc', h', (Keep.upd .logged a2).trans hk' (Nat.le_refl _)⟩

theorem Ok.commit {loc k s'} (h : Ok loc k s') (n c) : Ok loc k (Ticket.commit s' n c) := by
  obtain ⟨l, h1, h2⟩ := h
  exact ⟨l, h1.commit n c, h2⟩

theorem Inv.flush {loc s} (h : Inv loc none s) (n : Nid) (single : Bool) (k : Nat) : Ok loc k (flush s n single) := by
  unfold Ticket.flush
  dsimp only
  have h1 := h.forget n (fun nd => { nd with batch := [] })
    (fun nd => ⟨rfl, .refl _, .refl _, List.nil_sublist _, rfl, rfl, rfl, rfl⟩)
  have h2 : Ok loc k ((s.nodes n).batch.foldl (Ticket.flushOne n single) (s.setNode n fun nd => { nd with batch := [] })) := by
    by_cases hb : (s.nodes n).batch = []
    · rw [hb]; exact h1.ok k
    · obtain ⟨t0, ht0⟩ := List.exists_mem_of_ne_nil _ hb
      refine h1.flushAll n single _ (h.batch1 n) ?_ ?_ k
      · have := (h.batch n t0 ht0).2.2.1
        simpa [S.setNode] using this
      · intro t ht
        obtain ⟨b1, b2, b3, b4, b5⟩ := h.batch n t ht
        refine ⟨⟨?_, ?_, ?_⟩, ?_, b2, b4, b5⟩
        · intro d hd; have := (h.net d t hd).1; rw [b1] at this; exact nomatch this
        · intro m hm
          by_cases hmn : m = n
          · subst hmn; simp [S.setNode] at hm
          · have : t ∈ (s.nodes m).batch := by simpa [S.setNode, hmn] using hm
            have := (h.batch m t this).1
            rw [b1] at this; cases this; exact hmn rfl
        · intro p hp hq; have := (h.log p hp t hq).1; rw [b1] at this; exact nomatch this
        · rw [b1]; exact ⟨(fun e => nomatch e), (fun e => nomatch e)⟩
  split
  · exact h2.commit n _
  · exact h2

theorem append_eq (s : S) (n : Nid) (w : What) (own : Bool) : append s n w own =
    { s with logged := s.logged ++ [(⟨(s.nodes n).log.length + 1, (s.nodes n).term, w, n⟩ : Logged)] }.setNode n
      (fun nd : Node => { nd with log := nd.log ++ [(⟨nd.term, w, own⟩ : Entry)] }) := rfl

/-- What becomeLeader does with the waiting tickets: WaitingAtFollow is emptied, nothing is taken over. -/
theorem Inv.takeover {loc s} (h : Inv loc none s) (n : Nid) : Inv loc none (s.setNode n fun nd =>
    { nd with
      wal := (all nd nd.waf).foldl (fun w t => mset t w) nd.wal
      waf := [] }) := by
  have hall : all (s.nodes n) (s.nodes n).waf = [] := by
    cases hh : all (s.nodes n) (s.nodes n).waf with
    | nil => rfl
    | cons t l =>
      have := (mem_all (s.nodes n) (s.nodes n).waf t).1 (by rw [hh]; exact List.mem_cons_self ..)
      have h0 := (h.waf n t this.1).2.2.2.1
      omega
  have ok := h.nodeOk n
  have he : (all (s.nodes n) (s.nodes n).waf).foldl (fun w t => mset t w) (s.nodes n).wal = (s.nodes n).wal := by
    rw [hall]; rfl
  refine h.node n _ { ok with waf := ?_, wal := ?_, wal0 := ?_, walI := ?_ } (fun j e _ he => ⟨e, he, rfl⟩) (Nat.le_refl _)
  · intro t ht; exact nomatch ht
  · dsimp only; rw [he]; exact ok.wal
  · dsimp only; rw [he]; exact ok.wal0
  · dsimp only; rw [he]; exact ok.walI

theorem Inv.elect {loc s} (h : Inv loc none s) (n : Nid) (T : Nat) (single : Bool) :
    Inv loc none (elect s n T single) := by
  unfold Ticket.elect
  split
  · exact h
  · rename_i hc
    have hl : (s.nodes n).leading = false := by
      cases hh : (s.nodes n).leading with
      | false => rfl
      | true => rw [hh] at hc; exact absurd rfl hc
    have hwal : ∀ t, t ∉ (s.nodes n).wal := fun t ht => by
      have := (h.wal n t ht).1; rw [hl] at this; exact nomatch this
    have hbat : ∀ t, t ∉ (s.nodes n).batch := fun t ht => by
      have := (h.batch n t ht).2.2.1; rw [hl] at this; exact nomatch this
    have ok := h.nodeOk n
    have h1 : Inv loc none (s.setNode n fun nd => { nd with leading := true, term := T, leader := some n }) :=
      h.node n _ { ok with
        batch := fun t ht => absurd ht (hbat t)
        wal := fun t ht => absurd ht (hwal t) } (fun j e _ he => ⟨e, he, rfl⟩) (Nat.le_refl _)
    dsimp only
    generalize (s.setNode n fun nd => { nd with leading := true, term := T, leader := some n }) = s1 at h1
    have h2 : Inv loc none (append s1 n (.noop n T) false) := by
      rw [append_eq]
      refine h1.appendNode n (.noop n T) false _ ?_ ?_ ?_ ?_ ?_ ?_
      · intro t ht; exact nomatch ht
      · intro nd; exact ⟨rfl, rfl, rfl, rfl, rfl, rfl⟩
      · intro ho; exact nomatch ho
      · intro t ht; exact (h1.waf n t ht).2.2.2.1
      · intro t ht; exact Or.inl ⟨ht, rfl⟩
      · intro t; exact Or.inl rfl
    have h3 : ∀ c, Inv loc none (if single then Ticket.commit (append s1 n (.noop n T) false) n c else append s1 n (.noop n T) false) := by
      intro c; split
      · exact h2.commit n _
      · exact h2
    exact (h3 _).takeover n

theorem stepped_fold (n : Nid) (l : List Req) (s : S) : ∃ X : List Msg, (∀ m ∈ X, ∃ t a, m = .stepped t a) ∧
    l.foldl (tellStepped n) s = { s with net := s.net ++ X } := by
  induction l generalizing s with
  | nil => exact ⟨[], (fun m hm => nomatch hm), by simp⟩
  | cons t l ih =>
    rw [List.foldl_cons]
    unfold tellStepped
    split
    · exact ih s
    · obtain ⟨X, hX, he⟩ := ih (s.send (.stepped t (s.nodes n).leader))
      refine ⟨.stepped t (s.nodes n).leader :: X, ?_, ?_⟩
      · intro m hm
        rcases List.mem_cons.1 hm with hm | hm
        · exact ⟨_, _, hm⟩
        · exact hX m hm
      · unfold tellStepped at he
        rw [he]; simp [S.send]

theorem Inv.sends {loc s} (h : Inv loc none s) (X : List Msg) (hX : ∀ m ∈ X, ∃ t a, m = .stepped t a) :
    Inv loc none { s with net := s.net ++ X } := by
  induction X generalizing s with
  | nil => rw [List.append_nil]; exact h
  | cons m X ih =>
    have h1 := h.send m (by
      intro d t e; obtain ⟨_, _, hm⟩ := hX m (List.mem_cons_self ..); rw [hm] at e; exact nomatch e) (by
      intro t a e; obtain ⟨_, _, hm⟩ := hX m (List.mem_cons_self ..); rw [hm] at e; exact nomatch e)
    have h2 := ih h1 (fun m hm => hX m (List.mem_cons_of_mem _ hm))
    simpa [S.send] using h2

def deposeF (T : Nat) (nd : Node) : Node :=
  { nd with
    leading := false
    noop0 := false
    term := if nd.term < T then T else nd.term
    leader := if nd.term < T then none else nd.leader
    batch := []
    wal := if nd.leading then [] else nd.wal }

theorem depose_eq (s : S) (n T) : ∃ X : List Msg, (∀ m ∈ X, ∃ t a, m = .stepped t a) ∧
    depose s n T = { s.setNode n (deposeF T) with net := s.net ++ X } := by
  unfold depose
  dsimp only
  by_cases hl : (s.nodes n).leading = true
  · simp only [if_pos hl]
    obtain ⟨X, hX, e1⟩ := stepped_fold n (s.nodes n).batch (s.setNode n fun nd =>
      { nd with
        leading := false
        noop0 := false
        term := if nd.term < T then T else nd.term
        leader := if nd.term < T then none else nd.leader })
    rw [e1]
    generalize hs3 : S.setNode _ n (fun nd => { nd with batch := [] }) = s3
    obtain ⟨Y, hY, e2⟩ := stepped_fold n (all (s.nodes n) (s.nodes n).wal) s3
    rw [e2, ← hs3]
    refine ⟨X ++ Y, ?_, ?_⟩
    · intro m hm
      rcases List.mem_append.1 hm with hm | hm
      · exact hX m hm
      · exact hY m hm
    · simp only [S.setNode, deposeF, List.append_assoc]
      congr 1
      funext m
      by_cases hm : m = n
      · subst hm; simp [hl]
      · simp [hm]
  · simp only [if_neg hl]
    refine ⟨[], (fun m hm => nomatch hm), ?_⟩
    simp only [S.setNode, deposeF, List.append_nil]
    congr 1
    funext m
    by_cases hm : m = n
    · subst hm; simp [hl]
    · simp [hm]

theorem Inv.depose {loc s} (h : Inv loc none s) (n : Nid) (T : Nat) : Inv loc none (depose s n T) := by
  obtain ⟨X, hX, e⟩ := depose_eq s n T
  rw [e]
  have ok := h.nodeOk n
  have hw : (deposeF T (s.nodes n)).wal = [] := by
    simp only [deposeF]
    split
    · rfl
    · rename_i hl
      cases hh : (s.nodes n).wal with
      | nil => rfl
      | cons t l => exact absurd (h.wal n t (by rw [hh]; exact List.mem_cons_self ..)).1 hl
  have h1 : Inv loc none (s.setNode n (deposeF T)) := by
    refine h.node n _ { ok with batch := ?_, batch1 := ?_, wal := ?_, wal0 := ?_, walI := ?_ } (fun j e _ he => ⟨e, he, rfl⟩) (Nat.le_refl _)
    · intro t ht; exact nomatch ht
    · exact List.nodup_nil
    · intro t ht; rw [hw] at ht; exact nomatch ht
    · intro t ht; rw [hw] at ht; exact nomatch ht
    · intro t ht; rw [hw] at ht; exact nomatch ht
  exact h1.sends X hX

/-! ### Replication -/

theorem known_get {s : S} {k : Nat} {es : List (Nat × What)} (h : known s k es = true) (i : Nat) (x : Nat × What)
    (hx : es[i]? = some x) : ∃ p ∈ s.logged, p.idx = k + i + 1 ∧ p.term = x.1 ∧ p.what = x.2 := by
  unfold known at h
  rw [List.all_eq_true] at h
  have hm : (x, i) ∈ es.zipIdx := by
    rw [List.mem_zipIdx_iff_getElem?]; exact hx
  have := h _ hm
  rw [List.any_eq_true] at this
  obtain ⟨p, hp, hq⟩ := this
  simp only [Bool.and_eq_true, beq_iff_eq] at hq
  exact ⟨p, hp, hq.1.1, hq.1.2, hq.2⟩

theorem copies_get {es : List (Nat × What)} {i : Nat} {e : Entry} (h : (copies es)[i]? = some e) :
    ∃ x : Nat × What, es[i]? = some x ∧ e.term = x.1 ∧ e.what = x.2 ∧ e.own = false := by
  unfold copies at h
  rw [List.getElem?_map] at h
  cases hx : es[i]? with
  | none => rw [hx] at h; exact nomatch h
  | some x => rw [hx] at h; cases h; exact ⟨x, rfl, rfl, rfl, rfl⟩

theorem Inv.receive {loc s} (h : Inv loc none s) (n : Nid) (k : Nat) (es : List (Nat × What)) :
    Inv loc none (receive s n k es) := by
  unfold Ticket.receive
  dsimp only
  split
  · rename_i hc
    simp only [Bool.and_eq_true, Bool.not_eq_true', decide_eq_true_eq] at hc
    obtain ⟨⟨⟨hl, hak⟩, hkl⟩, hkn⟩ := hc
    have ok := h.nodeOk n
    have hget : ∀ (i : Nat) (e : Entry), ((s.nodes n).log.take k ++ copies es)[i]? = some e →
        (s.nodes n).log[i]? = some e ∨ (k ≤ i ∧ (copies es)[i - k]? = some e) := by
      intro i e he
      rw [List.getElem?_append, List.length_take, Nat.min_eq_left hkl] at he
      split at he
      · rename_i hi
        rw [List.getElem?_take_of_lt hi] at he; exact Or.inl he
      · rename_i hi
        exact Or.inr ⟨by omega, he⟩
    have hwal : ∀ t, t ∉ (s.nodes n).wal := fun t ht => by
      have := (h.wal n t ht).1; rw [hl] at this; exact nomatch this
    refine h.node n _ { ok with ent := ?_, own := ?_, app := ?_, walI := ?_ } ?_ (Nat.le_refl _)
    · intro i e he
      rcases hget i e he with he | ⟨hi, he⟩
      · exact ok.ent i e he
      · obtain ⟨x, hx, x1, x2, _⟩ := copies_get he
        obtain ⟨p, hp, p1, p2, p3⟩ := known_get hkn _ x hx
        exact ⟨p, hp, by omega, by rw [p2, x1], by rw [p3, x2]⟩
    · intro i e t he ho hq
      rcases hget i e he with he | ⟨hi, he⟩
      · exact ok.own i e t he ho hq
      · obtain ⟨x, hx, _, _, x3⟩ := copies_get he
        rw [x3] at ho; exact nomatch ho
    · dsimp only
      rw [List.length_append, List.length_take, Nat.min_eq_left hkl]; omega
    · intro t ht; exact absurd ht (hwal t)
    · intro j e hj he
      refine ⟨e, ?_, rfl⟩
      dsimp only
      have hjk : j < k := Nat.lt_of_lt_of_le hj hak
      rw [List.getElem?_append_left (by rw [List.length_take, Nat.min_eq_left hkl]; exact hjk), List.getElem?_take_of_lt hjk]
      exact he
  · exact h

theorem Inv.install {loc s} (h : Inv loc none s) (n : Nid) (es : List (Nat × What)) :
    Inv loc none (install s n es) := by
  unfold Ticket.install
  dsimp only
  split
  · rename_i hc
    simp only [Bool.and_eq_true, Bool.not_eq_true', decide_eq_true_eq] at hc
    obtain ⟨⟨⟨hl, hsame⟩, hle⟩, hkn⟩ := hc
    have ok := h.nodeOk n
    have hwal : ∀ t, t ∉ (s.nodes n).wal := fun t ht => by
      have := (h.wal n t ht).1; rw [hl] at this; exact nomatch this
    refine h.node n _ { ok with ent := ?_, own := ?_, app := ?_, base := ?_, walI := ?_ } ?_ hle
    · intro i e he
      obtain ⟨x, hx, x1, x2, _⟩ := copies_get he
      obtain ⟨p, hp, p1, p2, p3⟩ := known_get hkn _ x hx
      exact ⟨p, hp, by omega, by rw [p2, x1], by rw [p3, x2]⟩
    · intro i e t he ho hq
      obtain ⟨x, hx, _, _, x3⟩ := copies_get he
      rw [x3] at ho; exact nomatch ho
    · simp [copies]
    · exact Nat.le_refl _
    · intro t ht; exact absurd ht (hwal t)
    · intro j e hj he
      have h1 : (((s.nodes n).log.take (s.nodes n).applied).map fun e => (e.term, e.what))[j]? = some (e.term, e.what) := by
        rw [List.getElem?_map, List.getElem?_take_of_lt hj, he]; rfl
      rw [hsame, List.getElem?_take_of_lt hj] at h1
      refine ⟨⟨e.term, e.what, false⟩, ?_, rfl⟩
      simp [copies, h1]
  · exact h

theorem Inv.compact {loc s} (h : Inv loc none s) (n : Nid) (b : Nat) : Inv loc none (compact s n b) := by
  unfold Ticket.compact
  dsimp only
  split
  · rename_i hc
    simp only [Bool.and_eq_true, decide_eq_true_eq] at hc
    have ok := h.nodeOk n
    exact h.node n _ { ok with base := hc.2 } (fun j e _ he => ⟨e, he, rfl⟩) (Nat.le_refl _)
  · exact h

/-- The calls made on a node end with its process. -/
theorem Inv.die {loc s} (h : Inv loc none s) (n : Nid) (hb : (s.nodes n).batch = []) (hwf : (s.nodes n).waf = [])
    (hwl : (s.nodes n).wal = []) (ho : ∀ (i : Nat) (e : Entry), (s.nodes n).log[i]? = some e → e.own = false) :
    Inv loc none { s with
      callers := fun t => if (s.callers t).home = n then { s.callers t with alive := false } else s.callers t } := by
  generalize hs' : ({ s with
      callers := fun t => if (s.callers t).home = n then { s.callers t with alive := false } else s.callers t } : S) = s'
  have hc : ∀ t, (s'.callers t).home = (s.callers t).home ∧ (s'.callers t).fwd = (s.callers t).fwd ∧
      (s'.callers t).finished = (s.callers t).finished ∧ (s'.callers t).ans = (s.callers t).ans ∧
      ((s.callers t).home ≠ n → s'.callers t = s.callers t) := by
    intro t
    rw [← hs']
    dsimp only
    by_cases hh : (s.callers t).home = n
    · rw [if_pos hh]; exact ⟨rfl, rfl, rfl, rfl, fun e => absurd hh e⟩
    · rw [if_neg hh]; exact ⟨rfl, rfl, rfl, rfl, fun _ => rfl⟩
  have hself : ∀ m t, m ≠ n → self s' m t = self s m t := by
    intro m t hm
    unfold self
    by_cases hh : (s.callers t).home = n
    · have h1 : ((s.callers t).home == m) = false := by
        rw [hh]; simp only [beq_eq_false_iff_ne, ne_eq]; exact fun e => hm e.symm
      rw [(hc t).1, h1]; rfl
    · rw [(hc t).2.2.2.2 hh]
  have hx : s'.next = s.next := by rw [← hs']
  have hm : s'.net = s.net := by rw [← hs']
  have hlg : s'.logged = s.logged := by rw [← hs']
  have hd : s'.did = s.did := by rw [← hs']
  have hnd : s'.nodes = s.nodes := by rw [← hs']
  have hJ : ∀ t a, Just loc s t a → Just loc s' t a := by
    intro t a h
    cases a with
    | ok i => obtain ⟨n, h⟩ := h; exact ⟨n, by rw [hnd]; exact h⟩
    | err w => exact h
  constructor
  · intro d t hmm; rw [hx, (hc t).1, (hc t).2.1]; rw [hm] at hmm; exact h.net d t hmm
  · rw [hm]; exact h.net1
  · intro m t ht
    rw [hnd] at ht ⊢
    have hmn : m ≠ n := fun e => by rw [e, hb] at ht; exact nomatch ht
    rw [hx, (hc t).1, (hc t).2.1, hself m t hmn]; exact h.batch m t ht
  · rw [hnd]; exact h.batch1
  · rw [hlg, hx]; exact h.log
  · rw [hlg]; exact h.log1
  · rw [hnd, hlg]; exact h.ent
  · intro m i e t he hw hq
    rw [hnd] at he
    have hmn : m ≠ n := fun hh => by rw [hh] at he; rw [ho i e he] at hw; exact nomatch hw
    rw [hself m t hmn, (hc t).2.1]; exact h.own m i e t he hw hq
  · rw [hnd]; exact h.app
  · rw [hnd]; exact h.base
  · intro m t ht
    rw [hnd] at ht ⊢
    have hmn : m ≠ n := fun e => by rw [e, hwf] at ht; exact nomatch ht
    have hw := h.waf m t ht
    rw [(hc t).2.2.2.2 (by rw [hw.1]; exact hmn), hx]; exact hw
  · intro m t ht
    rw [hnd] at ht ⊢
    have hmn : m ≠ n := fun e => by rw [e, hwl] at ht; exact nomatch ht
    rw [hx, (hc t).1, (hc t).2.1, hself m t hmn]; exact h.wal m t ht
  · rw [hnd]; exact h.wal0
  · intro m t ht hi
    rw [hnd] at ht hi ⊢
    have hmn : m ≠ n := fun e => by rw [e, hwl] at ht; exact nomatch ht
    rw [(hc t).2.2.1, hself m t hmn]; exact h.walI m t ht hi
  · intro t; rw [(hc t).2.2.1, (hc t).2.2.2.1]; exact h.fin t
  · intro t a hmm
    rw [hm] at hmm
    have := h.ansm t a hmm
    rw [hx, (hc t).2.1]; exact ⟨this.1, hJ t a this.2.1, this.2.2⟩
  · intro t a ha
    rw [(hc t).2.2.2.1] at ha
    have := h.ans t a ha
    rw [hx]; exact ⟨this.1, hJ t a this.2⟩
  · rw [hd, hnd]; exact h.did
  · rw [hd]; exact h.did1
  · rw [hnd, hlg]; exact h.idx0

theorem Inv.crash {loc s} (h : Inv loc none s) (n : Nid) : Inv loc none (crash s n) := by
  unfold Ticket.crash
  dsimp only
  have ok := h.nodeOk n
  generalize hF : (fun nd : Node =>
    { nd with
      leading := false
      leader := none
      noop0 := false
      waf := []
      wal := []
      batch := []
      idx := fun _ => 0
      log := nd.log.map fun e : Entry => { e with own := false } }) = F
  have hlog : (F (s.nodes n)).log = (s.nodes n).log.map fun e => { e with own := false } := by rw [← hF]
  have hget : ∀ (i : Nat) (e : Entry), (F (s.nodes n)).log[i]? = some e → e.own = false ∧
      ∃ e' : Entry, (s.nodes n).log[i]? = some e' ∧ e'.term = e.term ∧ e'.what = e.what := by
    intro i e he
    rw [hlog, List.getElem?_map] at he
    cases hx : (s.nodes n).log[i]? with
    | none => rw [hx] at he; exact nomatch he
    | some x => rw [hx] at he; cases he; exact ⟨rfl, x, rfl, rfl, rfl⟩
  have h1 : Inv loc none (s.setNode n F) := by
    refine h.node n F ?_ ?_ ?_
    · constructor
      · intro t ht; rw [← hF] at ht; exact nomatch ht
      · rw [← hF]; exact List.nodup_nil
      · intro i e he
        obtain ⟨_, e', h1, h2, h3⟩ := hget i e he
        rw [← h2, ← h3]; exact ok.ent i e' h1
      · intro i e t he ho
        rw [(hget i e he).1] at ho; exact nomatch ho
      · rw [hlog, List.length_map, ← hF]; exact ok.app
      · rw [← hF]; exact ok.base
      · intro t ht; rw [← hF] at ht; exact nomatch ht
      · intro t ht; rw [← hF] at ht; exact nomatch ht
      · intro t ht; rw [← hF] at ht; exact nomatch ht
      · intro t ht; rw [← hF] at ht; exact nomatch ht
      · intro t ht; rw [← hF] at ht; exact absurd ht (Nat.lt_irrefl _)
    · intro j e hj he
      exact ⟨{ e with own := false }, by rw [hlog, List.getElem?_map, he]; rfl, rfl⟩
    · rw [← hF]; exact Nat.le_refl _
  have e1 : (s.setNode n F).nodes n = F (s.nodes n) := if_pos rfl
  refine h1.die n ?_ ?_ ?_ ?_
  · rw [e1, ← hF]
  · rw [e1, ← hF]
  · rw [e1, ← hF]
  · intro i e he; rw [e1] at he; exact (hget i e he).1

/-- One event. -/
theorem Inv.step {loc s} (h : Inv loc none s) (e : Ev) : Ok loc s.next (step s e) := by
  cases e with
  | submit n c a f => exact h.submit n c a f
  | deliver i => exact h.deliver i _
  | lose i => exact (h.sub _ (List.eraseIdx_sublist ..)).ok _
  | flush n g => exact h.flush n g _
  | elect n T g => exact (h.elect n T g).ok _
  | depose n T => exact (h.depose n T).ok _
  | learn n l =>
    simp only [Ticket.step]
    split
    · exact h.ok _
    · refine (h.frame (s.setNode n fun nd => { nd with leader := some l }) rfl rfl rfl rfl rfl ?_).ok _
      intro m
      dsimp only [S.setNode]
      by_cases hm : m = n
      · rw [if_pos hm, hm]; exact ⟨rfl, rfl, rfl, rfl, rfl, rfl, rfl, rfl⟩
      · rw [if_neg hm]; exact ⟨rfl, rfl, rfl, rfl, rfl, rfl, rfl, rfl⟩
  | receive n k es => exact (h.receive n k es).ok _
  | install n es => exact (h.install n es).ok _
  | commit n c => exact (h.commit n c).ok _
  | compact n b => exact (h.compact n b).ok _
  | crash n => exact (h.crash n).ok _

end Verif.Ticket
