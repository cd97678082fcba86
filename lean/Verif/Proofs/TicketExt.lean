import Verif.Proofs.TicketOrder

/-! What only grows. -/
namespace Verif.Ticket

/-- Requests, records of the log and answers stay. -/
structure Ext (s s' : S) : Prop where
  next : s.next ≤ s'.next
  log : s.logged <+: s'.logged
  ans : ∀ t a, t < s.next → (s.callers t).ans = some a → (s'.callers t).ans = some a
  home : ∀ t, t < s.next → (s'.callers t).home = (s.callers t).home

theorem Ext.refl (s : S) : Ext s s := ⟨Nat.le_refl _, List.prefix_rfl, fun _ _ _ h => h, fun _ _ => rfl⟩

theorem Ext.trans {s s1 s2 : S} (h : Ext s s1) (h' : Ext s1 s2) : Ext s s2 :=
  ⟨Nat.le_trans h.next h'.next, h.log.trans h'.log,
    fun t a ht ha => h'.ans t a (Nat.lt_of_lt_of_le ht h.next) (h.ans t a ht ha),
    fun t ht => (h'.home t (Nat.lt_of_lt_of_le ht h.next)).trans (h.home t ht)⟩

theorem ext_same {s s' : S} (hn : s'.next = s.next) (hl : s'.logged = s.logged) (hc : s'.callers = s.callers) :
    Ext s s' := ⟨by rw [hn]; exact Nat.le_refl _, by rw [hl]; exact List.prefix_rfl, fun _ _ _ h => by rw [hc]; exact h,
      fun _ _ => by rw [hc]⟩

theorem ext_setNode (s : S) (n f) : Ext s (s.setNode n f) := ext_same rfl rfl rfl

theorem ext_send (s : S) (m) : Ext s (s.send m) := ext_same rfl rfl rfl

theorem ext_setCaller (s : S) (t : Req) (f : Caller → Caller) (hh : t < s.next → (f (s.callers t)).home = (s.callers t).home)
    (ha : ∀ a, t < s.next → (s.callers t).ans = some a → (f (s.callers t)).ans = some a) : Ext s (s.setCaller t f) := by
  refine ⟨Nat.le_refl _, List.prefix_rfl, ?_, ?_⟩
  · intro u a hu h
    dsimp only [S.setCaller]
    by_cases hut : u = t
    · rw [if_pos hut]; subst hut; exact ha a hu h
    · rw [if_neg hut]; exact h
  · intro u hu
    dsimp only [S.setCaller]
    by_cases hut : u = t
    · rw [if_pos hut, hut]; subst hut; exact hh hu
    · rw [if_neg hut]

theorem ext_close (s : S) (t a) : Ext s (close s t a) :=
  ext_setCaller s t _ (fun _ => rfl) (fun b _ hb => by dsimp only; rw [hb]; rfl)

theorem ext_delWaiting (s : S) (n b t) : Ext s (delWaiting s n b t) := ext_same rfl rfl rfl

theorem ext_finishOwn (s : S) (n b t a) : Ext s (finishOwn s n b t a) := by
  unfold finishOwn
  split
  · exact Ext.refl s
  · exact ((ext_setCaller s t _ (fun _ => rfl) (fun _ _ h => h)).trans (ext_delWaiting _ n b t)).trans (ext_close _ t a)

theorem ext_finishCopy (s : S) (n b t a) : Ext s (finishCopy s n b t a) := by
  unfold finishCopy
  split
  · exact (ext_delWaiting _ n b t).trans (ext_close _ t a)
  · exact ext_delWaiting _ n b t

theorem ext_respond (s : S) (n own t a) : Ext s (respond s n own t a) := by
  have h : Ext s (if own then finishOwn s n (s.nodes n).leading t a else finishCopy s n (s.nodes n).leading t a) := by
    split
    · exact ext_finishOwn _ _ _ _ _
    · exact ext_finishCopy _ _ _ _ _
  unfold respond
  dsimp only
  split
  · exact h
  · exact h.trans (ext_send _ _)

theorem ext_foldl {α} (f : S → α → S) (hf : ∀ s a, Ext s (f s a)) (l : List α) (s : S) : Ext s (l.foldl f s) := by
  induction l generalizing s with
  | nil => exact Ext.refl s
  | cons a l ih => exact (hf s a).trans (ih _)

theorem ext_lostOne (n : Nid) (s : S) (t : Req) : Ext s (lostOne n s t) := by
  unfold lostOne
  dsimp only
  have h : Ext s (if (s.nodes n).idx t ≤ (s.nodes n).base then respond s n (self s n t) t (.err .truncated) else s) := by
    split
    · exact ext_respond _ _ _ _ _
    · exact Ext.refl s
  split
  · exact Ext.refl s
  · split
    · exact h
    · split
      · exact h
      · exact h.trans (ext_respond _ _ _ _ _)

theorem ext_advance (s : S) (n d) : Ext s (advance s n d) := ext_same rfl rfl rfl

theorem ext_applyEntry (s : S) (n e) : Ext s (applyEntry s n e) := by
  unfold applyEntry
  dsimp only
  split
  · split
    · exact (ext_advance s n []).trans (ext_setNode _ n _)
    · exact ext_advance s n []
  · rename_i t _
    refine Ext.trans (s1 := advance s n [(n, (s.nodes n).applied + 1, t)]) (ext_advance s n _) ?_
    split
    · split
      · exact ext_finishOwn _ _ _ _ _
      · exact ext_finishCopy _ _ _ _ _
    · split
      · exact ext_respond _ _ _ _ _
      · exact Ext.refl _

theorem ext_applyN (n : Nid) (c : Nat) (s : S) : Ext s (applyN s n c) := by
  induction c generalizing s with
  | zero => exact Ext.refl s
  | succ c ih =>
    refine Ext.trans ?_ (ih _)
    unfold applyOne
    split
    · exact Ext.refl s
    · exact ext_applyEntry _ _ _

theorem ext_commit (s : S) (n c) : Ext s (commit s n c) := by
  unfold commit
  dsimp only
  simp only [resubmit_eq, ite_self]
  split
  · exact (ext_applyN n c s).trans (ext_foldl _ (ext_lostOne n) _ _)
  · exact ext_applyN n c s

theorem ext_append (s : S) (n w own) : Ext s (append s n w own) :=
  ⟨Nat.le_refl _, List.prefix_append _ _, fun _ _ _ h => h, fun _ _ => rfl⟩

theorem ext_flushOne (n single) (s : S) (t) : Ext s (flushOne n single s t) :=
  (ext_append s n (.req t) (self s n t)).trans (ext_same rfl rfl rfl)

theorem ext_replicate (s : S) (n t) : Ext s (replicate s n t) := by
  unfold replicate
  dsimp only
  split
  · exact ext_same rfl rfl rfl
  · exact ext_same rfl rfl rfl

theorem ext_step (s : S) (e : Ev) : Ext s (step s e) := by
  cases e with
  | submit n c a f =>
    simp only [step, submit]
    have hx : Ext s { s with next := s.next + 1 } := ⟨Nat.le_succ _, List.prefix_rfl, fun _ _ _ h => h, fun _ _ => rfl⟩
    have hc : ∀ (c : Caller) (g : Node → Node), Ext s (({ s with next := s.next + 1 }.setNode n g).setCaller s.next fun _ => c) := by
      intro c g
      refine ⟨Nat.le_succ _, List.prefix_rfl, ?_, ?_⟩
      · intro t a ht ha
        dsimp only [S.setCaller]; rw [if_neg (Nat.ne_of_lt ht)]; exact ha
      · intro t ht
        dsimp only [S.setCaller]; rw [if_neg (Nat.ne_of_lt ht)]; rfl
    split
    · refine Ext.trans ?_ (ext_replicate _ _ _)
      have := hc { home := n, alive := true } (fun nd => nd)
      exact ⟨this.next, this.log, this.ans, this.home⟩
    · split
      · exact hc _ _
      · split
        · have h3 : ∀ l, Ext s (if a = true then S.send
              (({ s with next := s.next + 1 }.setNode n fun nd => if nd.leader = some n then { nd with leader := none } else nd).setCaller s.next
                fun _ => { home := n, alive := true, fwd := true }) (.redirect l s.next) else
              ({ s with next := s.next + 1 }.setNode n fun nd => if nd.leader = some n then { nd with leader := none } else nd).setCaller s.next
                fun _ => { home := n, alive := true, fwd := true }) := by
            intro l
            split
            · exact (hc _ _).trans (ext_send _ _)
            · exact hc _ _
          split
          · exact h3 _
          · exact (h3 _).trans (ext_setNode _ _ _)
        · exact hc _ _
  | deliver i =>
    simp only [step, deliver]
    split
    · exact Ext.refl s
    · rename_i m _
      have h1 : Ext s { s with net := s.net.eraseIdx i } := ext_same rfl rfl rfl
      refine h1.trans ?_
      generalize ({ s with net := s.net.eraseIdx i } : S) = s1 at *
      cases m with
      | redirect d t =>
        dsimp only [onRedirect]
        split
        · exact ext_replicate _ _ _
        · refine Ext.trans ?_ (ext_finishCopy _ _ _ _ _)
          split
          · exact Ext.refl _
          · exact ext_send _ _
      | answer t a =>
        dsimp only [onAnswer]
        split
        · exact (ext_setNode _ _ _).trans (ext_finishOwn _ _ _ _ _)
        · exact Ext.refl _
      | stepped t l => exact ext_setNode _ _ _
  | lose i => exact ext_same rfl rfl rfl
  | flush n g =>
    simp only [step, flush]
    have h : Ext s ((s.nodes n).batch.foldl (flushOne n g) (s.setNode n fun nd => { nd with batch := [] })) :=
      (ext_setNode s n _).trans (ext_foldl _ (ext_flushOne n g) _ _)
    split
    · exact h.trans (ext_commit _ _ _)
    · exact h
  | elect n T g =>
    simp only [step, elect]
    split
    · exact Ext.refl s
    · have h : Ext s (append (s.setNode n fun nd => { nd with leading := true, term := T, leader := some n }) n (.noop n T) false) :=
        (ext_setNode s n _).trans (ext_append _ _ _ _)
      refine Ext.trans ?_ (ext_setNode _ _ _)
      split
      · exact h.trans (ext_commit _ _ _)
      · exact h
  | depose n T =>
    obtain ⟨X, _, e⟩ := depose_eq s n T
    simp only [step, e]
    exact ext_same rfl rfl rfl
  | learn n l =>
    simp only [step]
    split
    · exact Ext.refl s
    · exact ext_setNode _ _ _
  | receive n k es =>
    simp only [step, receive]
    split
    · exact ext_setNode _ _ _
    · exact Ext.refl s
  | install n es =>
    simp only [step, install]
    split
    · exact ext_setNode _ _ _
    · exact Ext.refl s
  | commit n c => exact ext_commit _ _ _
  | compact n b =>
    simp only [step, compact]
    split
    · exact ext_setNode _ _ _
    · exact Ext.refl s
  | crash n =>
    refine ⟨Nat.le_refl _, List.prefix_rfl, ?_, ?_⟩
    · intro t a _ ha
      simp only [step, crash, S.setNode]
      split <;> exact ha
    · intro t _
      simp only [step, crash, S.setNode]
      split <;> rfl

theorem ext_run (es : List Ev) (s : S) : Ext s (run s es) := by
  induction es generalizing s with
  | nil => exact Ext.refl s
  | cons e es ih => exact (ext_step s e).trans (ih _)

theorem Inv.run {loc s} (h : Inv loc none s) (es : List Ev) :
    ∃ loc', Inv loc' none (run s es) ∧ Keep s.next loc loc' := by
  induction es generalizing loc s with
  | nil => exact ⟨loc, h, Keep.refl _ _⟩
  | cons e es ih =>
    obtain ⟨l1, h1, k1⟩ := h.step e
    obtain ⟨l2, h2, k2⟩ := ih h1
    exact ⟨l2, h2, k1.trans k2 (ext_step s e).next⟩

theorem inv_run (es : List Ev) : ∃ loc, Inv loc none (run init es) := by
  obtain ⟨l, h, _⟩ := inv_init.run es
  exact ⟨l, h⟩

theorem run_append (s : S) (es fs : List Ev) : run s (es ++ fs) = run (run s es) fs := List.foldl_append ..

/-- Nobody is going to act on request t. -/
structure Doomed (s : S) (t : Req) : Prop where
  lt : t < s.next
  carrier : NoCarrier s t
  ans : (s.callers t).ans = .none
  msg : ∀ a, Msg.answer t a ∉ s.net

theorem doomed_run {loc s t} (h : Inv loc none s) (hd : Doomed s t) (es : List Ev) :
    ((run s es).callers t).ans = .none ∧ ∀ p ∈ (run s es).logged, p.what ≠ .req t := by
  have h1 := h.reloc hd.carrier .lost (Or.inr (Or.inr ⟨rfl, hd.ans, hd.msg⟩))
  obtain ⟨l, h2, k⟩ := h1.run es
  have hl : l t = .lost := (k t hd.lt).2 (if_pos rfl)
  constructor
  · cases ha : ((run s es).callers t).ans with
    | none => rfl
    | some a =>
      have := (h2.ans t a ha).2
      cases a with
      | err w => rw [Just, hl] at this; exact nomatch this.1
      | ok i =>
        obtain ⟨p, hp, _, hq⟩ := h2.backed_logged this
        have := (h2.log p hp t hq).1
        rw [hl] at this; exact nomatch this
  · intro p hp hq
    have := (h2.log p hp t hq).1
    rw [hl] at this; exact nomatch this

end Verif.Ticket
