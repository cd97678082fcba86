import Verif.Model.Simnet

/-! Helper lemmas for the network simulator: queues, small moves, and the invariant they keep. -/

namespace Verif.Simnet

/-- The message without the flag that the network sets on it. -/
def Mop.core (m : Mop) : Mop := { m with filtered := false }

theorem Mop.core_sn (m : Mop) : m.core.sn = m.sn := rfl
theorem Mop.core_core (m : Mop) : m.core.core = m.core := rfl

theorem Mop.core_ext {m m' : Mop} (h : m.core = m'.core) :
    m.sn = m'.sn ∧ m.isSend = m'.isSend ∧ m.origin = m'.origin ∧ m.target = m'.target ∧ m.payload = m'.payload ∧
      m.eof = m'.eof ∧ m.initTm = m'.initTm ∧ m.arrivalTm = m'.arrivalTm ∧ m.tie = m'.tie := by
  cases m; cases m'
  simp only [Mop.core, Mop.mk.injEq] at h
  exact ⟨h.1, h.2.1, h.2.2.1, h.2.2.2.1, h.2.2.2.2.1, h.2.2.2.2.2.1, h.2.2.2.2.2.2.1, h.2.2.2.2.2.2.2.1, h.2.2.2.2.2.2.2.2.1⟩

/-! ### Queues -/

theorem upd_same {α β : Type} [DecidableEq α] (f : α → β) (a : α) (b : β) : upd f a b a = b := by simp [upd]
theorem upd_other {α β : Type} [DecidableEq α] (f : α → β) {a x : α} (b : β) (h : x ≠ a) : upd f a b x = f x := by
  simp [upd, h]

theorem mem_insertBefore {lt : Mop → Mop → Bool} {m x : Mop} {q : List Mop} :
    x ∈ insertBefore lt m q ↔ x = m ∨ x ∈ q := by
  induction q with
  | nil => simp [insertBefore]
  | cons y ys ih =>
    unfold insertBefore
    split
    · simp
    · simp only [List.mem_cons, ih]
      constructor
      · rintro (h | h | h)
        · exact .inr (.inl h)
        · exact .inl h
        · exact .inr (.inr h)
      · rintro (h | h | h)
        · exact .inr (.inl h)
        · exact .inl h
        · exact .inr (.inr h)

theorem addTo_new {k : QKind} {m : Mop} {q : List Mop} (h : ∀ y ∈ q, y.sn ≠ m.sn) :
    addTo k m q = insertBefore k.before m q := by
  unfold addTo
  rw [if_neg]
  simp only [List.any_eq_true, beq_iff_eq, not_exists, not_and]
  exact fun y hy => h y hy

theorem mem_addTo {k : QKind} {m x : Mop} {q : List Mop} (h : ∀ y ∈ q, y.sn ≠ m.sn) :
    x ∈ addTo k m q ↔ x = m ∨ x ∈ q := by rw [addTo_new h, mem_insertBefore]

theorem mem_delFrom {sn : Nat} {x : Mop} {q : List Mop} : x ∈ delFrom sn q ↔ x ∈ q ∧ x.sn ≠ sn := by
  simp [delFrom]

/-- Sorted in the order of the queue, with different serial numbers. -/
def Sorted (k : QKind) (q : List Mop) : Prop := q.Pairwise (fun a b => k.before a b = true ∧ a.sn ≠ b.sn)

theorem arrBefore_iff {a b : Mop} : Mop.arrBefore a b = true ↔ (a.arrivalTm < b.arrivalTm ∨
    (a.arrivalTm = b.arrivalTm ∧ (a.tie < b.tie ∨ (a.tie = b.tie ∧ a.sn < b.sn)))) := by simp [Mop.arrBefore]

theorem initBefore_iff {a b : Mop} : Mop.initBefore a b = true ↔ (a.initTm < b.initTm ∨
    (a.initTm = b.initTm ∧ (a.tie < b.tie ∨ (a.tie = b.tie ∧ a.sn < b.sn)))) := by simp [Mop.initBefore]

theorem before_trans (k : QKind) {a b c : Mop} (h : k.before a b = true) (h' : k.before b c = true) :
    k.before a c = true := by
  cases k <;> simp only [QKind.before, arrBefore_iff, initBefore_iff] at * <;> omega

theorem before_total (k : QKind) {a b : Mop} (h : a.sn ≠ b.sn) (h' : ¬ k.before a b = true) :
    k.before b a = true := by
  cases k <;> simp only [QKind.before, arrBefore_iff, initBefore_iff] at * <;> omega

theorem sorted_insert {k : QKind} {m : Mop} : ∀ {q : List Mop}, Sorted k q → (∀ y ∈ q, y.sn ≠ m.sn) →
    Sorted k (insertBefore k.before m q)
  | [], _, _ => by simp [Sorted, insertBefore]
  | y :: ys, hs, hn => by
    unfold insertBefore
    have hs' := List.pairwise_cons.1 hs
    split
    · rename_i hb
      refine List.pairwise_cons.2 ⟨?_, hs⟩
      intro x hx
      refine ⟨?_, fun he => hn x hx he.symm⟩
      rcases List.mem_cons.1 hx with rfl | hx
      · exact hb
      · exact before_trans k hb (hs'.1 x hx).1
    · rename_i hb
      refine List.pairwise_cons.2 ⟨?_, sorted_insert hs'.2 (fun z hz => hn z (List.mem_cons_of_mem _ hz))⟩
      intro x hx
      rcases mem_insertBefore.1 hx with rfl | hx
      · exact ⟨before_total k (fun he => hn y (List.mem_cons_self ..) he.symm) hb, hn y (List.mem_cons_self ..)⟩
      · exact hs'.1 x hx

theorem sorted_addTo {k : QKind} {m : Mop} {q : List Mop} (hs : Sorted k q) (hn : ∀ y ∈ q, y.sn ≠ m.sn) :
    Sorted k (addTo k m q) := by rw [addTo_new hn]; exact sorted_insert hs hn

theorem sorted_delFrom {k : QKind} {sn : Nat} {q : List Mop} (hs : Sorted k q) : Sorted k (delFrom sn q) :=
  List.Pairwise.filter _ hs

theorem Sorted.sn_inj {k : QKind} : ∀ {q : List Mop}, Sorted k q → ∀ {a b : Mop}, a ∈ q → b ∈ q → a.sn = b.sn → a = b
  | [], _, _, _, h, _, _ => nomatch h
  | y :: ys, hs, a, b, ha, hb, he => by
    have hs' := List.pairwise_cons.1 hs
    rcases List.mem_cons.1 ha with h1 | h1 <;> rcases List.mem_cons.1 hb with h2 | h2
    · rw [h1, h2]
    · rw [h1] at he; exact absurd he (hs'.1 _ h2).2
    · rw [h2] at he; exact absurd he.symm (hs'.1 _ h1).2
    · exact Sorted.sn_inj hs'.2 h1 h2 he

/-! ### Small moves -/

/-- Which messages may lie in a queue of node `n`. -/
def Fits : QKind → Node → Mop → Prop
  | .readQ, n, m => (m.isSend = false → m.origin = n) ∧ (m.isSend = true → m.target = n)
  | .deafReadQ, n, m => (m.isSend = false → m.origin = n) ∧ (m.isSend = true → m.target = n)
  | .preArrQ, n, m => m.isSend = true ∧ m.target = n
  | .droppedSendQ, n, m => m.isSend = true ∧ m.origin = n

theorem Fits.core {k : QKind} {n : Node} {m m' : Mop} (h : m'.core = m.core) (hf : Fits k n m) : Fits k n m' := by
  have e := Mop.core_ext h
  cases k <;> simp only [Fits, e.2.1, e.2.2.1, e.2.2.2.1] <;> exact hf

/-- The invariant of the network. -/
structure Inv (st : Net) : Prop where
  sorted : ∀ k n, Sorted k (st.q (k, n))
  fits : ∀ k n, ∀ m ∈ st.q (k, n), Fits k n m
  lt : ∀ p, ∀ m ∈ st.q p, m.sn < st.next
  route : ∀ p, ∀ m ∈ st.q p, (m.origin, m.target) ∈ st.handed
  known : ∀ p, ∀ m ∈ st.q p, m.isSend = true → m.core ∈ st.sent
  uniq : ∀ p p' m m', m ∈ st.q p → m' ∈ st.q p' → m.sn = m'.sn → p = p'
  sentNodup : (st.sent.map Mop.sn).Nodup
  sentLt : ∀ m ∈ st.sent, m.sn < st.next ∧ m.isSend = true ∧ m.core = m
  doneNodup : (st.done.map (fun d => d.send.sn)).Nodup
  doneRead : (st.done.map (fun d => d.read.sn)).Nodup
  doneKnown : ∀ d ∈ st.done, d.send.core ∈ st.sent ∧ d.read.sn < st.next
  doneGone : ∀ d ∈ st.done, ∀ p, ∀ m ∈ st.q p, m.sn ≠ d.send.sn ∧ m.sn ≠ d.read.sn
  wipedNodup : (st.wiped.map Mop.sn).Nodup
  wipedKnown : ∀ w ∈ st.wiped, w.core ∈ st.sent
  wipedGone : ∀ w ∈ st.wiped, (∀ p, ∀ m ∈ st.q p, m.sn ≠ w.sn) ∧ ∀ d ∈ st.done, d.send.sn ≠ w.sn
  total : ∀ m ∈ st.sent, (∃ p, ∃ m' ∈ st.q p, m'.core = m) ∨ (∃ d ∈ st.done, d.send.core = m) ∨ ∃ w ∈ st.wiped, w.core = m
  handedNe : ∀ e ∈ st.handed, e.1 ≠ e.2
  dns : ∀ n, st.inDns n = true → n ∈ st.all
  counts : ∀ o l, st.circ o = some l → ∀ e ∈ l, e.2.droppedN ≤ e.2.attempted

theorem Inv.init : Inv Simnet.init where
  sorted := fun _ _ => List.Pairwise.nil
  fits := fun _ _ _ h => nomatch h
  lt := fun _ _ h => nomatch h
  route := fun _ _ h => nomatch h
  known := fun _ _ h => nomatch h
  uniq := fun _ _ _ _ h => nomatch h
  sentNodup := List.nodup_nil
  sentLt := fun _ h => nomatch h
  doneNodup := List.nodup_nil
  doneRead := List.nodup_nil
  doneKnown := fun _ h => nomatch h
  doneGone := fun _ h => nomatch h
  wipedNodup := List.nodup_nil
  wipedKnown := fun _ h => nomatch h
  wipedGone := fun _ h => nomatch h
  total := fun _ h => nomatch h
  handedNe := fun _ h => nomatch h
  dns := fun _ h => by cases h
  counts := fun _ _ h => by cases h

/-- Fields the invariant does not look at may change. -/
theorem Inv.other {st st' : Net} (h : Inv st) (hq : st'.q = st.q) (hh : ∀ e ∈ st.handed, e ∈ st'.handed)
    (hn : ∀ e ∈ st'.handed, e.1 ≠ e.2) (hx : st.next ≤ st'.next)
    (hs : st'.sent = st.sent) (hd : st'.done = st.done) (hw : st'.wiped = st.wiped)
    (hdns : ∀ n, st'.inDns n = true → n ∈ st'.all)
    (hc : ∀ o l, st'.circ o = some l → ∀ e ∈ l, e.2.droppedN ≤ e.2.attempted) : Inv st' where
  sorted := by rw [hq]; exact h.sorted
  fits := by rw [hq]; exact h.fits
  lt := by rw [hq]; exact fun p m hm => Nat.lt_of_lt_of_le (h.lt p m hm) hx
  route := by rw [hq]; exact fun p m hm => hh _ (h.route p m hm)
  known := by rw [hq, hs]; exact h.known
  uniq := by rw [hq]; exact h.uniq
  sentNodup := by rw [hs]; exact h.sentNodup
  sentLt := by
    rw [hs]
    exact fun m hm => ⟨Nat.lt_of_lt_of_le (h.sentLt m hm).1 hx, (h.sentLt m hm).2⟩
  doneNodup := by rw [hd]; exact h.doneNodup
  doneRead := by rw [hd]; exact h.doneRead
  doneKnown := by
    rw [hd, hs]
    exact fun d hm => ⟨(h.doneKnown d hm).1, Nat.lt_of_lt_of_le (h.doneKnown d hm).2 hx⟩
  doneGone := by rw [hd, hq]; exact h.doneGone
  wipedNodup := by rw [hw]; exact h.wipedNodup
  wipedKnown := by rw [hw, hs]; exact h.wipedKnown
  wipedGone := by rw [hw, hq, hd]; exact h.wipedGone
  total := by rw [hs, hq, hd, hw]; exact h.total
  handedNe := hn
  dns := hdns
  counts := hc

theorem take_q (st : Net) (p : Place) (sn : Nat) (p' : Place) :
    (st.take p sn).q p' = if p' = p then delFrom sn (st.q p) else st.q p' := rfl
theorem put_q (st : Net) (p : Place) (m : Mop) (p' : Place) :
    (st.put p m).q p' = if p' = p then addTo p.1 m (st.q p) else st.q p' := rfl

theorem mem_take {st : Net} {p p' : Place} {sn : Nat} {x : Mop} :
    x ∈ (st.take p sn).q p' ↔ x ∈ st.q p' ∧ (p' = p → x.sn ≠ sn) := by
  rw [take_q]
  by_cases h : p' = p
  · subst h; simp [mem_delFrom]
  · simp [h]

theorem mem_put {st : Net} {p p' : Place} {m x : Mop} (h : ∀ y ∈ st.q p, y.sn ≠ m.sn) :
    x ∈ (st.put p m).q p' ↔ x ∈ st.q p' ∨ (p' = p ∧ x = m) := by
  rw [put_q]
  by_cases e : p' = p
  · subst e
    simp only [if_pos, true_and, mem_addTo h]
    exact Or.comm
  · simp [e]

/-- The new position of a message after a move. -/
theorem mem_move {st : Net} (hi : Inv st) {src dst : Place} {m m' : Mop} (hm : m ∈ st.q src)
    (hc : m'.core = m.core) {p : Place} {x : Mop} :
    x ∈ ((st.take src m.sn).put dst m').q p ↔ (x ∈ st.q p ∧ x.sn ≠ m.sn) ∨ (p = dst ∧ x = m') := by
  have hsn : m'.sn = m.sn := (Mop.core_ext hc).1
  have hne : ∀ y ∈ (st.take src m.sn).q dst, y.sn ≠ m'.sn := by
    intro y hy he
    have hy' := mem_take.1 hy
    have : dst = src := hi.uniq _ _ _ _ hy'.1 hm (he.trans hsn)
    exact hy'.2 this (he.trans hsn)
  rw [mem_put hne, mem_take]
  constructor
  · rintro (h | h)
    · left
      refine ⟨h.1, ?_⟩
      intro he
      exact h.2 (hi.uniq _ _ _ _ h.1 hm he) he
    · exact .inr h
  · rintro (h | h)
    · exact .inl ⟨h.1, fun _ => h.2⟩
    · exact .inr h

theorem Inv.move {st : Net} (hi : Inv st) {src dst : Place} {m m' : Mop} (hm : m ∈ st.q src)
    (hc : m'.core = m.core) (hf : Fits dst.1 dst.2 m') : Inv ((st.take src m.sn).put dst m') := by
  have hx := Mop.core_ext hc
  have hsn : m'.sn = m.sn := hx.1
  have key : ∀ {p : Place} {x : Mop}, x ∈ ((st.take src m.sn).put dst m').q p ↔
      (x ∈ st.q p ∧ x.sn ≠ m.sn) ∨ (p = dst ∧ x = m') := fun {p x} => mem_move hi hm hc
  have old : ∀ {p : Place} {x : Mop}, x ∈ ((st.take src m.sn).put dst m').q p →
      ∃ p', ∃ x' ∈ st.q p', x'.sn = x.sn ∧ x'.core = x.core := by
    intro p x hx'
    rcases key.1 hx' with h | h
    · exact ⟨p, x, h.1, rfl, rfl⟩
    · exact ⟨src, m, hm, by rw [h.2, hsn], by rw [h.2, hc]⟩
  refine
    { sorted := ?_, fits := ?_, lt := ?_, route := ?_, known := ?_, uniq := ?_, sentNodup := hi.sentNodup,
      sentLt := hi.sentLt, doneNodup := hi.doneNodup, doneRead := hi.doneRead, doneKnown := hi.doneKnown,
      doneGone := ?_, wipedNodup := hi.wipedNodup, wipedKnown := hi.wipedKnown, wipedGone := ?_, total := ?_,
      handedNe := hi.handedNe, dns := hi.dns, counts := hi.counts }
  · intro k n
    rw [put_q]
    have h1 : Sorted k ((st.take src m.sn).q (k, n)) := by
      rw [take_q]
      split
      · rename_i h; subst h; exact sorted_delFrom (hi.sorted k n)
      · exact hi.sorted k n
    split
    · rename_i h; subst h
      refine sorted_addTo h1 ?_
      intro y hy he
      have hy' := mem_take.1 hy
      exact hy'.2 (hi.uniq _ _ _ _ hy'.1 hm (he.trans hsn)) (he.trans hsn)
    · exact h1
  · intro k n x hx'
    rcases key.1 hx' with h | h
    · exact hi.fits k n x h.1
    · obtain ⟨h1, h2⟩ := h
      subst h1; subst h2
      exact hf
  · intro p x hx'
    obtain ⟨p', x', h1, h2, _⟩ := old hx'
    rw [← h2]; exact hi.lt p' x' h1
  · intro p x hx'
    obtain ⟨p', x', h1, _, h3⟩ := old hx'
    have e := Mop.core_ext h3
    rw [← e.2.2.1, ← e.2.2.2.1]; exact hi.route p' x' h1
  · intro p x hx' hs
    obtain ⟨p', x', h1, _, h3⟩ := old hx'
    rw [← h3]
    exact hi.known p' x' h1 (by rw [(Mop.core_ext h3).2.1]; exact hs)
  · intro p p' x x' h1 h2 he
    rcases key.1 h1 with h1 | h1 <;> rcases key.1 h2 with h2 | h2
    · exact hi.uniq _ _ _ _ h1.1 h2.1 he
    · exact absurd (he.trans (by rw [h2.2, hsn])) h1.2
    · exact absurd (he.symm.trans (by rw [h1.2, hsn])) h2.2
    · rw [h1.1, h2.1]
  · intro d hd p x hx'
    obtain ⟨p', x', h1, h2, _⟩ := old hx'
    rw [← h2]; exact hi.doneGone d hd p' x' h1
  · intro w hw
    refine ⟨?_, (hi.wipedGone w hw).2⟩
    intro p x hx'
    obtain ⟨p', x', h1, h2, _⟩ := old hx'
    rw [← h2]; exact (hi.wipedGone w hw).1 p' x' h1
  · intro s hs
    rcases hi.total s hs with ⟨p, x, h1, h2⟩ | h | h
    · left
      by_cases he : x.sn = m.sn
      · refine ⟨dst, m', key.2 (.inr ⟨rfl, rfl⟩), ?_⟩
        have hp := hi.uniq _ _ _ _ h1 hm he
        subst hp
        obtain ⟨k, n⟩ := p
        have : x = m := (hi.sorted k n).sn_inj h1 hm he
        rw [hc, ← this, h2]
      · exact ⟨p, x, key.2 (.inl ⟨h1, he⟩), h2⟩
    · exact .inr (.inl h)
    · exact .inr (.inr h)

/-- A new message or read request. -/
theorem Inv.accept {st : Net} (hi : Inv st) {dst : Place} {m : Mop} (hsn : m.sn = st.next) (hcore : m.core = m)
    (hr : (m.origin, m.target) ∈ st.handed) (hf : Fits dst.1 dst.2 m) {st' : Net}
    (hq : st'.q = (st.put dst m).q) (hn : st'.next = st.next + 1)
    (hs : st'.sent = if m.isSend then m :: st.sent else st.sent) (hd : st'.done = st.done) (hw : st'.wiped = st.wiped)
    (hh : st'.handed = st.handed) (hdn : st'.inDns = st.inDns) (ha : st'.all = st.all) (hci : st'.circ = st.circ) : Inv st' := by
  have hnew : ∀ p, ∀ y ∈ st.q p, y.sn ≠ m.sn := fun p y hy he => by
    have := hi.lt p y hy
    omega
  have key : ∀ {p : Place} {x : Mop}, x ∈ st'.q p ↔ x ∈ st.q p ∨ (p = dst ∧ x = m) := by
    intro p x; rw [hq]; exact mem_put (hnew dst)
  have sub : ∀ s ∈ st.sent, s ∈ st'.sent := by
    intro s hs'; rw [hs]; split
    · exact List.mem_cons_of_mem _ hs'
    · exact hs'
  refine
    { sorted := ?_, fits := ?_, lt := ?_, route := ?_, known := ?_, uniq := ?_, sentNodup := ?_,
      sentLt := ?_, doneNodup := by rw [hd]; exact hi.doneNodup, doneRead := by rw [hd]; exact hi.doneRead,
      doneKnown := ?_, doneGone := ?_, wipedNodup := by rw [hw]; exact hi.wipedNodup, wipedKnown := ?_,
      wipedGone := ?_, total := ?_, handedNe := by rw [hh]; exact hi.handedNe, dns := by rw [hdn, ha]; exact hi.dns,
      counts := by rw [hci]; exact hi.counts }
  · intro k n
    rw [hq, put_q]
    split
    · rename_i h; subst h
      exact sorted_addTo (hi.sorted k n) (hnew _)
    · exact hi.sorted k n
  · intro k n x hx
    rcases key.1 hx with h | ⟨h, h2⟩
    · exact hi.fits k n x h
    · subst h; subst h2; exact hf
  · intro p x hx
    rw [hn]
    rcases key.1 hx with h | ⟨_, h2⟩
    · have := hi.lt p x h; omega
    · rw [h2]; omega
  · intro p x hx
    rw [hh]
    rcases key.1 hx with h | ⟨_, h2⟩
    · exact hi.route p x h
    · rw [h2]; exact hr
  · intro p x hx hsend
    rcases key.1 hx with h | ⟨_, h2⟩
    · exact sub _ (hi.known p x h hsend)
    · subst h2
      rw [hs, if_pos hsend, hcore]
      exact List.mem_cons_self ..
  · intro p p' x x' h1 h2 he
    rcases key.1 h1 with h1 | h1 <;> rcases key.1 h2 with h2 | h2
    · exact hi.uniq _ _ _ _ h1 h2 he
    · rw [h2.2] at he; exact absurd he (hnew _ _ h1)
    · rw [h1.2] at he; exact absurd he.symm (hnew _ _ h2)
    · rw [h1.1, h2.1]
  · rw [hs]
    split
    · simp only [List.map_cons, List.nodup_cons]
      refine ⟨?_, hi.sentNodup⟩
      intro hmem
      obtain ⟨s, h1, h2⟩ := List.mem_map.1 hmem
      have := (hi.sentLt s h1).1
      omega
    · exact hi.sentNodup
  · intro s hs'
    rw [hs] at hs'
    rw [hn]
    split at hs'
    · rename_i hsend
      rcases List.mem_cons.1 hs' with rfl | h
      · exact ⟨by omega, hsend, hcore⟩
      · have := hi.sentLt s h
        exact ⟨by omega, this.2⟩
    · have := hi.sentLt s hs'
      exact ⟨by omega, this.2⟩
  · intro d hdm
    rw [hd] at hdm
    have := hi.doneKnown d hdm
    exact ⟨sub _ this.1, by rw [hn]; omega⟩
  · intro d hdm p x hx
    rw [hd] at hdm
    rcases key.1 hx with h | ⟨_, h2⟩
    · exact hi.doneGone d hdm p x h
    · subst h2
      have := hi.doneKnown d hdm
      have h3 := (hi.sentLt _ this.1).1
      rw [Mop.core_sn] at h3
      exact ⟨by omega, by omega⟩
  · intro w hwm
    rw [hw] at hwm
    exact sub _ (hi.wipedKnown w hwm)
  · intro w hwm
    rw [hw] at hwm
    rw [hd]
    refine ⟨?_, (hi.wipedGone w hwm).2⟩
    intro p x hx
    rcases key.1 hx with h | ⟨_, h2⟩
    · exact (hi.wipedGone w hwm).1 p x h
    · subst h2
      have h3 := (hi.sentLt _ (hi.wipedKnown w hwm)).1
      rw [Mop.core_sn] at h3
      omega
  · intro s hs'
    have old : s ∈ st.sent → (∃ p, ∃ m' ∈ st'.q p, m'.core = s) ∨ (∃ d ∈ st'.done, d.send.core = s) ∨
        ∃ w ∈ st'.wiped, w.core = s := by
      intro h
      rw [hd, hw]
      rcases hi.total s h with ⟨p, x, h1, h2⟩ | h | h
      · exact .inl ⟨p, x, key.2 (.inl h1), h2⟩
      · exact .inr (.inl h)
      · exact .inr (.inr h)
    rw [hs] at hs'
    split at hs'
    · rcases List.mem_cons.1 hs' with rfl | h
      · exact .inl ⟨dst, s, key.2 (.inr ⟨rfl, rfl⟩), hcore⟩
      · exact old h
    · exact old hs'

/-- What matches a message is a read request, not a misplaced message. -/
theorem Inv.reader {st : Net} (hi : Inv st) {n : Node} {r m : Mop} (hr : r ∈ st.q (.readQ, n))
    (hm : m ∈ st.q (.preArrQ, n)) (ht : r.target = m.origin) : r.isSend = false ∧ r.origin = n := by
  have h1 := hi.fits _ _ r hr
  have h2 := hi.fits _ _ m hm
  have h3 := hi.handedNe _ (hi.route _ m hm)
  cases h : r.isSend with
  | false => exact ⟨rfl, h1.1 h⟩
  | true => exact absurd (ht.symm.trans ((h1.2 h).trans h2.2.symm)) h3

/-- A read is given a message. -/
theorem Inv.deliver {st : Net} (hi : Inv st) {n : Node} {r m m' : Mop} {now : Nat} (hr : r ∈ st.q (.readQ, n))
    (hm : m ∈ st.q (.preArrQ, n)) (hc : m'.core = m.core) (hrs : r.isSend = false) :
    Inv { ((st.take (.preArrQ, n) m.sn).take (.readQ, n) r.sn) with done := ⟨r, m', now⟩ :: st.done } := by
  have hsn : m'.sn = m.sn := (Mop.core_ext hc).1
  have hne : r.sn ≠ m.sn := by
    intro he
    have := hi.uniq _ _ _ _ hr hm he
    cases this
  have key : ∀ {p : Place} {x : Mop},
      x ∈ ((st.take (.preArrQ, n) m.sn).take (.readQ, n) r.sn).q p ↔ x ∈ st.q p ∧ x.sn ≠ m.sn ∧ x.sn ≠ r.sn := by
    intro p x
    rw [mem_take, mem_take]
    constructor
    · rintro ⟨⟨h1, h2⟩, h3⟩
      exact ⟨h1, fun he => h2 (hi.uniq _ _ _ _ h1 hm he) he, fun he => h3 (hi.uniq _ _ _ _ h1 hr he) he⟩
    · rintro ⟨h1, h2, h3⟩
      exact ⟨⟨h1, fun _ => h2⟩, fun _ => h3⟩
  have hsendm : m.isSend = true := (hi.fits _ _ m hm).1
  refine
    { sorted := ?_, fits := fun k n' x hx => hi.fits k n' x (key.1 hx).1, lt := fun p x hx => hi.lt p x (key.1 hx).1,
      route := fun p x hx => hi.route p x (key.1 hx).1, known := fun p x hx => hi.known p x (key.1 hx).1,
      uniq := fun p p' x x' h1 h2 => hi.uniq p p' x x' (key.1 h1).1 (key.1 h2).1, sentNodup := hi.sentNodup,
      sentLt := hi.sentLt, doneNodup := ?_, doneRead := ?_, doneKnown := ?_, doneGone := ?_,
      wipedNodup := hi.wipedNodup, wipedKnown := hi.wipedKnown, wipedGone := ?_, total := ?_,
      handedNe := hi.handedNe, dns := hi.dns, counts := hi.counts }
  · intro k n'
    have tk : ∀ (s : Net) (p : Place) (i : Nat), (∀ k n, Sorted k (s.q (k, n))) → ∀ k n, Sorted k ((s.take p i).q (k, n)) := by
      intro s p i h k n
      rw [take_q]
      split
      · rename_i e; subst e; exact sorted_delFrom (h k n)
      · exact h k n
    exact tk _ _ _ (tk _ _ _ hi.sorted) k n'
  · show ((m'.sn) :: st.done.map (fun d => d.send.sn)).Nodup
    refine List.nodup_cons.2 ⟨?_, hi.doneNodup⟩
    intro hmem
    obtain ⟨d, h1, h2⟩ := List.mem_map.1 hmem
    exact (hi.doneGone d h1 _ m hm).1 (by rw [h2, hsn])
  · show ((r.sn) :: st.done.map (fun d => d.read.sn)).Nodup
    refine List.nodup_cons.2 ⟨?_, hi.doneRead⟩
    intro hmem
    obtain ⟨d, h1, h2⟩ := List.mem_map.1 hmem
    exact (hi.doneGone d h1 _ r hr).2 h2.symm
  · intro d hd
    rcases List.mem_cons.1 hd with rfl | hd
    · exact ⟨by show m'.core ∈ st.sent; rw [hc]; exact hi.known _ m hm hsendm, hi.lt _ r hr⟩
    · exact hi.doneKnown d hd
  · intro d hd p x hx
    rcases List.mem_cons.1 hd with rfl | hd
    · have := (key.1 hx).2
      exact ⟨by show x.sn ≠ m'.sn; rw [hsn]; exact this.1, this.2⟩
    · exact hi.doneGone d hd p x (key.1 hx).1
  · intro w hw
    refine ⟨fun p x hx => (hi.wipedGone w hw).1 p x (key.1 hx).1, ?_⟩
    intro d hd
    rcases List.mem_cons.1 hd with rfl | hd
    · show m'.sn ≠ w.sn
      rw [hsn]; exact (hi.wipedGone w hw).1 _ m hm
    · exact (hi.wipedGone w hw).2 d hd
  · intro s hs
    rcases hi.total s hs with ⟨p, x, h1, h2⟩ | ⟨d, h1, h2⟩ | h
    · by_cases he : x.sn = m.sn
      · have hp := hi.uniq _ _ _ _ h1 hm he
        subst hp
        have : x = m := (hi.sorted _ _).sn_inj h1 hm he
        exact .inr (.inl ⟨_, List.mem_cons_self .., by show m'.core = s; rw [hc, ← this, h2]⟩)
      · by_cases he' : x.sn = r.sn
        · have hp := hi.uniq _ _ _ _ h1 hr he'
          subst hp
          have hxr : x = r := (hi.sorted _ _).sn_inj h1 hr he'
          have h3 := (hi.sentLt s hs).2.1
          rw [← h2] at h3
          have h4 : x.isSend = true := h3
          rw [hxr, hrs] at h4
          cases h4
        · exact .inl ⟨p, x, key.2 ⟨h1, he, he'⟩, h2⟩
    · exact .inr (.inl ⟨d, List.mem_cons_of_mem _ h1, h2⟩)
    · exact .inr (.inr h)

/-- A message refused because its connection is gone. -/
theorem Inv.refuse {st : Net} (hi : Inv st) {m : Mop} (hsn : m.sn = st.next) (hcore : m.core = m)
    (hsend : m.isSend = true) {st' : Net} (hq : st'.q = st.q) (hn : st'.next = st.next + 1)
    (hs : st'.sent = m :: st.sent) (hd : st'.done = st.done) (hw : st'.wiped = m :: st.wiped)
    (hh : st'.handed = st.handed) (hdn : st'.inDns = st.inDns) (ha : st'.all = st.all) (hci : st'.circ = st.circ) : Inv st' := by
  have hnew : ∀ p, ∀ y ∈ st.q p, y.sn ≠ m.sn := fun p y hy he => by
    have := hi.lt p y hy
    omega
  have sub : ∀ s ∈ st.sent, s ∈ st'.sent := by intro s hs'; rw [hs]; exact List.mem_cons_of_mem _ hs'
  refine
    { sorted := by rw [hq]; exact hi.sorted, fits := by rw [hq]; exact hi.fits,
      lt := by rw [hq, hn]; exact fun p x hx => Nat.lt_succ_of_lt (hi.lt p x hx),
      route := by rw [hq, hh]; exact hi.route,
      known := by rw [hq]; exact fun p x hx h => sub _ (hi.known p x hx h), uniq := by rw [hq]; exact hi.uniq,
      sentNodup := ?_, sentLt := ?_, doneNodup := by rw [hd]; exact hi.doneNodup, doneRead := by rw [hd]; exact hi.doneRead,
      doneKnown := ?_, doneGone := by rw [hd, hq]; exact hi.doneGone, wipedNodup := ?_, wipedKnown := ?_,
      wipedGone := ?_, total := ?_, handedNe := by rw [hh]; exact hi.handedNe, dns := by rw [hdn, ha]; exact hi.dns,
      counts := by rw [hci]; exact hi.counts }
  · rw [hs]
    simp only [List.map_cons, List.nodup_cons]
    refine ⟨?_, hi.sentNodup⟩
    intro hmem
    obtain ⟨s, h1, h2⟩ := List.mem_map.1 hmem
    have := (hi.sentLt s h1).1
    omega
  · intro s hs'
    rw [hs] at hs'
    rw [hn]
    rcases List.mem_cons.1 hs' with rfl | h
    · exact ⟨by omega, hsend, hcore⟩
    · have := hi.sentLt s h
      exact ⟨by omega, this.2⟩
  · intro d hdm
    rw [hd] at hdm
    have := hi.doneKnown d hdm
    exact ⟨sub _ this.1, by rw [hn]; omega⟩
  · rw [hw]
    simp only [List.map_cons, List.nodup_cons]
    refine ⟨?_, hi.wipedNodup⟩
    intro hmem
    obtain ⟨s, h1, h2⟩ := List.mem_map.1 hmem
    have := (hi.sentLt _ (hi.wipedKnown s h1)).1
    rw [Mop.core_sn] at this
    omega
  · intro w hwm
    rw [hw] at hwm
    rcases List.mem_cons.1 hwm with rfl | h
    · rw [hs, hcore]; exact List.mem_cons_self ..
    · exact sub _ (hi.wipedKnown w h)
  · intro w hwm
    rw [hw] at hwm
    rw [hq, hd]
    rcases List.mem_cons.1 hwm with rfl | h
    · refine ⟨hnew, ?_⟩
      intro d hdm he
      have := (hi.sentLt _ (hi.doneKnown d hdm).1).1
      rw [Mop.core_sn] at this
      omega
    · exact hi.wipedGone w h
  · intro s hs'
    rw [hs] at hs'
    rw [hq, hd, hw]
    rcases List.mem_cons.1 hs' with rfl | h
    · exact .inr (.inr ⟨s, List.mem_cons_self .., hcore⟩)
    · rcases hi.total s h with h | h | ⟨w, h1, h2⟩
      · exact .inl h
      · exact .inr (.inl h)
      · exact .inr (.inr ⟨w, List.mem_cons_of_mem _ h1, h2⟩)

/-- The messages of the queues of one node. -/
def gone (st : Net) (n : Node) : List Mop :=
  (st.q (.readQ, n) ++ st.q (.preArrQ, n) ++ st.q (.deafReadQ, n) ++ st.q (.droppedSendQ, n)).filter (·.isSend)

theorem mem_gone {st : Net} {n : Node} {x : Mop} : x ∈ gone st n ↔ x.isSend = true ∧ ∃ k, x ∈ st.q (k, n) := by
  simp only [gone, List.mem_filter, List.mem_append]
  constructor
  · rintro ⟨((h | h) | h) | h, hs⟩
    · exact ⟨hs, _, h⟩
    · exact ⟨hs, _, h⟩
    · exact ⟨hs, _, h⟩
    · exact ⟨hs, _, h⟩
  · rintro ⟨hs, k, h⟩
    refine ⟨?_, hs⟩
    cases k with
    | readQ => exact .inl (.inl (.inl h))
    | preArrQ => exact .inl (.inl (.inr h))
    | deafReadQ => exact .inl (.inr h)
    | droppedSendQ => exact .inr h

theorem Inv.nodup1 {st : Net} (hi : Inv st) (p : Place) : ((st.q p).map Mop.sn).Nodup := by
  obtain ⟨k, n⟩ := p
  rw [List.nodup_iff_pairwise_ne, List.pairwise_map]
  exact (hi.sorted k n).imp (fun h => h.2)

theorem Inv.gone_nodup {st : Net} (hi : Inv st) (n : Node) : ((gone st n).map Mop.sn).Nodup := by
  have hd : ∀ p p' : Place, p ≠ p' → ∀ a ∈ (st.q p).map Mop.sn, ∀ b ∈ (st.q p').map Mop.sn, a ≠ b := by
    intro p p' hne a ha b hb he
    obtain ⟨x, hx, rfl⟩ := List.mem_map.1 ha
    obtain ⟨y, hy, rfl⟩ := List.mem_map.1 hb
    exact hne (hi.uniq _ _ _ _ hx hy he)
  have full : ((st.q (.readQ, n) ++ st.q (.preArrQ, n) ++ st.q (.deafReadQ, n) ++ st.q (.droppedSendQ, n)).map Mop.sn).Nodup := by
    simp only [List.map_append]
    rw [List.nodup_append, List.nodup_append, List.nodup_append]
    refine ⟨⟨⟨hi.nodup1 _, hi.nodup1 _, hd _ _ (by simp)⟩, hi.nodup1 _, ?_⟩, hi.nodup1 _, ?_⟩
    · intro a ha b hb
      rcases List.mem_append.1 ha with h | h
      · exact hd _ _ (by simp) a h b hb
      · exact hd _ _ (by simp) a h b hb
    · intro a ha b hb
      rcases List.mem_append.1 ha with h | h
      · rcases List.mem_append.1 h with h | h
        · exact hd _ _ (by simp) a h b hb
        · exact hd _ _ (by simp) a h b hb
      · exact hd _ _ (by simp) a h b hb
  exact full.sublist (List.Sublist.map _ List.filter_sublist)

/-- The queues of a node are emptied. -/
theorem Inv.wipe {st : Net} (hi : Inv st) (n : Node) {st' : Net} (hq : st'.q = fun p => if p.2 = n then [] else st.q p)
    (hn : st'.next = st.next) (hs : st'.sent = st.sent) (hd : st'.done = st.done) (hw : st'.wiped = gone st n ++ st.wiped)
    (hh : st'.handed = st.handed) (hdns : ∀ m, st'.inDns m = true → m ∈ st'.all)
    (hc : ∀ o l, st'.circ o = some l → ∀ e ∈ l, e.2.droppedN ≤ e.2.attempted) : Inv st' := by
  have key : ∀ {p : Place} {x : Mop}, x ∈ st'.q p ↔ x ∈ st.q p ∧ p.2 ≠ n := by
    intro p x
    rw [hq]
    by_cases h : p.2 = n <;> simp [h]
  refine
    { sorted := ?_, fits := fun k n' x hx => hi.fits k n' x (key.1 hx).1,
      lt := by rw [hn]; exact fun p x hx => hi.lt p x (key.1 hx).1,
      route := by rw [hh]; exact fun p x hx => hi.route p x (key.1 hx).1,
      known := by rw [hs]; exact fun p x hx => hi.known p x (key.1 hx).1,
      uniq := fun p p' x x' h1 h2 => hi.uniq p p' x x' (key.1 h1).1 (key.1 h2).1,
      sentNodup := by rw [hs]; exact hi.sentNodup,
      sentLt := by rw [hs, hn]; exact hi.sentLt, doneNodup := by rw [hd]; exact hi.doneNodup,
      doneRead := by rw [hd]; exact hi.doneRead,
      doneKnown := by rw [hd, hs, hn]; exact hi.doneKnown,
      doneGone := by rw [hd]; exact fun d hdm p x hx => hi.doneGone d hdm p x (key.1 hx).1,
      wipedNodup := ?_, wipedKnown := ?_, wipedGone := ?_, total := ?_, handedNe := by rw [hh]; exact hi.handedNe,
      dns := hdns, counts := hc }
  · intro k n'
    rw [hq]
    show Sorted k (if n' = n then [] else st.q (k, n'))
    split
    · exact List.Pairwise.nil
    · exact hi.sorted k n'
  · rw [hw, List.map_append, List.nodup_append]
    refine ⟨hi.gone_nodup n, hi.wipedNodup, ?_⟩
    intro a ha b hb he
    obtain ⟨x, hx, rfl⟩ := List.mem_map.1 ha
    obtain ⟨w, hw', rfl⟩ := List.mem_map.1 hb
    obtain ⟨_, k, hk⟩ := mem_gone.1 hx
    exact (hi.wipedGone w hw').1 _ x hk he
  · intro w hw'
    rw [hw] at hw'
    rw [hs]
    rcases List.mem_append.1 hw' with h | h
    · obtain ⟨h1, k, hk⟩ := mem_gone.1 h
      exact hi.known _ w hk h1
    · exact hi.wipedKnown w h
  · intro w hw'
    rw [hw] at hw'
    rw [hd]
    rcases List.mem_append.1 hw' with h | h
    · obtain ⟨h1, k, hk⟩ := mem_gone.1 h
      refine ⟨?_, fun d hdm he => (hi.doneGone d hdm _ w hk).1 he.symm⟩
      intro p x hx he
      have hx' := key.1 hx
      have := hi.uniq _ _ _ _ hx'.1 hk he
      exact hx'.2 (by rw [this])
    · exact ⟨fun p x hx => (hi.wipedGone w h).1 p x (key.1 hx).1, (hi.wipedGone w h).2⟩
  · intro s hs'
    rw [hs] at hs'
    rw [hd, hw]
    rcases hi.total s hs' with ⟨p, x, h1, h2⟩ | h | ⟨w, h1, h2⟩
    · by_cases hp : p.2 = n
      · refine .inr (.inr ⟨x, List.mem_append.2 (.inl (mem_gone.2 ⟨?_, p.1, ?_⟩)), h2⟩)
        · have := (hi.sentLt s hs').2.1
          rw [← h2] at this
          exact this
        · rw [← hp]; exact h1
      · exact .inl ⟨p, x, key.2 ⟨h1, hp⟩, h2⟩
    · exact .inr (.inl h)
    · exact .inr (.inr ⟨w, List.mem_append.2 (.inr h1), h2⟩)

end Verif.Simnet
