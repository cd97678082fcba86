import Verif.Spec.Rpc
/-
The invariant behind C51.
-/
namespace Verif.Rpc

theorem get_put (k v k' : Nat) (m) : get (put k v m) k' = if k = k' then some v else get m k' := by
  unfold get put
  by_cases h : k = k'
  · simp [h]
  · simp only [if_neg h, List.find?_cons]
    rw [show (k == k') = false from by simpa using h]
    simp only
    congr 1
    induction m with
    | nil => rfl
    | cons a t ih =>
      by_cases ha : a.1 = k
      · rw [List.filter_cons_of_neg (by simpa using ha), ih, List.find?_cons]
        rw [show (a.1 == k') = false from by simp [ha, h]]
      · rw [List.filter_cons_of_pos (by simpa using ha), List.find?_cons, List.find?_cons, ih]

theorem get_del (k k' : Nat) (m) : get (del k m) k' = if k = k' then none else get m k' := by
  unfold get del
  by_cases h : k = k'
  · subst h
    simp only [if_true, Option.map_eq_none_iff, List.find?_eq_none, List.mem_filter]
    simp
  · simp only [if_neg h]
    congr 1
    induction m with
    | nil => rfl
    | cons a t ih =>
      by_cases ha : a.1 = k
      · rw [List.filter_cons_of_neg (by simpa using ha), ih, List.find?_cons]
        rw [show (a.1 == k') = false from by simp [ha, h]]
      · rw [List.filter_cons_of_pos (by simpa using ha), List.find?_cons, List.find?_cons, ih]

/-- The call's number. -/
def Num (s : Sys) (h q : Nat) : Prop := ∃ c, s.calls[h]? = some c ∧ c.seqno = some q

def ReqOk (fs : List Nat) (s : Sys) (r : Req) : Prop :=
  r.kind ≠ .silent → r.seqno ∈ fs ∨ r.seqno ≤ s.cli.lastSeqno ∧ ∀ h, Num s h r.seqno →
    r.origin = some h ∧ r.kind = .rpc ∧ ∃ c, s.calls[h]? = some c ∧
      r.callID = c.callID ∧ r.body = c.body

def MsgOk (fs : List Nat) (s : Sys) (m : Msg) : Prop :=
  m.seqno ∈ fs ∨ m.seqno ≤ s.cli.lastSeqno ∧ ∀ h, Num s h m.seqno →
    ∃ c, s.calls[h]? = some c ∧ Answered s h c m

structure Inv (n : Nat) (fs : List Nat) (s : Sys) : Prop where
  last : s.cli.lastSeqno ≤ n
  range : ∀ h q, Num s h q → 1 ≤ q ∧ q ≤ s.cli.lastSeqno
  inj : ∀ h h' q, Num s h q → Num s h' q → h = h'
  taken : ∀ q ∈ s.taken, q ≤ s.cli.lastSeqno ∧ ∀ h, ¬ Num s h q
  once : ∀ h q, get s.cli.notifyOnce q = some h → Num s h q
  wait : ∀ h q, Num s h q → (∀ d, (h, d) ∉ s.cli.done) → get s.cli.notifyOnce q = some h
  req : ∀ r ∈ s.toSrv, ReqOk fs s r
  msg : ∀ m ∈ s.toCli, MsgOk fs s m
  fin : ∀ h m, (h, .reply m) ∈ s.cli.done → Num s h m.seqno ∧
    (m.seqno ∈ fs ∨ ∃ c, s.calls[h]? = some c ∧ Answered s h c m)
  out : ∀ h c m, s.calls[h]? = some c → c.outcome = some (.reply m) → (h, .reply m) ∈ s.cli.done

/-- What no step takes back. -/
structure Keep (s s' : Sys) : Prop where
  last : s.cli.lastSeqno ≤ s'.cli.lastSeqno
  back : ∀ h q, q ≤ s.cli.lastSeqno → Num s' h q → Num s h q
  fwd : ∀ (h : Nat) (c : Call), s.calls[h]? = some c → ∃ c' : Call, s'.calls[h]? = some c' ∧ c'.callID = c.callID ∧
    c'.body = c.body ∧ (∀ q, c.seqno = some q → c'.seqno = some q) ∧
    (∀ o, c.outcome = some o → c'.outcome = some o)
  ans : ∀ a ∈ s.answers, a ∈ s'.answers
  done : ∀ a ∈ s.cli.done, a ∈ s'.cli.done

theorem Keep.num {s s' : Sys} (k : Keep s s') {h q} (hn : Num s h q) : Num s' h q := by
  obtain ⟨c, hc, hq⟩ := hn
  obtain ⟨c', hc', _, _, h3, _⟩ := k.fwd h c hc
  exact ⟨c', hc', h3 q hq⟩

theorem Keep.answered {s s' : Sys} (k : Keep s s') {h m}
    (ha : ∃ c, s.calls[h]? = some c ∧ Answered s h c m) :
    ∃ c, s'.calls[h]? = some c ∧ Answered s' h c m := by
  obtain ⟨c, hc, r, hr, h1, h2, h3, h4⟩ := ha
  obtain ⟨c', hc', e1, e2, _⟩ := k.fwd h c hc
  exact ⟨c', hc', r, k.ans _ hr, h1, h2, h3.trans e1.symm, h4.trans e2.symm⟩

theorem Keep.reqOk {s s' : Sys} (k : Keep s s') {fs fs' : List Nat} (hf : ∀ x ∈ fs, x ∈ fs')
    {r} (hr : ReqOk fs s r) : ReqOk fs' s' r := by
  intro hk
  rcases hr hk with h | ⟨h1, h2⟩
  · exact .inl (hf _ h)
  · refine .inr ⟨Nat.le_trans h1 k.last, fun h hn => ?_⟩
    obtain ⟨e1, e2, c, hc, e3, e4⟩ := h2 h (k.back _ _ h1 hn)
    obtain ⟨c', hc', f1, f2, _⟩ := k.fwd h c hc
    exact ⟨e1, e2, c', hc', e3.trans f1.symm, e4.trans f2.symm⟩

theorem Keep.msgOk {s s' : Sys} (k : Keep s s') {fs fs' : List Nat} (hf : ∀ x ∈ fs, x ∈ fs')
    {m} (hm : MsgOk fs s m) : MsgOk fs' s' m := by
  rcases hm with h | ⟨h1, h2⟩
  · exact .inl (hf _ h)
  · exact .inr ⟨Nat.le_trans h1 k.last, fun h hn => k.answered (h2 h (k.back _ _ h1 hn))⟩

theorem Keep.refl (s : Sys) : Keep s s :=
  ⟨Nat.le_refl _, fun _ _ _ h => h, fun _ c h => ⟨c, h, rfl, rfl, fun _ h => h, fun _ h => h⟩,
    fun _ h => h, fun _ h => h⟩

/-- Changing an outcome only. -/
theorem getElem?_outcome {calls : List Call} {h : Nat} {c : Call} (hc : calls[h]? = some c)
    (o : Option Outcome) (h' : Nat) (x : Call) :
    (calls.set h { c with outcome := o })[h']? = some x ↔
      if h = h' then x = { c with outcome := o } else calls[h']? = some x := by
  rw [List.getElem?_set]
  have hl : h < calls.length := (List.getElem?_eq_some_iff.1 hc).1
  by_cases e : h = h'
  · subst e; simp [hl, eq_comm]
  · simp [e]

theorem num_outcome {s s' : Sys} {h : Nat} {c : Call} (hc : s.calls[h]? = some c)
    {o : Option Outcome} (e : s'.calls = s.calls.set h { c with outcome := o }) (h' q : Nat) :
    Num s' h' q ↔ Num s h' q := by
  unfold Num
  rw [e]
  simp only [getElem?_outcome hc]
  by_cases e : h = h'
  · subst e; simp [hc]
  · simp [e]

theorem keep_outcome {s : Sys} {h : Nat} {c : Call} (hc : s.calls[h]? = some c)
    (hn : c.outcome = none) (o : Outcome) :
    Keep s { s with calls := s.calls.set h { c with outcome := some o } } where
  last := Nat.le_refl _
  back := fun h' q _ hq => (num_outcome hc rfl h' q).1 hq
  fwd := by
    intro h' x hx
    by_cases e : h = h'
    · subst e
      rw [hc] at hx
      obtain rfl := Option.some.inj hx
      exact ⟨{ c with outcome := some o }, (getElem?_outcome hc _ _ _).2 (by simp), rfl, rfl,
        fun _ h => h, fun o' ho => by rw [hn] at ho; exact absurd ho (by simp)⟩
    · exact ⟨x, (getElem?_outcome hc _ _ _).2 (by simp [e, hx]), rfl, rfl, fun _ h => h,
        fun _ h => h⟩
  ans := fun _ h => h
  done := fun _ h => h

theorem inv_outcome {n fs} {s : Sys} (i : Inv n fs s) {h : Nat} {c : Call}
    (hc : s.calls[h]? = some c) (hn : c.outcome = none) (o : Outcome)
    (ho : ∀ m, o = .reply m → (h, .reply m) ∈ s.cli.done) :
    Inv n fs { s with calls := s.calls.set h { c with outcome := some o } } := by
  have k := keep_outcome hc hn o
  have hN : ∀ h' q, Num { s with calls := s.calls.set h { c with outcome := some o } } h' q ↔
      Num s h' q := num_outcome hc rfl
  exact {
    last := i.last
    range := fun h q hq => i.range h q ((hN _ _).1 hq)
    inj := fun h h' q hq hq' => i.inj h h' q ((hN _ _).1 hq) ((hN _ _).1 hq')
    taken := fun q hq => ⟨(i.taken q hq).1, fun h hh => (i.taken q hq).2 h ((hN _ _).1 hh)⟩
    once := fun h q hq => (hN _ _).2 (i.once h q hq)
    wait := fun h q hq hd => i.wait h q ((hN _ _).1 hq) hd
    req := fun r hr => k.reqOk (fun _ h => h) (i.req r hr)
    msg := fun m hm => k.msgOk (fun _ h => h) (i.msg m hm)
    fin := fun h m hm => ⟨(hN _ _).2 (i.fin h m hm).1, (i.fin h m hm).2.imp id k.answered⟩
    out := by
      intro h' x m hx hm
      have hx := (getElem?_outcome hc _ _ _).1 hx
      by_cases e : h = h'
      · subst e
        rw [if_pos rfl] at hx
        subst hx
        exact ho m (Option.some.inj hm)
      · rw [if_neg e] at hx
        exact i.out h' x m hx hm }

theorem close_mem (c : Client) (h : Nat) (d : Done) (a) :
    a ∈ (c.close h d).done → a ∈ c.done ∨ a = (h, d) := by
  unfold Client.close
  split
  · exact .inl
  · simp

theorem close_sub (c : Client) (h : Nat) (d : Done) (a) :
    a ∈ c.done → a ∈ (c.close h d).done := by
  unfold Client.close
  split
  · exact id
  · intro h; simp [h]

theorem close_has (c : Client) (h : Nat) (d : Done) : ∃ d', (h, d') ∈ (c.close h d).done := by
  unfold Client.close
  split
  · rename_i e
    obtain ⟨⟨a, b⟩, h1, h2⟩ := List.any_eq_true.1 e
    have : a = h := by simpa using h2
    exact ⟨b, this ▸ h1⟩
  · exact ⟨d, by simp⟩

@[simp] theorem close_last (c : Client) (h d) : (c.close h d).lastSeqno = c.lastSeqno := by
  unfold Client.close; split <;> rfl

@[simp] theorem close_once (c : Client) (h d) : (c.close h d).notifyOnce = c.notifyOnce := by
  unfold Client.close; split <;> rfl

/-- A step that leaves calls, numbers and the client's tables alone. -/
theorem inv_traffic {n fs fs'} {s s' : Sys} (i : Inv n fs s) (hf : ∀ x ∈ fs, x ∈ fs')
    (e1 : s'.cli = s.cli) (e2 : s'.calls = s.calls) (e3 : s'.taken = s.taken)
    (ha : ∀ a ∈ s.answers, a ∈ s'.answers)
    (hr : Keep s s' → ∀ r ∈ s'.toSrv, r ∈ s.toSrv ∨ ReqOk fs' s' r)
    (hm : Keep s s' → ∀ m ∈ s'.toCli, m ∈ s.toCli ∨ MsgOk fs' s' m) : Inv n fs' s' ∧ Keep s s' := by
  have hN : ∀ h q, Num s' h q ↔ Num s h q := by unfold Num; rw [e2]; simp
  have k : Keep s s' := by
    refine ⟨by rw [e1]; exact Nat.le_refl _, fun h q _ => (hN h q).1, fun h c hc => ⟨c, ?_, ?_⟩,
      ha, by rw [e1]; exact fun _ h => h⟩
    · rw [e2]; exact hc
    · exact ⟨rfl, rfl, fun _ h => h, fun _ h => h⟩
  refine ⟨?_, k⟩
  exact {
    last := by rw [e1]; exact i.last
    range := fun h q hq => by rw [e1]; exact i.range h q ((hN _ _).1 hq)
    inj := fun h h' q hq hq' => i.inj h h' q ((hN _ _).1 hq) ((hN _ _).1 hq')
    taken := fun q hq => by
      rw [e3] at hq; rw [e1]
      exact ⟨(i.taken q hq).1, fun h hh => (i.taken q hq).2 h ((hN _ _).1 hh)⟩
    once := fun h q hq => (hN _ _).2 (i.once h q (by rw [← e1]; exact hq))
    wait := fun h q hq hd => by
      rw [e1]; exact i.wait h q ((hN _ _).1 hq) (by rw [← e1]; exact hd)
    req := fun r h => (hr k r h).elim (fun h => k.reqOk hf (i.req r h)) id
    msg := fun m h => (hm k m h).elim (fun h => k.msgOk hf (i.msg m h)) id
    fin := fun h m hm => by
      rw [e1] at hm
      exact ⟨(hN _ _).2 (i.fin h m hm).1, (i.fin h m hm).2.imp (hf _) k.answered⟩
    out := fun h c m hc ho => by rw [e1]; exact i.out h c m (by rw [← e2]; exact hc) ho }

/-- A step that only changes the client's numbers, tables or DoneChs. -/
theorem inv_client {n n' fs} {s : Sys} (i : Inv n fs s) (hn : n ≤ n') (cli : Client)
    (h1 : s.cli.lastSeqno ≤ cli.lastSeqno) (h1' : cli.lastSeqno ≤ n')
    (h2 : ∀ h q, get cli.notifyOnce q = some h → Num s h q)
    (h3 : ∀ h q, Num s h q → (∀ d, (h, d) ∉ cli.done) → get cli.notifyOnce q = some h)
    (h4 : ∀ a ∈ s.cli.done, a ∈ cli.done)
    (h5 : ∀ h m, (h, .reply m) ∈ cli.done → (h, .reply m) ∈ s.cli.done ∨ Num s h m.seqno ∧
      (m.seqno ∈ fs ∨ ∃ c, s.calls[h]? = some c ∧ Answered s h c m)) :
    Inv n' fs { s with cli := cli } ∧ Keep s { s with cli := cli } := by
  have k : Keep s { s with cli := cli } :=
    ⟨h1, fun _ _ _ h => h, fun _ c h => ⟨c, h, rfl, rfl, fun _ h => h, fun _ h => h⟩,
      fun _ h => h, h4⟩
  refine ⟨?_, k⟩
  exact {
    last := h1'
    range := fun h q hq => ⟨(i.range h q hq).1, Nat.le_trans (i.range h q hq).2 h1⟩
    inj := i.inj
    taken := fun q hq => ⟨Nat.le_trans (i.taken q hq).1 h1, (i.taken q hq).2⟩
    once := h2
    wait := h3
    req := fun r h => k.reqOk (fun _ h => h) (i.req r h)
    msg := fun m h => k.msgOk (fun _ h => h) (i.msg m h)
    fin := fun h m hm => (h5 h m hm).elim (fun h' => i.fin h m h') id
    out := fun h c m hc ho => h4 _ (i.out h c m hc ho) }

theorem nextSeqno_eq {c : Client} (h : c.lastSeqno + 1 < 2 ^ 64) :
    c.nextSeqno = ({ c with lastSeqno := c.lastSeqno + 1 }, c.lastSeqno + 1) := by
  unfold Client.nextSeqno
  rw [Nat.mod_eq_of_lt h]

theorem Inv.weaken {n n' fs} {s : Sys} (i : Inv n fs s) (h : n ≤ n') : Inv n' fs s :=
  { i with last := Nat.le_trans i.last h }

/-- cli.go:775-797: giving a call its number. -/
theorem inv_accept {n fs} {s : Sys} (i : Inv n fs s) (hn : n + 1 < 2 ^ 64) (h : Nat) (ok : Bool) :
    Inv (n + 1) fs (s.accept h ok) ∧ Keep s (s.accept h ok) := by
  unfold Sys.accept
  cases hc : s.calls[h]? with
  | none => exact ⟨i.weaken (by omega), .refl s⟩
  | some c =>
    dsimp only
    split
    case isFalse => exact ⟨i.weaken (by omega), .refl s⟩
    case isTrue hnone =>
    have hl := i.last
    rw [nextSeqno_eq (by omega)]
    dsimp only
    have hlen : h < s.calls.length := (List.getElem?_eq_some_iff.1 hc).1
    -- the calls after the step
    have key : ∀ (h' : Nat) (x : Call),
        (s.calls.set h { c with seqno := some (s.cli.lastSeqno + 1) })[h']? = some x ↔
          if h = h' then x = { c with seqno := some (s.cli.lastSeqno + 1) }
          else s.calls[h']? = some x := by
      intro h' x
      rw [List.getElem?_set]
      by_cases e : h = h'
      · subst e; simp [hlen, eq_comm]
      · simp [e]
    have hnum0 : ∀ q, ¬ Num s h q := by
      rintro q ⟨x, hx, hq⟩
      rw [hc] at hx
      obtain rfl := Option.some.inj hx
      rw [hnone.1] at hq
      exact absurd hq (by simp)
    -- everything for a system with these calls
    have main : ∀ s' : Sys,
        s'.calls = s.calls.set h { c with seqno := some (s.cli.lastSeqno + 1) } →
        s'.cli.lastSeqno = s.cli.lastSeqno + 1 →
        s'.taken = s.taken → s'.answers = s.answers → s'.toCli = s.toCli →
        (∀ h' q, get s'.cli.notifyOnce q = some h' → Num s h' q ∨
          h' = h ∧ q = s.cli.lastSeqno + 1) →
        (∀ h' q, Num s h' q → (∀ d, (h', d) ∉ s'.cli.done) → get s'.cli.notifyOnce q = some h') →
        ((∀ d, (h, d) ∉ s'.cli.done) →
          get s'.cli.notifyOnce (s.cli.lastSeqno + 1) = some h) →
        (∀ a ∈ s.cli.done, a ∈ s'.cli.done) →
        (∀ h' m, (h', .reply m) ∈ s'.cli.done → (h', .reply m) ∈ s.cli.done) →
        (∀ r ∈ s'.toSrv, r ∈ s.toSrv ∨
          r = ⟨.rpc, c.callID, s.cli.lastSeqno + 1, c.body, some h⟩) →
        Inv (n + 1) fs s' ∧ Keep s s' := by
      intro s' e1 e2 e3 e4 e5 honce hwait hwait' hdone hfin hreq
      have hN : ∀ h' q, Num s' h' q ↔ Num s h' q ∨ h' = h ∧ q = s.cli.lastSeqno + 1 := by
        intro h' q
        unfold Num
        rw [e1]
        simp only [key]
        by_cases e : h = h'
        · subst e
          have := hnum0 q
          unfold Num at this
          simp only [hc, Option.some.injEq] at this ⊢
          constructor
          · rintro ⟨x, rfl, hx⟩
            exact .inr ⟨trivial, (Option.some.inj hx).symm⟩
          · rintro (hx | ⟨_, rfl⟩)
            · exact absurd hx this
            · exact ⟨_, rfl, rfl⟩
        · simp [e, Ne.symm e]
      have k : Keep s s' := by
        refine ⟨by omega, ?_, ?_, by rw [e4]; exact fun _ h => h, hdone⟩
        · intro h' q hq hn'
          rcases (hN h' q).1 hn' with h | ⟨_, rfl⟩
          · exact h
          · omega
        · intro h' x hx
          by_cases e : h = h'
          · subst e
            rw [hc] at hx
            obtain rfl := Option.some.inj hx
            refine ⟨{ c with seqno := some (s.cli.lastSeqno + 1) },
              by rw [e1]; exact (key _ _).2 (by rw [if_pos rfl]), rfl, rfl, ?_, fun _ h => h⟩
            intro q hq
            exact absurd ⟨c, hc, hq⟩ (hnum0 q)
          · exact ⟨x, by rw [e1]; exact (key _ _).2 (by rw [if_neg e]; exact hx), rfl, rfl,
              fun _ h => h, fun _ h => h⟩
      refine ⟨?_, k⟩
      exact {
        last := by omega
        range := by
          intro h' q hq
          rcases (hN h' q).1 hq with hq | ⟨_, rfl⟩
          · have := i.range h' q hq; omega
          · omega
        inj := by
          intro a b q ha hb
          rcases (hN a q).1 ha with ha | ⟨ea, eq⟩ <;> rcases (hN b q).1 hb with hb | ⟨eb, eq'⟩
          · exact i.inj a b q ha hb
          · have := (i.range a q ha).2; omega
          · have := (i.range b q hb).2; omega
          · rw [ea, eb]
        taken := by
          intro q hq
          rw [e3] at hq
          refine ⟨by have := (i.taken q hq).1; omega, fun h' hh => ?_⟩
          rcases (hN h' q).1 hh with hh | ⟨_, rfl⟩
          · exact (i.taken q hq).2 h' hh
          · have := (i.taken _ hq).1; omega
        once := fun h' q hq => (hN h' q).2 (honce h' q hq)
        wait := by
          intro h' q hq hd
          rcases (hN h' q).1 hq with hq | ⟨rfl, rfl⟩
          · exact hwait h' q hq hd
          · exact hwait' hd
        req := by
          intro r hr
          rcases hreq r hr with hr | rfl
          · exact k.reqOk (fun _ h => h) (i.req r hr)
          · intro _
            refine .inr ⟨by dsimp only; omega, fun h' hn' => ?_⟩
            dsimp only at hn' ⊢
            rcases (hN h' _).1 hn' with hq | ⟨rfl, _⟩
            · have := (i.range h' _ hq).2; omega
            · exact ⟨rfl, rfl, { c with seqno := some (s.cli.lastSeqno + 1) },
                by rw [e1]; exact (key _ _).2 (by rw [if_pos rfl]), rfl, rfl⟩
        msg := fun m hm => by rw [e5] at hm; exact k.msgOk (fun _ h => h) (i.msg m hm)
        fin := fun h' m hm =>
          have h0 := hfin h' m hm
          ⟨(hN _ _).2 (.inl (i.fin h' m h0).1), (i.fin h' m h0).2.imp id k.answered⟩
        out := by
          intro h' x m hx ho
          rw [e1] at hx
          have hx := (key _ _).1 hx
          by_cases e : h = h'
          · rw [if_pos e] at hx
            subst hx
            rw [hnone.2] at ho
            exact absurd ho (by simp)
          · rw [if_neg e] at hx
            exact hdone _ (i.out h' x m hx ho) }
    have hfresh : ∀ h' q, Num s h' q → s.cli.lastSeqno + 1 ≠ q := by
      intro h' q hq
      have := (i.range h' q hq).2; omega
    cases ok with
    | true =>
      refine main _ rfl rfl rfl rfl rfl ?_ ?_ ?_ (fun _ h => h) (fun _ _ h => h) ?_
      · intro h' q hq
        simp only [if_true, Client.getOneRead, get_put] at hq
        split at hq
        · rename_i e
          exact .inr ⟨(Option.some.inj hq).symm, e.symm⟩
        · exact .inl (i.once h' q hq)
      · intro h' q hq hd
        simp only [if_true, Client.getOneRead, get_put]
        rw [if_neg (hfresh h' q hq)]
        exact i.wait h' q hq hd
      · intro _
        simp [Client.getOneRead, get_put]
      · intro r hr
        simpa [Client.getOneRead] using hr
    | false =>
      have e0 : (Client.getOneRead { s.cli with lastSeqno := s.cli.lastSeqno + 1 }
          (s.cli.lastSeqno + 1) h).ungetOneRead (s.cli.lastSeqno + 1) h =
          { s.cli with lastSeqno := s.cli.lastSeqno + 1,
                       notifyOnce := del (s.cli.lastSeqno + 1)
                         (put (s.cli.lastSeqno + 1) h s.cli.notifyOnce) } := by
        unfold Client.ungetOneRead Client.getOneRead
        dsimp only
        rw [if_pos (by rw [get_put, if_pos rfl])]
      simp only [Bool.false_eq_true, if_false, e0]
      refine main _ rfl (by simp) rfl rfl rfl ?_ ?_ ?_ ?_ ?_ ?_
      · intro h' q hq
        simp only [close_once, get_del, get_put] at hq
        split at hq
        · exact absurd hq (by simp)
        · exact .inl (i.once h' q hq)
      · intro h' q hq hd
        simp only [close_once, get_del, get_put]
        rw [if_neg (hfresh h' q hq), if_neg (hfresh h' q hq)]
        exact i.wait h' q hq (fun d hd' => hd d (close_sub _ _ _ _ hd'))
      · intro hd
        obtain ⟨d, hd'⟩ := close_has { s.cli with
          lastSeqno := s.cli.lastSeqno + 1,
          notifyOnce := del (s.cli.lastSeqno + 1)
            (put (s.cli.lastSeqno + 1) h s.cli.notifyOnce) } h .itself
        exact absurd hd' (hd d)
      · intro a ha
        exact close_sub _ _ _ _ ha
      · intro h' m hm
        rcases close_mem _ _ _ _ hm with hm | hm
        · exact hm
        · exact absurd hm (by simp)
      · intro r hr
        exact .inl hr

/-- cli.go:483-565: reading a message. -/
theorem inv_recv {n fs} {s : Sys} (i : Inv n fs s) {m : Msg} (hm : m ∈ s.toCli) :
    Inv n fs { s with cli := (s.cli.recv m).1 } ∧ Keep s { s with cli := (s.cli.recv m).1 } := by
  have same : ∀ c : Client, c.lastSeqno = s.cli.lastSeqno → c.notifyOnce = s.cli.notifyOnce →
      c.done = s.cli.done → Inv n fs { s with cli := c } ∧ Keep s { s with cli := c } := by
    intro c e1 e2 e3
    exact inv_client i (Nat.le_refl _) c (by omega) (by have := i.last; omega)
      (by rw [e2]; exact i.once) (by rw [e2, e3]; exact i.wait)
      (by rw [e3]; exact fun _ h => h) (by rw [e3]; exact fun _ _ h => .inl h)
  unfold Client.recv
  split
  · exact same _ rfl rfl rfl
  split
  · exact same _ rfl rfl rfl
  · exact same _ rfl rfl rfl
  · exact same _ rfl rfl rfl
  split
  · exact same _ rfl rfl rfl
  split
  · exact same _ rfl rfl rfl
  split
  case h_2 => exact same _ rfl rfl rfl
  case h_1 h hg =>
    have hnum := i.once h _ hg
    refine inv_client i (Nat.le_refl _) _ (by simp) (by simpa using i.last) ?_ ?_ ?_ ?_
    · intro h' q hq
      simp only [close_once, get_del] at hq
      split at hq
      · exact absurd hq (by simp)
      · exact i.once h' q hq
    · intro h' q hq hd
      simp only [close_once, get_del]
      by_cases e : m.seqno = q
      · subst e
        obtain rfl := i.inj h h' _ hnum hq
        obtain ⟨d, hd'⟩ := close_has { s.cli with
          notifyOnce := del m.seqno s.cli.notifyOnce } h (.reply m)
        exact absurd hd' (hd d)
      · rw [if_neg e]
        exact i.wait h' q hq (fun d hd' => hd d (close_sub _ _ _ _ hd'))
    · intro a ha
      exact close_sub _ _ _ _ ha
    · intro h' m' hm'
      rcases close_mem _ _ _ _ hm' with hm' | hm'
      · exact .inl hm'
      · simp only [Prod.mk.injEq, Done.reply.injEq] at hm'
        obtain ⟨rfl, rfl⟩ := hm'
        refine .inr ⟨hnum, ?_⟩
        rcases i.msg m' hm with h | ⟨_, h⟩
        · exact .inl h
        · exact .inr (h _ hnum)

theorem mem_of_getElem? {α} {l : List α} {i : Nat} {a : α} (h : l[i]? = some a) : a ∈ l := by
  obtain ⟨hl, e⟩ := List.getElem?_eq_some_iff.1 h
  exact e ▸ List.getElem_mem hl

/-- A served request's answer. -/
theorem inv_answer {n fs} {s : Sys} (i : Inv n fs s) {j : Nat} {r : Req} (hr : s.toSrv[j]? = some r)
    (hk : r.kind ≠ .silent) (m : Msg) (hm : m.seqno = r.seqno) :
    Inv n fs (s.answer j r m) ∧ Keep s (s.answer j r m) := by
  refine inv_traffic i (fun _ h => h) rfl rfl rfl (fun a ha => by simp [Sys.answer, ha]) ?_ ?_
  · intro _ r' hr'
    exact .inl (List.mem_of_mem_eraseIdx hr')
  · intro k m' hm'
    simp only [Sys.answer, List.mem_append, List.mem_singleton] at hm'
    rcases hm' with hm' | rfl
    · exact .inl hm'
    · refine .inr ?_
      have hok := i.req r (mem_of_getElem? hr) hk
      rcases hok with h | ⟨h1, h2⟩
      · exact .inl (hm ▸ h)
      · refine .inr ⟨by rw [hm]; exact h1, fun h hn => ?_⟩
        rw [hm] at hn
        obtain ⟨e1, e2, c, hc, e3, e4⟩ := h2 h hn
        exact ⟨c, hc, r, by simp [Sys.answer], e1, e2, e3, e4⟩

theorem inv_step {n fs} {s : Sys} (i : Inv n fs s) (hn : n + 1 < 2 ^ 64) (op : Op) :
    Inv (n + 1) (fs ++ (chosen op).toList) (s.step op) ∧ Keep s (s.step op) := by
  have i1 := i.weaken (Nat.le_succ n)
  have stay : (chosen op).toList = [] → Inv (n + 1) (fs ++ (chosen op).toList) s ∧ Keep s s := by
    intro e; rw [e, List.append_nil]; exact ⟨i1, .refl s⟩
  have hl := i.last
  cases op with
  | submit callID body =>
    simp only [chosen, Option.toList, List.append_nil, Sys.step]
    have key : ∀ (h : Nat) (x : Call), (s.calls ++ [{ callID, body }])[h]? = some x ↔
        s.calls[h]? = some x ∨ h = s.calls.length ∧ x = { callID, body } := by
      intro h x
      rw [List.getElem?_append]
      split
      · rename_i hlt
        constructor
        · exact .inl
        · rintro (h | ⟨rfl, _⟩)
          · exact h
          · omega
      · rename_i hge
        rw [List.getElem?_eq_none (by omega : s.calls.length ≤ h)]
        rcases Nat.lt_or_eq_of_le (Nat.le_of_not_lt hge) with h1 | h1
        · rw [List.getElem?_eq_none (by simp; omega)]
          simp; omega
        · subst h1; simp [eq_comm]
    have hN : ∀ h q, Num { s with calls := s.calls ++ [{ callID, body }] } h q ↔ Num s h q := by
      intro h q
      unfold Num
      simp only [key]
      constructor
      · rintro ⟨c, hc | ⟨_, rfl⟩, hq⟩
        · exact ⟨c, hc, hq⟩
        · exact absurd hq (by simp)
      · rintro ⟨c, hc, hq⟩
        exact ⟨c, .inl hc, hq⟩
    have k : Keep s { s with calls := s.calls ++ [{ callID, body }] } :=
      ⟨Nat.le_refl _, fun h q _ => (hN h q).1,
        fun h c hc => ⟨c, (key h c).2 (.inl hc), rfl, rfl, fun _ h => h, fun _ h => h⟩,
        fun _ h => h, fun _ h => h⟩
    refine ⟨?_, k⟩
    exact {
      last := by dsimp only; omega
      range := fun h q hq => i.range h q ((hN _ _).1 hq)
      inj := fun h h' q hq hq' => i.inj h h' q ((hN _ _).1 hq) ((hN _ _).1 hq')
      taken := fun q hq => ⟨(i.taken q hq).1, fun h hh => (i.taken q hq).2 h ((hN _ _).1 hh)⟩
      once := fun h q hq => (hN _ _).2 (i.once h q hq)
      wait := fun h q hq hd => i.wait h q ((hN _ _).1 hq) hd
      req := fun r h => k.reqOk (fun _ h => h) (i.req r h)
      msg := fun m h => k.msgOk (fun _ h => h) (i.msg m h)
      fin := fun h m hm => ⟨(hN _ _).2 (i.fin h m hm).1, (i.fin h m hm).2.imp id k.answered⟩
      out := by
        intro h c m hc ho
        rcases (key h c).1 hc with hc | ⟨_, rfl⟩
        · exact i.out h c m hc ho
        · exact absurd ho (by simp) }
  | accept h ok =>
    simp only [chosen, Option.toList, List.append_nil, Sys.step]
    exact inv_accept i hn h ok
  | takeSeqno =>
    simp only [chosen, Option.toList, List.append_nil, Sys.step]
    rw [nextSeqno_eq (by omega)]
    obtain ⟨j, k⟩ := inv_client i (Nat.le_succ n) { s.cli with lastSeqno := s.cli.lastSeqno + 1 }
      (Nat.le_succ _) (by dsimp only; omega) i.once i.wait (fun _ h => h) (fun _ _ h => .inl h)
    refine ⟨{ j with taken := ?_ }, ⟨k.last, k.back, k.fwd, k.ans, k.done⟩⟩
    intro q hq
    simp only [List.mem_append, List.mem_singleton] at hq
    rcases hq with hq | rfl
    · exact j.taken q hq
    · exact ⟨Nat.le_refl _, fun h hh => by have := (i.range h _ hh).2; omega⟩
  | stream j callID body =>
    simp only [Sys.step]
    cases hq : s.taken[j]? with
    | none => exact stay rfl
    | some q =>
      simp only [chosen, Option.toList, List.append_nil]
      refine inv_traffic i1 (fun _ h => h) rfl rfl rfl (fun _ h => h) ?_ (fun _ m h => .inl h)
      intro _ r hr
      simp only [List.mem_append, List.mem_singleton] at hr
      rcases hr with hr | rfl
      · exact .inl hr
      · exact .inr fun _ => .inr ⟨(i.taken q (mem_of_getElem? hq)).1,
          fun h hh => absurd hh ((i.taken q (mem_of_getElem? hq)).2 h)⟩
  | oneWay kind callID preset body =>
    simp only [Sys.step]
    split
    · exact ⟨by
        refine (inv_traffic i1 (fun x h => ?_) rfl rfl rfl (fun _ h => h) (fun _ r h => .inl h)
          (fun _ m h => .inl h)).1
        exact List.mem_append_left _ h, .refl s⟩
    · rename_i hk
      unfold Sys.oneWay
      by_cases hp : preset = 0
      · simp only [if_pos hp]
        rw [nextSeqno_eq (by omega)]
        obtain ⟨j, k⟩ := inv_client i (Nat.le_succ n)
          { s.cli with lastSeqno := s.cli.lastSeqno + 1 }
          (Nat.le_succ _) (by dsimp only; omega) i.once i.wait (fun _ h => h) (fun _ _ h => .inl h)
        have := inv_traffic (s' := { s with
            cli := { s.cli with lastSeqno := s.cli.lastSeqno + 1 },
            toSrv := s.toSrv ++ [⟨kind, callID, s.cli.lastSeqno + 1, body, none⟩] }) j
          (fs' := fs ++ (chosen (.oneWay kind callID preset body)).toList)
          (fun x h => List.mem_append_left _ h) rfl rfl rfl (fun _ h => h)
          (by
            intro _ r hr
            simp only [List.mem_append, List.mem_singleton] at hr
            rcases hr with hr | rfl
            · exact .inl hr
            · exact .inr fun _ => .inr ⟨Nat.le_refl _,
                fun h hh => by have := (i.range h _ hh).2; dsimp only at this; omega⟩)
          (fun _ m h => .inl h)
        exact ⟨this.1, ⟨k.last, k.back, k.fwd, k.ans, k.done⟩⟩
      · simp only [if_neg hp]
        refine inv_traffic i1 (fun x h => List.mem_append_left _ h) rfl rfl rfl (fun _ h => h) ?_
          (fun _ m h => .inl h)
        intro _ r hr
        simp only [List.mem_append, List.mem_singleton] at hr
        rcases hr with hr | rfl
        · exact .inl hr
        · refine .inr fun hs => .inl ?_
          dsimp only at hs ⊢
          simp [chosen, hp, hs]
  | finish h =>
    simp only [Sys.step]
    split
    · rename_i c _ d hc hd
      split
      · rename_i ho
        simp only [chosen, Option.toList, List.append_nil]
        refine ⟨inv_outcome i1 hc ho _ ?_, keep_outcome hc ho _⟩
        intro m hm
        have e := List.find?_some hd
        have hmem := List.mem_of_find?_eq_some hd
        simp only [beq_iff_eq] at e
        subst e
        cases d with
        | reply m' => simp only [Outcome.reply.injEq] at hm; subst hm; exact hmem
        | itself => exact absurd hm (by simp)
      · exact stay rfl
    · exact stay rfl
  | giveUp h why =>
    simp only [Sys.step]
    split
    · rename_i c hc
      split
      · rename_i ho
        simp only [chosen, Option.toList, List.append_nil]
        refine ⟨inv_outcome i1 hc ho.1 _ ?_, keep_outcome hc ho.1 _⟩
        rintro m rfl
        simp at ho
      · exact stay rfl
    · exact stay rfl
  | sendCancel h =>
    simp only [Sys.step]
    split
    · rename_i c hc
      split
      · simp only [chosen, Option.toList, List.append_nil]
        obtain ⟨j, k⟩ := inv_client i (Nat.le_succ n) (s.cli.close h .itself)
          (by simp) (by simp; omega) (by simpa using i.once)
          (by
            intro h' q hq hd
            rw [close_once]
            exact i.wait h' q hq (fun d hd' => hd d (close_sub _ _ _ _ hd')))
          (fun a ha => close_sub _ _ _ _ ha)
          (by
            intro h' m hm
            rcases close_mem _ _ _ _ hm with hm | hm
            · exact .inl hm
            · exact absurd hm (by simp))
        have := inv_traffic (s' := { s with
            cli := s.cli.close h .itself,
            toSrv := s.toSrv ++ [⟨.silent, c.callID, c.seqno.getD 0, c.body, none⟩] }) j
          (fs' := fs) (fun x h => h) rfl rfl rfl (fun _ h => h)
          (by
            intro _ r hr
            simp only [List.mem_append, List.mem_singleton] at hr
            rcases hr with hr | rfl
            · exact .inl hr
            · exact .inr fun hs => absurd rfl hs)
          (fun _ m h => .inl h)
        exact ⟨this.1, ⟨k.last, k.back, k.fwd, k.ans, k.done⟩⟩
      · exact stay rfl
    · exact stay rfl
  | setNotifies nt =>
    simp only [chosen, Option.toList, List.append_nil, Sys.step]
    exact inv_client i (Nat.le_succ n) _ (Nat.le_refl _) (by dsimp only; omega) i.once i.wait
      (fun _ h => h) (fun _ _ h => .inl h)
  | serve j body =>
    simp only [Sys.step]
    split
    · rename_i r hr
      split
      · rename_i hk
        simp only [chosen, Option.toList, List.append_nil]
        exact inv_answer i1 hr (by rcases hk with h | h <;> simp [h]) _ rfl
      · exact stay rfl
    · exact stay rfl
  | refuse j =>
    simp only [Sys.step]
    split
    · rename_i r hr
      split
      · rename_i hk
        simp only [chosen, Option.toList, List.append_nil]
        exact inv_answer i1 hr hk _ rfl
      · exact stay rfl
    · exact stay rfl
  | part j body =>
    simp only [Sys.step]
    split
    · rename_i r hr
      split
      · rename_i hk
        simp only [chosen, Option.toList, List.append_nil]
        refine inv_traffic i1 (fun _ h => h) rfl rfl rfl (fun _ h => h) (fun _ r h => .inl h) ?_
        intro _ m hm
        simp only [List.mem_append, List.mem_singleton] at hm
        rcases hm with hm | rfl
        · exact .inl hm
        · refine .inr ?_
          rcases i.req r (mem_of_getElem? hr) (by simp [hk]) with h | ⟨h1, h2⟩
          · exact .inl h
          · refine .inr ⟨h1, fun h hh => ?_⟩
            have := (h2 h hh).2.1
            rw [hk] at this
            exact absurd this (by simp)
      · exact stay rfl
    · exact stay rfl
  | push m =>
    simp only [Sys.step]
    refine inv_traffic i1 (fun x h => List.mem_append_left _ h) rfl rfl rfl (fun _ h => h)
      (fun _ r h => .inl h) ?_
    intro _ m' hm'
    simp only [List.mem_append, List.mem_singleton] at hm'
    rcases hm' with hm' | rfl
    · exact .inl hm'
    · exact .inr (.inl (by simp [chosen]))
  | deliver j =>
    simp only [Sys.step]
    split
    · rename_i m hm
      simp only [chosen, Option.toList, List.append_nil]
      obtain ⟨a, k⟩ := inv_recv i1 (mem_of_getElem? hm)
      have := inv_traffic (s' := { s with
          cli := (s.cli.recv m).1, toCli := s.toCli.eraseIdx j }) a
        (fs' := fs) (fun x h => h) rfl rfl rfl (fun _ h => h) (fun _ r h => .inl h)
        (fun _ m h => .inl (List.mem_of_mem_eraseIdx h))
      exact ⟨this.1, ⟨k.last, k.back, k.fwd, k.ans, k.done⟩⟩
    · exact stay rfl

theorem inv_init : Inv 0 [] {} where
  last := Nat.le_refl _
  range := by rintro h q ⟨c, hc, _⟩; simp at hc
  inj := by rintro h h' q ⟨c, hc, _⟩; simp at hc
  taken := by simp
  once := by intro h q hq; simp [get] at hq
  wait := by rintro h q ⟨c, hc, _⟩; simp at hc
  req := by simp
  msg := by simp
  fin := by simp
  out := by simp

theorem inv_run (ops : List Op) : ∀ {n fs} {s : Sys}, Inv n fs s → n + ops.length < 2 ^ 64 →
    Inv (n + ops.length) (fs ++ ops.flatMap fun o => (chosen o).toList) (s.run ops) := by
  induction ops with
  | nil => intro n fs s i _; simpa [Sys.run] using i
  | cons op t ih =>
    intro n fs s i hn
    simp only [List.length_cons] at hn
    have := ih (inv_step i (by omega) op).1 (by omega)
    simp only [List.length_cons, List.flatMap_cons, ← List.append_assoc]
    rw [show n + (t.length + 1) = n + 1 + t.length by omega]
    exact this

theorem run_append (s : Sys) (a b : List Op) : s.run (a ++ b) = (s.run a).run b := by
  simp [Sys.run]

/-- Outcomes stay, whatever the numbers do. -/
theorem outcome_step {s : Sys} (op : Op) {h : Nat} {c : Call} {o : Outcome} (hc : s.calls[h]? = some c)
    (ho : c.outcome = some o) : ∃ c' : Call, (s.step op).calls[h]? = some c' ∧ c'.outcome = some o := by
  have stay : ∃ c' : Call, s.calls[h]? = some c' ∧ c'.outcome = some o := ⟨c, hc, ho⟩
  have out : ∀ {h' : Nat} {x : Call} (w), s.calls[h']? = some x → x.outcome = none →
      ∃ c' : Call, (s.calls.set h' { x with outcome := w })[h]? = some c' ∧ c'.outcome = some o := by
    intro h' x w hx hn
    by_cases e : h' = h
    · subst e
      rw [hc] at hx
      obtain rfl := Option.some.inj hx
      rw [ho] at hn
      exact absurd hn (by simp)
    · exact ⟨c, by rw [List.getElem?_set]; simp [e, hc], ho⟩
  cases op with
  | submit => exact ⟨c, by
      simp only [Sys.step]
      rw [List.getElem?_append_left (List.getElem?_eq_some_iff.1 hc).1]; exact hc, ho⟩
  | accept h' ok =>
    simp only [Sys.step, Sys.accept]
    split
    · rename_i x hx
      split
      · rename_i hn
        have : h' ≠ h := by
          rintro rfl
          rw [hc] at hx
          obtain rfl := Option.some.inj hx
          rw [ho] at hn
          exact absurd hn.2 (by simp)
        cases ok <;> exact ⟨c, by simp [this, hc], ho⟩
      · exact stay
    · exact stay
  | takeSeqno => exact stay
  | stream => simp only [Sys.step]; split <;> exact stay
  | oneWay => simp only [Sys.step, Sys.oneWay]; split <;> exact stay
  | finish =>
    simp only [Sys.step]
    split
    · split
      · rename_i hx _ hn; exact out _ hx hn
      · exact stay
    · exact stay
  | giveUp =>
    simp only [Sys.step]
    split
    · split
      · rename_i hx hn; exact out _ hx hn.1
      · exact stay
    · exact stay
  | sendCancel =>
    simp only [Sys.step]
    split
    · split <;> exact stay
    · exact stay
  | setNotifies => exact stay
  | serve =>
    simp only [Sys.step, Sys.answer]
    split
    · split <;> exact stay
    · exact stay
  | refuse =>
    simp only [Sys.step, Sys.answer]
    split
    · split <;> exact stay
    · exact stay
  | part =>
    simp only [Sys.step]
    split
    · split <;> exact stay
    · exact stay
  | push => exact stay
  | deliver => simp only [Sys.step]; split <;> exact stay

theorem answers_step {s : Sys} (op : Op) :
    ∀ a ∈ (s.step op).answers, a ∈ s.answers ∨ a.2.callID = a.1.callID ∧ a.2.seqno = a.1.seqno := by
  intro a ha
  cases op with
  | serve i body =>
    simp only [Sys.step] at ha
    split at ha
    · split at ha
      · simp only [Sys.answer, List.mem_append, List.mem_singleton] at ha
        rcases ha with ha | rfl
        · exact .inl ha
        · exact .inr ⟨rfl, rfl⟩
      · exact .inl ha
    · exact .inl ha
  | refuse i =>
    simp only [Sys.step] at ha
    split at ha
    · split at ha
      · simp only [Sys.answer, List.mem_append, List.mem_singleton] at ha
        rcases ha with ha | rfl
        · exact .inl ha
        · exact .inr ⟨rfl, rfl⟩
      · exact .inl ha
    · exact .inl ha
  | accept h ok =>
    simp only [Sys.step, Sys.accept] at ha
    repeat' split at ha
    all_goals exact .inl ha
  | oneWay kind callID preset body =>
    simp only [Sys.step, Sys.oneWay] at ha
    repeat' split at ha
    all_goals exact .inl ha
  | _ =>
    simp only [Sys.step] at ha
    repeat' split at ha
    all_goals exact .inl ha

theorem answers_header (ops : List Op) : ∀ {s : Sys},
    (∀ a ∈ s.answers, a.2.callID = a.1.callID ∧ a.2.seqno = a.1.seqno) →
    ∀ a ∈ (s.run ops).answers, a.2.callID = a.1.callID ∧ a.2.seqno = a.1.seqno := by
  induction ops with
  | nil => intro s h; exact h
  | cons op t ih =>
    intro s h
    refine ih (s := s.step op) fun a ha => ?_
    rcases answers_step op a ha with h' | h'
    · exact h a h'
    · exact h'

end Verif.Rpc
