import Verif.Spec.Hermes
import Mathlib.Data.List.Perm.Subperm
/-
The invariant behind C49 and C50.
-/
set_option linter.unusedSectionVars false
set_option linter.unusedVariables false
namespace Verif.Hermes

variable {H : Nat → Nat → Nat}

/-! ### The order -/

theorem le_iff (a b : TS) : Le H a b ↔
    a.version < b.version ∨ a.version = b.version ∧ H a.version a.coord ≤ H a.version b.coord := by
  unfold Le TS.compare
  by_cases h1 : a.version < b.version
  · simp [h1]
  · by_cases h2 : b.version < a.version
    · simp [h1, h2]; omega
    · have e : a.version = b.version := by omega
      simp only [h1, h2, if_false]
      by_cases h3 : a.coord = b.coord
      · simp [h3, e]
      · simp only [h3, if_false]
        by_cases h4 : H a.version a.coord ≤ H a.version b.coord
        · simp [h4, e]
        · simp [h4]

theorem eq_iff (a b : TS) : a.compare H b = .eq ↔ a = b := by
  constructor
  · intro h
    unfold TS.compare at h
    split at h
    · exact absurd h (by simp)
    · split at h
      · exact absurd h (by simp)
      · split at h
        · rename_i h1 h2 h3
          cases a; cases b
          simp only at h1 h2 h3
          simp only [TS.mk.injEq]
          omega
        · split at h <;> exact absurd h (by simp)
  · rintro rfl
    simp [TS.compare]

theorem Le.refl (a : TS) : Le H a a := by rw [le_iff]; exact .inr ⟨rfl, Nat.le_refl _⟩

theorem Le.trans {a b c : TS} (h1 : Le H a b) (h2 : Le H b c) : Le H a c := by
  rw [le_iff] at *
  rcases h1 with h1 | ⟨e1, h1⟩ <;> rcases h2 with h2 | ⟨e2, h2⟩
  · exact .inl (by omega)
  · exact .inl (by omega)
  · exact .inl (by omega)
  · refine .inr ⟨by omega, ?_⟩
    rw [← e1] at h2
    omega

theorem le_of_gt {a b : TS} (h : a.compare H b = .gt) : Le H b a := by
  rw [le_iff]
  have h' : ¬ Le H a b := fun x => x h
  rw [le_iff] at h'
  by_cases h1 : b.version < a.version
  · exact .inl h1
  · refine .inr ⟨by omega, ?_⟩
    have : a.version = b.version := by omega
    rw [← this]
    omega

theorem le_of_not_lt {a b : TS} (h : a.compare H b ≠ .lt) : Le H b a := by
  cases e : a.compare H b with
  | lt => exact absurd e h
  | eq => rw [eq_iff] at e; subst e; exact Le.refl _
  | gt => exact le_of_gt e

theorem le_version {a b : TS} (h : Le H a b) : a.version ≤ b.version := by
  rw [le_iff] at h; omega

/-! ### The invariant of one node -/

/-- This node is at `ts` or beyond. -/
def Above (H : Nat → Nat → Nat) (x : Node) (ts : TS) : Prop :=
  ∃ k, x.key = some k ∧ Le H ts k.ts

/-- The invalidations sent so far: `I id ts val`. -/
structure IOk (n : Nat) (I : Nat → TS → Option Nat → Prop) (nx : Nat) : Prop where
  lt : ∀ {id ts v}, I id ts v → id < nx
  coord : ∀ {id ts v}, I id ts v → ts.coord < n ∧ 1 ≤ ts.version
  byId : ∀ {id ts v ts' v'}, I id ts v → I id ts' v' → ts = ts' ∧ v = v'
  byTs : ∀ {id ts v id' v'}, I id ts v → I id' ts v' → id = id' ∧ v = v'

structure TktOk (n : Nat) (I : Nat → TS → Option Nat → Prop) (A : Nat → TS → Prop) (nx i : Nat)
    (t : Ticket) : Prop where
  lt : t.id < nx
  acks : ∀ j ∈ t.acks, j < n ∧ j ≠ i ∧ ∃ ts v, I t.id ts v ∧ A j ts
  nodup : t.acks.Nodup
  own : t.pseudo = false → t.op = .write → ∀ ts v, I t.id ts v → t.ts = ts ∧ t.val = v
  fake : t.pseudo = true → t.op = .write ∧ ∃ v, I t.id t.ts v ∧ (t.val = none ∨ t.val = v)
  read : t.op = .read → ∀ ts v, ¬ I t.id ts v

/-- The ticket of the write the key holds is there, and holds what the key holds. -/
def Held (x : Node) (id : Nat) (k : KeyMeta) : Prop :=
  (∃ t ∈ x.tkts, t.id = id) ∧
    ∀ t ∈ x.tkts, t.id = id → t.op = .write ∧ t.ts = k.ts ∧ t.val = k.val

/-- Everybody but this node, and perhaps one more, is at `ts` or beyond. -/
def Covered (n : Nat) (A : Nat → TS → Prop) (i : Nat) (ts : TS) : Prop :=
  ∃ bad, (n ≤ 2 → n ≤ bad) ∧ ∀ j, j < n → j ≠ bad → j ≠ i → A j ts

structure NodeOk (H : Nat → Nat → Nat) (n : Nat) (I : Nat → TS → Option Nat → Prop)
    (A : Nat → TS → Prop) (nx i : Nat) (x : Node) : Prop where
  me : x.me = i
  sentInv : ∀ {id frm ts v}, .inv id frm ts v ∈ x.sent → frm = i ∧ ts.coord = i ∧ Above H x ts
  sentAck : ∀ {id frm ts}, .ack id frm ts ∈ x.sent → frm = i ∧ (∃ v, I id ts v) ∧ Above H x ts
  key : ∀ k, x.key = some k → (k.ts = ⟨0, i⟩ ∧ k.st = .invalid) ∨ ∃ id, I id k.ts k.val
  calm : ∀ k, x.key = some k → k.st ≠ .replay
  held : x.panicked = false → ∀ k, x.key = some k → (k.st = .write ∨ k.st = .invalidWR) →
    ∃ id, I id k.ts k.val ∧ Held x id k
  tkts : ∀ t ∈ x.tkts, TktOk n I A nx i t
  wrote : ∀ {id v ts}, .wrote id v ts true ∈ x.log → I id ts v ∧ Above H x ts ∧ Covered n A i ts
  read : ∀ {id v ts}, .read id v ts ∈ x.log → (∃ id, I id ts v) ∧ Above H x ts
  seen : ∀ {id frm ts v}, .inv id frm ts v ∈ x.seen → I id ts v ∧ Above H x ts

variable {n nx i : Nat} {I : Nat → TS → Option Nat → Prop} {A : Nat → TS → Prop} {x : Node}

theorem ticket_mem {id : Nat} {t : Ticket} (h : x.ticket id = some t) : t ∈ x.tkts ∧ t.id = id := by
  unfold Node.ticket at h
  exact ⟨List.mem_of_find?_eq_some h, by simpa using List.find?_some h⟩

theorem ticket_none {id : Nat} (h : x.ticket id = none) : ∀ t ∈ x.tkts, t.id ≠ id := by
  unfold Node.ticket at h
  intro t ht
  have := List.find?_eq_none.1 h t ht
  simpa using this

/-- Only the tickets change. -/
theorem NodeOk.tickets (h : NodeOk H n I A nx i x) {x' : Node} (e1 : x'.me = x.me)
    (e2 : x'.key = x.key) (e3 : x'.sent = x.sent) (e4 : x'.log = x.log) (e5 : x'.seen = x.seen)
    (e6 : x'.panicked = false → x.panicked = false) (ht : ∀ t ∈ x'.tkts, TktOk n I A nx i t)
    (hh : x'.panicked = false → ∀ k id, x.key = some k → (k.st = .write ∨ k.st = .invalidWR) →
      I id k.ts k.val → Held x id k → Held x' id k) : NodeOk H n I A nx i x' where
  me := e1.trans h.me
  sentInv := by unfold Above; rw [e2, e3]; exact h.sentInv
  sentAck := by unfold Above; rw [e2, e3]; exact h.sentAck
  key := by rw [e2]; exact h.key
  calm := by rw [e2]; exact h.calm
  held := by
    intro hp k hk hst
    rw [e2] at hk
    obtain ⟨id, h1, h2⟩ := h.held (e6 hp) k hk hst
    exact ⟨id, h1, hh hp k id hk hst h1 h2⟩
  tkts := ht
  wrote := by unfold Above; rw [e2, e4]; exact h.wrote
  read := by unfold Above; rw [e2, e4]; exact h.read
  seen := by unfold Above; rw [e2, e5]; exact h.seen

/-- A new ticket. -/
theorem NodeOk.record (h : NodeOk H n I A nx i x) {t : Ticket} (hn : x.ticket t.id = none)
    (ht : TktOk n I A nx i t) : NodeOk H n I A nx i (x.record t) := by
  have e : x.record t = { x with tkts := x.tkts ++ [t], pq := x.pq ++ [t.id] } := by
    unfold Node.record; rw [hn]
  rw [e]
  refine h.tickets rfl rfl rfl rfl rfl id ?_ ?_
  · intro t' ht'
    simp only [List.mem_append, List.mem_singleton] at ht'
    rcases ht' with ht' | rfl
    · exact h.tkts t' ht'
    · exact ht
  · intro _ k id _ _ _ ⟨⟨t0, ht0, he0⟩, h2⟩
    refine ⟨⟨t0, List.mem_append_left _ ht0, he0⟩, ?_⟩
    intro t' ht' he'
    simp only [List.mem_append, List.mem_singleton] at ht'
    rcases ht' with ht' | rfl
    · exact h2 t' ht' he'
    · exact absurd (he0.trans he'.symm) (ticket_none hn t0 ht0)

/-- A ticket changes. -/
theorem NodeOk.modify (h : NodeOk H n I A nx i x) {id : Nat} {f : Ticket → Ticket}
    (hid : ∀ t ∈ x.tkts, t.id = id → (f t).id = id)
    (ht : ∀ t ∈ x.tkts, t.id = id → TktOk n I A nx i (f t))
    (hh : ∀ k, x.key = some k → (k.st = .write ∨ k.st = .invalidWR) → I id k.ts k.val →
      ∀ t ∈ x.tkts, t.id = id → t.op = .write ∧ t.ts = k.ts ∧ t.val = k.val →
        (f t).op = .write ∧ (f t).ts = k.ts ∧ (f t).val = k.val) :
    NodeOk H n I A nx i (x.modify id f) := by
  refine h.tickets rfl rfl rfl rfl rfl (fun hp => hp) ?_ ?_
  · intro t' ht'
    simp only [Node.modify, List.mem_map] at ht'
    obtain ⟨t, htm, rfl⟩ := ht'
    split
    · rename_i e; exact ht t htm e
    · exact h.tkts t htm
  · intro _ k id' hk hst hI ⟨⟨t0, ht0, he0⟩, h2⟩
    refine ⟨⟨if t0.id = id then f t0 else t0, List.mem_map.2 ⟨t0, ht0, rfl⟩, ?_⟩, ?_⟩
    · split
      · rename_i e; rw [hid t0 ht0 e, ← he0, e]
      · exact he0
    · intro t' ht' he'
      simp only [Node.modify, List.mem_map] at ht'
      obtain ⟨t, htm, rfl⟩ := ht'
      split at he'
      · rename_i e
        rw [if_pos e]
        rw [hid t htm e] at he'
        subst he'
        exact hh k hk hst hI t htm e (h2 t htm e)
      · rename_i e
        rw [if_neg e]
        exact h2 t htm he'

theorem NodeOk.addAck (h : NodeOk H n I A nx i x) {id j : Nat} {ts : TS} {v : Option Nat}
    (hI : I id ts v) (hj : j < n) (hji : j ≠ i) (hA : A j ts) :
    NodeOk H n I A nx i (x.modify id (addAck j)) := by
  refine h.modify (fun t _ e => e) ?_ (fun _ _ _ _ t _ _ h => h)
  intro t ht e
  have h' := h.tkts t ht
  refine { lt := h'.lt, acks := ?_, nodup := ?_, own := h'.own, fake := h'.fake, read := h'.read }
  · intro j' hj'
    simp only [Verif.Hermes.addAck] at hj' ⊢
    split at hj'
    · exact h'.acks j' hj'
    · rw [List.mem_cons] at hj'
      rcases hj' with rfl | hj'
      · exact ⟨hj, hji, ts, v, by rw [e]; exact hI, hA⟩
      · exact h'.acks j' hj'
  · simp only [Verif.Hermes.addAck]
    split
    · exact h'.nodup
    · rename_i hn
      exact List.nodup_cons.2 ⟨hn, h'.nodup⟩

/-- A ticket for which an invalidation was sent. -/
theorem TktOk.known (iok : IOk n I nx) {t : Ticket} (h : TktOk n I A nx i t) {ts : TS}
    {v : Option Nat} (hI : I t.id ts v) : t.op = .write ∧ t.ts = ts ∧
      (t.val = v ∨ t.pseudo = true ∧ t.val = none) := by
  cases ho : t.op with
  | read => exact absurd hI (h.read ho ts v)
  | write =>
    refine ⟨rfl, ?_⟩
    cases hp : t.pseudo with
    | false =>
      obtain ⟨e1, e2⟩ := h.own hp ho ts v hI
      exact ⟨e1, .inl e2⟩
    | true =>
      obtain ⟨_, v', hI', hv⟩ := h.fake hp
      obtain ⟨e1, e2⟩ := iok.byId hI' hI
      refine ⟨e1, ?_⟩
      rcases hv with hv | hv
      · exact .inr ⟨rfl, hv⟩
      · exact .inl (hv.trans e2)

/-! ### The key -/

/-- The key moves on; `k'` is a write that was sent. -/
theorem NodeOk.setKey (h : NodeOk H n I A nx i x) {x' : Node} {k' : KeyMeta} (e1 : x'.me = x.me)
    (e2 : x'.key = some k') (e3 : x'.sent = x.sent) (e4 : x'.log = x.log) (e5 : x'.seen = x.seen)
    (hle : ∀ k, x.key = some k → Le H k.ts k'.ts) (hI : ∃ id, I id k'.ts k'.val)
    (hr : k'.st ≠ .replay) (ht : ∀ t ∈ x'.tkts, TktOk n I A nx i t)
    (hh : x'.panicked = false → (k'.st = .write ∨ k'.st = .invalidWR) →
      ∃ id, I id k'.ts k'.val ∧ Held x' id k') : NodeOk H n I A nx i x' := by
  have up : ∀ ts, Above H x ts → Above H x' ts := by
    rintro ts ⟨k, hk, hl⟩
    exact ⟨k', e2, hl.trans (hle k hk)⟩
  exact {
    me := e1.trans h.me
    sentInv := by
      rw [e3]; intro id frm ts v hm
      obtain ⟨a, b, c⟩ := h.sentInv hm
      exact ⟨a, b, up _ c⟩
    sentAck := by
      rw [e3]; intro id frm ts hm
      obtain ⟨a, b, c⟩ := h.sentAck hm
      exact ⟨a, b, up _ c⟩
    key := by
      intro k hk
      rw [e2] at hk
      obtain rfl := Option.some.inj hk
      exact .inr hI
    calm := by
      intro k hk
      rw [e2] at hk
      obtain rfl := Option.some.inj hk
      exact hr
    held := by
      intro hp k hk hst
      rw [e2] at hk
      obtain rfl := Option.some.inj hk
      exact hh hp hst
    tkts := ht
    wrote := by
      rw [e4]; intro id v ts hm
      obtain ⟨a, b, c⟩ := h.wrote hm
      exact ⟨a, up _ b, c⟩
    read := by
      rw [e4]; intro id v ts hm
      obtain ⟨a, b⟩ := h.read hm
      exact ⟨a, up _ b⟩
    seen := by
      rw [e5]; intro id frm ts v hm
      obtain ⟨a, b⟩ := h.seen hm
      exact ⟨a, up _ b⟩ }

theorem NodeOk.unblockReads (h : NodeOk H n I A nx i x) {k : KeyMeta} (hk : x.key = some k)
    (hI : ∃ id, I id k.ts k.val) : NodeOk H n I A nx i (x.unblockReads k) where
  me := h.me
  sentInv := h.sentInv
  sentAck := h.sentAck
  key := h.key
  calm := h.calm
  held := by
    intro hp k' hk' hst
    obtain ⟨id, h1, ⟨t0, ht0, he0⟩, h2⟩ := h.held hp k' hk' hst
    refine ⟨id, h1, ⟨t0, List.mem_filter.2 ⟨ht0, ?_⟩, he0⟩, fun t ht => h2 t (List.mem_filter.1 ht).1⟩
    rw [(h2 t0 ht0 he0).1]; rfl
  tkts := fun t ht => h.tkts t (List.mem_filter.1 ht).1
  wrote := by
    intro id v ts hm
    simp only [Node.unblockReads, List.mem_append, List.mem_map] at hm
    rcases hm with hm | ⟨t, _, e⟩
    · exact h.wrote hm
    · exact absurd e (by simp)
  read := by
    intro id v ts hm
    simp only [Node.unblockReads, List.mem_append, List.mem_map] at hm
    rcases hm with hm | ⟨t, _, e⟩
    · exact h.read hm
    · simp only [Done.read.injEq] at e
      obtain ⟨_, rfl, rfl⟩ := e
      exact ⟨hI, k, hk, Le.refl _⟩
  seen := h.seen

theorem NodeOk.sendAck (h : NodeOk H n I A nx i x) {id : Nat} {ts : TS} (hI : ∃ v, I id ts v)
    (ha : Above H x ts) : NodeOk H n I A nx i (x.ack id ts) where
  me := h.me
  sentInv := by
    intro id' frm ts' v hm
    simp only [Node.ack, Node.bcast, List.mem_append, List.mem_singleton] at hm
    rcases hm with hm | hm
    · exact h.sentInv hm
    · exact absurd hm (by simp)
  sentAck := by
    intro id' frm ts' hm
    simp only [Node.ack, Node.bcast, List.mem_append, List.mem_singleton] at hm
    rcases hm with hm | hm
    · exact h.sentAck hm
    · simp only [Msg.ack.injEq] at hm
      obtain ⟨rfl, rfl, rfl⟩ := hm
      exact ⟨h.me, hI, ha⟩
  key := h.key
  calm := h.calm
  held := h.held
  tkts := h.tkts
  wrote := h.wrote
  read := h.read
  seen := h.seen

theorem deleteTicket_tkts (id : Nat) (w : Bool) : ∀ t ∈ (x.deleteTicket id w).tkts, t ∈ x.tkts := by
  intro t ht
  unfold Node.deleteTicket at ht
  split at ht
  · split at ht <;> exact ht
  · exact (List.mem_filter.1 ht).1

/-- A write is complete. -/
theorem NodeOk.complete (h : NodeOk H n I A nx i x) {k : KeyMeta} {id : Nat} {t : Ticket}
    (ht : x.ticket id = some t) (hst : k.st = .valid) (hI : I id t.ts t.val)
    (hle : ∀ k, x.key = some k → Le H k.ts t.ts) (hc : t.pseudo = false → Covered n A i t.ts) :
    NodeOk H n I A nx i ({ x with key := some k }.completeWrite k id) := by
  unfold Node.completeWrite
  have ht' : ({ x with key := some k } : Node).ticket id = some t := ht
  rw [ht']
  dsimp only
  have hd : ({ x with key := some k } : Node).deleteTicket id true =
      { x with key := some k, tkts := x.tkts.filter (fun t => t.id ≠ id),
               pq := x.pq.filter (· ≠ id) } := by
    unfold Node.deleteTicket; rw [ht']
  rw [hd]
  have h1 : NodeOk H n I A nx i { x with
      key := some { k with val := t.val, ts := t.ts, lastWriter := t.fromID },
      tkts := x.tkts.filter (fun t => t.id ≠ id), pq := x.pq.filter (· ≠ id) } := by
    refine h.setKey (k' := { k with val := t.val, ts := t.ts, lastWriter := t.fromID })
      rfl rfl rfl rfl rfl hle ⟨id, hI⟩ (by dsimp only; rw [hst]; simp)
      (fun t ht => h.tkts t (List.mem_filter.1 ht).1) ?_
    intro _ hs
    dsimp only at hs
    rw [hst] at hs
    simp at hs
  split
  · exact h1.unblockReads rfl ⟨id, hI⟩
  · rename_i hp
    have hp : t.pseudo = false := by simpa using hp
    refine NodeOk.unblockReads ?_ rfl ⟨id, hI⟩
    exact {
      me := h1.me, sentInv := h1.sentInv, sentAck := h1.sentAck, key := h1.key, calm := h1.calm
      held := h1.held, tkts := h1.tkts, seen := h1.seen
      read := by
        intro id' v ts hm
        simp only [List.mem_append, List.mem_singleton] at hm
        rcases hm with hm | hm
        · exact h1.read hm
        · exact absurd hm (by simp)
      wrote := by
        intro id' v ts hm
        simp only [List.mem_append, List.mem_singleton] at hm
        rcases hm with hm | hm
        · exact h1.wrote hm
        · simp only [Done.wrote.injEq] at hm
          obtain ⟨rfl, rfl, rfl, _⟩ := hm
          exact ⟨hI, ⟨_, rfl, Le.refl _⟩, hc hp⟩ }

/-! ### ACKs -/

theorem covered_of_acks {t : Ticket} (h : TktOk n I A nx i t) (iok : IOk n I nx) {ts : TS}
    {v : Option Nat} (hI : I t.id ts v) (hi : i < n) {frm : Nat} (hf : frm ∈ t.acks)
    (hl : n ≤ 2 ∨ isLast n t = true) : Covered n A i ts := by
  have hA : ∀ j ∈ t.acks, A j ts := by
    intro j hj
    obtain ⟨_, _, ts', v', hI', ha⟩ := h.acks j hj
    rw [(iok.byId hI' hI).1] at ha
    exact ha
  obtain ⟨hf1, hf2, _⟩ := h.acks frm hf
  by_cases h2 : n ≤ 2
  · refine ⟨n, fun _ => Nat.le_refl _, fun j hj _ hji => ?_⟩
    have : j = frm := by omega
    rw [this]
    exact hA frm hf
  · have hl : n ≤ t.acks.length + 2 := by
      have := hl.resolve_left h2
      unfold isLast at this
      have := of_decide_eq_true this
      omega
    by_cases hall : ∀ j, j < n → j ≠ i → j ∈ t.acks
    · exact ⟨n, fun _ => Nat.le_refl _, fun j hj _ hji => hA j (hall j hj hji)⟩
    · obtain ⟨b, hb⟩ := Classical.not_forall.1 hall
      simp only [Classical.not_imp] at hb
      obtain ⟨hbn, hbi, hbm⟩ := hb
      refine ⟨b, fun h => absurd h h2, fun j hj hjb hji => hA j ?_⟩
      apply Classical.byContradiction
      intro hjm
      have hnd : (b :: j :: i :: t.acks).Nodup := by
        refine List.nodup_cons.2 ⟨?_, List.nodup_cons.2 ⟨?_, List.nodup_cons.2 ⟨?_, h.nodup⟩⟩⟩
        · simp only [List.mem_cons, not_or]
          exact ⟨Ne.symm hjb, hbi, hbm⟩
        · simp only [List.mem_cons, not_or]
          exact ⟨hji, hjm⟩
        · intro hi'
          exact (h.acks i hi').2.1 rfl
      have hsub : (b :: j :: i :: t.acks) ⊆ List.range n := by
        intro y hy
        simp only [List.mem_cons] at hy
        rw [List.mem_range]
        rcases hy with rfl | rfl | rfl | hy
        · exact hbn
        · exact hj
        · exact hi
        · exact (h.acks y hy).1
      have := (hnd.subperm hsub).length_le
      simp only [List.length_cons, List.length_range] at this
      omega

theorem addAck_mem (j : Nat) (t : Ticket) : j ∈ (addAck j t).acks := by
  unfold addAck
  dsimp only
  split
  · assumption
  · exact List.mem_cons_self

theorem ackTicket_ok (h : NodeOk H n I A nx i x) (iok : IOk n I nx) {id frm : Nat} {ts : TS}
    {v : Option Nat} (hI : I id ts v) (hf : frm < n) (hfi : frm ≠ i) (hA : A frm ts) :
    NodeOk H n I A nx i (x.ackTicket id frm ts) ∧
      (x.ackTicket id frm ts).key = x.key ∧
      (∀ t, (x.ackTicket id frm ts).ticket id = some t → frm ∈ t.acks) ∧
      (x.ticket id = none → ∀ t ∈ (x.ackTicket id frm ts).tkts, t.id = id → t.val = none) := by
  unfold Node.ackTicket
  cases hx : x.ticket id with
  | none =>
    dsimp only
    refine ⟨(h.record hx ?_).addAck hI hf hfi hA, ?_, ?_, ?_⟩
    · exact {
        lt := iok.lt hI, acks := by simp, nodup := List.nodup_nil
        own := by intro hp; exact absurd hp (by simp)
        fake := fun _ => ⟨rfl, v, hI, .inl rfl⟩
        read := by intro ho; exact absurd ho (by simp) }
    · unfold Node.record; dsimp only; rw [hx]; rfl
    · intro t ht
      obtain ⟨ht, e⟩ := ticket_mem ht
      simp only [Node.modify, List.mem_map] at ht
      obtain ⟨t0, _, rfl⟩ := ht
      split at e
      · rename_i e'; rw [if_pos e']; exact addAck_mem _ _
      · rename_i e'; exact absurd e e'
    · intro _ t ht e
      simp only [Node.modify, List.mem_map] at ht
      obtain ⟨t0, ht0, rfl⟩ := ht
      unfold Node.record at ht0
      dsimp only at ht0
      rw [hx] at ht0
      simp only [List.mem_append, List.mem_singleton] at ht0
      rcases ht0 with ht0 | rfl
      · split at e
        · rename_i e'; exact absurd e' (ticket_none hx t0 ht0)
        · exact absurd e (ticket_none hx t0 ht0)
      · simp [addAck]
  | some t0 =>
    dsimp only
    refine ⟨h.addAck hI hf hfi hA, rfl, ?_, by simp⟩
    intro t ht
    obtain ⟨ht, e⟩ := ticket_mem ht
    simp only [Node.modify, List.mem_map] at ht
    obtain ⟨t0, _, rfl⟩ := ht
    split at e
    · rename_i e'; rw [if_pos e']; exact addAck_mem _ _
    · rename_i e'; exact absurd e e'

/-- The reads among these answers are no older than the node is. -/
def Fresh (H : Nat → Nat → Nat) (x : Node) (l : List Done) : Prop :=
  ∀ id v ts, .read id v ts ∈ l → ∀ k, x.key = some k → Le H k.ts ts

theorem Fresh.nil (x : Node) : Fresh H x [] := by intro id v ts h; simp at h

theorem Fresh.append {x : Node} {l l' : List Done} (h : Fresh H x l) (h' : Fresh H x l') :
    Fresh H x (l ++ l') := by
  intro id v ts hm
  rcases List.mem_append.1 hm with hm | hm
  · exact h id v ts hm
  · exact h' id v ts hm

/-- What happens to a node in a step that issues no write. -/
structure Quiet (H : Nat → Nat → Nat) (x x' : Node) : Prop where
  le : ∀ k, x.key = some k → ∃ k', x'.key = some k' ∧ Le H k.ts k'.ts
  sent : ∃ l, x'.sent = x.sent ++ l ∧ ∀ m ∈ l, ∃ id frm ts, m = .ack id frm ts
  log : ∃ l, x'.log = x.log ++ l ∧ Fresh H x l
  seen : ∃ l, x'.seen = x.seen ++ l

theorem Quiet.refl (x : Node) : Quiet H x x :=
  ⟨fun k hk => ⟨k, hk, Le.refl _⟩, ⟨[], by simp, by simp⟩, ⟨[], by simp, Fresh.nil _⟩, ⟨[], by simp⟩⟩

theorem Fresh.later {x y : Node} {l : List Done} (h : Fresh H y l)
    (hle : ∀ k, x.key = some k → ∃ k', y.key = some k' ∧ Le H k.ts k'.ts) : Fresh H x l := by
  intro id v ts hm k hk
  obtain ⟨k', hk', hl⟩ := hle k hk
  exact hl.trans (h id v ts hm k' hk')

theorem Quiet.trans {x y z : Node} (h1 : Quiet H x y) (h2 : Quiet H y z) : Quiet H x z := by
  refine ⟨?_, ?_, ?_, ?_⟩
  · intro k hk
    obtain ⟨k', hk', hl⟩ := h1.le k hk
    obtain ⟨k'', hk'', hl'⟩ := h2.le k' hk'
    exact ⟨k'', hk'', hl.trans hl'⟩
  · obtain ⟨l, e, hl⟩ := h1.sent
    obtain ⟨l', e', hl'⟩ := h2.sent
    refine ⟨l ++ l', by rw [e', e, List.append_assoc], fun m hm => ?_⟩
    rcases List.mem_append.1 hm with hm | hm
    · exact hl m hm
    · exact hl' m hm
  · obtain ⟨l, e, f⟩ := h1.log
    obtain ⟨l', e', f'⟩ := h2.log
    exact ⟨l ++ l', by rw [e', e, List.append_assoc], f.append (f'.later h1.le)⟩
  · obtain ⟨l, e⟩ := h1.seen
    obtain ⟨l', e'⟩ := h2.seen
    exact ⟨l ++ l', by rw [e', e, List.append_assoc]⟩

theorem Quiet.of {x x' : Node} (e1 : x'.key = x.key) (e2 : x'.sent = x.sent) (e3 : x'.log = x.log)
    (e4 : x'.seen = x.seen) : Quiet H x x' :=
  ⟨fun k hk => ⟨k, by rw [e1]; exact hk, Le.refl _⟩, ⟨[], by simp [e2], by simp⟩,
    ⟨[], by simp [e3], Fresh.nil _⟩, ⟨[], by simp [e4]⟩⟩

theorem quiet_unblock (k : KeyMeta) (hle : ∀ k', x.key = some k' → Le H k'.ts k.ts) :
    Quiet H x (x.unblockReads k) := by
  refine ⟨fun k hk => ⟨k, hk, Le.refl _⟩, ⟨[], by simp [Node.unblockReads], by simp⟩, ⟨_, rfl, ?_⟩,
    ⟨[], by simp [Node.unblockReads]⟩⟩
  intro id v ts hm k' hk'
  simp only [List.mem_map, Done.read.injEq] at hm
  obtain ⟨_, _, _, _, rfl⟩ := hm
  exact hle k' hk'

theorem quiet_unblock_self (k : KeyMeta) (hk : x.key = some k) : Quiet H x (x.unblockReads k) :=
  quiet_unblock k fun k' hk' => by
    rw [hk] at hk'
    obtain rfl := Option.some.inj hk'
    exact Le.refl _

theorem quiet_key {x' : Node} {k' : KeyMeta} (e1 : x'.key = some k')
    (hle : ∀ k, x.key = some k → Le H k.ts k'.ts) (e2 : x'.sent = x.sent)
    (e3 : ∃ l, x'.log = x.log ++ l ∧ ∀ id v ts, .read id v ts ∉ l) (e4 : x'.seen = x.seen) :
    Quiet H x x' := by
  obtain ⟨l, e3, hl⟩ := e3
  exact ⟨fun k hk => ⟨k', e1, hle k hk⟩, ⟨[], by simp [e2], by simp⟩,
    ⟨l, e3, fun id v ts hm => absurd hm (hl id v ts)⟩, ⟨[], by simp [e4]⟩⟩

theorem quiet_complete {k : KeyMeta} {id : Nat} {t : Ticket} (ht : x.ticket id = some t)
    (hle : ∀ k, x.key = some k → Le H k.ts t.ts) :
    Quiet H x ({ x with key := some k }.completeWrite k id) := by
  unfold Node.completeWrite
  have ht' : ({ x with key := some k } : Node).ticket id = some t := ht
  rw [ht']
  dsimp only
  have hd : ({ x with key := some k } : Node).deleteTicket id true =
      { x with key := some k, tkts := x.tkts.filter (fun t => t.id ≠ id),
               pq := x.pq.filter (· ≠ id) } := by
    unfold Node.deleteTicket; rw [ht']
  rw [hd]
  refine Quiet.trans ?_ (quiet_unblock_self _ (by split <;> rfl))
  split
  · exact quiet_key rfl hle rfl ⟨[], by simp⟩ rfl
  · exact quiet_key rfl hle rfl ⟨_, rfl, by simp⟩ rfl

theorem quiet_ackTicket (id frm : Nat) (ts : TS) : Quiet H x (x.ackTicket id frm ts) := by
  unfold Node.ackTicket
  cases hx : x.ticket id with
  | none =>
    refine Quiet.of ?_ ?_ ?_ ?_ <;> (unfold Node.record; dsimp only; rw [hx]; rfl)
  | some t => exact Quiet.of rfl rfl rfl rfl

theorem ackState_ok (h : NodeOk H n I A nx i x) (iok : IOk n I nx) (hi : i < n) {k : KeyMeta}
    (hk : x.key = some k) {t : Ticket} {v : Option Nat} (ht : x.ticket t.id = some t)
    (hI : I t.id k.ts v) {frm : Nat} (hf : frm ∈ t.acks) (hp : x.panicked = false) :
    NodeOk H n I A nx i (x.ackState n k t) ∧ Quiet H x (x.ackState n k t) := by
  have hle : ∀ k', x.key = some k' → Le H k'.ts k.ts := by
    intro k' hk'
    rw [hk] at hk'
    obtain rfl := Option.some.inj hk'
    exact Le.refl _
  have hv : k.val = v := by
    rcases h.key k hk with ⟨e, _⟩ | ⟨id', hI'⟩
    · have := (iok.coord hI).2
      rw [e] at this
      simp at this
    · exact (iok.byTs hI' hI).2
  have htm := (ticket_mem ht).1
  obtain ⟨hop, hts, hval⟩ := (h.tkts t htm).known iok hI
  -- the ticket holds what the key holds
  have full : k.st = .write ∨ k.st = .invalidWR → t.val = k.val := by
    intro hst
    obtain ⟨id', hI', _, hh⟩ := h.held hp k hk hst
    obtain ⟨e, _⟩ := iok.byTs hI' hI
    exact (hh t htm e.symm).2.2
  have done : k.st = .write ∨ k.st = .invalidWR → isLast n t = true →
      NodeOk H n I A nx i ({ x with key := some { k with st := .valid } }.completeWrite
        { k with st := .valid } t.id) ∧
      Quiet H x ({ x with key := some { k with st := .valid } }.completeWrite
        { k with st := .valid } t.id) := by
    intro hst hl
    have hv' := full hst
    refine ⟨h.complete ht rfl ?_ ?_ ?_, quiet_complete ht ?_⟩
    · rw [hts, hv', hv]; exact hI
    · rw [hts]; exact hle
    · intro _
      rw [hts]
      exact covered_of_acks (h.tkts t htm) iok hI hi hf (.inr hl)
    · rw [hts]; exact hle
  unfold Node.ackState
  split
  case h_1 => exact ⟨h, Quiet.refl _⟩
  case h_2 hst =>
    split
    · rename_i hl
      dsimp only
      -- the ticket gets the key's value
      have h1 : NodeOk H n I A nx i (x.modify t.id fun x => { x with ts := k.ts, val := k.val }) := by
        refine h.modify (fun _ _ e => e) ?_ (fun k' hk' hst' => ?_)
        · intro t' ht' e
          have ho := h.tkts t' ht'
          have hI' : I t'.id k.ts k.val := by rw [e, hv]; exact hI
          exact {
            lt := ho.lt, acks := ho.acks, nodup := ho.nodup
            own := fun _ _ ts v h' => iok.byId hI' h'
            fake := fun hp => ⟨(ho.fake hp).1, k.val, hI', .inr rfl⟩
            read := ho.read }
        · rw [hk] at hk'
          obtain rfl := Option.some.inj hk'
          rw [hst] at hst'
          simp at hst'
      have ht1 : (x.modify t.id fun x => { x with ts := k.ts, val := k.val }).ticket t.id =
          some { t with ts := k.ts, val := k.val } := by
        unfold Node.ticket Node.modify
        unfold Node.ticket at ht
        dsimp only
        rw [List.find?_map]
        have : ((fun q : Ticket => q.id == t.id) ∘ fun t' : Ticket => if t'.id = t.id then
            { t' with ts := k.ts, val := k.val } else t') = fun t' : Ticket => t'.id == t.id := by
          funext t'
          simp only [Function.comp]
          split <;> rfl
        rw [this, ht]
        simp
      have hq : Quiet H x (x.modify t.id fun x => { x with ts := k.ts, val := k.val }) :=
        Quiet.of rfl rfl rfl rfl
      refine ⟨h1.complete (k := { k with st := .valid }) ht1 rfl ?_ hle ?_,
        hq.trans (quiet_complete (k := { k with st := .valid }) ht1 hle)⟩
      · rw [hv]; exact hI
      · intro _
        exact covered_of_acks (h.tkts t htm) iok hI hi hf (.inr hl)
    · exact ⟨h, Quiet.refl _⟩
  case h_3 hst =>
    split
    · rename_i hl
      dsimp only
      exact done (.inr hst) hl
    · exact ⟨h, Quiet.refl _⟩
  case h_4 hst =>
    rw [if_neg (by simp [hop])]
    split
    · rename_i hl
      exact done (.inl hst) hl
    · exact ⟨h, Quiet.refl _⟩
  case h_5 hst => exact absurd hst (h.calm k hk)

theorem ackTicket_panicked (id frm : Nat) (ts : TS) : (x.ackTicket id frm ts).panicked = x.panicked := by
  unfold Node.ackTicket
  cases hx : x.ticket id with
  | none => unfold Node.record; dsimp only; rw [hx]; rfl
  | some t => rfl

theorem recvAck_ok (h : NodeOk H n I A nx i x) (iok : IOk n I nx) (hi : i < n) {id frm : Nat}
    {ts : TS} {v : Option Nat} (hI : I id ts v) (hf : frm < n) (hfi : frm ≠ i) (hA : A frm ts)
    (hp : x.panicked = false) : NodeOk H n I A nx i (x.recvAck H n id frm ts) ∧
      Quiet H x (x.recvAck H n id frm ts) := by
  obtain ⟨h1, hk1, hm1, hn1⟩ := ackTicket_ok h iok hI hf hfi hA
  have q1 : Quiet H x (x.ackTicket id frm ts) := quiet_ackTicket id frm ts
  unfold Node.recvAck
  split
  · exact ⟨h1, q1⟩
  · rename_i k hk
    split
    · rename_i hlt
      have hne : ∃ t, x.ticket id = some t := Option.isSome_iff_exists.1 hlt.1
      obtain ⟨t0, ht0⟩ := hne
      have e : x.deleteTicket id false =
          { x with tkts := x.tkts.filter (fun t => t.id ≠ id), pq := x.pq.filter (· ≠ id) } := by
        unfold Node.deleteTicket; rw [ht0]
      rw [e]
      refine ⟨h.tickets rfl rfl rfl rfl rfl (fun h => h)
        (fun t ht => h.tkts t (List.mem_filter.1 ht).1) ?_, Quiet.of rfl rfl rfl rfl⟩
      intro _ k' id' hk' _ hI' ⟨⟨t1, ht1, he1⟩, hh⟩
      refine ⟨⟨t1, List.mem_filter.2 ⟨ht1, ?_⟩, he1⟩, fun t ht => hh t (List.mem_filter.1 ht).1⟩
      simp only [ne_eq, decide_not, Bool.not_eq_eq_eq_not, Bool.not_true, decide_eq_false_iff_not]
      intro e1
      rw [hk] at hk'
      obtain rfl := Option.some.inj hk'
      have : id' = id := he1.symm.trans e1
      subst this
      have := (iok.byId hI' hI).1
      rw [← this] at hlt
      have hc : k.ts.compare H k.ts = .eq := (eq_iff _ _).2 rfl
      rw [hc] at hlt
      exact absurd hlt.2 (by simp)
    · rename_i hnlt
      dsimp only
      split
      · exact ⟨h1, q1⟩
      · rename_i t ht
        obtain ⟨htm, hid⟩ := ticket_mem ht
        have hIt : I t.id ts v := by rw [hid]; exact hI
        obtain ⟨hop, hts, hval⟩ := (h1.tkts t htm).known iok hIt
        split
        · rename_i hc
          have hex : ¬ x.ticket id = none := fun hx => hc.1 (hn1 hx t htm hid)
          have hcmp : ts.compare H k.ts ≠ .lt := by
            intro hlt
            exact hnlt ⟨by cases hx : x.ticket id with
              | none => exact absurd hx hex
              | some _ => rfl, hlt⟩
          have hle : ∀ k', (x.ackTicket id frm ts).key = some k' → Le H k'.ts t.ts := by
            intro k' hk'
            rw [hk1, hk] at hk'
            obtain rfl := Option.some.inj hk'
            rw [hts]
            exact le_of_not_lt hcmp
          have hvv : t.val = v := by
            rcases hval with h | ⟨_, h⟩
            · exact h
            · exact absurd h hc.1
          refine ⟨h1.complete (k := { k with st := .valid }) ht rfl (by rw [hts, hvv]; exact hI) hle ?_,
            q1.trans (quiet_complete (k := { k with st := .valid }) ht hle)⟩
          intro _
          rw [hts]
          exact covered_of_acks (h1.tkts t htm) iok hIt hi (hm1 t ht) (.inl hc.2)
        · split
          · exact ⟨h1, q1⟩
          · rename_i hc
            have hc : ts = k.ts := (eq_iff _ _).1 (Classical.not_not.1 hc)
            have hpp : (x.ackTicket id frm ts).panicked = false := by
              rw [ackTicket_panicked]; exact hp
            obtain ⟨a, b⟩ := ackState_ok h1 iok hi (k := k) (hk1.trans hk) (t := t) (v := v)
              (by rw [hid]; exact ht) (by rw [← hc]; exact hIt) (hm1 t ht) hpp
            exact ⟨a, q1.trans b⟩

/-! ### Invalidations -/

/-- What the release of overtaken writers does. -/
structure Rel (x x' : Node) : Prop where
  me : x'.me = x.me
  key : x'.key = x.key
  sent : x'.sent = x.sent
  seen : x'.seen = x.seen
  tkts : ∀ t ∈ x'.tkts, t ∈ x.tkts
  log : ∃ l, x'.log = x.log ++ l ∧ ∀ d ∈ l, ∃ id v ts, d = .wrote id v ts false

theorem Rel.refl (x : Node) : Rel x x := ⟨rfl, rfl, rfl, rfl, fun _ h => h, [], by simp, by simp⟩

theorem Rel.trans {x y z : Node} (h1 : Rel x y) (h2 : Rel y z) : Rel x z := by
  refine ⟨h2.me.trans h1.me, h2.key.trans h1.key, h2.sent.trans h1.sent, h2.seen.trans h1.seen,
    fun t ht => h1.tkts t (h2.tkts t ht), ?_⟩
  obtain ⟨l, e, hl⟩ := h1.log
  obtain ⟨l', e', hl'⟩ := h2.log
  refine ⟨l ++ l', by rw [e', e, List.append_assoc], fun m hm => ?_⟩
  rcases List.mem_append.1 hm with hm | hm
  · exact hl m hm
  · exact hl' m hm

theorem rel_delete (id : Nat) (w : Bool) : Rel x (x.deleteTicket id w) := by
  refine ⟨?_, ?_, ?_, ?_, deleteTicket_tkts id w, [], ?_, by simp⟩ <;>
    (unfold Node.deleteTicket; repeat' split) <;> simp

theorem rel_loop (k : KeyMeta) (orig : List Ticket) : ∀ (fuel : Nat) (x : Node) (arr cur : List Nat)
    (i : Nat), Rel x (x.releaseLoop H k orig fuel arr cur i) := by
  intro fuel
  induction fuel with
  | zero => intro x arr cur i; exact Rel.refl _
  | succ fuel ih =>
    intro x arr cur i
    unfold Node.releaseLoop
    split
    · exact Rel.refl _
    · rename_i id _
      split
      · exact ih ..
      · split
        · dsimp only
          split
          · exact rel_delete id true
          · refine Rel.trans ?_ (ih ..)
            split
            · exact rel_delete id true
            · refine (rel_delete id true).trans ⟨rfl, rfl, rfl, rfl, fun _ h => h, _, rfl, ?_⟩
              intro d hd
              rw [List.mem_singleton] at hd
              exact ⟨_, _, _, hd⟩
        · exact ih ..

theorem rel_release (k : KeyMeta) : Rel x (x.release H k) := rel_loop ..

theorem NodeOk.rel (h : NodeOk H n I A nx i x) {x' : Node} (r : Rel x x')
    (hh : x'.panicked = true ∨ ∀ k, x.key = some k → k.st = .invalid) : NodeOk H n I A nx i x' where
  me := r.me.trans h.me
  sentInv := by unfold Above; rw [r.key, r.sent]; exact h.sentInv
  sentAck := by unfold Above; rw [r.key, r.sent]; exact h.sentAck
  key := by rw [r.key]; exact h.key
  calm := by rw [r.key]; exact h.calm
  held := by
    intro hp k hk hst
    rcases hh with hh | hh
    · rw [hh] at hp; exact absurd hp (by simp)
    · rw [r.key] at hk
      rw [hh k hk] at hst
      simp at hst
  tkts := fun t ht => h.tkts t (r.tkts t ht)
  wrote := by
    obtain ⟨l, e, hl⟩ := r.log
    unfold Above
    rw [r.key, e]
    intro id v ts hm
    rcases List.mem_append.1 hm with hm | hm
    · exact h.wrote hm
    · obtain ⟨_, _, _, e⟩ := hl _ hm
      exact absurd e (by simp)
  read := by
    obtain ⟨l, e, hl⟩ := r.log
    unfold Above
    rw [r.key, e]
    intro id v ts hm
    rcases List.mem_append.1 hm with hm | hm
    · exact h.read hm
    · obtain ⟨_, _, _, e⟩ := hl _ hm
      exact absurd e (by simp)
  seen := by unfold Above; rw [r.key, r.seen]; exact h.seen

theorem Rel.quiet {x' : Node} (r : Rel x x') : Quiet H x x' := by
  obtain ⟨l, e, hl⟩ := r.log
  refine ⟨fun k hk => ⟨k, by rw [r.key]; exact hk, Le.refl _⟩, ⟨[], by simp [r.sent], by simp⟩,
    ⟨l, e, ?_⟩, ⟨[], by simp [r.seen]⟩⟩
  intro id v ts hm
  obtain ⟨_, _, _, e⟩ := hl _ hm
  exact absurd e (by simp)

theorem invTicket_eq (q : Option KeyMeta) (id frm : Nat) (ts : TS) (v : Option Nat) :
    { x with key := q }.invTicket id frm ts v = { x.invTicket id frm ts v with key := q } := by
  unfold Node.invTicket
  have e : ({ x with key := q } : Node).ticket id = x.ticket id := rfl
  rw [e]
  cases hx : x.ticket id with
  | none =>
    unfold Node.record
    dsimp only
    rw [e, hx]
    rfl
  | some t => rfl

theorem quiet_invTicket (id frm : Nat) (ts : TS) (v : Option Nat) :
    Quiet H x (x.invTicket id frm ts v) := by
  unfold Node.invTicket
  cases hx : x.ticket id with
  | none =>
    refine Quiet.of ?_ ?_ ?_ ?_ <;> (unfold Node.record; dsimp only; rw [hx]; rfl)
  | some t => exact Quiet.of rfl rfl rfl rfl

theorem invTicket_ok (h : NodeOk H n I A nx i x) (iok : IOk n I nx) {id frm : Nat} {ts : TS}
    {v : Option Nat} (hI : I id ts v) (hf : frm < n) (hfi : frm ≠ i) (hA : A frm ts) :
    NodeOk H n I A nx i (x.invTicket id frm ts v) ∧ (x.invTicket id frm ts v).key = x.key ∧
      (∃ t ∈ (x.invTicket id frm ts v).tkts, t.id = id) ∧
      ∀ t ∈ (x.invTicket id frm ts v).tkts, t.id = id → t.op = .write ∧ t.ts = ts ∧ t.val = v := by
  unfold Node.invTicket
  cases hx : x.ticket id with
  | none =>
    dsimp only
    refine ⟨(h.record hx ?_).addAck hI hf hfi hA, ?_, ?_, ?_⟩
    · exact {
        lt := iok.lt hI, acks := by simp, nodup := List.nodup_nil
        own := by intro hp; exact absurd hp (by simp)
        fake := fun _ => ⟨rfl, v, hI, .inr rfl⟩
        read := by intro ho; exact absurd ho (by simp) }
    · unfold Node.record; dsimp only; rw [hx]; rfl
    · unfold Node.record
      dsimp only
      rw [hx]
      dsimp only
      exact ⟨_, List.mem_map.2 ⟨_, List.mem_append_right _ (List.mem_singleton.2 rfl), rfl⟩, by simp [addAck]⟩
    · intro t ht e
      simp only [Node.modify, List.mem_map] at ht
      obtain ⟨t0, ht0, rfl⟩ := ht
      unfold Node.record at ht0
      dsimp only at ht0
      rw [hx] at ht0
      simp only [List.mem_append, List.mem_singleton] at ht0
      rcases ht0 with ht0 | rfl
      · split at e
        · rename_i e'; exact absurd e' (ticket_none hx t0 ht0)
        · exact absurd e (ticket_none hx t0 ht0)
      · simp [addAck]
  | some t0 =>
    dsimp only
    obtain ⟨hm0, he0⟩ := ticket_mem hx
    have h1 : NodeOk H n I A nx i (x.modify id fun t =>
        if t.pseudo then { t with val := v, ts := ts, hasKey := true } else t) := by
      refine h.modify ?_ ?_ ?_
      · intro t _ e; split <;> exact e
      · intro t ht e
        have ho := h.tkts t ht
        split
        · rename_i hp
          exact {
            lt := ho.lt, acks := ho.acks, nodup := ho.nodup
            own := by intro hp'; dsimp only at hp'; rw [hp] at hp'; exact absurd hp' (by simp)
            fake := fun _ => ⟨(ho.fake hp).1, v, by rw [e]; exact hI, .inr rfl⟩
            read := ho.read }
        · exact ho
      · intro k hk hst hIk t ht e hh
        obtain ⟨e1, e2⟩ := iok.byId hIk hI
        split
        · exact ⟨hh.1, e1.symm, e2.symm⟩
        · exact hh
    refine ⟨h1.addAck hI hf hfi hA, rfl, ?_, ?_⟩
    · refine ⟨_, List.mem_map.2 ⟨_, List.mem_map.2 ⟨t0, hm0, rfl⟩, rfl⟩, ?_⟩
      rw [if_pos he0]
      cases hp : t0.pseudo <;> simp [addAck, he0, hp]
    · intro t ht e
      simp only [Node.modify, List.mem_map] at ht
      obtain ⟨t1, ⟨t2, hm2, rfl⟩, rfl⟩ := ht
      by_cases e2 : t2.id = id
      · have hI2 : I t2.id ts v := by rw [e2]; exact hI
        obtain ⟨a, b, c⟩ := (h.tkts t2 hm2).known iok hI2
        rw [if_pos e2]
        cases hp : t2.pseudo with
        | true =>
          simp only [if_true, e2, addAck]
          exact ⟨a, trivial, trivial⟩
        | false =>
          simp only [Bool.false_eq_true, if_false, e2, if_true, addAck]
          refine ⟨a, b, ?_⟩
          rcases c with c | ⟨c, _⟩
          · exact c
          · rw [hp] at c; exact absurd c (by simp)
      · rw [if_neg e2, if_neg e2] at e
        exact absurd e e2

theorem quiet_ack (id : Nat) (ts : TS) : Quiet H x (x.ack id ts) :=
  ⟨fun k hk => ⟨k, hk, Le.refl _⟩, ⟨_, rfl, by simp⟩, ⟨[], by simp [Node.ack, Node.bcast], Fresh.nil _⟩,
    ⟨[], by simp [Node.ack, Node.bcast]⟩⟩

/-- Two replicas: the write is taken over at once. -/
theorem inv_small (h : NodeOk H n I A nx i x) {k : KeyMeta} {id : Nat} {ts : TS} {v : Option Nat}
    (hI : I id ts v) (hst : k.st = .valid) (hts : k.ts = ts) (hv : k.val = v)
    (hle : ∀ k', x.key = some k' → Le H k'.ts ts) :
    NodeOk H n I A nx i ({ ((x.unblockReads k).ack id ts) with key := some k }.unblockReads k) ∧
      Quiet H x ({ ((x.unblockReads k).ack id ts) with key := some k }.unblockReads k) := by
  subst hts hv
  have h1 : NodeOk H n I A nx i { x with key := some k } := by
    refine h.setKey (x' := { x with key := some k }) rfl rfl rfl rfl rfl hle ⟨id, hI⟩
      (by rw [hst]; simp) h.tkts ?_
    intro _ hs
    rw [hst] at hs
    simp at hs
  have h2 := h1.unblockReads (k := k) rfl ⟨id, hI⟩
  have h3 := h2.sendAck (id := id) (ts := k.ts) ⟨_, hI⟩ ⟨k, rfl, Le.refl _⟩
  refine ⟨h3.unblockReads (k := k) rfl ⟨id, hI⟩, ?_⟩
  have q1 : Quiet H x { x with key := some k } :=
    quiet_key (x' := { x with key := some k }) rfl hle rfl ⟨[], by simp⟩ rfl
  exact q1.trans ((quiet_unblock_self k rfl).trans ((quiet_ack id k.ts).trans (quiet_unblock_self k rfl)))

/-- More replicas: the write is taken over, and a ticket collects the ACKs. -/
theorem inv_big (h : NodeOk H n I A nx i x) (iok : IOk n I nx) {id frm : Nat} {ts : TS}
    {v : Option Nat} (hI : I id ts v) (hf : frm < n) (hfi : frm ≠ i) (hA : A frm ts) {k : KeyMeta}
    (hr : k.st ≠ .replay) (hts : k.ts = ts) (hv : k.val = v)
    (hle : ∀ k', x.key = some k' → Le H k'.ts ts) :
    NodeOk H n I A nx i { ((x.invTicket id frm ts v).ack id ts) with key := some k } ∧
      Quiet H x { ((x.invTicket id frm ts v).ack id ts) with key := some k } := by
  subst hts hv
  obtain ⟨h1, e1, hex, hall⟩ := invTicket_ok h iok hI hf hfi hA
  have hle' : ∀ k', (x.invTicket id frm k.ts k.val).key = some k' → Le H k'.ts k.ts := by
    rw [e1]; exact hle
  have h2 : NodeOk H n I A nx i { x.invTicket id frm k.ts k.val with key := some k } :=
    h1.setKey (x' := { x.invTicket id frm k.ts k.val with key := some k }) rfl rfl rfl rfl rfl
      hle' ⟨id, hI⟩ hr h1.tkts (fun _ _ => ⟨id, hI, hex, hall⟩)
  refine ⟨h2.sendAck (id := id) (ts := k.ts) ⟨_, hI⟩ ⟨k, rfl, Le.refl _⟩, ?_⟩
  have q1 : Quiet H (x.invTicket id frm k.ts k.val) { x.invTicket id frm k.ts k.val with key := some k } :=
    quiet_key (x' := { x.invTicket id frm k.ts k.val with key := some k }) rfl hle' rfl
      ⟨[], by simp⟩ rfl
  exact (quiet_invTicket id frm k.ts k.val).trans (q1.trans (quiet_ack id k.ts))

theorem recvInv_ok (h : NodeOk H n I A nx i x) (iok : IOk n I nx) {id frm : Nat} {ts : TS}
    {v : Option Nat} (hI : I id ts v) (hf : frm < n) (hfi : frm ≠ i) (hA : A frm ts) :
    NodeOk H n I A nx i (x.recvInv H n id frm ts v) ∧ Quiet H x (x.recvInv H n id frm ts v) ∧
      ((x.recvInv H n id frm ts v).panicked = false → Above H (x.recvInv H n id frm ts v) ts) := by
  unfold Node.recvInv
  generalize hk : x.key.getD { ts := ts, val := v, st := .invalid, lastWriter := frm } = k
  -- a key that was not there before
  have h0 : NodeOk H n I A nx i { x with key := some k } ∧ Quiet H x { x with key := some k } := by
    cases hx : x.key with
    | some k0 =>
      rw [hx] at hk
      obtain rfl : k0 = k := hk
      have : ({ x with key := some k0 } : Node) = x := by rw [← hx]
      rw [this]
      exact ⟨h, Quiet.refl _⟩
    | none =>
      rw [hx] at hk
      obtain rfl := hk
      refine ⟨h.setKey (x' := { x with key := some _ }) rfl rfl rfl rfl rfl (by simp [hx]) ⟨id, hI⟩ (by simp)
        h.tkts (by simp), quiet_key (x' := { x with key := some _ }) rfl (by simp [hx]) rfl ⟨[], by simp⟩ rfl⟩
  obtain ⟨h0, q0⟩ := h0
  clear hk
  dsimp only
  generalize hy : ({ x with key := some k } : Node) = y at h0 q0
  have hky : y.key = some k := by rw [← hy]
  have hIk : ts.version ≤ k.ts.version → ∃ id', I id' k.ts k.val := by
    intro hver
    rcases h0.key k hky with ⟨e, _⟩ | h
    · have := (iok.coord hI).2
      rw [e] at hver
      simp at hver
      omega
    · exact h
  suffices NodeOk H n I A nx i _ ∧ Quiet H y _ ∧ _ from ⟨this.1, q0.trans this.2.1, this.2.2⟩
  cases hc : ts.compare H k.ts with
  | eq =>
    have hts : ts = k.ts := (eq_iff _ _).1 hc
    have hle : ∀ k', y.key = some k' → Le H k'.ts ts := by
      intro k' hk'
      rw [hky] at hk'
      obtain rfl := Option.some.inj hk'
      rw [hts]; exact Le.refl _
    dsimp only
    unfold Node.actionI Node.invDone
    split
    · dsimp only
      obtain ⟨a, b⟩ := inv_small (k := { k with ts := ts, val := v, lastWriter := frm, st := .valid })
        h0 hI rfl rfl rfl hle
      exact ⟨a, b, fun _ => ⟨_, rfl, Le.refl _⟩⟩
    · dsimp only
      obtain ⟨a, b⟩ := inv_big (k := { k with ts := ts, val := v, lastWriter := frm })
        h0 iok hI hf hfi hA (h0.calm k hky) rfl rfl hle
      exact ⟨a, b, fun _ => ⟨_, rfl, Le.refl _⟩⟩
  | lt =>
    have hle : Le H ts k.ts := by unfold Le; rw [hc]; simp
    have h1 := h0.sendAck (id := id) (ts := ts) ⟨_, hI⟩ ⟨k, hky, hle⟩
    have q1 : Quiet H y (y.ack id ts) := quiet_ack id ts
    have hle' : ∀ k', (y.ack id ts).key = some k' → Le H k'.ts k.ts := by
      intro k' hk'
      have : (y.ack id ts).key = y.key := rfl
      rw [this, hky] at hk'
      obtain rfl := Option.some.inj hk'
      exact Le.refl _
    dsimp only
    unfold Node.invDone
    split
    · dsimp only
      have hI' := hIk (le_version hle)
      have h2 : NodeOk H n I A nx i { y.ack id ts with key := some { k with st := .valid } } :=
        h1.setKey (x' := { y.ack id ts with key := some { k with st := .valid } }) rfl rfl rfl rfl rfl
          hle' hI' (by simp) h1.tkts (by simp)
      have q2 : Quiet H (y.ack id ts) { y.ack id ts with key := some { k with st := .valid } } :=
        quiet_key (x' := { y.ack id ts with key := some { k with st := .valid } }) rfl hle' rfl
          ⟨[], by simp⟩ rfl
      exact ⟨h2.unblockReads rfl hI', q1.trans (q2.trans (quiet_unblock_self _ rfl)),
        fun _ => ⟨{ k with st := .valid }, rfl, hle⟩⟩
    · have : ({ y.ack id ts with key := some k } : Node) = y.ack id ts := by
        have e : (y.ack id ts).key = some k := hky
        rw [← e]
      rw [this]
      exact ⟨h1, q1, fun _ => ⟨k, hky, hle⟩⟩
  | gt =>
    have hle : Le H k.ts ts := le_of_gt hc
    dsimp only
    generalize hz : (if k.st = .write ∨ k.st = .replay then y.release H k else y) = z
    have r : Rel y z := by
      rw [← hz]
      split
      · exact rel_release k
      · exact Rel.refl _
    split
    · rename_i hp
      exact ⟨h0.rel r (.inl hp), r.quiet, fun h => absurd h (by simp [hp])⟩
    · rename_i hp
      have hp : z.panicked = false := by simpa using hp
      -- the key with its state forgotten
      have hinv : NodeOk H n I A nx i { y with key := some { k with st := .invalid } } := by
        rcases h0.key k hky with ⟨e, _⟩ | hIk'
        · have : k.st = .invalid := by
            rcases h0.key k hky with ⟨_, e'⟩ | ⟨id', h'⟩
            · exact e'
            · have := (iok.coord h').2
              rw [e] at this
              simp at this
          have e2 : ({ y with key := some { k with st := .invalid } } : Node) = y := by
            have : ({ k with st := .invalid } : KeyMeta) = k := by rw [← this]
            rw [this, ← hky]
          rw [e2]; exact h0
        · refine h0.setKey (x' := { y with key := some { k with st := .invalid } }) rfl rfl rfl rfl rfl
            ?_ hIk' (by simp) h0.tkts (by simp)
          intro k' hk'
          rw [hky] at hk'
          obtain rfl := Option.some.inj hk'
          exact Le.refl _
      have r' : Rel { y with key := some { k with st := .invalid } }
          { z with key := some { k with st := .invalid } } :=
        ⟨r.me, rfl, r.sent, r.seen, r.tkts, r.log⟩
      have hz' : NodeOk H n I A nx i { z with key := some { k with st := .invalid } } := by
        refine hinv.rel r' (.inr ?_)
        intro k' hk'
        obtain rfl := Option.some.inj hk'
        rfl
      have qz : Quiet H y { z with key := some { k with st := .invalid } } := by
        refine Quiet.trans r.quiet ?_
        refine quiet_key (x' := { z with key := some { k with st := .invalid } }) rfl ?_ rfl ⟨[], by simp⟩ rfl
        intro k' hk'
        rw [r.key, hky] at hk'
        obtain rfl := Option.some.inj hk'
        exact Le.refl _
      have hle' : ∀ k', ({ z with key := some { k with st := .invalid } } : Node).key = some k' →
          Le H k'.ts ts := by
        intro k' hk'
        obtain rfl := Option.some.inj hk'
        exact hle
      unfold Node.actionI Node.invDone
      split
      · dsimp only
        obtain ⟨a, b⟩ := inv_small (k := { k with ts := ts, val := v, lastWriter := frm, st := .valid })
          hz' hI rfl rfl rfl hle'
        exact ⟨a, qz.trans b, fun _ => ⟨_, rfl, Le.refl _⟩⟩
      · dsimp only
        obtain ⟨a, b⟩ := inv_big
          (k := { k with ts := ts, val := v, lastWriter := frm, st := invState k.st })
          hz' iok hI hf hfi hA (by dsimp only; cases k.st <;> simp [invState]) rfl rfl hle'
        rw [invTicket_eq] at a b
        exact ⟨a, qz.trans b, fun _ => ⟨_, rfl, Le.refl _⟩⟩

/-! ### Requests -/

theorem NodeOk.bump (h : NodeOk H n I A nx i x) {nx' : Nat} (hle : nx ≤ nx') :
    NodeOk H n I A nx' i x :=
  { me := h.me, sentInv := h.sentInv, sentAck := h.sentAck, key := h.key, calm := h.calm,
    held := h.held, wrote := h.wrote, read := h.read, seen := h.seen,
    tkts := fun t ht => { h.tkts t ht with lt := Nat.lt_of_lt_of_le (h.tkts t ht).lt hle } }

/-- More was sent, others moved on. -/
theorem NodeOk.lift (h : NodeOk H n I A nx i x) {I' : Nat → TS → Option Nat → Prop}
    {A' : Nat → TS → Prop} {nx' : Nat} (hI : ∀ id ts v, I id ts v → I' id ts v)
    (hI' : ∀ id ts v, I' id ts v → I id ts v ∨ nx ≤ id) (hA : ∀ j ts, A j ts → A' j ts)
    (hle : nx ≤ nx') : NodeOk H n I' A' nx' i x where
  me := h.me
  sentInv := h.sentInv
  sentAck := fun hm => by
    obtain ⟨a, ⟨v, b⟩, c⟩ := h.sentAck hm
    exact ⟨a, ⟨v, hI _ _ _ b⟩, c⟩
  key := fun k hk => by
    rcases h.key k hk with h | ⟨id, h⟩
    · exact .inl h
    · exact .inr ⟨id, hI _ _ _ h⟩
  calm := h.calm
  held := fun hp k hk hst => by
    obtain ⟨id, a, b⟩ := h.held hp k hk hst
    exact ⟨id, hI _ _ _ a, b⟩
  tkts := fun t ht => by
    have ho := h.tkts t ht
    have old : ∀ {ts v}, I' t.id ts v → I t.id ts v := by
      intro ts v h'
      rcases hI' _ _ _ h' with h' | h'
      · exact h'
      · exact absurd ho.lt (by omega)
    exact {
      lt := Nat.lt_of_lt_of_le ho.lt hle
      acks := fun j hj => by
        obtain ⟨a, b, ts, v, c, d⟩ := ho.acks j hj
        exact ⟨a, b, ts, v, hI _ _ _ c, hA _ _ d⟩
      nodup := ho.nodup
      own := fun hp hw ts v h' => ho.own hp hw ts v (old h')
      fake := fun hp => by
        obtain ⟨a, v, b, c⟩ := ho.fake hp
        exact ⟨a, v, hI _ _ _ b, c⟩
      read := fun hr ts v h' => ho.read hr ts v (old h') }
  wrote := fun hm => by
    obtain ⟨a, b, bad, c, d⟩ := h.wrote hm
    exact ⟨hI _ _ _ a, b, bad, c, fun j h1 h2 h3 => hA _ _ (d j h1 h2 h3)⟩
  read := fun hm => by
    obtain ⟨⟨id, a⟩, b⟩ := h.read hm
    exact ⟨⟨id, hI _ _ _ a⟩, b⟩
  seen := fun hm => by
    obtain ⟨a, b⟩ := h.seen hm
    exact ⟨hI _ _ _ a, b⟩

theorem NodeOk.noTicket (h : NodeOk H n I A nx i x) : x.ticket nx = none := by
  unfold Node.ticket
  rw [List.find?_eq_none]
  intro t ht
  have := (h.tkts t ht).lt
  simp
  omega

theorem quiet_record {t : Ticket} : Quiet H x (x.record t) := by
  unfold Node.record
  repeat' split
  all_goals exact Quiet.of rfl rfl rfl rfl

/-- A key seen for the first time, by a request. -/
theorem NodeOk.freshKey (h : NodeOk H n I A nx i x) (hx : x.key = none) (v : Option Nat) (w : Nat) :
    NodeOk H n I A nx i { x with key := some { ts := ⟨0, i⟩, val := v, st := .invalid, lastWriter := w } } where
  me := h.me
  sentInv := fun hm => by
    obtain ⟨_, _, k, hk, _⟩ := h.sentInv hm
    rw [hx] at hk; exact absurd hk (by simp)
  sentAck := fun hm => by
    obtain ⟨_, _, k, hk, _⟩ := h.sentAck hm
    rw [hx] at hk; exact absurd hk (by simp)
  key := fun k hk => by
    obtain rfl := Option.some.inj hk
    exact .inl ⟨rfl, rfl⟩
  calm := fun k hk => by
    obtain rfl := Option.some.inj hk
    simp
  held := fun _ k hk hst => by
    obtain rfl := Option.some.inj hk
    simp at hst
  tkts := h.tkts
  wrote := fun hm => by
    obtain ⟨_, ⟨k, hk, _⟩, _⟩ := h.wrote hm
    rw [hx] at hk; exact absurd hk (by simp)
  read := fun hm => by
    obtain ⟨_, k, hk, _⟩ := h.read hm
    rw [hx] at hk; exact absurd hk (by simp)
  seen := fun hm => by
    obtain ⟨_, k, hk, _⟩ := h.seen hm
    rw [hx] at hk; exact absurd hk (by simp)

theorem NodeOk.append (h : NodeOk H n I A nx i x) {d : Done}
    (hd : (∃ id, d = .notFound id) ∨ ∃ id ts v, d = .read id v ts ∧ (∃ id, I id ts v) ∧ Above H x ts) :
    NodeOk H n I A nx i { x with log := x.log ++ [d] } :=
  { me := h.me, sentInv := h.sentInv, sentAck := h.sentAck, key := h.key, calm := h.calm,
    held := h.held, seen := h.seen, tkts := h.tkts
    wrote := fun hm => by
      simp only [List.mem_append, List.mem_singleton] at hm
      rcases hm with hm | hm
      · exact h.wrote hm
      · rcases hd with ⟨id, e⟩ | ⟨id, ts, v, e, _⟩ <;> (rw [e] at hm; exact absurd hm (by simp))
    read := fun hm => by
      simp only [List.mem_append, List.mem_singleton] at hm
      rcases hm with hm | hm
      · exact h.read hm
      · rcases hd with ⟨id, e⟩ | ⟨id, ts, v, e, h1, h2⟩
        · rw [e] at hm; exact absurd hm (by simp)
        · rw [e] at hm
          simp only [Done.read.injEq] at hm
          obtain ⟨_, rfl, rfl⟩ := hm
          exact ⟨h1, h2⟩ }

theorem readReq_ok (h : NodeOk H n I A nx i x) (iok : IOk n I nx) (w : Bool) :
    NodeOk H n I A (nx + 1) i (x.readReq n nx w) ∧ Quiet H x (x.readReq n nx w) := by
  unfold Node.readReq
  split
  · exact ⟨(h.append (.inl ⟨nx, rfl⟩)).bump (by omega),
      ⟨fun k hk => ⟨k, hk, Le.refl _⟩, ⟨[], by simp, by simp⟩, ⟨_, rfl, by intro id v ts h; simp at h⟩,
        ⟨[], by simp⟩⟩⟩
  · generalize hk : x.key.getD { ts := ⟨0, x.me⟩, val := none, st := .invalid, lastWriter := x.me } = k
    have h0 : NodeOk H n I A nx i { x with key := some k } ∧ Quiet H x { x with key := some k } := by
      cases hx : x.key with
      | some k0 =>
        rw [hx] at hk
        obtain rfl : k0 = k := hk
        have : ({ x with key := some k0 } : Node) = x := by rw [← hx]
        rw [this]
        exact ⟨h, Quiet.refl _⟩
      | none =>
        rw [hx] at hk
        obtain rfl := hk
        dsimp only [Option.getD_none]
        have := h.freshKey hx none x.me
        rw [← h.me] at this ⊢
        exact ⟨this, quiet_key (x' := { x with key := some _ }) rfl (by simp [hx]) rfl ⟨[], by simp⟩ rfl⟩
    obtain ⟨h0, q0⟩ := h0
    dsimp only
    split
    · rename_i hst
      have hI : ∃ id, I id k.ts k.val := by
        rcases h0.key k rfl with ⟨_, e⟩ | h
        · rw [hst] at e; exact absurd e (by simp)
        · exact h
      have h1 := h0.unblockReads (k := k) rfl hI
      refine ⟨(h1.append (.inr ⟨nx, k.ts, k.val, rfl, hI, k, rfl, Le.refl _⟩)).bump (by omega), ?_⟩
      refine q0.trans ((quiet_unblock_self k rfl).trans ?_)
      refine ⟨fun k hk => ⟨k, hk, Le.refl _⟩, ⟨[], by simp, by simp⟩, ⟨_, rfl, ?_⟩, ⟨[], by simp⟩⟩
      intro id v ts hm k' hk'
      simp only [List.mem_singleton, Done.read.injEq] at hm
      obtain ⟨_, _, rfl⟩ := hm
      obtain rfl := Option.some.inj hk'
      exact Le.refl _
    · have h1 := h0.bump (Nat.le_succ nx)
      refine ⟨h1.record (t := { id := nx, op := .read, val := none, ts := k.ts, fromID := x.me })
        h0.noTicket ?_, q0.trans quiet_record⟩
      exact {
        lt := Nat.lt_succ_self nx, acks := by simp, nodup := List.nodup_nil
        own := by intro _ h; exact absurd h (by simp)
        fake := by intro h; exact absurd h (by simp)
        read := fun _ ts v h' => absurd (iok.lt h') (Nat.lt_irrefl _) }

/-- What happens to a node in a step. -/
structure Move (H : Nat → Nat → Nat) (nx i : Nat) (x x' : Node) : Prop where
  le : ∀ k, x.key = some k → ∃ k', x'.key = some k' ∧ Le H k.ts k'.ts
  sent : ∃ l, x'.sent = x.sent ++ l ∧ ((∀ m ∈ l, ∃ id frm ts, m = .ack id frm ts) ∨
    ∃ ts v, l = [.inv nx i ts v] ∧ ts.coord = i ∧ 1 ≤ ts.version ∧ ¬ Above H x ts)
  log : ∃ l, x'.log = x.log ++ l ∧ Fresh H x l
  seen : ∃ l, x'.seen = x.seen ++ l

theorem Quiet.move {x' : Node} (h : Quiet H x x') (nx i : Nat) : Move H nx i x x' := by
  obtain ⟨l, e, hl⟩ := h.sent
  exact ⟨h.le, ⟨l, e, .inl hl⟩, h.log, h.seen⟩

/-- The invalidations after a write. -/
def Plus (I : Nat → TS → Option Nat → Prop) (id0 : Nat) (ts0 : TS) (v0 : Option Nat) (id : Nat)
    (ts : TS) (v : Option Nat) : Prop := I id ts v ∨ (id = id0 ∧ ts = ts0 ∧ v = v0)

/-- Issuing a write: either the new invalidation is sent, or the write waits. -/
theorem issue_ok (h : NodeOk H n I A nx i x) (iok : IOk n I nx) {k : KeyMeta} (v : Option Nat)
    (hk : x.key = some k) :
    (x.issue k nx v).me = i ∧ Move H nx i x (x.issue k nx v) ∧
    ((NodeOk H n I A (nx + 1) i (x.issue k nx v) ∧ (x.issue k nx v).sent = x.sent) ∨
      ∃ ts, (x.issue k nx v).sent = x.sent ++ [.inv nx i ts v] ∧ ts.version = k.ts.version + 1 ∧
        ts.coord = i ∧ NodeOk H n (Plus I nx ts v) A (nx + 1) i (x.issue k nx v)) := by
  have hq : NodeOk H n I A (nx + 1) i
      ({ x with key := some k }.record { id := nx, op := .write, val := v, ts := k.ts, fromID := x.me }) ∧
      Quiet H x
      ({ x with key := some k }.record { id := nx, op := .write, val := v, ts := k.ts, fromID := x.me }) := by
    have : ({ x with key := some k } : Node) = x := by rw [← hk]
    rw [this]
    refine ⟨(h.bump (Nat.le_succ nx)).record h.noTicket ?_, quiet_record⟩
    exact {
      lt := Nat.lt_succ_self nx, acks := by simp, nodup := List.nodup_nil
      own := fun _ _ ts v h' => absurd (iok.lt h') (Nat.lt_irrefl _)
      fake := by intro h; exact absurd h (by simp)
      read := by intro h; exact absurd h (by simp) }
  have hsent : ({ x with key := some k }.record
      { id := nx, op := .write, val := v, ts := k.ts, fromID := x.me }).sent = x.sent := by
    unfold Node.record; repeat' split
    all_goals rfl
  have hnew : ∀ (ts : TS), ts = ⟨k.ts.version + 1, x.me⟩ →
      (({ x with key := some { ts := ts, val := v, st := .write, lastWriter := x.me } }.record
        { id := nx, op := .write, val := v, ts, fromID := x.me }).bcast (.inv nx x.me ts v)).sent =
          x.sent ++ [.inv nx i ts v] ∧
      Move H nx i x (({ x with key := some { ts := ts, val := v, st := .write, lastWriter := x.me } }.record
        { id := nx, op := .write, val := v, ts, fromID := x.me }).bcast (.inv nx x.me ts v)) ∧
      NodeOk H n (Plus I nx ts v) A (nx + 1) i
        (({ x with key := some { ts := ts, val := v, st := .write, lastWriter := x.me } }.record
          { id := nx, op := .write, val := v, ts, fromID := x.me }).bcast (.inv nx x.me ts v)) := by
    intro ts hts
    have hrec : ({ x with key := some { ts := ts, val := v, st := .write, lastWriter := x.me } } : Node).record
        { id := nx, op := .write, val := v, ts, fromID := x.me } =
        { x with key := some { ts := ts, val := v, st := .write, lastWriter := x.me },
                 tkts := x.tkts ++ [{ id := nx, op := .write, val := v, ts, fromID := x.me }],
                 pq := x.pq ++ [nx] } := by
      have e : ({ x with key := some { ts := ts, val := v, st := .write, lastWriter := x.me } } : Node).ticket
          nx = none := h.noTicket
      unfold Node.record
      dsimp only
      rw [e]
    rw [hrec]
    have hme := h.me
    have hlt : Le H k.ts ts := by
      rw [le_iff, hts]; left; simp
    refine ⟨by unfold Node.bcast; dsimp only; rw [hme], ?_, ?_⟩
    · refine ⟨?_, ⟨[.inv nx i ts v], by unfold Node.bcast; dsimp only; rw [hme], .inr ⟨ts, v, rfl, ?_, ?_, ?_⟩⟩,
        ⟨[], by simp [Node.bcast], Fresh.nil _⟩, ⟨[], by simp [Node.bcast]⟩⟩
      · intro k' hk'
        rw [hk] at hk'
        obtain rfl := Option.some.inj hk'
        exact ⟨_, rfl, hlt⟩
      · rw [hts]; exact hme
      · rw [hts]; simp
      · rintro ⟨k', hk', hl⟩
        rw [hk] at hk'
        obtain rfl := Option.some.inj hk'
        have := le_version hl
        rw [hts] at this
        exact absurd this (Nat.not_succ_le_self _)
    · have h1 : NodeOk H n (Plus I nx ts v) A (nx + 1) i x :=
        h.lift (fun _ _ _ h => .inl h) (fun id _ _ h => by
          rcases h with h | ⟨rfl, _, _⟩
          · exact .inl h
          · exact .inr (Nat.le_refl _)) (fun _ _ h => h) (Nat.le_succ nx)
      have h2 : NodeOk H n (Plus I nx ts v) A (nx + 1) i
          { x with key := some { ts := ts, val := v, st := .write, lastWriter := x.me },
                   tkts := x.tkts ++ [{ id := nx, op := .write, val := v, ts, fromID := x.me }],
                   pq := x.pq ++ [nx] } := by
        refine h1.setKey (k' := { ts := ts, val := v, st := .write, lastWriter := x.me })
          rfl rfl rfl rfl rfl ?_ ⟨nx, .inr ⟨rfl, rfl, rfl⟩⟩ (by simp) ?_ ?_
        · intro k' hk'
          rw [hk] at hk'
          obtain rfl := Option.some.inj hk'
          exact hlt
        · intro t ht
          simp only [List.mem_append, List.mem_singleton] at ht
          rcases ht with ht | rfl
          · exact h1.tkts t ht
          · exact {
              lt := Nat.lt_succ_self nx, acks := by simp, nodup := List.nodup_nil
              own := fun _ _ ts' v' h' => by
                rcases h' with h' | ⟨_, rfl, rfl⟩
                · exact absurd (iok.lt h') (Nat.lt_irrefl _)
                · exact ⟨rfl, rfl⟩
              fake := by intro h; exact absurd h (by simp)
              read := by intro h; exact absurd h (by simp) }
        · intro _ _
          refine ⟨nx, .inr ⟨rfl, rfl, rfl⟩, ⟨_, List.mem_append_right _ (List.mem_singleton.2 rfl), rfl⟩, ?_⟩
          intro t ht e
          simp only [List.mem_append, List.mem_singleton] at ht
          rcases ht with ht | rfl
          · have := (h.tkts t ht).lt
            omega
          · exact ⟨rfl, rfl, rfl⟩
      exact {
        me := h2.me, key := h2.key, calm := h2.calm, held := h2.held, tkts := h2.tkts
        wrote := h2.wrote, read := h2.read, seen := h2.seen
        sentInv := fun hm => by
          simp only [Node.bcast, List.mem_append, List.mem_singleton] at hm
          rcases hm with hm | hm
          · exact h2.sentInv hm
          · simp only [Msg.inv.injEq] at hm
            obtain ⟨rfl, rfl, rfl, rfl⟩ := hm
            exact ⟨hme, by rw [hts]; exact hme, _, rfl, Le.refl _⟩
        sentAck := fun hm => by
          simp only [Node.bcast, List.mem_append, List.mem_singleton] at hm
          rcases hm with hm | hm
          · exact h2.sentAck hm
          · exact absurd hm (by simp) }
  have goalNew : ∀ y : Node, y = (({ x with key := some { ts := ⟨k.ts.version + 1, x.me⟩, val := v, st := .write, lastWriter := x.me } }.record
        { id := nx, op := .write, val := v, ts := ⟨k.ts.version + 1, x.me⟩, fromID := x.me }).bcast
          (.inv nx x.me ⟨k.ts.version + 1, x.me⟩ v)) →
      y.me = i ∧ Move H nx i x y ∧
      ((NodeOk H n I A (nx + 1) i y ∧ y.sent = x.sent) ∨
        ∃ ts, y.sent = x.sent ++ [.inv nx i ts v] ∧ ts.version = k.ts.version + 1 ∧
        ts.coord = i ∧ NodeOk H n (Plus I nx ts v) A (nx + 1) i y) := by
    rintro y rfl
    obtain ⟨a, b, c⟩ := hnew _ rfl
    exact ⟨c.me, b, .inr ⟨_, a, rfl, h.me, c⟩⟩
  unfold Node.issue
  split
  · exact goalNew _ rfl
  · exact goalNew _ rfl
  · exact ⟨hq.1.me, hq.2.move nx i, .inl ⟨hq.1, hsent⟩⟩

/-! ### The cluster -/

/-- Node `j` is at `ts` or beyond. -/
def At (H : Nat → Nat → Nat) (s : Sys) (j : Nat) (ts : TS) : Prop :=
  ∃ (y : Node), s.nodes[j]? = some y ∧ Above H y ts

structure Inv (H : Nat → Nat → Nat) (s : Sys) : Prop where
  ids : IOk s.nodes.length (HasInv s) s.next
  node : ∀ (i : Nat) (x : Node), s.nodes[i]? = some x →
    NodeOk H s.nodes.length (HasInv s) (At H s) s.next i x

theorem inv_init (n : Nat) : Inv H (Sys.init n) := by
  have none : ∀ id ts v, ¬ HasInv (Sys.init n) id ts v := by
    rintro id ts v ⟨j, y, hy, hm⟩
    simp only [Sys.init, List.getElem?_map, Option.map_eq_some_iff] at hy
    obtain ⟨a, _, rfl⟩ := hy
    simp at hm
  refine ⟨⟨fun h => absurd h (none _ _ _), fun h => absurd h (none _ _ _),
    fun h => absurd h (none _ _ _), fun h => absurd h (none _ _ _)⟩, ?_⟩
  intro i x hx
  simp only [Sys.init, List.getElem?_map, Option.map_eq_some_iff] at hx
  obtain ⟨a, ha, rfl⟩ := hx
  have : a = i := by
    rw [List.getElem?_eq_some_iff] at ha
    obtain ⟨_, e⟩ := ha
    rw [List.getElem_range] at e
    exact e.symm
  exact {
    me := this
    sentInv := by simp
    sentAck := by simp
    key := by simp
    calm := by simp
    held := by simp
    tkts := by simp
    wrote := by simp
    read := by simp
    seen := by simp }

theorem set_get {l : List Node} {i j : Nat} {x y : Node} (hi : i < l.length)
    (h : (l.set i x)[j]? = some y) : (j = i ∧ y = x) ∨ (j ≠ i ∧ l[j]? = some y) := by
  rw [List.getElem?_set] at h
  split at h
  · rename_i e
    exact .inl ⟨e.symm, (Option.some.inj h).symm⟩
  · rename_i e
    exact .inr ⟨fun h => e h.symm, h⟩

theorem get_set {l : List Node} {i j : Nat} {x y : Node} (hx : l[i]? = some x) (h : l[j]? = some y)
    (x' : Node) : ∃ (y' : Node), (l.set i x')[j]? = some y' ∧ (j = i ∧ y' = x' ∧ y = x ∨ j ≠ i ∧ y' = y) := by
  have hi : i < l.length := (List.getElem?_eq_some_iff.1 hx).1
  by_cases e : j = i
  · subst e
    refine ⟨x', ?_, .inl ⟨rfl, rfl, ?_⟩⟩
    · rw [List.getElem?_set]; simp [hi]
    · rw [hx] at h; exact (Option.some.inj h).symm
  · refine ⟨y, ?_, .inr ⟨e, rfl⟩⟩
    rw [List.getElem?_set_ne (Ne.symm e)]
    exact h

/-- A node moves: the invariant of the cluster. -/
theorem inv_move {s : Sys} (h : Inv H s) {i : Nat} {x x' : Node} (hx : s.nodes[i]? = some x)
    (hm : Move H s.next i x x')
    (hq : (∃ l, x'.sent = x.sent ++ l ∧ (∀ m ∈ l, ∃ id frm ts, m = .ack id frm ts) ∧
        NodeOk H s.nodes.length (HasInv s) (At H s) (s.next + 1) i x') ∨
      ∃ ts v, x'.sent = x.sent ++ [.inv s.next i ts v] ∧ ts.coord = i ∧ 1 ≤ ts.version ∧
        ¬ Above H x ts ∧
        NodeOk H s.nodes.length (Plus (HasInv s) s.next ts v) (At H s) (s.next + 1) i x') :
    Inv H { s with nodes := s.nodes.set i x', next := s.next + 1 } := by
  have hi : i < s.nodes.length := (List.getElem?_eq_some_iff.1 hx).1
  have hA : ∀ j ts, At H s j ts → At H { s with nodes := s.nodes.set i x', next := s.next + 1 } j ts := by
    rintro j ts ⟨y, hy, k, hk, hl⟩
    obtain ⟨y', hy', h'⟩ := get_set hx hy x'
    refine ⟨y', hy', ?_⟩
    rcases h' with ⟨_, rfl, rfl⟩ | ⟨_, rfl⟩
    · obtain ⟨k', hk', hl'⟩ := hm.le k hk
      exact ⟨k', hk', hl.trans hl'⟩
    · exact ⟨k, hk, hl⟩
  have hI : ∀ id ts v, HasInv s id ts v →
      HasInv { s with nodes := s.nodes.set i x', next := s.next + 1 } id ts v := by
    rintro id ts v ⟨j, y, hy, hmem⟩
    obtain ⟨y', hy', h'⟩ := get_set hx hy x'
    refine ⟨j, y', hy', ?_⟩
    rcases h' with ⟨_, rfl, rfl⟩ | ⟨_, rfl⟩
    · obtain ⟨l, e, _⟩ := hm.sent
      rw [e]; exact List.mem_append_left _ hmem
    · exact hmem
  have hlen : (s.nodes.set i x').length = s.nodes.length := List.length_set
  rcases hq with ⟨l, e, hl, hn⟩ | ⟨ts0, v0, e, hco, hve, hab, hn⟩
  · -- only ACKs
    have hI' : ∀ id ts v, HasInv { s with nodes := s.nodes.set i x', next := s.next + 1 } id ts v →
        HasInv s id ts v := by
      rintro id ts v ⟨j, y, hy, hmem⟩
      rcases set_get hi hy with ⟨rfl, rfl⟩ | ⟨_, hy⟩
      · refine ⟨j, x, hx, ?_⟩
        rw [e] at hmem
        rcases List.mem_append.1 hmem with hmem | hmem
        · exact hmem
        · obtain ⟨_, _, _, e'⟩ := hl _ hmem
          exact absurd e' (by simp)
      · exact ⟨j, y, hy, hmem⟩
    refine ⟨?_, ?_⟩
    · rw [hlen]
      exact ⟨fun h' => Nat.lt_succ_of_lt (h.ids.lt (hI' _ _ _ h')), fun h' => h.ids.coord (hI' _ _ _ h'),
        fun h1 h2 => h.ids.byId (hI' _ _ _ h1) (hI' _ _ _ h2),
        fun h1 h2 => h.ids.byTs (hI' _ _ _ h1) (hI' _ _ _ h2)⟩
    · intro j y hy
      rw [hlen]
      rcases set_get hi hy with ⟨rfl, rfl⟩ | ⟨_, hy⟩
      · exact hn.lift hI (fun _ _ _ h' => .inl (hI' _ _ _ h')) hA (Nat.le_refl _)
      · exact (h.node j y hy).lift hI (fun _ _ _ h' => .inl (hI' _ _ _ h')) hA (Nat.le_succ _)
  · -- a write
    have hI' : ∀ id ts v, HasInv { s with nodes := s.nodes.set i x', next := s.next + 1 } id ts v →
        Plus (HasInv s) s.next ts0 v0 id ts v := by
      rintro id ts v ⟨j, y, hy, hmem⟩
      rcases set_get hi hy with ⟨rfl, rfl⟩ | ⟨_, hy⟩
      · rw [e] at hmem
        rcases List.mem_append.1 hmem with hmem | hmem
        · exact .inl ⟨j, x, hx, hmem⟩
        · rw [List.mem_singleton] at hmem
          simp only [Msg.inv.injEq] at hmem
          exact .inr ⟨hmem.1, hmem.2.2.1, hmem.2.2.2⟩
      · exact .inl ⟨j, y, hy, hmem⟩
    have hI2 : ∀ id ts v, Plus (HasInv s) s.next ts0 v0 id ts v →
        HasInv { s with nodes := s.nodes.set i x', next := s.next + 1 } id ts v := by
      rintro id ts v (h' | ⟨rfl, rfl, rfl⟩)
      · exact hI _ _ _ h'
      · refine ⟨i, x', ?_, ?_⟩
        · show (s.nodes.set i x')[i]? = _
          rw [List.getElem?_set]; simp [hi]
        · rw [e]; exact List.mem_append_right _ (List.mem_singleton.2 rfl)
    have noTs : ∀ id v, ¬ HasInv s id ts0 v := by
      rintro id v ⟨j, y, hy, hmem⟩
      obtain ⟨_, hc, hab'⟩ := (h.node j y hy).sentInv hmem
      rw [hco] at hc
      subst hc
      rw [hx] at hy
      obtain rfl := Option.some.inj hy
      exact hab hab'
    refine ⟨?_, ?_⟩
    · rw [hlen]
      refine ⟨?_, ?_, ?_, ?_⟩
      · intro id ts v h'
        rcases hI' _ _ _ h' with h' | ⟨rfl, _, _⟩
        · exact Nat.lt_succ_of_lt (h.ids.lt h')
        · exact Nat.lt_succ_self _
      · intro id ts v h'
        rcases hI' _ _ _ h' with h' | ⟨_, rfl, _⟩
        · exact h.ids.coord h'
        · exact ⟨by rw [hco]; exact hi, hve⟩
      · intro id ts v ts' v' h1 h2
        rcases hI' _ _ _ h1 with h1 | ⟨e1, e2, e3⟩ <;> rcases hI' _ _ _ h2 with h2 | ⟨e1', e2', e3'⟩
        · exact h.ids.byId h1 h2
        · exact absurd (h.ids.lt h1) (by omega)
        · exact absurd (h.ids.lt h2) (by omega)
        · exact ⟨e2.trans e2'.symm, e3.trans e3'.symm⟩
      · intro id ts v id' v' h1 h2
        rcases hI' _ _ _ h1 with h1 | ⟨e1, e2, e3⟩ <;> rcases hI' _ _ _ h2 with h2 | ⟨e1', e2', e3'⟩
        · exact h.ids.byTs h1 h2
        · rw [e2'] at h1; exact absurd h1 (noTs _ _)
        · rw [e2] at h2; exact absurd h2 (noTs _ _)
        · exact ⟨e1.trans e1'.symm, e3.trans e3'.symm⟩
    · intro j y hy
      rw [hlen]
      rcases set_get hi hy with ⟨rfl, rfl⟩ | ⟨_, hy⟩
      · exact hn.lift hI2 (fun _ _ _ h' => .inl (hI' _ _ _ h')) hA (Nat.le_refl _)
      · refine (h.node j y hy).lift hI (fun _ _ _ h' => ?_) hA (Nat.le_succ _)
        rcases hI' _ _ _ h' with h' | ⟨rfl, _, _⟩
        · exact .inl h'
        · exact .inr (Nat.le_refl _)

/-- What a step does: nothing, or one node moves. -/
def Moved (H : Nat → Nat → Nat) (s s' : Sys) : Prop :=
  s' = s ∨ ∃ (i : Nat) (x x' : Node), s.nodes[i]? = some x ∧ Move H s.next i x x' ∧
    s' = { s with nodes := s.nodes.set i x', next := s.next + 1 }

theorem step_ok {s : Sys} (h : Inv H s) (hn : 2 ≤ s.nodes.length) (op : Op)
    (hop : ∀ i, op ≠ .expire i) : Inv H (s.step H op) ∧ Moved H s (s.step H op) := by
  have quiet : ∀ (i : Nat) (x x' : Node), s.nodes[i]? = some x → Quiet H x x' →
      NodeOk H s.nodes.length (HasInv s) (At H s) (s.next + 1) i x' →
      Inv H { s with nodes := s.nodes.set i x', next := s.next + 1 } ∧
      Moved H s { s with nodes := s.nodes.set i x', next := s.next + 1 } := by
    intro i x x' hx hq ho
    have hm := hq.move s.next i
    obtain ⟨l, e, hl⟩ := hq.sent
    exact ⟨inv_move h hx hm (.inl ⟨l, e, hl, ho⟩), .inr ⟨i, x, x', hx, hm, rfl⟩⟩
  have stay : Inv H s ∧ Moved H s s := ⟨h, .inl rfl⟩
  cases op with
  | write i v =>
    dsimp only [Sys.step]
    split
    · rename_i x hx
      split
      · exact stay
      · have ho := h.node i x hx
        have fin : ∀ (x0 : Node) (k : KeyMeta), NodeOk H s.nodes.length (HasInv s) (At H s) s.next i x0 →
            Quiet H x x0 → x0.sent = x.sent → x0.key = some k →
            Inv H { s with nodes := s.nodes.set i (x0.issue k s.next v), next := s.next + 1 } ∧
            Moved H s { s with nodes := s.nodes.set i (x0.issue k s.next v), next := s.next + 1 } := by
          intro x0 k h0 q0 e0 hk
          obtain ⟨hme, hm, hor⟩ := issue_ok h0 h.ids v hk
          have hm' : Move H s.next i x (x0.issue k s.next v) := by
            refine ⟨?_, ?_, ?_, ?_⟩
            · intro k1 hk1
              obtain ⟨k2, hk2, hl2⟩ := q0.le k1 hk1
              obtain ⟨k3, hk3, hl3⟩ := hm.le k2 hk2
              exact ⟨k3, hk3, hl2.trans hl3⟩
            · obtain ⟨l, e, hl⟩ := hm.sent
              refine ⟨l, by rw [e, e0], ?_⟩
              rcases hl with hl | ⟨ts, v, a, b, c, d⟩
              · exact .inl hl
              · refine .inr ⟨ts, v, a, b, c, ?_⟩
                rintro ⟨k1, hk1, hl1⟩
                obtain ⟨k2, hk2, hl2⟩ := q0.le k1 hk1
                exact d ⟨k2, hk2, hl1.trans hl2⟩
            · obtain ⟨l, e, f⟩ := q0.log
              obtain ⟨l', e', f'⟩ := hm.log
              exact ⟨l ++ l', by rw [e', e, List.append_assoc], f.append (f'.later q0.le)⟩
            · obtain ⟨l, e⟩ := q0.seen
              obtain ⟨l', e'⟩ := hm.seen
              exact ⟨l ++ l', by rw [e', e, List.append_assoc]⟩
          refine ⟨inv_move h hx hm' ?_, .inr ⟨i, x, _, hx, hm', rfl⟩⟩
          rcases hor with ⟨a, b⟩ | ⟨ts, a, b, c, d⟩
          · exact .inl ⟨[], by rw [b, e0]; simp, by simp, a⟩
          · refine .inr ⟨ts, v, by rw [a, e0], c, by omega, ?_, d⟩
            rintro ⟨k1, hk1, hl1⟩
            obtain ⟨k2, hk2, hl2⟩ := q0.le k1 hk1
            rw [hk] at hk2
            obtain rfl := Option.some.inj hk2
            have := le_version (hl1.trans hl2)
            omega
        dsimp only [Node.writeReq]
        split
        · rename_i hk
          rw [if_neg (by omega)]
          have h0 := ho.freshKey hk v x.me
          have hme := ho.me
          have := fin { x with key := some { ts := ⟨0, i⟩, val := v, st := .invalid, lastWriter := x.me } } _ h0
            (quiet_key (x' := { x with key := some _ }) rfl (by simp [hk]) rfl ⟨[], by simp⟩ rfl) rfl rfl
          rw [← hme] at this ⊢
          exact this
        · rename_i k hk
          exact fin x k ho (Quiet.refl _) rfl hk
    · exact stay
  | read i w =>
    dsimp only [Sys.step]
    split
    · rename_i x hx
      split
      · exact stay
      · obtain ⟨a, b⟩ := readReq_ok (h.node i x hx) h.ids w
        exact quiet i x _ hx b a
    · exact stay
  | deliver i j k =>
    dsimp only [Sys.step]
    split
    · rename_i y hy
      split
      · rename_i m hm
        split
        · exact stay
        · rename_i hij
          split
          · rename_i x hx
            split
            · exact stay
            · rename_i hp
              have hp : x.panicked = false := by simpa using hp
              have hi : i < s.nodes.length := (List.getElem?_eq_some_iff.1 hx).1
              have hj : j < s.nodes.length := (List.getElem?_eq_some_iff.1 hy).1
              have hmem : m ∈ y.sent := List.mem_of_getElem? hm
              have hoy := h.node j y hy
              cases m with
              | inv id frm ts v =>
                obtain ⟨rfl, _, hab⟩ := hoy.sentInv hmem
                have hI : HasInv s id ts v := ⟨frm, y, hy, hmem⟩
                obtain ⟨a, b, c⟩ := recvInv_ok (h.node i x hx) h.ids hI hj (Ne.symm hij) ⟨y, hy, hab⟩
                dsimp only [Node.recv]
                split
                · exact quiet i x _ hx b (a.bump (Nat.le_succ _))
                · rename_i hp'
                  have hab' := c (by simpa using hp')
                  refine quiet i x _ hx (b.trans ⟨fun k hk => ⟨k, hk, Le.refl _⟩, ⟨[], by simp, by simp⟩,
                    ⟨[], by simp, Fresh.nil _⟩, ⟨_, rfl⟩⟩) ?_
                  have a := a.bump (Nat.le_succ s.next)
                  exact {
                    me := a.me, sentInv := a.sentInv, sentAck := a.sentAck, key := a.key, calm := a.calm
                    held := a.held, tkts := a.tkts, wrote := a.wrote, read := a.read
                    seen := fun hm => by
                      simp only [List.mem_append, List.mem_singleton] at hm
                      rcases hm with hm | hm
                      · exact a.seen hm
                      · simp only [Msg.inv.injEq] at hm
                        obtain ⟨rfl, _, rfl, rfl⟩ := hm
                        exact ⟨hI, hab'⟩ }
              | ack id frm ts =>
                obtain ⟨rfl, ⟨v, hI⟩, hab⟩ := hoy.sentAck hmem
                obtain ⟨a, b⟩ := recvAck_ok (h.node i x hx) h.ids hi hI hj (Ne.symm hij) ⟨y, hy, hab⟩ hp
                exact quiet i x _ hx b (a.bump (Nat.le_succ _))
          · exact stay
      · exact stay
    · exact stay
  | expire i => exact absurd rfl (hop i)

/-- What a run does to every node. -/
structure Grown (H : Nat → Nat → Nat) (s s' : Sys) : Prop where
  len : s'.nodes.length = s.nodes.length
  node : ∀ (j : Nat) (y : Node), s.nodes[j]? = some y → ∃ (y' : Node), s'.nodes[j]? = some y' ∧
    (∀ k, y.key = some k → ∃ k', y'.key = some k' ∧ Le H k.ts k'.ts) ∧
    (∃ l, y'.sent = y.sent ++ l) ∧ ∃ l, y'.log = y.log ++ l ∧ Fresh H y l

theorem Grown.refl (s : Sys) : Grown H s s :=
  ⟨rfl, fun j y hy => ⟨y, hy, fun k hk => ⟨k, hk, Le.refl _⟩, ⟨[], by simp⟩, ⟨[], by simp, Fresh.nil _⟩⟩⟩

theorem Grown.trans {s s' s'' : Sys} (h1 : Grown H s s') (h2 : Grown H s' s'') : Grown H s s'' := by
  refine ⟨h2.len.trans h1.len, ?_⟩
  intro j y hy
  obtain ⟨y1, hy1, a1, ⟨l1, b1⟩, m1, c1, f1⟩ := h1.node j y hy
  obtain ⟨y2, hy2, a2, ⟨l2, b2⟩, m2, c2, f2⟩ := h2.node j y1 hy1
  refine ⟨y2, hy2, ?_, ⟨l1 ++ l2, by rw [b2, b1, List.append_assoc]⟩, m1 ++ m2, by
    rw [c2, c1, List.append_assoc], f1.append (f2.later a1)⟩
  intro k hk
  obtain ⟨k1, hk1, hl1⟩ := a1 k hk
  obtain ⟨k2, hk2, hl2⟩ := a2 k1 hk1
  exact ⟨k2, hk2, hl1.trans hl2⟩

theorem Moved.grown {s s' : Sys} (h : Moved H s s') : Grown H s s' := by
  rcases h with rfl | ⟨i, x, x', hx, hm, rfl⟩
  · exact Grown.refl _
  · refine ⟨List.length_set, ?_⟩
    intro j y hy
    obtain ⟨y', hy', h'⟩ := get_set hx hy x'
    refine ⟨y', hy', ?_⟩
    rcases h' with ⟨_, rfl, rfl⟩ | ⟨_, rfl⟩
    · obtain ⟨l, e, _⟩ := hm.sent
      exact ⟨hm.le, ⟨l, e⟩, hm.log⟩
    · exact ⟨fun k hk => ⟨k, hk, Le.refl _⟩, ⟨[], by simp⟩, ⟨[], by simp, Fresh.nil _⟩⟩

theorem run_ok : ∀ (ops : List Op) (s : Sys), Inv H s → 2 ≤ s.nodes.length → NoExpiry ops →
    Inv H (s.run H ops) ∧ Grown H s (s.run H ops) := by
  intro ops
  induction ops with
  | nil => intro s h _ _; exact ⟨h, Grown.refl _⟩
  | cons op ops ih =>
    intro s h hn hops
    obtain ⟨h1, m1⟩ := step_ok h hn op (fun i e => hops i (by rw [← e]; exact List.mem_cons_self))
    have g1 := m1.grown
    obtain ⟨h2, g2⟩ := ih (s.step H op) h1 (by rw [g1.len]; exact hn)
      (fun i hm => hops i (List.mem_cons_of_mem _ hm))
    exact ⟨h2, g1.trans g2⟩

end Verif.Hermes
