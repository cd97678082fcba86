import Verif.Proofs.SimnetStep

/-! The operations of the network simulator other than dispatch keep the invariant. -/

namespace Verif.Simnet

/-! ### Moving several messages -/

theorem moveAll_eq (src : Place) (dst : Mop → Place) : ∀ (ms : List Mop) (st : Net),
    ∃ q', st.moveAll src dst ms = { st with q := q' }
  | [], st => ⟨st.q, rfl⟩
  | m :: ms, st => by
    obtain ⟨q', h⟩ := moveAll_eq src dst ms (st.move m src (dst m))
    exact ⟨q', by rw [show st.moveAll src dst (m :: ms) = (st.move m src (dst m)).moveAll src dst ms from rfl, h]; rfl⟩

/-- A list of messages of one queue. -/
def Part (st : Net) (src : Place) (ms : List Mop) : Prop :=
  ms.Pairwise (fun a b => a.sn ≠ b.sn) ∧ ∀ m ∈ ms, m ∈ st.q src

theorem Inv.part {st : Net} (hi : Inv st) (src : Place) (f : Mop → Bool) : Part st src ((st.q src).filter f) := by
  obtain ⟨k, n⟩ := src
  refine ⟨?_, fun m hm => (List.mem_filter.1 hm).1⟩
  exact ((hi.sorted k n).imp (fun h => h.2)).filter _

theorem Inv.part' {st : Net} (hi : Inv st) (src : Place) : Part st src (st.q src) := by
  obtain ⟨k, n⟩ := src
  exact ⟨(hi.sorted k n).imp (fun h => h.2), fun m hm => hm⟩

theorem moveAll_spec (src : Place) (dst : Mop → Place) : ∀ (ms : List Mop) (st : Net), Inv st → Part st src ms →
    (∀ m ∈ ms, Fits (dst m).1 (dst m).2 m) → (∀ m ∈ ms, dst m ≠ src) →
    Inv (st.moveAll src dst ms) ∧
      ∀ p x, x ∈ (st.moveAll src dst ms).q p ↔ (x ∈ st.q p ∧ x ∉ ms) ∨ (x ∈ ms ∧ dst x = p)
  | [], st, hi, _, _, _ => ⟨hi, fun p x => by simp [Net.moveAll]⟩
  | m :: ms, st, hi, hp, hf, hne => by
    have hp' := List.pairwise_cons.1 hp.1
    have hm := hp.2 m (List.mem_cons_self ..)
    have key : ∀ {p : Place} {x : Mop}, x ∈ (st.move m src (dst m)).q p ↔ (x ∈ st.q p ∧ x.sn ≠ m.sn) ∨ (p = dst m ∧ x = m) :=
      fun {p x} => mem_move hi hm rfl
    have h1 : Inv (st.move m src (dst m)) := hi.move hm rfl (hf m (List.mem_cons_self ..))
    have h2 : Part (st.move m src (dst m)) src ms := by
      refine ⟨hp'.2, fun x hx => key.2 (.inl ⟨hp.2 x (List.mem_cons_of_mem _ hx), fun e => hp'.1 x hx e.symm⟩)⟩
    have h3 := moveAll_spec src dst ms _ h1 h2 (fun x hx => hf x (List.mem_cons_of_mem _ hx))
      (fun x hx => hne x (List.mem_cons_of_mem _ hx))
    refine ⟨h3.1, fun p x => ?_⟩
    show x ∈ ((st.move m src (dst m)).moveAll src dst ms).q p ↔ _
    rw [h3.2 p x, key]
    constructor
    · rintro (⟨⟨h, h'⟩ | ⟨h, h'⟩, hx⟩ | ⟨h, h'⟩)
      · refine .inl ⟨h, fun hmem => ?_⟩
        rcases List.mem_cons.1 hmem with e | e
        · exact h' (by rw [e])
        · exact hx e
      · exact .inr ⟨by rw [h']; exact List.mem_cons_self .., by rw [h', h]⟩
      · exact .inr ⟨List.mem_cons_of_mem _ h, h'⟩
    · rintro (⟨h, h'⟩ | ⟨h, h'⟩)
      · refine .inl ⟨.inl ⟨h, fun e => ?_⟩, fun hx => h' (List.mem_cons_of_mem _ hx)⟩
        have hpp := hi.uniq _ _ _ _ h hm e
        subst hpp
        obtain ⟨k, n⟩ := p
        exact h' (by rw [(hi.sorted k n).sn_inj h hm e]; exact List.mem_cons_self ..)
      · rcases List.mem_cons.1 h with e | e
        · subst e
          exact .inl ⟨.inr ⟨h'.symm, rfl⟩, fun hx => hp'.1 x hx rfl⟩
        · exact .inr ⟨e, h'⟩

/-- The invariant is kept, nothing is delivered, nothing is new. -/
structure Keep (st st' : Net) : Prop where
  inv : Inv st'
  done : st'.done = st.done
  sent : st'.sent = st.sent
  old : ∀ p m, m ∈ st'.q p → ∃ p', m ∈ st.q p'

theorem Keep.refl {st : Net} (hi : Inv st) : Keep st st := ⟨hi, rfl, rfl, fun p _ h => ⟨p, h⟩⟩
theorem Keep.trans {a b c : Net} (h : Keep a b) (h' : Keep b c) : Keep a c :=
  ⟨h'.inv, h'.done.trans h.done, h'.sent.trans h.sent, fun p m hm => (h'.old p m hm).elim fun p' hm' => h.old p' m hm'⟩

theorem Keep.crash {st : Net} (hi : Inv st) : Keep st { st with crashed := true } :=
  ⟨hi.other rfl (fun _ h => h) hi.handedNe (Nat.le_refl _) rfl rfl rfl hi.dns hi.counts, rfl, rfl, fun p _ h => ⟨p, h⟩⟩

theorem Keep.stateOf {st : Net} (hi : Inv st) (s : Node → FState) : Keep st { st with state := s } :=
  ⟨hi.other rfl (fun _ h => h) hi.handedNe (Nat.le_refl _) rfl rfl rfl hi.dns hi.counts, rfl, rfl, fun p _ h => ⟨p, h⟩⟩

theorem Keep.power {st : Net} (hi : Inv st) (s : Node → Bool) : Keep st { st with powerOff := s } :=
  ⟨hi.other rfl (fun _ h => h) hi.handedNe (Nat.le_refl _) rfl rfl rfl hi.dns hi.counts, rfl, rfl, fun p _ h => ⟨p, h⟩⟩

theorem Keep.atPos {st : Net} (hi : Inv st) (p : Nat) : Keep st { st with pos := p } :=
  ⟨hi.other rfl (fun _ h => h) hi.handedNe (Nat.le_refl _) rfl rfl rfl hi.dns hi.counts, rfl, rfl, fun p _ h => ⟨p, h⟩⟩

theorem Keep.moveAll {st : Net} (hi : Inv st) {src : Place} {dst : Mop → Place} {ms : List Mop} (hp : Part st src ms)
    (hf : ∀ m ∈ ms, Fits (dst m).1 (dst m).2 m) (hne : ∀ m ∈ ms, dst m ≠ src) : Keep st (st.moveAll src dst ms) := by
  have hs := moveAll_spec src dst ms st hi hp hf hne
  refine ⟨hs.1, ?_, ?_, fun p m hm => ?_⟩
  · obtain ⟨q', h⟩ := moveAll_eq src dst ms st; rw [h]
  · obtain ⟨q', h⟩ := moveAll_eq src dst ms st; rw [h]
  · rcases (hs.2 p m).1 hm with h | h
    · exact ⟨p, h.1⟩
    · exact ⟨src, hp.2 m h.1⟩

theorem Keep.mapConns {st : Net} (hi : Inv st) (o : Node) (s : Node → Bool) {f : Conn → Conn}
    (hf : ∀ c : Conn, c.droppedN ≤ c.attempted → (f c).droppedN ≤ (f c).attempted) : Keep st (st.mapConns o s f) :=
  ⟨hi.other rfl (fun _ h => h) hi.handedNe (Nat.le_refl _) rfl rfl rfl hi.dns (mapConns_counts hf hi.counts), rfl, rfl, fun p _ h => ⟨p, h⟩⟩

theorem Keep.foldl {α : Type} {f : Net → α → Net} (h : ∀ st a, Inv st → Keep st (f st a)) :
    ∀ (l : List α) (st : Net), Inv st → Keep st (l.foldl f st)
  | [], _, hi => Keep.refl hi
  | a :: l, st, hi => (h st a hi).trans (Keep.foldl h l _ (h st a hi).inv)

/-! ### The operations -/

theorem keep_preArrToDropped {st : Net} (hi : Inv st) (n : Node) : Keep st (st.preArrToDropped n) :=
  Keep.moveAll hi (hi.part' _) (fun m hm => ⟨(hi.fits _ _ m hm).1, rfl⟩) (fun _ _ => by simp)

theorem keep_deafToRead {st : Net} (hi : Inv st) (o : Node) (t : Option Node) : Keep st (st.deafToRead o t) :=
  Keep.moveAll hi (hi.part _ _) (fun m hm => hi.fits .deafReadQ o m (List.mem_filter.1 hm).1) (fun _ _ => by simp)

theorem keep_droppedToPreArr {st : Net} (hi : Inv st) (o : Node) (t : Option Node) : Keep st (st.droppedToPreArr o t) :=
  Keep.moveAll hi (hi.part _ _) (fun m hm => ⟨(hi.fits _ _ m (List.mem_filter.1 hm).1).1, rfl⟩) (fun _ _ => by simp)

/-- Unheard messages lie at their target, so that the check in the loop never fails. -/
theorem deafSends_ok {st : Net} (hi : Inv st) (r : Node) :
    ((st.q (.deafReadQ, r)).filter (·.isSend)).any (fun m => !(m.target == r)) = false := by
  rw [List.any_eq_false]
  intro m hm
  have h := List.mem_filter.1 hm
  have := (hi.fits _ _ m h.1).2 h.2
  simp [this]

theorem part_filter {st : Net} {src : Place} {ms : List Mop} (h : Part st src ms) (f : Mop → Bool) :
    Part st src (ms.filter f) :=
  ⟨h.1.filter _, fun m hm => h.2 m (List.mem_filter.1 hm).1⟩

theorem keep_deafSends1 {st : Net} (hi : Inv st) (r : Node) : Keep st (st.deafSendsToPreArr1 r) := by
  unfold Net.deafSendsToPreArr1
  dsimp only
  rw [if_neg (by rw [deafSends_ok hi]; simp)]
  refine Keep.moveAll hi (part_filter (hi.part _ _) _) ?_ (fun _ _ => by simp)
  intro m hm
  have h := List.mem_filter.1 (List.mem_filter.1 hm).1
  exact ⟨h.2, (hi.fits _ _ m h.1).2 h.2⟩

theorem keep_deafSends {st : Net} (hi : Inv st) (o : Node) (t : Option Node) : Keep st (st.deafSendsToPreArr o t) :=
  Keep.foldl (fun _ r hi => keep_deafSends1 hi r) _ _ hi

theorem keep_deliverDropped {st : Net} (hi : Inv st) (o : Node) (t : Option Node) : Keep st (st.deliverDropped o t) :=
  (keep_droppedToPreArr hi o t).trans (keep_deafSends (keep_droppedToPreArr hi o t).inv o t)

theorem keep_equilibrate {st : Net} (hi : Inv st) (o : Node) (t : Option Node) : Keep st (st.equilibrate o t) := by
  unfold Net.equilibrate
  dsimp only
  have hp := hi.part (.deafReadQ, o)
    (fun m => sel t m.target && (st.connected m.origin m.target && st.notDeafForSure m.origin m.target))
  have hf : ∀ m ∈ (st.q (.deafReadQ, o)).filter
      (fun m => sel t m.target && (st.connected m.origin m.target && st.notDeafForSure m.origin m.target)),
      Fits QKind.readQ o m := fun m hm => hi.fits .deafReadQ o m (List.mem_filter.1 hm).1
  have h1 := moveAll_spec (.deafReadQ, o) (fun _ => (.readQ, o)) _ st hi hp hf (fun _ _ => by simp)
  refine (Keep.moveAll hi hp hf (fun _ _ => by simp)).trans
    (Keep.moveAll h1.1 ⟨((hi.sorted _ _).imp (fun h => h.2)).filter _, ?_⟩ ?_ (fun _ _ => by simp))
  · intro m hm
    have hm' := (List.mem_filter.1 hm).1
    rw [h1.2]
    refine .inl ⟨hm', fun hx => ?_⟩
    have := hi.uniq _ _ _ _ hm' (List.mem_filter.1 hx).1 rfl
    cases this
  · intro m hm
    exact hi.fits .readQ o m (List.mem_filter.1 hm).1

theorem keep_applyReadFaults {st : Net} (hi : Inv st) (o : Node) (t : Option Node) : Keep st (st.applyReadFaults o t) := by
  unfold Net.applyReadFaults
  dsimp only
  split
  · exact Keep.crash hi
  · refine Keep.moveAll hi (part_filter (hi.part _ _) _) ?_ (fun _ _ => by simp)
    intro m hm
    exact hi.fits .readQ o m (List.mem_filter.1 (List.mem_filter.1 hm).1).1

theorem keep_roll {sc : Scen} {st : Net} (hi : Inv st) (p : Prob) : Keep st (st.roll sc p).2 ∧ (st.roll sc p).2.q = st.q := by
  unfold Net.roll
  split
  · exact ⟨Keep.refl hi, rfl⟩
  · split
    · exact ⟨Keep.refl hi, rfl⟩
    · exact ⟨Keep.atPos hi _, rfl⟩

theorem keep_move {st : Net} (hi : Inv st) {src dst : Place} {m : Mop} (hm : m ∈ st.q src) (hf : Fits dst.1 dst.2 m) :
    Keep st (st.move m src dst) := by
  refine ⟨hi.move hm rfl hf, rfl, rfl, fun p x hx => ?_⟩
  rcases (mem_move hi hm rfl).1 hx with h | h
  · exact ⟨p, h.1⟩
  · exact ⟨src, by rw [h.2]; exact hm⟩

theorem keep_sendFaults1 (sc : Scen) (now : Nat) (o other : Node) (p : Prob) : ∀ (ms : List Mop) (st : Net), Inv st →
    Part st (.preArrQ, other) ms → Keep st (sendFaults1 sc now o other p ms st)
  | [], _, hi, _ => Keep.refl hi
  | m :: ms, st, hi, hp => by
    have hp' := List.pairwise_cons.1 hp.1
    have hm := hp.2 m (List.mem_cons_self ..)
    have htl : Part st (.preArrQ, other) ms := ⟨hp'.2, fun x hx => hp.2 x (List.mem_cons_of_mem _ hx)⟩
    have mv : ∀ st1 : Net, Inv st1 → st1.q = st.q → m.origin = o →
        Keep st1 (st1.move m (.preArrQ, other) (.droppedSendQ, o)) ∧
        Part (st1.move m (.preArrQ, other) (.droppedSendQ, o)) (.preArrQ, other) ms := by
      intro st1 hi1 hq ho
      have hm1 : m ∈ st1.q (.preArrQ, other) := by rw [hq]; exact hm
      refine ⟨keep_move hi1 hm1 ⟨(hi1.fits _ _ m hm1).1, ho⟩, hp'.2, fun x hx => ?_⟩
      refine (mem_move hi1 hm1 rfl).2 (.inl ⟨?_, fun e => hp'.1 x hx e.symm⟩)
      rw [hq]; exact htl.2 x hx
    unfold sendFaults1
    split
    · exact keep_sendFaults1 sc now o other p ms st hi htl
    · split
      · exact keep_sendFaults1 sc now o other p ms st hi htl
      · rename_i ho
        have ho : m.origin = o := Classical.not_not.1 ho
        split
        · have h := mv st hi rfl ho
          exact h.1.trans (keep_sendFaults1 sc now o other p ms _ h.1.inv h.2)
        · have hr := keep_roll (sc := sc) hi p
          dsimp only
          split
          · have h := mv _ hr.1.inv hr.2 ho
            exact (hr.1.trans h.1).trans (keep_sendFaults1 sc now o other p ms _ h.1.inv h.2)
          · exact hr.1.trans (keep_sendFaults1 sc now o other p ms _ hr.1.inv ⟨htl.1, by rw [hr.2]; exact htl.2⟩)

theorem keep_applySendFaults {sc : Scen} {now : Nat} {st : Net} (hi : Inv st) (o : Node) (t : Option Node) (p : Prob) :
    Keep st (st.applySendFaults sc now o t p) :=
  Keep.foldl (fun _ other hi => keep_sendFaults1 sc now o other p _ _ hi (hi.part' _)) _ _ hi

theorem keep_faultCkt {sc : Scen} {now : Nat} {st : Net} (hi : Inv st) (o : Node) (t : Option Node) (dd : Spec) (d : Bool) :
    Keep st (st.faultCkt sc now o t dd d) := by
  unfold Net.faultCkt
  split
  · exact Keep.refl hi
  split
  · exact Keep.refl hi
  dsimp only
  have fin : ∀ st1 : Net, Keep st st1 → Keep st (if d = true then st1.deliverDropped o t else st1) := by
    intro st1 h
    split
    · exact h.trans (keep_deliverDropped h.inv o t)
    · exact h
  apply fin
  split
  · exact Keep.refl hi
  · have k1 : Keep st (st.mapConns o (sel t) (fun c => { c with deaf := dd.deaf.getD c.deaf, drop := dd.drop.getD c.drop })) :=
      Keep.mapConns hi _ _ (fun _ h => h)
    have k2 := fun s => k1.trans (Keep.stateOf k1.inv s)
    have fin2 : ∀ st1 : Net, Keep st st1 → Keep st (st1.equilibrate o t) := fun _ h => h.trans (keep_equilibrate h.inv o t)
    apply fin2
    ·
      have k3 : ∀ st1 : Net, Keep st st1 → Keep st (match dd.deaf with
          | some p => if p.pos = true then st1.applyReadFaults o t else st1
          | none => st1) := by
        intro st1 h
        split
        · split
          · exact h.trans (keep_applyReadFaults h.inv o t)
          · exact h
        · exact h
      have k4 : ∀ st1 : Net, Keep st st1 → Keep st (match dd.drop with
          | some p => if p.pos = true then st1.applySendFaults sc now o t p else st1
          | none => st1) := by
        intro st1 h
        split
        · split
          · exact h.trans (keep_applySendFaults h.inv o t _)
          · exact h
        · exact h
      exact k4 _ (k3 _ (k2 _))

theorem keep_isolate {st : Net} (hi : Inv st) (n : Node) : Keep st (st.isolate n) := by
  unfold Net.isolate
  split
  · exact Keep.refl hi
  · split
    · exact Keep.refl hi
    · exact Keep.refl hi
    · exact (Keep.stateOf hi _).trans (keep_preArrToDropped (Keep.stateOf hi _).inv n)
    · exact (Keep.stateOf hi _).trans (keep_preArrToDropped (Keep.stateOf hi _).inv n)

theorem keep_unIsolateReads {st : Net} (hi : Inv st) (n : Node) : Keep st (st.unIsolateReads n) :=
  (keep_equilibrate hi n none).trans
    (Keep.foldl (fun _ r hi => keep_equilibrate hi r (some n)) _ _ (keep_equilibrate hi n none).inv)

theorem keep_unIsolate {st : Net} (hi : Inv st) (n : Node) : Keep st (st.unIsolate n) := by
  unfold Net.unIsolate
  split
  · exact (Keep.stateOf hi _).trans (keep_unIsolateReads (Keep.stateOf hi _).inv n)
  · exact (Keep.stateOf hi _).trans (keep_unIsolateReads (Keep.stateOf hi _).inv n)
  · exact Keep.refl hi
  · exact Keep.refl hi

theorem keep_repairAll {st : Net} (hi : Inv st) (n : Node) : Keep st (st.repairAll n) := by
  have body : ∀ s, Keep st ((({ st with state := s } : Net).deafToRead n none).mapConns n (fun _ => true) Conn.repair) := by
    intro s
    have h1 := Keep.stateOf hi s
    have h2 := h1.trans (keep_deafToRead h1.inv n none)
    exact h2.trans (Keep.mapConns h2.inv _ _ (fun _ h => h))
  unfold Net.repairAll
  split
  · exact Keep.refl hi
  · exact Keep.refl hi
  · exact body _
  · exact body _

theorem keep_powerOn {st : Net} (hi : Inv st) (n : Node) : Keep st (st.powerOn n) := Keep.power hi _

theorem keep_repairCkt {st : Net} (hi : Inv st) (o : Node) (t : Option Node) (u p j d : Bool) :
    Keep st (st.repairCkt o t u p j d) := by
  unfold Net.repairCkt
  split
  · exact Keep.refl hi
  split
  · exact Keep.refl hi
  dsimp only
  have fin : ∀ st1 : Net, Keep st st1 → Keep st (if d = true then st1.deliverDropped o t else st1) := by
    intro st1 h
    split
    · exact h.trans (keep_deliverDropped h.inv o t)
    · exact h
  apply fin
  have pw : ∀ (st1 : Net) (x : Node), Keep st st1 → Keep st (if p = true then st1.powerOn x else st1) := by
    intro st1 x h
    split
    · exact h.trans (keep_powerOn h.inv x)
    · exact h
  have k1 := pw _ o (keep_repairAll hi o)
  generalize (if p = true then (st.repairAll o).powerOn o else st.repairAll o) = st1 at k1
  split
  · exact k1.trans (keep_equilibrate k1.inv o none)
  · have k2 : Keep st1 (((((st1.circ o).getD []).map Prod.fst).filter (sel t)).foldl
        (fun st r => if p = true then (st.repairAll r).powerOn r else st.repairAll r) st1) := by
      refine Keep.foldl ?_ _ _ k1.inv
      intro s r hs
      have := keep_repairAll hs r
      split
      · exact this.trans (keep_powerOn this.inv r)
      · exact this
    have k3 := k1.trans k2
    generalize List.foldl (fun st r => if p = true then (st.repairAll r).powerOn r else st.repairAll r) st1
      ((((st1.circ o).getD []).map Prod.fst).filter (sel t)) = st2 at k3
    split
    · have k4 := k3.trans (keep_unIsolate k3.inv o)
      exact k4.trans (keep_equilibrate k4.inv o t)
    · exact k3.trans (keep_equilibrate k3.inv o t)

theorem keep_wipe {st : Net} (hi : Inv st) (t n : Node) : Keep st (st.wipe t n) := by
  have hc : ∀ o l, upd st.circ n none o = some l → ∀ e ∈ l, e.2.droppedN ≤ e.2.attempted := by
    intro o l h
    by_cases ho : o = n
    · subst ho; rw [upd_same] at h; cases h
    · rw [upd_other _ _ ho] at h; exact hi.counts o l h
  have old : ∀ (p : Place) m, m ∈ (if p.2 = n then [] else st.q p) → ∃ p', m ∈ st.q p' := by
    intro p m h
    split at h
    · cases h
    · exact ⟨p, h⟩
  unfold Net.wipe
  dsimp only
  split
  · refine ⟨hi.wipe n rfl rfl rfl rfl rfl rfl ?_ hc, rfl, rfl, old⟩
    intro m h
    dsimp only at h ⊢
    by_cases hm : m = n
    · subst hm; rw [upd_same] at h; cases h
    · rw [upd_other _ _ hm] at h; exact hi.dns m h
  · exact ⟨hi.wipe n rfl rfl rfl rfl rfl rfl hi.dns hc, rfl, rfl, old⟩

theorem keep_shutdown {st : Net} (hi : Inv st) (n : Node) : Keep st (st.shutdown n) := by
  unfold Net.shutdown
  split
  · exact Keep.refl hi
  split
  · exact Keep.refl hi
  exact (Keep.power hi _).trans (Keep.foldl (fun _ x hi => keep_wipe hi n x) _ _ (Keep.power hi _).inv)

theorem keep_forget {st : Net} (hi : Inv st) (n : Node) : Keep st (st.forget n) := by
  refine ⟨hi.other rfl (fun _ h => h) hi.handedNe (Nat.le_refl _) rfl rfl rfl ?_ ?_, rfl, rfl, fun p _ h => ⟨p, h⟩⟩
  · intro m h
    have h : upd st.inDns n false m = true := h
    by_cases hm : m = n
    · subst hm; rw [upd_same] at h; cases h
    · rw [upd_other _ _ hm] at h; exact hi.dns m h
  · intro o l h
    have h : upd st.circ n none o = some l := h
    by_cases ho : o = n
    · subst ho; rw [upd_same] at h; cases h
    · rw [upd_other _ _ ho] at h; exact hi.counts o l h

theorem keep_close {st : Net} (hi : Inv st) (n : Node) : Keep st (st.close n) := by
  unfold Net.close
  split
  · exact Keep.refl hi
  dsimp only
  have h := (Keep.power hi (upd st.powerOff n true)).trans
    (Keep.foldl (fun _ x hi => keep_forget hi x) (st.locals n) _ (Keep.power hi _).inv)
  refine h.trans ⟨h.inv.other rfl (fun _ h => h) h.inv.handedNe (Nat.le_refl _) rfl rfl rfl ?_ h.inv.counts, rfl, rfl, fun p _ h => ⟨p, h⟩⟩
  intro m hm
  dsimp only at hm ⊢
  by_cases e : m = n
  · subst e; rw [upd_same] at hm; cases hm
  · rw [upd_other _ _ e] at hm; exact h.inv.dns m hm

theorem mem_insNode {n x : Node} {l : List Node} : x ∈ insNode n l ↔ x = n ∨ x ∈ l := by
  induction l with
  | nil => simp [insNode]
  | cons y ys ih =>
    unfold insNode
    split
    · simp
    · simp only [List.mem_cons, ih]
      exact ⟨fun h => by rcases h with h | h | h <;> simp [h], fun h => by rcases h with h | h | h <;> simp [h]⟩

theorem keep_addServer {st : Net} (hi : Inv st) (n : Node) : Keep st (st.addServer n) := by
  unfold Net.addServer
  split
  · exact Keep.crash hi
  · refine ⟨hi.other rfl (fun _ h => h) hi.handedNe (Nat.le_refl _) rfl rfl rfl ?_ ?_, rfl, rfl, fun p _ h => ⟨p, h⟩⟩
    · intro m h
      show m ∈ insNode n st.all
      have h : upd st.inDns n true m = true := h
      rw [mem_insNode]
      by_cases hm : m = n
      · exact .inl hm
      · rw [upd_other _ _ hm] at h; exact .inr (hi.dns m h)
    · intro o l h e he
      have h : upd st.circ n (some []) o = some l := h
      by_cases ho : o = n
      · subst ho; rw [upd_same] at h; cases h; cases he
      · rw [upd_other _ _ ho] at h; exact hi.counts o l h e he

theorem mem_setConn {t : Node} {c : Conn} {l : List (Node × Conn)} {e : Node × Conn} (h : e ∈ setConn t c l) :
    e = (t, c) ∨ e ∈ l := by
  induction l with
  | nil => simpa [setConn] using h
  | cons x xs ih =>
    unfold setConn at h
    split at h
    · rcases List.mem_cons.1 h with h | h
      · exact .inl h
      · exact .inr h
    · split at h
      · rcases List.mem_cons.1 h with h | h
        · exact .inl h
        · exact .inr (List.mem_cons_of_mem _ h)
      · rcases List.mem_cons.1 h with h | h
        · exact .inr (by rw [h]; exact List.mem_cons_self ..)
        · rcases ih h with h | h
          · exact .inl h
          · exact .inr (List.mem_cons_of_mem _ h)

theorem keep_addClient {st : Net} (hi : Inv st) (c s : Node) (b : Option Node) : Keep st (st.addClient c s b) := by
  unfold Net.addClient
  split
  · exact Keep.refl hi
  rename_i hs
  split
  · exact Keep.crash hi
  rename_i hc
  have hs' : st.inDns s = true := by
    cases h : st.inDns s with
    | true => rfl
    | false => rw [h] at hs; simp at hs
  have hne : c ≠ s := fun e => hc (by rw [e]; exact hi.dns s hs')
  have hh : ∀ e ∈ (c, s) :: (s, c) :: st.handed, e.1 ≠ e.2 := by
    intro e he
    rcases List.mem_cons.1 he with rfl | he
    · exact hne
    · rcases List.mem_cons.1 he with rfl | he
      · exact hne.symm
      · exact hi.handedNe e he
  have hd : ∀ m, upd st.inDns c true m = true → m ∈ insNode c st.all := by
    intro m h
    rw [mem_insNode]
    by_cases hm : m = c
    · exact .inl hm
    · rw [upd_other _ _ hm] at h; exact .inr (hi.dns m h)
  have hcc : ∀ o l, upd (upd st.circ c (some [(s, Conn.fresh)])) s (some (setConn c Conn.fresh ((st.circ s).getD []))) o = some l →
      ∀ e ∈ l, e.2.droppedN ≤ e.2.attempted := by
    intro o l h e he
    by_cases ho : o = s
    · subst ho
      rw [upd_same] at h
      cases h
      rcases mem_setConn he with rfl | he
      · exact Nat.le_refl _
      · cases hx : st.circ o with
        | none => rw [hx] at he; cases he
        | some l0 => rw [hx] at he; exact hi.counts _ _ hx e he
    · rw [upd_other _ _ ho] at h
      by_cases ho' : o = c
      · subst ho'
        rw [upd_same] at h
        cases h
        rcases List.mem_cons.1 he with rfl | he
        · exact Nat.le_refl _
        · cases he
      · rw [upd_other _ _ ho'] at h
        exact hi.counts o l h e he
  dsimp only
  split
  · exact ⟨hi.other rfl (fun e h => List.mem_cons_of_mem _ (List.mem_cons_of_mem _ h)) hh (Nat.le_refl _) rfl rfl rfl hd hcc, rfl, rfl, fun p _ h => ⟨p, h⟩⟩
  · exact ⟨hi.other rfl (fun e h => List.mem_cons_of_mem _ (List.mem_cons_of_mem _ h)) hh (Nat.le_refl _) rfl rfl rfl hd hcc, rfl, rfl, fun p _ h => ⟨p, h⟩⟩

/-- The message `handleSend` makes. -/
def mkSend (sc : Scen) (st : Net) (o t : Node) (pl : List UInt8) (e : Bool) (i tie : Nat) : Mop :=
  { sn := st.next, isSend := true, origin := o, target := t, payload := pl, eof := e,
    initTm := i, arrivalTm := i + sc.hop st.pos + sc.tick, tie := tie, filtered := false }

/-- A new message of which the network has at most put it into a queue. -/
def Added (st st' : Net) (m0 : Mop) : Prop := ∀ p m, m ∈ st'.q p → m = m0 ∨ ∃ p', m ∈ st.q p'

theorem added_put {st st0 : Net} (hq : st0.q = st.q) (p0 : Place) (m0 : Mop) : Added st (st0.put p0 m0) m0 := by
  intro p m hm
  rw [put_q] at hm
  by_cases h : p = p0
  · rw [if_pos h, hq] at hm
    unfold addTo at hm
    split at hm
    · exact .inr ⟨_, hm⟩
    · rcases mem_insertBefore.1 hm with h | h
      · exact .inl h
      · exact .inr ⟨_, h⟩
  · rw [if_neg h, hq] at hm
    exact .inr ⟨_, hm⟩

theorem handleSend_inv {sc : Scen} {st : Net} (hi : Inv st) (o t : Node) (pl : List UInt8) (e : Bool) (i tie : Nat)
    (hh : (o, t) ∈ st.handed) :
    Inv (st.handleSend sc o t pl e i tie) ∧ (st.handleSend sc o t pl e i tie).done = st.done ∧
      (st.handleSend sc o t pl e i tie).sent = mkSend sc st o t pl e i tie :: st.sent ∧
      Added st (st.handleSend sc o t pl e i tie) (mkSend sc st o t pl e i tie) := by
  unfold Net.handleSend
  rw [if_neg (fun h => h hh)]
  dsimp only
  split
  · exact ⟨hi.accept (dst := (.droppedSendQ, o)) (m := mkSend sc st o t pl e i tie) rfl rfl hh ⟨rfl, rfl⟩
      rfl rfl rfl rfl rfl rfl rfl rfl rfl, rfl, rfl, added_put (st := st) rfl _ _⟩
  · split
    · exact ⟨hi.refuse (m := mkSend sc st o t pl e i tie) rfl rfl rfl rfl rfl rfl rfl rfl rfl rfl rfl rfl, rfl, rfl,
        fun p m h => .inr ⟨p, h⟩⟩
    · split
      · exact ⟨hi.accept (dst := (.droppedSendQ, o)) (m := mkSend sc st o t pl e i tie) rfl rfl hh ⟨rfl, rfl⟩
          rfl rfl rfl rfl rfl rfl rfl rfl rfl, rfl, rfl, added_put (st := st) rfl _ _⟩
      · exact ⟨hi.accept (dst := (.preArrQ, t)) (m := mkSend sc st o t pl e i tie) rfl rfl hh ⟨rfl, rfl⟩
          rfl rfl rfl rfl rfl rfl rfl rfl rfl, rfl, rfl, added_put (st := st) rfl _ _⟩

theorem handleRead_inv {st : Net} (hi : Inv st) (o t : Node) (i tie : Nat) (hh : (o, t) ∈ st.handed) :
    Inv (st.handleRead o t i tie) ∧ (st.handleRead o t i tie).done = st.done ∧
      (st.handleRead o t i tie).sent = st.sent ∧
      Added st (st.handleRead o t i tie) ⟨st.next, false, o, t, [], false, i, 0, tie, false⟩ := by
  unfold Net.handleRead
  rw [if_neg (fun h => h hh)]
  dsimp only
  split
  · exact ⟨hi.other rfl (fun _ h => h) hi.handedNe (Nat.le_succ _) rfl rfl rfl hi.dns hi.counts, rfl, rfl, fun p m h => .inr ⟨p, h⟩⟩
  · split
    · exact ⟨hi.other rfl (fun _ h => h) hi.handedNe (Nat.le_succ _) rfl rfl rfl hi.dns hi.counts, rfl, rfl, fun p m h => .inr ⟨p, h⟩⟩
    · exact ⟨hi.accept (dst := (.readQ, o)) (m := ⟨st.next, false, o, t, [], false, i, 0, tie, false⟩) rfl rfl hh
        ⟨fun _ => rfl, fun h => by cases h⟩ rfl rfl rfl rfl rfl rfl rfl rfl rfl, rfl, rfl, added_put (st := st) rfl _ _⟩

/-! ### Steps and runs -/

/-- What an operation does to the record of sends and deliveries. -/
inductive Did (sc : Scen) (st : Net) (op : Op) (st' : Net) : Prop
  | passed (now : Nat) (hop : op = .dispatch now) (h : DSteps now st st')
  | sent (o t : Node) (pl : List UInt8) (e : Bool) (i tie : Nat) (hop : op = .send o t pl e i tie)
      (hh : (o, t) ∈ st.handed) (inv : Inv st') (done : st'.done = st.done)
      (sent : st'.sent = mkSend sc st o t pl e i tie :: st.sent) (add : Added st st' (mkSend sc st o t pl e i tie))
  | reads (o t : Node) (i tie : Nat) (hop : op = .read o t i tie)
      (hh : (o, t) ∈ st.handed) (inv : Inv st') (done : st'.done = st.done)
      (sent : st'.sent = st.sent) (add : Added st st' ⟨st.next, false, o, t, [], false, i, 0, tie, false⟩)
  | keep (h : Keep st st')

theorem step_spec (sc : Scen) {st : Net} (hi : Inv st) (op : Op) : Did sc st op (step sc st op) := by
  unfold step
  split
  · exact .keep (Keep.refl hi)
  · cases op with
    | addServer n => exact .keep (keep_addServer hi n)
    | addClient c s b => exact .keep (keep_addClient hi c s b)
    | send o t pl e i tie =>
      by_cases hh : (o, t) ∈ st.handed
      · have h := handleSend_inv (sc := sc) hi o t pl e i tie hh
        exact .sent o t pl e i tie rfl hh h.1 h.2.1 h.2.2.1 h.2.2.2
      · have : st.handleSend sc o t pl e i tie = st := if_pos hh
        show Did sc st _ (st.handleSend sc o t pl e i tie)
        rw [this]
        exact .keep (Keep.refl hi)
    | read o t i tie =>
      by_cases hh : (o, t) ∈ st.handed
      · have h := handleRead_inv hi o t i tie hh
        exact .reads o t i tie rfl hh h.1 h.2.1 h.2.2.1 h.2.2.2
      · have : st.handleRead o t i tie = st := if_pos hh
        show Did sc st _ (st.handleRead o t i tie)
        rw [this]
        exact .keep (Keep.refl hi)
    | dispatch now => exact .passed now rfl (dispatch_steps sc now hi)
    | faultCkt now o t dd d => exact .keep (keep_faultCkt hi o t dd d)
    | repairCkt o t u p j d => exact .keep (keep_repairCkt hi o t u p j d)
    | isolate n => exact .keep (keep_isolate hi n)
    | unIsolate n =>
      refine .keep ?_
      show Keep st (if _ then _ else _)
      split
      · exact keep_unIsolate hi n
      · exact Keep.refl hi
    | shutdown n => exact .keep (keep_shutdown hi n)
    | powerOn n =>
      refine .keep ?_
      show Keep st (if _ then _ else _)
      split
      · exact keep_powerOn hi n
      · exact Keep.refl hi
    | close n => exact .keep (keep_close hi n)

theorem step_inv (sc : Scen) {st : Net} (hi : Inv st) (op : Op) : Inv (step sc st op) := by
  cases step_spec sc hi op with
  | passed now _ h => exact h.inv hi
  | sent _ _ _ _ _ _ _ _ h => exact h
  | reads _ _ _ _ _ _ h => exact h
  | keep h => exact h.inv

theorem run_inv (sc : Scen) : ∀ (ops : List Op) {st : Net}, Inv st → Inv (run sc st ops)
  | [], _, hi => hi
  | op :: ops, _, hi => run_inv sc ops (step_inv sc hi op)

theorem run_append (sc : Scen) (st : Net) (ops ops' : List Op) : run sc st (ops ++ ops') = run sc (run sc st ops) ops' :=
  List.foldl_append ..

theorem run_snoc (sc : Scen) (st : Net) (ops : List Op) (op : Op) : run sc st (ops ++ [op]) = step sc (run sc st ops) op := by
  rw [run_append]; rfl

end Verif.Simnet
