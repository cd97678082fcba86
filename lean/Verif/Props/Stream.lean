import Verif.Model.Stream
/-
C53 and C54: download part marks, cancellation.
-/
namespace Verif.Stream

/-! ### C53 -/

theorem run_parts (h : Helper) (cs : List Call) (hok : ∀ c ∈ cs, c.writeOk = true) :
    let ps := (runDownload h cs).2
    let live := cs.filter (fun c => !c.ctxDone)
    ps.length = live.length ∧ ∀ i (h1 : i < ps.length) (h2 : i < live.length),
      ps[i].streamPart = h.nextPart + i ∧ ps[i].callID = h.callID ∧ ps[i].body = live[i].body ∧
      ps[i].typ = (if h.nextPart + i = 0 then .begin else if live[i].last then .fin else .more) := by
  induction cs generalizing h with
  | nil => simp [runDownload]
  | cons c cs ih =>
    have hok' : ∀ c ∈ cs, c.writeOk = true := fun d hd => hok d (List.mem_cons_of_mem _ hd)
    have hc : c.writeOk = true := hok c List.mem_cons_self
    by_cases hd : c.ctxDone = true
    · have := ih h hok'
      simpa [runDownload, sendDownloadPart, hd] using this
    · have hd : c.ctxDone = false := by simpa using hd
      have := ih { h with nextPart := h.nextPart + 1 } hok'
      have hrun : (runDownload h (c :: cs)).2 =
          ⟨if h.nextPart = 0 then .begin else if c.last then .fin else .more, h.nextPart, h.callID, c.body⟩ ::
            (runDownload { h with nextPart := h.nextPart + 1 } cs).2 := by
        simp [runDownload, sendDownloadPart, hd, hc]
      have hfil : (c :: cs).filter (fun c => !c.ctxDone) = c :: cs.filter (fun c => !c.ctxDone) := by
        simp [hd]
      rw [hrun, hfil]
      simp only at this ⊢
      refine ⟨by simp [this.1], ?_⟩
      intro i h1 h2
      cases i with
      | zero => simp
      | succ i =>
        simp only [List.length_cons] at h1 h2
        have := this.2 i (by omega) (by omega)
        simp only [List.getElem_cons_succ]
        rw [show h.nextPart + (i + 1) = h.nextPart + 1 + i from by omega]
        exact this

theorem run_append (h : Helper) (cs ds : List Call) :
    (runDownload h (cs ++ ds)).2 = (runDownload h cs).2 ++ (runDownload (runDownload h cs).1 ds).2 := by
  induction cs generalizing h with
  | nil => simp [runDownload]
  | cons c cs ih => simp [runDownload, ih]

theorem run_failed (h : Helper) (cs : List Call) (hf : ∀ c ∈ cs, c.writeOk = false) :
    (runDownload h cs).2 = [] := by
  induction cs generalizing h with
  | nil => simp [runDownload]
  | cons c cs ih =>
    have hc := hf c List.mem_cons_self
    have := fun h => ih h (fun d hd => hf d (List.mem_cons_of_mem _ hd))
    cases hd : c.ctxDone <;> simp [runDownload, sendDownloadPart, hc, hd, this]

/-- C53: whatever goroutines call the sender in whatever order, with some calls refused
because their context is done and the connection failing at any point (`failed` are the
calls after that), the parts that reach the wire carry the bodies of the accepted calls in
order, are numbered 0, 1, 2, ..., bear the call's id, and only the first is marked begin. -/
theorem C53_parts_numbered_without_gaps (id : CallID) (cs failed : List Call)
    (hok : ∀ c ∈ cs, c.writeOk = true) (hf : ∀ c ∈ failed, c.writeOk = false) :
    let ps := (runDownload { callID := id } (cs ++ failed)).2
    ps.map (·.body) = (cs.filter (fun c => !c.ctxDone)).map (·.body) ∧
    ∀ i (h1 : i < ps.length),
      ps[i].streamPart = i ∧ ps[i].callID = id ∧ (ps[i].typ = .begin ↔ i = 0) := by
  simp only
  rw [run_append, run_failed _ _ hf, List.append_nil]
  have h := run_parts { callID := id } cs hok
  simp only at h
  refine ⟨?_, ?_⟩
  · apply List.ext_getElem
    · simpa using h.1
    · intro i h1 h2
      simp only [List.length_map] at h1 h2
      simpa using (h.2 i h1 h2).2.2.1
  · intro i h1
    have := h.2 i h1 (h.1 ▸ h1)
    refine ⟨by simpa using this.1, this.2.1, ?_⟩
    rw [this.2.2.2]
    simp only [Nat.zero_add]
    by_cases hi : i = 0
    · simp [hi]
    · simp only [hi, if_false, iff_false]; split <;> simp

/-- C53, partial: a download of two or more parts of which exactly the final one is flagged
last is seen as begin, more, ..., more, end (missing: one-part downloads, see the
counterexample). -/
theorem C53_last_part_marked_partial (id : CallID) (cs : List Call) (final : Call)
    (hok : ∀ c ∈ cs ++ [final], c.writeOk = true) (hlive : ∀ c ∈ cs ++ [final], c.ctxDone = false)
    (hlast : final.last = true) (hnot : ∀ c ∈ cs, c.last = false) (htwo : cs ≠ []) :
    (runDownload { callID := id } (cs ++ [final])).2.map (·.typ) =
      .begin :: (List.replicate (cs.length - 1) .more ++ [.fin]) := by
  have h := run_parts { callID := id } (cs ++ [final]) hok
  have hfil : (cs ++ [final]).filter (fun c => !c.ctxDone) = cs ++ [final] := by
    rw [List.filter_eq_self]; intro c hc; simp [hlive c hc]
  rw [hfil] at h
  simp only at h
  have hlen : 0 < cs.length := List.length_pos_iff.2 htwo
  apply List.ext_getElem
  · simp [h.1]; omega
  · intro i h1 h2
    simp only [List.length_map] at h1
    have h3 := (h.2 i h1 (h.1 ▸ h1)).2.2.2
    rw [List.getElem_map, h3]
    simp only [Nat.zero_add]
    have hi : i < cs.length + 1 := by have := h.1; simp at this; omega
    rcases Nat.eq_zero_or_pos i with h0 | h0
    · simp [h0]
    · rw [if_neg (by omega)]
      rw [List.getElem_cons]
      rw [dif_neg (by omega)]
      rcases Nat.lt_or_ge i cs.length with hl | hl
      · rw [List.getElem_append_left hl, List.getElem_append_left (by simp; omega)]
        simp [hnot cs[i] (List.getElem_mem _)]
      · have : i = cs.length := by omega
        subst this
        rw [List.getElem_append_right (by omega), List.getElem_append_right (by simp)]
        simp [hlast]

example : (runDownload { callID := 7 } [⟨10, false, false, true⟩, ⟨11, false, true, true⟩, ⟨12, true, false, true⟩]).2
    = [⟨.begin, 0, 7, 10⟩, ⟨.fin, 1, 7, 12⟩] := by decide

/-- A one-part download flagged last is marked begin and never end. -/
theorem C53_single_part_counterexample :
    (runDownload { callID := 7 } [{ body := 10, last := true }]).2 = [⟨.begin, 0, 7, 10⟩] := by decide

/-! ### C54 -/

theorem lookup_erase (l : List (CallID × CallCtx)) (id k : CallID) :
    lookup (erase l id) k = if k = id then none else lookup l k := by
  induction l with
  | nil => simp [lookup, erase]
  | cons p l ih =>
    unfold lookup erase at *
    by_cases hp : p.1 = id
    · simp only [hp, List.filter_cons, bne_self_eq_false, Bool.false_eq_true, if_false, ih]
      by_cases hk : k = id
      · simp [hk]
      · simp [hk, show (id == k) = false from by simp; exact fun e => hk e.symm, hp]
    · have : (p.1 != id) = true := by simpa using hp
      simp only [List.filter_cons, this, if_true, List.find?_cons]
      by_cases hk : p.1 = k
      · have : k ≠ id := fun e => hp (hk.trans e)
        simp [hk, this]
      · simp only [show (p.1 == k) = false from by simpa using hk, ih]

theorem lookup_register (s : Srv) (id k : CallID) (cf : Option CallID) :
    lookup (register s id cf).active k = if k = id then some ⟨cf⟩ else lookup s.active k := by
  unfold register
  by_cases hk : k = id
  · simp [lookup, hk]
  · have h1 : (id == k) = false := by simp; exact fun e => hk e.symm
    have := lookup_erase s.active id k
    unfold lookup at *
    simp only [List.find?_cons, h1]
    rw [this, if_neg hk, if_neg hk]

theorem lookup_cancel (s : Srv) (id k : CallID) :
    lookup (cancelCallID s id).active k = if k = id then none else lookup s.active k := by
  unfold cancelCallID
  split
  · next h => by_cases hk : k = id <;> simp [hk, h]
  · next cc h => cases cc.cancelFunc <;> simp [lookup_erase]

theorem cancelled_mono (s : Srv) (st : Step) (c : CallID) (h : c ∈ s.cancelled) :
    c ∈ (step s st).cancelled := by
  have hc : ∀ id, c ∈ (cancelCallID s id).cancelled := by
    intro id; unfold cancelCallID
    split
    · exact h
    · next cc _ => cases cc.cancelFunc <;> simp [h]
  cases st with
  | readStreamReq id => exact h
  | start id => exact h
  | cancel id => exact hc id
  | finish id => exact List.mem_cons_of_mem _ (hc id)

theorem cancelled_mono_run (s : Srv) (l : List Step) (c : CallID) (h : c ∈ s.cancelled) :
    c ∈ (run s l).cancelled := by
  induction l generalizing s with
  | nil => exact h
  | cons a l ih => exact ih _ (cancelled_mono s a c h)

/-- After the worker registered, until the call finishes, either the table still holds its
cancel function or it has been called. -/
theorem registered_or_cancelled (s : Srv) (id : CallID) (l : List Step)
    (h : lookup s.active id = some ⟨some id⟩ ∨ id ∈ s.cancelled)
    (hs : .start id ∉ l) (hr : .readStreamReq id ∉ l) (hf : .finish id ∉ l) :
    lookup (run s l).active id = some ⟨some id⟩ ∨ id ∈ (run s l).cancelled := by
  induction l generalizing s with
  | nil => exact h
  | cons a l ih =>
    simp only [List.mem_cons, not_or] at hs hr hf
    apply ih (step s a) _ hs.2 hr.2 hf.2
    rcases h with h | h
    · cases a with
      | readStreamReq k =>
        left; simp only [step, lookup_register]
        rw [if_neg (fun e => hr.1 (by rw [e]))]; exact h
      | start k =>
        left; simp only [step, lookup_register]
        rw [if_neg (fun e => hs.1 (by rw [e]))]; exact h
      | cancel k =>
        by_cases hk : id = k
        · right; subst hk; simp [step, cancelCallID, h]
        · left; simp only [step, lookup_cancel]; rw [if_neg hk]; exact h
      | finish k =>
        left; simp only [step, lookup_cancel]
        rw [if_neg (fun e => hf.1 (by rw [e]))]; exact h
    · right; exact cancelled_mono s a id h

/-- C54, partial: in every interleaving of all the server's goroutines, a cancellation
handled after the call's worker has registered its context and before the call finishes
cancels that context (missing: a cancellation handled before the worker registers, see the
counterexamples). Call ids are unique: no second request with this id in between. -/
theorem C54_cancel_reaches_running_call_partial (s : Srv) (id : CallID) (p1 p2 p3 : List Step)
    (hs : .start id ∉ p2) (hr : .readStreamReq id ∉ p2) (hf : .finish id ∉ p2) :
    id ∈ (run s (p1 ++ .start id :: p2 ++ .cancel id :: p3)).cancelled := by
  have hrun : run s (p1 ++ .start id :: p2 ++ .cancel id :: p3) =
      run (step (run (step (run s p1) (.start id)) p2) (.cancel id)) p3 := by
    simp [run, List.foldl_append]
  rw [hrun]
  apply cancelled_mono_run
  have h := registered_or_cancelled (step (run s p1) (.start id)) id p2
    (.inl (by simp [step, lookup_register])) hs hr hf
  rcases h with h | h
  · generalize run (step (run s p1) (.start id)) p2 = S at h ⊢
    simp [step, cancelCallID, h]
  · exact cancelled_mono _ _ _ h

/-- C54: nobody else's context is ever cancelled: a cancelled context belongs to a call that
was started and that a later cancellation names, or whose handler returned. -/
theorem C54_only_named_calls_cancelled (steps : List Step) (id : CallID)
    (h : id ∈ (run {} steps).cancelled) :
    .finish id ∈ steps ∨ ∃ p1 p2 p3, steps = p1 ++ .start id :: p2 ++ .cancel id :: p3 := by
  have key : ∀ r : List Step,
      (∀ k c, lookup (run {} r.reverse).active k = some ⟨some c⟩ → c = k ∧ .start k ∈ r) ∧
      (∀ id, id ∈ (run {} r.reverse).cancelled → .finish id ∈ r ∨
        ∃ p1 p2 p3, r.reverse = p1 ++ .start id :: p2 ++ .cancel id :: p3) := by
    intro r
    induction r with
    | nil => simp [run, lookup]
    | cons a r ih =>
      have hrun : run {} (a :: r).reverse = step (run {} r.reverse) a := by
        simp [run, List.foldl_append]
      rw [hrun]
      generalize hS : run {} r.reverse = S at ih ⊢
      have ext : ∀ id, (.finish id ∈ r ∨
          ∃ p1 p2 p3, r.reverse = p1 ++ .start id :: p2 ++ .cancel id :: p3) →
          (.finish id ∈ a :: r ∨ ∃ p1 p2 p3, (a :: r).reverse = p1 ++ .start id :: p2 ++ .cancel id :: p3) := by
        rintro id (h | ⟨p1, p2, p3, h⟩)
        · exact .inl (List.mem_cons_of_mem _ h)
        · exact .inr ⟨p1, p2, p3 ++ [a], by simp [List.reverse_cons, h]⟩
      have hcan : ∀ k, a = .cancel k ∨ a = .finish k → ∀ id, id ∈ (cancelCallID S k).cancelled →
          (.finish id ∈ a :: r ∨ ∃ p1 p2 p3, (a :: r).reverse = p1 ++ .start id :: p2 ++ .cancel id :: p3) := by
        intro k ha id hid
        unfold cancelCallID at hid
        split at hid
        · exact ext id (ih.2 id hid)
        · next cc hl =>
          cases hcf : cc.cancelFunc with
          | none => simp only [hcf] at hid; exact ext id (ih.2 id hid)
          | some c =>
            simp only [hcf, List.mem_cons] at hid
            rcases hid with rfl | hid
            · have hcc : cc = ⟨some id⟩ := by cases cc; simp_all
              obtain ⟨e, hst⟩ := ih.1 k id (hcc ▸ hl)
              subst e
              rcases ha with ha | ha
              · right
                have : Step.start id ∈ r.reverse := by simpa using hst
                obtain ⟨p1, p2, hp⟩ := List.append_of_mem this
                exact ⟨p1, p2, [], by simp [List.reverse_cons, hp, ha]⟩
              · left; simp [ha]
            · exact ext id (ih.2 id hid)
      constructor
      · intro k c hk
        cases a with
        | readStreamReq j =>
          simp only [step, lookup_register] at hk
          split at hk
          · simp at hk
          · exact ⟨(ih.1 k c hk).1, List.mem_cons_of_mem _ (ih.1 k c hk).2⟩
        | start j =>
          simp only [step, lookup_register] at hk
          split at hk
          · next e => simp only [Option.some.injEq, CallCtx.mk.injEq] at hk; subst e; exact ⟨hk.symm, List.mem_cons_self⟩
          · exact ⟨(ih.1 k c hk).1, List.mem_cons_of_mem _ (ih.1 k c hk).2⟩
        | cancel j =>
          simp only [step, lookup_cancel] at hk
          split at hk
          · simp at hk
          · exact ⟨(ih.1 k c hk).1, List.mem_cons_of_mem _ (ih.1 k c hk).2⟩
        | finish j =>
          simp only [step, lookup_cancel] at hk
          split at hk
          · simp at hk
          · exact ⟨(ih.1 k c hk).1, List.mem_cons_of_mem _ (ih.1 k c hk).2⟩
      · intro id hid
        cases a with
        | readStreamReq j => exact ext id (ih.2 id hid)
        | start j => exact ext id (ih.2 id hid)
        | cancel j => exact hcan j (.inl rfl) id hid
        | finish j =>
          simp only [step, List.mem_cons] at hid
          rcases hid with rfl | hid
          · left; exact List.mem_cons_self
          · exact hcan j (.inr rfl) id hid
  have := (key steps.reverse).2 id (by simpa using h)
  simpa using this

/-- An ordinary request whose cancellation is handled first keeps running uncancelled. -/
theorem C54_cancel_before_start_counterexample :
    let s := run {} [.cancel 1, .start 1]
    1 ∈ s.running ∧ 1 ∉ s.cancelled := by decide

/-- An upload request: the read loop registered it, yet the cancellation is lost too. -/
theorem C54_upload_cancel_lost_counterexample :
    let s := run {} [.readStreamReq 1, .cancel 1, .start 1]
    1 ∈ s.running ∧ 1 ∉ s.cancelled := by decide

example : let s := run {} [.readStreamReq 1, .start 2, .start 1, .finish 2, .cancel 1]
    1 ∈ s.running ∧ 1 ∈ s.cancelled := by decide

end Verif.Stream
