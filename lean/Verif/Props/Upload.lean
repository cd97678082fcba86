import Verif.Proofs.Upload
/-
C52: upload streams are handed to the server's function in order.
-/
namespace Verif.Upload

/-- **C52 (client)**: an upload none of whose sends fails puts on the connection a begin
message, then parts numbered 1, 2, 3, ... and nothing after the end; the contents are those
given, in order, up to the call with `last`. -/
theorem C52_client_numbers_parts (callID body : Nat) (ms : List More)
    (hs : ∀ m ∈ ms, m.sent = true) :
    Stream (upload callID body ms) ∧ (∀ p ∈ upload callID body ms, p.callID = callID) ∧
      (upload callID body ms).map (·.body) =
        body :: ((ms.takeWhile fun m => !m.last) ++ (ms.dropWhile fun m => !m.last).take 1).map
          (·.body) := by
  refine ⟨upload_stream callID body ms hs, ?_, ?_⟩
  · intro p hp
    unfold upload at hp
    rw [List.mem_cons] at hp
    rcases hp with rfl | hp
    · rfl
    · obtain ⟨i, hi⟩ := List.getElem?_of_mem hp
      exact (run_stream ms hs _ i p hi).1
  · unfold upload
    rw [List.map_cons]
    congr 1
    have fin : ∀ ms : List More, ∀ u : Uploader, u.done = true → u.run ms = [] := by
      intro ms
      induction ms with
      | nil => intro u _; rfl
      | cons a b ih => intro u hu; simp [Uploader.run, Uploader.more, hu, ih]
    have : ∀ ms : List More, (∀ m ∈ ms, m.sent = true) → ∀ u : Uploader, u.done = false →
        (u.run ms).map (·.body) = ((ms.takeWhile fun m => !m.last) ++
          (ms.dropWhile fun m => !m.last).take 1).map (·.body) := by
      intro ms
      induction ms with
      | nil => intro _ u _; rfl
      | cons a b ih =>
        intro hs u hu
        have ha := hs a List.mem_cons_self
        have e : u.run (a :: b) = ⟨if a.last then .fin else .more, u.callID, u.next, a.body⟩ ::
            Uploader.run { u with next := u.next + 1, done := a.last } b := by
          simp [Uploader.run, Uploader.more, hu, ha]
        rw [e]
        cases hl : a.last with
        | true => simp [hl, fin]
        | false =>
          rw [List.map_cons, ih (fun m hm => hs m (List.mem_cons_of_mem _ hm)) _ rfl]
          simp [hl]
    exact this ms hs _ rfl

example : upload 7 10 [⟨11, false, true⟩, ⟨12, true, true⟩, ⟨13, false, true⟩] =
    [⟨.begin, 7, 0, 10⟩, ⟨.more, 7, 1, 11⟩, ⟨.fin, 7, 2, 12⟩] := by decide

/-- **C52 (server), partial**: whatever the server does, and however many uploads and other
calls share the connection, at any moment the function of an upload has been called with the
first messages of that upload, each once, in the order they were sent, `last` with the end
message and only there; the server does not panic. Missing: uploads with a part that failed to
send, and uploads cancelled before their goroutine ran; both crash the server, see below. -/
theorem C52_delivered_in_order_partial (cap : Nat) (ops : List Op)
    (hS : ∀ u, Stream (ofCall u (accepted cap {} ops)))
    (hO : ∀ id, .other id ∈ ops → ∀ p ∈ accepted cap {} ops, p.callID ≠ id)
    (hE : NoEarlyCancel cap {} ops) (w : Nat) (k : Work)
    (hk : ((({} : Srv).run cap ops).works)[w]? = some k) :
    k.st ≠ .panicked ∧
      Given k ((ofCall k.req.callID (accepted cap {} ops)).take k.got.length) := by
  have i := inv_run (O := (ops.filterMap fun | .other id => some id | _ => none)) ops
    (inv_init _) (by simpa using hS) ?_ ?_ hE
  · rw [List.nil_append] at i
    have h := i.works w k hk
    refine ⟨h.ok, ?_⟩
    unfold Given
    have hp := h.pre
    rw [List.prefix_iff_eq_take] at hp
    rw [List.length_map] at hp
    rw [← hp]
    exact h.flags
  · intro p hp hm
    rw [List.mem_filterMap] at hm
    obtain ⟨op, hop, he⟩ := hm
    cases op <;> simp at he
    exact hO _ hop p hp he.symm
  · intro id hid
    rw [List.mem_filterMap]
    exact ⟨_, hid, rfl⟩

/-- **C52 (server), partial**: every upload gets its own function call, and while that is
running (no error returned, not cancelled, end not seen) nothing has been lost: the messages
taken, those waiting in the channel and the one the read loop is holding are all that were
sent. Same restrictions. -/
theorem C52_nothing_lost_partial (cap : Nat) (ops : List Op)
    (hS : ∀ u, Stream (ofCall u (accepted cap {} ops)))
    (hO : ∀ id, .other id ∈ ops → ∀ p ∈ accepted cap {} ops, p.callID ≠ id)
    (hE : NoEarlyCancel cap {} ops) (u : Nat) (hC : .cancel u ∉ ops)
    (hu : ofCall u (accepted cap {} ops) ≠ []) :
    ∃ (w : Nat) (k : Work), ((({} : Srv).run cap ops).works)[w]? = some k ∧ k.req.callID = u ∧
      (∀ (w' : Nat) (k' : Work), ((({} : Srv).run cap ops).works)[w']? = some k' →
        k'.req.callID = u → w' = w) ∧
      (k.st = .ended ∨ ∃ c q, k.ch = some c ∧ (({} : Srv).run cap ops).chans[c]? = some q ∧
        ofCall u (accepted cap {} ops) = k.got.map (·.1) ++ q ++
          (match (({} : Srv).run cap ops).blocked with
            | some (_, p) => if p.callID = u then [p] else []
            | none => [])) := by
  have h1 : ∀ p ∈ accepted cap {} ops,
      p.callID ∉ (ops.filterMap fun | .other id => some id | _ => none) := by
    intro p hp hm
    rw [List.mem_filterMap] at hm
    obtain ⟨op, hop, he⟩ := hm
    cases op <;> simp at he
    exact hO _ hop p hp he.symm
  have h2 : ∀ id, .other id ∈ ops →
      id ∈ (ops.filterMap fun | .other id => some id | _ => none) := by
    intro id hid
    rw [List.mem_filterMap]
    exact ⟨_, hid, rfl⟩
  have i := inv_run ops (inv_init _) (by simpa using hS) h1 h2 hE
  have r : Reg u (({} : Srv).run cap ops) :=
    reg_run ops (inv_init _) (by simp [Reg]) (by simpa using hS) h1 h2 hE hC
  · rw [List.nil_append] at i
    obtain ⟨w, k, hk, hid⟩ := i.has u hu
    refine ⟨w, k, hk, hid, fun w' k' hk' he => i.ids w' w k' k hk' hk (he.trans hid.symm), ?_⟩
    have h := i.works w k hk
    cases hst : k.st with
    | ended => exact .inl rfl
    | panicked => exact absurd hst h.ok
    | queued | running =>
      right
      obtain ⟨c, q, hc, hq, h3⟩ := h.live (by unfold Live; rw [hst]; simp)
      refine ⟨c, q, hc, hq, ?_⟩
      have hb : blk (({} : Srv).run cap ops) c =
          (match (({} : Srv).run cap ops).blocked with
            | some (_, p) => if p.callID = u then [p] else []
            | none => []) := by
        unfold blk
        cases hbl : (({} : Srv).run cap ops).blocked with
        | none => rfl
        | some b =>
          obtain ⟨x, p⟩ := b
          obtain ⟨c', w', k', rfl, hk', hc', hid'⟩ := i.stuck _ _ hbl
          dsimp only
          by_cases e : c' = c
          · subst e
            obtain rfl := i.chan w w' k k' _ hk hk' hc hc'
            rw [hk] at hk'
            obtain rfl := Option.some.inj hk'
            rw [if_pos rfl, if_pos (hid'.symm.trans hid)]
          · rw [if_neg e, if_neg]
            intro e'
            obtain rfl := i.ids w w' k k' hk hk' (by rw [hid, hid', e'])
            rw [hk] at hk'
            obtain rfl := Option.some.inj hk'
            rw [hc] at hc'
            exact e (Option.some.inj hc').symm
      rw [← hb]
      rcases h3 with ⟨_, h3⟩ | ⟨h4, _, _⟩
      · rw [h3, hid]
      · rw [hid] at h4
        exact absurd h4 (r w k hk hid (by unfold Live; rw [hst]; simp))

/-- **C52 (server)**: the function that was given the end has returned (or the server has
panicked), so the call's reply is on its way. -/
theorem C52_ends_with_last (cap : Nat) (ops : List Op) (k : Work)
    (hk : k ∈ (({} : Srv).run cap ops).works) (hl : ∃ x ∈ k.got, x.2 = true) :
    k.st = .ended ∨ k.st = .panicked :=
  closed_run cap ops (by simp [Closed]) k hk hl

example : ∃ k ∈ (({} : Srv).run 5 [.arrive ⟨.begin, 7, 0, 10⟩, .start 0,
    .arrive ⟨.fin, 7, 1, 11⟩, .take 0 true, .take 0 true]).works, ∃ x ∈ k.got, x.2 = true := by
  decide +kernel

/-- Two uploads interleaved with an ordinary call, one function stopping early on an error. -/
def sample : List Op :=
  [.arrive ⟨.begin, 1, 0, 10⟩, .start 0, .other 5, .arrive ⟨.begin, 2, 0, 20⟩, .take 0 true,
   .arrive ⟨.more, 1, 1, 11⟩, .arrive ⟨.more, 2, 1, 21⟩, .start 1, .take 1 true, .take 1 false,
   .take 0 true, .arrive ⟨.more, 1, 2, 12⟩, .cancel 5, .arrive ⟨.fin, 2, 2, 22⟩,
   .arrive ⟨.fin, 1, 3, 13⟩, .unblock, .take 0 true]

/-- The hypotheses are met by a run with two uploads, an ordinary call and a full channel. -/
example : (∀ u, Stream (ofCall u (accepted 2 {} sample))) ∧
    (∀ id, .other id ∈ sample → ∀ p ∈ accepted 2 {} sample, p.callID ≠ id) ∧
    NoEarlyCancel 2 {} sample := by
  have e : accepted 2 {} sample =
    [⟨.begin, 1, 0, 10⟩, ⟨.begin, 2, 0, 20⟩, ⟨.more, 1, 1, 11⟩, ⟨.more, 2, 1, 21⟩,
     ⟨.more, 1, 2, 12⟩, ⟨.fin, 2, 2, 22⟩, ⟨.fin, 1, 3, 13⟩] := by decide +kernel
  refine ⟨?_, ?_, ?_⟩
  · intro u
    rw [e]
    by_cases h1 : u = 1
    · subst h1; exact upload_stream 1 10 [⟨11, false, true⟩, ⟨12, false, true⟩, ⟨13, true, true⟩] (by decide)
    · by_cases h2 : u = 2
      · subst h2; exact upload_stream 2 20 [⟨21, false, true⟩, ⟨22, true, true⟩] (by decide)
      · have : ofCall u [⟨.begin, 1, 0, 10⟩, ⟨.begin, 2, 0, 20⟩, ⟨.more, 1, 1, 11⟩, ⟨.more, 2, 1, 21⟩,
            ⟨.more, 1, 2, 12⟩, ⟨.fin, 2, 2, 22⟩, ⟨.fin, 1, 3, 13⟩] = [] := by
          simp [ofCall, Ne.symm h1, Ne.symm h2]
        rw [this]
        intro i p h
        simp at h
  · intro id hid p hp
    rw [e] at hp
    simp [sample] at hid
    subst hid
    simp at hp
    rcases hp with rfl | rfl | rfl | rfl | rfl | rfl | rfl <;> decide
  · simp only [sample, NoEarlyCancel, EarlyCancel, not_false_eq_true, true_and, and_true]
    rintro ⟨w, k, hk, hid, hq⟩
    have hw : w < 2 := by
      have := (List.getElem?_eq_some_iff.1 hk).1
      exact this
    match w, hw with
    | 0, _ => obtain rfl := Option.some.inj hk; exact absurd hid (by decide +kernel)
    | 1, _ => obtain rfl := Option.some.inj hk; exact absurd hid (by decide +kernel)

/-- What the functions of the two uploads saw. -/
example : ((({} : Srv).run 2 sample).works.map fun k => (k.got, k.st)) =
    [([(⟨.begin, 1, 0, 10⟩, false), (⟨.more, 1, 1, 11⟩, false), (⟨.more, 1, 2, 12⟩, false)], .running),
     ([(⟨.begin, 2, 0, 20⟩, false), (⟨.more, 2, 1, 21⟩, false)], .ended)] := by decide +kernel

/-! ### What the code does not give -/

/-- A part whose send fails (its context was done, say) is a number lost: UploadMore for the
next part works, and the server, seeing the gap, panics. -/
theorem C52_failed_send_counterexample : ∃ ms ops, accepted 10000 {} ops = upload 7 10 ms ∧
    ∃ k ∈ ((({} : Srv).run 10000 ops).works), k.st = .panicked :=
  ⟨[⟨11, false, false⟩, ⟨12, false, true⟩],
   [.arrive ⟨.begin, 7, 0, 10⟩, .start 0, .take 0 true, .arrive ⟨.more, 7, 2, 12⟩, .take 0 true],
   by decide +kernel, by decide +kernel⟩

/-- A cancellation handled before the goroutine of the upload gets to run is forgotten, the
parts that came before are lost, and a later part makes the server panic. -/
theorem C52_early_cancel_counterexample : ∃ ms ops, (∀ m ∈ ms, m.sent = true) ∧
    accepted 10000 {} ops = upload 7 10 ms ∧
    ∃ k ∈ ((({} : Srv).run 10000 ops).works), k.st = .panicked :=
  ⟨[⟨11, false, true⟩, ⟨12, false, true⟩],
   [.arrive ⟨.begin, 7, 0, 10⟩, .arrive ⟨.more, 7, 1, 11⟩, .cancel 7, .start 0,
    .arrive ⟨.more, 7, 2, 12⟩, .take 0 true, .take 0 true],
   by decide, by decide +kernel, by decide +kernel⟩

/-- The read loop holds a message for a full channel that no running goroutine reads. -/
def Wedged (cap : Nat) (s : Srv) : Prop :=
  ∃ c p q, s.blocked = some (some c, p) ∧ s.chans[c]? = some q ∧ cap ≤ q.length ∧
    ∀ (w : Nat) (k : Work), s.works[w]? = some k → k.ch = some c → k.st ≠ .running ∧ k.st ≠ .queued

theorem wedged_step {cap : Nat} {s : Srv} (h : Wedged cap s) (op : Op) :
    Wedged cap (s.step cap op) := by
  obtain ⟨c, p, q, hb, hq, hl, hw⟩ := h
  have hclt : c < s.chans.length := (List.getElem?_eq_some_iff.1 hq).1
  cases op with
  | arrive p' =>
    refine ⟨c, p, q, ?_⟩
    have : s.arrive cap p' = s := by unfold Srv.arrive; rw [if_pos (by simp [hb])]
    simp only [Srv.step, this]
    exact ⟨hb, hq, hl, hw⟩
  | unblock =>
    refine ⟨c, p, q, ?_⟩
    have : s.step cap .unblock = s := by
      simp only [Srv.step, hb, hq]
      rw [if_neg (by omega)]
    rw [this]
    exact ⟨hb, hq, hl, hw⟩
  | start w =>
    simp only [Srv.step]
    split
    case h_2 => exact ⟨c, p, q, hb, hq, hl, hw⟩
    case h_1 k hk =>
    split
    case isFalse => exact ⟨c, p, q, hb, hq, hl, hw⟩
    case isTrue hst =>
    split
    · refine ⟨c, p, q, hb, hq, hl, ?_⟩
      intro w' x hx hc
      dsimp only at hx
      rw [List.getElem?_set] at hx
      split at hx
      · split at hx
        · obtain rfl := Option.some.inj hx
          exact absurd hst (hw w k hk hc).2
        · exact absurd hx (by simp)
      · exact hw w' x hx hc
    · refine ⟨c, p, q, hb, by dsimp only; rw [List.getElem?_append_left hclt]; exact hq, hl, ?_⟩
      intro w' x hx hc
      dsimp only at hx
      rw [List.getElem?_set] at hx
      split at hx
      · split at hx
        · obtain rfl := Option.some.inj hx
          simp only [Option.some.injEq] at hc
          omega
        · exact absurd hx (by simp)
      · exact hw w' x hx hc
  | take w ok =>
    simp only [Srv.step]
    split
    case h_2 => exact ⟨c, p, q, hb, hq, hl, hw⟩
    case h_1 k hk =>
    split
    case isFalse => exact ⟨c, p, q, hb, hq, hl, hw⟩
    case isTrue hst =>
    have hne : k.ch ≠ some c := fun hc => (hw w k hk hc).1 hst
    have set : ∀ (k' : Work) (w' : Nat) (x : Work), k'.ch = k.ch → (s.works.set w k')[w']? = some x →
        x.ch = some c → x.st ≠ .running ∧ x.st ≠ .queued := by
      intro k' w' x hk' hx hc
      rw [List.getElem?_set] at hx
      split at hx
      · split at hx
        · obtain rfl := Option.some.inj hx
          exact absurd (hk'.symm.trans hc) hne
        · exact absurd hx (by simp)
      · exact hw w' x hx hc
    unfold Srv.take
    split
    case h_1 => exact ⟨c, p, q, hb, hq, hl, hw⟩
    case h_2 c' hc' =>
    have hcc : c' ≠ c := by rintro rfl; exact hne hc'
    split
    case h_2 => exact ⟨c, p, q, hb, hq, hl, hw⟩
    case h_1 p' q' hq' =>
    have hq2 : (s.chans.set c' q')[c]? = some q := by
      rw [List.getElem?_set, if_neg hcc]; exact hq
    dsimp only
    split
    · exact ⟨c, p, q, hb, hq2, hl, fun w' x hx hc => set { k with st := .panicked } w' x rfl hx hc⟩
    · split
      · exact ⟨c, p, q, hb, hq2, hl, fun w' x hx hc => set
          { k with got := k.got ++ [(p', decide (p'.typ = .fin))], st := .ended } w' x rfl hx hc⟩
      · exact ⟨c, p, q, hb, hq2, hl, fun w' x hx hc => set
          { k with got := k.got ++ [(p', decide (p'.typ = .fin))] } w' x rfl hx hc⟩
  | ctxDone w =>
    simp only [Srv.step]
    split
    case h_2 => exact ⟨c, p, q, hb, hq, hl, hw⟩
    case h_1 k hk =>
    split
    case isFalse => exact ⟨c, p, q, hb, hq, hl, hw⟩
    case isTrue hst =>
    refine ⟨c, p, q, hb, hq, hl, ?_⟩
    intro w' x hx hc
    dsimp only at hx
    rw [List.getElem?_set] at hx
    split at hx
    · split at hx
      · obtain rfl := Option.some.inj hx
        exact absurd hst (hw w k hk hc).1
      · exact absurd hx (by simp)
    · exact hw w' x hx hc
  | other id =>
    simp only [Srv.step]
    split
    · exact ⟨c, p, q, hb, hq, hl, hw⟩
    · exact ⟨c, p, q, hb, hq, hl, hw⟩
  | cancel id => exact ⟨c, p, q, hb, hq, hl, hw⟩

/-- Once it holds such a message it never reads from the connection again, whatever the server
does: not even a cancellation sent by the client gets through. -/
theorem C52_full_channel_wedges_connection (cap : Nat) (s : Srv) (h : Wedged cap s)
    (ops : List Op) : (s.run cap ops).blocked ≠ none ∧ accepted cap s ops = [] := by
  induction ops generalizing s with
  | nil => obtain ⟨c, p, q, hb, _⟩ := h; exact ⟨by simp [Srv.run, hb], rfl⟩
  | cons op t ih =>
    obtain ⟨h1, h2⟩ := ih _ (wedged_step h op)
    refine ⟨h1, ?_⟩
    rw [accepted_cons, h2, List.append_nil]
    obtain ⟨c, p, q, hb, _⟩ := h
    cases op <;> simp [accepted, hb]

/-- It happens (here with room for two messages; 10000 in the code) when the context of an
upload ends (its deadline, say) while the read loop waits for room. -/
theorem C52_wedge_counterexample : ∃ ops, accepted 2 {} ops = upload 7 10
      [⟨11, false, true⟩, ⟨12, false, true⟩, ⟨13, false, true⟩] ∧
    Wedged 2 (({} : Srv).run 2 ops) := by
  refine ⟨[.arrive ⟨.begin, 7, 0, 10⟩, .start 0, .arrive ⟨.more, 7, 1, 11⟩,
    .arrive ⟨.more, 7, 2, 12⟩, .take 0 true, .unblock, .arrive ⟨.more, 7, 3, 13⟩, .ctxDone 0],
    by decide +kernel, 0, ⟨.more, 7, 3, 13⟩, [⟨.more, 7, 1, 11⟩, ⟨.more, 7, 2, 12⟩],
    by decide +kernel, by decide +kernel, by decide, ?_⟩
  intro w k hk _
  have hw : w < 1 := (List.getElem?_eq_some_iff.1 hk).1
  match w, hw with
  | 0, _ => obtain rfl := Option.some.inj hk; decide +kernel

end Verif.Upload
