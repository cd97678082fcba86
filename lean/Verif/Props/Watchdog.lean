import Verif.Model.Watchdog

/-! C142: the watchdog of a circuit. -/

namespace Verif.Watchdog

variable (down : Nat)

/-- The address of the latest request. -/
def requested : List Event → Option String
  | [] => none
  | .request a :: es => match requested es with | none => some a | some b => some b
  | _ :: es => requested es

/-- How many requests there are. -/
def requests (es : List Event) : Nat := (es.filter fun e => match e with | .request _ => true | _ => false).length

theorem pack_step (s : St) (e : Event) (h : s.pack = none) : (step down s e).pack = none := by
  cases e with
  | hear t => exact h
  | request a => exact h
  | round now ok =>
    simp only [step, round]
    split
    · exact h
    · unfold after reconnect
      repeat (first | exact h | split)
  | tick now ok =>
    simp only [step, tick, h]

theorem pack_run (s : St) (es : List Event) (h : s.pack = none) : (run down s es).pack = none := by
  induction es generalizing s with
  | nil => exact h
  | cons e es ih => exact ih _ (pack_step down s e h)

theorem tick_none (s : St) (now : Nat) (ok : Bool) (h : s.pack = none) : tick down s now ok = s := by
  unfold tick
  rw [h]

theorem run_append (s : St) (es fs : List Event) : run down s (es ++ fs) = run down (run down s es) fs := by
  unfold run
  rw [List.foldl_append]

/-- Events without a round keep all but the time heard and the request. -/
theorem quiet_run (s : St) (es : List Event) (h : s.pack = none)
    (hes : ∀ e ∈ es, ∀ now ok, e ≠ .round now ok) :
    ∃ t, run down s es = { s with heard := t, req := (requested es).or s.req } := by
  induction es generalizing s with
  | nil => exact ⟨s.heard, rfl⟩
  | cons e es ih =>
    obtain ⟨t, ht⟩ := ih (step down s e) (pack_step down s e h) (fun x hx => hes x (List.mem_cons_of_mem _ hx))
    have hr : run down s (e :: es) = run down (step down s e) es := rfl
    rw [hr, ht]
    cases e with
    | hear u => exact ⟨t, rfl⟩
    | request a =>
      refine ⟨t, ?_⟩
      simp only [step, requested]
      cases requested es <;> rfl
    | round now ok => exact absurd rfl (hes _ (by simp) now ok)
    | tick now ok =>
      refine ⟨t, ?_⟩
      simp only [step, tick_none down s now ok h, requested]

/-- A reconnection that is asked for is tried at the next round of the loop, once, and the latest
request if there are several; the peer counts as up exactly if that succeeds. -/
theorem C142_request_tried (ckt : Bool) (t0 : Nat) (es fs : List Event) (addr : String) (now : Nat) (ok : Bool)
    (ha : addr ≠ "" ∧ addr ≠ "pending") (hfs : ∀ e ∈ fs, ∀ n o, e ≠ .round n o)
    (hreq : requested fs = none) :
    let s := run down (init ckt t0) es
    let s' := run down (init ckt t0) (es ++ .request addr :: (fs ++ [.round now ok]))
    s'.tries = s.tries ++ [⟨now, addr, ok⟩] ∧ s'.up = ok ∧ s'.req = none ∧ s'.lastTry = now ∧
      (ok = true → s'.last = now ∧ now ≤ s'.heard) := by
  intro s s'
  have hp : s.pack = none := pack_run down _ es rfl
  have hs' : s' = step down (run down (step down s (.request addr)) fs) (.round now ok) := by
    show run down (init ckt t0) (es ++ ([.request addr] ++ (fs ++ [.round now ok]))) = _
    rw [run_append, run_append, run_append]
    rfl
  obtain ⟨t, ht⟩ := quiet_run down (step down s (.request addr)) fs hp hfs
  rw [hs', ht, hreq]
  simp only [step, round, Option.or]
  unfold after reconnect
  rw [if_neg (by simp [ha.1, ha.2])]
  cases ok
  · refine ⟨rfl, rfl, rfl, rfl, fun h => nomatch h⟩
  · refine ⟨rfl, rfl, rfl, rfl, fun _ => ⟨rfl, ?_⟩⟩
    exact Nat.le_max_right _ _

/-- Whether the peer counts as up is the result of the latest try, or before the first one whether
there was a circuit. Partial: all requests have an address (`C142_no_address_counterexample`). -/
theorem C142_up_is_latest_try_partial (ckt : Bool) (t0 : Nat) (es : List Event)
    (h : ∀ a, Event.request a ∈ es → a ≠ "" ∧ a ≠ "pending") :
    (run down (init ckt t0) es).up =
      match (run down (init ckt t0) es).tries.getLast? with
      | none => ckt
      | some t => t.ok := by
  have key : ∀ (es : List Event) (s : St), (∀ a, Event.request a ∈ es → a ≠ "" ∧ a ≠ "pending") →
      s.pack = none → (∀ a, s.req = some a → a ≠ "" ∧ a ≠ "pending") →
      (s.up = match s.tries.getLast? with | none => ckt | some t => t.ok) →
      (run down s es).up = match (run down s es).tries.getLast? with | none => ckt | some t => t.ok := by
    intro es
    induction es with
    | nil => exact fun s _ _ _ h => h
    | cons e es ih =>
      intro s hes hp hr hu
      refine ih (step down s e) (fun a ha => hes a (List.mem_cons_of_mem _ ha)) (pack_step down s e hp) ?_ ?_
      · cases e with
        | hear t => exact hr
        | request a =>
          intro b hb
          cases hb
          exact hes a (by simp)
        | round now ok =>
          simp only [step, round]
          split
          · exact hr
          · rename_i a _
            intro b hb
            have : (after (reconnect { s with req := none } a now ok) now).req = none := by
              unfold after reconnect
              split
              · rfl
              · split <;> rfl
            rw [this] at hb
            cases hb
        | tick now ok =>
          simp only [step, tick_none down s now ok hp]
          exact hr
      · cases e with
        | hear t => exact hu
        | request a => exact hu
        | round now ok =>
          simp only [step, round]
          split
          · exact hu
          · rename_i a ha
            have h2 := hr a ha
            unfold after reconnect
            rw [if_neg (by simp [h2.1, h2.2])]
            cases ok <;> simp
        | tick now ok =>
          simp only [step, tick_none down s now ok hp]
          exact hu
  exact key es (init ckt t0) h rfl (fun _ h => nomatch h) rfl

/-- The time the peer was last heard from never goes back, and is not before any message. -/
theorem C142_heard_forward (ckt : Bool) (t0 : Nat) (es fs : List Event) :
    (run down (init ckt t0) es).heard ≤ (run down (init ckt t0) (es ++ fs)).heard ∧
    ∀ t, Event.hear t ∈ es → t ≤ (run down (init ckt t0) es).heard := by
  have one : ∀ (s : St) (e : Event), s.heard ≤ (step down s e).heard := by
    intro s e
    cases e with
    | hear t => exact Nat.le_max_left _ _
    | request a => exact Nat.le_refl _
    | round now ok =>
      simp only [step, round]
      split
      · exact Nat.le_refl _
      · unfold after reconnect
        split
        · exact Nat.le_refl _
        · split
          · exact Nat.le_max_left _ _
          · exact Nat.le_refl _
    | tick now ok =>
      simp only [step, tick]
      split
      · exact Nat.le_refl _
      · split
        · exact Nat.le_refl _
        · split
          · exact Nat.le_refl _
          · unfold after reconnect
            split
            · exact Nat.le_refl _
            · split
              · exact Nat.le_max_left _ _
              · exact Nat.le_refl _
  have many : ∀ (es : List Event) (s : St), s.heard ≤ (run down s es).heard := by
    intro es
    induction es with
    | nil => exact fun _ => Nat.le_refl _
    | cons e es ih => exact fun s => Nat.le_trans (one s e) (ih _)
  refine ⟨by rw [run_append]; exact many fs _, fun t ht => ?_⟩
  obtain ⟨as, bs, rfl⟩ := List.append_of_mem ht
  rw [run_append]
  refine Nat.le_trans ?_ (many bs _)
  exact Nat.le_max_right _ _

/-- The time heard is one at which something was heard: a message, or a try that succeeded. -/
theorem C142_heard_true (ckt : Bool) (t0 : Nat) (es : List Event) :
    (run down (init ckt t0) es).heard = 0 ∨ Event.hear (run down (init ckt t0) es).heard ∈ es ∨
      ∃ t ∈ (run down (init ckt t0) es).tries, t.ok = true ∧ t.time = (run down (init ckt t0) es).heard := by
  have maxc : ∀ a b : Nat, max a b = a ∨ max a b = b := by intro a b; omega
  have key : ∀ (es pre : List Event) (s : St), s.pack = none →
      (s.heard = 0 ∨ Event.hear s.heard ∈ pre ∨ ∃ t ∈ s.tries, t.ok = true ∧ t.time = s.heard) →
      ((run down s es).heard = 0 ∨ Event.hear (run down s es).heard ∈ pre ++ es ∨
        ∃ t ∈ (run down s es).tries, t.ok = true ∧ t.time = (run down s es).heard) := by
    intro es
    induction es with
    | nil => intro pre s _ h; rw [List.append_nil]; exact h
    | cons e es ih =>
      intro pre s hp h
      have h2 := ih (pre ++ [e]) (step down s e) (pack_step down s e hp) ?_
      · rw [List.append_assoc] at h2; exact h2
      · have grow : s.heard = 0 ∨ Event.hear s.heard ∈ pre ++ [e] ∨ ∃ t ∈ s.tries, t.ok = true ∧ t.time = s.heard := by
          rcases h with h | h | h
          · exact .inl h
          · exact .inr (.inl (by simp [h]))
          · exact .inr (.inr h)
        cases e with
        | hear t =>
          simp only [step]
          rcases maxc s.heard t with h1 | h1 <;> rw [h1]
          · exact grow
          · exact .inr (.inl (by simp))
        | request a => exact grow
        | round now ok =>
          simp only [step, round]
          split
          · exact grow
          · unfold after reconnect
            split
            · exact grow
            · split
              · simp only
                rcases maxc s.heard now with h1 | h1 <;> rw [h1]
                · rcases grow with h | h | ⟨t, h, h'⟩
                  · exact .inl h
                  · exact .inr (.inl h)
                  · exact .inr (.inr ⟨t, by simp [h], h'⟩)
                · exact .inr (.inr ⟨⟨now, _, true⟩, List.mem_append_right _ (List.mem_singleton.2 rfl), rfl, rfl⟩)
              · simp only
                rcases grow with h | h | ⟨t, h, h'⟩
                · exact .inl h
                · exact .inr (.inl h)
                · exact .inr (.inr ⟨t, by simp [h], h'⟩)
        | tick now ok =>
          simp only [step, tick_none down s now ok hp]
          exact grow
  simpa using key es [] (init ckt t0) rfl (.inl rfl)

/-- Nothing is tried that was not asked for: at most one try for each request, whatever the time
that has passed and however many ticks. So the tick never reconnects a silent peer. -/
theorem C142_silent_counterexample (ckt : Bool) (t0 : Nat) (es : List Event) :
    (run down (init ckt t0) es).tries.length ≤ requests es ∧
    (requests es = 0 → (run down (init ckt t0) es).tries = [] ∧ (run down (init ckt t0) es).up = ckt) := by
  have key : ∀ (es : List Event) (s : St), s.pack = none →
      (run down s es).tries.length + (run down s es).req.toList.length ≤
        s.tries.length + s.req.toList.length + requests es ∧
      (requests es = 0 → s.req = none → (run down s es).tries = s.tries ∧ (run down s es).up = s.up) := by
    intro es
    induction es with
    | nil => exact fun s _ => ⟨Nat.le_refl _, fun _ _ => ⟨rfl, rfl⟩⟩
    | cons e es ih =>
      intro s hp
      obtain ⟨h1, h2⟩ := ih (step down s e) (pack_step down s e hp)
      have hr : run down s (e :: es) = run down (step down s e) es := rfl
      rw [hr]
      cases e with
      | hear t => exact ⟨h1, h2⟩
      | request a =>
        have hq : requests (.request a :: es) = requests es + 1 := by simp [requests]
        rw [hq]
        refine ⟨?_, fun h => by omega⟩
        simp only [step] at h1 ⊢
        simp only [Option.toList_some, List.length_singleton] at h1
        omega
      | round now ok =>
        have hq : requests (.round now ok :: es) = requests es := by simp [requests]
        rw [hq]
        constructor
        · refine Nat.le_trans h1 ?_
          simp only [step, round]
          split
          · exact Nat.le_refl _
          · rename_i a ha
            rw [ha]
            unfold after reconnect
            split
            · simp
            · split <;> simp
        · intro h3 h4
          have : step down s (.round now ok) = s := by simp only [step, round, h4]
          rw [this] at h2 ⊢
          exact h2 h3 h4
      | tick now ok =>
        have hq : requests (.tick now ok :: es) = requests es := by simp [requests]
        rw [hq]
        have : step down s (.tick now ok) = s := tick_none down s now ok hp
        rw [this] at h1 h2 ⊢
        exact ⟨h1, h2⟩
  obtain ⟨h1, h2⟩ := key es (init ckt t0) rfl
  refine ⟨?_, fun h => h2 h rfl⟩
  have : (init ckt t0).tries.length + (init ckt t0).req.toList.length = 0 := rfl
  omega

/-- A request without an address, or with a pending one, makes a peer count as down that is up and
was just heard from, without a try. -/
theorem C142_no_address_counterexample (ckt : Bool) (t0 : Nat) (es : List Event) (addr : String)
    (ha : addr = "" ∨ addr = "pending") (now : Nat) (ok : Bool) :
    let s := run down (init ckt t0) es
    let s' := run down (init ckt t0) (es ++ [.hear now, .request addr, .round now ok])
    s'.up = false ∧ s'.tries = s.tries ∧ now ≤ s'.heard := by
  intro s s'
  have hs' : s' = round { s with heard := max s.heard now, req := some addr } now ok := by
    show run down _ (es ++ _) = _
    rw [run_append]
    rfl
  rw [hs']
  simp only [round]
  unfold after reconnect
  rw [if_pos ha]
  exact ⟨rfl, rfl, Nat.le_max_right _ _⟩

/-- A peer that is up, silent for an hour with a tick every two seconds (three shown), and then a
request that fails and one that succeeds. -/
example :
    let quiet := run 5 (init true 10) [.hear 12, .tick 2000000000 true, .tick 4000000000 true, .tick 3600000000000 true]
    (quiet.up = true ∧ quiet.tries = [] ∧ recompute 5 quiet 3600000000000 = false) ∧
    (run 5 quiet [.request "a", .request "b", .hear 13, .round 20 false, .request "b", .round 30 true]).tries =
      [⟨20, "b", false⟩, ⟨30, "b", true⟩] := by decide

/-- The hypotheses of `C142_request_tried` and `C142_up_is_latest_try_partial`. -/
example : (∀ e ∈ [Event.hear 4, .tick 9 true], ∀ n o, e ≠ .round n o) ∧
    requested [Event.hear 4, .tick 9 true] = none ∧
    (∀ a, Event.request a ∈ [Event.request "b", .hear 4] → a ≠ "" ∧ a ≠ "pending") := by
  refine ⟨?_, rfl, ?_⟩
  · intro e he n o
    simp only [List.mem_cons, List.not_mem_nil, or_false] at he
    rcases he with rfl | rfl <;> exact fun h => nomatch h
  · intro a ha
    simp only [List.mem_cons, List.not_mem_nil, or_false, Event.request.injEq, reduceCtorEq] at ha
    subst ha
    decide

end Verif.Watchdog
