import Verif.Model.NetRpc
/-
C63: net/rpc style calls return the result of their own arguments.
-/
namespace Verif.NetRpc

/-- As long as no call has timed out or been cancelled, the goroutines of one connection do
not overlap: all but the last are finished, and the buffers belong to the last. -/
structure Inv (f : Nat → Nat) (s : Sys) : Prop where
  old : ∀ w (x : Worker), s.workers[w]? = some x → s.waiting ≠ some w → x.pc = .sent
  cur : ∀ w, s.waiting = some w → ∃ x : Worker, s.workers[w]? = some x ∧ s.pending = [w] ∧
    (x.pc = .start ∧ s.replies = [] ∨
     x.pc = .loaded ∧ s.replies = [] ∧ s.enc = [] ∧ s.dec = some (w, x.arg) ∨
     x.pc = .run ∧ s.replies = [] ∧ s.enc = [] ∧ x.seq = w ∧ x.val = f x.arg ∨
     x.pc = .wrote ∧ s.replies = [] ∧ s.enc = [(w, f x.arg)] ∨
     x.pc = .sent ∧ s.replies = [(w, [(w, f x.arg)])])
  idle : s.waiting = none → s.pending = [] ∧ s.replies = []
  res : ∀ h r, (h, r) ∈ s.results → ∃ x : Worker, s.workers[h]? = some x ∧ r = .ok (f x.arg)
  all : ∀ h < s.workers.length, s.waiting = some h ∨ ∃ r, (h, r) ∈ s.results
  fine : s.panicked = false

theorem set_cur {f s} (i : Inv f s) {w : Nat} (hw : s.waiting = some w) {x y : Worker}
    (hx : s.workers[w]? = some x) (ha : y.arg = x.arg) {s' : Sys}
    (e1 : s'.workers = s.workers.set w y) (e2 : s'.waiting = s.waiting)
    (e3 : s'.pending = s.pending) (e4 : s'.results = s.results) (e5 : s'.panicked = s.panicked)
    (hy : y.pc = .start ∧ s'.replies = [] ∨
     y.pc = .loaded ∧ s'.replies = [] ∧ s'.enc = [] ∧ s'.dec = some (w, y.arg) ∨
     y.pc = .run ∧ s'.replies = [] ∧ s'.enc = [] ∧ y.seq = w ∧ y.val = f y.arg ∨
     y.pc = .wrote ∧ s'.replies = [] ∧ s'.enc = [(w, f y.arg)] ∨
     y.pc = .sent ∧ s'.replies = [(w, [(w, f y.arg)])]) : Inv f s' := by
  have hl : w < s.workers.length := (List.getElem?_eq_some_iff.1 hx).1
  have hp : s.pending = [w] := by obtain ⟨_, _, h, _⟩ := i.cur w hw; exact h
  exact {
    old := by
      intro w' z hz hne
      rw [e1, List.getElem?_set] at hz
      rw [e2] at hne
      have : w ≠ w' := by rintro rfl; exact hne hw
      simp only [if_neg this] at hz
      exact i.old w' z hz hne
    cur := by
      intro w' hw'
      rw [e2, hw] at hw'
      obtain rfl := Option.some.inj hw'
      exact ⟨y, by rw [e1, List.getElem?_set]; simp [hl], by rw [e3, hp], hy⟩
    idle := by intro h; rw [e2, hw] at h; exact absurd h (by simp)
    res := by
      intro h r hr
      rw [e4] at hr
      obtain ⟨z, hz, e⟩ := i.res h r hr
      rw [e1]
      by_cases e' : w = h
      · subst e'
        rw [hx] at hz
        obtain rfl := Option.some.inj hz
        exact ⟨y, by simp [hl], by rw [e, ha]⟩
      · exact ⟨z, by rw [List.getElem?_set]; simp [e', hz], e⟩
    all := by
      intro h hh
      rw [e1, List.length_set] at hh
      rw [e2, e4]
      exact i.all h hh
    fine := by rw [e5]; exact i.fine }

theorem inv_step {f s} (i : Inv f s) (op : Op) (hop : op ≠ .timeout) : Inv f (s.step f op) := by
  cases op with
  | timeout => exact absurd rfl hop
  | call arg =>
    simp only [Sys.step]
    split
    case isFalse => exact i
    case isTrue hw =>
    have hp := i.idle hw
    exact {
      old := by
        intro w x hx hne
        dsimp only at hx hne
        rw [List.getElem?_append] at hx
        split at hx
        · exact i.old w x hx (by rw [hw]; simp)
        · rename_i hge
          by_cases e : w = s.workers.length
          · exact absurd (by rw [e]) hne
          · rw [List.getElem?_eq_none (by simp; omega)] at hx
            exact absurd hx (by simp)
      cur := by
        intro w hw'
        dsimp only at hw' ⊢
        obtain rfl := Option.some.inj hw'
        exact ⟨{ arg }, by simp, by rw [hp.1]; rfl, .inl ⟨rfl, hp.2⟩⟩
      idle := by intro h; exact absurd h (by simp)
      res := by
        intro h r hr
        obtain ⟨x, hx, e⟩ := i.res h r hr
        exact ⟨x, by
          dsimp only
          rw [List.getElem?_append_left (List.getElem?_eq_some_iff.1 hx).1]; exact hx, e⟩
      all := by
        intro h hh
        simp only [List.length_append, List.length_singleton] at hh
        by_cases e : h = s.workers.length
        · exact .inl (by rw [e])
        · rcases i.all h (by omega) with h' | h'
          · rw [hw] at h'; exact absurd h' (by simp)
          · exact .inr h'
      fine := i.fine }
  | work w =>
    simp only [Sys.step]
    cases hx : s.workers[w]? with
    | none => exact i
    | some x =>
      dsimp only
      by_cases hw : s.waiting = some w
      · obtain ⟨x', hx', hp, hc⟩ := i.cur w hw
        rw [hx] at hx'
        obtain rfl := Option.some.inj hx'
        unfold Sys.work
        rcases hc with ⟨e, h1⟩ | ⟨e, h1, h2, h3⟩ | ⟨e, h1, h2, h3, h4⟩ | ⟨e, h1, h2⟩ | ⟨e, h1⟩
        all_goals simp only [e]
        · exact set_cur i hw hx (y := { x with pc := .loaded }) rfl rfl rfl rfl rfl rfl
            (.inr (.inl ⟨rfl, h1, rfl, rfl⟩))
        · rw [h3]
          exact set_cur i hw hx (y := { x with pc := .run, seq := w, val := f x.arg })
            rfl rfl rfl rfl rfl rfl
            (.inr (.inr (.inl ⟨rfl, h1, h2, rfl, rfl⟩)))
        · exact set_cur i hw hx (y := { x with pc := .wrote }) rfl rfl rfl rfl rfl rfl
            (.inr (.inr (.inr (.inl ⟨rfl, h1, by simp [h2, h3, h4]⟩))))
        · exact set_cur i hw hx (y := { x with pc := .sent }) rfl rfl rfl rfl rfl rfl
            (.inr (.inr (.inr (.inr ⟨rfl, by simp [h1, h2]⟩))))
        · exact i
      · have := i.old w x hx hw
        unfold Sys.work
        simp only [this]
        exact i
  | deliver j =>
    simp only [Sys.step]
    cases hr : s.replies[j]? with
    | none => exact i
    | some p =>
      obtain ⟨h, by_⟩ := p
      dsimp only
      cases hw : s.waiting with
      | none =>
        rw [(i.idle hw).2] at hr
        exact absurd hr (by simp)
      | some w =>
        obtain ⟨x, hx, hp, hc⟩ := i.cur w hw
        have hrep : s.replies = [(w, [(w, f x.arg)])] := by
          rcases hc with ⟨_, h1⟩ | ⟨_, h1, _⟩ | ⟨_, h1, _⟩ | ⟨_, h1, _⟩ | ⟨_, h1⟩
          all_goals first
            | exact h1
            | (rw [h1] at hr; exact absurd hr (by simp))
        have hsent : x.pc = .sent := by
          rcases hc with ⟨_, h1⟩ | ⟨_, h1, _⟩ | ⟨_, h1, _⟩ | ⟨_, h1, _⟩ | ⟨h1, _⟩
          all_goals first
            | exact h1
            | (rw [h1] at hr; exact absurd hr (by simp))
        rw [hrep] at hr
        have hj : j = 0 := by
          rcases Nat.eq_zero_or_pos j with h | h
          · exact h
          · rw [List.getElem?_eq_none (by simp; omega)] at hr; exact absurd hr (by simp)
        subst hj
        simp only [List.getElem?_cons_zero, Option.some.injEq, Prod.mk.injEq] at hr
        obtain ⟨rfl, rfl⟩ := hr
        simp only [if_true, Sys.input, hp, List.mem_singleton]
        exact {
          old := by
            intro w' z hz _
            dsimp only at hz
            by_cases e : w = w'
            · subst e
              rw [hx] at hz
              exact Option.some.inj hz ▸ hsent
            · exact i.old w' z hz (by rw [hw]; simpa using e)
          cur := by intro w' hw'; exact absurd hw' (by simp)
          idle := by intro _; simp [hrep]
          res := by
            intro h r hr
            simp only [List.mem_append, List.mem_singleton, Prod.mk.injEq] at hr
            rcases hr with hr | ⟨rfl, rfl⟩
            · exact i.res h r hr
            · exact ⟨x, hx, rfl⟩
          all := by
            intro h hh
            right
            dsimp only at hh ⊢
            rcases i.all h hh with h' | ⟨r, h'⟩
            · rw [hw] at h'
              obtain rfl := Option.some.inj h'
              exact ⟨.ok (f x.arg), by simp⟩
            · exact ⟨r, by simp [h']⟩
          fine := i.fine }

theorem inv_run {f} (ops : List Op) (hops : Op.timeout ∉ ops) : ∀ {s}, Inv f s → Inv f (s.run f ops) := by
  induction ops with
  | nil => exact fun h => h
  | cons op t ih =>
    intro s i
    simp only [List.mem_cons, not_or] at hops
    exact ih hops.2 (inv_step i op (Ne.symm hops.1))

/-- While no call times out or is cancelled: every call that returned returned the method's
result for its own argument, whatever the method and however the server's goroutines are
scheduled; and once SendAndGetReply has returned the call has completed. -/
theorem C63_own_result_partial (f : Nat → Nat) (ops : List Op) (hops : Op.timeout ∉ ops) :
    (∀ h r, (h, r) ∈ (Sys.run f {} ops).results →
      ∃ x : Worker, (Sys.run f {} ops).workers[h]? = some x ∧ r = .ok (f x.arg)) ∧
    (∀ h < (Sys.run f {} ops).workers.length,
      (Sys.run f {} ops).waiting = some h ∨ ∃ r, (h, r) ∈ (Sys.run f {} ops).results) ∧
    (Sys.run f {} ops).panicked = false := by
  have i : Inv f (Sys.run f {} ops) := inv_run ops hops
    ⟨by simp, by simp, by simp, by simp, by simp, rfl⟩
  exact ⟨i.res, i.all, i.fine⟩

example : (Sys.run (· * 2) {} [.call 5, .work 0, .work 0, .work 0, .work 0, .deliver 0,
    .call 6, .work 1, .work 0, .work 1, .work 1, .work 1, .deliver 0]).results =
    [(0, .ok 10), (1, .ok 12)] := by decide +kernel

/-- What the code does not keep. Call 0 times out while its method is still running. Call 1's
goroutine resets the shared buffer, then call 0's response lands in it, and call 1's after
it. The client reads the first response of the message, finds that call 0 is gone, and drops
it: call 1 never returns, although its reply has arrived. -/
theorem C63_after_timeout_counterexample :
    let s := Sys.run (· * 2) {} [.call 5, .work 0, .work 0, .timeout, .call 6, .work 1, .work 0,
      .work 1, .work 1, .work 1, .deliver 0]
    s.waiting = none ∧ s.replies = [] ∧ (∀ r, (1, r) ∉ s.results) ∧ s.pending = [1] := by
  refine ⟨by decide +kernel, by decide +kernel, ?_, by decide +kernel⟩
  rw [show (Sys.run (· * 2) {} [.call 5, .work 0, .work 0, .timeout, .call 6, .work 1, .work 0,
      .work 1, .work 1, .work 1, .deliver 0]).results = [(0, .error)] from by decide +kernel]
  simp

/-- Nor is a request always decoded by its own goroutine: here call 0's takes call 1's
request, and call 1's finds nothing and sends no answer. -/
theorem C63_swapped_request_counterexample :
    let s := Sys.run (· * 2) {} [.call 5, .work 0, .timeout, .call 6, .work 1, .work 0, .work 1]
    s.workers = [⟨5, .run, 1, 12⟩, ⟨6, .failed, 0, 0⟩] ∧ s.waiting = some 1 := by
  decide +kernel

end Verif.NetRpc
