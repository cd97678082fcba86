import Verif.Proofs.TicketExt
/-
C114-C118: client requests in the cluster.
-/
namespace Verif.Ticket

/-- Node 1 is elected; a request made on node 0 is forwarded to it, another is made on node 1; both are logged
and applied, the answer travels back, node 0 follows. -/
def exRun : List Ev :=
  [.elect 1 1 false, .commit 1 1, .learn 0 1, .submit 0 true true false, .deliver 0, .submit 1 true true false,
   .flush 1 false, .commit 1 2, .deliver 0, .receive 0 0 [(1, .noop 1 1), (1, .req 0), (1, .req 1)], .commit 0 3]

/-! ### C114 -/

/-- One request stands, in all logs and at all times, at one index and with one term only. -/
theorem C114_one_place (es fs : List Ev) (n m : Nid) (i j T U : Nat) (t : Req)
    (h : At (run init es) n i T t) (h' : At (run init (es ++ fs)) m j U t) : i = j ∧ T = U := by
  obtain ⟨hi, e, he, heT, heq⟩ := h
  obtain ⟨hj, e', he', heT', heq'⟩ := h'
  obtain ⟨loc, hI⟩ := inv_run es
  obtain ⟨loc', hI'⟩ := inv_run (es ++ fs)
  obtain ⟨p, hp, hp1, hp2, hp3⟩ := hI.ent n _ e he
  obtain ⟨q, hq, hq1, hq2, hq3⟩ := hI'.ent m _ e' he'
  have hp' : p ∈ (run init (es ++ fs)).logged := by
    rw [run_append]; exact (ext_run fs _).log.subset hp
  have := hI'.unique hp' hq (hp3.trans heq) (hq3.trans heq')
  subst this
  exact ⟨by omega, by rw [← heT, ← heT', ← hp2, ← hq2]⟩

example : At (run init exRun) 0 2 1 0 ∧ At (run init exRun) 1 2 1 0 ∧ At (run init exRun) 1 3 1 1 :=
  ⟨⟨by decide, ⟨1, .req 0, false⟩, by decide +kernel, rfl, rfl⟩, ⟨by decide, ⟨1, .req 0, false⟩, by decide +kernel, rfl, rfl⟩,
   ⟨by decide, ⟨1, .req 1, true⟩, by decide +kernel, rfl, rfl⟩⟩

/-- No node applies a request twice. -/
theorem C114_applied_once (es : List Ev) (n : Nid) (t : Req) :
    ((run init es).did.filter fun x => x.1 == n && x.2.2 == t).length ≤ 1 := by
  obtain ⟨loc, h⟩ := inv_run es
  have hidx : ∀ x ∈ (run init es).did, ∀ y ∈ (run init es).did, x.2.2 = y.2.2 → x.2.1 = y.2.1 := by
    intro x hx y hy hxy
    obtain ⟨hx0, _, e, he, hq⟩ := h.did x hx
    obtain ⟨hy0, _, e', he', hq'⟩ := h.did y hy
    obtain ⟨p, hp, hp1, _, hp3⟩ := h.ent _ _ e he
    obtain ⟨q, hq1, hq2, _, hq3⟩ := h.ent _ _ e' he'
    have := h.unique hp hq1 (hp3.trans hq) (hq3.trans (by rw [hxy]; exact hq'))
    subst this
    omega
  have h1 := h.did1
  revert h1 hidx
  generalize (run init es).did = l
  intro hidx h1
  induction l with
  | nil => simp
  | cons x l ih =>
    rw [List.pairwise_cons] at h1
    have ih := ih (fun a ha b hb => hidx a (List.mem_cons_of_mem _ ha) b (List.mem_cons_of_mem _ hb)) h1.2
    rw [List.filter_cons]
    split
    · rename_i hx
      rw [Bool.and_eq_true] at hx
      have : (l.filter fun x => x.1 == n && x.2.2 == t) = [] := by
        rw [List.filter_eq_nil_iff]
        intro y hy hyt
        rw [Bool.and_eq_true] at hyt
        refine h1.1 y hy ?_ (hidx x (List.mem_cons_self ..) y (List.mem_cons_of_mem _ hy) ?_)
        · rw [beq_iff_eq.1 hx.1, beq_iff_eq.1 hyt.1]
        · rw [beq_iff_eq.1 hx.2, beq_iff_eq.1 hyt.2]
      rw [this]; simp
    · exact ih

example : (run init exRun).did = [(1, 2, 0), (1, 3, 1), (0, 2, 0), (0, 3, 1)] := by decide +kernel

/-! ### C115 -/

/-- A call that returns with success: the request stands at the index reported in what some node has applied. -/
theorem C115_success (es : List Ev) (t : Req) (i : Nat) (h : ((run init es).callers t).ans = some (.ok i)) :
    ∃ n T, At (run init es) n i T t ∧ i ≤ ((run init es).nodes n).applied := by
  obtain ⟨loc, hI⟩ := inv_run es
  obtain ⟨n, e, h1, h2, h3, h4⟩ := (hI.ans t _ h).2
  exact ⟨n, e.term, ⟨h3, e, h1, rfl, h2⟩, h4⟩

example : ((run init exRun).callers 0).ans = some (.ok 2) ∧ ((run init exRun).callers 1).ans = some (.ok 3) := by
  decide +kernel

/-- A call that returns with an error: the request is in no log and never will be. -/
theorem C115_error (es fs : List Ev) (t : Req) (w : Why) (h : ((run init es).callers t).ans = some (.err w))
    (n : Nid) (i T : Nat) : ¬ At (run init (es ++ fs)) n i T t := by
  rintro ⟨_, e, he, _, hq⟩
  obtain ⟨loc, hI⟩ := inv_run es
  obtain ⟨ht, hg, _⟩ := hI.ans t _ h
  obtain ⟨loc', hI', hk⟩ := hI.run fs
  rw [run_append] at he
  obtain ⟨p, hp, _, _, hp3⟩ := hI'.ent n _ e he
  have h1 := (hI'.log p hp t (hp3.trans hq)).1
  rw [(hk t ht).1 hg] at h1
  exact nomatch h1

/-- Node 0 forwards a request to a node that is not the leader. -/
def exRefused : List Ev := [.learn 0 1, .submit 0 true true false, .deliver 0, .deliver 0]

example : ((run init exRefused).callers 0).ans = some (.err .notLeader) := by decide +kernel

example : ((run init [.submit 0 true true false]).callers 0).ans = some (.err .noLeader) := by decide +kernel

/-- A call returns once. -/
theorem C115_final (es fs : List Ev) (t : Req) (a : Ans) (h : ((run init es).callers t).ans = some a) :
    ((run init (es ++ fs)).callers t).ans = some a := by
  obtain ⟨loc, hI⟩ := inv_run es
  rw [run_append]
  exact (ext_run fs _).ans t a (hI.ans t a h).1 h

/-! ### C116 -/

theorem forgotten_of_doomed {es : List Ev} {e : Ev} {t : Req} (hd : Doomed (step (run init es) e) t) :
    Forgotten (step (run init es) e) t := by
  intro fs
  have hr : step (run init es) e = run init (es ++ [e]) := by rw [run_append]; rfl
  obtain ⟨loc, hI⟩ := inv_run (es ++ [e])
  rw [← hr] at hI
  obtain ⟨h1, h2⟩ := doomed_run hI hd fs
  refine ⟨⟨Nat.lt_of_lt_of_le hd.lt (ext_run fs _).next, h1⟩, ?_⟩
  rintro n i T ⟨_, en, he, _, hq⟩
  obtain ⟨loc', hI', _⟩ := hI.run fs
  obtain ⟨p, hp, _, _, hp3⟩ := hI'.ent n _ en he
  exact h2 p hp (hp3.trans hq)

/-- A call on a leader past its first entry: the request is accepted for the log. Without a known leader, or
without a circuit to it, the call returns with that error. Else, if sending works, the request is on its way and
the node remembers it. -/
theorem C116_submitted_partial (s : S) (n : Nid) (ckt arrives fails : Bool) :
    ((s.nodes n).leading = true → (s.nodes n).noop0 = true →
      s.next ∈ ((step s (.submit n ckt arrives fails)).nodes n).batch) ∧
    ((s.nodes n).leading = false → ((s.nodes n).leader = none ∨ (s.nodes n).leader = some n ∨ ckt = false) →
      ((step s (.submit n ckt arrives fails)).callers s.next).ans = some (.err .noLeader)) ∧
    (∀ l, (s.nodes n).leading = false → (s.nodes n).leader = some l → l ≠ n → ckt = true → arrives = true →
      fails = false →
      Msg.redirect l s.next ∈ (step s (.submit n ckt arrives fails)).net ∧
      s.next ∈ ((step s (.submit n ckt arrives fails)).nodes n).waf) := by
  refine ⟨?_, ?_, ?_⟩
  · intro hl h0
    simp only [step, submit, hl, if_true, replicate]
    rw [if_pos (by
      simp only [S.setNode, S.setCaller, if_true]
      split <;> exact h0)]
    simp [S.setNode]
  · intro hl hc
    simp only [step, submit, hl, Bool.false_eq_true, if_false]
    by_cases hn : (s.nodes n).leader = some n
    · simp [S.setNode, S.setCaller, hn]
    · cases hle : (s.nodes n).leader with
      | none => simp [S.setNode, S.setCaller, hle]
      | some l =>
        have hne : l ≠ n := fun hh => hn (by rw [hle, hh])
        have hcf : ckt = false := by
          rcases hc with hc | hc | hc
          · rw [hle] at hc; exact nomatch hc
          · exact absurd hc hn
          · exact hc
        simp [S.setNode, S.setCaller, hle, hne, hcf]
  · intro l hl hle hne hc ha hf
    subst hc ha hf
    simp [step, submit, hl, S.setNode, S.setCaller, S.send, hle, hne, mset]
    split <;> simp_all

example : ((run init (exRun.take 3)).nodes 0).leader = some 1 ∧ ((run init (exRun.take 3)).nodes 0).leading = false ∧
    ((run init (exRun.take 5)).nodes 1).leading = true ∧ ((run init (exRun.take 5)).nodes 1).noop0 = true ∧
    ((run init []).nodes 0).leader = none := by decide +kernel

/-- A forward that reaches a leader past its first entry: the request is accepted for the log. -/
theorem C116_accepted_partial (s : S) (i : Nat) (d : Nid) (t : Req) (hm : s.net[i]? = some (.redirect d t))
    (hl : (s.nodes d).leading = true) (h0 : (s.nodes d).noop0 = true) :
    t ∈ ((step s (.deliver i)).nodes d).batch := by
  simp only [step, deliver, hm, onRedirect, hl, if_true, replicate]
  rw [if_pos (by
    simp only [S.setNode, if_true]
    split <;> exact h0)]
  simp [S.setNode]

/-- A request accepted for the log is in the leader's log after the next submission of the batch. -/
theorem C116_logged_partial (es : List Ev) (n : Nid) (single : Bool) (t : Req)
    (ht : t ∈ ((run init es).nodes n).batch) :
    ∃ i, At (step (run init es) (.flush n single)) n i ((run init es).nodes n).term t := by
  obtain ⟨loc, h⟩ := inv_run es
  have hl := (h.batch n t ht).2.2.1
  generalize run init es = s at *
  have key : ∀ (b : List Req) (s1 : S), (s1.nodes n).leading = true → (s1.nodes n).term = (s.nodes n).term →
      ((b.foldl (flushOne n single) s1).nodes n).leading = true ∧
      (s1.nodes n).log <+: ((b.foldl (flushOne n single) s1).nodes n).log ∧
      (t ∈ b → ∃ i, At (b.foldl (flushOne n single) s1) n i (s.nodes n).term t) := by
    intro b
    induction b with
    | nil => intro s1 h1 _; exact ⟨h1, List.prefix_rfl, fun hh => nomatch hh⟩
    | cons u b ih =>
      intro s1 h1 h2
      obtain ⟨_, _, _, _, e5⟩ := flushOne_fields n single s1 u
      obtain ⟨own, hlog⟩ := flushOne_log n single s1 u n
      rw [if_pos rfl] at hlog
      obtain ⟨a1, a2, a3⟩ := ih (flushOne n single s1 u) (by rw [(e5 n).2.1]; exact h1) (by rw [(e5 n).2.2]; exact h2)
      rw [List.foldl_cons]
      refine ⟨a1, (show (s1.nodes n).log <+: ((flushOne n single s1 u).nodes n).log by
        rw [hlog]; exact List.prefix_append _ _).trans a2, ?_⟩
      intro hm
      rcases List.mem_cons.1 hm with hm | hm
      · subst hm
        obtain ⟨r, hr⟩ := a2
        refine ⟨(s1.nodes n).log.length + 1, Nat.succ_pos _, ⟨(s1.nodes n).term, .req t, own⟩, ?_, h2, rfl⟩
        rw [← hr, hlog]; simp
      · exact a3 hm
  obtain ⟨b1, _, b3⟩ := key (s.nodes n).batch (s.setNode n fun nd => { nd with batch := [] })
    (by simpa [S.setNode] using hl) (by simp [S.setNode])
  obtain ⟨i, hi⟩ := b3 ht
  refine ⟨i, ?_⟩
  have hc : ∀ s' k, (s'.nodes n).leading = true → At s' n i (s.nodes n).term t → At (commit s' n k) n i (s.nodes n).term t := by
    intro s' k h1 h2
    unfold At
    rw [((same_commit s' n k).node n).2.2.2 h1]; exact h2
  simp only [step, flush]
  split
  · exact hc _ _ b1 hi
  · exact hi

example : ((run init (exRun.take 6)).nodes 1).batch = [0, 1] ∧
    (run init (exRun.take 4)).net[0]? = some (.redirect 1 0) ∧ ((run init (exRun.take 4)).nodes 1).noop0 = true := by
  decide +kernel

/-- A forward that reaches a node that is not the leader is answered. -/
theorem C116_refused_partial (es : List Ev) (i : Nat) (d : Nid) (t : Req)
    (hm : (run init es).net[i]? = some (.redirect d t)) (hl : ((run init es).nodes d).leading = false) :
    Msg.answer t (.err .notLeader) ∈ (step (run init es) (.deliver i)).net := by
  obtain ⟨loc, h⟩ := inv_run es
  have hd := (h.net d t (List.mem_of_getElem? hm)).2.2.1
  have hs : self { run init es with net := (run init es).net.eraseIdx i } d t = false := by
    unfold self
    rw [Bool.and_eq_false_iff]; left
    simp only [beq_eq_false_iff_ne, ne_eq]; exact hd
  simp only [step, deliver, hm, onRedirect, hl, hs, Bool.false_eq_true, if_false]
  unfold finishCopy
  split <;> simp [close, delWaiting, S.setNode, S.setCaller, S.send]

/-- An answer that reaches a node still holding the ticket ends the call. -/
theorem C116_answered_partial (es : List Ev) (i : Nat) (t : Req) (a : Ans)
    (hm : (run init es).net[i]? = some (.answer t a))
    (hw : t ∈ ((run init es).nodes ((run init es).callers t).home).waf) :
    ((step (run init es) (.deliver i)).callers t).ans ≠ none := by
  obtain ⟨loc, h⟩ := inv_run es
  have hf := (h.waf _ t hw).2.2.2.2.2
  simp only [step, deliver, hm, onAnswer, if_pos (Or.inl hw)]
  rw [finishOwn_eq _ _ _ _ _ (by exact hf)]
  simp only [delWaiting, S.setNode, S.setCaller, if_true]
  cases ((run init es).callers t).ans <;> simp

example : (run init (exRun.take 8)).net[0]? = some (.answer 0 (.ok 2)) ∧ ((run init (exRun.take 8)).callers 0).home = 0 ∧
    ((run init (exRun.take 8)).nodes 0).waf = [0] ∧
    (run init (exRefused.take 2)).net[0]? = some (.redirect 1 0) ∧
    ((run init (exRefused.take 2)).nodes 1).leading = false := by decide +kernel

/-- A request made on a leader whose first entry has not committed yet is forgotten. -/
theorem C116_stalled_counterexample (es : List Ev) (n : Nid) (c a f : Bool)
    (hl : ((run init es).nodes n).leading = true) (h0 : ((run init es).nodes n).noop0 = false) :
    Forgotten (step (run init es) (.submit n c a f)) (run init es).next := by
  obtain ⟨loc, h⟩ := inv_run es
  refine forgotten_of_doomed ?_
  have hn : NoCarrier (run init es) (run init es).next := h.noCarrier_next rfl rfl rfl
  generalize run init es = s at *
  simp only [step, submit, hl, if_true, replicate]
  rw [if_neg (by
    simp only [S.setNode, S.setCaller, if_true]
    split <;> simp [h0])]
  refine ⟨Nat.lt_succ_self _, ⟨hn.net, ?_, hn.log⟩, by simp [S.setNode, S.setCaller], ?_⟩
  · intro m
    have := hn.batch m
    simp only [S.setNode, S.setCaller]
    by_cases hm : m = n
    · subst hm
      simp only [if_true]
      split <;> exact this
    · simp only [if_neg hm]; exact this
  · intro b hb
    exact Nat.lt_irrefl _ (h.ansm _ b hb).1

/-- Such a leader. -/
example : ((run init [.elect 1 1 false]).nodes 1).leading = true ∧ ((run init [.elect 1 1 false]).nodes 1).noop0 = false := by
  decide +kernel

/-- Requests accepted for the log and not yet logged when the leader steps down are forgotten. -/
theorem C116_stepdown_counterexample (es : List Ev) (n : Nid) (T : Nat) (t : Req)
    (ht : t ∈ ((run init es).nodes n).batch) : Forgotten (step (run init es) (.depose n T)) t := by
  obtain ⟨loc, h⟩ := inv_run es
  refine forgotten_of_doomed ?_
  generalize run init es = s at *
  obtain ⟨hloc, hlt, _⟩ := h.batch n t ht
  obtain ⟨X, hX, e⟩ := depose_eq s n T
  have hX' : ∀ m ∈ X, (∀ d, m ≠ .redirect d t) ∧ ∀ a, m ≠ .answer t a := by
    intro m hm
    obtain ⟨u, b, hb⟩ := hX m hm
    subst hb
    exact ⟨(fun d hh => nomatch hh), (fun a hh => nomatch hh)⟩
  have hnb : ∀ i, ¬ Backed s t i := by
    intro i hb
    obtain ⟨p, hp, _, hq⟩ := h.backed_logged hb
    have := (h.log p hp t hq).1
    rw [hloc] at this; exact nomatch this
  have hnj : ∀ a, ¬ Just loc s t a := by
    intro a hj
    cases a with
    | ok i => exact hnb i hj
    | err w => rw [Just, hloc] at hj; exact nomatch hj.1
  simp only [step, e]
  refine ⟨hlt, ⟨?_, ?_, ?_⟩, ?_, ?_⟩
  · intro d hd
    rcases List.mem_append.1 hd with hd | hd
    · have := (h.net d t hd).1; rw [hloc] at this; exact nomatch this
    · exact (hX' _ hd).1 d rfl
  · intro m hm
    dsimp only [S.setNode] at hm
    by_cases hmn : m = n
    · rw [if_pos hmn] at hm; exact nomatch hm
    · rw [if_neg hmn] at hm
      have := (h.batch m t hm).1
      rw [hloc] at this; cases this; exact hmn rfl
  · intro p hp hq
    have := (h.log p hp t hq).1; rw [hloc] at this; exact nomatch this
  · cases ha : (s.callers t).ans with
    | none => exact ha
    | some a => exact absurd (h.ans t a ha).2 (hnj a)
  · intro a hm
    rcases List.mem_append.1 hm with hm | hm
    · exact hnj a (h.ansm t a hm).2.1
    · exact (hX' _ hm).2 a rfl

/-- A request whose forward cannot be sent is forgotten: the error is noted in the ticket and the call goes on
waiting. -/
theorem C116_send_counterexample (es : List Ev) (n l : Nid) (hl : ((run init es).nodes n).leading = false)
    (hle : ((run init es).nodes n).leader = some l) (hne : l ≠ n) :
    Forgotten (step (run init es) (.submit n true false true)) (run init es).next := by
  obtain ⟨loc, h⟩ := inv_run es
  refine forgotten_of_doomed ?_
  have hn : NoCarrier (run init es) (run init es).next := h.noCarrier_next rfl rfl rfl
  generalize run init es = s at *
  have hnd : ∀ m, (({ s with next := s.next + 1 }.setNode n fun nd =>
      if nd.leader = some n then { nd with leader := none } else nd).nodes m) = s.nodes m := by
    intro m
    simp only [S.setNode]
    by_cases hm : m = n
    · subst hm
      rw [if_pos rfl, if_neg (by rw [hle]; intro hh; cases hh; exact hne rfl)]
    · rw [if_neg hm]
  simp only [step, submit, hl, Bool.false_eq_true, if_false, hnd, hle, if_true]
  refine ⟨Nat.lt_succ_self _, ⟨hn.net, ?_, hn.log⟩, by simp [S.setNode, S.setCaller], ?_⟩
  · intro m
    have := hn.batch m
    rw [← hnd m] at this
    exact this
  · intro b hb
    exact Nat.lt_irrefl _ (h.ansm _ b hb).1

example : ((run init [.learn 0 1]).nodes 0).leader = some 1 ∧ ((run init [.learn 0 1]).nodes 0).leading = false := by
  decide +kernel

/-- A refusal that reaches a node which has emptied its list of forwarded requests is ignored. -/
theorem C116_takeover_counterexample (es : List Ev) (i : Nat) (t : Req) (w : Why)
    (hm : (run init es).net[i]? = some (.answer t (.err w)))
    (hw : t ∉ ((run init es).nodes ((run init es).callers t).home).waf)
    (ha : ((run init es).callers t).ans = none)
    (h1 : ∀ a, Msg.answer t a ∉ (run init es).net.eraseIdx i) :
    Forgotten (step (run init es) (.deliver i)) t := by
  obtain ⟨loc, h⟩ := inv_run es
  refine forgotten_of_doomed ?_
  generalize run init es = s at *
  obtain ⟨hlt, ⟨hloc, _⟩, hf⟩ := h.ansm t _ (List.mem_of_getElem? hm)
  have hwal : t ∉ (s.nodes (s.callers t).home).wal := fun hh => (h.wal _ t hh).2.2.1 (hf w rfl) rfl
  have e : step s (.deliver i) = { s with net := s.net.eraseIdx i } := by
    simp only [step, deliver, hm, onAnswer]
    rw [if_neg (fun hh => hh.elim hw hwal)]
  rw [e]
  refine ⟨hlt, ⟨?_, ?_, ?_⟩, ha, h1⟩
  · intro d hd
    have := (h.net d t ((List.eraseIdx_sublist ..).mem hd)).1; rw [hloc] at this; exact nomatch this
  · intro n hb; have := (h.batch n t hb).1; rw [hloc] at this; exact nomatch this
  · intro p hp hq; have := (h.log p hp t hq).1; rw [hloc] at this; exact nomatch this

/-- Node 0 forwards a request, is refused, and is elected before the refusal arrives. -/
def exElected : List Ev := [.learn 0 1, .submit 0 true true false, .deliver 0, .elect 0 1 false]

example : (run init exElected).net = [.answer 0 (.err .notLeader)] ∧ ((run init exElected).callers 0).home = 0 ∧
    ((run init exElected).nodes 0).waf = [] ∧ ((run init exElected).callers 0).ans = none := by decide +kernel

/-! ### C117 -/

/-- When the node a call was made on applies the call's own entry, the call returns. -/
theorem C117_own_partial (es : List Ev) (n : Nid) (e : Entry) (t : Req)
    (he : ((run init es).nodes n).log[((run init es).nodes n).applied]? = some e) (ho : e.own = true)
    (hq : e.what = .req t) : ((step (run init es) (.commit n 1)).callers t).ans ≠ none := by
  obtain ⟨loc, h⟩ := inv_run es
  have hs := (h.own n _ e t he ho hq).1
  simp only [step, h.commit_eq, applyN, applyOne, he, applyEntry, hq, hs, ho, if_true]
  by_cases hf : ((run init es).callers t).finished = true
  · have h1 : finishOwn (advance (run init es) n [(n, ((run init es).nodes n).applied + 1, t)]) n
        ((run init es).nodes n).leading t (.ok (((run init es).nodes n).applied + 1)) =
        advance (run init es) n [(n, ((run init es).nodes n).applied + 1, t)] := by
      unfold finishOwn; exact if_pos hf
    rw [h1]
    exact h.fin t hf
  · rw [finishOwn_eq _ _ _ _ _ (by exact Bool.eq_false_iff.2 hf)]
    simp only [delWaiting, S.setNode, S.setCaller, if_true]
    cases ((advance (run init es) n [(n, ((run init es).nodes n).applied + 1, t)]).callers t).ans <;> simp

/-- When a follower applies a request it has forwarded and still waits for, the call returns. -/
theorem C117_follower_partial (es : List Ev) (n : Nid) (e : Entry) (t : Req)
    (he : ((run init es).nodes n).log[((run init es).nodes n).applied]? = some e)
    (hq : e.what = .req t) (hw : t ∈ ((run init es).nodes n).waf) (hl : ((run init es).nodes n).leading = false) :
    ((step (run init es) (.commit n 1)).callers t).ans ≠ none := by
  obtain ⟨loc, h⟩ := inv_run es
  by_cases ho : e.own = true
  · exact C117_own_partial es n e t he ho hq
  · have hwf := h.waf n t hw
    have hs : self (run init es) n t = true := by
      unfold self; rw [hwf.1, hwf.2.2.1]; simp
    simp only [step, h.commit_eq, applyN, applyOne, he, applyEntry, hq, hs, ho, if_true, hl, Bool.false_eq_true, if_false]
    unfold finishCopy
    rw [if_pos ⟨by simpa [waiting, advance, S.setNode] using hw, hs⟩]
    simp only [close, S.setCaller, if_true]
    generalize (S.callers _ t).ans = o
    cases o <;> simp

example : ((run init (exRun.take 7)).nodes 1).log[1]? = some ⟨1, .req 0, false⟩ ∧
    ((run init (exRun.take 7)).nodes 1).log[2]? = some ⟨1, .req 1, true⟩ ∧
    ((run init ((exRun.take 8 ++ [.receive 0 0 [(1, .noop 1 1), (1, .req 0)], .commit 0 1]))).nodes 0).waf = [0] ∧
    ((run init ((exRun.take 8 ++ [.receive 0 0 [(1, .noop 1 1), (1, .req 0)], .commit 0 1]))).nodes 0).log[1]? =
      some ⟨1, .req 0, false⟩ := by decide +kernel

/-- When a leader applies the request of a call made elsewhere, the answer is sent. -/
theorem C117_leader_partial (es : List Ev) (n : Nid) (e : Entry) (t : Req)
    (he : ((run init es).nodes n).log[((run init es).nodes n).applied]? = some e)
    (hq : e.what = .req t) (hl : ((run init es).nodes n).leading = true) (hs : self (run init es) n t = false) :
    Msg.answer t (.ok (((run init es).nodes n).applied + 1)) ∈ (step (run init es) (.commit n 1)).net := by
  obtain ⟨loc, h⟩ := inv_run es
  have hs' : self (advance (run init es) n [(n, ((run init es).nodes n).applied + 1, t)]) n t = false := hs
  simp only [step, h.commit_eq, applyN, applyOne, he, applyEntry, hq, hs, hl, if_true, Bool.false_eq_true, if_false,
    respond, hs']
  exact List.mem_append_right _ (List.mem_singleton.2 rfl)

/-- Nobody is ever told that a request was lost. -/
theorem C117_lost_counterexample (es : List Ev) (t : Req) (w : Why)
    (h : ((run init es).callers t).ans = some (.err w)) : w ≠ .lost ∧ w ≠ .truncated := by
  obtain ⟨loc, hI⟩ := inv_run es
  rcases (hI.ans t _ h).2.2 with h1 | h1 <;> subst h1 <;> exact ⟨(fun e => nomatch e), (fun e => nomatch e)⟩

/-- Node 0 leads and logs a request at index 2; node 1 is elected and its first entry takes that index. -/
def exOverwritten : List Ev :=
  [.elect 0 1 false, .commit 0 1, .submit 0 true true false, .flush 0 false, .receive 1 0 [(1, .noop 0 1)],
   .elect 1 2 false, .depose 0 2, .receive 0 1 [(2, .noop 1 2)], .commit 0 1]

theorem C117_overwritten_counterexample : ∃ es fs t,
    At (run init es) ((run init es).callers t).home 2 1 t ∧
    2 ≤ ((run init (es ++ fs)).nodes ((run init es).callers t).home).applied ∧
    (∀ n i T : Nat, n ≤ 1 → ¬ At (run init (es ++ fs)) n i T t) ∧
    (run init (es ++ fs)).net = [] ∧
    Waiting (run init (es ++ fs)) t ∧ self (run init (es ++ fs)) ((run init es).callers t).home t = true := by
  refine ⟨exOverwritten.take 4, exOverwritten.drop 4, 0, ?_⟩
  rw [List.take_append_drop]
  have hh : ((run init (exOverwritten.take 4)).callers 0).home = 0 := by decide +kernel
  rw [hh]
  refine ⟨⟨by decide, ⟨1, .req 0, true⟩, by decide +kernel, rfl, rfl⟩, by decide +kernel, ?_, by decide +kernel,
    ⟨by decide +kernel, by decide +kernel⟩, by decide +kernel⟩
  have h0 : ((run init exOverwritten).nodes 0).log = [⟨1, .noop 0 1, false⟩, ⟨2, .noop 1 2, false⟩] := by decide +kernel
  have h1 : ((run init exOverwritten).nodes 1).log = [⟨1, .noop 0 1, false⟩, ⟨2, .noop 1 2, false⟩] := by decide +kernel
  rintro n i T hn ⟨_, e, he, _, hq⟩
  have hlog : ((run init exOverwritten).nodes n).log = [⟨1, .noop 0 1, false⟩, ⟨2, .noop 1 2, false⟩] := by
    rcases Nat.lt_or_ge n 1 with h | h
    · rw [show n = 0 by omega]; exact h0
    · rw [show n = 1 by omega]; exact h1
  rw [hlog] at he
  have := List.mem_of_getElem? he
  simp only [List.mem_cons, List.not_mem_nil, or_false] at this
  rcases this with h | h <;> subst h <;> exact nomatch hq

/-- Node 0 forwards a request to the leader, gets it back in its log, and is elected before it applies it. -/
def exHome : List Ev :=
  [.elect 1 1 false, .commit 1 1, .learn 0 1, .submit 0 true true false, .deliver 0, .flush 1 false,
   .receive 0 0 [(1, .noop 1 1), (1, .req 0)], .depose 1 2, .elect 0 2 false, .deliver 0, .commit 0 3,
   .receive 1 2 [(2, .noop 0 2)], .commit 1 3]

/-- All nodes have applied the request, the node it was made on leads the cluster, and the call is not told. -/
theorem C117_home_counterexample : ∃ es t, At (run init es) ((run init es).callers t).home 2 1 t ∧
    (∀ n : Nat, n ≤ 1 → ((run init es).nodes n).applied = 3) ∧
    ((run init es).nodes ((run init es).callers t).home).leading = true ∧
    (run init es).net = [] ∧ Waiting (run init es) t ∧ self (run init es) ((run init es).callers t).home t = true := by
  refine ⟨exHome, 0, ?_⟩
  have hh : ((run init exHome).callers 0).home = 0 := by decide +kernel
  rw [hh]
  refine ⟨⟨by decide, ⟨1, .req 0, false⟩, by decide +kernel, rfl, rfl⟩, ?_, by decide +kernel, by decide +kernel,
    ⟨by decide +kernel, by decide +kernel⟩, by decide +kernel⟩
  intro n hn
  rcases Nat.lt_or_ge n 1 with h | h
  · rw [show n = 0 by omega]; decide +kernel
  · rw [show n = 1 by omega]; decide +kernel

/-! ### C118 -/

/-- What a leader logs in a term is, in order, a prefix of what it accepted in that term. -/
theorem C118_order (es : List Ev) (n : Nid) (T : Nat) : lg (run init es) n T <+: acc (run init es) n T :=
  (ord_run es ord_init).pre n T

/-- The records are in the order of the log, and a leader has them in its log. -/
theorem C118_positions (es : List Ev) (n : Nid) (T : Nat) :
    ((run init es).logged.filter fun p => p.node == n && p.term == T).Pairwise (fun a b => a.idx < b.idx) ∧
    (((run init es).nodes n).leading = true → ∀ p ∈ (run init es).logged, p.node = n →
      p.term = ((run init es).nodes n).term →
      0 < p.idx ∧ ∃ e : Entry, ((run init es).nodes n).log[p.idx - 1]? = some e ∧ e.term = p.term ∧ e.what = p.what) := by
  have ho := ord_run es ord_init
  constructor
  · refine List.Pairwise.imp_of_mem ?_ (ho.inc.filter _)
    intro a b ha hb hab
    have ha := (List.mem_filter.1 ha).2
    have hb := (List.mem_filter.1 hb).2
    rw [Bool.and_eq_true] at ha hb
    exact hab (by rw [beq_iff_eq.1 ha.1, beq_iff_eq.1 hb.1]) (by rw [beq_iff_eq.1 ha.2, beq_iff_eq.1 hb.2])
  · intro hl p hp hn ht
    subst hn
    exact ho.here p hp hl ht

/-- A leader keeps nothing back but the batch: what it accepted is what it logged, then the batch. -/
theorem C118_nothing_dropped (es : List Ev) (n : Nid) (hl : ((run init es).nodes n).leading = true) :
    acc (run init es) n ((run init es).nodes n).term =
      lg (run init es) n ((run init es).nodes n).term ++ ((run init es).nodes n).batch :=
  (ord_run es ord_init).cur n hl

example : acc (run init exRun) 1 1 = [0, 1] ∧ lg (run init exRun) 1 1 = [0, 1] ∧
    acc (run init (exRun.take 6)) 1 1 = [0, 1] ∧ lg (run init (exRun.take 6)) 1 1 = [] ∧
    ((run init exRun).nodes 1).leading = true := by decide +kernel

end Verif.Ticket
