import Verif.Proofs.Rpc
/-
C51: each reply completes the call it answers.

The program may put any Seqno on the messages its server pushes (Server.SendMessage takes one
as an argument, SendOneWayMessage a whole header), and on its client's one-way messages. A
call is completed by the first message with its Seqno that nobody registered for, so such a
message can complete somebody else's call: `C51_push_counterexample`. Everything else the
library does with numbers keeps calls and replies together, for fewer than 2^64 steps.
-/
namespace Verif.Rpc

/-- Whatever the interleaving of calls, replies, timeouts, cancellations, streams and pushes:
a call that completes with a message completes with the server's answer to that very
request, or with a message whose number the program itself chose to be that of the call. -/
theorem C51_own_reply_partial (ops : List Op) (hops : ops.length < 2 ^ 64) (h : Nat) (c : Call)
    (hc : (Sys.run {} ops).calls[h]? = some c) (m : Msg) (hm : c.outcome = some (.reply m)) :
    Answered (Sys.run {} ops) h c m ∨
      c.seqno = some m.seqno ∧ ∃ op ∈ ops, chosen op = some m.seqno := by
  have i := inv_run ops inv_init (by omega)
  have hd := i.out h c m hc hm
  obtain ⟨⟨c', hc', hq⟩, ha⟩ := i.fin h m hd
  rw [hc] at hc'
  obtain rfl := Option.some.inj hc'
  rcases ha with hf | ⟨c', hc', ha⟩
  · refine .inr ⟨hq, ?_⟩
    simp only [List.nil_append, List.mem_flatMap, Option.mem_toList] at hf
    exact hf
  · rw [hc] at hc'
    obtain rfl := Option.some.inj hc'
    exact .inl ha

/-- Two calls and a one-way message are under way; the replies overtake each other and the
second call's comes first. Each call gets its own; call 0 had been given up and its late
reply completes nothing. -/
example :
    let s := Sys.run {} [.submit 100 7, .submit 101 8, .submit 102 9, .accept 1 true,
      .accept 0 true, .oneWay .oneWay 103 0 1, .accept 2 true, .giveUp 0 .timeout,
      .serve 1 70, .serve 2 90, .serve 0 80, .deliver 1, .deliver 0, .deliver 0,
      .finish 2, .finish 1, .finish 0]
    s.calls.map (·.outcome) =
      [some .timeout, some (.reply ⟨.rpcReply, 101, none, 1, 80⟩),
       some (.reply ⟨.rpcReply, 102, none, 4, 90⟩)] := by decide +kernel

/-- The answer carries the call id of the request, and its number. -/
theorem C51_answer_names_call (ops : List Op) (h : Nat) (c : Call) (m : Msg)
    (ha : Answered (Sys.run {} ops) h c m) : m.callID = c.callID ∧
      ∃ r, (r, m) ∈ (Sys.run {} ops).answers ∧ r.origin = some h ∧ m.seqno = r.seqno := by
  obtain ⟨r, hr, ho, _, hid, _⟩ := ha
  have := answers_header ops (s := {}) (by simp) _ hr
  exact ⟨this.1.trans hid, r, hr, ho, this.2⟩

example : Answered (Sys.run {} [.submit 100 7, .accept 0 true, .serve 0 70]) 0
    ⟨100, 7, some 1, none⟩ ⟨.rpcReply, 100, none, 1, 70⟩ :=
  ⟨⟨.rpc, 100, 1, 7, some 0⟩, by decide +kernel, rfl, rfl, rfl, rfl⟩

/-- If the program chooses no number that belongs to one of its calls, every reply is the
call's own. -/
theorem C51_own_reply_without_chosen_numbers_partial (ops : List Op) (hops : ops.length < 2 ^ 64)
    (h : Nat) (c : Call) (hc : (Sys.run {} ops).calls[h]? = some c)
    (hch : ∀ op ∈ ops, ∀ q, chosen op = some q → c.seqno ≠ some q)
    (m : Msg) (hm : c.outcome = some (.reply m)) : Answered (Sys.run {} ops) h c m := by
  rcases C51_own_reply_partial ops hops h c hc m hm with ha | ⟨hq, op, hop, e⟩
  · exact ha
  · exact absurd hq (hch op hop _ e)

/-- The library's own streams are covered: here a download's parts and end arrive between,
and number 0 is used for a push. -/
example :
    let ops : List Op := [.takeSeqno, .submit 100 7, .accept 0 true, .stream 0 200 5,
      .push ⟨.oneWay, 300, none, 0, 3⟩, .part 1 51, .part 1 52, .serve 1 53, .deliver 0,
      .deliver 0, .serve 0 70, .deliver 1, .deliver 0, .deliver 0, .finish 0]
    let s := Sys.run {} ops
    s.calls.map (·.outcome) = [some (.reply ⟨.rpcReply, 100, none, 2, 70⟩)] ∧
      (∀ op ∈ ops, ∀ c ∈ s.calls, chosen op = none ∨ chosen op ≠ c.seqno) := by decide +kernel

/-- Part of the promise the code does not keep: a message pushed by the server with the Seqno
of an outstanding call completes the call, and the real reply is then thrown away. -/
theorem C51_push_counterexample :
    let s := Sys.run {} [.submit 100 7, .accept 0 true, .push ⟨.oneWay, 300, none, 1, 3⟩,
      .deliver 0, .finish 0, .serve 0 70, .deliver 0]
    s.calls.map (·.outcome) = [some (.reply ⟨.oneWay, 300, none, 1, 3⟩)] ∧
      s.answers = [(⟨.rpc, 100, 1, 7, some 0⟩, ⟨.rpcReply, 100, none, 1, 70⟩)] := by
  decide +kernel

/-- A call completes at most once: what SendAndGetReply returned stays, whatever comes later. -/
theorem C51_completes_once (ops more : List Op) (h : Nat) (c : Call) (o : Outcome)
    (hc : (Sys.run {} ops).calls[h]? = some c) (ho : c.outcome = some o) :
    ∃ c' : Call, (Sys.run {} (ops ++ more)).calls[h]? = some c' ∧ c'.outcome = some o := by
  rw [run_append]
  generalize Sys.run {} ops = s at *
  induction more generalizing s c with
  | nil => exact ⟨c, hc, ho⟩
  | cons op t ih =>
    obtain ⟨c', hc', ho'⟩ := outcome_step op hc ho
    exact ih c' ho' (s.step op) hc'

/-- The reply to a waiting call reaches it: unless somebody registered for the call's id, the
next message with its number completes it, and SendAndGetReply returns that message. -/
theorem C51_reply_arrives (ops : List Op) (hops : ops.length < 2 ^ 64) (h q i : Nat) (m : Msg)
    (hw : Waiting (Sys.run {} ops) h q) (hm : (Sys.run {} ops).toCli[i]? = some m)
    (hq : m.seqno = q) (ht : m.typ = .rpcReply ∨ m.typ = .callError)
    (hr : m.callID ∉ (Sys.run {} ops).cli.notifies.readCallID)
    (he : m.callID ∉ (Sys.run {} ops).cli.notifies.errCallID)
    (hp : m.toPeerID = none) (hs : (Sys.run {} ops).cli.stopped = false) :
    ∃ c : Call, (Sys.run {} (ops ++ [.deliver i, .finish h])).calls[h]? = some c ∧
      c.outcome = some (.reply m) := by
  have inv := inv_run ops inv_init (by omega)
  rw [run_append]
  generalize Sys.run {} ops = s at *
  obtain ⟨⟨c, hc, hcq, hco⟩, hd⟩ := hw
  have hg := inv.wait h q ⟨c, hc, hcq⟩ hd
  subst hq
  have hn : s.cli.notifies.handle m = none := by
    unfold Notifies.handle
    rw [hp]
    simp [hr, he]
  have hrecv : (s.cli.recv m).1.done = s.cli.done ++ [(h, .reply m)] := by
    have hany : s.cli.done.any (fun p => p.1 == h) = false := by
      rw [List.any_eq_false]
      intro p hp' e
      have : p.1 = h := by simpa using e
      exact hd p.2 (this ▸ hp')
    unfold Client.recv
    rw [hs]
    rcases ht with e | e <;> rw [e] <;> simp [hn, hg, Client.close, hany]
  have hfind : (s.cli.recv m).1.done.find? (fun p => p.1 == h) = some (h, .reply m) := by
    rw [hrecv, List.find?_append]
    have : s.cli.done.find? (fun p => p.1 == h) = none := by
      rw [List.find?_eq_none]
      intro p hp' e
      have : p.1 = h := by simpa using e
      exact hd p.2 (this ▸ hp')
    simp [this]
  refine ⟨{ c with outcome := some (.reply m) }, ?_, rfl⟩
  simp only [Sys.run, List.foldl_cons, List.foldl_nil, Sys.step, hm, hc, hfind, hco]
  simp [(List.getElem?_eq_some_iff.1 hc).1]

example :
    let s := Sys.run {} [.submit 100 7, .submit 101 8, .accept 1 true, .accept 0 true,
      .serve 0 80, .serve 0 70]
    Waiting s 0 2 ∧ s.toCli[1]? = some ⟨.rpcReply, 100, none, 2, 70⟩ ∧
      100 ∉ s.cli.notifies.readCallID ∧ s.cli.stopped = false := by
  refine ⟨⟨⟨⟨100, 7, some 2, none⟩, by decide +kernel, rfl, rfl⟩, ?_⟩, by decide +kernel⟩
  intro d
  rw [show (Sys.run {} [.submit 100 7, .submit 101 8, .accept 1 true, .accept 0 true,
      .serve 0 80, .serve 0 70]).cli.done = [] from by decide +kernel]
  simp

end Verif.Rpc
