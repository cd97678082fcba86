import Verif.Proofs.SendLock
import Verif.Props.Wire
/-
Property C59: concurrent senders on one connection.
-/
namespace Verif.SendLock
open Verif.Wire Wire.Spec

/-- C59, senders that share one mutex (a client, or one blabber): for every number
of sending goroutines, every list of messages each has to send and every
schedule that lets all of them finish, the bytes on the wire are whole messages
one after the other, each sender's messages in the order it sent them. -/
theorem C59_shared_mutex_keeps_messages_whole_partial
    (msgs : Nat → List Writes) (L : Nat) (schedule : List Nat)
    (hfin : allSent (run (start (fun _ => L) msgs) schedule)) :
    ∃ order : List (Nat × Writes),
      (run (start (fun _ => L) msgs) schedule).wire = (order.map fun p => p.2.flatten).flatten ∧
      ∀ i, (order.filter fun p => p.1 = i).map Prod.snd = msgs i := by
  obtain ⟨done, h⟩ := inv_run msgs L schedule _ [] (inv_start (fun _ => L) msgs L (fun _ => rfl))
  have hidle : (run (start (fun _ => L) msgs) schedule).held L = none := by
    cases hh : (run (start (fun _ => L) msgs) schedule).held L with
    | none => rfl
    | some i =>
      have := (h.holder i).2 hh
      rw [(hfin i).2] at this
      simp at this
  refine ⟨done, h.idle hidle, fun i => ?_⟩
  have := h.order i (hfin i).2
  rw [(hfin i).1, List.append_nil] at this
  exact this

/-- C59, messages handed over as one buffer (encrypted connections): the same holds
whatever mutexes the senders use. -/
theorem C59_single_write_keeps_messages_whole_partial
    (lockOf : Nat → Nat) (msgs : Nat → List Bytes) (schedule : List Nat)
    (hfin : allSent (run (start lockOf fun i => (msgs i).map fun f => [f]) schedule)) :
    ∃ order : List (Nat × Bytes),
      (run (start lockOf fun i => (msgs i).map fun f => [f]) schedule).wire =
        (order.map Prod.snd).flatten ∧
      ∀ i, (order.filter fun p => p.1 = i).map Prod.snd = msgs i := by
  obtain ⟨done, h⟩ := inv1_run (fun i => (msgs i).map fun f => [f])
    (by intro i m hm; simp only [List.mem_map] at hm; obtain ⟨w, _, rfl⟩ := hm; exact ⟨w, rfl⟩)
    schedule _ [] (inv1_start lockOf _)
  refine ⟨done, h.wire, fun i => ?_⟩
  have := h.order i
  rw [(hfin i).1, (hfin i).2] at this
  simp only [List.append_nil] at this
  have h2 := congrArg (List.map List.flatten) this
  simp only [List.map_map] at h2
  have e1 : (List.flatten ∘ fun p : Nat × Bytes => [p.2]) = Prod.snd := by
    funext p; simp
  have e2 : (List.flatten ∘ fun f : Bytes => [f]) = id := by funext f; simp
  rw [e1, e2, List.map_id] at h2
  exact h2

/-- What the messages of one unencrypted blabber look like on the wire. -/
def unencrypted (k : Codec) (s : Sent) : Writes :=
  match sendWrites k s.ws s.lastRead s.noSys s.body with
  | .ok l => l
  | _ => []

/-- C59 put together with C01: all senders of one unencrypted blabber; the reader
gets every message exactly once, each sender's in order. -/
theorem C59_shared_mutex_reader_gets_all_partial (k : Codec) (hk : Lossless k)
    (msgs : Nat → List Sent) (L : Nat) (schedule : List Nat)
    (hsend : ∀ i, ∀ m ∈ msgs i, ∃ l, sendWrites k m.ws m.lastRead m.noSys m.body = .ok l)
    (hfit : ∀ i, ∀ m ∈ msgs i, fits k m)
    (hfin : allSent (run (start (fun _ => L) fun i => (msgs i).map (unencrypted k)) schedule))
    (c : Conn)
    (hc : stream c = (run (start (fun _ => L) fun i => (msgs i).map (unencrypted k)) schedule).wire)
    (hd : Bool) :
    ∃ order : List (Nat × Sent),
      (∀ i, (order.filter fun p => p.1 = i).map Prod.snd = msgs i) ∧
      ∃ got c', readMany k hd order.length c = (.ok got, c') ∧ stream c' = [] ∧
        got.map Prod.snd = order.map fun p => p.2.body := by
  obtain ⟨ord, hw, hord⟩ := C59_shared_mutex_keeps_messages_whole_partial
    (fun i => (msgs i).map (unencrypted k)) L schedule hfin
  -- rebuild the Sent values behind the writes
  have lift : ∀ (ord : List (Nat × Writes)) (msgs : Nat → List Sent),
      (∀ i, (ord.filter fun p => p.1 = i).map Prod.snd = (msgs i).map (unencrypted k)) →
      ∃ order : List (Nat × Sent), (∀ i, (order.filter fun p => p.1 = i).map Prod.snd = msgs i) ∧
        ord = order.map fun p => (p.1, unencrypted k p.2) := by
    intro ord
    induction ord with
    | nil =>
      intro msgs h
      refine ⟨[], fun i => ?_, rfl⟩
      have := h i
      simp only [List.filter_nil, List.map_nil] at this
      exact (List.map_eq_nil_iff.1 this.symm).symm
    | cons p ps ih =>
      intro msgs h
      obtain ⟨i, w⟩ := p
      have hi := h i
      simp only [decide_true, List.filter_cons_of_pos, List.map_cons] at hi
      cases hm : msgs i with
      | nil => rw [hm] at hi; simp at hi
      | cons s ss =>
        rw [hm] at hi
        simp only [List.map_cons, List.cons.injEq] at hi
        obtain ⟨order, ho, he⟩ := ih (fun j => if j = i then ss else msgs j) (by
          intro j
          by_cases hj : j = i
          · subst hj; simp only [if_true]; exact hi.2
          · simp only [hj, if_false]
            have := h j
            rw [List.filter_cons_of_neg (by simp; exact fun hh => hj hh.symm)] at this
            exact this)
        refine ⟨(i, s) :: order, fun j => ?_, by rw [hi.1, he]; rfl⟩
        have := ho j
        by_cases hj : j = i
        · subst hj
          simp only [if_true] at this
          simp [this, hm]
        · simp only [hj, if_false] at this
          rw [List.filter_cons_of_neg (by simp; exact fun hh => hj hh.symm)]
          exact this
  obtain ⟨order, ho, he⟩ := lift ord msgs hord
  have hmem : ∀ p ∈ order, p.2 ∈ msgs p.1 := by
    intro p hp
    rw [← ho p.1, List.mem_map]
    exact ⟨p, List.mem_filter.2 ⟨hp, by simp⟩, rfl⟩
  obtain ⟨c', h1, h2⟩ := C01_framed_messages_survive_segmentation k hk hd
    (order.map fun p => (p.2, (unencrypted k p.2).flatten))
    (by
      intro q hq
      simp only [List.mem_map] at hq
      obtain ⟨p, hp, rfl⟩ := hq
      obtain ⟨l, hl⟩ := hsend p.1 p.2 (hmem p hp)
      simp only [sendMessage, unencrypted, hl])
    (by
      intro q hq
      simp only [List.mem_map] at hq
      obtain ⟨p, hp, rfl⟩ := hq
      exact hfit p.1 p.2 (hmem p hp))
    [] c (by rw [hc, hw, he]; simp [List.map_map, Function.comp_def])
  rw [List.length_map] at h1
  refine ⟨order, ho, _, c', h1, h2, ?_⟩
  simp [List.map_map, Function.comp_def]

/-- Plain settings used in the examples: compression off, server side. -/
def plain : WS := { compress := false, isServer := true, defaultTag := 0 }

/-- Two senders with one message each. -/
def twoSenders (i : Nat) : List Sent :=
  if i < 2 then [⟨plain, 0, false, [UInt8.ofNat i]⟩] else []

-- Two senders, one mutex, the second asks while the first is sending.
example : (run (start (fun _ => 0) fun i => (twoSenders i).map (unencrypted demoCodec))
      [0, 1, 0, 1, 0, 1, 0, 0, 1, 1, 1, 1, 1]).wire = frame 0 [0] ++ frame 0 [1] ∧
    allSent (run (start (fun _ => 0) fun i => (twoSenders i).map (unencrypted demoCodec))
      [0, 1, 0, 1, 0, 1, 0, 0, 1, 1, 1, 1, 1]) := by
  refine ⟨by decide, ?_⟩
  intro i
  match i with
  | 0 => decide
  | 1 => decide
  | n + 2 =>
    refine ⟨?_, ?_⟩ <;>
      simp [run, step, start, twoSenders, unencrypted, sendWrites, plain, chooseTag]

/-- C59 is false of an unencrypted server: a reply (read-loop mutex) and a push
(send-loop mutex) written at the same time leave bytes on the wire on which the
client's reader fails with an error before delivering either message. -/
theorem C59_unencrypted_server_interleaves_counterexample :
    ∃ schedule, let s := run (start (fun i => i)
        fun i => if i < 2 then [unencrypted demoCodec ⟨plain, 0, false, [1, 2, 3]⟩] else []) schedule
      allSent s ∧ ∀ hd c, stream c = s.wire → ∃ e, (readMany demoCodec hd 1 c).1 = .err e := by
  refine ⟨[0, 1, 0, 1, 0, 1, 0, 1, 0, 1], ?_, ?_⟩
  · intro i
    match i with
    | 0 => decide
    | 1 => decide
    | n + 2 =>
      refine ⟨?_, ?_⟩ <;> simp [run, step, start, unencrypted, sendWrites, plain, chooseTag]
  · intro hd c hc
    have h2 := (C02_no_message_from_bad_frame_partial demoCodec hd c).2 (by
      rintro ⟨t, p, r, hp, hs⟩
      rw [hc, frame_eq] at hs
      have hw : (run (start (fun i => i)
        fun i => if i < 2 then [unencrypted demoCodec ⟨plain, 0, false, [1, 2, 3]⟩] else [])
          [0, 1, 0, 1, 0, 1, 0, 1, 0, 1]).wire = magic ++ magic ++ be64 3 ++ be64 3 ++ [1,2,3,1,2,3] := by
        decide
      rw [hw] at hs
      have h3 := congrArg (fun l => (l.drop 8).take 8) hs
      simp only [List.append_assoc] at h3
      rw [List.drop_left' (by rfl), List.take_left' (by rfl), ← List.append_assoc (magic.take 7),
        List.drop_left' (by rfl),
        List.take_left' (be64_length _)] at h3
      have h4 := congrArg deBe h3
      rw [deBe_be64 _ (by omega)] at h4
      have h5 : deBe magic = 12924513141610388736 := by decide
      omega)
    obtain ⟨e, c', h⟩ := h2
    exact ⟨e, by simp only [readMany, h]⟩

end Verif.SendLock
