import Verif.Model.Simconn

/-! # A simulated connection as a byte stream: C84 -/

namespace Verif.Simconn

/-- The bytes of all messages that reach the end, in order. -/
def delivered : List Ev → List UInt8
  | [] => []
  | .arrive m :: evs => m.bytes ++ delivered evs
  | .read _ _ :: evs => delivered evs

/-- The bytes that the calls of `Read` return, in order. -/
def returned : End → List Ev → List UInt8
  | _, [] => []
  | s, .arrive m :: evs => returned (s.arrive m) evs
  | s, .read k w :: evs =>
    (match (s.read k w).2 with | some (bs, _) => bs | none => []) ++ returned (s.read k w).1 evs

/-- What is left at the end. -/
def End.left (s : End) : List UInt8 := s.buf ++ s.inbox.flatMap Msg.bytes

/-- A call of `Read` that does not run into its deadline after the network has its request. -/
def Ev.timely : Ev → Prop
  | .arrive _ => True
  | .read _ w => w ≠ .late

theorem read_stream (s : End) (k : Nat) (w : Way) (hw : w ≠ .late) :
    (match (s.read k w).2 with | some (bs, _) => bs | none => []) ++ (s.read k w).1.left = s.left ∧
    (s.read k w).1.waiting = s.waiting := by
  unfold End.read
  by_cases h0 : k = 0
  · rw [if_pos h0]; exact ⟨rfl, rfl⟩
  rw [if_neg h0]
  by_cases h1 : s.buf ≠ []
  · rw [if_pos h1]
    refine ⟨?_, rfl⟩
    simp only [End.left, ← List.append_assoc, List.take_append_drop]
  rw [if_neg h1]
  by_cases h2 : s.closed
  · rw [if_pos h2]; exact ⟨rfl, rfl⟩
  rw [if_neg h2]
  have hb : s.buf = [] := Decidable.not_not.mp h1
  cases w with
  | early => exact ⟨rfl, rfl⟩
  | late => exact absurd rfl hw
  | normal =>
    dsimp only
    cases hi : s.inbox with
    | nil => exact ⟨rfl, rfl⟩
    | cons m ms =>
      refine ⟨?_, rfl⟩
      simp only [End.left, hb, hi, List.flatMap_cons, List.nil_append, ← List.append_assoc, List.take_append_drop]

theorem stream_from (evs : List Ev) : ∀ (s : End), s.waiting = 0 → (∀ e ∈ evs, e.timely) →
    returned s evs ++ (run s evs).left = s.left ++ delivered evs := by
  induction evs with
  | nil => intro s _ _; simp [returned, delivered, run]
  | cons e evs ih =>
    intro s hs he
    have he' := fun x hx => he x (List.mem_cons_of_mem _ hx)
    cases e with
    | arrive m =>
      have ha : s.arrive m = { s with arrived := s.arrived ++ [m], inbox := s.inbox ++ [m] } := by
        unfold End.arrive
        dsimp only
        rw [hs]; rfl
      have := ih (s.arrive m) (by rw [ha]; exact hs) he'
      show returned (s.arrive m) evs ++ (run (s.arrive m) evs).left = _ ++ (m.bytes ++ delivered evs)
      rw [this, ha]
      simp [End.left, List.flatMap_append]
    | read k w =>
      have hr := read_stream s k w (he _ List.mem_cons_self)
      have := ih (s.read k w).1 (hr.2.trans hs) he'
      show (_ ++ returned (s.read k w).1 evs) ++ (run (s.read k w).1 evs).left = s.left ++ delivered evs
      rw [List.append_assoc, this, ← List.append_assoc, hr.1]

/-- C84, part.  The bytes returned so far, followed by the bytes still at the end, are the bytes of the
messages delivered so far: nothing lost, repeated, altered or out of order, for all buffer sizes, as
long as no `Read` runs into its deadline while the network has its request.  Missing: such reads, which
lose a message (`C84_deadline_counterexample`). -/
theorem C84_byte_stream_partial (evs : List Ev) (h : ∀ e ∈ evs, e.timely) :
    returned init evs ++ ((run init evs).buf ++ (run init evs).inbox.flatMap Msg.bytes) = delivered evs := by
  have := stream_from evs init rfl h
  rw [show init.left = [] from rfl, List.nil_append] at this
  exact this

/-- The messages that reach the end. -/
def messages : List Ev → List Msg
  | [] => []
  | .arrive m :: evs => m :: messages evs
  | .read _ _ :: evs => messages evs

/-- The number of reads that run into their deadline while the network has their request. -/
def lates : List Ev → Nat
  | [] => 0
  | .arrive _ :: evs => lates evs
  | .read _ .late :: evs => lates evs + 1
  | .read _ _ :: evs => lates evs

theorem lates_timely {k : Nat} {w : Way} (h : w ≠ .late) (evs : List Ev) : lates (.read k w :: evs) = lates evs := by
  cases w <;> first | rfl | exact absurd rfl h

/-- A late read returns nothing of the network; it takes one message away, or leaves a request behind,
or was served from the buffer. -/
theorem read_late (s : End) (k : Nat) :
    ((match (s.read k .late).2 with | some (bs, _) => bs | none => []) ++ (s.read k .late).1.left = s.left ∧
      (s.read k .late).1.waiting ≤ s.waiting + 1 ∧ (s.read k .late).1.inbox = s.inbox) ∨
    (∃ m ms, s.inbox = m :: ms ∧ s.buf = [] ∧ (s.read k .late).1 = { s with inbox := ms } ∧
      (s.read k .late).2 = some ([], .deadline)) := by
  unfold End.read
  by_cases h0 : k = 0
  · rw [if_pos h0]; exact .inl ⟨rfl, Nat.le_succ _, rfl⟩
  rw [if_neg h0]
  by_cases h1 : s.buf ≠ []
  · rw [if_pos h1]
    refine .inl ⟨?_, Nat.le_succ _, rfl⟩
    simp only [End.left, ← List.append_assoc, List.take_append_drop]
  rw [if_neg h1]
  by_cases h2 : s.closed
  · rw [if_pos h2]; exact .inl ⟨rfl, Nat.le_succ _, rfl⟩
  rw [if_neg h2]
  dsimp only
  cases hi : s.inbox with
  | nil => exact .inl ⟨by simp [End.left, hi], Nat.le_refl _, rfl⟩
  | cons m ms => exact .inr ⟨m, ms, rfl, Decidable.not_not.mp h1, rfl, rfl⟩

/-- With the bytes at the end split in a part of a message begun before, and whole messages. -/
theorem damage_from (evs : List Ev) : ∀ (s : End),
    ∃ ks kept : List Msg, ks.Sublist s.inbox ∧ kept.Sublist (messages evs) ∧
      returned s evs ++ (run s evs).left = s.buf ++ (ks ++ kept).flatMap Msg.bytes ∧
      s.inbox.length + (messages evs).length ≤ ks.length + kept.length + lates evs + s.waiting := by
  induction evs with
  | nil =>
    intro s
    refine ⟨s.inbox, [], List.Sublist.refl _, List.Sublist.refl _, ?_, ?_⟩
    · simp [returned, run, End.left]
    · simp [messages, lates]
  | cons e evs ih =>
    intro s
    cases e with
    | arrive m =>
      by_cases hw : 0 < s.waiting
      · have ha : s.arrive m = { s with arrived := s.arrived ++ [m], waiting := s.waiting - 1 } := by
          unfold End.arrive
          exact if_pos hw
        obtain ⟨ks, kept, h1, h2, h3, h4⟩ := ih (s.arrive m)
        rw [ha] at h1 h4
        refine ⟨ks, kept, h1, h2.trans (List.sublist_cons_self _ _), ?_, ?_⟩
        · show returned (s.arrive m) evs ++ (run (s.arrive m) evs).left = _
          rw [h3, ha]
        · have h4' : s.inbox.length + (messages evs).length ≤ ks.length + kept.length + lates evs + (s.waiting - 1) := h4
          show s.inbox.length + ((messages evs).length + 1) ≤ ks.length + kept.length + lates evs + s.waiting
          omega
      · have ha : s.arrive m = { s with arrived := s.arrived ++ [m], inbox := s.inbox ++ [m] } := by
          unfold End.arrive
          exact if_neg hw
        obtain ⟨ks, kept, h1, h2, h3, h4⟩ := ih (s.arrive m)
        rw [ha] at h1 h4
        obtain ⟨k1, k2, e, g1, g2⟩ := List.sublist_append_iff.mp h1
        refine ⟨k1, k2 ++ kept, g1, g2.append h2, ?_, ?_⟩
        · show returned (s.arrive m) evs ++ (run (s.arrive m) evs).left = _
          rw [h3, ha, e, List.append_assoc]
        · have h4' : (s.inbox ++ [m]).length + (messages evs).length ≤ ks.length + kept.length + lates evs + s.waiting := h4
          show s.inbox.length + ((messages evs).length + 1) ≤ k1.length + (k2 ++ kept).length + lates evs + s.waiting
          rw [e] at h4'
          simp only [List.length_append, List.length_cons, List.length_nil] at h4' ⊢
          omega
    | read k w =>
      obtain ⟨ks, kept, h1, h2, h3, h4⟩ := ih (s.read k w).1
      -- what a read that does not lose a message does to buffer and queue
      have keep : ∀ (t : End) (bs : List UInt8), ks.Sublist t.inbox →
          returned t evs ++ (run t evs).left = t.buf ++ (ks ++ kept).flatMap Msg.bytes → bs ++ t.buf = s.buf →
          bs ++ (returned t evs ++ (run t evs).left) = s.buf ++ (ks ++ kept).flatMap Msg.bytes := by
        intro t bs _ e1 e2
        rw [e1, ← List.append_assoc, e2]
      show ∃ ks kept : List Msg, ks.Sublist s.inbox ∧ kept.Sublist (messages evs) ∧
        (_ ++ returned (s.read k w).1 evs) ++ (run (s.read k w).1 evs).left = _ ∧ _
      rw [List.append_assoc]
      by_cases hw : w = .late
      · subst hw
        rcases read_late s k with ⟨g1, g2, g3⟩ | ⟨m, ms, g1, g2, g3, g4⟩
        · refine ⟨ks, kept, by rw [← g3]; exact h1, h2, ?_, ?_⟩
          · refine keep _ _ h1 h3 ?_
            have : _ ++ ((s.read k .late).1.buf ++ (s.read k .late).1.inbox.flatMap Msg.bytes) =
              s.buf ++ s.inbox.flatMap Msg.bytes := g1
            rw [g3, ← List.append_assoc] at this
            exact List.append_cancel_right this
          · rw [g3] at h4
            show s.inbox.length + (messages evs).length ≤ ks.length + kept.length + (lates evs + 1) + s.waiting
            omega
        · refine ⟨ks, kept, ?_, h2, ?_, ?_⟩
          · rw [g1]; rw [g3] at h1; exact h1.trans (List.sublist_cons_self _ _)
          · rw [g4]
            refine keep _ _ h1 h3 ?_
            rw [g3]; rfl
          · rw [g3] at h4
            have h4' : ms.length + (messages evs).length ≤ ks.length + kept.length + lates evs + s.waiting := h4
            show s.inbox.length + (messages evs).length ≤ ks.length + kept.length + (lates evs + 1) + s.waiting
            rw [g1, List.length_cons]
            omega
      · rw [lates_timely hw]
        have hr := read_stream s k w hw
        rw [hr.2] at h4
        by_cases hin : (s.read k w).1.inbox = s.inbox
        · refine ⟨ks, kept, by rw [← hin]; exact h1, h2, ?_, ?_⟩
          · refine keep _ _ h1 h3 ?_
            have : _ ++ ((s.read k w).1.buf ++ (s.read k w).1.inbox.flatMap Msg.bytes) =
              s.buf ++ s.inbox.flatMap Msg.bytes := hr.1
            rw [hin, ← List.append_assoc] at this
            exact List.append_cancel_right this
          · rw [hin] at h4; exact h4
        · -- the read took the first message
          obtain ⟨m, ms, e1, e2, e3⟩ : ∃ m ms, s.inbox = m :: ms ∧ (s.read k w).1.inbox = ms ∧
              (match (s.read k w).2 with | some (bs, _) => bs | none => []) ++ (s.read k w).1.buf = s.buf ++ m.bytes := by
            revert hin
            unfold End.read
            by_cases h0 : k = 0
            · rw [if_pos h0]; exact fun h => absurd rfl h
            rw [if_neg h0]
            by_cases hb : s.buf ≠ []
            · rw [if_pos hb]; exact fun h => absurd rfl h
            rw [if_neg hb]
            by_cases h2 : s.closed
            · rw [if_pos h2]; exact fun h => absurd rfl h
            rw [if_neg h2]
            cases w with
            | early => exact fun h => absurd rfl h
            | late => exact absurd rfl hw
            | normal =>
              dsimp only
              cases hi : s.inbox with
              | nil => exact fun h => absurd hi h
              | cons m ms =>
                intro _
                refine ⟨m, ms, rfl, rfl, ?_⟩
                simp [Decidable.not_not.mp hb]
          rw [e2] at h1 h4
          refine ⟨m :: ks, kept, by rw [e1]; exact h1.cons_cons m, h2, ?_, ?_⟩
          · rw [h3, ← List.append_assoc, e3]
            simp
          · rw [e1]
            show (m :: ms).length + (messages evs).length ≤ _
            simp only [List.length_cons]
            omega

/-- C84.  Whatever the deadlines do, what is returned is whole messages in order of delivery, none
repeated and none torn, and no more messages are lost than reads ran into their deadline while the
network had their request. -/
theorem C84_loss_bounded (evs : List Ev) :
    ∃ kept : List Msg, kept.Sublist (messages evs) ∧
      returned init evs ++ ((run init evs).buf ++ (run init evs).inbox.flatMap Msg.bytes) = kept.flatMap Msg.bytes ∧
      (messages evs).length ≤ kept.length + lates evs := by
  obtain ⟨ks, kept, h1, h2, h3, h4⟩ := damage_from evs init
  have : ks = [] := List.sublist_nil.mp h1
  subst this
  refine ⟨kept, h2, h3, ?_⟩
  have h4' : 0 + (messages evs).length ≤ 0 + kept.length + lates evs + 0 := h4
  omega

/-- C84.  A read returns at most as many bytes as the buffer holds, never fewer than it could when bytes
are left over from before, and waits only if there is no byte, no message, the end is open and the
buffer is not empty. -/
theorem C84_read_size (s : End) (k : Nat) (w : Way) :
    (∀ bs e, (s.read k w).2 = some (bs, e) → bs.length ≤ k) ∧
    (s.buf ≠ [] → (s.read k w).2 = some (s.buf.take k, .nil)) ∧
    ((s.read k w).2 = none ↔ 0 < k ∧ s.buf = [] ∧ s.closed = false ∧ s.inbox = [] ∧ w = .normal) := by
  unfold End.read
  by_cases h0 : k = 0
  · subst h0
    rw [if_pos rfl]
    refine ⟨fun bs e h => ?_, fun _ => by simp, ?_⟩
    · cases h; exact Nat.le_refl _
    · simp
  rw [if_neg h0]
  by_cases h1 : s.buf ≠ []
  · rw [if_pos h1]
    refine ⟨fun bs e h => ?_, fun _ => rfl, by simp [h1]⟩
    cases h; exact List.length_take_le _ _
  rw [if_neg h1]
  have hb : s.buf = [] := Decidable.not_not.mp h1
  by_cases h2 : s.closed
  · rw [if_pos h2]
    refine ⟨fun bs e h => ?_, fun h => absurd hb h, by simp [h2]⟩
    cases h; exact Nat.zero_le _
  rw [if_neg h2]
  refine ⟨?_, fun h => absurd hb h, ?_⟩
  · intro bs e h
    cases w with
    | early => cases h; exact Nat.zero_le _
    | late =>
      cases hi : s.inbox with
      | nil => rw [hi] at h; cases h; exact Nat.zero_le _
      | cons m ms => rw [hi] at h; cases h; exact Nat.zero_le _
    | normal =>
      cases hi : s.inbox with
      | nil => rw [hi] at h; cases h
      | cons m ms => rw [hi] at h; cases h; exact List.length_take_le _ _
  · have hk : 0 < k := Nat.pos_of_ne_zero h0
    cases w <;> cases hi : s.inbox <;> simp [hb, h2, hk]

/-- C84.  End of stream is reported only on a connection the other end has closed: with the bytes of the
closing message, or when all bytes before it were returned. -/
theorem C84_eof (s : End) (k : Nat) (w : Way) (bs : List UInt8) (h : (s.read k w).2 = some (bs, .eof)) :
    (s.closed = true ∧ s.buf = [] ∧ bs = []) ∨
    (∃ m ms, s.inbox = m :: ms ∧ m.eof = true ∧ bs = m.bytes.take k) := by
  unfold End.read at h
  by_cases h0 : k = 0
  · rw [if_pos h0] at h; cases h
  rw [if_neg h0] at h
  by_cases h1 : s.buf ≠ []
  · rw [if_pos h1] at h; cases h
  rw [if_neg h1] at h
  by_cases h2 : s.closed
  · rw [if_pos h2] at h; cases h; exact .inl ⟨h2, Decidable.not_not.mp h1, rfl⟩
  rw [if_neg h2] at h
  cases w with
  | early => cases h
  | late => cases hi : s.inbox <;> rw [hi] at h <;> cases h
  | normal =>
    cases hi : s.inbox with
    | nil => rw [hi] at h; cases h
    | cons m ms =>
      rw [hi] at h
      have h' := Option.some.inj h
      refine .inr ⟨m, ms, rfl, ?_, (congrArg Prod.fst h').symm⟩
      have := congrArg Prod.snd h'
      cases he : m.eof with
      | true => rfl
      | false => rw [he] at this; cases this

/-- C84, part.  A write of at most `UserMaxPayload` bytes on an open connection sends exactly these bytes
and says so; on a closed one it sends nothing and reports an error; in all cases the count is the number
of bytes sent.  Missing: longer writes (`C84_short_write_counterexample`). -/
theorem C84_write_partial (s : End) (p : List UInt8) :
    (s.closed = false → p.length ≤ userMaxPayload →
      (s.write userMaxPayload p).1 = p.length ∧ (s.write userMaxPayload p).2.1 = .nil ∧
      ((s.write userMaxPayload p).2.2).getD [] = p) ∧
    (s.closed = true → s.write userMaxPayload p = (0, .closed, none)) ∧
    ((s.write userMaxPayload p).2.2).getD [] = p.take (s.write userMaxPayload p).1 := by
  unfold End.write
  refine ⟨fun hc hl => ?_, fun hc => by rw [if_pos hc], ?_⟩
  · rw [if_neg (by rw [hc]; exact Bool.false_ne_true)]
    by_cases hp : p = []
    · rw [if_pos hp, hp]; exact ⟨rfl, rfl, rfl⟩
    · rw [if_neg hp, if_neg (Nat.not_lt.mpr hl)]; exact ⟨rfl, rfl, rfl⟩
  · by_cases hc : s.closed = true
    · rw [if_pos hc]; rfl
    rw [if_neg hc]
    by_cases hp : p = []
    · rw [if_pos hp]; rfl
    rw [if_neg hp]
    by_cases hl : userMaxPayload < p.length
    · rw [if_pos hl]; rfl
    · rw [if_neg hl]; exact (List.take_length).symm

/-- The full claim on `Write` fails: every write of more than `UserMaxPayload` bytes on an open
connection is cut, and the error is nil. -/
theorem C84_short_write_counterexample (s : End) (p : List UInt8) (hc : s.closed = false) (hl : userMaxPayload < p.length) :
    (s.write userMaxPayload p).1 < p.length ∧ (s.write userMaxPayload p).2.1 = .nil := by
  unfold End.write
  rw [if_neg (by rw [hc]; exact Bool.false_ne_true), if_neg (by rintro rfl; exact Nat.not_lt_zero _ hl), if_pos hl]
  exact ⟨hl, rfl⟩

example : init.closed = false ∧ userMaxPayload < (List.replicate 1200001 (0 : UInt8)).length :=
  ⟨rfl, by rw [List.length_replicate]; decide⟩

/-- A run over several messages, buffers and a deadline. -/
def exEvs : List Ev := [.arrive ⟨[1, 2, 3], false⟩, .read 2 .normal, .read 5 .early, .arrive ⟨[4], false⟩, .read 1 .early, .read 9 .normal, .arrive ⟨[5], false⟩]

example : (∀ e ∈ exEvs, e.timely) ∧ returned init exEvs = [1, 2, 3, 4] ∧ (run init exEvs).inbox = [⟨[5], false⟩] := by
  refine ⟨?_, by decide +kernel, by decide +kernel⟩
  intro e he
  simp only [exEvs, List.mem_cons, List.not_mem_nil, or_false] at he
  rcases he with rfl | rfl | rfl | rfl | rfl | rfl | rfl <;> simp [Ev.timely]

/-- The full claim on `Read` fails: a `Read` runs into its deadline with its request in the network; the
next message goes to that request and is lost; the following `Read` returns the message after it. -/
theorem C84_deadline_counterexample :
    returned init [.read 10 .late, .arrive ⟨[1], false⟩, .arrive ⟨[2], false⟩, .read 10 .normal] = [2] ∧
    (run init [.read 10 .late, .arrive ⟨[1], false⟩, .arrive ⟨[2], false⟩, .read 10 .normal]).left = [] := by decide +kernel

end Verif.Simconn
