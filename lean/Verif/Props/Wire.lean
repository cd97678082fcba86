import Verif.Proofs.Wire
/-
Properties C01-C05: unencrypted framing, exact reads and writes, compression tags.
-/
namespace Verif.Wire
open Spec

/-- A concrete lossless codec used in the `example`s: it puts one byte in front. -/
def demoCodec : Codec where
  comp b := 0x2a :: b
  decomp b := match b with
    | 0x2a :: r => some r
    | _ => none

theorem demoCodec_lossless : Lossless demoCodec := fun _ => rfl

/-- C01. Send any list of messages, each within the size limit and each with any
workspace settings; cut the resulting bytes (followed by any `rest`) in any way
into reads; then reading as many messages as were sent gives exactly the sent
bodies in order, each with the tag byte that its frame carries (byte 7), and the
stream is left exactly at `rest`. (`rest = []` is "positioned at the end".)
`sent` pairs each message with the bytes that sending it put on the wire. -/
theorem C01_framed_messages_survive_segmentation
    (k : Codec) (hk : Lossless k) (hd : Bool)
    (sent : List (Sent × Bytes))
    (hsent : ∀ p ∈ sent, sendMessage k p.1.ws p.1.lastRead p.1.noSys p.1.body = .ok p.2)
    (hfit : ∀ p ∈ sent, fits k p.1)
    (rest : Bytes) (c : Conn) (hc : stream c = (sent.map Prod.snd).flatten ++ rest) :
    ∃ c', readMany k hd sent.length c =
        (.ok (sent.map fun p => (p.2[7]?.getD 0, p.1.body)), c') ∧
      stream c' = rest := by
  induction sent generalizing c hd with
  | nil => exact ⟨c, rfl, by simpa using hc⟩
  | cons p ps ih =>
    obtain ⟨m, f⟩ := p
    have hm := hsent (m, f) (by simp)
    obtain ⟨raw, hf, hcar, hraw⟩ := sendMessage_ok k m.ws m.lastRead m.noSys m.body f hk hm
    have hl : raw.length ≤ maxMessage := by
      obtain ⟨h1, h2⟩ := hfit (m, f) (by simp)
      rcases hraw with rfl | rfl
      · exact h1
      · exact h2
    have hs : stream c = frame (chooseTag m.ws m.lastRead m.noSys) raw ++
        ((ps.map Prod.snd).flatten ++ rest) := by
      rw [hc, hf]; simp
    obtain ⟨c1, h1, h2⟩ := readMessage_frame k hd c _ raw _ hl hs
    have hu := (unpack_ok k hd (chooseTag m.ws m.lastRead m.noSys) _ raw m.body).2 ⟨rfl, hcar⟩
    rw [hu] at h1
    obtain ⟨c2, h3, h4⟩ := ih (hd || chooseTag m.ws m.lastRead m.noSys != 0)
      (fun x hx => hsent x (by simp [hx])) (fun x hx => hfit x (by simp [hx])) c1 h2
    refine ⟨c2, ?_, h4⟩
    simp only [List.length_cons, readMany, h1, h3, List.map_cons]
    rw [hf]
    simp [frame]

example : ∃ f, sendMessage demoCodec { compress := true, isServer := false, defaultTag := 1 } 0 false
      [1, 2, 3] = .ok f ∧
    fits demoCodec ⟨{ compress := true, isServer := false, defaultTag := 1 }, 0, false, [1, 2, 3]⟩ ∧
    stream [⟨f.take 3, none⟩, ⟨[], none⟩, ⟨f.drop 3, some .eof⟩] = [f].flatten ++ [] := by
  refine ⟨_, rfl, by simp [fits, demoCodec], by decide⟩

/-- C01, configuration side: with compression off, with the per-message
"no system compression" flag, or with one of the usable algorithm names, sending
does produce a frame (so C01's hypothesis on the sends holds). The names "lz4"
and "zstd:*" are accepted by the configuration and then crash the sender, see
`C05_lz4_crashes_sender_counterexample`. -/
theorem C01_usable_configurations_send (k : Codec) (w : WS) (lr : UInt8) (ns : Bool) (b : Bytes)
    (h : w.compress = false ∨ ns = true ∨ chooseTag w lr ns ∈ ([0, 1, 7] : List UInt8)) :
    ∃ f, sendMessage k w lr ns b = .ok f := by
  unfold sendMessage sendWrites
  simp only
  by_cases hc : (w.compress && !ns) = true
  · have ht : chooseTag w lr ns ∈ ([0, 1, 7] : List UInt8) := by
      rcases h with h | h | h
      · simp [h] at hc
      · simp [h] at hc
      · exact h
    rw [if_pos hc]
    simp only [List.mem_cons, List.not_mem_nil, or_false] at ht
    rcases ht with ht | ht | ht <;> simp [handleCompress, ht]
  · rw [if_neg hc]; simp

example : chooseTag { compress := true, isServer := true, defaultTag := 2 } 1 false ∈
    ([0, 1, 7] : List UInt8) := by decide

/-- C02, the part that holds. For every incoming stream: if a read returns a
message, the stream began with a well-formed frame within the size limit whose
payload carries exactly that message, and exactly that frame was consumed; and
if the stream does not begin with a complete well-formed frame within the limit,
the read returns an error (not a message, not a crash).
Missing from the full property: on a complete well-formed frame whose tag byte
is unknown or whose payload cannot be decompressed the code crashes instead of
returning an error (`C02_bad_tag_crashes_reader_counterexample`). -/
theorem C02_no_message_from_bad_frame_partial (k : Codec) (hd : Bool) (c : Conn) :
    (∀ tag body c', readMessage k hd c = (.ok (tag, body), c') →
      ∃ payload, payload.length ≤ 1310640 ∧ stream c = frame tag payload ++ stream c' ∧
        carries k tag payload body) ∧
    ((¬ ∃ tag payload rest, payload.length ≤ 1310640 ∧ stream c = frame tag payload ++ rest) →
      ∃ e c', readMessage k hd c = (.err e, c')) := by
  refine ⟨?_, ?_⟩
  · intro tag body c' h
    rcases readMessage_spec k hd c _ c' h with ⟨t, raw, rest, hr, hs, hc', hu⟩ | ⟨_, e, he⟩
    · obtain ⟨rfl, hcar⟩ := (unpack_ok k hd t tag raw body).1 hu.symm
      exact ⟨raw, hr, by rw [hs, hc'], hcar⟩
    · simp at he
  · intro hno
    rcases h : readMessage k hd c with ⟨r, c'⟩
    rcases readMessage_spec k hd c r c' h with ⟨t, raw, rest, hr, hs, _, _⟩ | ⟨_, e, he⟩
    · exact absurd ⟨t, raw, rest, hr, hs⟩ hno
    · exact ⟨e, c', by rw [he]⟩

-- A stream cut in the middle of a frame meets the second hypothesis.
example : ¬ ∃ tag payload rest, payload.length ≤ 1310640 ∧
    stream [⟨[0xb3, 0x5d, 0x18], none⟩, ⟨[0x39], some .eof⟩] = frame tag payload ++ rest := by
  rintro ⟨t, p, r, _, h⟩
  have := congrArg List.length h
  simp [stream, frame, bigEndian8] at this

/-- C02 crash-freedom, the part that holds: a read on a frame whose tag is 0 or 7,
or is 1 with data the decompressor accepts, does not crash. -/
theorem C02_no_crash_on_known_tags_partial (k : Codec) (hd : Bool) (c c' : Conn)
    (tag : UInt8) (payload rest : Bytes) (hs : stream c = frame tag payload ++ rest)
    (hl : payload.length ≤ 1310640)
    (htag : tag = 0 ∨ tag = 7 ∨ (tag = 1 ∧ (k.decomp payload).isSome)) :
    readMessage k hd c ≠ (.panic, c') := by
  obtain ⟨c2, h, _⟩ := readMessage_frame k hd c tag payload rest hl hs
  rw [h]
  intro hp
  simp only [Prod.mk.injEq] at hp
  have h1 := hp.1
  rcases htag with rfl | rfl | ⟨rfl, hsome⟩
  · simp only [unpack, handleDecompress, if_true] at h1; split at h1 <;> simp_all
  · simp [unpack, handleDecompress] at h1
  · obtain ⟨x, hx⟩ := Option.isSome_iff_exists.1 hsome
    simp [unpack, handleDecompress, hx] at h1

example : stream [⟨frame 7 [9, 9], none⟩] = frame 7 [9, 9] ++ [] := by decide

/-- C02 is false of the code: 17 bytes with tag byte 9 crash whoever reads them
(the read loops have no recover). -/
theorem C02_bad_tag_crashes_reader_counterexample :
    ∃ c : Conn, (stream c).length = 17 ∧
      ∀ k hd, (readMessage k hd c).1 = .panic := by
  refine ⟨[⟨frame 9 [0], none⟩], by decide, ?_⟩
  intro k hd
  obtain ⟨c2, h, _⟩ := readMessage_frame k hd [⟨frame 9 [0], none⟩] 9 [0] [] (by decide) (by decide)
  rw [h]
  simp [unpack, handleDecompress]

/-- C03, reading: for every way the connection delivers its data, asking for
`need` bytes succeeds exactly when the connection delivers that many before an
error; then the buffer is exactly the next `need` bytes and the stream continues
right after them; otherwise an error is returned. -/
theorem C03_exact_read (c : Conn) (need : Nat) :
    ((∃ buf c', readFull need [] c = (.ok buf, c')) ↔ need ≤ (stream c).length) ∧
    (∀ buf c', readFull need [] c = (.ok buf, c') →
      buf.length = need ∧ stream c = buf ++ stream c') ∧
    ((stream c).length < need → ∃ e c', readFull need [] c = (.err e, c')) := by
  refine ⟨⟨?_, ?_⟩, ?_, ?_⟩
  · rintro ⟨buf, c', h⟩
    rcases readFull_ok_iff c need _ c' h with ⟨h1, _⟩ | ⟨_, e, he⟩
    · exact h1
    · simp at he
  · intro h
    obtain ⟨c', h1, _⟩ := readFull_enough c need [] h
    exact ⟨_, c', h1⟩
  · intro buf c' h
    rcases readFull_ok_iff c need _ c' h with ⟨h1, h2, h3⟩ | ⟨_, e, he⟩
    · simp only [Res.ok.injEq] at h2
      rw [h2, h3, List.length_take, List.take_append_drop]
      exact ⟨by omega, rfl⟩
    · simp at he
  · exact readFull_short c need []

example : 3 ≤ (stream [⟨[1, 2], none⟩, ⟨[], none⟩, ⟨[3, 4], some .eof⟩]).length := by decide

/-- C03, writing: for every sequence of results of the underlying Write (short
counts, errors, deadline errors that are retried once), if the helper reports
success then the connection took precisely the buffer; if it reports an error
(or is still waiting), the connection took a strict prefix of the buffer. -/
theorem C03_exact_write (haveDeadline : Bool) (buf : Bytes) (evs : List WriteEv) :
    ((writeFull haveDeadline false 0 buf evs).2 = .ok →
      (writeFull haveDeadline false 0 buf evs).1 = buf) ∧
    ((writeFull haveDeadline false 0 buf evs).2 ≠ .ok →
      ∃ lost, lost ≠ [] ∧ (writeFull haveDeadline false 0 buf evs).1 ++ lost = buf) := by
  have := writeFull_spec haveDeadline buf evs false 0 (Nat.zero_le _)
  simp only [List.drop_zero, Nat.zero_add] at this
  refine ⟨this.1, fun h => ?_⟩
  obtain ⟨m, hm, he⟩ := this.2 h
  refine ⟨buf.drop m, ?_, by rw [he, List.take_append_drop]⟩
  intro hd
  have := List.drop_eq_nil_iff.1 hd
  omega

example : (writeFull true false 0 [1, 2, 3, 4] [⟨1, none⟩, ⟨1, some .deadline⟩, ⟨9, none⟩]).2 = .ok ∧
    (writeFull true false 0 [1, 2, 3, 4] [⟨1, none⟩, ⟨1, some .deadline⟩, ⟨1, some .deadline⟩]).2
      = .err .deadline := by decide

/-- C03, writing: without a deadline the first error reported with a short count is final; with one,
a single deadline error is waited out, and only after some bytes were taken. -/
theorem C03_errors_end_the_write (haveDeadline : Bool) (buf : Bytes) (n : Nat) (e : Err) (evs : List WriteEv)
    (hn : n < buf.length) :
    (haveDeadline = false ∨ n = 0 ∨ e ≠ .deadline →
      writeFull haveDeadline false 0 buf (⟨n, some e⟩ :: evs) = (buf.take n, .err e)) ∧
    ∀ n' e', n + n' < buf.length →
      ∃ out, writeFull haveDeadline false 0 buf (⟨n, some e⟩ :: ⟨n', some e'⟩ :: evs) = (out, .err e) ∨
        writeFull haveDeadline false 0 buf (⟨n, some e⟩ :: ⟨n', some e'⟩ :: evs) = (out, .err e') := by
  have h1 : ¬ buf.length ≤ 0 := by omega
  have h2 : min n (buf.length - 0) = n := by omega
  refine ⟨?_, ?_⟩
  · intro h
    unfold writeFull
    rw [if_neg h1]
    simp only [h2, Nat.zero_add, List.drop_zero]
    rw [if_neg (by omega), if_neg]
    rcases h with h | h | h
    · simp [h]
    · simp [h]
    · simp [h]
  · intro n' e' hn'
    unfold writeFull
    rw [if_neg h1]
    simp only [h2, Nat.zero_add, List.drop_zero]
    rw [if_neg (by omega)]
    split
    · unfold writeFull
      rw [if_neg (by omega)]
      simp only
      have h3 : min n' (buf.length - n) = n' := by omega
      rw [h3, if_neg (by omega), if_neg (by simp)]
      exact ⟨_, .inr rfl⟩
    · exact ⟨_, .inl rfl⟩

example : (1 : Nat) < ([1, 2, 3, 4] : Bytes).length ∧ 1 + 1 < ([1, 2, 3, 4] : Bytes).length := by decide

/-- C04. Every name that encodes to a byte, other than the empty string, decodes
back to itself (the empty string is an alias of "compression-none" and decodes
to that); every byte that decodes to a name re-encodes to itself; names outside
the eight known ones and bytes above 7 give an error. -/
theorem C04_compression_tag_unambiguous :
    (∀ s t, encodeMagic7 s = .ok t → s ≠ "" → decodeMagic7 t = .ok s) ∧
    (encodeMagic7 "" = encodeMagic7 "compression-none") ∧
    (∀ t s, decodeMagic7 t = .ok s → encodeMagic7 s = .ok t) ∧
    (∀ s, s ∉ ["", "compression-none", "s2", "lz4", "zstd:01", "zstd:03", "zstd:07", "zstd:11",
        "no-system-compression"] → ∃ e, encodeMagic7 s = .err e) ∧
    (∀ t : UInt8, 7 < t.toNat → ∃ e, decodeMagic7 t = .err e) ∧
    (∀ s s' t, encodeMagic7 s = .ok t → encodeMagic7 s' = .ok t → s ≠ "" → s' ≠ "" → s = s') := by
  have h1 : ∀ s t, encodeMagic7 s = .ok t → s ≠ "" → decodeMagic7 t = .ok s := by
    intro s t h hs
    unfold encodeMagic7 at h
    simp only [hs, false_or] at h
    repeat' split at h
    all_goals first
      | contradiction
      | (simp only [Res.ok.injEq] at h; subst h; subst_vars; decide)
  refine ⟨h1, by decide, ?_, ?_, ?_, ?_⟩
  · intro t s h
    unfold decodeMagic7 at h
    repeat' split at h
    all_goals first
      | contradiction
      | (simp only [Res.ok.injEq] at h; subst h; subst_vars; decide)
  · intro s hs
    simp only [List.mem_cons, List.not_mem_nil, or_false, not_or] at hs
    obtain ⟨a, b, c, d, e, f, g, h, i⟩ := hs
    exact ⟨.unknownAlgo, by simp [encodeMagic7, a, b, c, d, e, f, g, h, i]⟩
  · intro t ht
    refine ⟨.unknownMagic7, ?_⟩
    unfold decodeMagic7
    repeat' split
    all_goals first
      | rfl
      | (subst_vars; simp at ht)
  · intro s s' t h h' hs hs'
    have a := h1 s t h hs
    have b := h1 s' t h' hs'
    rw [a] at b
    simpa using b

example : encodeMagic7 "zstd:07" = .ok 5 ∧ "zstd:07" ≠ "" := by decide

/-- C05, the part that holds: for every payload and settings for which the sender
produces a frame within the limit, the receiver hands up the sender's payload,
whatever the receiver's own compression setting.
Missing: with "lz4" or "zstd:*" configured the sender crashes
(`C05_lz4_crashes_sender_counterexample`). -/
theorem C05_receiver_undoes_compression_partial (k : Codec) (hk : Lossless k) (s : Sent)
    (hfit : fits k s) (f : Bytes) (h : sendMessage k s.ws s.lastRead s.noSys s.body = .ok f)
    (hd : Bool) (c : Conn) (rest : Bytes) (hc : stream c = f ++ rest) :
    ∃ tag c', readMessage k hd c = (.ok (tag, s.body), c') ∧ stream c' = rest := by
  have := C01_framed_messages_survive_segmentation k hk hd [(s, f)]
    (by simpa using h) (by simpa using hfit) rest c (by simpa using hc)
  obtain ⟨c', h1, h2⟩ := this
  refine ⟨f[7]?.getD 0, c', ?_, h2⟩
  simp only [List.length_cons, List.length_nil, readMany, List.map_cons, List.map_nil] at h1
  rcases hr : readMessage k hd c with ⟨r, c1⟩
  rw [hr] at h1
  cases r with
  | ok a => obtain ⟨t, b⟩ := a; simp at h1 ⊢; exact h1
  | err e => simp at h1
  | panic => simp at h1

example : fits demoCodec ⟨{ compress := true, isServer := true, defaultTag := 2 }, 1, false, [5]⟩ ∧
    sendMessage demoCodec { compress := true, isServer := true, defaultTag := 2 } 1 false [5] =
      .ok (frame 1 [0x2a, 5]) := by
  refine ⟨by simp [fits, demoCodec], by decide⟩

/-- C05, crash side, the part that holds: with the algorithm names "", "none",
"s2", "no-system-compression" (or compression off) and a peer that used one of
the same tags or a tag no one knows, the sender does not crash. -/
theorem C05_usable_settings_do_not_crash_partial (k : Codec) (off srv : Bool) (algo : String)
    (halgo : algo ∈ ["", "compression-none", "s2", "no-system-compression"])
    (lastRead : UInt8) (hl : lastRead ∈ ([0, 1, 7] : List UInt8) ∨ 7 < lastRead.toNat) (ns : Bool) (body : Bytes) :
    ∃ w f, newWorkspace off srv algo = .ok w ∧ sendMessage k w lastRead ns body = .ok f := by
  cases off
  · have : ∃ t, encodeMagic7 algo = .ok t ∧ t ∈ ([0, 1, 7] : List UInt8) := by
      simp only [List.mem_cons, List.not_mem_nil, or_false] at halgo
      rcases halgo with rfl | rfl | rfl | rfl
      · exact ⟨0, by decide, by decide⟩
      · exact ⟨0, by decide, by decide⟩
      · exact ⟨1, by decide, by decide⟩
      · exact ⟨7, by decide, by decide⟩
    obtain ⟨t, ht, htm⟩ := this
    refine ⟨⟨true, srv, t⟩, ?_⟩
    have htag : ns = true ∨ chooseTag ⟨true, srv, t⟩ lastRead ns ∈ ([0, 1, 7] : List UInt8) := by
      cases ns
      · right
        simp only [chooseTag]
        cases srv
        · simpa using htm
        · simp only [if_true]
          simp only [List.mem_cons, List.not_mem_nil, or_false] at hl
          rcases hl with (rfl | rfl | rfl) | hl
          · simp
          · simp
          · simp
          · simpa [show 8 ≤ lastRead.toNat by omega] using htm
      · left; rfl
    obtain ⟨f, hf⟩ := C01_usable_configurations_send k ⟨true, srv, t⟩ lastRead ns body (.inr htag)
    exact ⟨f, by simp [newWorkspace, ht], hf⟩
  · obtain ⟨f, hf⟩ := C01_usable_configurations_send k ⟨false, srv, 0⟩ lastRead ns body (.inl rfl)
    exact ⟨_, f, rfl, hf⟩

example : "s2" ∈ ["", "compression-none", "s2", "no-system-compression"] ∧
    ((1 : UInt8) ∈ ([0, 1, 7] : List UInt8) ∨ 7 < (1 : UInt8).toNat) ∧
    ((9 : UInt8) ∈ ([0, 1, 7] : List UInt8) ∨ 7 < (9 : UInt8).toNat) := by decide

/-- C05 is false of the code: "lz4" is accepted by the configuration and every
send then crashes. -/
theorem C05_lz4_crashes_sender_counterexample :
    ∃ w, newWorkspace false false "lz4" = .ok w ∧
      ∀ k body, sendMessage k w 0 false body = .panic := by
  refine ⟨⟨true, false, 2⟩, by decide, ?_⟩
  intro k body
  simp [sendMessage, sendWrites, chooseTag, handleCompress]

end Verif.Wire
