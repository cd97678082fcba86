import Verif.Spec.Wire
namespace Verif.Wire
open Spec

theorem stream_rest (c : Chunk) (n : Nat) (tl : Conn) (h : n ≤ c.data.length) :
    stream (c.rest n tl) = (stream (c :: tl)).drop n := by
  unfold Chunk.rest
  split
  · have : n = c.data.length := by omega
    subst this
    cases he : c.err with
    | none => simp [stream, he]
    | some e => simp [stream, he]
  · simp only [stream]
    rw [List.drop_append_of_le_length h]

theorem readFull_enough (c : Conn) : ∀ (need : Nat) (acc : Bytes), need ≤ (stream c).length →
    ∃ c', readFull need acc c = (.ok (acc ++ (stream c).take need), c') ∧
      stream c' = (stream c).drop need := by
  induction c with
  | nil =>
    intro need acc h
    simp [stream] at h
    subst h
    exact ⟨[], by simp [readFull, stream]⟩
  | cons c tl ih =>
    intro need acc h
    unfold readFull
    by_cases h0 : need = 0
    · subst h0; exact ⟨c :: tl, by simp⟩
    · simp only [h0, if_false]
      by_cases h1 : need ≤ c.data.length
      · simp only [h1, if_true]
        refine ⟨_, ?_, stream_rest c need tl h1⟩
        simp [stream, List.take_append_of_le_length h1]
      · simp only [h1, if_false]
        cases he : c.err with
        | some e => simp [stream, he] at h; omega
        | none =>
          simp only
          have hs : stream (c :: tl) = c.data ++ stream tl := by simp [stream, he]
          rw [hs] at h ⊢
          rw [List.length_append] at h
          obtain ⟨c', h2, h3⟩ := ih (need - c.data.length) (acc ++ c.data) (by omega)
          refine ⟨c', ?_, ?_⟩
          · rw [h2, List.take_append, List.take_of_length_le (by omega : c.data.length ≤ need)]
            simp
          · rw [h3, List.drop_append, List.drop_of_length_le (by omega : c.data.length ≤ need)]
            simp

theorem readFull_short (c : Conn) : ∀ (need : Nat) (acc : Bytes), (stream c).length < need →
    ∃ e c', readFull need acc c = (.err e, c') := by
  induction c with
  | nil =>
    intro need acc h
    simp [stream] at h
    exact ⟨.eof, [], by simp [readFull]; omega⟩
  | cons c tl ih =>
    intro need acc h
    unfold readFull
    have h0 : need ≠ 0 := by omega
    simp only [h0, if_false]
    have h1 : ¬ need ≤ c.data.length := by simp [stream] at h; omega
    simp only [h1, if_false]
    cases he : c.err with
    | some e => exact ⟨e, _, rfl⟩
    | none =>
      simp only
      apply ih
      simp [stream, he] at h
      omega

/-- Complete description of readFull. -/
theorem readFull_ok_iff (c : Conn) (need : Nat) (r : Res Bytes) (c' : Conn)
    (h : readFull need [] c = (r, c')) :
    (need ≤ (stream c).length ∧ r = .ok ((stream c).take need) ∧
      stream c' = (stream c).drop need) ∨
    ((stream c).length < need ∧ ∃ e, r = .err e) := by
  by_cases hn : need ≤ (stream c).length
  · left
    obtain ⟨c'', h1, h2⟩ := readFull_enough c need [] hn
    rw [h] at h1
    simp at h1
    exact ⟨hn, h1.1, h1.2 ▸ h2⟩
  · right
    obtain ⟨e, c'', h1⟩ := readFull_short c need [] (by omega)
    rw [h] at h1
    simp at h1
    exact ⟨by omega, e, h1.1⟩

theorem be64_eq (n : Nat) : be64 n = bigEndian8 n := by
  simp [be64, bigEndian8, List.range, List.range.loop]

theorem be64_length (n : Nat) : (be64 n).length = 8 := rfl

theorem bigEndian8_length (n : Nat) : (bigEndian8 n).length = 8 := by simp [bigEndian8]

theorem deBe_be64 (n : Nat) (h : n < 2 ^ 64) : deBe (be64 n) = n := by
  simp only [deBe, be64, List.foldl, UInt8.toNat_ofNat']
  omega

theorem be64_deBe (l : Bytes) (h : l.length = 8) : be64 (deBe l) = l := by
  match l, h with
  | [a, b, c, d, e, f, g, i], _ =>
    simp only [deBe, List.foldl, be64]
    have ha := a.toNat_lt; have hb := b.toNat_lt; have hc := c.toNat_lt; have hd := d.toNat_lt
    have he := e.toNat_lt; have hf := f.toNat_lt; have hg := g.toNat_lt; have hi := i.toNat_lt
    simp only [List.cons.injEq, and_true, ← UInt8.toNat_inj, UInt8.toNat_ofNat']
    refine ⟨?_, ?_, ?_, ?_, ?_, ?_, ?_, ?_⟩ <;> omega

theorem frame_eq (tag : UInt8) (p : Bytes) :
    frame tag p = (magic.take 7 ++ [tag]) ++ be64 p.length ++ p := by
  simp [frame, magic, be64_eq]

/-- What readMessage does after the body bytes were obtained. -/
def unpack (k : Codec) (hasDecomp : Bool) (tag : UInt8) (b : Bytes) : Res (UInt8 × Bytes) :=
  if hasDecomp = false ∧ tag = 0 then .ok (tag, b)
  else match handleDecompress k tag b with
    | .ok x => .ok (tag, x)
    | .err e => .err e
    | .panic => .panic

theorem unpack_ok (k : Codec) (hd : Bool) (tag t : UInt8) (b x : Bytes) :
    unpack k hd tag b = .ok (t, x) ↔ t = tag ∧ carries k tag b x := by
  unfold unpack handleDecompress carries
  by_cases h0 : tag = 0
  · subst h0
    cases hd <;> simp <;> grind
  · by_cases h1 : tag = 1
    · subst h1
      cases hc : k.decomp b <;> simp <;> grind
    · by_cases h7 : tag = 7
      · subst h7; simp; grind
      · simp [h0, h1, h7]

/-- Complete description of readMessage in terms of the byte stream. -/
theorem readMessage_spec (k : Codec) (hd : Bool) (c : Conn) (r : Res (UInt8 × Bytes)) (c' : Conn)
    (h : readMessage k hd c = (r, c')) :
    (∃ tag raw rest, raw.length ≤ maxMessage ∧ stream c = frame tag raw ++ rest ∧
        stream c' = rest ∧ r = unpack k hd tag raw) ∨
    ((¬ ∃ tag raw rest, raw.length ≤ maxMessage ∧ stream c = frame tag raw ++ rest) ∧
        ∃ e, r = .err e) := by
  have key : ∀ tag raw rest, stream c = frame tag raw ++ rest →
      (stream c).take 8 = magic.take 7 ++ [tag] ∧
      ((stream c).drop 8).take 8 = be64 raw.length ∧
      ((stream c).drop 8).drop 8 = raw ++ rest := by
    intro tag raw rest hs
    rw [hs, frame_eq]
    simp [magic, be64]
  unfold readMessage at h
  rcases h1 : readFull 8 [] c with ⟨r1, c1⟩
  rw [h1] at h
  rcases readFull_ok_iff c 8 r1 c1 h1 with ⟨hl1, rfl, hs1⟩ | ⟨hl1, e, rfl⟩
  · simp only at h
    by_cases hm : List.take 7 (List.take 8 (stream c)) = magic.take 7
    · simp only [hm, ne_eq, not_true, if_false] at h
      rcases h2 : readFull 8 [] c1 with ⟨r2, c2⟩
      rw [h2] at h
      rcases readFull_ok_iff c1 8 r2 c2 h2 with ⟨hl2, rfl, hs2⟩ | ⟨hl2, e, rfl⟩
      · simp only at h
        by_cases hlen : maxMessage < deBe (List.take 8 (stream c1))
        · simp only [hlen, if_true, Prod.mk.injEq] at h
          right
          refine ⟨?_, _, h.1.symm⟩
          rintro ⟨tag, raw, rest, hr, hs⟩
          obtain ⟨_, k2, _⟩ := key _ _ _ hs
          rw [hs1, k2, deBe_be64 _ (by unfold maxMessage at hr; omega)] at hlen
          omega
        · simp only [hlen, if_false] at h
          rcases h3 : readFull (deBe (List.take 8 (stream c1))) [] c2 with ⟨r3, c3⟩
          rw [h3] at h
          rcases readFull_ok_iff c2 _ r3 c3 h3 with ⟨hl3, rfl, hs3⟩ | ⟨hl3, e, rfl⟩
          · simp only at h
            left
            refine ⟨((stream c).take 8).getLast?.getD 0,
              (stream c2).take (deBe (List.take 8 (stream c1))),
              (stream c2).drop (deBe (List.take 8 (stream c1))), ?_, ?_, ?_, ?_⟩
            · rw [List.length_take, Nat.min_eq_left hl3]; omega
            · rw [frame_eq, List.length_take, Nat.min_eq_left hl3,
                be64_deBe _ (by rw [List.length_take]; omega)]
              have e1 : List.take 7 magic ++ [((stream c).take 8).getLast?.getD 0] =
                  (stream c).take 8 := by
                rw [← hm]
                obtain ⟨l, x, hlx⟩ : ∃ l x, (stream c).take 8 = l ++ [x] := by
                  have : (stream c).take 8 ≠ [] := by
                    intro hh
                    have := congrArg List.length hh
                    rw [List.length_take, List.length_nil] at this
                    omega
                  exact ⟨_, _, (List.dropLast_concat_getLast this).symm⟩
                have hll : (l ++ [x]).length = 8 := by rw [← hlx, List.length_take]; omega
                rw [hlx]
                simp at hll ⊢
                rw [List.take_append_of_le_length (by omega), List.take_of_length_le (by omega)]
              rw [e1, hs1, List.append_assoc, List.append_assoc, List.take_append_drop, hs2, hs1]
              rw [List.take_append_drop, List.take_append_drop]
            · have : c3 = c' := by
                repeat' split at h
                all_goals simp_all
              rw [← this, hs3]
            · unfold unpack
              cases hd with
              | true =>
                simp at h ⊢
                split at h <;> simp_all
              | false =>
                simp at h ⊢
                by_cases ht : (List.take 8 (stream c)).getLast?.getD 0 = 0
                · simp_all
                · simp only [ht, if_false] at h ⊢
                  by_cases hdm : ∃ s, decodeMagic7 ((List.take 8 (stream c)).getLast?.getD 0) = .ok s
                  · obtain ⟨s, hs⟩ := hdm
                    rw [hs] at h
                    simp at h
                    split at h <;> simp_all
                  · have hp : handleDecompress k ((List.take 8 (stream c)).getLast?.getD 0)
                        ((stream c2).take (deBe (List.take 8 (stream c1)))) = .panic := by
                      generalize (List.take 8 (stream c)).getLast?.getD 0 = t at hdm ht
                      unfold handleDecompress
                      unfold decodeMagic7 at hdm
                      split
                      · contradiction
                      · split
                        · subst t; simp at hdm
                        · split
                          · subst t; simp at hdm
                          · rfl
                    rw [hp]
                    cases hdm2 : decodeMagic7 ((List.take 8 (stream c)).getLast?.getD 0) with
                    | ok s => exact absurd ⟨s, hdm2⟩ hdm
                    | err e => rw [hdm2] at h; simp at h; exact h.1.symm
                    | panic => rw [hdm2] at h; simp at h; exact h.1.symm
          · simp only [Prod.mk.injEq] at h
            right
            refine ⟨?_, _, h.1.symm⟩
            rintro ⟨tag, raw, rest, hr, hs⟩
            obtain ⟨_, k2, k3⟩ := key _ _ _ hs
            rw [hs1, k2, deBe_be64 _ (by unfold maxMessage at hr; omega), hs2, hs1, k3] at hl3
            simp at hl3
            omega
      · simp only [Prod.mk.injEq] at h
        right
        refine ⟨?_, _, h.1.symm⟩
        rintro ⟨tag, raw, rest, hr, hs⟩
        obtain ⟨_, k2, _⟩ := key _ _ _ hs
        have := congrArg List.length k2
        rw [be64_length, List.length_take, ← hs1] at this
        omega
    · simp only [hm, ne_eq, not_false_eq_true, if_true, Prod.mk.injEq] at h
      right
      refine ⟨?_, _, h.1.symm⟩
      rintro ⟨tag, raw, rest, hr, hs⟩
      obtain ⟨k1, _, _⟩ := key _ _ _ hs
      rw [k1] at hm
      simp [magic] at hm
  · simp only [Prod.mk.injEq] at h
    right
    refine ⟨?_, _, h.1.symm⟩
    rintro ⟨tag, raw, rest, hr, hs⟩
    rw [hs] at hl1
    simp [frame] at hl1
    omega

/-- Frames are uniquely readable. -/
theorem frame_inj (t t' : UInt8) (p p' r r' : Bytes) (hp : p.length ≤ maxMessage)
    (hp' : p'.length ≤ maxMessage) (h : frame t p ++ r = frame t' p' ++ r') :
    t = t' ∧ p = p' ∧ r = r' := by
  rw [frame_eq, frame_eq] at h
  simp only [magic, List.take, List.cons_append, List.nil_append, List.cons.injEq, true_and] at h
  obtain ⟨ht, h⟩ := h
  rw [List.append_assoc, List.append_assoc] at h
  have h2 := List.append_inj h (by simp [be64_length])
  unfold maxMessage at hp hp'
  have hl : p.length = p'.length := by
    rw [← deBe_be64 p.length (by omega), ← deBe_be64 p'.length (by omega), h2.1]
  have h3 := List.append_inj h2.2 hl
  exact ⟨ht, h3.1, h3.2⟩

theorem readMessage_frame (k : Codec) (hd : Bool) (c : Conn) (tag : UInt8) (raw rest : Bytes)
    (hr : raw.length ≤ maxMessage) (hs : stream c = frame tag raw ++ rest) :
    ∃ c', readMessage k hd c = (unpack k hd tag raw, c') ∧ stream c' = rest := by
  rcases h : readMessage k hd c with ⟨r, c'⟩
  rcases readMessage_spec k hd c r c' h with ⟨t', raw', rest', hr', hs', hc', hu⟩ | ⟨hno, _⟩
  · obtain ⟨rfl, rfl, rfl⟩ := frame_inj _ _ _ _ _ _ hr hr' (hs.symm.trans hs')
    exact ⟨c', by rw [hu], hc'⟩
  · exact absurd ⟨tag, raw, rest, hr, hs⟩ hno

theorem sendMessage_ok (k : Codec) (w : WS) (lr : UInt8) (ns : Bool) (b f : Bytes)
    (hk : Lossless k) (h : sendMessage k w lr ns b = .ok f) :
    ∃ raw, f = frame (chooseTag w lr ns) raw ∧ carries k (chooseTag w lr ns) raw b ∧
      (raw = b ∨ raw = k.comp b) := by
  unfold sendMessage sendWrites at h
  simp only at h
  by_cases hc : (w.compress && !ns) = true
  · rw [if_pos hc] at h
    unfold handleCompress at h
    by_cases h0 : chooseTag w lr ns = 0
    · simp only [h0, if_true] at h
      simp at h
      exact ⟨b, by rw [← h, frame_eq, h0]; simp, by simp [carries, h0], .inl rfl⟩
    · by_cases h1 : chooseTag w lr ns = 1
      · simp only [h1] at h
        simp at h
        exact ⟨k.comp b, by rw [← h, frame_eq, h1]; simp, by simp [carries, h1, hk b], .inr rfl⟩
      · by_cases h7 : chooseTag w lr ns = 7
        · simp only [h7] at h
          simp at h
          exact ⟨b, by rw [← h, frame_eq, h7]; simp, by simp [carries, h7], .inl rfl⟩
        · simp [h0, h1, h7] at h
  · rw [if_neg hc] at h
    simp at h
    refine ⟨b, by rw [← h, frame_eq]; simp, ?_, .inl rfl⟩
    unfold chooseTag
    cases hw : w.compress <;> cases hn : ns <;> simp_all [carries]

theorem writeFull_spec (hd : Bool) (buf : Bytes) (evs : List WriteEv) :
    ∀ (hit : Bool) (total : Nat), total ≤ buf.length →
    let r := writeFull hd hit total buf evs
    (r.2 = .ok → r.1 = buf.drop total) ∧
    (r.2 ≠ .ok → ∃ m, total + m < buf.length ∧ r.1 = (buf.drop total).take m) := by
  induction evs with
  | nil =>
    intro hit total ht
    simp only [writeFull]
    split
    · refine ⟨fun _ => ?_, fun h => absurd rfl h⟩
      simp; omega
    · exact ⟨fun h => by simp at h, fun _ => ⟨0, by omega, by simp⟩⟩
  | cons ev evs ih =>
    intro hit total ht
    simp only [writeFull]
    split
    · exact ⟨fun _ => by simp; omega, fun h => absurd rfl h⟩
    · generalize hn : min ev.n (buf.length - total) = n
      have hnle : total + n ≤ buf.length := by omega
      have glue : ∀ hit',
          ((writeFull hd hit' (total + n) buf evs).2 = .ok →
            (buf.drop total).take n ++ (writeFull hd hit' (total + n) buf evs).1 = buf.drop total) ∧
          ((writeFull hd hit' (total + n) buf evs).2 ≠ .ok → ∃ m, total + m < buf.length ∧
            (buf.drop total).take n ++ (writeFull hd hit' (total + n) buf evs).1 =
              (buf.drop total).take m) := by
        intro hit'
        obtain ⟨i1, i2⟩ := ih hit' (total + n) hnle
        refine ⟨fun h => ?_, fun h => ?_⟩
        · rw [i1 h, ← List.drop_drop, List.take_append_drop]
        · obtain ⟨m, hm, he⟩ := i2 h
          refine ⟨n + m, by omega, ?_⟩
          rw [he, ← List.drop_drop, List.take_add]
      split
      · next heq =>
        refine ⟨fun _ => ?_, fun h => absurd rfl h⟩
        simp only
        rw [List.take_of_length_le (by simp; omega)]
      · next hne =>
        split
        · exact glue _
        · split
          · exact glue _
          · exact ⟨fun h => by simp at h, fun _ => ⟨n, by omega, rfl⟩⟩

end Verif.Wire
