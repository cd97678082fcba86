import Verif.Proofs.Crypt
import Verif.Props.Wire
/-
Properties C06 (nonces) and C07 (encrypted frames round trip).
-/
namespace Verif.Crypt
open Verif.Wire Spec Wire.Spec

/-- The encoder of one side at connection start (chacha.go:150-287), from the
random bytes drawn for its nonce. -/
def freshEnc (srv : Bool) (rnd : Bytes) (compress : Bool) (magic7 : UInt8) : Enc :=
  { writeNonce := startNonce srv rnd, magic7 := magic7, compress := compress, isServer := srv }

theorem fresh_nonces (a : AEAD) (k : Codec) (srv : Bool) (rnd : Bytes) (cmp : Bool) (m : UInt8)
    (hr : rnd.length = a.noncesize) (hpos : 0 < a.noncesize)
    (reqs : List (UInt8 × Bool × Bytes)) (i : Nat) (f : Bytes)
    (h : (sendMany a k (freshEnc srv rnd cmp m) reqs).1[i]? = some (.ok f)) :
    ∃ p, p < reqs.length ∧ nonceOf a.noncesize f = incN (startNonce srv rnd) p := by
  have hne : rnd ≠ [] := by intro h0; simp [h0] at hr; omega
  have hl := (startNonce_spec srv rnd hne).1
  -- append one more request so that the pair lemma can be used, or use it on (i, i)
  have := sendMany_pos a k reqs (freshEnc srv rnd cmp m) (by simp [freshEnc, hl, hr]) i f h
  exact this

/-- C06, per encoder and between the two sides. Take any random bytes drawn by the
two sides, any settings and any lists of send requests (failed sends included),
with at most 63·256^(n-1) requests on the client and 128·256^(n-1) on the server
(n = nonce size in bytes). Then no two frames produced by the client encoder, no
two produced by the server encoder, and no client and server frame carry the same
nonce. The interleaving does not matter since the encoders share no state.
Missing from the full property: a server makes *two* encoders per connection
(send loop and read loop, srv.go:506 and 649) that draw their starting nonces
independently under one key, so the claim over all server frames rests on chance,
see `C06_two_server_encoders_can_collide_counterexample`. -/
theorem C06_no_nonce_reused_partial (a : AEAD) (k : Codec) (hpos : 0 < a.noncesize)
    (rndC rndS : Bytes) (hC : rndC.length = a.noncesize) (hS : rndS.length = a.noncesize)
    (cmpC cmpS : Bool) (mC mS : UInt8) (reqC reqS : List (UInt8 × Bool × Bytes))
    (hnC : reqC.length ≤ 63 * 256 ^ (a.noncesize - 1))
    (hnS : reqS.length ≤ 128 * 256 ^ (a.noncesize - 1)) :
    let outC := (sendMany a k (freshEnc false rndC cmpC mC) reqC).1
    let outS := (sendMany a k (freshEnc true rndS cmpS mS) reqS).1
    (∀ (i j : Nat) f g, i ≠ j → outC[i]? = some (.ok f) → outC[j]? = some (.ok g) →
      nonceOf a.noncesize f ≠ nonceOf a.noncesize g) ∧
    (∀ (i j : Nat) f g, i ≠ j → outS[i]? = some (.ok f) → outS[j]? = some (.ok g) →
      nonceOf a.noncesize f ≠ nonceOf a.noncesize g) ∧
    (∀ (i j : Nat) f g, outC[i]? = some (.ok f) → outS[j]? = some (.ok g) →
      nonceOf a.noncesize f ≠ nonceOf a.noncesize g) := by
  have hneC : rndC ≠ [] := by intro h0; simp [h0] at hC; omega
  have hneS : rndS ≠ [] := by intro h0; simp [h0] at hS; omega
  obtain ⟨lC, vC, _⟩ := startNonce_spec false rndC hneC
  obtain ⟨lS, _, vS⟩ := startNonce_spec true rndS hneS
  have vC := vC rfl
  have vS := vS rfl
  rw [hC] at lC vC
  rw [hS] at lS vS
  have hpow : 256 ^ a.noncesize = 256 * 256 ^ (a.noncesize - 1) := by
    conv => lhs; rw [show a.noncesize = (a.noncesize - 1) + 1 by omega, Nat.pow_succ]
    omega
  have key : ∀ (e : Enc) (reqs : List (UInt8 × Bool × Bytes)), e.writeNonce.length = a.noncesize →
      reqs.length ≤ 256 ^ a.noncesize →
      ∀ (i j : Nat) f g, i < j → (sendMany a k e reqs).1[i]? = some (.ok f) →
      (sendMany a k e reqs).1[j]? = some (.ok g) →
      nonceOf a.noncesize f ≠ nonceOf a.noncesize g := by
    intro e reqs he hr i j f g hij hi hj heq
    obtain ⟨p, q, hpq, hq, h1, h2⟩ := sendMany_nonces a k reqs e he i j f g hij hi hj
    have := congrArg value (h1.symm.trans (heq.trans h2))
    rw [incN_value, incN_value, he] at this
    have hz := Nat.sub_mod_eq_zero_of_mod_eq this.symm
    have hdiff : value e.writeNonce + q - (value e.writeNonce + p) = q - p := by omega
    rw [hdiff, Nat.mod_eq_of_lt (by omega)] at hz
    omega
  have key2 : ∀ (e : Enc) (reqs : List (UInt8 × Bool × Bytes)), e.writeNonce.length = a.noncesize →
      reqs.length ≤ 256 ^ a.noncesize →
      ∀ (i j : Nat) f g, i ≠ j → (sendMany a k e reqs).1[i]? = some (.ok f) →
      (sendMany a k e reqs).1[j]? = some (.ok g) →
      nonceOf a.noncesize f ≠ nonceOf a.noncesize g := by
    intro e reqs he hr i j f g hij hi hj
    rcases Nat.lt_or_gt_of_ne hij with h | h
    · exact key e reqs he hr i j f g h hi hj
    · exact (key e reqs he hr j i g f h hj hi).symm
  refine ⟨key2 _ _ (by simp [freshEnc, lC]) (by omega),
    key2 _ _ (by simp [freshEnc, lS]) (by omega), ?_⟩
  intro i j f g hi hj heq
  obtain ⟨p, hp, h1⟩ := fresh_nonces a k false rndC cmpC mC hC hpos reqC i f hi
  obtain ⟨q, hq, h2⟩ := fresh_nonces a k true rndS cmpS mS hS hpos reqS j g hj
  have := congrArg value (h1.symm.trans (heq.trans h2))
  rw [incN_value, incN_value, lC, lS, Nat.mod_eq_of_lt (by omega), Nat.mod_eq_of_lt (by omega)] at this
  omega

/-- A toy AEAD for the `example`s: the "tag" is two zero bytes. -/
def demoAEAD : AEAD where
  noncesize := 2
  overhead := 2
  sealF _ _ p := p ++ [0, 0]
  openF _ _ c := some (c.take (c.length - 2))

theorem demoAEAD_correct : Correct demoAEAD := by
  intro n a p; simp [demoAEAD]

example : (sendMany demoAEAD demoCodec (freshEnc false [255, 255] true 1)
      [(0, false, [7]), (0, false, [7])]).1.map (fun r => match r with
        | .ok f => nonceOf 2 f
        | _ => []) = [[255, 63], [0, 64]] := by decide

/-- The two encoders of one server connection (send loop, read loop) can produce
the same nonce: nothing but chance keeps their random starts apart. -/
theorem C06_two_server_encoders_can_collide_counterexample :
    ∃ (rnd rnd' : Bytes), rnd.length = 2 ∧ rnd'.length = 2 ∧ rnd ≠ rnd' ∧
      ∃ f g, (sendMessage demoAEAD demoCodec (freshEnc true rnd true 1) 1 false [1]).1 = .ok f ∧
        (sendMessage demoAEAD demoCodec (freshEnc true rnd' true 1) 1 false [2]).1 = .ok g ∧
        nonceOf 2 f = nonceOf 2 g :=
  ⟨[5, 0], [5, 1], rfl, rfl, by decide, _, _, rfl, rfl, by decide⟩

/-- C07, the part that holds: if the encrypting sender produced a frame for a body
whose packed form leaves room for nonce, magic and tag, then for every
segmentation the receiver returns exactly that body and stops right after the
frame. The receiver must have a decompressor if the tag is s2 (it has none
exactly when its own compression is switched off).
Missing: bodies within `noncesize + 8 + overhead` bytes of the limit are accepted
by the sender and rejected by the receiver
(`C07_near_limit_body_rejected_counterexample`), and some settings crash
(`C07_no_compression_flag_crashes_sender_counterexample`,
`C07_compression_off_receiver_crashes_counterexample`). -/
theorem C07_encrypted_round_trip_partial (a : AEAD) (ha : Correct a) (k : Codec) (hk : Lossless k)
    (e e' : Enc) (he : e.writeNonce.length = a.noncesize)
    (lastRead : UInt8) (noSys : Bool) (body f : Bytes)
    (hsend : sendMessage a k e lastRead noSys body = (.ok f, e'))
    (hroom : f.length ≤ 1310640 + 8)
    (hasDecomp : Bool) (hdec : hasDecomp = true ∨ e.magic7 ≠ 1)
    (c : Conn) (rest : Bytes) (hc : stream c = f ++ rest) :
    ∃ tag c', readMessage a k hasDecomp c = (.ok (tag, body), c') ∧ stream c' = rest := by
  unfold sendMessage at hsend
  split at hsend
  · simp at hsend
  · next hlen =>
    simp only at hsend
    generalize hp : (if (!noSys && e.compress) = true then handleCompress k (chooseTag e lastRead noSys) body
        else Res.ok body) = packed at hsend
    cases packed with
    | err x => simp at hsend
    | panic => simp at hsend
    | ok p =>
      simp only at hsend
      split at hsend
      · simp at hsend
      · next hm =>
        simp only [ne_eq, Decidable.not_not] at hm
        simp only [Prod.mk.injEq, Res.ok.injEq] at hsend
        obtain ⟨hf, -⟩ := hsend
        have hfl : f.length = 8 + (a.noncesize + 8 + p.length + a.overhead) := by
          rw [← hf]
          simp only [List.length_append, be64_length, he, (ha _ _ _).2]
          simp [magic]; omega
        obtain ⟨c', hs', hr⟩ := readMessage_frame a k ha (by omega) hasDecomp c e.writeNonce p rest
          (chooseTag e lastRead noSys) he (by unfold maxMessage; omega)
          (by rw [hc, ← hf])
        refine ⟨chooseTag e lastRead noSys, c', ?_, hs'⟩
        rw [hr]
        have hdecomp : decompress k hasDecomp (chooseTag e lastRead noSys) p = .ok body := by
          unfold decompress
          rw [if_neg (by rw [← hm]; rintro ⟨h1, h2⟩; rcases hdec with h | h <;> simp_all)]
          by_cases hc : (!noSys && e.compress) = true
          · rw [if_pos hc] at hp
            unfold handleCompress at hp
            unfold handleDecompress
            by_cases h0 : chooseTag e lastRead noSys = 0
            · simp_all
            · by_cases h1 : chooseTag e lastRead noSys = 1
              · simp [h1] at hp ⊢
                rw [← hp, hk body]
              · by_cases h7 : chooseTag e lastRead noSys = 7
                · simp_all
                · simp [h0, h1, h7] at hp
          · rw [if_neg hc] at hp
            simp only [Res.ok.injEq] at hp
            subst hp
            unfold chooseTag handleDecompress
            cases hn : noSys <;> cases hcm : e.compress <;> simp_all
        rw [hdecomp]

example : ∃ f e', sendMessage demoAEAD demoCodec (freshEnc true [1, 2] true 1) 1 false [7, 8] = (.ok f, e') ∧
    f.length ≤ 1310640 + 8 ∧ stream [⟨f.take 9, none⟩, ⟨f.drop 9 ++ [3], none⟩] = f ++ [3] :=
  ⟨_, _, rfl, by decide, by decide⟩

/-- C07, reading: whatever arrives, a message handed up was opened by the AEAD under the nonce in
the frame with the frame's length as additional data, begins with the magic bytes and the tag, and
carries the body; and exactly that frame was consumed. -/
theorem C07_only_authentic_messages (a : AEAD) (k : Codec) (hasDecomp : Bool) (c c' : Conn) (tag : UInt8)
    (body : Bytes) (h : readMessage a k hasDecomp c = (.ok (tag, body), c')) :
    ∃ len nonce ct payload, len.length = 8 ∧ nonce.length = a.noncesize ∧
      deBe len = nonce.length + ct.length ∧ deBe len ≤ 1310640 ∧
      stream c = len ++ nonce ++ ct ++ stream c' ∧
      a.openF nonce len ct = some ([0xb3, 0x5d, 0x18, 0x39, 0xac, 0x8e, 0x1d, tag] ++ payload) ∧
      carries k tag payload body := by
  unfold readMessage at h
  rcases h1 : readFull 8 [] c with ⟨r1, c1⟩
  rw [h1] at h
  rcases readFull_ok_iff c 8 r1 c1 h1 with ⟨a1, rfl, a2⟩ | ⟨_, e, rfl⟩
  case inr => simp at h
  simp only at h
  split at h
  · simp at h
  next hmax =>
  rcases h2 : readFull (deBe ((stream c).take 8)) [] c1 with ⟨r2, c2⟩
  rw [h2] at h
  rcases readFull_ok_iff c1 _ r2 c2 h2 with ⟨b1, rfl, b2⟩ | ⟨_, e, rfl⟩
  case inr => simp at h
  simp only at h
  split at h
  · simp at h
  next hlen =>
  split at h
  · simp at h
  next m hm =>
  split at h
  · simp at h
  next hm8 =>
  split at h
  · simp at h
  next hmag =>
  simp only [ne_eq, Decidable.not_not] at hmag
  have hml : ((stream c1).take (deBe ((stream c).take 8))).length = deBe ((stream c).take 8) := by
    rw [List.length_take]; omega
  have hdl : ∀ (t t' : UInt8) (p b : Bytes), decompress k hasDecomp t p = .ok b → t' = t → carries k t' p b := by
    intro t t' p b hd ht
    subst ht
    unfold decompress at hd
    split at hd
    · simp at hd
    · unfold handleDecompress at hd
      unfold carries
      split at hd
      · next h0 => simp at hd; exact .inl ⟨h0, hd⟩
      · split at hd
        · next h1 =>
          split at hd
          · next x hx => simp at hd; subst hd; exact .inr (.inr ⟨h1, hx⟩)
          · simp at hd
        · split at hd
          · next h7 => simp at hd; exact .inr (.inl ⟨h7, hd⟩)
          · simp at hd
  split at h
  · next x hx =>
    simp only [Prod.mk.injEq, Res.ok.injEq] at h
    obtain ⟨⟨ht, hb⟩, hc⟩ := h
    subst hb hc
    refine ⟨(stream c).take 8, ((stream c1).take (deBe ((stream c).take 8))).take a.noncesize,
      ((stream c1).take (deBe ((stream c).take 8))).drop a.noncesize, m.drop 8, ?_, ?_, ?_, ?_, ?_, ?_, ?_⟩
    · rw [List.length_take]; omega
    · rw [List.length_take]; omega
    · rw [List.length_take, List.length_drop]; omega
    · unfold maxMessage at hmax; omega
    · rw [List.append_assoc ((stream c).take 8), List.take_append_drop, b2, List.append_assoc,
        List.take_append_drop, a2, List.take_append_drop]
    · rw [hm, ← ht]
      congr 1
      have e1 : m = m.take 7 ++ m.drop 7 := (List.take_append_drop 7 m).symm
      have e2 : m.drop 7 = (m.drop 7).head?.getD 0 :: m.drop 8 := by
        have hne : 0 < (m.drop 7).length := by rw [List.length_drop]; omega
        cases hd : m.drop 7 with
        | nil => rw [hd] at hne; simp at hne
        | cons y ys =>
          have : m.drop 8 = (m.drop 7).drop 1 := by rw [List.drop_drop]
          rw [this, hd]; rfl
      conv => lhs; rw [e1, e2, hmag]
      rfl
    · exact hdl _ _ _ _ hx ht.symm
  · simp at h
  · simp at h

example : ∃ c c', readMessage demoAEAD demoCodec true c = (.ok (7, [9]), c') := by
  refine ⟨[⟨be64 13 ++ [1, 2] ++ (magic.take 7 ++ [7] ++ [9]) ++ [0, 0], none⟩], [], ?_⟩
  decide

/-- C07 is false of the code near the limit: for every AEAD, every body whose
length is within the limit but leaves no room for nonce, magic and tag is
accepted by the sender (compression off, no flags) and the resulting frame is
rejected by the receiver as too long. -/
theorem C07_near_limit_body_rejected_counterexample (a : AEAD) (k : Codec) (body : Bytes)
    (h1 : body.length ≤ maxMessage) (h2 : maxMessage < a.noncesize + 8 + body.length + a.overhead)
    (h3 : a.noncesize + a.overhead < 1000)
    (rnd : Bytes) (c : Conn) (hd : Bool) :
    ∃ f e', sendMessage a k (freshEnc false rnd false 0) 0 false body = (.ok f, e') ∧
      (stream c = f → ∃ c', readMessage a k hd c = (.err .tooLong, c')) := by
  refine ⟨_, _, by
    unfold sendMessage
    rw [if_neg (by omega)]
    simp only [freshEnc, chooseTag]
    simp
    exact ⟨rfl, rfl⟩, ?_⟩
  intro hs
  have h8 : 8 ≤ (stream c).length := by rw [hs]; simp [be64_length]
  obtain ⟨c1, r1, _⟩ := readFull_enough c 8 [] h8
  refine ⟨c1, ?_⟩
  unfold readMessage
  rw [r1, hs, List.take_left' (be64_length _)]
  simp only [List.nil_append]
  rw [deBe_be64 _ (by unfold maxMessage at h1; omega), if_pos (by simpa using h2)]

example : ∃ body : Bytes, body.length ≤ maxMessage ∧
    maxMessage < demoAEAD.noncesize + 8 + body.length + demoAEAD.overhead :=
  ⟨List.replicate maxMessage 0, by rw [List.length_replicate]; exact Nat.le_refl _,
    by rw [List.length_replicate]; unfold demoAEAD; omega⟩

/-- The per-message NoSystemCompression flag crashes an encrypting sender that is
configured with s2 (or with no compression at all). -/
theorem C07_no_compression_flag_crashes_sender_counterexample (a : AEAD) (k : Codec) (body rnd : Bytes)
    (h : body.length ≤ maxMessage) (srv cmp : Bool) (lr : UInt8) (m : UInt8) (hm : m ≠ 7) :
    (sendMessage a k (freshEnc srv rnd cmp m) lr true body).1 = .panic := by
  unfold sendMessage
  rw [if_neg (by omega)]
  simp [freshEnc, chooseTag, hm]

/-- A receiver with compression switched off crashes on an s2 frame of a peer that
has compression on. -/
theorem C07_compression_off_receiver_crashes_counterexample (a : AEAD) (ha : Correct a) (k : Codec)
    (nonce p rest : Bytes) (hn : nonce.length = a.noncesize)
    (hlen : a.noncesize + 8 + p.length + a.overhead ≤ maxMessage) (c : Conn)
    (hs : stream c = be64 (a.noncesize + 8 + p.length + a.overhead) ++ nonce ++
      a.sealF nonce (be64 (a.noncesize + 8 + p.length + a.overhead)) (magic.take 7 ++ [1] ++ p)
      ++ rest) :
    (readMessage a k false c).1 = .panic := by
  obtain ⟨c', _, h⟩ := readMessage_frame a k ha (by omega) false c nonce p rest 1 hn hlen hs
  rw [h]
  simp [decompress]

/-- Any 8 to 23 bytes announcing a frame shorter than the authentication tag crash
an encrypted reader: no key is needed. -/
theorem C07_short_frame_crashes_reader_counterexample (a : AEAD) (k : Codec) (hd : Bool)
    (payload : Bytes) (h : payload.length < a.overhead) (hmax : payload.length ≤ maxMessage)
    (c : Conn) (hs : stream c = be64 payload.length ++ payload) :
    (readMessage a k hd c).1 = .panic := by
  have h8 : 8 ≤ (stream c).length := by rw [hs]; simp [be64_length]
  obtain ⟨c1, r1, s1⟩ := readFull_enough c 8 [] h8
  rw [hs, List.take_left' (be64_length _)] at r1
  rw [hs, List.drop_left' (be64_length _)] at s1
  obtain ⟨c2, r2, _⟩ := readFull_enough c1 payload.length [] (by rw [s1]; omega)
  rw [s1, List.take_length] at r2
  have hb := deBe_be64 payload.length (by unfold maxMessage at hmax; omega)
  unfold readMessage
  rw [r1]
  simp only [List.nil_append, hb, r2, if_neg (show ¬ maxMessage < payload.length by omega)]
  rw [if_pos (.inr h)]

end Verif.Crypt
