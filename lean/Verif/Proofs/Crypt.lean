import Verif.Spec.Crypt
import Verif.Proofs.Wire
namespace Verif.Crypt
open Verif.Wire Spec Wire.Spec

theorem value_lt (b : Bytes) : value b < 256 ^ b.length := by
  induction b with
  | nil => simp [value]
  | cons x xs ih =>
    simp only [value, List.length_cons, Nat.pow_succ]
    have := x.toNat_lt
    omega

theorem value_inj (b : Bytes) : ∀ b' : Bytes, b.length = b'.length → value b = value b' → b = b' := by
  induction b with
  | nil => intro b' h _; exact (List.length_eq_zero_iff.1 h.symm).symm
  | cons x xs ih =>
    intro b' h hv
    match b', h with
    | y :: ys, h =>
      simp only [value] at hv
      have h1 := x.toNat_lt; have h2 := y.toNat_lt
      have h3 : value xs = value ys := by omega
      have h4 : x = y := by rw [← UInt8.toNat_inj]; omega
      rw [h4, ih ys (by simpa using h) h3]

theorem inc_length (b : Bytes) : (incrementNonce b).length = b.length := by
  induction b with
  | nil => rfl
  | cons x xs ih => simp only [incrementNonce]; split <;> simp [ih]

theorem inc_value (b : Bytes) : value (incrementNonce b) = (value b + 1) % 256 ^ b.length := by
  induction b with
  | nil => simp [incrementNonce, value, Nat.mod_one]
  | cons x xs ih =>
    simp only [incrementNonce]
    have hx := x.toNat_lt
    have hv := value_lt xs
    have hadd : (x + 1).toNat = (x.toNat + 1) % 256 := by simp [UInt8.toNat_add]
    by_cases h : x + 1 = 0
    · have : (x + 1).toNat = 0 := by rw [h]; rfl
      rw [if_neg (by simpa using h)]
      simp only [value, this, ih, List.length_cons, Nat.pow_succ]
      have hx2 : x.toNat = 255 := by omega
      rw [hx2, Nat.mul_comm _ 256, show 255 + 256 * value xs + 1 = 256 * (value xs + 1) by omega,
        Nat.mul_mod_mul_left]
      omega
    · rw [if_pos (by simpa using h)]
      have hne : (x + 1).toNat ≠ 0 := by
        intro h0; apply h; rw [← UInt8.toNat_inj, h0]; rfl
      have hlt : x.toNat + 1 < 256 := by omega
      simp only [value, hadd, List.length_cons, Nat.pow_succ]
      rw [Nat.mod_eq_of_lt hlt, Nat.mod_eq_of_lt (by omega)]
      omega

/-- k successive increments. -/
def incN (b : Bytes) : Nat → Bytes
  | 0 => b
  | n + 1 => incN (incrementNonce b) n

theorem incN_length (n : Nat) : ∀ b, (incN b n).length = b.length := by
  induction n with
  | zero => intro b; rfl
  | succ n ih => intro b; simp only [incN]; rw [ih, inc_length]

theorem incN_value (n : Nat) : ∀ b, value (incN b n) = (value b + n) % 256 ^ b.length := by
  induction n with
  | zero => intro b; simp only [incN, Nat.add_zero]; rw [Nat.mod_eq_of_lt (value_lt b)]
  | succ n ih =>
    intro b
    simp only [incN]
    rw [ih, inc_value, inc_length, Nat.mod_add_mod]
    congr 1; omega

theorem send_ok_nonce (a : AEAD) (k : Codec) : ∀ e : Enc, e.writeNonce.length = a.noncesize → ∀ lr ns b f,
    (sendMessage a k e lr ns b).1 = .ok f →
    nonceOf a.noncesize f = e.writeNonce ∧
    (sendMessage a k e lr ns b).2 = { e with writeNonce := incrementNonce e.writeNonce } := by
  intro e he lr ns b f h
  unfold sendMessage at h ⊢
  split at h
  · simp at h
  · next hlen =>
    rw [if_neg hlen]
    simp only at h ⊢
    generalize (if (!ns && e.compress) = true then handleCompress k (chooseTag e lr ns) b
      else Res.ok b) = packed at h ⊢
    cases packed with
    | err x => simp at h
    | panic => simp at h
    | ok p =>
      simp only at h ⊢
      split at h
      · simp at h
      · next hm =>
        rw [if_neg hm]
        simp only [Res.ok.injEq] at h
        refine ⟨?_, rfl⟩
        rw [← h, nonceOf, List.append_assoc, List.drop_left' (be64_length _),
          List.take_left' he]

theorem send_not_ok (a : AEAD) (k : Codec) : ∀ e : Enc, ∀ lr ns b, (∀ f, (sendMessage a k e lr ns b).1 ≠ .ok f) →
    (sendMessage a k e lr ns b).2 = e := by
  intro e lr ns b h
  unfold sendMessage at h ⊢
  split at h
  · next hlen => simp [hlen]
  · next hlen =>
    rw [if_neg hlen]
    simp only at h ⊢
    generalize (if (!ns && e.compress) = true then handleCompress k (chooseTag e lr ns) b
      else Res.ok b) = packed at h ⊢
    cases packed with
    | err x => rfl
    | panic => rfl
    | ok p =>
      simp only at h ⊢
      split at h
      · next hm => simp [hm]
      · exact absurd rfl (h _)

/-- Every sent frame carries the start nonce incremented some number of times. -/
theorem sendMany_pos (a : AEAD) (k : Codec) : ∀ (reqs : List (UInt8 × Bool × Bytes)) (e : Enc), e.writeNonce.length = a.noncesize →
    ∀ (i : Nat) f, (sendMany a k e reqs).1[i]? = some (.ok f) →
      ∃ p, p < reqs.length ∧ nonceOf a.noncesize f = incN e.writeNonce p := by
  intro reqs
  induction reqs with
  | nil => intro e _ i f h; simp [sendMany] at h
  | cons r rs ih =>
    obtain ⟨lr, ns, b⟩ := r
    intro e he i f h
    simp only [sendMany] at h
    cases i with
    | zero =>
      simp only [List.getElem?_cons_zero, Option.some.injEq] at h
      exact ⟨0, by simp, (send_ok_nonce a k e he lr ns b f h).1⟩
    | succ i =>
      simp only [List.getElem?_cons_succ] at h
      by_cases hok : ∃ f0, (sendMessage a k e lr ns b).1 = .ok f0
      · obtain ⟨f0, h0⟩ := hok
        have h2 := (send_ok_nonce a k e he lr ns b f0 h0).2
        rw [h2] at h
        obtain ⟨p, hp, hn⟩ := ih _ (by simp [inc_length, he]) i f h
        exact ⟨p + 1, by simpa using hp, hn⟩
      · have h2 := send_not_ok a k e lr ns b (by simpa using hok)
        rw [h2] at h
        obtain ⟨p, hp, hn⟩ := ih _ he i f h
        exact ⟨p, by simp; omega, hn⟩

/-- The frames that were really sent carry successive nonces. -/
theorem sendMany_nonces (a : AEAD) (k : Codec) (reqs : List (UInt8 × Bool × Bytes)) :
    ∀ (e : Enc), e.writeNonce.length = a.noncesize →
    ∀ (i j : Nat) fi fj, i < j → (sendMany a k e reqs).1[i]? = some (.ok fi) →
      (sendMany a k e reqs).1[j]? = some (.ok fj) →
      ∃ p q, p < q ∧ q < reqs.length ∧
        nonceOf a.noncesize fi = incN e.writeNonce p ∧ nonceOf a.noncesize fj = incN e.writeNonce q := by
  induction reqs with
  | nil => intro e _ i j fi fj _ h; simp [sendMany] at h
  | cons r rs ih =>
    obtain ⟨lr, ns, b⟩ := r
    intro e he i j fi fj hij hi hj
    simp only [sendMany] at hi hj
    match j, hij with
    | j + 1, hij =>
      simp only [List.getElem?_cons_succ] at hj
      cases i with
      | zero =>
        simp only [List.getElem?_cons_zero, Option.some.injEq] at hi
        obtain ⟨h1, h2⟩ := send_ok_nonce a k e he lr ns b fi hi
        rw [h2] at hj
        obtain ⟨p, hp, hn⟩ := sendMany_pos a k rs _ (by simp [inc_length, he]) j fj hj
        exact ⟨0, p + 1, by omega, by simpa using hp, h1, hn⟩
      | succ i =>
        simp only [List.getElem?_cons_succ] at hi
        by_cases hok : ∃ f0, (sendMessage a k e lr ns b).1 = .ok f0
        · obtain ⟨f0, h0⟩ := hok
          have h2 := (send_ok_nonce a k e he lr ns b f0 h0).2
          rw [h2] at hi hj
          obtain ⟨p, q, hpq, hq, h3, h4⟩ := ih _ (by simp [inc_length, he]) i j fi fj (by omega) hi hj
          exact ⟨p + 1, q + 1, by omega, by simpa using hq, h3, h4⟩
        · have h2 := send_not_ok a k e lr ns b (by simpa using hok)
          rw [h2] at hi hj
          obtain ⟨p, q, hpq, hq, h3, h4⟩ := ih _ he i j fi fj (by omega) hi hj
          exact ⟨p, q, hpq, by simp; omega, h3, h4⟩

theorem value_append (l m : Bytes) : value (l ++ m) = value l + 256 ^ l.length * value m := by
  induction l with
  | nil => simp [value]
  | cons x xs ih =>
    simp only [List.cons_append, value, ih, List.length_cons, Nat.pow_succ]
    rw [Nat.mul_add, Nat.mul_comm (256 ^ xs.length) 256, Nat.mul_assoc]
    omega

theorem and63 (x : UInt8) : (x &&& 63).toNat ≤ 63 := by
  rw [UInt8.toNat_and]; exact Nat.and_le_right

theorem or127 (x : UInt8) : (x &&& 63) ||| 127 = 127 := by
  have h : ∀ n : Fin 64, n.val ||| 127 = 127 := by decide
  rw [← UInt8.toNat_inj, UInt8.toNat_or]
  exact h ⟨(x &&& 63).toNat, by have := and63 x; omega⟩

theorem startNonce_spec (srv : Bool) (rnd : Bytes) (h : rnd ≠ []) :
    (startNonce srv rnd).length = rnd.length ∧
    (srv = false → value (startNonce srv rnd) < 64 * 256 ^ (rnd.length - 1)) ∧
    (srv = true → 127 * 256 ^ (rnd.length - 1) ≤ value (startNonce srv rnd) ∧
      value (startNonce srv rnd) < 128 * 256 ^ (rnd.length - 1)) := by
  unfold startNonce
  cases hr : rnd.reverse with
  | nil => simp at hr; contradiction
  | cons top low =>
    have hl : rnd.length = low.length + 1 := by
      have := congrArg List.length hr; simpa using this
    have hv := value_lt low.reverse
    simp only [List.length_reverse] at hv
    refine ⟨by simp [hl], ?_, ?_⟩
    · rintro rfl
      simp only [Bool.false_eq_true, if_false, List.reverse_cons, value_append, List.length_reverse,
        value, hl, Nat.add_sub_cancel]
      have := and63 top
      have h2 : 256 ^ low.length * ((top &&& 63).toNat + 256 * 0) ≤ 256 ^ low.length * 63 :=
        Nat.mul_le_mul_left _ (by omega)
      omega
    · rintro rfl
      simp only [if_true, or127, List.reverse_cons, value_append, List.length_reverse,
        value, hl, Nat.add_sub_cancel]
      have : (127 : UInt8).toNat = 127 := rfl
      rw [this]
      omega

/-- What a read does on a well-formed encrypted frame. -/
theorem readMessage_frame (a : AEAD) (k : Codec) (ha : Correct a) (hov : a.overhead ≤ a.noncesize + 8 + a.overhead)
    (hd : Bool) (c : Conn) (nonce p rest : Bytes) (tag : UInt8)
    (hn : nonce.length = a.noncesize)
    (hlen : a.noncesize + 8 + p.length + a.overhead ≤ maxMessage)
    (hs : stream c = be64 (a.noncesize + 8 + p.length + a.overhead) ++ nonce ++
      a.sealF nonce (be64 (a.noncesize + 8 + p.length + a.overhead)) (magic.take 7 ++ [tag] ++ p)
      ++ rest) :
    ∃ c', stream c' = rest ∧ readMessage a k hd c =
      (match decompress k hd tag p with
        | .ok x => .ok (tag, x)
        | .err e => .err e
        | .panic => .panic, c') := by
  generalize hsz : a.noncesize + 8 + p.length + a.overhead = sz at *
  have hb : deBe (be64 sz) = sz := deBe_be64 sz (by unfold maxMessage at hlen; omega)
  generalize hct : a.sealF nonce (be64 sz) (magic.take 7 ++ [tag] ++ p) = ct at hs
  have hsl : ct.length = 8 + p.length + a.overhead := by
    rw [← hct, (ha _ _ _).2]; simp [magic]; omega
  have h1 : 8 ≤ (stream c).length := by rw [hs]; simp [be64_length]
  obtain ⟨c1, r1, s1⟩ := readFull_enough c 8 [] h1
  have ht8 : (stream c).take 8 = be64 sz := by
    rw [hs, List.append_assoc, List.append_assoc, List.take_left' (be64_length _)]
  have hd8 : (stream c).drop 8 = nonce ++ ct ++ rest := by
    rw [hs, List.append_assoc, List.append_assoc, List.drop_left' (be64_length _)]; simp
  rw [ht8] at r1
  rw [hd8] at s1
  have h2 : sz ≤ (stream c1).length := by rw [s1]; simp [hsl, hn]; omega
  obtain ⟨c2, r2, s2⟩ := readFull_enough c1 sz [] h2
  have hl2 : (nonce ++ ct).length = sz := by simp [hsl, hn]; omega
  rw [s1, List.take_left' hl2] at r2
  rw [s1, List.drop_left' hl2] at s2
  refine ⟨c2, s2, ?_⟩
  unfold readMessage
  rw [r1]
  simp only [List.nil_append, hb, r2, if_neg (show ¬ maxMessage < sz by omega)]
  rw [if_neg (by rw [hl2]; omega), List.take_left' hn, List.drop_left' hn, ← hct, (ha _ _ _).1]
  simp only [List.append_assoc]
  rw [if_neg (by simp [magic]), if_neg (by simp [magic])]
  have e1 : (List.drop 7 (List.take 7 magic ++ ([tag] ++ p))).head?.getD 0 = tag := by simp [magic]
  have e2 : List.drop 8 (List.take 7 magic ++ ([tag] ++ p)) = p := by simp [magic]
  rw [e1, e2]
  cases decompress k hd tag p <;> rfl

end Verif.Crypt
