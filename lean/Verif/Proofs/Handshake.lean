import Verif.Model.Handshake
import Verif.Proofs.Wire
/-
Lemmas about the handshake functions and their framing.
-/
namespace Verif.Handshake
open Verif.Wire

theorem checkPeer_iff (P : Prims) (pool : P.Pool) (now : Nat) (s : Shake P) (pk : P.SPub) :
    checkPeer P pool now s = .ok pk ↔
      P.validPub s.ephem = true ∧ ∃ c, P.parse s.cert = some c ∧ P.chains pool now c = true ∧
        P.certKey c = some pk ∧ P.verify pk s.ephem s.sig = true := by
  unfold checkPeer
  by_cases hv : P.validPub s.ephem = false
  · rw [if_pos hv]; simp [hv]
  rw [if_neg hv]
  simp only [Bool.not_eq_false] at hv
  cases hp : P.parse s.cert with
  | none => simp
  | some c =>
    simp only [hv, true_and, Option.some.injEq, exists_eq_left']
    by_cases hc : P.chains pool now c = false
    · rw [if_pos hc]; simp [hc]
    rw [if_neg hc]
    simp only [Bool.not_eq_false] at hc
    simp only [hc, true_and]
    cases hk : P.certKey c with
    | none => simp
    | some k =>
      simp only [Option.some.injEq]
      by_cases hs : P.verify k s.ephem s.sig = false
      · rw [if_pos hs]
        constructor
        · intro h; cases h
        · rintro ⟨rfl, h⟩; rw [hs] at h; cases h
      · rw [if_neg hs]
        simp only [Bool.not_eq_false] at hs
        constructor
        · intro h; cases h; exact ⟨rfl, hs⟩
        · rintro ⟨rfl, h⟩; rfl

theorem read_send {hmac : Bytes → Bytes → Bytes} (hl : ∀ k m, (hmac k m).length = 32) {m f rest : Bytes}
    (h : sendLenThenBytesTag hmac m = .ok f) :
    readLenThenBytesTag hmac (f ++ rest) = .ok (m, hmac (be64 m.length) m, rest) := by
  have hmax : maxHandshakeBytes = 914 := rfl
  have htl : authTagLen = 32 := rfl
  unfold sendLenThenBytesTag at h
  simp only at h
  split at h
  · cases h
  · rename_i hn
    rw [hmax, htl] at hn
    injection h with h
    subst h
    have hb : (be64 m.length).length = 8 := be64_length _
    have ht : ((be64 m.length ++ m ++ hmac (be64 m.length) m) ++ rest).take 8 = be64 m.length := by
      simp only [List.append_assoc]
      exact List.take_left' hb
    have hd : ((be64 m.length ++ m ++ hmac (be64 m.length) m) ++ rest).drop 8 =
        m ++ (hmac (be64 m.length) m ++ rest) := by
      simp only [List.append_assoc]
      exact List.drop_left' hb
    have hv : deBe (be64 m.length) = m.length := deBe_be64 _ (by omega)
    unfold readLenThenBytesTag
    simp only [ht, hd, hv]
    rw [if_neg (by simp [hb])]
    rw [if_neg (by omega)]
    rw [if_neg (by simp [hl, htl])]
    rw [htl]
    simp only [List.take_left', List.drop_left']
    rw [List.take_left' (hl _ _), if_neg (by simp)]
    rw [← List.drop_drop, List.drop_left' rfl, List.drop_left' (hl _ _)]

theorem readShake_some {α : Type} {hmac : Bytes → Bytes → Bytes} {decode : Bytes → Option α}
    (hd : decode [] = none) {inp : Bytes} {s : α} (h : readLenThenShakeTag hmac decode inp = some s) :
    ∃ m tag rest, inp = be64 m.length ++ m ++ tag ++ rest ∧ m.length ≤ 914 ∧ tag.length = 32 ∧
      tag = hmac (be64 m.length) m ∧ decode m = some s := by
  unfold readLenThenShakeTag at h
  cases hr : readLenThenBytesTag hmac inp with
  | err e => rw [hr] at h; simp [hd] at h
  | panic => rw [hr] at h; simp [hd] at h
  | ok x =>
    obtain ⟨m, tag, rest⟩ := x
    rw [hr] at h
    simp only at h
    unfold readLenThenBytesTag at hr
    have hmax : maxHandshakeBytes = 914 := rfl
    have htl : authTagLen = 32 := rfl
    simp only at hr
    split at hr
    · cases hr
    rename_i h8
    split at hr
    · cases hr
    rename_i hn
    split at hr
    · cases hr
    rename_i hlen
    split at hr
    · cases hr
    rename_i htag
    rw [hmax] at hn
    rw [htl] at hlen htag hr
    simp only [ne_eq, Decidable.not_not] at htag
    injection hr with hr
    simp only [Prod.mk.injEq] at hr
    obtain ⟨h1, h2, h3⟩ := hr
    have hm : m.length = deBe (inp.take 8) := by
      rw [← h1, List.length_take]
      omega
    have hbe : be64 m.length = inp.take 8 := by
      rw [hm]
      exact be64_deBe _ (by simp; omega)
    refine ⟨m, tag, rest, ?_, by omega, ?_, ?_, h⟩
    · rw [hbe, ← h1, ← h2, ← h3, List.append_assoc, List.append_assoc]
      have e : (inp.drop 8).drop (deBe (inp.take 8) + 32) =
          ((inp.drop 8).drop (deBe (inp.take 8))).drop 32 := by
        simp only [List.drop_drop, Nat.add_assoc]
      rw [e, List.take_append_drop, List.take_append_drop, List.take_append_drop]
    · rw [← h2, List.length_take, List.length_drop]
      omega
    · rw [hbe, ← h2, ← h1]; exact htag

end Verif.Handshake
