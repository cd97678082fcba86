import Verif.Model.MsgBin
namespace Verif.MsgBin

theorem ofNat_mod (n : Nat) : (UInt8.ofNat (n % 256)).toNat = n % 256 := by
  simp

theorem frame_length (b : Bytes) : b.length + 2 ≤ (frame b).length := by
  unfold frame; split
  · simp
  · split <;> simp [be16, be32]

/-- Number of header bytes. -/
def hlen (b : Bytes) : Nat :=
  if b.length ≤ 255 then 2 else if b.length ≤ 65535 then 3 else 5

theorem frame_split (b : Bytes) (h : b.length < 2 ^ 32) (h3 : 3 ≤ b.length) (rest : Bytes) :
    ∃ p0 p1 p2 p3 p4 tl, frame b ++ rest = p0 :: p1 :: p2 :: p3 :: p4 :: tl ∧
      unframe p0 p1 p2 p3 p4 = some (b.length, hlen b) ∧ (frame b).length = hlen b + b.length ∧
      (frame b).drop (hlen b) = b := by
  match b, h3 with
  | x :: y :: z :: w, _ =>
    unfold frame hlen
    split
    · refine ⟨_, _, _, _, _, _, rfl, ?_, ?_, ?_⟩
      · simp only [unframe, if_true]
        rw [show (UInt8.ofNat (x :: y :: z :: w).length).toNat = (x :: y :: z :: w).length by
          simp only [UInt8.toNat_ofNat']; omega]
      · simp; omega
      · simp
    · split
      · refine ⟨_, _, _, _, _, _, rfl, ?_, ?_, ?_⟩
        · rw [unframe, if_neg (by decide), if_pos rfl]
          simp only [UInt8.toNat_ofNat']
          congr 2
          omega
        · simp [be16]; omega
        · simp [be16]
      · refine ⟨_, _, _, _, _, _, rfl, ?_, ?_, ?_⟩
        · rw [unframe, if_neg (by decide), if_neg (by decide), if_pos rfl]
          simp only [UInt8.toNat_ofNat']
          congr 2
          omega
        · simp [be32]; omega
        · simp [be32]

/-- A whole frame is read back, whatever follows it. -/
theorem nextframe_frame (b rest : Bytes) (h3 : 3 ≤ b.length) (h : b.length < 2 ^ 32) :
    nextframe (frame b ++ rest) = .ok b rest := by
  obtain ⟨p0, p1, p2, p3, p4, tl, he, hu, hl, hd⟩ := frame_split b h h3 rest
  have hh : 2 ≤ hlen b := by unfold hlen; split <;> (try split) <;> omega
  rw [he, nextframe, hu]
  simp only [← he]
  have hl2 : (frame b ++ rest).length = hlen b + b.length + rest.length := by
    rw [List.length_append, hl]
  rw [if_neg (by omega)]
  rw [← hl, List.take_left, hd, Nat.max_eq_right (by omega), List.drop_left]

/-- A frame cut short is an error, not a value and not a clean end. -/
theorem nextframe_torn (b : Bytes) (h3 : 3 ≤ b.length) (h : b.length < 2 ^ 32) (n : Nat)
    (h0 : 0 < n) (hn : n < (frame b).length) : nextframe ((frame b).take n) = .bad := by
  obtain ⟨p0, p1, p2, p3, p4, tl, he, hu, hl, hd⟩ := frame_split b h h3 []
  rw [List.append_nil] at he
  rw [he] at hn ⊢
  match n, h0 with
  | 1, _ | 2, _ | 3, _ | 4, _ => rfl
  | n + 5, _ =>
    simp only [List.take_succ_cons, nextframe, hu]
    rw [if_pos]
    have : (frame b).length = tl.length + 5 := by rw [he]; rfl
    simp only [List.length_cons, List.length_take] at hn ⊢
    omega

end Verif.MsgBin
