import Verif.Model.Snapshot
namespace Verif.Snapshot

variable {D : Type}

theorem mem_number {c : D} : ∀ (ps : List Bytes) (i : Nat) {f : Frag D}, f ∈ number c i ps →
    ∃ j p, ps[j]? = some p ∧ f.payload = p ∧ f.sum = some c ∧ f.fromLeader = true ∧
      f.part = if j + 1 = ps.length then -((i + j : Nat) : Int) else ((i + j : Nat) : Int)
  | [], i, f, h => by simp [number] at h
  | [p], i, f, h => by
    simp only [number, List.mem_singleton] at h
    subst h
    exact ⟨0, p, rfl, rfl, rfl, rfl, by simp⟩
  | p :: q :: ps, i, f, h => by
    simp only [number, List.mem_cons] at h
    rcases h with h | h
    · subst h
      exact ⟨0, p, rfl, rfl, rfl, rfl, by simp⟩
    · obtain ⟨j, p', h1, h2, h3, h4, h5⟩ := mem_number (q :: ps) (i + 1) (f := f) (by simpa [number] using h)
      refine ⟨j + 1, p', by simpa using h1, h2, h3, h4, ?_⟩
      rw [h5]
      simp only [List.length_cons]
      by_cases hx : j + 1 = ps.length + 1
      · rw [if_pos hx, if_pos (by omega)]; congr 2; omega
      · rw [if_neg hx, if_neg (by omega)]; congr 1; omega

theorem pieces_get {mx : Nat} (hmx : 1 ≤ mx) : ∀ (fuel : Nat) (b : Bytes) (j : Nat) (p : Bytes),
    b.length ≤ fuel → (pieces mx b fuel)[j]? = some p →
    p = (b.drop (j * mx)).take mx ∧ j * mx < b.length ∧
      (j + 1 = (pieces mx b fuel).length ↔ b.length ≤ (j + 1) * mx)
  | 0, b, j, p, hl, h => by simp [pieces] at h
  | fuel + 1, b, j, p, hl, h => by
    unfold pieces at h ⊢
    by_cases hb : b = []
    · rw [if_pos hb] at h; simp at h
    rw [if_neg hb] at h ⊢
    have hpos := List.length_pos_iff.2 hb
    have hdl : (b.drop mx).length = b.length - mx := List.length_drop
    cases j with
    | zero =>
      simp only [List.getElem?_cons_zero, Option.some.injEq] at h
      subst h
      refine ⟨by simp, by simpa using hpos, ?_⟩
      simp only [List.length_cons, Nat.zero_add, Nat.one_mul]
      constructor
      · intro he
        have h0 : pieces mx (b.drop mx) fuel = [] := List.length_eq_zero_iff.1 (by omega)
        rcases Nat.lt_or_ge mx b.length with hlt | hge
        · exfalso
          cases fuel with
          | zero => omega
          | succ f =>
            unfold pieces at h0
            rw [if_neg (by intro hx; rw [hx] at hdl; simp at hdl; omega)] at h0
            cases h0
        · exact hge
      · intro hle
        have : b.drop mx = [] := List.drop_eq_nil_of_le hle
        rw [this]
        cases fuel <;> simp [pieces]
    | succ j =>
      simp only [List.getElem?_cons_succ] at h
      obtain ⟨h1, h2, h3⟩ := pieces_get hmx fuel (b.drop mx) j p (by omega) h
      rw [hdl] at h2 h3
      have e1 : (j + 1) * mx = j * mx + mx := by rw [Nat.succ_mul]
      have e2 : (j + 1 + 1) * mx = j * mx + mx + mx := by rw [Nat.succ_mul, e1]
      refine ⟨?_, by omega, ?_⟩
      · rw [h1, List.drop_drop, e1, Nat.add_comm]
      · simp only [List.length_cons]
        rw [e1] at h3
        rw [e2]
        constructor
        · intro he
          have := h3.1 (by omega)
          omega
        · intro he
          have := h3.2 (by omega)
          omega

/-- The receiver holds nothing, or the first `k` parts of the sent snapshot `b`. -/
def Ok (H : Bytes → D) (mx : Nat) (S : List Bytes) (r : Recv D) : Prop :=
  r.sum = none ∨ ∃ b ∈ S, ∃ k : Nat, 1 ≤ k ∧ r.sum = some (H b) ∧ r.last = (k : Int) ∧
    r.buf = b.take (k * mx) ∧ r.hashed = some (b.take (k * mx))

/-- A fragment that belongs to one of the transfers; it may come from someone not taken as
leader. -/
def Sent (H : Bytes → D) (mx : Nat) (S : List Bytes) (f : Frag D) : Prop :=
  ∃ b ∈ S, ∃ g ∈ fragsOf H mx b, f = { g with fromLeader := f.fromLeader }

variable [DecidableEq D]

theorem handle_ok {H : Bytes → D} {mx : Nat} {S : List Bytes} (hmx : 1 ≤ mx)
    (inj : ∀ a ∈ S, ∀ b ∈ S, H a = H b → a = b) {r : Recv D} {f : Frag D} (hr : Ok H mx S r)
    (hf : Sent H mx S f) :
    (∃ r', handle H r f = .keep r' ∧ Ok H mx S r') ∨ (∃ r' b, handle H r f = .install r' b ∧ b ∈ S ∧ Ok H mx S r') := by
  have hreset : Ok H mx S (reset : Recv D) := Or.inl rfl
  unfold handle
  by_cases hl : f.fromLeader = true
  rotate_left
  · left; exact ⟨r, by simp [hl], hr⟩
  have hl' : (!f.fromLeader) = false := by rw [hl]; rfl
  rw [hl']
  simp only [Bool.false_eq_true, if_false]
  obtain ⟨b, hb, g, hg, hfg⟩ := hf
  have ep : f.part = g.part := by rw [hfg]
  have es : f.sum = g.sum := by rw [hfg]
  have ey : f.payload = g.payload := by rw [hfg]
  rw [ep, es, ey]
  unfold fragsOf at hg
  split at hg
  · rename_i hlong
    obtain ⟨j, p, h1, h2, h3, _, h5⟩ := mem_number _ _ hg
    obtain ⟨q1, q2, q3⟩ := pieces_get hmx _ b j p (Nat.le_refl _) h1
    have e1 : (j + 1) * mx = j * mx + mx := Nat.succ_mul _ _
    rw [h3, h2, q1]
    rw [if_neg (by simp)]
    have hcat : b.take (j * mx) ++ (b.drop (j * mx)).take mx = b.take ((j + 1) * mx) := by
      rw [e1, List.take_add]
    by_cases hlast : b.length ≤ (j + 1) * mx
    · -- last part
      rw [if_pos (q3.2 hlast)] at h5
      have hj : 1 ≤ j := by
        rcases Nat.eq_zero_or_pos j with h0 | h0
        · subst h0; simp at hlast; omega
        · exact h0
      rw [if_neg (by omega), if_neg (by omega), if_pos (by omega)]
      by_cases hsum : r.sum = some (H b)
      · rw [if_neg (by simp [hsum])]
        by_cases hord : -g.part ≠ r.last + 1
        · rw [if_pos hord]; exact Or.inl ⟨_, rfl, hreset⟩
        · rw [if_neg hord]
          rcases hr with hr | ⟨b', hb', k, hk, hs', hlst, hbuf, hh⟩
          · rw [hr] at hsum; cases hsum
          · rw [hs'] at hsum
            have := inj b' hb' b hb (Option.some.inj hsum)
            subst this
            have hkj : k = j := by omega
            subst hkj
            rw [hh]
            dsimp only
            rw [hcat, hbuf, hcat, List.take_of_length_le hlast]
            rw [if_neg (by simp)]
            exact Or.inr ⟨_, _, rfl, hb, hreset⟩
      · rw [if_pos hsum]; exact Or.inl ⟨_, rfl, hreset⟩
    · rw [if_neg (fun hx => hlast (q3.1 hx))] at h5
      rcases Nat.eq_zero_or_pos j with h0 | h0
      · subst h0
        rw [if_pos (by omega)]
        left
        refine ⟨_, rfl, Or.inr ⟨b, hb, 1, Nat.le_refl _, rfl, rfl, ?_, ?_⟩⟩ <;> simp
      · rw [if_neg (by omega), if_pos (by omega)]
        by_cases hsum : r.sum = some (H b)
        · rw [if_neg (by simp [hsum])]
          by_cases hord : g.part ≠ r.last + 1
          · rw [if_pos hord]; exact Or.inl ⟨_, rfl, hreset⟩
          · rw [if_neg hord]
            rcases hr with hr | ⟨b', hb', k, hk, hs', hlst, hbuf, hh⟩
            · rw [hr] at hsum; cases hsum
            · have hs'' := hs'
              rw [hsum] at hs'
              have := inj b hb b' hb' (Option.some.inj hs')
              subst this
              have hkj : k = j := by omega
              subst hkj
              rw [hh]
              dsimp only
              rw [hcat, hbuf, hcat]
              left
              refine ⟨_, rfl, Or.inr ⟨b, hb, k + 1, by omega, hs'', ?_, rfl, rfl⟩⟩
              dsimp only; omega
        · rw [if_pos hsum]; exact Or.inl ⟨_, rfl, hreset⟩
  · simp only [List.mem_singleton] at hg
    subst hg
    right
    refine ⟨_, _, rfl, hb, hreset⟩

theorem handleAll_ok {H : Bytes → D} {mx : Nat} {S : List Bytes} (hmx : 1 ≤ mx)
    (inj : ∀ a ∈ S, ∀ b ∈ S, H a = H b → a = b) : ∀ (fs : List (Frag D)) {r : Recv D}, Ok H mx S r →
    (∀ f ∈ fs, Sent H mx S f) → ∃ out, handleAll H r fs = some out ∧ ∀ b ∈ out, b ∈ S
  | [], r, _, _ => ⟨[], rfl, by simp⟩
  | f :: fs, r, hr, hs => by
    rcases handle_ok hmx inj hr (hs f (by simp)) with ⟨r', h1, h2⟩ | ⟨r', b, h1, h2, h3⟩
    · obtain ⟨out, h4, h5⟩ := handleAll_ok hmx inj fs h2 (fun g hg => hs g (by simp [hg]))
      exact ⟨out, by simp only [handleAll, h1]; exact h4, h5⟩
    · obtain ⟨out, h4, h5⟩ := handleAll_ok hmx inj fs h3 (fun g hg => hs g (by simp [hg]))
      refine ⟨b :: out, by simp only [handleAll, h1, h4, Option.map_some], ?_⟩
      intro x hx
      rcases List.mem_cons.1 hx with rfl | hx
      · exact h2
      · exact h5 x hx

/-- The rest of a transfer, delivered in order, completes it. -/
theorem handleAll_rest {H : Bytes → D} (c : D) : ∀ (ps : List Bytes) (i : Nat) (r : Recv D) (pre : Bytes),
    ps ≠ [] → 1 ≤ i → r.sum = some c → r.last = (i : Int) → r.buf = pre → r.hashed = some pre →
    H (pre ++ ps.flatten) = c → handleAll H r (number c (i + 1) ps) = some [pre ++ ps.flatten]
  | [], _, _, _, h, _, _, _, _, _, _ => (h rfl).elim
  | [p], i, r, pre, _, hi, h1, h2, h3, h4, h5 => by
    have h5' : H (pre ++ p) = c := by simpa using h5
    simp only [number, handleAll]
    have : handle H r ⟨-((i + 1 : Nat) : Int), some c, p, true⟩ = .install reset (pre ++ p) := by
      unfold handle
      simp only [Bool.not_true, Bool.false_eq_true, if_false]
      rw [if_neg (by simp), if_neg (by omega), if_neg (by omega), if_pos (by omega), if_neg (by simp [h1]),
        if_neg (by rw [h2]; simp), h4]
      dsimp only
      rw [h3, if_neg (by simp [h5'])]
    rw [this]
    simp
  | p :: q :: ps, i, r, pre, _, hi, h1, h2, h3, h4, h5 => by
    simp only [number, handleAll]
    have : handle H r ⟨((i + 1 : Nat) : Int), some c, p, true⟩ =
        .keep ⟨((i + 1 : Nat) : Int), some c, some (pre ++ p), pre ++ p⟩ := by
      unfold handle
      simp only [Bool.not_true, Bool.false_eq_true, if_false]
      rw [if_neg (by simp), if_neg (by omega), if_pos (by omega), if_neg (by simp [h1]),
        if_neg (by rw [h2]; simp), h4]
      dsimp only
      rw [h3, h1]
    rw [this]
    dsimp only
    have := handleAll_rest (H := H) c (q :: ps) (i + 1) ⟨((i + 1 : Nat) : Int), some c, some (pre ++ p), pre ++ p⟩
      (pre ++ p) (by simp) (by omega) rfl rfl rfl rfl (by rw [← h5]; simp)
    rw [this]
    simp

theorem pieces_flatten {mx : Nat} (hmx : 1 ≤ mx) : ∀ (fuel : Nat) (b : Bytes), b.length ≤ fuel →
    (pieces mx b fuel).flatten = b
  | 0, b, h => by
    have : b = [] := List.length_eq_zero_iff.1 (by omega)
    subst this; simp [pieces]
  | fuel + 1, b, h => by
    unfold pieces
    split
    · rename_i hb; simp [hb]
    · rename_i hb
      have hpos := List.length_pos_iff.2 hb
      rw [List.flatten_cons, pieces_flatten hmx fuel (b.drop mx) (by rw [List.length_drop]; omega),
        List.take_append_drop]

theorem handleAll_transfer {H : Bytes → D} {mx : Nat} (hmx : 1 ≤ mx) (r : Recv D) (b : Bytes) :
    handleAll H r (fragsOf H mx b) = some [b] := by
  unfold fragsOf
  split
  · rename_i hlong
    have hflat := pieces_flatten hmx b.length b (Nat.le_refl _)
    generalize hps : pieces mx b b.length = ps at hflat
    cases hl : b.length with
    | zero => omega
    | succ n =>
      rw [hl] at hps
      unfold pieces at hps
      rw [if_neg (by intro hx; rw [hx] at hl; cases hl)] at hps
      cases ps with
      | nil => cases hps
      | cons p ps =>
        cases ps with
        | nil =>
          exfalso
          have hd : pieces mx (b.drop mx) n = [] := (List.cons.inj hps).2
          have := pieces_flatten hmx n (b.drop mx) (by rw [List.length_drop]; omega)
          rw [hd] at this
          have h0 := congrArg List.length this
          rw [List.length_drop] at h0
          simp at h0; omega
        | cons q qs =>
          simp only [number, handleAll]
          have hone : handle H r ⟨((1 : Nat) : Int), some (H b), p, true⟩ = .keep ⟨1, some (H b), some p, p⟩ := by
            unfold handle
            simp
          rw [hone]
          dsimp only
          have := handleAll_rest (H := H) (H b) (q :: qs) 1 ⟨1, some (H b), some p, p⟩ p (by simp) (Nat.le_refl _)
            rfl rfl rfl rfl (by rw [← hflat]; simp)
          rw [this]
          simp only [Option.some.injEq, List.cons.injEq, and_true]
          rw [← hflat]; simp
  · simp [handleAll, handle]

end Verif.Snapshot

namespace Verif.Snapshot
variable {D : Type} [DecidableEq D]

/-- What every fragment stream keeps true of the receiver: a checksum is expected exactly when
a hasher runs, and the hasher has been fed the buffer. -/
def Fed (r : Recv D) : Prop := r.sum = none ∨ r.hashed = some r.buf

theorem handle_fed {H : Bytes → D} {r : Recv D} (f : Frag D) (hr : Fed r) (hw : f.sum = none → f.part = 0) :
    (∃ r', handle H r f = .keep r' ∧ Fed r') ∨
    (∃ r' b, handle H r f = .install r' b ∧ Fed r' ∧ (f.part = 0 ∨ f.sum = some (H b))) := by
  have hreset : Fed (reset : Recv D) := Or.inl rfl
  unfold handle
  split
  · exact Or.inl ⟨_, rfl, hr⟩
  split
  · rename_i h
    rcases h with ⟨h1, h2⟩
    exact absurd (hw (Option.isNone_iff_eq_none.1 h1)) h2
  rename_i hns
  split
  · exact Or.inl ⟨_, rfl, Or.inr rfl⟩
  split
  · split
    · exact Or.inl ⟨_, rfl, hreset⟩
    rename_i hse
    split
    · exact Or.inl ⟨_, rfl, hreset⟩
    have hs : r.sum = f.sum := Decidable.byContradiction hse
    rcases hr with hr | hr
    · rw [hr] at hs; have := hw hs.symm; omega
    · rw [hr]; exact Or.inl ⟨_, rfl, Or.inr rfl⟩
  split
  · split
    · exact Or.inl ⟨_, rfl, hreset⟩
    rename_i hse
    split
    · exact Or.inl ⟨_, rfl, hreset⟩
    have hs : r.sum = f.sum := Decidable.byContradiction hse
    rcases hr with hr | hr
    · rw [hr] at hs; have := hw hs.symm; omega
    · rw [hr]
      dsimp only
      split
      · exact Or.inl ⟨_, rfl, hreset⟩
      · rename_i hx
        exact Or.inr ⟨_, _, rfl, hreset, Or.inr (Decidable.byContradiction fun h => hx (fun e => h e.symm))⟩
  · exact Or.inr ⟨_, _, rfl, hreset, Or.inl (by omega)⟩

theorem handleAll_fed {H : Bytes → D} : ∀ (fs : List (Frag D)) {r : Recv D}, Fed r →
    (∀ f ∈ fs, f.sum = none → f.part = 0) →
    ∃ out, handleAll H r fs = some out ∧
      ∀ b ∈ out, ∃ f ∈ fs, f.sum = some (H b) ∨ (f.part = 0 ∧ f.payload = b)
  | [], _, _, _ => ⟨[], rfl, by simp⟩
  | f :: fs, r, hr, hs => by
    rcases handle_fed (H := H) f hr (hs f (by simp)) with ⟨r', h1, h2⟩ | ⟨r', b, h1, h2, h3⟩
    · obtain ⟨out, h4, h5⟩ := handleAll_fed (H := H) fs h2 (fun g hg => hs g (by simp [hg]))
      refine ⟨out, by simp only [handleAll, h1]; exact h4, fun b hb => ?_⟩
      obtain ⟨g, hg, hx⟩ := h5 b hb
      exact ⟨g, by simp [hg], hx⟩
    · obtain ⟨out, h4, h5⟩ := handleAll_fed (H := H) fs h2 (fun g hg => hs g (by simp [hg]))
      refine ⟨b :: out, by simp only [handleAll, h1, h4, Option.map_some], ?_⟩
      intro x hx
      rcases List.mem_cons.1 hx with rfl | hx
      · refine ⟨f, by simp, ?_⟩
        rcases h3 with h3 | h3
        · refine Or.inr ⟨h3, ?_⟩
          unfold handle at h1
          split at h1
          · cases h1
          rw [if_neg (by simp [h3]), if_neg (by omega), if_neg (by omega), if_neg (by omega)] at h1
          cases h1; rfl
        · exact Or.inl h3
      · obtain ⟨g, hg, hx'⟩ := h5 x hx
        exact ⟨g, by simp [hg], hx'⟩

end Verif.Snapshot
