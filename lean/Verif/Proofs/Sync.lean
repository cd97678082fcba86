import Verif.Spec.Sync

set_option linter.unusedVariables false
set_option linter.unusedSectionVars false

namespace Verif.Sync

open Verif.CDC

variable {δ : Type} [DecidableEq δ]

/-! ## Zeros -/

theorem zeros_length (n : Nat) : (zeros n).length = n := List.length_replicate

theorem zeros_add (a b : Nat) : zeros (a + b) = zeros a ++ zeros b := by
  unfold zeros; rw [List.replicate_append_replicate]

theorem allZero_eq {b : Bytes} (h : allZero b = true) : b = zeros b.length := by
  unfold zeros
  rw [List.eq_replicate_iff]
  refine ⟨rfl, ?_⟩
  intro x hx
  have := List.all_eq_true.1 h x hx
  simpa using this

theorem drop_zeros (n k : Nat) : (zeros k).drop n = zeros (k - n) := by
  unfold zeros; rw [List.drop_replicate]

theorem take_zeros (n k : Nat) : (zeros k).take n = zeros (min n k) := by
  unfold zeros; rw [List.take_replicate]

/-! ## Chunk lists -/

theorem content_of {pre rest : Bytes} {c : Chunk δ} (hb : c.beg = pre.length)
    (he : c.endx ≤ pre.length + rest.length) (hlt : pre.length < c.endx) :
    content (pre ++ rest) c = rest.take (c.endx - pre.length) := by
  unfold content
  rw [hb, List.take_append, List.take_of_length_le (by omega), List.drop_left' rfl]

theorem describes_mem {hash : Bytes → δ} (cs : List (Chunk δ)) : ∀ (pre rest : Bytes),
    Describes hash pre.length rest cs → ∀ c ∈ cs,
      c.beg < c.endx ∧ c.endx ≤ (pre ++ rest).length ∧
      (match c.cry with
        | .rle0 => allZero (content (pre ++ rest) c) = true
        | .unwrit => allZero (content (pre ++ rest) c) = true
        | .digest d => d = hash (content (pre ++ rest) c)) := by
  induction cs with
  | nil => intro pre rest _ c hc; cases hc
  | cons x cs ih =>
    intro pre rest h c hc
    obtain ⟨h1, h2, h3, h4, h5⟩ := h
    rcases List.mem_cons.1 hc with rfl | hc
    · have hct := content_of h1 h3 h2
      refine ⟨by omega, by rw [List.length_append]; exact h3, ?_⟩
      rw [hct]
      exact h4
    · have hl : (pre ++ rest.take (x.endx - pre.length)).length = x.endx := by
        rw [List.length_append, List.length_take]; omega
      have := ih (pre ++ rest.take (x.endx - pre.length)) (rest.drop (x.endx - pre.length))
        (by rw [hl]; exact h5) c hc
      rw [List.append_assoc, List.take_append_drop] at this
      exact this

theorem cryMap_aux (cs : List (Chunk δ)) (k : Cry δ) : ∀ m : Option (Chunk δ),
    (cs.foldl (fun m c => if c.cry = k then some c else m) m = m ∧ ∀ c ∈ cs, c.cry ≠ k) ∨
    ∃ c ∈ cs, c.cry = k ∧ cs.foldl (fun m c => if c.cry = k then some c else m) m = some c := by
  induction cs with
  | nil => intro m; left; exact ⟨rfl, by simp⟩
  | cons x cs ih =>
    intro m
    rw [List.foldl_cons]
    rcases ih (if x.cry = k then some x else m) with ⟨h1, h2⟩ | ⟨c, hc, h1, h2⟩
    · by_cases hx : x.cry = k
      · right
        refine ⟨x, List.mem_cons_self .., hx, ?_⟩
        rw [h1, if_pos hx]
      · left
        rw [h1, if_neg hx]
        refine ⟨rfl, ?_⟩
        intro c hc
        rcases List.mem_cons.1 hc with rfl | hc
        · exact hx
        · exact h2 c hc
    · right
      exact ⟨c, List.mem_cons_of_mem _ hc, h1, h2⟩

theorem cryMap_some {cs : List (Chunk δ)} {k : Cry δ} (h : ∃ c ∈ cs, c.cry = k) :
    ∃ c ∈ cs, c.cry = k ∧ cryMap cs k = some c := by
  rcases cryMap_aux cs k none with ⟨_, h2⟩ | h2
  · obtain ⟨c, hc, hk⟩ := h
    exact absurd hk (h2 c hc)
  · exact h2

theorem hasCry_iff {cs : List (Chunk δ)} {d : δ} :
    hasCry cs (.digest d) = true ↔ ∃ c ∈ cs, c.cry = .digest d := by
  unfold hasCry
  rw [List.any_eq_true]
  constructor
  · rintro ⟨c, hc, h⟩
    exact ⟨c, hc, (of_decide_eq_true h).2⟩
  · rintro ⟨c, hc, h⟩
    refine ⟨c, hc, decide_eq_true ⟨?_, h⟩⟩
    rw [h]; simp

theorem hasCry_strip {cs : List (Chunk δ)} {d : δ} :
    hasCry (cs.map fun c => { c with data := [] }) (.digest d) = hasCry cs (.digest d) := by
  unfold hasCry
  rw [List.any_map]
  rfl

/-! ## Aligned spans -/

theorem aligned_cases (beg endx : Nat) (h : beg < endx) :
    (Numeric.alignedSparseSpan beg endx = some (none, some ⟨some ⟨beg, endx⟩, none⟩)) ∨
    ∃ a b w, Numeric.alignedSparseSpan beg endx = some (some ⟨a, b⟩, w) ∧
      beg ≤ a ∧ a < b ∧ b ≤ endx ∧ (b - a) % 4096 = 0 ∧
      ((w.bind (·.pre) = none ∧ a = beg) ∨ (w.bind (·.pre) = some ⟨beg, a⟩ ∧ a - beg ≤ 4096)) ∧
      ((w.bind (·.post) = none ∧ b = endx) ∨ (w.bind (·.post) = some ⟨b, endx⟩ ∧ endx - b ≤ 4096)) := by
  unfold Numeric.alignedSparseSpan Numeric.block
  rw [if_neg (by omega), if_neg (by omega)]
  simp only [Int.toNat_natCast]
  rw [if_neg (by omega)]
  by_cases h1 : endx - beg < 4096
  · rw [if_pos h1]; left; rfl
  · rw [if_neg h1]
    by_cases h2 : beg = 0
    · rw [if_pos h2]
      right
      by_cases h3 : endx % 4096 = 0
      · rw [if_pos h3]
        exact ⟨0, endx, none, rfl, by omega, by omega, by omega, by omega, .inl ⟨rfl, h2.symm⟩,
          .inl ⟨rfl, rfl⟩⟩
      · rw [if_neg h3]
        exact ⟨0, endx / 4096 * 4096, _, rfl, by omega, by omega, by omega, by omega,
          .inl ⟨rfl, h2.symm⟩, .inr ⟨rfl, by omega⟩⟩
    · rw [if_neg h2]
      by_cases h3 : beg % 4096 = 0
      · rw [if_pos h3, if_pos h3]
        by_cases h4 : endx < beg ∨ endx - beg < 4096
        · rw [if_pos h4]; left; rfl
        · rw [if_neg h4]
          right
          exact ⟨beg, beg + (endx - beg) / 4096 * 4096, _, rfl, by omega, by omega, by omega,
            by omega, .inl ⟨rfl, rfl⟩, .inr ⟨rfl, by omega⟩⟩
      · rw [if_neg h3, if_neg h3]
        by_cases h4 : endx < (beg / 4096 + 1) * 4096 ∨ endx - (beg / 4096 + 1) * 4096 < 4096
        · rw [if_pos h4]; left; rfl
        · rw [if_neg h4]
          right
          exact ⟨(beg / 4096 + 1) * 4096, (beg / 4096 + 1) * 4096
            + (endx - (beg / 4096 + 1) * 4096) / 4096 * 4096, _, rfl, by omega, by omega, by omega,
            by omega, .inr ⟨rfl, by omega⟩, .inr ⟨rfl, by omega⟩⟩

/-! ## Files -/

theorem writeAt_tail (pre b : Bytes) (k : Nat) :
    writeAt (pre ++ zeros k) pre.length b = (pre ++ b) ++ zeros (k - b.length) := by
  unfold writeAt
  cases b with
  | nil => simp
  | cons x b =>
    rw [if_neg (by simp)]
    rw [List.take_append_of_le_length (by rw [List.length_append]; omega), List.take_left' rfl]
    rw [List.drop_append, List.drop_of_length_le (by omega)]
    rw [List.nil_append, show pre.length + (x :: b).length - pre.length = (x :: b).length by omega,
      drop_zeros]

theorem punch_tail (pre : Bytes) (k n : Nat) :
    punch (pre ++ zeros k) pre.length n = pre ++ zeros k := by
  unfold punch
  rw [List.take_left' rfl, List.drop_left' rfl, take_zeros, zeros_length, List.drop_append,
    List.drop_of_length_le (by omega), List.nil_append,
    show pre.length + n - pre.length = n by omega, drop_zeros, List.append_assoc, ← zeros_add]
  congr 2
  omega

/-! ## In memory -/

/-- A chunk's data is attached, or at hand in memory. -/
def AtHand (lm : Cry δ → Option (Chunk δ)) (goal : Bytes) (c : Chunk δ) : Prop :=
  Hashed c → c.data = content goal c ∨
    (c.data = [] ∧ ∃ lc, lm c.cry = some lc ∧ lc.data = content goal c ∧
      lc.data.length = lc.endx - lc.beg)

/-- The holes a chunk list asks for. -/
def spansOf (cs : List (Chunk δ)) : List Numeric.SparseSpan :=
  cs.flatMap fun c =>
    match c.cry with
    | .rle0 => match Numeric.alignedSparseSpan c.beg c.endx with
      | some (some sp, _) => [sp]
      | _ => []
    | _ => []

theorem memLoop_eq {hash : Bytes → δ} {lm : Cry δ → Option (Chunk δ)} (cs : List (Chunk δ)) :
    ∀ (pre rest : Bytes) (s : MemState), Describes hash pre.length rest cs →
      (∀ c ∈ cs, c.cry ≠ .unwrit) → (∀ c ∈ cs, AtHand lm (pre ++ rest) c) →
      s.out = pre → s.hashed = pre →
      memLoop (pre ++ rest).length lm s cs =
        some ⟨pre ++ rest, pre ++ rest, s.sparse ++ spansOf cs⟩ := by
  induction cs with
  | nil =>
    intro pre rest s hd hu ha ho hh
    have : rest = [] := hd
    subst this
    cases s
    simp_all [memLoop, spansOf]
  | cons c cs ih =>
    intro pre rest s hd hu ha ho hh
    obtain ⟨h1, h2, h3, h4, h5⟩ := hd
    have hct := content_of (c := c) h1 h3 h2
    have hl : (pre ++ rest.take (c.endx - pre.length)).length = c.endx := by
      rw [List.length_append, List.length_take]; omega
    have hlt : (rest.take (c.endx - pre.length)).length = c.endx - c.beg := by
      rw [List.length_take]; omega
    have e : pre ++ rest.take (c.endx - pre.length) ++ rest.drop (c.endx - pre.length)
        = pre ++ rest := by rw [List.append_assoc, List.take_append_drop]
    have hsz : (pre ++ rest).length = pre.length + rest.length := List.length_append
    have step : ∀ (sp : List Numeric.SparseSpan),
        memChunk (pre ++ rest).length lm cs.isEmpty s c =
          some ⟨pre ++ rest.take (c.endx - pre.length), pre ++ rest.take (c.endx - pre.length),
            s.sparse ++ sp⟩ → spansOf (c :: cs) = sp ++ spansOf cs →
        memLoop (pre ++ rest).length lm s (c :: cs) =
          some ⟨pre ++ rest, pre ++ rest, s.sparse ++ spansOf (c :: cs)⟩ := by
      intro sp hm hs
      simp only [memLoop, hm]
      have := ih (pre ++ rest.take (c.endx - pre.length)) (rest.drop (c.endx - pre.length))
        ⟨pre ++ rest.take (c.endx - pre.length), pre ++ rest.take (c.endx - pre.length),
          s.sparse ++ sp⟩ (by rw [hl]; exact h5)
        (fun x hx => hu x (List.mem_cons_of_mem _ hx))
        (by rw [e]; exact fun x hx => ha x (List.mem_cons_of_mem _ hx)) rfl rfl
      rw [e] at this
      rw [this, hs, List.append_assoc]
    have hcopy : ∀ b : Bytes, b = rest.take (c.endx - pre.length) →
        s.copy (pre ++ rest).length b = ⟨pre ++ rest.take (c.endx - pre.length),
          pre ++ rest.take (c.endx - pre.length), s.sparse⟩ := by
      intro b hb
      unfold MemState.copy
      rw [ho, hh, hb, List.take_of_length_le (by omega)]
    cases hc : c.cry with
    | rle0 =>
      rw [hc] at h4
      dsimp only at h4
      have hz := allZero_eq h4
      rw [hlt] at hz
      rcases aligned_cases c.beg c.endx (by omega) with ha' | ⟨a, b, w, ha', _⟩
      · refine step [] ?_ (by simp [spansOf, hc, ha'])
        simp only [memChunk, hc, ha']
        rw [hcopy _ hz.symm]
        rfl
      · refine step [⟨a, b⟩] ?_ (by simp [spansOf, hc, ha'])
        simp only [memChunk, hc, ha']
        rw [hcopy _ hz.symm]
        rfl
    | unwrit => exact absurd hc (hu c (List.mem_cons_self ..))
    | digest d =>
      have hne : rest.take (c.endx - pre.length) ≠ [] := by
        intro h0; rw [h0] at hlt; simp at hlt; omega
      refine step [] ?_ (by simp [spansOf, hc])
      have hat := ha c (List.mem_cons_self ..) ⟨d, hc⟩
      rw [hct] at hat
      simp only [memChunk, hc]
      rcases hat with hdat | ⟨hdat, lc, hlm, hld, hll⟩
      · rw [hdat]
        rw [if_neg (by simpa using hne), if_pos (by rw [ho, hlt]; omega), hcopy _ rfl]
        simp
      · rw [hdat]
        rw [hc] at hlm
        simp only [List.isEmpty_nil, if_true, hlm]
        rw [if_pos (by rw [hld, ho, hlt]; rw [hld, hlt] at hll; omega), hcopy _ hld]
        simp

/-! ### The holes -/

/-- The holes follow one another, and the bytes in them are zero. -/
def GoodHoles (f : Bytes) : (off : Nat) → List Numeric.SparseSpan → Prop
  | _, [] => True
  | off, sp :: rest => off ≤ sp.beg ∧ sp.beg < sp.endx ∧ sp.endx ≤ f.length ∧
    (f.take sp.endx).drop sp.beg = zeros (sp.endx - sp.beg) ∧ GoodHoles f sp.endx rest

theorem GoodHoles.weaken {f : Bytes} {off off' : Nat} (h : off' ≤ off)
    {sps : List Numeric.SparseSpan} (hg : GoodHoles f off sps) : GoodHoles f off' sps := by
  cases sps with
  | nil => trivial
  | cons sp rest => exact ⟨by have := hg.1; omega, hg.2⟩

theorem writeSparse_eq (newvers : Bytes) (sps : List Numeric.SparseSpan) : ∀ off,
    off ≤ newvers.length → GoodHoles newvers off sps →
    writeSparse newvers (newvers.take off ++ zeros (newvers.length - off)) off off sps
      = newvers := by
  induction sps with
  | nil =>
    intro off ho _
    have hl : (newvers.take off).length = off := by rw [List.length_take]; omega
    unfold writeSparse
    split
    · have := writeAt_tail (newvers.take off) (newvers.drop off) (newvers.length - off)
      rw [hl] at this
      rw [this, List.length_drop, Nat.sub_self, List.take_append_drop]
      simp [zeros]
    · have : off = newvers.length := by omega
      subst this
      rw [List.take_length, Nat.sub_self]
      simp [zeros]
  | cons sp rest ih =>
    intro off ho hg
    obtain ⟨h1, h2, h3, h4, h5⟩ := hg
    have hl : (newvers.take off).length = off := by rw [List.length_take]; omega
    unfold writeSparse
    have key : (if off < sp.beg then
          writeAt (newvers.take off ++ zeros (newvers.length - off)) off
            ((newvers.take sp.beg).drop off)
        else newvers.take off ++ zeros (newvers.length - off))
        = newvers.take sp.beg ++ zeros (newvers.length - sp.beg) := by
      split
      · have := writeAt_tail (newvers.take off) ((newvers.take sp.beg).drop off)
          (newvers.length - off)
        rw [hl] at this
        rw [this]
        have e2 : newvers.take off ++ (newvers.take sp.beg).drop off = newvers.take sp.beg := by
          rw [← List.take_append_drop off (newvers.take sp.beg), List.take_take,
            Nat.min_eq_left h1]
          congr 1
          rw [List.drop_append, List.drop_of_length_le (l := newvers.take off) (by omega), hl]
          simp
        rw [e2]
        congr 2
        rw [List.length_drop, List.length_take]
        omega
      · have : off = sp.beg := by omega
        rw [this]
    rw [key]
    have e3 : newvers.take sp.beg ++ zeros (newvers.length - sp.beg)
        = newvers.take sp.endx ++ zeros (newvers.length - sp.endx) := by
      have e4 : newvers.take sp.endx = newvers.take sp.beg ++ zeros (sp.endx - sp.beg) := by
        rw [← h4]
        conv => lhs; rw [← List.take_append_drop sp.beg (newvers.take sp.endx)]
        rw [List.take_take, Nat.min_eq_left (by omega)]
      rw [e4, List.append_assoc, ← zeros_add]
      congr 2
      omega
    rw [e3]
    exact ih sp.endx h3 h5

theorem slice_zero {f : Bytes} {beg endx a b : Nat} (h : (f.take endx).drop beg = zeros (endx - beg))
    (h1 : beg ≤ a) (h2 : a ≤ b) (h3 : b ≤ endx) : (f.take b).drop a = zeros (b - a) := by
  have : (f.take b).drop a = (((f.take endx).drop beg).take (b - beg)).drop (a - beg) := by
    rw [List.drop_take, List.drop_take, List.drop_take, List.drop_take, List.take_take,
      List.drop_drop, show beg + (a - beg) = a by omega]
    congr 1
    omega
  rw [this, h, take_zeros, drop_zeros]
  congr 1
  omega

theorem spansOf_good {hash : Bytes → δ} (cs : List (Chunk δ)) : ∀ (pre rest : Bytes),
    Describes hash pre.length rest cs → GoodHoles (pre ++ rest) pre.length (spansOf cs) := by
  induction cs with
  | nil => intro pre rest _; trivial
  | cons c cs ih =>
    intro pre rest hd
    have hm := describes_mem (c :: cs) pre rest hd c (List.mem_cons_self ..)
    obtain ⟨h1, h2, h3, h4, h5⟩ := hd
    have hl : (pre ++ rest.take (c.endx - pre.length)).length = c.endx := by
      rw [List.length_append, List.length_take]; omega
    have ih := ih (pre ++ rest.take (c.endx - pre.length)) (rest.drop (c.endx - pre.length))
      (by rw [hl]; exact h5)
    rw [hl, List.append_assoc, List.take_append_drop] at ih
    have e : spansOf (c :: cs) = spansOf [c] ++ spansOf cs := by simp [spansOf]
    rw [e]
    cases hc : c.cry with
    | rle0 =>
      rw [hc] at hm
      have hz := allZero_eq hm.2.2
      unfold content at hz
      rcases aligned_cases c.beg c.endx (by omega) with ha' | ⟨a, b, w, ha', g1, g2, g3, g4⟩
      · have : spansOf [c] = [] := by simp [spansOf, hc, ha']
        rw [this]
        exact ih.weaken (by omega)
      · have : spansOf [c] = [⟨a, b⟩] := by simp [spansOf, hc, ha']
        rw [this]
        refine ⟨by dsimp only; omega, g2, by dsimp only; omega, ?_, ih.weaken g3⟩
        refine slice_zero (beg := c.beg) (endx := c.endx) ?_ g1 (by dsimp only; omega) g3
        rw [hz]
        congr 1
        rw [List.length_drop, List.length_take]
        omega
    | unwrit =>
      have : spansOf [c] = [] := by simp [spansOf, hc]
      rw [this]
      exact ih.weaken (by omega)
    | digest d =>
      have : spansOf [c] = [] := by simp [spansOf, hc]
      rw [this]
      exact ih.weaken (by omega)

theorem describes_last {hash : Bytes → δ} (cs : List (Chunk δ)) : ∀ (pre rest : Bytes),
    Describes hash pre.length rest cs → rest ≠ [] →
      ∃ l, cs.getLast? = some l ∧ l.endx = (pre ++ rest).length := by
  induction cs with
  | nil => intro pre rest h hr; exact absurd h hr
  | cons c cs ih =>
    intro pre rest hd hr
    obtain ⟨h1, h2, h3, h4, h5⟩ := hd
    by_cases he : rest.drop (c.endx - pre.length) = []
    · cases cs with
      | nil =>
        refine ⟨c, rfl, ?_⟩
        have := congrArg List.length he
        rw [List.length_drop] at this
        rw [List.length_append]
        simp at this
        omega
      | cons x cs =>
        rw [he] at h5
        have := h5.2.1
        have := h5.2.2.1
        simp at this
        omega
    · have hl : (pre ++ rest.take (c.endx - pre.length)).length = c.endx := by
        rw [List.length_append, List.length_take]; omega
      obtain ⟨l, h6, h7⟩ := ih (pre ++ rest.take (c.endx - pre.length))
        (rest.drop (c.endx - pre.length)) (by rw [hl]; exact h5) he
      rw [List.append_assoc, List.take_append_drop] at h7
      refine ⟨l, ?_, h7⟩
      rw [List.getLast?_cons, h6]
      rfl

theorem updateLocal_eq {hash fhash : Bytes → δ} {lm : Cry δ → Option (Chunk δ)} {goal : Bytes}
    {plan : Chunks δ} (hs : plan.fileSize = goal.length) (hf : plan.fileCry = fhash goal)
    (hd : Describes hash 0 goal plan.chunks) (hu : ∀ c ∈ plan.chunks, c.cry ≠ .unwrit)
    (ha : ∀ c ∈ plan.chunks, AtHand lm goal c) :
    updateLocal fhash lm plan = some goal := by
  unfold updateLocal
  by_cases h0 : plan.fileSize = 0
  · rw [if_pos h0]
    rw [hs] at h0
    rw [List.length_eq_zero_iff.1 h0]
  · rw [if_neg h0]
    have hne : goal ≠ [] := by intro e; rw [e] at hs; exact h0 hs
    obtain ⟨l, h1, h2⟩ := describes_last plan.chunks [] goal hd hne
    rw [h1]
    dsimp only
    rw [List.nil_append] at h2
    rw [if_neg (by omega)]
    have hm := memLoop_eq (lm := lm) plan.chunks [] goal {} hd hu ha rfl rfl
    rw [List.nil_append] at hm
    rw [hs, hm]
    dsimp only
    rw [hf, if_neg (by simp)]
    rw [Nat.sub_self]
    have hz : goal ++ zeros 0 = goal := by simp [zeros]
    rw [hz]
    have hw := writeSparse_eq goal (spansOf plan.chunks) 0 (by omega)
      (spansOf_good plan.chunks [] goal hd)
    rw [List.take_zero, List.nil_append, Nat.sub_zero] at hw
    rw [List.nil_append, hw]
    split <;> rfl

/-! ## As it arrives -/

/-- Everything up to the file position is as it should be, the rest is zeros. -/
structure TInv (s : TakerState) (pre : Bytes) (k : Nat) : Prop where
  file : s.file = pre ++ zeros k
  pos : s.pos = pre.length
  hashed : s.hashed = pre

theorem TInv.write {s : TakerState} {pre : Bytes} {k : Nat} (h : TInv s pre k) (b : Bytes) :
    TInv (s.write b) (pre ++ b) (k - b.length) := by
  refine ⟨?_, ?_, ?_⟩
  · simp only [TakerState.write, h.file, h.pos]; exact writeAt_tail pre b k
  · simp only [TakerState.write, h.pos, List.length_append]
  · simp only [TakerState.write, h.hashed]

theorem TInv.zerosChunk {s : TakerState} {pre : Bytes} {k beg endx : Nat} (h : TInv s pre k)
    (hb : beg = pre.length) (hlt : beg < endx) (hk : endx - beg ≤ k)
    (hok : endx - beg ≤ 4096 ∨ ∃ sp w, Numeric.alignedSparseSpan beg endx = some (some sp, w)) :
    ∃ span wings s', Numeric.alignedSparseSpan beg endx = some (span, wings) ∧
      ((s.wing (wings.bind (·.pre))).bind (·.hole span)).bind (·.wing (wings.bind (·.post)))
        = some s' ∧ TInv s' (pre ++ zeros (endx - beg)) (k - (endx - beg)) := by
  have hwing : ∀ (t : TakerState) (p : Bytes) (k' a b : Nat), TInv t p k' → b - a ≤ 4096 →
      ∃ t', t.wing (some ⟨a, b⟩) = some t' ∧ TInv t' (p ++ zeros (b - a)) (k' - (b - a)) := by
    intro t p k' a b ht hab
    refine ⟨t.write (zeros (b - a)), ?_, ?_⟩
    · simp only [TakerState.wing]; rw [if_pos hab]
    · have := ht.write (zeros (b - a))
      rw [zeros_length] at this
      exact this
  rcases aligned_cases beg endx hlt with ha | ⟨a, b, w, ha, h1, h2, h3, h4, h5, h6⟩
  · have hsz : endx - beg ≤ 4096 := by
      rcases hok with h | ⟨sp, w, h⟩
      · exact h
      · rw [ha] at h; simp at h
    obtain ⟨t', e1, e2⟩ := hwing s pre k beg endx h hsz
    refine ⟨none, _, t', ha, ?_, e2⟩
    rw [show ((some (⟨some ⟨beg, endx⟩, none⟩ : Numeric.Wings)).bind (·.pre))
      = some ⟨beg, endx⟩ from rfl, e1]
    rfl
  · -- the wing before
    have hpre : ∃ t, s.wing (w.bind (·.pre)) = some t ∧ TInv t (pre ++ zeros (a - beg)) (k - (a - beg)) := by
      rcases h5 with ⟨e, e'⟩ | ⟨e, e'⟩
      · refine ⟨s, by rw [e]; rfl, ?_⟩
        rw [e', Nat.sub_self]
        simpa [zeros] using h
      · rw [e]; exact hwing s pre k beg a h e'
    obtain ⟨t, ht, hi⟩ := hpre
    -- the hole
    have hhole : ∃ u, t.hole (some ⟨a, b⟩) = some u ∧
        TInv u (pre ++ zeros (b - beg)) (k - (b - beg)) := by
      refine ⟨_, by simp only [TakerState.hole]; rw [if_neg (by omega)], ?_⟩
      have hl : (pre ++ zeros (a - beg)).length = a := by
        rw [List.length_append, zeros_length]; omega
      refine ⟨?_, ?_, ?_⟩
      · dsimp only
        rw [hi.file, hi.pos, punch_tail, show k - (a - beg) = (b - a) + (k - (b - beg)) by omega,
          zeros_add, ← List.append_assoc, List.append_assoc pre, ← zeros_add,
          show a - beg + (b - a) = b - beg by omega]
      · dsimp only
        rw [List.length_append, zeros_length]; omega
      · dsimp only
        rw [hi.hashed, List.append_assoc, ← zeros_add, show a - beg + (b - a) = b - beg by omega]
    obtain ⟨u, hu, hj⟩ := hhole
    have hpost : ∃ v, u.wing (w.bind (·.post)) = some v ∧
        TInv v (pre ++ zeros (endx - beg)) (k - (endx - beg)) := by
      rcases h6 with ⟨e, e'⟩ | ⟨e, e'⟩
      · refine ⟨u, by rw [e]; rfl, ?_⟩
        rw [← e']; exact hj
      · rw [e]
        obtain ⟨v, hv, hv'⟩ := hwing u _ _ b endx hj e'
        refine ⟨v, hv, ?_⟩
        rw [List.append_assoc, ← zeros_add, show b - beg + (endx - b) = endx - beg by omega,
          show k - (b - beg) - (endx - b) = k - (endx - beg) by omega] at hv'
        exact hv'
    obtain ⟨v, hv, hv'⟩ := hpost
    refine ⟨some ⟨a, b⟩, w, v, ha, ?_, hv'⟩
    simp only [ht, Option.bind_some, hu, hv]

/-- A chunk's data is attached, or can be read from the old file. -/
def OnDisk (orig : Option Bytes) (bufLen : Nat) (lm : Cry δ → Option (Chunk δ)) (goal : Bytes)
    (c : Chunk δ) : Prop :=
  match c.cry with
  | .rle0 => c.data = []
  | .unwrit => c.data = []
  | .digest d => c.data = content goal c ∨
    (c.data = [] ∧ ∃ f lc, orig = some f ∧ lm (.digest d) = some lc ∧ lc.beg < lc.endx ∧
      lc.endx ≤ f.length ∧ lc.endx - lc.beg ≤ bufLen ∧ content f lc = content goal c)

/-- A run of zeros the taker can write. -/
def ZerosOk (c : Chunk δ) : Prop :=
  c.cry = .rle0 → c.endx - c.beg ≤ 4096 ∨
    ∃ sp w, Numeric.alignedSparseSpan c.beg c.endx = some (some sp, w)

theorem takerLoop_eq {hash : Bytes → δ} {orig : Option Bytes} {bufLen : Nat}
    {lm : Cry δ → Option (Chunk δ)} (cs : List (Chunk δ)) :
    ∀ (pre rest : Bytes) (s : TakerState), Describes hash pre.length rest cs →
      (∀ c ∈ cs, c.cry ≠ .unwrit) → (∀ c ∈ cs, OnDisk orig bufLen lm (pre ++ rest) c) →
      (∀ c ∈ cs, ZerosOk c) → TInv s pre rest.length →
      ∃ s', takerLoop orig bufLen lm s cs = some s' ∧ TInv s' (pre ++ rest) 0 := by
  induction cs with
  | nil =>
    intro pre rest s hd hu ho hz hi
    have : rest = [] := hd
    subst this
    exact ⟨s, rfl, by simpa using hi⟩
  | cons c cs ih =>
    intro pre rest s hd hu ho hz hi
    obtain ⟨h1, h2, h3, h4, h5⟩ := hd
    have hct := content_of (c := c) h1 h3 h2
    have hl : (pre ++ rest.take (c.endx - pre.length)).length = c.endx := by
      rw [List.length_append, List.length_take]; omega
    have hlt : (rest.take (c.endx - pre.length)).length = c.endx - c.beg := by
      rw [List.length_take]; omega
    have e : pre ++ rest.take (c.endx - pre.length) ++ rest.drop (c.endx - pre.length)
        = pre ++ rest := by rw [List.append_assoc, List.take_append_drop]
    have hk : rest.length - (c.endx - c.beg) = (rest.drop (c.endx - pre.length)).length := by
      rw [List.length_drop, h1]
    have step : ∀ s1, takerChunk orig bufLen lm s c = some s1 →
        TInv s1 (pre ++ rest.take (c.endx - pre.length)) (rest.length - (c.endx - c.beg)) →
        ∃ s', takerLoop orig bufLen lm s (c :: cs) = some s' ∧ TInv s' (pre ++ rest) 0 := by
      intro s1 ht hi1
      rw [hk] at hi1
      obtain ⟨s', h6, h7⟩ := ih _ (rest.drop (c.endx - pre.length)) s1 (by rw [hl]; exact h5)
        (fun x hx => hu x (List.mem_cons_of_mem _ hx))
        (by rw [e]; exact fun x hx => ho x (List.mem_cons_of_mem _ hx))
        (fun x hx => hz x (List.mem_cons_of_mem _ hx)) hi1
      rw [e] at h7
      exact ⟨s', by simp only [takerLoop, ht, h6], h7⟩
    have hod := ho c (List.mem_cons_self ..)
    have hwr : ∀ b : Bytes, b = rest.take (c.endx - pre.length) →
        TInv (s.write b) (pre ++ rest.take (c.endx - pre.length))
          (rest.length - (c.endx - c.beg)) := by
      intro b hb
      have := hi.write b
      rw [hb, hlt] at this
      rw [hb]
      exact this
    cases hc : c.cry with
    | rle0 =>
      rw [hc] at h4
      dsimp only at h4
      have hzz := allZero_eq h4
      rw [hlt] at hzz
      obtain ⟨span, wings, s', g1, g2, g3⟩ := hi.zerosChunk h1 (by omega) (by omega)
        (hz c (List.mem_cons_self ..) hc)
      rw [← hzz] at g3
      refine step s' ?_ g3
      have hdat : c.data = [] := by simpa [OnDisk, hc] using hod
      simp only [takerChunk, hdat, hc, g1, List.isEmpty_nil, if_true]
      exact g2
    | unwrit => exact absurd hc (hu c (List.mem_cons_self ..))
    | digest d =>
      simp only [OnDisk, hc] at hod
      rw [hct] at hod
      have hne : rest.take (c.endx - pre.length) ≠ [] := by
        intro h0; rw [h0] at hlt; simp at hlt; omega
      rcases hod with hdat | ⟨hdat, f, lc, g1, g2, g3, g4, g5, g6⟩
      · refine step (s.write c.data) ?_ (hwr _ hdat)
        unfold takerChunk
        rw [if_neg (by rw [hdat]; simpa using hne), if_pos (by rw [hdat, hlt])]
      · refine step (s.write (content f lc)) ?_ (hwr _ g6)
        have hlen : (content f lc).length = lc.endx - lc.beg := by
          unfold content; rw [List.length_drop, List.length_take]; omega
        have hrr : readRange f lc.beg lc.endx = some (content f lc) := by
          unfold readRange content
          rw [if_pos (by omega)]
        simp only [takerChunk, hdat, hc, List.isEmpty_nil, if_true, g2, g1, if_pos g5, hrr,
          if_pos hlen]

theorem taker_eq {hash fhash : Bytes → δ} {orig : Option Bytes} {bufLen : Nat}
    {lm : Cry δ → Option (Chunk δ)} {goal : Bytes} {plan : Chunks δ}
    {packs : List (List (Chunk δ))} (hne : goal ≠ [])
    (hf : plan.fileCry = fhash goal) (hpre : plan.unwritEndx = 0)
    (hd : Describes hash 0 goal packs.flatten) (hu : ∀ c ∈ packs.flatten, c.cry ≠ .unwrit)
    (ho : ∀ c ∈ packs.flatten, OnDisk orig bufLen lm goal c)
    (hz : ∀ c ∈ packs.flatten, ZerosOk c) :
    taker fhash orig bufLen lm goal.length plan packs = some goal := by
  unfold taker
  have hpk : packs.isEmpty = false := by
    cases packs with
    | nil => exact absurd hd hne
    | cons _ _ => rfl
  rw [hpk, if_neg (by simp)]
  obtain ⟨s', h1, h2⟩ := takerLoop_eq (hash := hash) (orig := orig) (bufLen := bufLen) (lm := lm)
    packs.flatten [] goal (takerStart goal.length plan.unwritEndx) hd hu ho hz (by
      unfold takerStart
      rw [if_pos hpre]
      exact ⟨rfl, rfl, rfl⟩)
  rw [h1]
  dsimp only
  rw [h2.hashed, h2.file, List.nil_append, hf, if_neg (by simp)]
  simp [zeros]

/-! ## Packing -/

theorem packOne_eq {msize : Chunk δ → Nat} {max : Nat} {file : Bytes} (cs : List (Chunk δ)) :
    ∀ used fs, cs.mapM (fillChunk file) = some fs →
      ∃ p rest fr, packOne msize max file used cs = some (p, rest) ∧
        rest.mapM (fillChunk file) = some fr ∧ p ++ fr = fs ∧ rest.length ≤ cs.length ∧
        (∀ c ∈ rest, c ∈ cs) ∧
        ((∀ f ∈ fs.head?, used + msize f < max) → cs ≠ [] → rest.length < cs.length) := by
  induction cs with
  | nil =>
    intro used fs h
    exact ⟨[], [], fs, rfl, h, rfl, Nat.le_refl _, by simp, by simp⟩
  | cons c cs ih =>
    intro used fs h
    rw [List.mapM_cons] at h
    cases hf : fillChunk file c with
    | none => rw [hf] at h; simp at h
    | some f =>
      cases hfs : cs.mapM (fillChunk file) with
      | none => rw [hf, hfs] at h; simp at h
      | some fs' =>
        rw [hf, hfs] at h
        simp at h
        subst h
        simp only [packOne, hf]
        by_cases hm : used + msize f < max
        · rw [if_pos hm]
          obtain ⟨p, rest, fr, g1, g2, g3, g4, g5, g6⟩ := ih (used + msize f) fs' hfs
          refine ⟨f :: p, rest, fr, by rw [g1]; rfl, g2, by rw [← g3]; rfl, ?_, ?_, ?_⟩
          · rw [List.length_cons]; omega
          · exact fun x hx => List.mem_cons_of_mem _ (g5 x hx)
          · intro _ _; rw [List.length_cons]; omega
        · rw [if_neg hm]
          refine ⟨[], c :: cs, f :: fs', rfl, ?_, rfl, Nat.le_refl _, fun x hx => hx, ?_⟩
          · rw [List.mapM_cons, hf, hfs]; rfl
          · intro hh _
            exact absurd (hh f (by simp)) hm

theorem packAll_eq {msize : Chunk δ → Nat} {max : Nat} {file : Bytes} :
    ∀ (n : Nat) (cs fs : List (Chunk δ)), cs.length ≤ n → cs.mapM (fillChunk file) = some fs →
      (∀ f ∈ fs, msize f < max) →
      ∃ packs, packAll msize max file cs = some packs ∧ packs.flatten = fs := by
  intro n
  induction n with
  | zero =>
    intro cs fs hn h hm
    have : cs = [] := List.length_eq_zero_iff.1 (by omega)
    subst this
    simp at h
    subst h
    refine ⟨[], ?_, rfl⟩
    unfold packAll
    simp
  | succ n ih =>
    intro cs fs hn h hm
    by_cases h0 : cs.length = 0
    · have : cs = [] := List.length_eq_zero_iff.1 h0
      subst this
      simp at h
      subst h
      refine ⟨[], ?_, rfl⟩
      unfold packAll
      simp
    · obtain ⟨p, rest, fr, g1, g2, g3, g4, g5, g6⟩ :=
        packOne_eq (msize := msize) (max := max) cs 0 fs h
      have hlt := g6 (by
        intro f hf
        have := hm f (List.mem_of_head? hf)
        omega) (by intro e; rw [e] at h0; exact h0 rfl)
      obtain ⟨packs, g7, g8⟩ := ih rest fr (by omega) g2 (by
        intro f hf
        exact hm f (by rw [← g3]; exact List.mem_append.2 (.inr hf)))
      refine ⟨p :: packs, ?_, ?_⟩
      · unfold packAll
        rw [if_neg h0, g1]
        dsimp only
        rw [dif_pos hlt, g7]
        rfl
      · rw [List.flatten_cons, g8, g3]

end Verif.Sync
