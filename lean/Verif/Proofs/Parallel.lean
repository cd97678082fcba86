import Verif.Model.Parallel
import Verif.Spec.CDC
import Verif.Proofs.CDCStream

/-! Lemmas for C76. -/

namespace Verif.Parallel

open CDC

variable {δ : Type}

/-! ## The longest run of zeros -/

/-- All bytes of the file from `a` up to `b` are zero. -/
def ZeroRun (file : Bytes) (a b : Nat) : Prop := allZero ((file.take b).drop a) = true

/-- What the loop knows: the current run and the best run are runs of zeros. -/
theorem longestLoop_spec (rest : Bytes) : ∀ (pre : Bytes) (cs cl ms ml : Nat),
    (cl = 0 ∨ cs + cl = pre.length) → cs + cl ≤ pre.length →
    allZero (pre.drop (pre.length - cl)) = true → cl ≤ pre.length →
    ms + ml ≤ pre.length → allZero ((pre.take (ms + ml)).drop ms) = true →
    (longestLoop pre.length cs cl ms ml rest).1 + (longestLoop pre.length cs cl ms ml rest).2
        ≤ (pre ++ rest).length ∧
    allZero (((pre ++ rest).take ((longestLoop pre.length cs cl ms ml rest).1
        + (longestLoop pre.length cs cl ms ml rest).2)).drop
        (longestLoop pre.length cs cl ms ml rest).1) = true := by
  induction rest with
  | nil =>
    intro pre cs cl ms ml h1 h2 h3 h4 h5 h6
    unfold longestLoop
    split
    · next hgt =>
      have hcs : cs + cl = pre.length := by omega
      refine ⟨by simp; omega, ?_⟩
      simp only [List.append_nil]
      rw [hcs, List.take_length]
      have : pre.length - cl = cs := by omega
      rwa [this] at h3
    · exact ⟨by simp; omega, by simpa using h6⟩
  | cons b rest ih =>
    intro pre cs cl ms ml h1 h2 h3 h4 h5 h6
    have hlen : pre.length + 1 = (pre ++ [b]).length := by simp
    have happ : pre ++ b :: rest = (pre ++ [b]) ++ rest := by simp
    have hml : allZero (((pre ++ [b]).take (ms + ml)).drop ms) = true := by
      rw [List.take_append_of_le_length h5]; exact h6
    unfold longestLoop
    rw [happ]
    split
    · next hb =>
      rw [hlen]
      refine ih (pre ++ [b]) _ (cl + 1) ms ml ?_ ?_ ?_ ?_ ?_ hml
      · right; split <;> simp <;> omega
      · split <;> simp <;> omega
      · have : (pre ++ [b]).length - (cl + 1) = pre.length - cl := by simp
        rw [this, List.drop_append_of_le_length (by omega), allZero_append, h3, hb]
        rfl
      · simp; omega
      · simp; omega
    · next hb =>
      have hz : allZero ((pre ++ [b]).drop ((pre ++ [b]).length - 0)) = true := by
        rw [Nat.sub_zero, List.drop_length]; rfl
      split
      · next hgt =>
        rw [hlen]
        refine ih (pre ++ [b]) cs 0 cs cl (Or.inl rfl) (by simp; omega) hz (by omega)
          (by simp; omega) ?_
        have hcs : cs + cl = pre.length := by omega
        rw [List.take_append_of_le_length (by omega), hcs, List.take_length]
        have : pre.length - cl = cs := by omega
        rwa [this] at h3
      · rw [hlen]
        exact ih (pre ++ [b]) cs 0 ms ml (Or.inl rfl) (by simp; omega) hz (by omega)
          (by simp; omega) hml

theorem longestZeroSpan_spec (b : Bytes) (h : (longestZeroSpan b).1 = 0) :
    (longestZeroSpan b).2 ≤ b.length ∧ allZero (b.take (longestZeroSpan b).2) = true := by
  have := longestLoop_spec b [] 0 0 0 0 (Or.inl rfl) (by simp) rfl (by simp) (by simp) rfl
  simp only [List.length_nil, List.nil_append] at this
  change (longestZeroSpan b).1 + (longestZeroSpan b).2 ≤ _ ∧
    allZero ((b.take ((longestZeroSpan b).1 + (longestZeroSpan b).2)).drop (longestZeroSpan b).1)
      = true at this
  rw [h] at this
  simpa using this

/-! ## Candidates -/

/-- What is assumed of the cut function. -/
structure Fits (s : Sizes) (next : Bytes → Nat) : Prop where
  min_le : ∀ d : Bytes, s.min ≤ d.length → s.min ≤ next d
  le_len : ∀ d : Bytes, next d ≤ d.length
  le_max : ∀ d : Bytes, next d ≤ s.max

/-- Sizes for which the stitching is meant. -/
structure Sizes.Ok (s : Sizes) : Prop where
  min_pos : 0 < s.min
  two_min : 2 * s.min ≤ s.max
  max_le : s.max ≤ s.segment

/-- Candidates after `lo`, for a stretch of the file from `seek` to `e`: increasing, at
most `max` apart except for the first run of zeros, reaching closer than `min` to
the end. -/
def Good (s : Sizes) (file : Bytes) (seek e : Nat) : (lo : Nat) → List Cand → Prop
  | lo, [] => e < lo + s.min
  | lo, c :: rest => lo < c.pos ∧ c.pos ≤ e ∧ (c.rle0 = false → c.pos ≤ lo + s.max) ∧
      (c.rle0 = true → ZeroRun file seek c.pos) ∧ Good s file seek e c.pos rest

theorem candLoop_good {s : Sizes} {next : Bytes → Nat} (hf : Fits s next) (hmin : 0 < s.min)
    (file : Bytes) (seek : Nat) : ∀ (fuel off : Nat) (data : Bytes), data.length ≤ fuel →
    ∃ cs, candLoop next s.min fuel off data = some cs ∧
      Good s file seek (off + data.length) off cs := by
  intro fuel
  induction fuel with
  | zero =>
    intro off data h
    refine ⟨[], ?_, ?_⟩
    · unfold candLoop; rw [if_pos (by omega)]
    · show off + data.length < off + s.min; omega
  | succ fuel ih =>
    intro off data h
    unfold candLoop
    by_cases hs : data.length < s.min
    · rw [if_pos hs]; exact ⟨[], rfl, by show off + data.length < off + s.min; omega⟩
    · rw [if_neg hs]
      have h1 := hf.min_le data (by omega)
      have h2 := hf.le_len data
      have h3 := hf.le_max data
      rw [if_pos ⟨by omega, h2⟩]
      obtain ⟨cs, hc, hg⟩ := ih (off + next data) (data.drop (next data))
        (by rw [List.length_drop]; omega)
      rw [hc]
      refine ⟨_, rfl, ?_⟩
      have hl : off + next data + (data.drop (next data)).length = off + data.length := by
        rw [List.length_drop]; omega
      rw [hl] at hg
      exact ⟨by show off < off + next data; omega, by show off + next data ≤ _; omega,
        fun _ => by show off + next data ≤ off + s.max; omega, fun h => by simp at h, hg⟩

/-! ### Segments -/

theorem nJobs_spec {s : Sizes} (h0 : 0 < s.segment) {sz i : Nat} (hsz : 0 < sz) :
    i < nJobs s sz ↔ i * s.segment < sz := by
  unfold nJobs
  rw [Nat.lt_iff_add_one_le, Nat.le_div_iff_mul_le h0, Nat.succ_mul]
  omega

theorem nJobs_pos {s : Sizes} (h0 : 0 < s.segment) {sz : Nat} (hsz : 0 < sz) :
    0 < nJobs s sz := by rw [nJobs_spec h0 hsz]; omega

theorem endxOf_last {s : Sizes} (h0 : 0 < s.segment) {sz i : Nat} (hsz : 0 < sz)
    (h : i + 1 = nJobs s sz) : endxOf s sz i = sz := by
  have : ¬ (i + 1 < nJobs s sz) := by omega
  rw [nJobs_spec h0 hsz] at this
  unfold endxOf
  split <;> omega

theorem endxOf_mid {s : Sizes} (h0 : 0 < s.segment) {sz i : Nat} (hsz : 0 < sz)
    (h : i + 1 < nJobs s sz) : endxOf s sz i = (i + 1) * s.segment ∧ (i + 1) * s.segment < sz := by
  rw [nJobs_spec h0 hsz] at h
  unfold endxOf
  rw [if_neg (by omega)]
  exact ⟨rfl, h⟩

/-- Where the data of job `i` ends in phase one. -/
def reach (s : Sizes) (sz i : Nat) : Nat :=
  if i + 1 < nJobs s sz then min ((i + 1) * s.segment + s.max) sz else sz

theorem seekOf_le (s : Sizes) (i : Nat) : seekOf s i ≤ i * s.segment := by
  unfold seekOf; split <;> omega

theorem seekOf_ge (s : Sizes) (i : Nat) : i * s.segment ≤ seekOf s i + 2 * s.max := by
  unfold seekOf; split <;> omega

theorem lenOf_eq {s : Sizes} (h0 : 0 < s.segment) {sz i : Nat} (hsz : 0 < sz)
    (hi : i < nJobs s sz) : seekOf s i + lenOf s sz i = reach s sz i := by
  have hs := seekOf_le s i
  have hb := (nJobs_spec h0 hsz).1 hi
  unfold lenOf reach
  by_cases hl : i + 1 = nJobs s sz
  · rw [if_neg (by omega), if_neg (by omega), endxOf_last h0 hsz hl]; omega
  · have hm := endxOf_mid h0 hsz (by omega : i + 1 < nJobs s sz)
    rw [if_pos hl, hm.1, if_pos (by omega : i + 1 < nJobs s sz), Nat.succ_mul]
    split <;> omega

theorem reach_le (s : Sizes) (sz i : Nat) : reach s sz i ≤ sz := by
  unfold reach; split <;> omega

theorem reach_gt {s : Sizes} (h0 : 0 < s.segment) {sz i : Nat} (hsz : 0 < sz)
    (hi : i < nJobs s sz) : i * s.segment < reach s sz i := by
  have hb := (nJobs_spec h0 hsz).1 hi
  unfold reach
  split
  · rw [Nat.succ_mul]; omega
  · exact hb

theorem reach_le2 {s : Sizes} (ho : s.Ok) {sz i : Nat} (hsz : 0 < sz) : reach s sz i ≤ (i + 2) * s.segment := by
  have h0 : 0 < s.segment := by have := ho.min_pos; have := ho.two_min; have := ho.max_le; omega
  have := ho.max_le
  unfold reach
  split
  · rw [Nat.succ_mul, Nat.add_mul]; omega
  · have h : ¬ (i + 1 < nJobs s sz) := by omega
    rw [nJobs_spec h0 hsz] at h
    rw [Nat.succ_mul] at h
    rw [Nat.add_mul]; omega

theorem candidates_good {s : Sizes} {next : Bytes → Nat} (hf : Fits s next) (ho : s.Ok)
    {file : Bytes} (hfile : file ≠ []) {i : Nat} (hi : i < nJobs s file.length) :
    ∃ cs, candidates s next file i = some cs ∧
      Good s file (seekOf s i) (reach s file.length i) (seekOf s i) cs := by
  have hsz : 0 < file.length := List.length_pos_iff.2 hfile
  have h0 : 0 < s.segment := by have := ho.min_pos; have := ho.two_min; have := ho.max_le; omega
  have hlen := lenOf_eq h0 hsz hi
  have hr := reach_le s file.length i
  have hg := reach_gt h0 hsz hi
  have hs := seekOf_le s i
  have hs2 := seekOf_ge s i
  have hr2 := reach_le2 (i := i) ho hsz
  have hm := ho.max_le
  rw [Nat.add_mul] at hr2
  unfold candidates
  simp only
  rw [if_neg (by omega), if_neg (by omega), if_neg (by omega)]
  have hdl : ((file.drop (seekOf s i)).take (lenOf s file.length i)).length
      = lenOf s file.length i := by
    rw [List.length_take, List.length_drop]; omega
  by_cases hz : (longestZeroSpan ((file.drop (seekOf s i)).take (lenOf s file.length i))).1 = 0 ∧
      (longestZeroSpan ((file.drop (seekOf s i)).take (lenOf s file.length i))).2 ≥ 64
  · rw [if_pos hz]
    obtain ⟨hzl, hzz⟩ := longestZeroSpan_spec _ hz.1
    have hz64 := hz.2
    generalize (longestZeroSpan ((file.drop (seekOf s i)).take (lenOf s file.length i))).2 = z at *
    rw [hdl] at hzl
    obtain ⟨cs, hc, hgd⟩ := candLoop_good hf ho.min_pos file (seekOf s i)
      (lenOf s file.length i - z) (seekOf s i + z)
      (((file.drop (seekOf s i)).take (lenOf s file.length i)).drop z)
      (by rw [List.length_drop, hdl]; omega)
    rw [hc]
    refine ⟨_, rfl, ?_⟩
    rw [List.length_drop, hdl,
      show seekOf s i + z + (lenOf s file.length i - z) = reach s file.length i by omega] at hgd
    refine ⟨by show _ < seekOf s i + z; omega, by show seekOf s i + z ≤ _; omega,
      fun h => by simp at h, fun _ => ?_, hgd⟩
    unfold ZeroRun
    show allZero ((file.take (seekOf s i + z)).drop (seekOf s i)) = true
    rw [List.drop_take, show seekOf s i + z - seekOf s i = z by omega]
    rw [List.take_take, Nat.min_eq_left hzl] at hzz
    exact hzz
  · rw [if_neg hz]
    obtain ⟨cs, hc, hgd⟩ := candLoop_good hf ho.min_pos file (seekOf s i)
      (lenOf s file.length i) (seekOf s i)
      ((file.drop (seekOf s i)).take (lenOf s file.length i)) (by rw [hdl]; omega)
    rw [hdl, hlen] at hgd
    exact ⟨cs, hc, hgd⟩

/-! ## Selection -/

/-- Cut points that follow one another: each chunk is within the sizes or a run of
zeros. -/
def Steps (s : Sizes) (file : Bytes) : (prev : Nat) → List Nat → Prop
  | _, [] => True
  | prev, c :: rest => prev < c ∧
      ((s.min ≤ c - prev ∨ c = file.length) ∧ c - prev ≤ s.max ∨ ZeroRun file prev c) ∧
      Steps s file c rest

/-- The last cut point. -/
def lastOf : (prev : Nat) → List Nat → Nat
  | prev, [] => prev
  | _, c :: rest => lastOf c rest

theorem lastOf_append (a b : List Nat) : ∀ p, lastOf p (a ++ b) = lastOf (lastOf p a) b := by
  induction a with
  | nil => intro p; rfl
  | cons c a ih => intro p; exact ih c

theorem getLast?_lastOf (a : List Nat) : ∀ p, (p :: a).getLast? = some (lastOf p a) := by
  induction a with
  | nil => intro p; rfl
  | cons c a ih => intro p; rw [List.getLast?_cons_cons]; exact ih c

theorem Steps.append {s : Sizes} {file : Bytes} {b : List Nat} (a : List Nat) : ∀ {p},
    Steps s file p a → Steps s file (lastOf p a) b → Steps s file p (a ++ b) := by
  induction a with
  | nil => intro p _ h; exact h
  | cons c a ih => intro p h1 h2; exact ⟨h1.1, h1.2.1, ih h1.2.2 h2⟩

theorem Steps.le_last {s : Sizes} {file : Bytes} (a : List Nat) : ∀ {p},
    Steps s file p a → p ≤ lastOf p a := by
  induction a with
  | nil => intro p _; exact Nat.le_refl _
  | cons c a ih =>
    intro p h
    have h1 := ih h.2.2
    have h2 := h.1
    show p ≤ lastOf c a
    omega

theorem ZeroRun.mono {file : Bytes} {a b c : Nat} (h : ZeroRun file a c) (hab : a ≤ b) :
    ZeroRun file b c := by
  unfold ZeroRun at *
  have : (file.take c).drop b = ((file.take c).drop a).drop (b - a) := by
    rw [List.drop_drop]; congr 1; omega
  rw [this]
  unfold allZero at *
  rw [List.all_eq_true] at *
  exact fun x hx => h x (List.mem_of_mem_drop hx)

/-- What the selection loop does for one job that started with `cuts` ending in `prev`
(or with no cuts at all). -/
theorem select_spec {s : Sizes} (ho : s.Ok) {file : Bytes} {seek e endx : Nat} (he : endx ≤ e) :
    ∀ (cs : List Cand) (lo prev : Nat) (cuts : List Nat),
    Good s file seek e lo cs → lo < prev + s.min → seek ≤ prev → prev ≤ e →
    (cuts = [] ∨ cuts.getLast? = some prev) →
    ∃ acc, (select s endx prev cuts cs).cuts = cuts ++ acc ∧
      (select s endx prev cuts cs).prev = lastOf prev acc ∧
      Steps s file prev acc ∧ lastOf prev acc ≤ e ∧
      ((select s endx prev cuts cs).link = some (lastOf prev acc) ∧ endx ≤ lastOf prev acc ∧ acc ≠ []
        ∨ (select s endx prev cuts cs).link = none ∧ e < lastOf prev acc + 2 * s.min ∧
          (acc = [] ∨ lastOf prev acc < endx)) := by
  intro cs
  induction cs with
  | nil =>
    intro lo prev cuts hg hlo _ hpe _
    refine ⟨[], by simp [select], rfl, trivial, hpe, Or.inr ⟨rfl, ?_, Or.inl rfl⟩⟩
    have : e < lo + s.min := hg
    show e < prev + 2 * s.min
    omega
  | cons c rest ih =>
    intro lo prev cuts hg hlo hsk hpe hcuts
    obtain ⟨hlt, hle, hmx, hzr, hrest⟩ := hg
    have hmp := ho.min_pos
    have htm := ho.two_min
    unfold select
    by_cases h1 : c.pos ≤ prev
    · rw [if_pos h1]
      exact ih c.pos prev cuts hrest (by omega) hsk hpe hcuts
    · rw [if_neg h1]
      by_cases h2 : c.rle0 = false ∧ c.pos - prev < s.min
      · rw [if_pos h2]
        exact ih c.pos prev cuts hrest (by omega) hsk hpe hcuts
      · rw [if_neg h2]
        simp only
        have key : ∃ cut, (if c.rle0 = false ∧ c.pos - prev ≥ s.max then prev + s.max else c.pos) = cut ∧
            prev < cut ∧ cut ≤ c.pos ∧ c.pos < cut + s.min ∧
            ((s.min ≤ cut - prev ∨ cut = file.length) ∧ cut - prev ≤ s.max ∨ ZeroRun file prev cut) := by
          cases hr : c.rle0 with
          | true =>
            refine ⟨c.pos, by simp, by omega, by omega, by omega, Or.inr ((hzr hr).mono hsk)⟩
          | false =>
            have hm := hmx hr
            by_cases h3 : c.pos - prev ≥ s.max
            · exact ⟨prev + s.max, by simp [h3], by omega, by omega, by omega,
                Or.inl ⟨Or.inl (by omega), by omega⟩⟩
            · refine ⟨c.pos, by simp [h3], by omega, by omega, by omega, Or.inl ⟨Or.inl ?_, by omega⟩⟩
              have : ¬ (c.pos - prev < s.min) := fun h => h2 ⟨hr, h⟩
              omega
        obtain ⟨cut, hcut, hpc, hcc, hlag, hstep⟩ := key
        rw [hcut]
        have hnot : cuts.getLast? ≠ some cut := by
          rcases hcuts with h | h
          · rw [h]; simp
          · rw [h]; simp; omega
        rw [if_neg hnot]
        by_cases h4 : cut ≥ endx
        · rw [if_pos h4]
          exact ⟨[cut], rfl, rfl, ⟨hpc, hstep, trivial⟩, by show cut ≤ e; omega,
            Or.inl ⟨rfl, h4, by simp⟩⟩
        · rw [if_neg h4]
          obtain ⟨acc, a1, a2, a3, a4, a5⟩ := ih c.pos cut (cuts ++ [cut]) hrest hlag (by omega)
            (by omega) (Or.inr (by simp))
          refine ⟨cut :: acc, by rw [a1]; simp, a2, ⟨hpc, hstep, a3⟩, a4, ?_⟩
          rcases a5 with ⟨b1, b2, b3⟩ | ⟨b1, b2, b3⟩
          · exact Or.inl ⟨b1, b2, by simp⟩
          · refine Or.inr ⟨b1, b2, Or.inr ?_⟩
            rcases b3 with b3 | b3
            · rw [b3]; show cut < endx; omega
            · exact b3

/-! ## All jobs -/

/-- The cut lists of consecutive jobs from job `i` on, each starting where the one
before ends, from `p` to `q`. -/
def Linked (s : Sizes) (file : Bytes) : (i p : Nat) → List (List Nat) → (q : Nat) → Prop
  | _, p, [], q => p = q
  | i, p, cs :: rest, q => i * s.segment ≤ p ∧ i * s.segment < file.length ∧
      ∃ acc, cs = p :: acc ∧ Steps s file p acc ∧
      lastOf p acc ≤ file.length ∧ lastOf p acc ≤ (i + 2) * s.segment ∧
      Linked s file (i + 1) (lastOf p acc) rest q

/-- Candidates of the jobs from `i` on. -/
def GoodAll (s : Sizes) (file : Bytes) : (i : Nat) → List (List Cand) → Prop
  | _, [] => True
  | i, c :: rest => Good s file (seekOf s i) (reach s file.length i) (seekOf s i) c ∧
      GoodAll s file (i + 1) rest

theorem selectAll_spec {s : Sizes} (ho : s.Ok) {file : Bytes} (hsz : 0 < file.length) :
    ∀ (cands : List (List Cand)) (i prev : Nat), cands ≠ [] →
    i + cands.length = nJobs s file.length → GoodAll s file i cands →
    i * s.segment ≤ prev → prev ≤ file.length →
    (i + 1 < nJobs s file.length → prev ≤ (i + 1) * s.segment) →
    ∃ q, file.length < q + 2 * s.min ∧ q ≤ file.length ∧
      (Linked s file i prev (selectAll s file.length i prev [prev] cands) q ∨
       ∃ good acc, selectAll s file.length i prev [prev] cands = good ++ [acc] ∧ good ≠ [] ∧
        i + good.length + 1 = nJobs s file.length ∧
        Linked s file i prev good q ∧ q ≤ (i + good.length) * s.segment ∧
        Steps s file q acc ∧ lastOf q acc ≤ file.length ∧
        file.length < lastOf q acc + 2 * s.min) := by
  have hmp := ho.min_pos
  have htm := ho.two_min
  have hml := ho.max_le
  have h0 : 0 < s.segment := by omega
  intro cands
  induction cands with
  | nil => intro i prev h; exact absurd rfl h
  | cons c rest ih =>
    intro i prev _ hlen hg hb hle hmid
    simp only [List.length_cons] at hlen
    obtain ⟨hg1, hg2⟩ := hg
    have hi : i < nJobs s file.length := by omega
    have hib := (nJobs_spec h0 hsz).1 hi
    have hseek := seekOf_le s i
    have hr2 := reach_le2 (i := i) ho hsz
    have hrl := reach_le s file.length i
    have hend : endxOf s file.length i ≤ reach s file.length i := by
      by_cases hl : i + 1 = nJobs s file.length
      · rw [endxOf_last h0 hsz hl]; unfold reach; rw [if_neg (by omega)]; omega
      · have hm := endxOf_mid h0 hsz (by omega : i + 1 < nJobs s file.length)
        rw [hm.1]; unfold reach; rw [if_pos (by omega)]; omega
    have hpe : prev ≤ reach s file.length i := by
      by_cases hl : i + 1 < nJobs s file.length
      · have := hmid hl
        have hm := endxOf_mid h0 hsz hl
        rw [hm.1] at hend; omega
      · unfold reach; rw [if_neg hl]; exact hle
    obtain ⟨acc, a1, a2, a3, a4, a5⟩ := select_spec ho hend c (seekOf s i) prev [prev] hg1
      (by omega) (by omega) hpe (Or.inr rfl)
    have a1' : (select s (endxOf s file.length i) prev [prev] c).cuts = prev :: acc := a1
    unfold selectAll
    simp only
    rw [a1', a2]
    by_cases hl : i + 1 = nJobs s file.length
    · have hrest : rest = [] := by
        cases rest with
        | nil => rfl
        | cons x y => simp at hlen; omega
      subst hrest
      have hre : reach s file.length i = file.length := by unfold reach; rw [if_neg (by omega)]
      rw [hre] at a4 a5
      refine ⟨lastOf prev acc, ?_, a4, Or.inl ?_⟩
      · rcases a5 with ⟨_, b, _⟩ | ⟨_, b, _⟩
        · rw [endxOf_last h0 hsz hl] at b; omega
        · exact b
      · exact ⟨hb, hib, acc, rfl, a3, a4, by rw [hre] at hr2; omega, rfl⟩
    · have hl' : i + 1 < nJobs s file.length := by omega
      have hm := endxOf_mid h0 hsz hl'
      have hre : reach s file.length i = min ((i + 1) * s.segment + s.max) file.length := by
        unfold reach; rw [if_pos hl']
      have hrest : rest ≠ [] := by
        intro h; subst h; simp at hlen; omega
      rcases a5 with ⟨b1, b2, b3⟩ | ⟨b1, b2, b3⟩
      · rw [b1]
        rw [hm.1] at b2
        obtain ⟨q, c1, c2, c3⟩ := ih (i + 1) (lastOf prev acc) hrest (by omega) hg2 b2 (by omega)
          (fun _ => by rw [Nat.succ_mul (i + 1)]; omega)
        refine ⟨q, c1, c2, ?_⟩
        rcases c3 with c3 | ⟨good, l, d1, d2, d3, d4, d5, d6⟩
        · exact Or.inl ⟨hb, hib, acc, rfl, a3, by omega, by omega, c3⟩
        · refine Or.inr ⟨(prev :: acc) :: good, l, ?_, by simp, ?_, ?_, ?_, d6⟩
          · show (prev :: acc) :: selectAll s file.length (i + 1) (lastOf prev acc) [lastOf prev acc] rest = _
            rw [d1]; rfl
          · simp only [List.length_cons]; omega
          · exact ⟨hb, hib, acc, rfl, a3, by omega, by omega, d4⟩
          · simp only [List.length_cons]
            rw [show i + (good.length + 1) = i + 1 + good.length by omega]; exact d5
      · -- the end of the segment was not reached
        rw [b1]
        have hp := hmid hl'
        rw [hm.1] at b3
        have hlast : lastOf prev acc ≤ (i + 1) * s.segment := by
          rcases b3 with b3 | b3
          · rw [b3]; exact hp
          · omega
        have hre2 : reach s file.length i = file.length ∧
            file.length < (i + 1) * s.segment + s.max := by omega
        have hi2 : i + 2 = nJobs s file.length := by
          have : ¬ (i + 2 < nJobs s file.length) := by
            rw [nJobs_spec h0 hsz, Nat.succ_mul (i + 1)]; omega
          omega
        obtain ⟨c', hc'⟩ : ∃ c', rest = [c'] := by
          match rest, hrest, hlen with
          | [x], _, _ => exact ⟨x, rfl⟩
          | x :: y :: z, _, h => simp at h; omega
        subst hc'
        have hg3 : Good s file (seekOf s (i + 1)) (reach s file.length (i + 1)) (seekOf s (i + 1)) c' :=
          hg2.1
        have hre3 : reach s file.length (i + 1) = file.length := by
          unfold reach; rw [if_neg (by omega)]
        have hend3 : endxOf s file.length (i + 1) = file.length := endxOf_last h0 hsz (by omega)
        have hs3 : seekOf s (i + 1) ≤ lastOf prev acc := by
          unfold seekOf
          split <;> omega
        rw [hre3] at hg3
        rw [hre2.1] at b2 a4
        obtain ⟨acc2, e1, e2, e3, e4, e5⟩ := select_spec ho (Nat.le_refl file.length) c'
          (seekOf s (i + 1)) (lastOf prev acc) [] hg3 (by omega) hs3 a4 (Or.inl rfl)
        refine ⟨lastOf prev acc, b2, a4, Or.inr ⟨[prev :: acc], acc2, ?_, by simp, ?_, ?_, ?_, e3, e4, ?_⟩⟩
        · unfold selectAll
          simp only [Option.toList, hend3]
          rw [e1]; rfl
        · simp only [List.length_singleton]; omega
        · exact ⟨hb, hib, acc, rfl, a3, a4, by rw [Nat.add_mul]; rw [Nat.succ_mul] at hlast; omega, rfl⟩
        · exact hlast
        · rcases e5 with ⟨_, b, _⟩ | ⟨_, b, _⟩
          · omega
          · exact b

/-! ## The concluding case -/

theorem conclude_snoc2 (sz : Nat) (a b : List Nat) : ∀ pre : List (List Nat),
    conclude sz (pre ++ [a, b]) = pre ++ conclude sz [a, b] := by
  intro pre
  induction pre with
  | nil => rfl
  | cons x pre ih =>
    cases pre with
    | nil => rfl
    | cons y pre =>
      show conclude sz (x :: y :: (pre ++ [a, b])) = x :: (y :: pre ++ conclude sz [a, b])
      have : ∃ z w, pre ++ [a, b] = z :: w := by cases pre <;> exact ⟨_, _, rfl⟩
      obtain ⟨z, w, hzw⟩ := this
      rw [hzw]
      show x :: conclude sz (y :: z :: w) = _
      rw [← hzw]
      exact congrArg (x :: ·) ih

/-- When the last list is not empty it gets the end of the file. -/
theorem conclude_snoc (sz : Nat) (a : List Nat) (ha : a ≠ []) (pre : List (List Nat)) :
    conclude sz (pre ++ [a]) = pre ++ [if a.getLast? = some sz then a else a ++ [sz]] := by
  rcases List.eq_nil_or_concat pre with h | ⟨pre', x, h⟩
  · subst h
    show (if a.getLast? = some sz then [a] else [a ++ [sz]]) = _
    split <;> rfl
  · subst h
    rw [List.concat_eq_append, List.append_assoc]
    show conclude sz (pre' ++ [x, a]) = _
    rw [conclude_snoc2]
    unfold conclude
    split
    · simp
    · simp [ha]

theorem conclude_empty (sz : Nat) (a : List Nat) (pre : List (List Nat)) :
    conclude sz (pre ++ [a] ++ [[]]) = pre ++ [a ++ [sz]] ++ [[]] := by
  rw [List.append_assoc]
  show conclude sz (pre ++ [a, []]) = _
  rw [conclude_snoc2]
  simp [conclude]

theorem Linked.append {s : Sizes} {file : Bytes} {b : List (List Nat)} {r : Nat}
    (a : List (List Nat)) : ∀ {i p q}, Linked s file i p a q →
    Linked s file (i + a.length) q b r → Linked s file i p (a ++ b) r := by
  induction a with
  | nil => intro i p q h1 h2; have h1 : p = q := h1; subst h1; exact h2
  | cons c a ih =>
    intro i p q h1 h2
    obtain ⟨x1, x2, acc, x3, x4, x5, x6, x7⟩ := h1
    refine ⟨x1, x2, acc, x3, x4, x5, x6, ih x7 ?_⟩
    rwa [show i + 1 + a.length = i + (a.length + 1) by omega]

theorem Linked.split {s : Sizes} {file : Bytes} {b : List (List Nat)} {r : Nat}
    (a : List (List Nat)) : ∀ {i p}, Linked s file i p (a ++ b) r →
    ∃ q, Linked s file i p a q ∧ Linked s file (i + a.length) q b r := by
  induction a with
  | nil => intro i p h; exact ⟨p, rfl, h⟩
  | cons c a ih =>
    intro i p h
    obtain ⟨x1, x2, acc, x3, x4, x5, x6, x7⟩ := h
    obtain ⟨q, y1, y2⟩ := ih x7
    refine ⟨q, ⟨x1, x2, acc, x3, x4, x5, x6, y1⟩, ?_⟩
    rwa [List.length_cons, show i + (a.length + 1) = i + 1 + a.length by omega]

/-- Adding the end of the file to the last list of a linked sequence. -/
theorem Linked.close {s : Sizes} (ho : s.Ok) {file : Bytes} {i p q : Nat} {pre : List (List Nat)}
    {a : List Nat} (h : Linked s file i p (pre ++ [a]) q) (hq : q < file.length)
    (hq2 : file.length < q + 2 * s.min)
    (hn : file.length ≤ (i + pre.length + 2) * s.segment) :
    Linked s file i p (pre ++ [a ++ [file.length]]) file.length := by
  obtain ⟨m, h1, h2⟩ := h.split
  obtain ⟨x1, x2, acc, x3, x4, x5, x6, x7⟩ := h2
  have x7 : lastOf m acc = q := x7
  have htm := ho.two_min
  have hl : lastOf m (acc ++ [file.length]) = file.length := by rw [lastOf_append]; rfl
  refine Linked.append pre h1 ⟨x1, x2, acc ++ [file.length], by rw [x3]; rfl, ?_, ?_, ?_, hl⟩
  · refine Steps.append acc x4 ⟨by omega, Or.inl ⟨Or.inr rfl, by omega⟩, trivial⟩
  · rw [hl]; exact Nat.le_refl _
  · rw [hl]; exact hn

theorem Linked.last {s : Sizes} {file : Bytes} {i p q : Nat} {pre : List (List Nat)}
    {a : List Nat} (h : Linked s file i p (pre ++ [a]) q) : a.getLast? = some q := by
  obtain ⟨m, _, h2⟩ := h.split
  obtain ⟨_, _, acc, x3, _, _, _, x7⟩ := h2
  have x7 : lastOf m acc = q := x7
  rw [x3, getLast?_lastOf, x7]

theorem Linked.le {s : Sizes} {file : Bytes} (a : List (List Nat)) : ∀ {i p q},
    Linked s file i p a q → p ≤ q := by
  induction a with
  | nil => intro i p q h; exact Nat.le_of_eq h
  | cons c a ih =>
    intro i p q h
    obtain ⟨_, _, acc, _, x4, _, _, x7⟩ := h
    exact Nat.le_trans (Steps.le_last acc x4) (ih x7)

theorem goodAll_range {s : Sizes} {next : Bytes → Nat} (hf : Fits s next) (ho : s.Ok)
    {file : Bytes} (hne : file ≠ []) : ∀ (k i : Nat), i + k ≤ nJobs s file.length →
    ∃ cands, (List.range' i k).mapM (candidates s next file) = some cands ∧ cands.length = k ∧
      GoodAll s file i cands := by
  intro k
  induction k with
  | zero => intro i _; exact ⟨[], rfl, rfl, trivial⟩
  | succ k ih =>
    intro i h
    obtain ⟨c, hc, hg⟩ := candidates_good hf ho hne (i := i) (by omega)
    obtain ⟨cs, hcs, hl, hgs⟩ := ih (i + 1) (by omega)
    refine ⟨c :: cs, ?_, by simp [hl], hg, hgs⟩
    rw [List.range'_succ, List.mapM_cons, hc, hcs]
    rfl

theorem selectAll_length (s : Sizes) (sz : Nat) : ∀ (cands : List (List Cand)) (i prev : Nat)
    (start : List Nat), (selectAll s sz i prev start cands).length = cands.length := by
  intro cands
  induction cands with
  | nil => intros; rfl
  | cons c cands ih => intro i prev start; simp [selectAll, ih]

/-- The cut points per job: either they lead from the start to the end of the file
(the last job possibly empty), or the last job starts somewhere else. -/
theorem cuts_cases {s : Sizes} {next : Bytes → Nat} (hf : Fits s next) (ho : s.Ok)
    {file : Bytes} (hne : file ≠ []) : ∃ js, cutsPerJob s next file = some js ∧
    (Linked s file 0 0 js file.length ∨
     (∃ good, js = good ++ [[]] ∧ Linked s file 0 0 good file.length) ∨
     ∃ good c rest q, js = good ++ [c :: rest] ∧ Linked s file 0 0 good q ∧ q < c ∧ good ≠ [] ∧
      q ≤ good.length * s.segment ∧ good.length + 1 = nJobs s file.length ∧
      file.length < q + 2 * s.min ∧ Steps s file c rest ∧ lastOf c rest = file.length) := by
  have hsz : 0 < file.length := List.length_pos_iff.2 hne
  have hmp := ho.min_pos
  have htm := ho.two_min
  have hml := ho.max_le
  have h0 : 0 < s.segment := by omega
  have hnp := nJobs_pos h0 hsz
  obtain ⟨cands, hc, hcl, hg⟩ := goodAll_range hf ho hne (nJobs s file.length) 0 (by omega)
  rw [← List.range_eq_range'] at hc
  refine ⟨conclude file.length (selectAll s file.length 0 0 [0] cands),
    by unfold cutsPerJob allCandidates; rw [hc]; rfl, ?_⟩
  have hnl : ¬ (nJobs s file.length < nJobs s file.length) := by omega
  rw [nJobs_spec h0 hsz] at hnl
  obtain ⟨q, hq, hq2, hh⟩ := selectAll_spec ho hsz cands 0 0
    (by intro h; rw [h] at hcl; simp at hcl; omega) (by omega) hg (by omega) (by omega) (by omega)
  rcases hh with hh | ⟨good, acc, e1, e2, e3, e4, e5, e6, e7, e8⟩
  · left
    have hlen := selectAll_length s file.length cands 0 0 [0]
    generalize selectAll s file.length 0 0 [0] cands = js at *
    rcases List.eq_nil_or_concat js with h | ⟨pre, a, h⟩
    · subst h; simp at hlen; omega
    · rw [List.concat_eq_append] at h
      subst h
      have hlast := hh.last
      rw [conclude_snoc _ a (by intro h; rw [h] at hlast; simp at hlast), hlast]
      by_cases hqs : q = file.length
      · rw [if_pos (by rw [hqs])]; rw [← hqs]; rw [hqs] at hh; rw [hqs]; exact hh
      · rw [if_neg (by simpa using hqs)]
        refine hh.close ho (by omega) hq ?_
        simp at hlen
        rw [show 0 + pre.length + 2 = nJobs s file.length + 1 by omega, Nat.succ_mul]
        omega
  · right
    rw [e1]
    cases acc with
    | nil =>
      left
      rcases List.eq_nil_or_concat good with h | ⟨pre, a, h⟩
      · exact absurd h e2
      · rw [List.concat_eq_append] at h
        subst h
        rw [conclude_empty]
        refine ⟨_, rfl, ?_⟩
        have hlt : q < file.length := by
          have : 0 + (pre ++ [a]).length < nJobs s file.length := by omega
          rw [nJobs_spec h0 hsz] at this
          omega
        refine e4.close ho hlt hq ?_
        simp at e3
        rw [show 0 + pre.length + 2 = nJobs s file.length by omega]
        omega
    | cons c rest =>
      right
      have e5' : q ≤ good.length * s.segment := by rw [Nat.zero_add] at e5; exact e5
      rw [conclude_snoc _ _ (by simp), getLast?_lastOf]
      by_cases hl : lastOf c rest = file.length
      · rw [if_pos (by rw [hl])]
        exact ⟨good, c, rest, q, rfl, e4, e6.1, e2, e5', by omega, hq, e6.2.2, hl⟩
      · rw [if_neg (by simpa using hl)]
        have e7' : lastOf c rest ≤ file.length := e7
        have e8' : file.length < lastOf c rest + 2 * s.min := e8
        refine ⟨good, c, rest ++ [file.length], q, rfl, e4, e6.1, e2, e5', by omega, hq, ?_, ?_⟩
        · exact Steps.append rest e6.2.2 ⟨by omega, Or.inl ⟨Or.inr rfl, by omega⟩, trivial⟩
        · rw [lastOf_append]; rfl

/-! ## Phase two -/

/-- The chunk records between consecutive cut points of the file. -/
def chunksOf (hash : Bytes → δ) (file : Bytes) : (p : Nat) → List Nat → List (Chunk δ)
  | _, [] => []
  | p, c :: rest =>
    ⟨p, c, if allZero ((file.take c).drop p) then .rle0 else .digest (hash ((file.take c).drop p)), []⟩
      :: chunksOf hash file c rest

theorem chunksOf_append (hash : Bytes → δ) (file : Bytes) (a b : List Nat) : ∀ p,
    chunksOf hash file p (a ++ b) = chunksOf hash file p a ++ chunksOf hash file (lastOf p a) b := by
  induction a with
  | nil => intro p; rfl
  | cons c a ih => intro p; simp [chunksOf, ih, lastOf]

theorem chunksOf_last (hash : Bytes → δ) (file : Bytes) (a : List Nat) : ∀ p, a ≠ [] →
    ((chunksOf hash file p a).getLast?).map Chunk.endx = some (lastOf p a) := by
  induction a with
  | nil => intro p h; exact absurd rfl h
  | cons c a ih =>
    intro p _
    cases a with
    | nil => rfl
    | cons d a =>
      have := ih c (by simp)
      show ((_ :: chunksOf hash file c (d :: a)).getLast?).map Chunk.endx = some (lastOf c (d :: a))
      rw [show chunksOf hash file c (d :: a) = _ :: chunksOf hash file d a from rfl,
        List.getLast?_cons_cons]
      exact this

theorem chunksOf_head (hash : Bytes → δ) (file : Bytes) (a : List Nat) (p : Nat) :
    ∀ h ∈ (chunksOf hash file p a).head?, h.beg = p := by
  cases a with
  | nil => intro h hh; simp [chunksOf] at hh
  | cons c a => intro h hh; simp [chunksOf] at hh; rw [← hh]

theorem chunkLoop_eq (hash : Bytes → δ) {s : Sizes} {file : Bytes} {beg n : Nat} (a : List Nat) :
    ∀ p, Steps s file p a → beg ≤ p → lastOf p a ≤ beg + n → beg + n ≤ file.length →
    chunkLoop hash beg ((file.drop beg).take n) p a = some (chunksOf hash file p a) := by
  induction a with
  | nil => intros; rfl
  | cons c a ih =>
    intro p hs hb hl hn
    have hl' : lastOf c a ≤ beg + n := hl
    have h1 := hs.1
    have h2 := Steps.le_last a hs.2.2
    unfold chunkLoop
    have hlen : ((file.drop beg).take n).length = n := by
      rw [List.length_take, List.length_drop]; omega
    rw [if_neg (by omega), if_neg (by omega), hlen, if_neg (by omega), ih c hs.2.2 (by omega) hl' hn]
    have hslc : (((file.drop beg).take n).take (c - beg)).drop (p - beg) = (file.take c).drop p := by
      rw [List.take_take, Nat.min_eq_left (by omega), List.take_drop, List.drop_drop]
      congr 2 <;> omega
    simp only [hslc]
    rfl

theorem hashJob_eq (hash : Bytes → δ) {s : Sizes} (ho : s.Ok) {file : Bytes} {i p : Nat}
    {acc : List Nat} (hsz : 0 < file.length)
    (h1 : i * s.segment ≤ p) (h2 : i * s.segment < file.length) (h3 : Steps s file p acc)
    (h4 : lastOf p acc ≤ file.length) (h5 : lastOf p acc ≤ (i + 2) * s.segment) :
    hashJob hash s file i p acc = some (chunksOf hash file p acc) := by
  have hmp := ho.min_pos
  have htm := ho.two_min
  have hml := ho.max_le
  have h0 : 0 < s.segment := by omega
  have hlast : (p :: acc).getLast (by simp) = lastOf p acc := by
    have := getLast?_lastOf acc p
    rw [List.getLast?_eq_some_getLast (by simp)] at this
    exact Option.some.inj this
  have hex : i * s.segment < endxOf s file.length i ∧ endxOf s file.length i ≤ file.length ∧
      endxOf s file.length i ≤ (i + 1) * s.segment := by
    unfold endxOf
    split
    · omega
    · rw [Nat.succ_mul] at *; omega
  rw [Nat.succ_mul] at hex
  rw [Nat.add_mul] at h5
  unfold hashJob
  simp only [hlast]
  have key : ∀ e, i * s.segment < e → e ≤ i * s.segment + 2 * s.segment → e ≤ file.length →
      lastOf p acc ≤ e →
      (if e - i * s.segment = 0 then none
      else if e - i * s.segment > 7 * s.segment then none
      else if e > file.length then none
      else chunkLoop hash (i * s.segment) ((file.drop (i * s.segment)).take (e - i * s.segment)) p acc)
        = some (chunksOf hash file p acc) := by
    intro e he1 he2 he3 he4
    rw [if_neg (by omega), if_neg (by omega), if_neg (by omega)]
    exact chunkLoop_eq hash acc p h3 h1 (by omega) (by omega)
  split
  · exact key _ (by omega) (by omega) h4 (Nat.le_refl _)
  · exact key _ hex.1 (by omega) hex.2.1 (by omega)

/-- Phase two and assembly over a linked sequence of cut lists. -/
theorem phase2_linked (hash : Bytes → δ) {s : Sizes} (ho : s.Ok) {file : Bytes}
    (hsz : 0 < file.length) (js : List (List Nat)) : ∀ (i p q : Nat),
    Linked s file i p js q → ∃ ls all, Steps s file p all ∧ lastOf p all = q ∧
      (∀ w tail, phase2 hash s file (w + 1) i (js ++ tail)
        = (phase2 hash s file (w + 1) (i + js.length) tail).map (ls ++ ·)) ∧
      ∀ acc tl, (acc = [] ∨ acc.getLast?.map Chunk.endx = some p) →
        assemble acc (ls ++ tl) = assemble (acc ++ chunksOf hash file p all) tl := by
  induction js with
  | nil =>
    intro i p q h
    have h : p = q := h
    subst h
    refine ⟨[], [], trivial, rfl, fun w tail => ?_, fun acc tl _ => by simp [chunksOf]⟩
    simp
  | cons c js ih =>
    intro i p q h
    obtain ⟨x1, x2, acc, x3, x4, x5, x6, x7⟩ := h
    obtain ⟨ls, all, y1, y2, y3, y4⟩ := ih _ _ _ x7
    refine ⟨chunksOf hash file p acc :: ls, acc ++ all, Steps.append acc x4 y1,
      by rw [lastOf_append]; exact y2, fun w tail => ?_, fun a tl ha => ?_⟩
    · subst x3
      show phase2 hash s file (w + 1) i ((p :: acc) :: (js ++ tail)) = _
      rw [phase2, hashJob_eq hash ho hsz x1 x2 x4 x5 x6]
      simp only
      rw [y3 w tail, List.length_cons, show i + (js.length + 1) = i + 1 + js.length by omega,
        Option.map_map]
      rfl
    · have hstep : assemble a (chunksOf hash file p acc :: (ls ++ tl))
          = assemble (a ++ chunksOf hash file p acc) (ls ++ tl) := by
        rw [assemble]
        cases hl : a.getLast? with
        | none => rfl
        | some l =>
          cases hh : (chunksOf hash file p acc).head? with
          | none => rfl
          | some f =>
            have hf := chunksOf_head hash file acc p f (by rw [hh]; rfl)
            rcases ha with ha | ha
            · rw [ha] at hl; simp at hl
            · rw [hl] at ha
              simp only [Option.map_some, Option.some.injEq] at ha
              show (if f.beg ≠ l.endx then none else _) = _
              rw [if_neg (by rw [hf, ha]; simp)]
      show assemble a (chunksOf hash file p acc :: (ls ++ tl)) = _
      rw [hstep, y4, chunksOf_append, List.append_assoc]
      by_cases hacc : acc = []
      · subst hacc
        simp only [chunksOf, List.append_nil]
        exact ha
      · right
        have hne : chunksOf hash file p acc ≠ [] := by
          cases acc with
          | nil => exact absurd rfl hacc
          | cons _ _ => simp [chunksOf]
        rw [List.getLast?_append, Option.or_of_isSome (by simpa using hne)]
        exact chunksOf_last hash file acc p hacc

theorem nWorkers_pos (s : Sizes) (sz ngoro : Nat) (h : 0 < ngoro) : ∃ w, nWorkers s sz ngoro = w + 1 := by
  have : 0 < nWorkers s sz ngoro := by
    unfold nWorkers
    simp only
    have : 0 < (if sz / s.segment = 0 then 1 else sz / s.segment) := by
      by_cases h : sz / s.segment = 0
      · rw [if_pos h]; omega
      · rw [if_neg h]; exact Nat.pos_of_ne_zero h
    generalize (if sz / s.segment = 0 then 1 else sz / s.segment) = k at *
    split <;> omega
  exact ⟨nWorkers s sz ngoro - 1, by omega⟩

theorem chunksOf_ne_nil (hash : Bytes → δ) (file : Bytes) {p q : Nat} {all : List Nat}
    (h : lastOf p all = q) (hpq : p < q) : chunksOf hash file p all ≠ [] := by
  cases all with
  | nil => have h : p = q := h; omega
  | cons _ _ => simp [chunksOf]

theorem coalesce_ne_nil (cs : List (Chunk δ)) : ∀ run : Option (Chunk δ), (run.toList ++ cs) ≠ [] →
    coalesce run cs ≠ [] := by
  induction cs with
  | nil => intro run h; simpa [coalesce] using h
  | cons c cs ih =>
    intro run _
    unfold coalesce
    split
    · split
      · exact ih _ (by simp)
      · exact ih _ (by simp)
    · cases run <;> simp

theorem hashJob_some {hash : Bytes → δ} {s : Sizes} {file : Bytes} {i c0 : Nat} {cuts : List Nat}
    {cs : List (Chunk δ)} (h : hashJob hash s file i c0 cuts = some cs) :
    ∃ beg data, chunkLoop hash beg data c0 cuts = some cs := by
  unfold hashJob at h
  simp only at h
  generalize (if endxOf s file.length i < (c0 :: cuts).getLast (by simp) then
    (c0 :: cuts).getLast (by simp) else endxOf s file.length i) = e at h
  by_cases h1 : e - i * s.segment = 0
  · rw [if_pos h1] at h; cases h
  · rw [if_neg h1] at h
    by_cases h2 : e - i * s.segment > 7 * s.segment
    · rw [if_pos h2] at h; cases h
    · rw [if_neg h2] at h
      by_cases h3 : e > file.length
      · rw [if_pos h3] at h; cases h
      · rw [if_neg h3] at h; exact ⟨_, _, h⟩

theorem chunkLoop_head {hash : Bytes → δ} {beg c d : Nat} {data : Bytes} {rest : List Nat}
    {cs : List (Chunk δ)} (h : chunkLoop hash beg data c (d :: rest) = some cs) :
    ∃ f, cs.head? = some f ∧ f.beg = c := by
  unfold chunkLoop at h
  by_cases h1 : d ≤ c
  · rw [if_pos h1] at h; cases h
  · rw [if_neg h1] at h
    by_cases h2 : c < beg
    · rw [if_pos h2] at h; cases h
    · rw [if_neg h2] at h
      by_cases h3 : d - beg > data.length
      · rw [if_pos h3] at h; cases h
      · rw [if_neg h3] at h
        rw [Option.map_eq_some_iff] at h
        obtain ⟨tl, _, h⟩ := h
        rw [← h]
        exact ⟨_, rfl, rfl⟩

/-- All ways `ChunkFile2` can end. -/
theorem chunkFile_cases (hash : Bytes → δ) {s : Sizes} {next : Bytes → Nat} (hf : Fits s next)
    (ho : s.Ok) {file : Bytes} (hne : file ≠ []) :
    (∃ all, Steps s file 0 all ∧ lastOf 0 all = file.length ∧ ∀ ngoro, 0 < ngoro →
      chunkFile hash s next ngoro file = some (coalesce none (chunksOf hash file 0 all))) ∨
    (¬ (file.length ≤ s.segment ∨ file.length % s.segment = 0 ∨
        2 * s.min ≤ file.length % s.segment) ∧
      ((∃ all q, Steps s file 0 all ∧ lastOf 0 all = q ∧ q < file.length ∧
          file.length < q + 2 * s.min ∧ ∀ ngoro, 0 < ngoro →
          chunkFile hash s next ngoro file = some (coalesce none (chunksOf hash file 0 all))) ∨
        ∀ ngoro, 0 < ngoro → chunkFile hash s next ngoro file = none)) := by
  have hsz : 0 < file.length := List.length_pos_iff.2 hne
  have hmp := ho.min_pos
  have htm := ho.two_min
  have hml := ho.max_le
  have h0 : 0 < s.segment := by omega
  obtain ⟨js, hjs, hc⟩ := cuts_cases hf ho hne
  have fin : ∀ (all : List Nat) (q : Nat) (ngoro : Nat) (ls : List (List (Chunk δ))),
      lastOf 0 all = q → 0 < q →
      phase2 hash s file (nWorkers s file.length ngoro) 0 js = some ls →
      assemble [] ls = some (chunksOf hash file 0 all) →
      chunkFile hash s next ngoro file = some (coalesce none (chunksOf hash file 0 all)) := by
    intro all q ngoro ls hq hq0 hp ha
    unfold chunkFile
    rw [hjs]
    simp only
    rw [hp]
    simp only
    rw [ha]
    simp only
    rw [if_neg]
    intro h
    exact coalesce_ne_nil _ none (by simpa using chunksOf_ne_nil hash file hq hq0)
      (List.length_eq_zero_iff.1 h)
  rcases hc with hc | ⟨good, hg, hc⟩ | ⟨good, c, rest, q, hg, hc, hqc, hgn, hqs, hgl, hq2, hst, hlast⟩
  · left
    obtain ⟨ls, all, y1, y2, y3, y4⟩ := phase2_linked hash ho hsz js 0 0 _ hc
    refine ⟨all, y1, y2, fun ngoro hn => ?_⟩
    obtain ⟨w, hw⟩ := nWorkers_pos s file.length ngoro hn
    refine fin all _ ngoro ls y2 hsz ?_ ?_
    · have := y3 w []
      rw [List.append_nil] at this
      rw [hw, this, phase2]
      simp
    · have := y4 [] [] (Or.inl rfl)
      rw [List.append_nil] at this
      rw [this]; rfl
  · left
    obtain ⟨ls, all, y1, y2, y3, y4⟩ := phase2_linked hash ho hsz good 0 0 _ hc
    refine ⟨all, y1, y2, fun ngoro hn => ?_⟩
    obtain ⟨w, hw⟩ := nWorkers_pos s file.length ngoro hn
    refine fin all _ ngoro (ls ++ [[]]) y2 hsz ?_ ?_
    · rw [hg, hw, y3 w [[]], phase2, phase2]
      rfl
    · rw [y4 [] [[]] (Or.inl rfl)]
      simp only [assemble, List.nil_append, List.head?_nil]
      cases (chunksOf hash file 0 all).getLast? <;> simp
  · right
    have hlt : good.length * s.segment < file.length := by
      rw [← nJobs_spec h0 hsz]; omega
    have hnl : ¬ (good.length + 1 < nJobs s file.length) := by omega
    rw [nJobs_spec h0 hsz, Nat.succ_mul] at hnl
    have hqlt : q < file.length := by omega
    have hgpos : 1 ≤ good.length := by
      cases good with
      | nil => exact absurd rfl hgn
      | cons _ _ => simp
    have hseg : s.segment ≤ good.length * s.segment := Nat.le_mul_of_pos_left _ hgpos
    constructor
    · rintro (h | h | h)
      · omega
      · have := Nat.div_add_mod file.length s.segment
        rw [h, Nat.add_zero] at this
        have h1 : good.length < file.length / s.segment := by
          apply Nat.lt_of_mul_lt_mul_left (a := s.segment)
          rw [this, Nat.mul_comm]; exact hlt
        have h2 : (good.length + 1) * s.segment ≤ file.length := by
          rw [← this, Nat.mul_comm]; exact Nat.mul_le_mul_left _ h1
        rw [Nat.succ_mul] at h2
        have h3 : file.length = good.length * s.segment + s.segment := by omega
        omega
      · have hmod : file.length % s.segment ≤ file.length - good.length * s.segment := by
          have h1 : file.length = (file.length - good.length * s.segment) + good.length * s.segment := by
            omega
          rw [h1, Nat.add_mul_mod_self_right]
          have := Nat.mod_le (file.length - good.length * s.segment) s.segment
          omega
        omega
    · obtain ⟨ls, all, y1, y2, y3, y4⟩ := phase2_linked hash ho hsz good 0 0 _ hc
      have hq0 : 0 < q := by omega
      cases hh : hashJob hash s file (0 + good.length) c rest with
      | none =>
        right
        intro ngoro hn
        obtain ⟨w, hw⟩ := nWorkers_pos s file.length ngoro hn
        unfold chunkFile
        rw [hjs]
        simp only
        rw [hg, hw, y3 w _, phase2, hh]
        rfl
      | some cs =>
        have hp : ∀ ngoro, 0 < ngoro →
            phase2 hash s file (nWorkers s file.length ngoro) 0 js = some (ls ++ [cs]) := by
          intro ngoro hn
          obtain ⟨w, hw⟩ := nWorkers_pos s file.length ngoro hn
          rw [hg, hw, y3 w _, phase2, hh]
          simp only [phase2]
          rfl
        cases rest with
        | nil =>
          left
          have hcs : cs = [] := by
            obtain ⟨beg, data, hd⟩ := hashJob_some hh
            exact (Option.some.inj hd).symm
          refine ⟨all, q, y1, y2, hqlt, hq2, fun ngoro hn => ?_⟩
          refine fin all q ngoro (ls ++ [cs]) y2 hq0 (hp ngoro hn) ?_
          rw [y4 [] [cs] (Or.inl rfl), hcs]
          simp only [assemble, List.nil_append, List.head?_nil]
          cases (chunksOf hash file 0 all).getLast? <;> simp
        | cons d rest =>
          right
          have hcs : ∃ h, cs.head? = some h ∧ h.beg = c := by
            obtain ⟨beg, data, hd⟩ := hashJob_some hh
            exact chunkLoop_head hd
          obtain ⟨h, hh1, hh2⟩ := hcs
          intro ngoro hn
          unfold chunkFile
          rw [hjs]
          simp only
          rw [hp ngoro hn]
          simp only
          rw [y4 [] [cs] (Or.inl rfl)]
          have hne' := chunksOf_ne_nil hash file y2 hq0
          have hall : all ≠ [] := by
            intro h; rw [h] at hne'; exact hne' rfl
          have hl := chunksOf_last hash file all 0 hall
          rw [y2] at hl
          simp only [List.nil_append]
          cases hg : (chunksOf hash file 0 all).getLast? with
          | none => rw [hg] at hl; cases hl
          | some l =>
            rw [hg] at hl
            simp only [Option.map_some, Option.some.injEq] at hl
            have : assemble (chunksOf hash file 0 all) [cs] = none := by
              rw [assemble, hg, hh1]
              show (if h.beg ≠ l.endx then none else _) = none
              rw [if_pos (by omega)]
            rw [this]

/-! ## What the list describes -/

theorem describes_chunksOf (hash : Bytes → δ) {s : Sizes} {file : Bytes} {q : Nat}
    (hq : q ≤ file.length) (all : List Nat) : ∀ p, Steps s file p all → lastOf p all = q →
    Describes hash p ((file.take q).drop p) (chunksOf hash file p all) := by
  induction all with
  | nil =>
    intro p _ h
    have h : p = q := h
    subst h
    show (file.take p).drop p = []
    rw [List.drop_eq_nil_iff, List.length_take]; omega
  | cons c all ih =>
    intro p hs h
    have h : lastOf c all = q := h
    have h1 := hs.1
    have h2 := Steps.le_last all hs.2.2
    have hrest := ih c hs.2.2 h
    have htake : ((file.take q).drop p).take (c - p) = (file.take c).drop p := by
      rw [List.take_drop, List.take_take]; congr 2; omega
    have hdrop : ((file.take q).drop p).drop (c - p) = (file.take q).drop c := by
      rw [List.drop_drop]; congr 1; omega
    refine ⟨rfl, h1, ?_, ?_, ?_⟩
    · show c ≤ _
      rw [List.length_drop, List.length_take]; omega
    · show (match (if allZero ((file.take c).drop p) then Cry.rle0 else .digest (hash ((file.take c).drop p))) with
        | .rle0 => allZero (((file.take q).drop p).take (c - p)) = true
        | .unwrit => allZero (((file.take q).drop p).take (c - p)) = true
        | .digest d => d = hash (((file.take q).drop p).take (c - p)))
      rw [htake]
      by_cases hz : allZero ((file.take c).drop p) = true
      · rw [if_pos hz]; exact hz
      · rw [if_neg hz]
    · show Describes hash c (((file.take q).drop p).drop (c - p)) _
      rw [hdrop]; exact hrest

theorem describes_coalesce (hash : Bytes → δ) (cs : List (Chunk δ)) : ∀ (run : Option (Chunk δ))
    (off : Nat) (bytes : Bytes), (∀ r ∈ run, r.cry = .rle0) →
    Describes hash off bytes (run.toList ++ cs) → Describes hash off bytes (coalesce run cs) := by
  induction cs with
  | nil => intro run off bytes _ h; simpa [coalesce] using h
  | cons c cs ih =>
    intro run off bytes hr h
    unfold coalesce
    cases hc : c.cry with
    | rle0 =>
      cases run with
      | none => exact ih (some c) off bytes (by intro r hr; cases hr; exact hc) h
      | some l =>
        have hl := hr l rfl
        refine ih _ off bytes (by intro r hr; cases hr; exact hl) ?_
        have h : Describes hash off bytes (l :: c :: cs) := h
        obtain ⟨a1, a2, a3, a4, b1, b2, b3, b4, b5⟩ := h
        rw [hl] at a4
        rw [hc] at b4
        have a4 : allZero (bytes.take (l.endx - off)) = true := a4
        have b4 : allZero ((bytes.drop (l.endx - off)).take (c.endx - l.endx)) = true := b4
        rw [List.length_drop] at b3
        show Describes hash off bytes ({ l with endx := c.endx } :: cs)
        refine ⟨a1, by show off < c.endx; omega, by show c.endx ≤ _; omega, ?_, ?_⟩
        · rw [hl]
          show allZero (bytes.take (c.endx - off)) = true
          have : bytes.take (c.endx - off) = bytes.take (l.endx - off) ++
              (bytes.drop (l.endx - off)).take (c.endx - l.endx) := by
            rw [show c.endx - off = (l.endx - off) + (c.endx - l.endx) by omega, List.take_add]
          rw [this, allZero_append, a4, b4]; rfl
        · show Describes hash c.endx (bytes.drop (c.endx - off)) cs
          rw [List.drop_drop, show l.endx - off + (c.endx - l.endx) = c.endx - off by omega] at b5
          exact b5
    | unwrit =>
      cases run with
      | none =>
        have h : Describes hash off bytes (c :: cs) := h
        obtain ⟨a1, a2, a3, a4, a5⟩ := h
        exact ⟨a1, a2, a3, a4, ih none _ _ (by intro r hr; cases hr) a5⟩
      | some l =>
        have h : Describes hash off bytes (l :: c :: cs) := h
        obtain ⟨a1, a2, a3, a4, b1, b2, b3, b4, b5⟩ := h
        exact ⟨a1, a2, a3, a4, b1, b2, b3, b4, ih none _ _ (by intro r hr; cases hr) b5⟩
    | digest d =>
      cases run with
      | none =>
        have h : Describes hash off bytes (c :: cs) := h
        obtain ⟨a1, a2, a3, a4, a5⟩ := h
        exact ⟨a1, a2, a3, a4, ih none _ _ (by intro r hr; cases hr) a5⟩
      | some l =>
        have h : Describes hash off bytes (l :: c :: cs) := h
        obtain ⟨a1, a2, a3, a4, b1, b2, b3, b4, b5⟩ := h
        exact ⟨a1, a2, a3, a4, b1, b2, b3, b4, ih none _ _ (by intro r hr; cases hr) b5⟩

theorem mem_coalesce (cs : List (Chunk δ)) : ∀ (run : Option (Chunk δ)),
    (∀ r ∈ run, r.cry = .rle0) → ∀ c ∈ coalesce run cs, c.cry = .rle0 ∨ c ∈ cs := by
  induction cs with
  | nil =>
    intro run hr c hc
    cases run with
    | none => simp [coalesce] at hc
    | some l => simp [coalesce] at hc; left; rw [hc]; exact hr l rfl
  | cons x cs ih =>
    intro run hr c hc
    have lift : ∀ run', (∀ r ∈ run', r.cry = .rle0) → c ∈ coalesce run' cs →
        c.cry = .rle0 ∨ c ∈ x :: cs := by
      intro run' h1 h2
      rcases ih run' h1 c h2 with h | h
      · exact Or.inl h
      · exact Or.inr (List.mem_cons_of_mem _ h)
    have last : c ∈ run.toList ++ x :: coalesce none cs → c.cry = .rle0 ∨ c ∈ x :: cs := by
      intro h
      rw [List.mem_append, List.mem_cons] at h
      rcases h with h | h | h
      · left
        cases run with
        | none => simp at h
        | some l => simp at h; rw [h]; exact hr l rfl
      · right; rw [h]; exact List.mem_cons_self
      · exact lift none (by intro r hr; cases hr) h
    unfold coalesce at hc
    cases hx : x.cry with
    | rle0 =>
      rw [hx] at hc
      cases run with
      | none => exact lift (some x) (by intro r hr; cases hr; exact hx) hc
      | some l =>
        have hl := hr l rfl
        exact lift _ (by intro r hr; cases hr; exact hl) hc
    | unwrit => rw [hx] at hc; exact last hc
    | digest d => rw [hx] at hc; exact last hc

/-- No two runs of zeros follow one another. -/
def ZerosApart : List (Chunk δ) → Prop
  | c :: d :: rest => ¬ (c.cry = .rle0 ∧ d.cry = .rle0) ∧ ZerosApart (d :: rest)
  | _ => True

theorem zerosApart_cons {c : Chunk δ} (hc : c.cry ≠ .rle0) {cs : List (Chunk δ)}
    (h : ZerosApart cs) : ZerosApart (c :: cs) := by
  cases cs with
  | nil => trivial
  | cons d cs => exact ⟨fun h => hc h.1, h⟩

theorem zerosApart_coalesce (cs : List (Chunk δ)) : ∀ (run : Option (Chunk δ)),
    (∀ r ∈ run, r.cry = .rle0) → ZerosApart (coalesce run cs) := by
  induction cs with
  | nil => intro run _; cases run <;> trivial
  | cons x cs ih =>
    intro run hr
    have last : x.cry ≠ .rle0 → ZerosApart (run.toList ++ x :: coalesce none cs) := by
      intro hx
      have h1 := zerosApart_cons hx (ih none (by intro r hr; cases hr))
      cases run with
      | none => exact h1
      | some l => exact ⟨fun h => hx h.2, h1⟩
    unfold coalesce
    cases hx : x.cry with
    | rle0 =>
      cases run with
      | none => exact ih (some x) (by intro r hr; cases hr; exact hx)
      | some l =>
        have hl := hr l rfl
        exact ih _ (by intro r hr; cases hr; exact hl)
    | unwrit => exact last (by rw [hx]; simp)
    | digest d => exact last (by rw [hx]; simp)

theorem chunksOf_sized (hash : Bytes → δ) {s : Sizes} {file : Bytes} (all : List Nat) : ∀ p,
    Steps s file p all → ∀ c ∈ chunksOf hash file p all,
    c.cry = .rle0 ∨ (∃ d, c.cry = .digest d) ∧ allZero ((file.take c.endx).drop c.beg) = false ∧
      (s.min ≤ c.endx - c.beg ∨ c.endx = file.length) ∧ c.endx - c.beg ≤ s.max := by
  induction all with
  | nil => intro p _ c hc; simp [chunksOf] at hc
  | cons x all ih =>
    intro p hs c hc
    unfold chunksOf at hc
    rw [List.mem_cons] at hc
    rcases hc with hc | hc
    · by_cases hz : allZero ((file.take x).drop p) = true
      · left; rw [hc]; simp [hz]
      · right
        subst hc
        refine ⟨⟨_, if_neg hz⟩, by simpa using hz, ?_⟩
        rcases hs.2.1 with h | h
        · exact h
        · exact absurd h hz
    · exact ih x hs.2.2 c hc

end Verif.Parallel
