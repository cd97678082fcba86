import Verif.Proofs.CDCStream

set_option linter.unusedVariables false

namespace Verif.CDC

variable {δ : Type}

/-! ## The batch version of UltraCDC -/

/-- The cut of one round of `ultraCutpoints`, when it does not panic. -/
def ultraNext (c : Config) (data : Bytes) : Nat :=
  match ultraRound c 8 data with
  | some (.inl k) => k
  | some (.inr k) => k
  | none => 0

theorem ultraRound_cases {c : Config} (h0 : 8 ≤ c.minSize) (h1 : c.minSize < c.maxSize)
    (slack : Nat) (hs : 8 ≤ slack) (d : Bytes) :
    (d.length ≤ c.minSize ∧ ultraRound c slack d = some (.inl d.length)) ∨
    (c.minSize < d.length ∧ ∃ k, ultraRound c slack d = some (.inr k) ∧
      ultraRound c 8 d = some (.inr k) ∧
      c.minSize ≤ k ∧ k ≤ min c.maxSize d.length) := by
  by_cases hd : d.length ≤ c.minSize
  · left
    refine ⟨hd, ?_⟩
    unfold ultraRound
    dsimp only
    rw [if_pos (show d.length < c.maxSize by omega), if_pos hd]
  · right
    refine ⟨by omega, ?_⟩
    have hst : (if d.length < c.maxSize then d.length else c.maxSize) = min c.maxSize d.length := by
      split <;> omega
    have key : ∀ sl, 8 ≤ sl → ultraRound c sl d = some (.inr
        (ultraLoop d (min c.maxSize d.length)
          (if min c.maxSize d.length ≤ c.targetSize then min c.maxSize d.length else c.targetSize)
          (c.minSize + 8) 0x2F 0 ((((d.drop c.minSize).take 8).map ham).sum)
          ((d.drop c.minSize).take 8))) := by
      intro sl hsl
      unfold ultraRound
      dsimp only
      rw [hst, if_neg (by omega), if_neg (by omega)]
    refine ⟨_, key slack hs, key 8 (Nat.le_refl _), ?_⟩
    have := ultraLoop_range d (min c.maxSize d.length)
      (if min c.maxSize d.length ≤ c.targetSize then min c.maxSize d.length else c.targetSize)
      _ (c.minSize + 8) 0x2F 0 ((((d.drop c.minSize).take 8).map ham).sum)
      ((d.drop c.minSize).take 8) (Nat.le_refl _) (by omega)
    omega

theorem ultraNext_small {c : Config} (h0 : 8 ≤ c.minSize) (h1 : c.minSize < c.maxSize) (d : Bytes)
    (h : d.length ≤ c.minSize) : ultraNext c d = d.length := by
  rcases ultraRound_cases h0 h1 8 (Nat.le_refl _) d with ⟨_, h2⟩ | ⟨h2, _⟩
  · simp only [ultraNext, h2]
  · omega

theorem ultraNext_range {c : Config} (h0 : 8 ≤ c.minSize) (h1 : c.minSize < c.maxSize) (d : Bytes)
    (h : c.minSize < d.length) :
    c.minSize ≤ ultraNext c d ∧ ultraNext c d ≤ min c.maxSize d.length := by
  rcases ultraRound_cases h0 h1 8 (Nat.le_refl _) d with ⟨h2, _⟩ | ⟨_, k, h2, _, h3⟩
  · omega
  · simp only [ultraNext, h2]; exact h3

theorem ultraCutpoints_eq {c : Config} (h0 : 8 ≤ c.minSize) (h1 : c.minSize < c.maxSize)
    {slack : Nat} (hs : 8 ≤ slack) : ∀ d off, d ≠ [] →
      ultraCutpoints c slack off d = cutpoints (ultraNext c) off d := by
  have hp : Progress (ultraNext c) :=
    progress_of_range (c := c) (by omega) (ultraNext_small h0 h1) (ultraNext_range h0 h1)
  refine strongLen ?_
  intro d ih off hd
  have h3 := List.length_pos_iff.2 hd
  have hpd := hp d hd
  unfold ultraCutpoints
  conv => rhs; unfold cutpoints
  rw [if_neg (by omega), if_neg (by omega), dif_pos hpd]
  rcases ultraRound_cases h0 h1 slack hs d with ⟨h2, h4⟩ | ⟨h2, k, h4, h5, h6⟩
  · rw [h4, ultraNext_small h0 h1 d h2]
    dsimp only
    rw [List.drop_length]
    unfold cutpoints
    simp
  · have hk : ultraNext c d = k := by simp only [ultraNext, h5]
    rw [h4, hk]
    rw [hk] at hpd
    dsimp only
    rw [dif_pos hpd]
    by_cases he : d.length = k
    · rw [if_pos he, ← he, List.drop_length]
      unfold cutpoints
      simp
    · rw [if_neg he]
      by_cases hn : d.drop k = []
      · exfalso
        have := congrArg List.length hn
        rw [List.length_drop, List.length_nil] at this
        omega
      · rw [ih _ (by rw [List.length_drop]; omega) _ hn]

theorem ultraLoop_stop (data : Bytes) (n normal i mask low : Nat) (dist : Int) (w : Bytes)
    (h : n < i + 8) : ultraLoop data n normal i mask low dist w = n := by
  unfold ultraLoop
  rw [dif_neg (by omega)]

theorem ultraNext_eq {c : Config} (h0 : 8 ≤ c.minSize) (h8 : c.minSize + 8 ≤ c.maxSize)
    (ht : c.minSize < c.targetSize) (ht2 : c.targetSize < c.maxSize)
    (d : Bytes) : ultraNext c d = ultra c d := by
  by_cases hs : d.length ≤ c.minSize
  · rw [ultraNext_small h0 (by omega) d hs, ultra_small h0 d (by omega)]
  · have hst : (if d.length < c.maxSize then d.length else c.maxSize) = min c.maxSize d.length := by
      split <;> omega
    have hr : ultraRound c 8 d = some (.inr
        (ultraLoop d (min c.maxSize d.length)
          (if min c.maxSize d.length ≤ c.targetSize then min c.maxSize d.length else c.targetSize)
          (c.minSize + 8) 0x2F 0 ((((d.drop c.minSize).take 8).map ham).sum)
          ((d.drop c.minSize).take 8))) := by
      unfold ultraRound
      dsimp only
      rw [hst, if_neg (by omega), if_neg (by omega)]
    simp only [ultraNext, hr]
    by_cases h1 : d.length ≤ c.minSize + 8
    · rw [ultra_small h0 d h1, ultraLoop_stop _ _ _ _ _ _ _ _ (by omega)]
      omega
    · unfold ultra
      dsimp only
      rw [if_neg (by omega : ¬ c.minSize < 8), if_neg h1]
      by_cases hm : d.length ≥ c.maxSize
      · rw [if_pos hm, if_pos hm, Nat.min_eq_left hm, if_neg (show ¬ c.maxSize ≤ c.targetSize by omega)]
      · rw [if_neg hm, if_neg hm, Nat.min_eq_right (by omega)]

/-! ## Files with holes -/

/-- A piece of the file with the flags of its cut. -/
structure Piece where
  bytes : Bytes
  zero : Bool
  unwrit : Bool

/-- The cuts of consecutive pieces. -/
def cutsOf : (off : Nat) → List Piece → List Cut
  | _, [] => []
  | off, p :: ps => ⟨off + p.bytes.length, p.zero, p.unwrit⟩ :: cutsOf (off + p.bytes.length) ps

theorem cutsOf_append (ps qs : List Piece) : ∀ off, cutsOf off (ps ++ qs)
    = cutsOf off ps ++ cutsOf (off + ((ps.map Piece.bytes).flatten).length) qs := by
  induction ps with
  | nil => intro off; simp [cutsOf]
  | cons p ps ih =>
    intro off
    simp only [List.cons_append, cutsOf, ih, List.map_cons, List.flatten_cons, List.length_append,
      Nat.add_assoc]

/-- The cuts made so far describe the bytes read so far. -/
def Cov (acc : List Cut) (bytes : Bytes) : Prop :=
  ∃ ps : List Piece, acc = cutsOf 0 ps ∧ (ps.map Piece.bytes).flatten = bytes ∧
    ∀ p ∈ ps, p.bytes ≠ [] ∧ ((p.zero = true ∨ p.unwrit = true) ↔ allZero p.bytes = true)

theorem Cov.snoc {acc : List Cut} {bytes q : Bytes} (h : Cov acc bytes) (hq : q ≠ [])
    (z u : Bool) (hz : (z = true ∨ u = true) ↔ allZero q = true) :
    Cov (acc ++ [⟨bytes.length + q.length, z, u⟩]) (bytes ++ q) := by
  obtain ⟨ps, h1, h2, h3⟩ := h
  refine ⟨ps ++ [⟨q, z, u⟩], ?_, ?_, ?_⟩
  · rw [cutsOf_append, h1, h2]; simp [cutsOf]
  · simp [h2]
  · intro p hp
    rcases List.mem_append.1 hp with e | e
    · exact h3 p e
    · simp at e; subst e; exact ⟨hq, hz⟩

theorem Cov.push {acc : List Cut} {bytes q : Bytes} (h : Cov acc bytes) (hq : q ≠ []) :
    Cov (pushCut acc (allZero q) (bytes.length + q.length)) (bytes ++ q) := by
  have hsn : Cov (acc ++ [⟨bytes.length + q.length, allZero q, false⟩]) (bytes ++ q) :=
    h.snoc hq _ _ (by simp)
  unfold pushCut
  cases hl : acc.getLast? with
  | none => exact hsn
  | some l =>
    dsimp only
    split
    · rename_i hc
      obtain ⟨ps, h1, h2, h3⟩ := h
      have hne : ps ≠ [] := by
        intro he
        rw [h1, he] at hl
        simp [cutsOf] at hl
      obtain ⟨qs, p, rfl⟩ : ∃ qs p, ps = qs ++ [p] :=
        ⟨ps.dropLast, ps.getLast hne, (List.dropLast_concat_getLast hne).symm⟩
      rw [cutsOf_append] at h1
      simp only [cutsOf] at h1
      have hlp : l = ⟨0 + ((qs.map Piece.bytes).flatten).length + p.bytes.length, p.zero,
          p.unwrit⟩ := by
        rw [h1] at hl
        simp at hl
        rw [← hl]
        simp
      have hflags : allZero q = true ∧ p.zero = true ∧ p.unwrit = false := by
        rw [hlp] at hc
        simp at hc
        exact ⟨hc.1.1, hc.1.2, hc.2⟩
      have hp := h3 p (by simp)
      refine ⟨qs ++ [⟨p.bytes ++ q, p.zero, p.unwrit⟩], ?_, ?_, ?_⟩
      · rw [cutsOf_append, h1]
        simp only [cutsOf, List.dropLast_concat, hlp]
        congr 3
        simp at h2
        rw [← h2]
        simp
        omega
      · simp at h2 ⊢
        rw [← h2]
        simp
      · intro r hr
        rcases List.mem_append.1 hr with e | e
        · exact h3 r (by simp [e])
        · simp at e
          subst e
          refine ⟨by simp [hp.1], ?_⟩
          dsimp only
          rw [allZero_append, hp.2.1 (Or.inl hflags.2.1), hflags.1, hflags.2.1]
          simp
    · exact hsn

theorem Cov.pushAll (ps : List Bytes) (hps : ∀ p ∈ ps, p ≠ []) : ∀ {acc : List Cut} {bytes : Bytes},
    Cov acc bytes → Cov (CDC.pushAll acc bytes.length ps) (bytes ++ ps.flatten) := by
  induction ps with
  | nil => intro acc bytes h; simpa [CDC.pushAll] using h
  | cons p ps ih =>
    intro acc bytes h
    have h1 := h.push (hps p (List.mem_cons_self ..))
    have h2 := ih (fun q hq => hps q (List.mem_cons_of_mem _ hq)) h1
    rw [List.length_append] at h2
    simp only [CDC.pushAll, List.flatten_cons]
    rw [List.append_assoc] at h2
    exact h2

theorem cutSpans_cov {next : Bytes → Nat} {m bufsz : Nat} (hp : Progress next)
    (hl : LocalTo m next) (hst : Stable next) (hmax : ∀ d : Bytes, d ≠ [] → next d ≤ m)
    (hm : m ≤ bufsz) (hb : 0 < bufsz) (spans : List Span) (hok : ∀ s ∈ spans, s.Ok) :
    ∀ {acc : List Cut} {bytes : Bytes}, Cov acc bytes →
      ∃ cuts, cutSpans next bufsz acc bytes.length spans = some cuts ∧
        Cov cuts (bytes ++ (spans.map Span.bytes).flatten) := by
  induction spans with
  | nil => intro acc bytes h; exact ⟨acc, rfl, by simpa using h⟩
  | cons s spans ih =>
    intro acc bytes h
    have hs := hok s (List.mem_cons_self ..)
    have ih := @ih (fun t ht => hok t (List.mem_cons_of_mem _ ht))
    have step : ∀ (acc' : List Cut), Cov acc' (bytes ++ s.bytes) →
        ∃ cuts, cutSpans next bufsz acc' (bytes.length + s.bytes.length) spans = some cuts ∧
          Cov cuts (bytes ++ ((s :: spans).map Span.bytes).flatten) := by
      intro acc' hc
      obtain ⟨cuts, h1, h2⟩ := ih hc
      rw [List.length_append] at h1
      refine ⟨cuts, h1, ?_⟩
      rw [List.append_assoc] at h2
      exact h2
    cases s with
    | hole b => exact step _ (h.snoc hs.1 true false (by simp [hs.2]))
    | unwrit b => exact step _ (h.snoc hs.1 false true (by simp [hs.2]))
    | data b =>
      simp only [cutSpans, readSpan_eq hp hl hst hmax hm hb]
      apply step
      have := Cov.pushAll (segs next b) (segs_pos hp b) h
      rw [segs_flatten hp] at this
      exact this

theorem summarize_describes (hash : Bytes → δ) (keep : Bool) (ps : List Piece)
    (hps : ∀ p ∈ ps, p.bytes ≠ [] ∧ ((p.zero = true ∨ p.unwrit = true) ↔ allZero p.bytes = true))
    (hnu : ∀ p ∈ ps, p.unwrit = false) :
    ∀ (pre : Bytes) (file : Bytes), file = pre ++ (ps.map Piece.bytes).flatten →
      Describes hash pre.length (ps.map Piece.bytes).flatten
        (summarize hash file keep pre.length (cutsOf pre.length ps)) := by
  induction ps with
  | nil => intro pre file hf; rfl
  | cons p ps ih =>
    intro pre file hf
    have hp := hps p (List.mem_cons_self ..)
    have hpos := List.length_pos_iff.2 hp.1
    have hu := hnu p (List.mem_cons_self ..)
    have ih := ih (fun q hq => hps q (List.mem_cons_of_mem _ hq))
      (fun q hq => hnu q (List.mem_cons_of_mem _ hq)) (pre ++ p.bytes) file (by rw [hf]; simp)
    rw [List.length_append] at ih
    have hslc : (file.take (pre.length + p.bytes.length)).drop pre.length = p.bytes := by
      rw [hf, List.map_cons, List.flatten_cons, ← List.append_assoc, ← List.length_append,
        List.take_left' rfl, List.drop_left' rfl]
    have e1 : pre.length + p.bytes.length - pre.length = p.bytes.length := by omega
    simp only [cutsOf, summarize, hu, hslc]
    by_cases hz : p.zero = true
    · simp only [hz, if_true]
      simp only [Describes, List.map_cons, List.flatten_cons, e1, List.take_left' rfl,
        List.drop_left' rfl, List.length_append]
      exact ⟨trivial, by omega, by omega, hp.2.1 (Or.inl hz), ih⟩
    · simp only [hz, if_false, Bool.false_eq_true]
      simp only [Describes, List.map_cons, List.flatten_cons, e1, List.take_left' rfl,
        List.drop_left' rfl, List.length_append]
      exact ⟨trivial, by omega, by omega, trivial, ih⟩

/-- Zeros are not hashed. -/
theorem summarize_marks (hash : Bytes → δ) (keep : Bool) (ps : List Piece)
    (hps : ∀ p ∈ ps, p.bytes ≠ [] ∧ ((p.zero = true ∨ p.unwrit = true) ↔ allZero p.bytes = true)) :
    ∀ (pre : Bytes) (file : Bytes), file = pre ++ (ps.map Piece.bytes).flatten →
      ∀ c ∈ summarize hash file keep pre.length (cutsOf pre.length ps),
        (∃ d, c.cry = .digest d) → allZero ((file.take c.endx).drop c.beg) = false := by
  induction ps with
  | nil => intro pre file hf c hc; cases hc
  | cons p ps ih =>
    intro pre file hf c hc hd
    have hp := hps p (List.mem_cons_self ..)
    have ih := ih (fun q hq => hps q (List.mem_cons_of_mem _ hq)) (pre ++ p.bytes) file (by rw [hf]; simp)
    rw [List.length_append] at ih
    have hslc : (file.take (pre.length + p.bytes.length)).drop pre.length = p.bytes := by
      rw [hf, List.map_cons, List.flatten_cons, ← List.append_assoc, ← List.length_append,
        List.take_left' rfl, List.drop_left' rfl]
    simp only [cutsOf, summarize] at hc
    split at hc
    · rcases List.mem_cons.1 hc with e | e
      · subst e; obtain ⟨d, h⟩ := hd; cases h
      · exact ih c e hd
    · next hz =>
      split at hc
      · split at hc
        · cases hc
        · rcases List.mem_cons.1 hc with e | e
          · subst e; obtain ⟨d, h⟩ := hd; cases h
          · exact ih c e hd
      · next hu =>
        rcases List.mem_cons.1 hc with e | e
        · subst e
          dsimp only
          rw [hslc]
          cases hb : allZero p.bytes with
          | false => rfl
          | true => rcases hp.2.2 hb with h | h
                    · exact absurd h hz
                    · exact absurd h hu
        · exact ih c e hd

theorem pushCut_written {acc : List Cut} (h : ∀ c ∈ acc, c.unwrit = false) (z : Bool) (pos : Nat) :
    ∀ c ∈ pushCut acc z pos, c.unwrit = false := by
  have hsn : ∀ c ∈ acc ++ [(⟨pos, z, false⟩ : Cut)], c.unwrit = false := by
    intro c hc
    rcases List.mem_append.1 hc with e | e
    · exact h c e
    · simp at e; subst e; rfl
  unfold pushCut
  cases hl : acc.getLast? with
  | none => exact hsn
  | some l =>
    dsimp only
    split
    · intro c hc
      rcases List.mem_append.1 hc with e | e
      · exact h c (List.dropLast_subset _ e)
      · simp at e
        subst e
        exact h l (List.mem_of_getLast? hl)
    · exact hsn

theorem cutsOf_written (ps : List Piece) : ∀ off, (∀ c ∈ cutsOf off ps, c.unwrit = false) →
    ∀ p ∈ ps, p.unwrit = false := by
  induction ps with
  | nil => intro off _ p hp; cases hp
  | cons q ps ih =>
    intro off h p hp
    rcases List.mem_cons.1 hp with e | e
    · subst e
      exact h ⟨off + p.bytes.length, p.zero, p.unwrit⟩ (by simp [cutsOf])
    · exact ih (off + q.bytes.length) (fun c hc => h c (by simp [cutsOf, hc])) p e

theorem pushAll_written (ps : List Bytes) : ∀ (acc : List Cut) (off : Nat),
    (∀ c ∈ acc, c.unwrit = false) → ∀ c ∈ CDC.pushAll acc off ps, c.unwrit = false := by
  induction ps with
  | nil => intro acc off h; exact h
  | cons p ps ih => intro acc off h; exact ih _ _ (pushCut_written h _ _)

theorem cutSpans_written {next : Bytes → Nat} {m bufsz : Nat} (hp : Progress next)
    (hl : LocalTo m next) (hst : Stable next) (hmax : ∀ d : Bytes, d ≠ [] → next d ≤ m)
    (hm : m ≤ bufsz) (hb : 0 < bufsz) (spans : List Span) (hnu : ∀ b, Span.unwrit b ∉ spans) :
    ∀ (acc : List Cut) (off : Nat), (∀ c ∈ acc, c.unwrit = false) →
      ∀ cuts, cutSpans next bufsz acc off spans = some cuts → ∀ c ∈ cuts, c.unwrit = false := by
  induction spans with
  | nil => intro acc off h cuts hc; simp only [cutSpans, Option.some.injEq] at hc; subst hc; exact h
  | cons s spans ih =>
    intro acc off h cuts hc
    have ih := ih (fun b hb => hnu b (List.mem_cons_of_mem _ hb))
    cases s with
    | hole b =>
      refine ih _ _ ?_ cuts hc
      intro c hc
      rcases List.mem_append.1 hc with e | e
      · exact h c e
      · simp at e; subst e; rfl
    | unwrit b => exact absurd (List.mem_cons_self ..) (hnu b)
    | data b =>
      simp only [cutSpans, readSpan_eq hp hl hst hmax hm hb] at hc
      exact ih _ _ (pushAll_written _ _ _ h) cuts hc

theorem summarizeFile_describes (hash : Bytes → δ) (keep : Bool) {next : Bytes → Nat}
    {m bufsz : Nat} (hp : Progress next)
    (hl : LocalTo m next) (hst : Stable next) (hmax : ∀ d : Bytes, d ≠ [] → next d ≤ m)
    (hm : m ≤ bufsz) (hb : 0 < bufsz) (spans : List Span) (hok : ∀ s ∈ spans, s.Ok)
    (hnu : ∀ b, Span.unwrit b ∉ spans) :
    ∃ cs, summarizeFile hash next bufsz keep spans = some cs ∧
      Describes hash 0 ((spans.map Span.bytes).flatten) cs := by
  have h0 : Cov [] [] := ⟨[], rfl, rfl, by simp⟩
  obtain ⟨cuts, h1, ps, h2, h3, h4⟩ := cutSpans_cov hp hl hst hmax hm hb spans hok h0
  have h5 : ∀ c ∈ cuts, c.unwrit = false :=
    cutSpans_written hp hl hst hmax hm hb spans hnu [] 0 (by simp) cuts h1
  refine ⟨_, by simp only [summarizeFile]; rw [show cutSpans next bufsz [] 0 spans = some cuts from h1]; rfl, ?_⟩
  have := summarize_describes hash keep ps h4 (by
    intro p hp
    exact cutsOf_written ps 0 (by rw [← h2]; exact h5) p hp) [] _ rfl
  rw [h3] at this
  rw [h2]
  simpa using this

theorem summarizeFile_marks (hash : Bytes → δ) (keep : Bool) {next : Bytes → Nat}
    {m bufsz : Nat} (hp : Progress next)
    (hl : LocalTo m next) (hst : Stable next) (hmax : ∀ d : Bytes, d ≠ [] → next d ≤ m)
    (hm : m ≤ bufsz) (hb : 0 < bufsz) (spans : List Span) (hok : ∀ s ∈ spans, s.Ok)
    (cs : List (Chunk δ)) (h : summarizeFile hash next bufsz keep spans = some cs) :
    ∀ c ∈ cs, (∃ d, c.cry = .digest d) →
      allZero ((((spans.map Span.bytes).flatten).take c.endx).drop c.beg) = false := by
  have h0 : Cov [] [] := ⟨[], rfl, rfl, by simp⟩
  obtain ⟨cuts, h1, ps, h2, h3, h4⟩ := cutSpans_cov hp hl hst hmax hm hb spans hok h0
  have h1' : cutSpans next bufsz [] 0 spans = some cuts := h1
  simp only [summarizeFile, h1', Option.map_some, Option.some.injEq] at h
  subst h
  have := summarize_marks hash keep ps h4 [] _ rfl
  rw [h3] at this
  rw [h2]
  simpa using this

end Verif.CDC
