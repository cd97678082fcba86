import Verif.Proofs.CDCSpans

/-!
# C41, C42: content-defined chunking

The gear table, the masks and the window are parameters, so the theorems hold
whatever they contain.
-/

namespace Verif.CDC

variable {δ : Type}

/-- The configuration used by jsync (jcdc/fastcdc4.go:54-58, jsync/rsync.go). -/
def jsyncConfig : Config := ⟨2048, 10 * 1024, 64 * 1024⟩

/-- A small configuration that all the validations accept. -/
def smallConfig : Config := ⟨64, 65, 80⟩

/-! ## C41 -/

/-- FastCDC, Plakar's variant (the one jsync uses by default). -/
theorem C41_plakar (gear : UInt8 → UInt64) (c : Config) (hv : validate c = true) (data : Bytes) :
    ∃ cuts, cutpoints (plakar gear c) 0 data = some cuts ∧ GoodCuts c data cuts := by
  rw [validate_iff] at hv
  exact good_of (plakar_progress (by omega) (by omega)) (plakar_sized (by omega)) data

/-- FastCDC, Stadia's variant. -/
theorem C41_stadia (gear : UInt8 → UInt64) (c : Config) (hv : validate c = true) (data : Bytes) :
    ∃ cuts, cutpoints (stadia gear c) 0 data = some cuts ∧ GoodCuts c data cuts := by
  rw [validate_iff] at hv
  exact good_of (progress_of_range (c := c) (by omega) stadia_small (stadia_range (by omega)))
    (sized_of_range stadia_small (stadia_range (by omega))) data

/-- UltraCDC, calling `Algorithm` for one chunk after another. -/
theorem C41_ultra (c : Config) (hv : validate c = true) (data : Bytes) :
    ∃ cuts, cutpoints (ultra c) 0 data = some cuts ∧ GoodCuts c data cuts := by
  rw [validate_iff] at hv
  exact good_of (ultra_progress (by omega) (by omega)) (ultra_sized (by omega) (by omega)) data

/-- Rabin-Karp, for every window, multiplier and mask. -/
theorem C41_rabin (w : Nat) (mult mask : UInt32) (c : Config) (hv : validate c = true)
    (data : Bytes) :
    ∃ cuts, cutpoints (rabin w mult mask c) 0 data = some cuts ∧ GoodCuts c data cuts := by
  rw [validate_iff] at hv
  exact good_of (progress_of_range (c := c) (by omega) rabin_small (rabin_range (by omega)))
    (sized_of_range rabin_small (rabin_range (by omega))) data

/-- `UltraCDC.Cutpoints`, which has its own loop. The full statement would not
need `data ≠ []` (see `C41_ultra_batch_empty`) nor the eight spare bytes behind
the slice (see `C41_ultra_batch_counterexample`). -/
theorem C41_ultra_batch_partial (c : Config) (hv : validate c = true) (slack : Nat)
    (hs : 8 ≤ slack) (data : Bytes) (hd : data ≠ []) :
    ∃ cuts, ultraCutpoints c slack 0 data = some cuts ∧ GoodCuts c data cuts := by
  rw [validate_iff] at hv
  have h0 : 8 ≤ c.minSize := by omega
  have h1 : c.minSize < c.maxSize := by omega
  rw [ultraCutpoints_eq h0 h1 hs data 0 hd]
  exact good_of (progress_of_range (c := c) (by omega) (ultraNext_small h0 h1)
      (ultraNext_range h0 h1))
    (sized_of_range (ultraNext_small h0 h1) (ultraNext_range h0 h1)) data

/-- With no capacity behind the slice, `UltraCDC.Cutpoints` panics on every input
whose length is between one and seven bytes above the minimum. -/
theorem C41_ultra_batch_counterexample (c : Config) (hv : validate c = true) (data : Bytes)
    (h1 : c.minSize < data.length) (h2 : data.length < c.minSize + 8) (off : Nat) :
    ultraCutpoints c 0 off data = none := by
  rw [validate_iff] at hv
  unfold ultraCutpoints
  have hr : ultraRound c 0 data = none := by
    unfold ultraRound
    dsimp only
    rw [if_neg (show ¬ (if data.length < c.maxSize then data.length else c.maxSize) ≤ c.minSize by
      split <;> omega), if_pos (show data.length + 0 < c.minSize + 8 by omega)]
  rw [if_neg (by omega), hr]

/-- For the empty input it returns one cut point, 0, so the cuts do not start
above 0. -/
theorem C41_ultra_batch_empty (c : Config) (hv : validate c = true) (slack : Nat) :
    ultraCutpoints c slack 0 [] = some [0] ∧ ¬ GoodCuts c [] [0] := by
  rw [validate_iff] at hv
  constructor
  · unfold ultraCutpoints
    have hr : ultraRound c slack [] = some (.inl 0) := by
      unfold ultraRound
      dsimp only [List.length_nil]
      rw [if_pos (show 0 < c.maxSize by omega), if_pos (show 0 ≤ c.minSize by omega)]
    rw [if_neg (by omega), hr]
  · intro h
    have := h.increasing
    simp at this

/-- FNV-1a. The full statement would assume only `fnvValidate c`, which does not
look at the minimum and the maximum. -/
theorem C41_fnv_partial (mask : UInt32) (c : Config) (h0 : 0 < c.minSize)
    (h1 : c.minSize < c.maxSize) (data : Bytes) :
    ∃ cuts, cutpoints (fnv mask c) 0 data = some cuts ∧ GoodCuts c data cuts :=
  good_of (progress_of_range (c := c) h0 fnv_small (fnv_range h1))
    (sized_of_range fnv_small (fnv_range h1)) data

/-- A configuration that the FNV chunker accepts and with which it never
returns, whatever the input. -/
theorem C41_fnv_counterexample (mask : UInt32) :
    fnvValidate ⟨0, 64, 0⟩ = true ∧
    ∀ data : Bytes, data ≠ [] → cutpoints (fnv mask ⟨0, 64, 0⟩) 0 data = none := by
  refine ⟨by decide, ?_⟩
  intro data hd
  have hl := List.length_pos_iff.2 hd
  have hz : fnv mask ⟨0, 64, 0⟩ data = 0 := by
    unfold fnv
    dsimp only
    rw [if_neg (by omega), if_pos (by omega)]
    simp [fnvLoop]
  unfold cutpoints
  rw [if_neg (by omega), hz]
  simp

/-- Restic's chunker. The external splitter is a parameter; as long as it
returns a point inside the data, the cuts cover the input. What is missing is
the bound on the sizes. -/
theorem C41_restic_partial (split : Bytes → Option Nat) (c : Config) (data : Bytes)
    (hsplit : ∀ d k, split d = some k → 0 < k ∧ k ≤ d.length) :
    ∃ cuts, cutpoints (restic split c) 0 data = some cuts ∧
      (0 :: cuts).Pairwise (· < ·) ∧ (0 :: cuts).getLast? = some data.length ∧
      (pieces data 0 cuts).flatten = data := by
  have hp : Progress (restic split c) := by
    intro d hd
    have hl := List.length_pos_iff.2 hd
    unfold restic
    split
    · omega
    · cases hs : split d with
      | none => dsimp only; omega
      | some k => exact hsplit d k hs
  obtain ⟨cuts, h1, h2, h3, h4, _⟩ := covers_of hp data
  exact ⟨cuts, h1, h2, h3, h4⟩

/-- When the external splitter finds nothing, the chunk is the whole input, far
above any maximum. -/
theorem C41_restic_counterexample (c : Config) (data : Bytes) (hd : data ≠ []) :
    cutpoints (restic (fun _ => none) c) 0 data = some [data.length] := by
  have hl := List.length_pos_iff.2 hd
  have hr : restic (fun _ => none) c data = data.length := by unfold restic; split <;> rfl
  unfold cutpoints
  rw [if_neg (by omega), hr, dif_pos (by omega), List.drop_length]
  unfold cutpoints
  simp

/-- Asking for at most `k` cut points gives the first `k` of them, for the
algorithms that honour the argument. -/
theorem C41_max_points (next : Bytes → Nat) (hp : Progress next) (k : Nat) (data : Bytes)
    (cuts : List Nat) (hc : cutpoints next 0 data = some cuts) :
    cutpointsMax next k 0 data = some (cuts.take k) := by
  rw [cutpoints_eq hp] at hc
  rw [cutpointsMax_eq hp, Option.some.inj hc]

example : validate jsyncConfig = true := by decide
example : validate smallConfig = true := by decide
example : cutpointsMax (plakar (fun b => b.toUInt64 <<< 16) smallConfig) 9 0
    ((List.range 200).map (fun i => UInt8.ofNat (i % 3 + 1))) = some [67, 147, 200] := by
  decide +kernel
/-! ## C42 -/

/-- Where the next chunk ends depends on the next `maxSize` bytes only. -/
theorem C42_local (c : Config) (hv : validate c = true) (gear : UInt8 → UInt64) (w : Nat)
    (mult mask : UInt32) :
    LocalTo c.maxSize (plakar gear c) ∧ LocalTo c.maxSize (stadia gear c) ∧
    LocalTo c.maxSize (fnv mask c) ∧ LocalTo c.maxSize (rabin w mult mask c) := by
  rw [validate_iff] at hv
  exact ⟨plakar_local (by omega), stadia_local (by omega), fnv_local (by omega),
    rabin_local (by omega)⟩

/-- UltraCDC, when the maximum is at least eight bytes above the minimum. -/
theorem C42_ultra_local_partial (c : Config) (hv : validate c = true)
    (h8 : c.minSize + 8 ≤ c.maxSize) : LocalTo c.maxSize (ultra c) := by
  rw [validate_iff] at hv
  exact ultra_local (by omega) h8

/-- Under the same condition the separate loop of `UltraCDC.Cutpoints` finds the
cuts that calling `Algorithm` for one chunk after another finds. -/
theorem C42_ultra_batch_partial (c : Config) (hv : validate c = true)
    (h8 : c.minSize + 8 ≤ c.maxSize) (slack : Nat) (hs : 8 ≤ slack) (data : Bytes)
    (hd : data ≠ []) : ultraCutpoints c slack 0 data = cutpoints (ultra c) 0 data := by
  rw [validate_iff] at hv
  rw [ultraCutpoints_eq (by omega) (by omega) hs data 0 hd]
  congr 1
  funext d
  exact ultraNext_eq (by omega) h8 (by omega) (by omega) d

/-- Otherwise not: it may return a chunk longer than the maximum. -/
theorem C42_ultra_local_counterexample :
    validate ⟨64, 65, 66⟩ = true ∧ ¬ LocalTo 66 (ultra ⟨64, 65, 66⟩) := by
  refine ⟨by decide, ?_⟩
  intro h
  have h1 := h (List.replicate 70 0) (List.replicate 66 0) (by decide)
  rw [ultra_small (by decide) _ (by decide), ultra_small (by decide) _ (by decide)] at h1
  revert h1
  decide

/-- Reading a file through a buffer of any size not below the maximum gives the
chunks of the whole file: the pieces between the cut points of the whole file,
with adjacent runs of zeros joined. Holds for every algorithm of which `C42_local`
speaks, and for UltraCDC under the condition of `C42_ultra_local_partial`. -/
theorem C42_streamed (hash : Bytes → δ) (next : Bytes → Nat) (maxSize bufsz : Nat)
    (hp : Progress next) (hl : LocalTo maxSize next) (hm : maxSize ≤ bufsz) (hb : 0 < bufsz)
    (file : Bytes) :
    ∃ cuts, cutpoints next 0 file = some cuts ∧
      oneByOne hash next maxSize bufsz file
        = some (label hash 0 (joinZeros (pieces file 0 cuts))) := by
  obtain ⟨cuts, h1, _, _, _, h5⟩ := covers_of hp file
  exact ⟨cuts, h1, by rw [h5]; exact oneByOne_eq hash hp hl hm hb file⟩

/-- The chunk list read through a buffer is the one of the default chunker,
for every buffer not below the maximum. -/
theorem C42_streamed_plakar (hash : Bytes → δ) (gear : UInt8 → UInt64) (c : Config)
    (hv : validate c = true) (bufsz : Nat) (hm : c.maxSize ≤ bufsz) (file : Bytes) :
    ∃ cuts, cutpoints (plakar gear c) 0 file = some cuts ∧
      oneByOne hash (plakar gear c) c.maxSize bufsz file
        = some (label hash 0 (joinZeros (pieces file 0 cuts))) := by
  rw [validate_iff] at hv
  exact C42_streamed hash _ c.maxSize bufsz (plakar_progress (by omega) (by omega))
    (plakar_local (by omega)) hm (by omega) file

/-- Two buffers give the same chunk list. -/
theorem C42_buffer_irrelevant (hash : Bytes → δ) (gear : UInt8 → UInt64) (c : Config)
    (hv : validate c = true) (b₁ b₂ : Nat) (h1 : c.maxSize ≤ b₁) (h2 : c.maxSize ≤ b₂)
    (file : Bytes) :
    oneByOne hash (plakar gear c) c.maxSize b₁ file
      = oneByOne hash (plakar gear c) c.maxSize b₂ file := by
  obtain ⟨cuts, hc, ho⟩ := C42_streamed_plakar hash gear c hv b₁ h1 file
  obtain ⟨cuts', hc', ho'⟩ := C42_streamed_plakar hash gear c hv b₂ h2 file
  rw [hc] at hc'
  cases hc'
  rw [ho, ho']

/-- The other reader, span by span, gives the same list for a file without holes. -/
theorem C42_readers_agree (hash : Bytes → δ) (gear : UInt8 → UInt64) (c : Config)
    (hv : validate c = true) (b₁ b₂ : Nat) (h1 : c.maxSize ≤ b₁) (h2 : c.maxSize ≤ b₂)
    (file : Bytes) :
    summarizeFile hash (plakar gear c) b₁ false [.data file]
      = oneByOne hash (plakar gear c) c.maxSize b₂ file := by
  rw [validate_iff] at hv
  have hp : Progress (plakar gear c) := plakar_progress (by omega) (by omega)
  have hl : LocalTo c.maxSize (plakar gear c) := plakar_local (by omega)
  rw [oneByOne_eq hash hp hl h2 (by omega) file,
    summarizeFile_dense hash hp hl (plakar_stable (by omega) (by omega))
      (fun d _ => plakar_le_max (by omega) d) h1 (by omega) file]

/-- The chunk list describes the file: it covers it without gaps and overlaps,
and marks and hashes are those of the contents. -/
theorem C42_streamed_describes (hash : Bytes → δ) (gear : UInt8 → UInt64) (c : Config)
    (hv : validate c = true) (bufsz : Nat) (hm : c.maxSize ≤ bufsz) (file : Bytes) :
    ∃ cs, oneByOne hash (plakar gear c) c.maxSize bufsz file = some cs ∧
      Describes hash 0 file cs := by
  rw [validate_iff] at hv
  have hp : Progress (plakar gear c) := plakar_progress (by omega) (by omega)
  have hl : LocalTo c.maxSize (plakar gear c) := plakar_local (by omega)
  refine ⟨_, oneByOne_eq hash hp hl hm (by omega) file, ?_⟩
  have := label_describes hash (joinZeros (segs (plakar gear c) file))
    (joinZeros_pos _ (segs_pos hp file)) 0
  rw [joinZeros_flatten, segs_flatten hp] at this
  exact this

/-- So does the one read span by span, also of a file with holes, as long as no
span is preallocated and unwritten. -/
theorem C42_spans_describe_partial (hash : Bytes → δ) (gear : UInt8 → UInt64) (c : Config)
    (hv : validate c = true) (bufsz : Nat) (hm : c.maxSize ≤ bufsz) (keep : Bool)
    (spans : List Span) (hok : ∀ s ∈ spans, s.Ok) (hnu : ∀ b, Span.unwrit b ∉ spans) :
    ∃ cs, summarizeFile hash (plakar gear c) bufsz keep spans = some cs ∧
      Describes hash 0 ((spans.map Span.bytes).flatten) cs := by
  rw [validate_iff] at hv
  exact summarizeFile_describes hash keep (plakar_progress (by omega) (by omega))
    (plakar_local (by omega)) (plakar_stable (by omega) (by omega))
    (fun d _ => plakar_le_max (by omega) d) hm (by omega) spans hok hnu

example : (∀ s ∈ [Span.data [1, 2, 3], .hole [0, 0], .data [0, 7]], s.Ok) ∧
    (∀ b, Span.unwrit b ∉ [Span.data [1, 2, 3], .hole [0, 0], .data [0, 7]]) := by
  constructor
  · intro s hs
    simp at hs
    rcases hs with rfl | rfl | rfl <;> simp [Span.Ok, allZero]
  · simp

example : Progress (plakar (fun b => b.toUInt64) smallConfig) ∧
    LocalTo 80 (plakar (fun b => b.toUInt64) smallConfig) :=
  ⟨plakar_progress (by decide) (by decide), plakar_local (c := smallConfig) (by decide)⟩

/-- With a buffer smaller than the maximum, reading a file longer than the
buffer never ends: the buffer is full, and the loop waits for more. -/
theorem C42_small_buffer_counterexample (hash : Bytes → δ) (next : Bytes → Nat)
    (maxSize bufsz : Nat) (hb : 0 < bufsz) (hm : bufsz < maxSize) (file : Bytes)
    (hf : bufsz < file.length) :
    oneByOne hash next maxSize bufsz file = none := by
  unfold oneByOne oneByOneLoop
  have h1 : (file.take bufsz).length = bufsz := by rw [List.length_take]; omega
  have h2 : (file.drop bufsz).length = file.length - bufsz := List.length_drop
  rw [if_neg (by omega), if_neg (by omega), if_neg (by omega), dif_neg (by omega)]

end Verif.CDC
