import Verif.Proofs.Parallel
import Verif.Proofs.CDC

/-!
# C76: parallel chunking covers the file exactly

`Fits` says that a cut function respects the sizes, `Sizes.Ok` that twice the
minimum is at most the maximum and that at most a segment; the defaults are
4096, 16384 and 1 MB.
-/

namespace Verif.Parallel

open CDC

variable {δ : Type}

/-- What C76 promises of a chunk list. -/
structure Exact (hash : Bytes → δ) (s : Sizes) (file : Bytes) (cs : List (Chunk δ)) : Prop where
  /-- the chunks follow one another from the first byte to the last, none is empty,
  and each carries the hash of its bytes or the zero mark -/
  describes : Describes hash 0 file cs
  /-- zeros are always marked, and nothing is marked as unwritten -/
  marked : ∀ c ∈ cs, c.cry ≠ .rle0 →
    (∃ d, c.cry = .digest d) ∧ allZero ((file.take c.endx).drop c.beg) = false
  /-- chunks that are not zeros are within the sizes -/
  sized : ∀ c ∈ cs, c.cry ≠ .rle0 →
    (s.min ≤ c.endx - c.beg ∨ c.endx = file.length) ∧ c.endx - c.beg ≤ s.max
  /-- runs of zeros are not split -/
  joined : ∀ i (h : i + 1 < cs.length), ¬ (cs[i].cry = .rle0 ∧ cs[i + 1].cry = .rle0)

theorem zerosApart_get {cs : List (Chunk δ)} : ZerosApart cs →
    ∀ i (h : i + 1 < cs.length), ¬ (cs[i].cry = .rle0 ∧ cs[i + 1].cry = .rle0) := by
  induction cs with
  | nil => intro _ i h; simp at h
  | cons c cs ih =>
    intro hz i h
    cases cs with
    | nil => simp at h
    | cons d cs =>
      cases i with
      | zero => exact hz.1
      | succ i => exact ih hz.2 i (by simpa using h)

theorem exact_of (hash : Bytes → δ) {s : Sizes} {file : Bytes} {all : List Nat} {q : Nat}
    (hq : q ≤ file.length) (h1 : Steps s file 0 all) (h2 : lastOf 0 all = q) :
    Describes hash 0 (file.take q) (coalesce none (chunksOf hash file 0 all)) ∧
    (∀ c ∈ coalesce none (chunksOf hash file 0 all), c.cry ≠ .rle0 →
      ((∃ d, c.cry = .digest d) ∧ allZero ((file.take c.endx).drop c.beg) = false) ∧
      (s.min ≤ c.endx - c.beg ∨ c.endx = file.length) ∧ c.endx - c.beg ≤ s.max) ∧
    ZerosApart (coalesce none (chunksOf hash file 0 all)) := by
  refine ⟨?_, ?_, zerosApart_coalesce _ none (by intro r hr; cases hr)⟩
  · have := describes_chunksOf hash hq all 0 h1 h2
    rw [List.drop_zero] at this
    exact describes_coalesce hash _ none 0 _ (by intro r hr; cases hr) this
  · intro c hc hne
    rcases mem_coalesce _ none (by intro r hr; cases hr) c hc with h | h
    · exact absurd h hne
    · rcases chunksOf_sized hash all 0 h1 c h with h | ⟨a, b, d⟩
      · exact absurd h hne
      · exact ⟨⟨a, b⟩, d⟩

/-- C76, the part that holds: a file of at most one segment, or one that does not
end less than `2 * min` bytes after a segment boundary, is chunked exactly, by
any number of goroutines. Missing: the other files. -/
theorem C76_covers_partial (hash : Bytes → δ) (s : Sizes) (ho : s.Ok) (next : Bytes → Nat)
    (hf : Fits s next) (file : Bytes) (hne : file ≠ [])
    (hend : file.length ≤ s.segment ∨ file.length % s.segment = 0 ∨
      2 * s.min ≤ file.length % s.segment) (ngoro : Nat) (hn : 0 < ngoro) :
    ∃ cs, chunkFile hash s next ngoro file = some cs ∧ Exact hash s file cs := by
  rcases chunkFile_cases hash hf ho hne with ⟨all, h1, h2, h3⟩ | ⟨h, _⟩
  · refine ⟨_, h3 ngoro hn, ?_⟩
    obtain ⟨a, b, c⟩ := exact_of hash (Nat.le_refl _) h1 h2
    rw [List.take_length] at a
    exact ⟨a, fun x hx hr => (b x hx hr).1, fun x hx hr => (b x hx hr).2, zerosApart_get c⟩
  · exact absurd hend h

/-- C76, for every file: a list that is returned describes the file, except that
fewer than `2 * min` bytes at the end may be missing. Missing: that a list is
returned, and that nothing is missing from it. -/
theorem C76_prefix_partial (hash : Bytes → δ) (s : Sizes) (ho : s.Ok) (next : Bytes → Nat)
    (hf : Fits s next) (file : Bytes) (hne : file ≠ []) (ngoro : Nat) (hn : 0 < ngoro)
    (cs : List (Chunk δ)) (h : chunkFile hash s next ngoro file = some cs) :
    ∃ k, k ≤ file.length ∧ file.length < k + 2 * s.min ∧ Describes hash 0 (file.take k) cs := by
  have hmp := ho.min_pos
  rcases chunkFile_cases hash hf ho hne with ⟨all, h1, h2, h3⟩ | ⟨_, ⟨all, q, h1, h2, h3, h4, h5⟩ | h1⟩
  · rw [h3 ngoro hn] at h
    injection h with h
    subst h
    exact ⟨file.length, Nat.le_refl _, by omega, (exact_of hash (Nat.le_refl _) h1 h2).1⟩
  · rw [h5 ngoro hn] at h
    injection h with h
    subst h
    exact ⟨q, by omega, h4, (exact_of hash (by omega) h1 h2).1⟩
  · rw [h1 ngoro hn] at h
    cases h

/-- C76: the outcome does not depend on the number of goroutines. -/
theorem C76_workers_irrelevant (hash : Bytes → δ) (s : Sizes) (ho : s.Ok) (next : Bytes → Nat)
    (hf : Fits s next) (file : Bytes) (hne : file ≠ []) (n m : Nat) (hn : 0 < n) (hm : 0 < m) :
    chunkFile hash s next n file = chunkFile hash s next m file := by
  rcases chunkFile_cases hash hf ho hne with ⟨all, _, _, h3⟩ | ⟨_, ⟨all, q, _, _, _, _, h5⟩ | h1⟩
  · rw [h3 n hn, h3 m hm]
  · rw [h5 n hn, h5 m hm]
  · rw [h1 n hn, h1 m hm]

/-- The default sizes. -/
def defaultSizes : Sizes := ⟨4096, 16384, 1048576⟩

theorem plakar_fits (gear : UInt8 → UInt64) (c : Config) (hv : validate c = true) (segment : Nat) :
    Fits ⟨c.minSize, c.maxSize, segment⟩ (plakar gear c) := by
  rw [validate_iff] at hv
  refine ⟨?_, ?_, fun d => plakar_le_max (by omega) d⟩
  · intro d hd
    show c.minSize ≤ _
    have hd : c.minSize ≤ d.length := hd
    have := plakar_sized (gear := gear) (c := c) (by omega) d
    omega
  · intro d
    by_cases h : d = []
    · subst h; simp [plakar]
    · exact (plakar_progress (gear := gear) (c := c) (by omega) (by omega) d h).2

/-- C76 with the defaults: `ChunkFile` of a file that is at most 1 MB long or does
not end less than 8 KB after a multiple of 1 MB. -/
theorem C76_default_partial (hash : Bytes → δ) (gear : UInt8 → UInt64) (file : Bytes)
    (hne : file ≠ []) (hend : file.length ≤ 1048576 ∨ file.length % 1048576 = 0 ∨
      8192 ≤ file.length % 1048576) (ngoro : Nat) (hn : 0 < ngoro) :
    ∃ cs, chunkFile hash defaultSizes (plakar gear ⟨4096, 8192, 16384⟩) ngoro file = some cs ∧
      Exact hash defaultSizes file cs :=
  C76_covers_partial hash defaultSizes ⟨by decide, by decide, by decide⟩ _
    (plakar_fits gear ⟨4096, 8192, 16384⟩ (by decide) 1048576) file hne hend ngoro hn

example : (List.replicate 2000000 (7 : UInt8)) ≠ [] ∧
    8192 ≤ (List.replicate 2000000 (7 : UInt8)).length % 1048576 := by
  constructor
  · intro h
    have := congrArg List.length h
    rw [List.length_replicate] at this
    exact absurd this (by decide)
  · rw [List.length_replicate]; decide

/-! ## Files that end just after a segment boundary

The sizes are the defaults divided by 1024, except for segments of 64 rather than
1024; the cut function ends a chunk before a byte 1. -/

/-- The loop of `markCut`. -/
def markLoop (n : Nat) : Nat → Bytes → Nat
  | _, [] => n
  | i, b :: rest => if b = 1 then i else markLoop n (i + 1) rest

/-- A cut function of the usual shape: the first byte 1 from `min` on starts the
next chunk. -/
def markCut (min max : Nat) (d : Bytes) : Nat :=
  if d.length ≤ min then d.length
  else
    let n := if d.length ≥ max then max else d.length
    markLoop n min ((d.take n).drop min)

theorem markLoop_range (n : Nat) (d : Bytes) : ∀ i, i + d.length = n →
    i ≤ markLoop n i d ∧ markLoop n i d ≤ n := by
  induction d with
  | nil => intro i h; simp at h; simp [markLoop, h]
  | cons b d ih =>
    intro i h
    simp only [List.length_cons] at h
    unfold markLoop
    split
    · omega
    · have := ih (i + 1) (by omega); omega

theorem markCut_fits (s : Sizes) (h : s.min ≤ s.max) : Fits s (markCut s.min s.max) := by
  have key : ∀ d : Bytes, s.min < d.length → s.min ≤ markCut s.min s.max d ∧
      markCut s.min s.max d ≤ d.length ∧ markCut s.min s.max d ≤ s.max := by
    intro d hd
    unfold markCut
    rw [if_neg (by omega)]
    simp only
    have := markLoop_range (if d.length ≥ s.max then s.max else d.length)
      ((d.take (if d.length ≥ s.max then s.max else d.length)).drop s.min) s.min
      (by rw [List.length_drop, List.length_take]; split <;> omega)
    split at this <;> split <;> omega
  refine ⟨fun d hd => ?_, fun d => ?_, fun d => ?_⟩
  · by_cases h' : s.min < d.length
    · exact (key d h').1
    · unfold markCut; rw [if_pos (by omega)]; exact hd
  · by_cases h' : s.min < d.length
    · exact (key d h').2.1
    · unfold markCut; rw [if_pos (by omega)]; exact Nat.le_refl _
  · by_cases h' : s.min < d.length
    · exact (key d h').2.2
    · unfold markCut; rw [if_pos (by omega)]; omega

/-- The small sizes. -/
def smallSizes : Sizes := ⟨4, 16, 64⟩

/-- A file of `n` bytes that are 1 at the given places and 7 elsewhere. -/
def markedFile (n : Nat) (marks : List Nat) : Bytes :=
  (List.range n).map fun i => if marks.contains i then 1 else 7

theorem smallSizes_ok : smallSizes.Ok := ⟨by decide, by decide, by decide⟩

/-- C76 fails: for this file of 129 bytes `ChunkFile2` panics ("bad append!"),
whatever the number of goroutines. (Contents serve as their own hash.) -/
theorem C76_crash_counterexample (ngoro : Nat) (hn : 0 < ngoro) :
    Fits smallSizes (markCut 4 16) ∧
    chunkFile id smallSizes (markCut 4 16) ngoro
      (markedFile 129 [28, 34, 37, 39, 42, 44, 47]) = none := by
  have hf : Fits smallSizes (markCut 4 16) := markCut_fits smallSizes (by decide)
  refine ⟨hf, ?_⟩
  rw [C76_workers_irrelevant id smallSizes smallSizes_ok _ hf _ (by decide) ngoro 1 hn (by decide)]
  decide +kernel

/-- C76 fails: for this file of 132 bytes `ChunkFile2` returns a list that ends six
bytes before the end of the file, and reports no error. -/
theorem C76_tail_missing_counterexample (ngoro : Nat) (hn : 0 < ngoro) :
    Fits smallSizes (markCut 4 16) ∧
    ∃ cs, chunkFile id smallSizes (markCut 4 16) ngoro
      (markedFile 132 [28, 35, 38, 41, 44, 46, 49]) = some cs ∧
      cs.getLast?.map Chunk.endx = some 126 := by
  have hf : Fits smallSizes (markCut 4 16) := markCut_fits smallSizes (by decide)
  refine ⟨hf, ?_⟩
  rw [C76_workers_irrelevant id smallSizes smallSizes_ok _ hf _ (by decide) ngoro 1 hn (by decide)]
  have h : (chunkFile id smallSizes (markCut 4 16) 1
      (markedFile 132 [28, 35, 38, 41, 44, 46, 49])).map (fun cs => cs.getLast?.map Chunk.endx)
      = some (some 126) := by decide +kernel
  rw [Option.map_eq_some_iff] at h
  exact h

end Verif.Parallel
