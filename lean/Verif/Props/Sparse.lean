import Verif.Proofs.SparseChunks
import Verif.Props.CDC
/-
Theorems C119-C121: sparse files.
-/
namespace Verif.Sparse

/-- Four bytes: data, two bytes of hole, data. -/
def sampleFile : File := { bytes := [7, 0, 0, 9], data := fun i => i == 0 || i == 3, disk := 4 }

theorem sampleFile_ok : sampleFile.Ok := by
  intro i hi hd
  have : i = 0 ∨ i = 1 ∨ i = 2 ∨ i = 3 := by
    have : i < 4 := hi
    omega
  rcases this with rfl | rfl | rfl | rfl
  · exact nomatch hd
  · rfl
  · rfl
  · exact nomatch hd

/-! ### C119 -/

/-- The regions of a file that is not empty: first data and holes, alternating, from the beginning to the end of
the file; then, unless the file is sparse, the space reserved beyond its end. -/
theorem C119_regions (f : File) (hf : f.Ok) (hne : 0 < f.size) : ∃ body tail,
    (regions f).2 = some (body ++ tail) ∧ Tiles f 0 body f.size ∧
    tail = if f.size < f.disk ∧ ∀ i, i < f.size → f.data i = true
      then [{ pre := true, beg := f.size, endx := f.disk }] else [] := by
  have hdata : isSparse f = false → Tiles f 0 [{ beg := 0, endx := f.size }] f.size := by
    intro h
    refine ⟨rfl, hne, Nat.le_refl _, rfl, ?_, (fun s hs => nomatch hs), rfl⟩
    intro i _ hi
    exact ⟨(isSparse_false f).1 h i hi, fun x => nomatch x⟩
  unfold regions
  by_cases h : f.size < f.disk ∧ isSparse f = false
  · rw [if_pos h]
    refine ⟨_, _, rfl, ?_, ?_⟩
    · rw [if_pos hne]; exact hdata h.2
    · rw [if_pos ⟨h.1, (isSparse_false f).1 h.2⟩]
  · rw [if_neg h]
    have h' : ¬(f.size < f.disk ∧ ∀ i, i < f.size → f.data i = true) := by rwa [← isSparse_false]
    by_cases h2 : isSparse f = false
    · rw [if_pos h2]
      exact ⟨_, [], by rw [List.append_nil], hdata h2, by rw [if_neg h']⟩
    · rw [if_neg h2]
      obtain ⟨r, hr, ht⟩ := regionLoop_tiles hf f.size 0 (Nat.zero_le _) (by omega)
      exact ⟨r, [], by rw [List.append_nil]; exact hr, ht, by rw [if_neg h']⟩

example : (regions sampleFile).2 = some [{ beg := 0, endx := 1 }, { hole := true, beg := 1, endx := 3 },
    { beg := 3, endx := 4 }] ∧ sampleFile.Ok ∧ 0 < sampleFile.size := ⟨by decide, sampleFile_ok, by decide⟩

/-- The flag IsSparse tells whether there is a hole, and reserved space of a block or more beyond the end of a
file without holes is in the summary. -/
theorem C119_summary (f : File) :
    ((regions f).1.sparse = true ↔ ∃ i, i < f.size ∧ f.data i = false) ∧
    ((∀ i, i < f.size → f.data i = true) → f.size + 4096 ≤ f.disk →
      (regions f).1.unwritBeg = f.size ∧ (regions f).1.unwritEndx = f.disk) ∧
    (f.disk < f.size + 4096 → (regions f).1.unwritEndx = 0) := by
  rw [← isSparse_iff, ← isSparse_false]
  unfold regions
  cases h : isSparse f with
  | true => simp
  | false =>
    by_cases h1 : f.size < f.disk
    · by_cases h2 : f.size + 4096 ≤ f.disk
      · simp [h1, h2]; omega
      · simp [h1, h2]
    · simp [h1]; omega

example : (regions { bytes := [1, 2], data := fun _ => true, disk := 8192 }).1 = ⟨false, 2, 8192⟩ := by decide

/-- Of an empty file at most reserved space is reported. -/
theorem C119_empty (f : File) (h : f.size = 0) :
    (regions f).1.sparse = false ∧ ∀ spans, (regions f).2 = some spans → ∀ s ∈ spans,
      s.hole = false ∧ s.beg = 0 ∧ s.endx = f.disk ∧ (s.pre = true ↔ 0 < f.disk) := by
  have hs : isSparse f = false := by rw [isSparse_false]; intro i hi; omega
  unfold regions
  by_cases h1 : f.size < f.disk
  · have hd : 0 < f.disk := by omega
    simp only [hs, h, hd, and_self, if_true]
    refine ⟨by split <;> rfl, ?_⟩
    simp [hd]
  · simp [hs, h, show f.disk = 0 by omega]

/-- Reserved space beyond the end of a file with a hole is not reported, however much it is. -/
theorem C119_reserved_counterexample (f : File) (hf : f.Ok) (i : Nat) (hi : i < f.size) (hh : f.data i = false) :
    (regions f).1.unwritEndx = 0 ∧
    ∀ spans, (regions f).2 = some spans → ∀ s ∈ spans, s.pre = false ∧ s.endx ≤ f.size := by
  have hs : isSparse f = true := (isSparse_iff f).2 ⟨i, hi, hh⟩
  unfold regions
  simp only [hs, Bool.true_eq_false, and_false, if_false]
  refine ⟨trivial, ?_⟩
  intro spans hsp
  obtain ⟨r, hr, ht⟩ := regionLoop_tiles hf f.size 0 (Nat.zero_le _) (by omega)
  rw [hr, Option.some.injEq] at hsp
  subst hsp
  have : ∀ (r : List Span) a b, Tiles f a r b → ∀ s ∈ r, s.pre = false ∧ s.endx ≤ b := by
    intro r
    induction r with
    | nil => intro a b _ s hs; exact nomatch hs
    | cons x r ih =>
      intro a b h s hs
      rcases List.mem_cons.1 hs with rfl | hs
      · exact ⟨h.2.2.2.1, h.2.2.1⟩
      · exact ih _ _ h.2.2.2.2.2.2 s hs
  exact this r 0 f.size ht

example : sampleFile.Ok ∧ 1 < sampleFile.size ∧ sampleFile.data 1 = false := ⟨sampleFile_ok, by decide, rfl⟩

/-- The chunk list made from the regions describes the bytes of the file; reserved space of a block or more beyond
the end of a file without holes adds one chunk that says so, and smaller reserved space adds nothing. -/
theorem C119_chunks {δ : Type} (hash : Bytes → δ) (gear : UInt8 → UInt64) (c : CDC.Config)
    (hv : CDC.validate c = true) (bufsz : Nat) (hm : c.maxSize ≤ bufsz) (keep : Bool) (f : File) (hf : f.Ok) :
    ∃ spans cs, (regions f).2 = some spans ∧
      CDC.summarizeFile hash (CDC.plakar gear c) bufsz keep (spans.map (toCDC f)) =
        some (cs ++ if (∀ i, i < f.size → f.data i = true) ∧ f.size + 4096 ≤ f.disk
          then [⟨f.size, f.disk, .unwrit, []⟩] else []) ∧
      CDC.Describes hash 0 f.bytes cs := by
  have hv' := (CDC.validate_iff c).1 hv
  have htake : ∀ b : Bytes, (b.take b.length).drop 0 = b := fun b => by rw [List.take_length]; rfl
  by_cases h : f.size < f.disk ∧ isSparse f = false
  · obtain ⟨cs, h1, h2⟩ := summarizeFile_tail hash keep (CDC.plakar_progress (gear := gear) (by omega) (by omega))
      (CDC.plakar_local (by omega)) (CDC.plakar_stable (by omega) (by omega))
      (fun d _ => CDC.plakar_le_max (by omega) d) hm (by omega) f.bytes (List.replicate (f.disk - f.size) 0)
    refine ⟨_, cs, by unfold regions; rw [if_pos h], ?_, h2⟩
    have e1 : f.bytes.length + (f.disk - f.size) = f.disk := by
      have : f.bytes.length = f.size := rfl
      omega
    have e2 : ((if 0 < f.size then [({ beg := 0, endx := f.size } : Span)] else []) ++
        [({ pre := true, beg := f.size, endx := f.disk } : Span)]).map (toCDC f) =
        (if f.bytes = [] then [] else [CDC.Span.data f.bytes]) ++
          [.unwrit (List.replicate (f.disk - f.size) 0)] := by
      by_cases hz : f.bytes = []
      · rw [if_pos hz, if_neg (by unfold File.size; rw [hz]; exact Nat.lt_irrefl _)]
        rfl
      · rw [if_neg hz, if_pos (show 0 < f.size from List.length_pos_iff.2 hz)]
        have : toCDC f { beg := 0, endx := f.size } = .data f.bytes := by
          show CDC.Span.data _ = _
          rw [show f.size = f.bytes.length from rfl, htake]
        simp only [List.map_append, List.map_cons, List.map_nil, this]
        rfl
    rw [e2, h1, List.length_replicate, e1]
    congr 2
    by_cases h3 : f.size + 4096 ≤ f.disk
    · rw [if_neg (by omega), if_pos ⟨(isSparse_false f).1 h.2, h3⟩]; rfl
    · rw [if_pos (by omega), if_neg (fun x => h3 x.2)]
  · have hnt : ¬((∀ i, i < f.size → f.data i = true) ∧ f.size + 4096 ≤ f.disk) := by
      rw [← isSparse_false]
      intro x; exact h ⟨by omega, x.1⟩
    rw [if_neg hnt]
    by_cases hz : f.size = 0
    · have hs : isSparse f = false := by rw [isSparse_false]; intro i hi; omega
      have hb : f.bytes = [] := List.length_eq_zero_iff.1 hz
      refine ⟨_, [], by unfold regions; rw [if_neg h, if_pos hs], ?_, by rw [hb]; rfl⟩
      have : toCDC f { beg := 0, endx := f.size } = .data [] := by
        show CDC.Span.data _ = _
        rw [hb]; simp
      simp only [List.map_cons, List.map_nil, this]
      unfold CDC.summarizeFile CDC.cutSpans
      rw [CDC.readSpan_eq (CDC.plakar_progress (by omega) (by omega)) (CDC.plakar_local (by omega))
        (CDC.plakar_stable (by omega) (by omega)) (fun d _ => CDC.plakar_le_max (by omega) d) hm (by omega),
        CDC.segs_nil]
      rfl
    · obtain ⟨body, tail, h1, h2, h3⟩ := C119_regions f hf (by omega)
      rw [if_neg (by rw [← isSparse_false]; exact h)] at h3
      subst h3
      obtain ⟨t1, _, t3⟩ := tiles_chunks body 0 f.size h2 (Nat.le_refl _)
      obtain ⟨cs, c1, c2⟩ := CDC.C42_spans_describe_partial hash gear c hv bufsz hm keep (body.map (toCDC f))
        (fun s hs => (t3 s hs).1) (fun b hb => (t3 _ hb).2 b rfl)
      refine ⟨_, cs, by rw [h1, List.append_nil], by rw [c1, List.append_nil], ?_⟩
      rw [t1, show f.size = f.bytes.length from rfl, htake] at c2
      exact c2

example : CDC.validate ⟨64, 128, 256⟩ = true ∧ sampleFile.Ok := ⟨by decide, sampleFile_ok⟩

/-! ### C120 -/

/-- Copying to another path: the destination has the bytes and the holes of the source, every other file, the
source among them, is unchanged; whatever was at the destination. Left out: the source has a hole at its end and
uses more disk space than its size. -/
theorem C120_copy_partial (fs : FS) (srcp dstp : Nat) (hp : srcp ≠ dstp) (src : File) (hs : fs srcp = some src)
    (hf : src.Ok) (hend : src.size ≤ src.disk → src.disk = src.size ∨ (∀ i, i < src.size → src.data i = true) ∨
      src.data (src.size - 1) = true) :
    ∃ fs' dst, copy fs srcp dstp = some fs' ∧ fs' dstp = some dst ∧ Same src dst ∧ ∀ p, p ≠ dstp → fs' p = fs p := by
  have hset : ∀ (g : FS) (x : File) p, p ≠ dstp → (g.set dstp x) p = g p := fun g x p h => by
    unfold FS.set; rw [if_neg h]
  have hget : ∀ (g : FS) (x : File), (g.set dstp x) dstp = some x := fun g x => by unfold FS.set; rw [if_pos rfl]
  unfold copy
  simp only [hs, hset fs {} srcp hp]
  by_cases h0 : src.size = 0
  · rw [if_pos h0]
    refine ⟨_, {}, rfl, hget _ _, ⟨List.length_eq_zero_iff.1 h0, fun i hi => by omega⟩, hset _ _⟩
  · rw [if_neg h0]
    by_cases hsp : isSparse src = false
    · rw [if_pos hsp]
      have hd := (isSparse_false src).1 hsp
      have hc := (copied_empty src).range hf (d := 0) (e := src.size) (Nat.le_refl _) (by omega) (Nat.le_refl _)
        (fun i _ hi => absurd hi (Nat.not_lt_zero _)) (fun i _ hi => hd i hi)
      refine ⟨_, _, rfl, hget _ _, hc.same hf (Nat.le_refl _) ?_ (fun i h1 h2 => by omega), fun p h => ?_⟩
      · rcases hc.size with h | h <;> exact h
      · rw [hset _ _ p h, hset _ _ p h]
    · rw [if_neg hsp]
      have hsp' : ∃ i, i < src.size ∧ src.data i = false :=
        (isSparse_iff src).1 (by cases h : isSparse src with | true => rfl | false => exact absurd h hsp)
      by_cases hd : src.size < src.disk
      · simp only [decide_eq_true hd, if_true]
        obtain ⟨dst', p, q1, q2, q3, q4, q5, q6, q7, q8⟩ := copyLoop_copied hf true src.size 0 {} (Nat.zero_le _)
          (by omega) (copied_empty src) (fun _ => rfl) (fun h => nomatch h)
        rw [q1]
        have hlast : src.data (src.size - 1) = true := by
          rcases hend (by omega) with h | h | h
          · omega
          · obtain ⟨i, hi, hi'⟩ := hsp'
            rw [h i hi] at hi'; exact nomatch hi'
          · exact h
        have hpe : p = src.size := by
          rcases Nat.lt_or_ge p src.size with h | h
          · rw [q7 (src.size - 1) (by omega) (by omega)] at hlast; exact nomatch hlast
          · omega
        refine ⟨_, dst', rfl, hget _ _, q4.same hf q3 (by rw [q5 rfl, hpe]) q7, fun p h => ?_⟩
        rw [hset _ _ p h, hset _ _ p h]
      · simp only [decide_eq_false hd, Bool.false_eq_true, if_false]
        obtain ⟨dst', p, q1, q2, q3, q4, q5, q6, q7, q8⟩ := copyLoop_copied hf false src.size 0
          (({} : File).truncate src.size) (Nat.zero_le _) (by omega) (copied_truncate src) (fun h => nomatch h)
          (fun _ => by simp [File.truncate, File.size])
        rw [q1]
        refine ⟨_, dst', rfl, hget _ _, q4.same hf q3 (q6 rfl) q7, fun p h => ?_⟩
        rw [hset _ _ p h, hset _ _ p h]

example : ∃ fs' dst, copy (fun p => if p = 1 then some sampleFile else some {}) 1 2 = some fs' ∧ fs' 2 = some dst ∧
    Same sampleFile dst ∧ ∀ p, p ≠ 2 → fs' p = if p = 1 then some sampleFile else some {} :=
  C120_copy_partial _ 1 2 (by decide) sampleFile rfl sampleFile_ok (fun _ => Or.inl rfl)

/-- The part left out: with a hole at its end and more disk space than its size, the copy is too short, and no
error is reported. -/
theorem C120_short_counterexample (fs : FS) (srcp dstp : Nat) (hp : srcp ≠ dstp) (src : File)
    (hs : fs srcp = some src) (hf : src.Ok) (h0 : 0 < src.size) (hd : src.size < src.disk)
    (hend : src.data (src.size - 1) = false) :
    ∃ fs' dst, copy fs srcp dstp = some fs' ∧ fs' dstp = some dst ∧ dst.size < src.size := by
  have hset : ∀ (g : FS) (x : File) p, p ≠ dstp → (g.set dstp x) p = g p := fun g x p h => by
    unfold FS.set; rw [if_neg h]
  have hget : ∀ (g : FS) (x : File), (g.set dstp x) dstp = some x := fun g x => by unfold FS.set; rw [if_pos rfl]
  have hsp : isSparse src = true := (isSparse_iff src).2 ⟨src.size - 1, by omega, hend⟩
  unfold copy
  simp only [hs, hset fs {} srcp hp]
  rw [if_neg (by omega), if_neg (by rw [hsp]; exact fun h => nomatch h)]
  simp only [decide_eq_true hd, if_true]
  obtain ⟨dst', p, q1, q2, q3, q4, q5, q6, q7, q8⟩ := copyLoop_copied hf true src.size 0 {} (Nat.zero_le _)
    (by omega) (copied_empty src) (fun _ => rfl) (fun h => nomatch h)
  rw [q1]
  refine ⟨_, dst', rfl, hget _ _, ?_⟩
  rw [q5 rfl]
  rcases q8 with h | h
  · omega
  · rcases Nat.lt_or_ge p src.size with h' | h'
    · exact h'
    · have : p = src.size := by omega
      rw [this, hend] at h; exact nomatch h

/-- For instance a file with a reserved block and nothing written, its size set to 3. -/
example : let src : File := { bytes := [0, 0, 0], disk := 4096 }
    src.Ok ∧ 0 < src.size ∧ src.size < src.disk ∧ src.data (src.size - 1) = false := by
  refine ⟨?_, by decide, by decide, rfl⟩
  intro i hi hd
  have : i = 0 ∨ i = 1 ∨ i = 2 := by
    have : i < 3 := hi
    omega
  rcases this with rfl | rfl | rfl <;> rfl

/-- Copying a file onto itself empties it, without an error. -/
theorem C120_same_file_counterexample (fs : FS) (p : Nat) (f : File) (h : fs p = some f) :
    ∃ fs' g, copy fs p p = some fs' ∧ fs' p = some g ∧ g.bytes = [] := by
  refine ⟨fs.set p {}, {}, ?_, by unfold FS.set; rw [if_pos rfl], rfl⟩
  unfold copy
  simp only [h]
  simp [FS.set, File.size]

/-! ### C121 -/

/-- SparseDiff returns nil exactly for files with the same size, disk usage, bytes and holes; it always returns. -/
theorem C121_nil_iff (a b : File) (ha : a.Ok) (hb : b.Ok) :
    diff a b ≠ none ∧ (diff a b = some true ↔ a.disk = b.disk ∧ Same a b) := by
  unfold diff
  by_cases h1 : isSparse a ≠ isSparse b
  · rw [if_pos h1]
    refine ⟨(fun h => nomatch h), (fun h => nomatch h), ?_⟩
    rintro ⟨_, hs1, hs2⟩
    exfalso; apply h1
    have : a.size = b.size := congrArg List.length hs1
    have h := (seek_congr this hs2 0).2
    unfold isSparse
    rw [h, this]
  · rw [if_neg h1]
    by_cases h2 : a.disk ≠ b.disk
    · rw [if_pos h2]
      exact ⟨(fun h => nomatch h), (fun h => nomatch h), fun h => absurd h.1 h2⟩
    · rw [if_neg h2]
      by_cases h3 : a.size ≠ b.size
      · rw [if_pos h3]
        exact ⟨(fun h => nomatch h), (fun h => nomatch h), fun h => absurd (congrArg List.length h.2.1) h3⟩
      · rw [if_neg h3]
        have h3 : a.size = b.size := Classical.not_not.1 h3
        obtain ⟨r, hr, hiff⟩ := diffLoop_spec ha hb h3 a.size 0 (Nat.zero_le _) (by omega)
        rw [hr]
        refine ⟨(fun h => nomatch h), ?_⟩
        rw [Option.some.injEq, hiff]
        constructor
        · intro h
          refine ⟨Classical.not_not.1 h2, List.ext_getElem? fun i => ?_, fun i hi => (h i (Nat.zero_le _) hi).2⟩
          rcases Nat.lt_or_ge i a.size with x | x
          · exact (h i (Nat.zero_le _) x).1
          · rw [get_of_ge x, get_of_ge (by rw [h3] at x; exact x)]
        · rintro ⟨_, hs1, hs2⟩ i _ hi
          exact ⟨by rw [hs1], hs2 i hi⟩

example : diff sampleFile sampleFile = some true ∧
    diff sampleFile { sampleFile with bytes := [7, 0, 0, 8] } = some false := by decide

end Verif.Sparse
