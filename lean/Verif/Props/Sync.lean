import Verif.Proofs.SyncPlan
import Verif.Props.Numeric
import Verif.Props.CDC

/-!
# C43, C44: synchronising a file

`goalCs` and `localCs` are any chunk lists that describe the two files, so the
theorems do not depend on how the files were cut. `Props/CDC.lean` shows that the
chunkers' lists do describe them (`C42_streamed_describes`,
`C42_spans_describe_partial`).
-/

set_option linter.unusedSectionVars false

namespace Verif.Sync

open Verif.CDC

variable {δ : Type} [DecidableEq δ]

/-! ## C43 -/

/-- The whole exchange in memory: the plan, made from the goal's chunks with
their data (or with the data in the blob store) and the hashes of the local
chunks, applied with the local chunks, yields the goal. -/
theorem C43_in_memory_partial (hash fhash : Bytes → δ) (goal loc : Bytes)
    (goalCs localCs : List (Chunk δ)) (blobs : Cry δ → Option (Chunk δ)) (ub ue : Nat)
    (hg : Describes hash 0 goal goalCs) (hl : Describes hash 0 loc localCs)
    (hnu : ∀ c ∈ goalCs, c.cry ≠ .unwrit)
    (hgd : ∀ c ∈ goalCs, Hashed c → c.data = content goal c ∨
      (c.data = [] ∧ ∃ b, blobs c.cry = some b ∧ b.data = content goal c))
    (hld : ∀ l ∈ localCs, Hashed l → l.data = content loc l)
    (hnc : NoCollision hash goal goalCs loc localCs) :
    ∃ plan, planData blobs (localCs.map fun l => { l with data := [] })
        ⟨goalCs, goal.length, fhash goal, ub, ue⟩ = some plan ∧
      updateLocal fhash (cryMap localCs) plan = some goal := by
  have hm : goalCs.mapM (dataChunk blobs (localCs.map fun l => { l with data := [] }))
      = some (goalCs.map (arrives (localCs.map fun l => { l with data := [] }) goal)) := by
    apply mapM_some
    intro c hc
    have := describes_mem goalCs [] goal hg c hc
    exact dataChunk_eq this.1 (by simpa using this.2.1) (hgd c hc)
  refine ⟨_, by unfold planData; rw [hm]; rfl, ?_⟩
  apply updateLocal_eq (hash := hash) rfl rfl
  · exact describes_map (arrives_fields _ goal) goalCs 0 goal hg
  · intro c hc
    obtain ⟨c', hc', rfl⟩ := List.mem_map.1 hc
    rw [(arrives_fields _ goal c').2.2]
    exact hnu c' hc'
  · intro c hc
    obtain ⟨c', hc', rfl⟩ := List.mem_map.1 hc
    exact atHand_arrives hg hl hnc hld c' hc'

/-- The whole exchange over the network: the plan with place holders, packed into
messages with the contents the other side lacks, and carried out by the taker as
they arrive, yields the goal. A file that is absent on the taker's side has
`orig = none` and no chunks. The full statement would need neither `hz` (see
`C43_zero_run_counterexample`) nor `hnu` (see `C43_unwritten_counterexample` and
`C43_preallocated_counterexample`); the empty goal is sent in another way, which is
not modelled. -/
theorem C43_over_network_partial (hash fhash : Bytes → δ) (goal loc : Bytes)
    (goalCs localCs : List (Chunk δ)) (orig : Option Bytes) (bufLen max : Nat)
    (msize : Chunk δ → Nat) (ub : Nat) (hne : goal ≠ [])
    (hg : Describes hash 0 goal goalCs) (hl : Describes hash 0 loc localCs)
    (hnu : ∀ c ∈ goalCs, c.cry ≠ .unwrit)
    (hgd : ∀ c ∈ goalCs, c.data = [])
    (horig : orig = some loc ∨ localCs = [])
    (hbuf : ∀ l ∈ localCs, Hashed l → l.endx - l.beg ≤ bufLen)
    (hmax : ∀ c ∈ goalCs, ∀ data : Bytes, data.length ≤ c.endx - c.beg →
      msize { c with data := data } < max)
    (hz : ∀ c ∈ goalCs, c.cry = .rle0 → c.endx - c.beg ≤ 4096 ∨
      ∃ a b, Numeric.AlignedInside c.beg c.endx a b)
    (hnc : NoCollision hash goal goalCs loc localCs) :
    ∃ plan packs, planHold (localCs.map fun l => { l with data := [] })
        ⟨goalCs, goal.length, fhash goal, ub, 0⟩ = some plan ∧
      packAll msize max goal plan.chunks = some packs ∧
      taker fhash orig bufLen (cryMap localCs) goal.length plan packs = some goal := by
  have hmem := describes_mem goalCs [] goal hg
  rw [List.nil_append] at hmem
  have hp := planHold_eq (updateme := localCs.map fun l => { l with data := [] })
    (goal := (⟨goalCs, goal.length, fhash goal, ub, 0⟩ : Chunks δ)) hgd
  have hfill : (goalCs.map (holdChunk (localCs.map fun l => { l with data := [] }))).mapM
      (fillChunk goal)
      = some (goalCs.map (arrives (localCs.map fun l => { l with data := [] }) goal)) := by
    rw [List.mapM_map]
    apply mapM_some
    intro c hc
    exact fill_hold (hmem c hc).1 (hmem c hc).2.1 (hgd c hc)
  obtain ⟨packs, h1, h2⟩ := packAll_eq (msize := msize) (max := max) (file := goal)
    _ _ _ (Nat.le_refl _) hfill (by
      intro f hf
      obtain ⟨c, hc, rfl⟩ := List.mem_map.1 hf
      have hc' := hmem c hc
      have hlen : (content goal c).length = c.endx - c.beg := by
        unfold content; rw [List.length_drop, List.length_take]; omega
      unfold arrives
      split
      · split
        · exact hmax c hc [] (by simp)
        · exact hmax c hc _ (by omega)
      · exact hmax c hc [] (by simp))
  refine ⟨_, packs, hp, h1, ?_⟩
  refine taker_eq (hash := hash) hne rfl rfl ?_ ?_ ?_ ?_
  · rw [h2]
    exact describes_map (arrives_fields _ goal) goalCs 0 goal hg
  · intro c hc
    rw [h2] at hc
    obtain ⟨c', hc', rfl⟩ := List.mem_map.1 hc
    rw [(arrives_fields _ goal c').2.2]
    exact hnu c' hc'
  · intro c hc
    rw [h2] at hc
    obtain ⟨c', hc', rfl⟩ := List.mem_map.1 hc
    exact onDisk_arrives hg hl hnc horig hbuf c' hc'
  · intro c hc
    rw [h2] at hc
    obtain ⟨c', hc', rfl⟩ := List.mem_map.1 hc
    intro hcry
    have hf := arrives_fields (localCs.map fun l => { l with data := [] }) goal c'
    rw [hf.2.2] at hcry
    rw [hf.1, hf.2.1]
    rcases hz c' hc' hcry with h | ⟨a, b, h⟩
    · exact .inl h
    · right
      rcases aligned_cases c'.beg c'.endx (hmem c' hc').1 with ha | ⟨x, y, w, ha, _⟩
      · obtain ⟨s, w, e1, _, e3⟩ := Numeric.C47_largest_aligned_span c'.beg c'.endx
        rw [ha] at e1
        cases e1
        exact absurd h (e3 rfl a b)
      · exact ⟨_, _, ha⟩

/-- Both sides with the chunk lists that the default chunker makes, for files
with and without holes. -/
theorem C43_end_to_end_partial (hash fhash : Bytes → δ) (gear : UInt8 → UInt64) (c : Config)
    (hv : validate c = true) (bufsz : Nat) (hb : c.maxSize ≤ bufsz)
    (goalSpans localSpans : List Span)
    (hgok : ∀ s ∈ goalSpans, s.Ok) (hgnu : ∀ b, Span.unwrit b ∉ goalSpans)
    (hlok : ∀ s ∈ localSpans, s.Ok) (hlnu : ∀ b, Span.unwrit b ∉ localSpans)
    (blobs : Cry δ → Option (Chunk δ)) :
    ∃ goalCs localCs,
      summarizeFile hash (plakar gear c) bufsz true goalSpans = some goalCs ∧
      summarizeFile hash (plakar gear c) bufsz true localSpans = some localCs ∧
      (NoCollision hash (goalSpans.map Span.bytes).flatten goalCs
        (localSpans.map Span.bytes).flatten localCs →
      ∃ plan, planData blobs (localCs.map fun l => { l with data := [] })
        ⟨goalCs, (goalSpans.map Span.bytes).flatten.length,
          fhash (goalSpans.map Span.bytes).flatten, 0, 0⟩ = some plan ∧
      updateLocal fhash (cryMap localCs) plan = some (goalSpans.map Span.bytes).flatten) := by
  rw [validate_iff] at hv
  have hpr : Progress (plakar gear c) := plakar_progress (by omega) (by omega)
  have hlo : LocalTo c.maxSize (plakar gear c) := plakar_local (by omega)
  have hst : Stable (plakar gear c) := plakar_stable (by omega) (by omega)
  have hmx : ∀ d : Bytes, d ≠ [] → plakar gear c d ≤ c.maxSize :=
    fun d _ => plakar_le_max (by omega) d
  obtain ⟨goalCs, g1, g2⟩ := summarizeFile_describes hash true hpr hlo hst hmx hb (by omega)
    goalSpans hgok hgnu
  obtain ⟨localCs, l1, l2⟩ := summarizeFile_describes hash true hpr hlo hst hmx hb (by omega)
    localSpans hlok hlnu
  have hcut : ∀ (spans : List Span) (cs : List (Chunk δ)),
      summarizeFile hash (plakar gear c) bufsz true spans = some cs →
      ∃ cuts, cutSpans (plakar gear c) bufsz [] 0 spans = some cuts ∧
        cs = summarize hash ((spans.map Span.bytes).flatten) true 0 cuts := by
    intro spans cs h
    unfold summarizeFile at h
    rw [Option.map_eq_some_iff] at h
    obtain ⟨cuts, h1, h2⟩ := h
    exact ⟨cuts, h1, h2.symm⟩
  obtain ⟨gcuts, gc1, gc2⟩ := hcut _ _ g1
  obtain ⟨lcuts, lc1, lc2⟩ := hcut _ _ l1
  refine ⟨goalCs, localCs, g1, l1, fun hnc => ?_⟩
  exact C43_in_memory_partial hash fhash (goalSpans.map Span.bytes).flatten
    (localSpans.map Span.bytes).flatten goalCs localCs blobs 0 0 g2 l2
    (by
      rw [gc2]
      exact summarize_written hash _ true gcuts 0
        (cutSpans_written hpr hlo hst hmx hb (by omega) goalSpans hgnu [] 0 (by simp) gcuts gc1))
    (fun x hx hh => .inl (by rw [gc2] at hx; exact summarize_filled hash _ gcuts 0 x hx hh))
    (fun x hx hh => by rw [lc2] at hx; exact summarize_filled hash _ lcuts 0 x hx hh)
    hnc

/-- Whatever plan and messages arrive, and whatever is on the taker's side: when the
taker finishes, the file is the one whose hash the plan announces, or there are two
contents with that hash. The chunks must follow one another. -/
theorem C43_never_wrong_silently (fhash : Bytes → δ) (goal : Bytes) (orig : Option Bytes)
    (bufLen : Nat) (lm : Cry δ → Option (Chunk δ)) (plan : Chunks δ)
    (packs : List (List (Chunk δ))) (b : Bytes)
    (hf : plan.fileCry = fhash goal)
    (hpre : plan.unwritEndx = 0) (hfo : Follow 0 packs.flatten)
    (hfa : ∀ c ∈ packs.flatten, Faithful lm c)
    (h : taker fhash orig bufLen lm goal.length plan packs = some b) :
    b = goal ∨ ∃ x, x ≠ goal ∧ fhash x = fhash goal := by
  by_cases hinj : ∀ x, fhash x = fhash goal → x = goal
  case neg =>
    right
    obtain ⟨x, hx⟩ := Classical.not_forall.1 hinj
    exact ⟨x, fun he => hx fun _ => he, Classical.byContradiction fun hn => hx fun h => absurd h hn⟩
  left
  unfold taker at h
  split at h
  · cases h
  · cases hl : takerLoop orig bufLen lm (takerStart goal.length plan.unwritEndx)
        packs.flatten with
    | none => rw [hl] at h; cases h
    | some s =>
      rw [hl] at h
      dsimp only at h
      split at h
      · cases h
      · next hc =>
        have hgoal : s.hashed = goal := hinj _ (by
          have := Classical.not_not.1 hc
          rw [this, hf])
        cases h
        have hstart : takerStart goal.length plan.unwritEndx = { file := zeros goal.length } := by
          unfold takerStart; rw [if_pos hpre]
        rw [hstart] at hl
        have := takerLoop_safe (size := goal.length) packs.flatten 0 _ s hfo hfa rfl
          (.inr ⟨rfl, rfl, rfl⟩) hl
        rw [hgoal] at this
        rcases this with h1 | h1
        · omega
        · rw [h1.file, Nat.sub_self]
          simp [zeros]

/-! ### Where the code falls short -/

/-- A run of zeros longer than 4096 bytes that contains no whole aligned block makes
the taker panic, in any state. -/
theorem C43_zero_run_counterexample (orig : Option Bytes) (bufLen : Nat)
    (lm : Cry δ → Option (Chunk δ)) (s : TakerState) (beg endx : Nat) (h : 4096 < endx - beg)
    (hno : ∀ a b, ¬ Numeric.AlignedInside beg endx a b) :
    takerChunk orig bufLen lm s ⟨beg, endx, .rle0, []⟩ = none := by
  rcases aligned_cases beg endx (by omega) with ha | ⟨a, b, w, ha, _⟩
  · simp only [takerChunk, List.isEmpty_nil, if_true, ha, Option.bind_some, TakerState.wing]
    rw [if_neg (by omega)]
    rfl
  · obtain ⟨s, w', e1, e2, _⟩ := Numeric.C47_largest_aligned_span beg endx
    rw [ha] at e1
    cases e1
    exact absurd (e2 _ rfl).1 (hno a b)

example : 4096 < 8000 - 1 ∧ ∀ a b, ¬ Numeric.AlignedInside 1 8000 a b := by
  refine ⟨by decide, ?_⟩
  rintro a b ⟨h1, h2, h3, ⟨x, hx⟩, ⟨y, hy⟩⟩
  omega

/-- An unwritten range inside the file is not added to the hash, so the taker
refuses the result (unless the two hashes collide): here for every goal that ends
with one. -/
theorem C43_unwritten_counterexample (hash fhash : Bytes → δ) (goal tail : Bytes)
    (ht : tail ≠ []) (hinj : fhash goal ≠ fhash (goal ++ tail)) (hg : goal ≠ [])
    (hz : allZero tail = true) (ub ue : Nat) :
    let c : Chunk δ := ⟨0, goal.length, .digest (hash goal), goal⟩
    let u : Chunk δ := ⟨goal.length, (goal ++ tail).length, .unwrit, []⟩
    Describes hash 0 (goal ++ tail) [c, u] ∧
    updateLocal fhash (fun _ => none)
      ⟨[c, u], (goal ++ tail).length, fhash (goal ++ tail), ub, ue⟩ = none ∧
    ∀ n bufLen, taker fhash none bufLen (fun _ => none) n
      ⟨[c, u], (goal ++ tail).length, fhash (goal ++ tail), ub, ue⟩ [[c, u]] = none := by
  have hgl := List.length_pos_iff.2 hg
  have htl := List.length_pos_iff.2 ht
  have hap : (goal ++ tail).length = goal.length + tail.length := List.length_append
  refine ⟨?_, ?_, ?_⟩
  · refine ⟨rfl, by dsimp only; omega, by dsimp only; omega, ?_, ?_⟩
    · dsimp only
      rw [Nat.sub_zero, List.take_left' rfl]
    · dsimp only
      rw [Nat.sub_zero, List.drop_left' rfl]
      refine ⟨rfl, by dsimp only; omega, by dsimp only; omega, ?_, ?_⟩
      · dsimp only
        rw [List.take_of_length_le (by omega)]
        exact hz
      · dsimp only [Describes]
        rw [List.drop_of_length_le (by omega)]
  · unfold updateLocal
    dsimp only
    rw [if_neg (by omega)]
    have hm : memLoop (goal ++ tail).length (fun _ => none) {}
        [⟨0, goal.length, .digest (hash goal), goal⟩,
          ⟨goal.length, (goal ++ tail).length, .unwrit, []⟩] = some ⟨goal, goal, []⟩ := by
      simp only [memLoop, memChunk, List.isEmpty_nil, if_true]
      rw [if_neg (by simpa using hg), if_pos (by simp)]
      simp only [MemState.copy, List.nil_append, List.length_nil]
      rw [List.take_of_length_le (by omega)]
    rw [hm]
    dsimp only
    simp only [if_pos hinj, List.getLast?_cons_cons, List.getLast?_singleton, ite_self]
  · intro n bufLen
    unfold taker
    rw [if_neg (by simp)]
    by_cases hue : ue = 0
    · simp only [takerStart, hue, if_true, List.flatten_cons, List.flatten_nil, List.append_nil,
        takerLoop, takerChunk, List.isEmpty_nil]
      rw [if_neg (by simpa using hg), if_pos (by simp)]
      simp [TakerState.write]
    · simp only [takerStart, hue, if_false, List.flatten_cons, List.flatten_nil, List.append_nil,
        takerLoop, takerChunk, List.isEmpty_nil, if_true]
      rw [if_neg (by simpa using hg), if_pos (by simp)]
      simp only [TakerState.write, List.nil_append, if_true]
      rw [if_pos hinj]

/-- A goal that ends with a hole, with space preallocated behind its end: the taker
does not set the size of the new file and only moves over the hole, so the file
lacks the zeros at its end. The hash, taken over what should have been written,
agrees, so nothing is noticed. -/
theorem C43_preallocated_counterexample (fhash : Bytes → δ) (orig : Option Bytes) (bufLen : Nat)
    (lm : Cry δ → Option (Chunk δ)) :
    let cs : List (Chunk δ) := [⟨0, 4096, .rle0, []⟩, ⟨4096, 8192, .unwrit, []⟩]
    taker fhash orig bufLen lm 4096 ⟨cs, 4096, fhash (zeros 4096), 4096, 8192⟩ [cs] = some [] := by
  intro cs
  have ha : Numeric.alignedSparseSpan ((0 : Nat) : Int) ((4096 : Nat) : Int)
      = some (some ⟨0, 4096⟩, none) := by decide
  unfold taker
  rw [if_neg (by simp)]
  have hstart : takerStart 4096 8192 = { prealloc := true } := rfl
  have hl : takerLoop orig bufLen lm { prealloc := true } cs
      = some { file := [], pos := 4096, hashed := zeros 4096, prealloc := true } := by
    simp only [cs, takerLoop, takerChunk, List.isEmpty_nil, if_true, ha, Option.bind_none,
      TakerState.wing, Option.bind_some, TakerState.hole]
    rw [if_neg (show ¬ (4096 - 0) % 4096 ≠ 0 by decide)]
    simp only [punch, List.take_nil, List.drop_nil, List.nil_append, List.length_nil, zeros,
      List.replicate_zero, Option.bind_some, List.append_nil, if_true, Nat.sub_zero]
  dsimp only
  rw [hstart, List.flatten_cons, List.flatten_nil, List.append_nil, hl]
  dsimp only
  rw [if_neg (by simp)]

/-- A chunk that does not fit in a message is retried for ever. -/
theorem C43_large_chunk_counterexample (msize : Chunk δ → Nat) (max : Nat) (file : Bytes)
    (c : Chunk δ) (cs : List (Chunk δ)) (f : Chunk δ) (hf : fillChunk file c = some f)
    (hm : max ≤ msize f) : packAll msize max file (c :: cs) = none := by
  unfold packAll
  rw [if_neg (by simp)]
  have : packOne msize max file 0 (c :: cs) = some ([], c :: cs) := by
    simp only [packOne, hf]
    rw [if_neg (by omega)]
  rw [this]
  simp

/-! ### A concrete case

The goal repeats a chunk of the local file and has a new one. -/

section Example

def exGoal : Bytes := [1, 2, 0, 0, 1, 2, 9]
def exLocal : Bytes := [7, 1, 2]
def exHash (b : Bytes) : Bytes := b
def exGoalCs : List (Chunk Bytes) :=
  [⟨0, 2, .digest [1, 2], []⟩, ⟨2, 4, .rle0, []⟩, ⟨4, 6, .digest [1, 2], []⟩, ⟨6, 7, .digest [9], []⟩]
def exLocalCs : List (Chunk Bytes) := [⟨0, 1, .digest [7], []⟩, ⟨1, 3, .digest [1, 2], []⟩]

example : Describes exHash 0 exGoal exGoalCs ∧ Describes exHash 0 exLocal exLocalCs := by
  simp [Describes, exGoal, exLocal, exGoalCs, exLocalCs, exHash, allZero]

example : NoCollision exHash exGoal exGoalCs exLocal exLocalCs := fun _ _ _ _ h => h

example : (planHold exLocalCs ⟨exGoalCs, 7, exGoal, 0, 0⟩).map
    (fun p => p.chunks.map (·.data)) = some [[], [], [], [72]] := by decide

example : taker exHash (some exLocal) 100 (cryMap exLocalCs) 7 ⟨[], 7, exGoal, 0, 0⟩
    [[⟨0, 2, .digest [1, 2], []⟩, ⟨2, 4, .rle0, []⟩],
     [⟨4, 6, .digest [1, 2], []⟩, ⟨6, 7, .digest [9], [9]⟩]] = some exGoal := by
  decide

example : ∀ c ∈ exGoalCs, c.cry = .rle0 → c.endx - c.beg ≤ 4096 := by decide

example : Follow 0 exGoalCs ∧ ∀ c ∈ exGoalCs, Faithful (cryMap exLocalCs) c := by
  constructor
  · simp [Follow, exGoalCs]
  · intro c hc
    simp [exGoalCs] at hc
    rcases hc with rfl | rfl | rfl | rfl <;> simp [Faithful, cryMap, exLocalCs]

/-- A goal with a hole, cut by the default chunker with small limits. -/
example : validate smallConfig = true ∧
    (∀ s ∈ [Span.data [1, 2, 3], Span.hole [0, 0]], s.Ok) ∧
    ∀ b, Span.unwrit b ∉ [Span.data [1, 2, 3], Span.hole [0, 0]] := by
  refine ⟨by decide, ?_, by simp⟩
  intro s hs
  simp at hs
  rcases hs with rfl | rfl <;> simp [Span.Ok, allZero]

end Example

/-! ## C44 -/

/-- The plan has the goal's chunks, and asks for the data of one exactly when it is
a hashed chunk and no chunk of the other side has the same hash. -/
theorem C44_asked_iff (updateme : List (Chunk δ)) (goal plan : Chunks δ)
    (h : planHold updateme goal = some plan) :
    plan.chunks.length = goal.chunks.length ∧
    ∀ (i : Nat) (c p : Chunk δ), goal.chunks[i]? = some c → plan.chunks[i]? = some p →
      p.beg = c.beg ∧ p.endx = c.endx ∧ p.cry = c.cry ∧
      (p.data ≠ [] ↔ Hashed c ∧ ∀ u ∈ updateme, u.cry ≠ c.cry) := by
  unfold planHold at h
  split at h
  · next hall =>
    cases h
    refine ⟨by simp, ?_⟩
    intro i c p hc hp
    rw [List.getElem?_map, hc] at hp
    cases hp
    have hd : c.data = [] := by
      have := List.all_eq_true.1 hall c (List.mem_of_getElem? hc)
      simpa using this
    refine ⟨?_, ?_, ?_, holdChunk_data hd⟩ <;>
    · unfold holdChunk
      split
      · rfl
      · rfl
      · split <;> rfl
  · cases h

/-- The same in terms of contents: the data of a chunk is asked for exactly when it
is not all zeros and no chunk of the other file has these bytes. -/
theorem C44_asked_iff_missing (hash : Bytes → δ) (goal loc : Bytes)
    (goalCs localCs : List (Chunk δ)) (fileCry : δ) (plan : Chunks δ)
    (hg : Describes hash 0 goal goalCs) (hl : Describes hash 0 loc localCs)
    (hgz : ZerosMarked goal goalCs)
    (hnc : NoCollision hash goal goalCs loc localCs)
    (h : planHold localCs ⟨goalCs, goal.length, fileCry, 0, 0⟩ = some plan)
    (i : Nat) (c p : Chunk δ) (hc : goalCs[i]? = some c) (hp : plan.chunks[i]? = some p) :
    p.data ≠ [] ↔ allZero (content goal c) = false ∧
      ∀ l ∈ localCs, content loc l ≠ content goal c := by
  obtain ⟨_, h2⟩ := C44_asked_iff localCs _ plan h
  have h3 := (h2 i c p hc hp).2.2.2
  rw [h3]
  have hcm := List.mem_of_getElem? hc
  have hmg := describes_mem goalCs [] goal hg c hcm
  rw [List.nil_append] at hmg
  constructor
  · rintro ⟨⟨d, hd⟩, hu⟩
    refine ⟨hgz c hcm ⟨d, hd⟩, ?_⟩
    intro l hlm he
    rw [hd] at hmg
    have hml := describes_mem localCs [] loc hl l hlm
    rw [List.nil_append] at hml
    cases hlc : l.cry with
    | unwrit =>
      rw [hlc] at hml
      have h5 := hgz c hcm ⟨d, hd⟩
      rw [← he, hml.2.2] at h5
      cases h5
    | rle0 =>
      rw [hlc] at hml
      have h5 := hgz c hcm ⟨d, hd⟩
      rw [← he, hml.2.2] at h5
      cases h5
    | digest e =>
      rw [hlc] at hml
      apply hu l hlm
      rw [hlc, hd, hml.2.2, hmg.2.2, he]
  · rintro ⟨hnz, hno⟩
    cases hcc : c.cry with
    | unwrit =>
      rw [hcc] at hmg
      rw [hmg.2.2] at hnz
      cases hnz
    | rle0 =>
      rw [hcc] at hmg
      rw [hmg.2.2] at hnz
      cases hnz
    | digest d =>
      refine ⟨⟨d, hcc⟩, ?_⟩
      intro l hlm he
      have hml := describes_mem localCs [] loc hl l hlm
      rw [List.nil_append, he] at hml
      rw [hcc] at hmg
      exact hno l hlm (hnc c hcm l hlm (by rw [← hmg.2.2, ← hml.2.2])).symm

/-- For the chunk lists that the default chunker makes of files without unwritten
ranges. -/
theorem C44_end_to_end (hash fhash : Bytes → δ) (gear : UInt8 → UInt64) (c : Config)
    (hv : validate c = true) (bufsz : Nat) (hb : c.maxSize ≤ bufsz)
    (goalSpans localSpans : List Span)
    (hgok : ∀ s ∈ goalSpans, s.Ok) (hgnu : ∀ b, Span.unwrit b ∉ goalSpans)
    (hlok : ∀ s ∈ localSpans, s.Ok) (hlnu : ∀ b, Span.unwrit b ∉ localSpans) :
    ∃ goalCs localCs plan,
      summarizeFile hash (plakar gear c) bufsz false goalSpans = some goalCs ∧
      summarizeFile hash (plakar gear c) bufsz false localSpans = some localCs ∧
      planHold localCs ⟨goalCs, (goalSpans.map Span.bytes).flatten.length,
        fhash (goalSpans.map Span.bytes).flatten, 0, 0⟩ = some plan ∧
      (NoCollision hash (goalSpans.map Span.bytes).flatten goalCs
        (localSpans.map Span.bytes).flatten localCs →
       ∀ (i : Nat) (k p : Chunk δ), goalCs[i]? = some k → plan.chunks[i]? = some p →
        (p.data ≠ [] ↔ allZero (content (goalSpans.map Span.bytes).flatten k) = false ∧
          ∀ l ∈ localCs, content (localSpans.map Span.bytes).flatten l
            ≠ content (goalSpans.map Span.bytes).flatten k)) := by
  rw [validate_iff] at hv
  have hpr : Progress (plakar gear c) := plakar_progress (by omega) (by omega)
  have hlo : LocalTo c.maxSize (plakar gear c) := plakar_local (by omega)
  have hst : Stable (plakar gear c) := plakar_stable (by omega) (by omega)
  have hmx : ∀ d : Bytes, d ≠ [] → plakar gear c d ≤ c.maxSize :=
    fun d _ => plakar_le_max (by omega) d
  obtain ⟨goalCs, g1, g2⟩ := summarizeFile_describes hash false hpr hlo hst hmx hb (by omega)
    goalSpans hgok hgnu
  obtain ⟨localCs, l1, l2⟩ := summarizeFile_describes hash false hpr hlo hst hmx hb (by omega)
    localSpans hlok hlnu
  have gz := summarizeFile_marks hash false hpr hlo hst hmx hb (by omega) goalSpans hgok goalCs g1
  have hcut : ∀ (spans : List Span) (cs : List (Chunk δ)),
      summarizeFile hash (plakar gear c) bufsz false spans = some cs →
      ∀ k ∈ cs, k.data = [] := by
    intro spans cs h
    unfold summarizeFile at h
    rw [Option.map_eq_some_iff] at h
    obtain ⟨cuts, h1, rfl⟩ := h
    exact summarize_nodata hash _ cuts 0
  have gd := hcut _ _ g1
  have hplan := planHold_eq (updateme := localCs) (goal := (⟨goalCs,
    (goalSpans.map Span.bytes).flatten.length, fhash (goalSpans.map Span.bytes).flatten, 0, 0⟩
      : Chunks δ)) gd
  exact ⟨goalCs, localCs, _, g1, l1, hplan, fun hnc i k p hk hp =>
    C44_asked_iff_missing hash _ _ goalCs localCs _ _ g2 l2 gz hnc hplan i k p hk hp⟩

/-- What is sent for the chunks asked for is their contents, and nothing is sent
for the others: the number of bytes sent is the total of the missing chunks. -/
theorem C44_sent (updateme goalCs fs : List (Chunk δ)) (goal : Bytes)
    (hb : ∀ c ∈ goalCs, c.beg < c.endx ∧ c.endx ≤ goal.length) (hd : ∀ c ∈ goalCs, c.data = [])
    (h : (goalCs.map (holdChunk updateme)).mapM (fillChunk goal) = some fs) :
    ∀ (i : Nat) (c f : Chunk δ), goalCs[i]? = some c → fs[i]? = some f →
      (Hashed c ∧ (∀ u ∈ updateme, u.cry ≠ c.cry) → f.data = content goal c) ∧
      (¬ (Hashed c ∧ ∀ u ∈ updateme, u.cry ≠ c.cry) → f.data = []) := by
  have hm : (goalCs.map (holdChunk updateme)).mapM (fillChunk goal)
      = some (goalCs.map (arrives updateme goal)) := by
    rw [List.mapM_map]
    apply mapM_some
    intro c hc
    exact fill_hold (hb c hc).1 (hb c hc).2 (hd c hc)
  rw [hm] at h
  cases h
  intro i c f hc hf
  rw [List.getElem?_map, hc] at hf
  cases hf
  unfold arrives
  cases hcc : c.cry with
  | rle0 => simp [Hashed, hcc]
  | unwrit => simp [Hashed, hcc]
  | digest d =>
    dsimp only
    by_cases hh : hasCry updateme (.digest d) = true
    · rw [if_pos hh]
      obtain ⟨u, hu, he⟩ := hasCry_iff.1 hh
      refine ⟨fun ⟨_, h⟩ => absurd he (h u hu), fun _ => rfl⟩
    · rw [if_neg hh]
      refine ⟨fun _ => rfl, fun hn => absurd ⟨⟨d, hcc⟩, ?_⟩ hn⟩
      intro u hu he
      exact hh (hasCry_iff.2 ⟨u, hu, he⟩)

/-- When no hash occurs twice in the second argument, `Diff` separates the hashes
as it should. -/
theorem C44_diff_partial (a b : List (Chunk δ)) (hnd : (b.map (·.cry)).Nodup) (k : Cry δ) :
    (k ∈ (diff a b).1 ↔ (∃ c ∈ a, c.cry = k) ∧ ¬ ∃ c ∈ b, c.cry = k) ∧
    (k ∈ (diff a b).2.1 ↔ (∃ c ∈ b, c.cry = k) ∧ ¬ ∃ c ∈ a, c.cry = k) ∧
    (k ∈ (diff a b).2.2 ↔ (∃ c ∈ a, c.cry = k) ∧ ∃ c ∈ b, c.cry = k) := by
  have h0 : ∀ (l s : List (Cry δ)), k ∈ l.foldl (fun s k => s.insert k) s ↔ k ∈ s ∨ k ∈ l := by
    intro l
    induction l with
    | nil => simp
    | cons x xs ih =>
      intro s
      rw [List.foldl_cons, ih, List.mem_insert_iff, List.mem_cons]
      grind
  have ha : k ∈ (a.map Chunk.cry).foldl (fun s k => s.insert k) [] ↔ ∃ c ∈ a, c.cry = k := by
    rw [h0]
    simp
  have hb : k ∈ b.map (·.cry) ↔ ∃ c ∈ b, c.cry = k := by simp
  rw [← ha, ← hb]
  have h := diffLoop_mem k b ((a.map Chunk.cry).foldl (fun s k => s.insert k) []) [] [] hnd
  unfold diff
  refine ⟨h.1, ?_, ?_⟩
  · rw [h.2.1]; simp
  · rw [h.2.2]; simp [and_comm]

example : ((exGoalCs.take 2).map (·.cry)).Nodup ∧
    diff exLocalCs (exGoalCs.take 2) = ([.digest [7]], [.rle0], [.digest [1, 2]]) := by decide

/-- `Diff` misplaces a chunk that occurs twice in its second argument: it is reported
both as shared and as missing from the first. -/
theorem C44_diff_counterexample (d : δ) :
    let c : Chunk δ := ⟨0, 1, .digest d, []⟩
    let c' : Chunk δ := ⟨1, 2, .digest d, []⟩
    diff [c] [c, c'] = ([], [.digest d], [.digest d]) := by
  simp [diff, diffLoop]

example : ZerosMarked exGoal exGoalCs ∧ ZerosMarked exLocal exLocalCs := by
  constructor <;> intro c hc
  · simp [exGoalCs] at hc
    rcases hc with rfl | rfl | rfl | rfl <;> simp [Hashed, content, exGoal, allZero]
  · simp [exLocalCs] at hc
    rcases hc with rfl | rfl <;> simp [Hashed, content, exLocal, allZero]

end Verif.Sync
