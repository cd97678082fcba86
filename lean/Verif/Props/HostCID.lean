import Verif.Model.HostCID

/-! C139: a host keeps its identifier. -/

namespace Verif.HostCID

/-- A random identifier: 44 characters of base64 (`hdr.go:496-501`), none of them
white space. -/
def Good (cid : List Char) : Prop := cid.length = 44 ∧ ∀ c ∈ cid, isSpace c = false

theorem dropWhile_none {l : List Char} (h : ∀ c ∈ l, isSpace c = false) : l.dropWhile isSpace = l := by
  cases l with
  | nil => rfl
  | cons c l => rw [List.dropWhile_cons, if_neg (by rw [h c (by simp)]; simp)]

theorem pre_good (cid : List Char) (h : Good cid) : ∀ c ∈ pre ++ cid, isSpace c = false := by
  intro c hc
  rw [List.mem_append] at hc
  rcases hc with hc | hc
  · have : ∀ c ∈ pre, isSpace c = false := by decide
    exact this c hc
  · exact h.2 c hc

theorem trim_line (cid : List Char) (h : Good cid) : trim (line cid) = pre ++ cid := by
  have hg := pre_good cid h
  have e : line cid = (pre ++ cid) ++ ['\n'] := rfl
  have h1 : (line cid).dropWhile isSpace = (pre ++ cid) ++ ['\n'] := by
    rw [e]
    rfl
  unfold trim
  rw [h1, List.reverse_append]
  show (List.dropWhile isSpace ('\n' :: (pre ++ cid).reverse)).reverse = _
  rw [List.dropWhile_cons, if_pos (by decide),
    dropWhile_none (fun c hc => hg c (List.mem_reverse.1 hc)), List.reverse_reverse]

theorem line_length (cid : List Char) (h : Good cid) : (line cid).length = 53 := by
  unfold line
  rw [List.length_append, List.length_append, h.1]
  rfl

theorem start_none (cid : List Char) :
    start cid none = (some (line cid), .done (.id (line cid))) := by
  show (some (line cid ++ ([] : List Char).drop (line cid).length), Pc.done (.id (line cid))) = _
  rw [List.drop_nil, List.append_nil]

theorem start_some (c cid : List Char) (h : Good cid) :
    start c (some (line cid)) = (some (line cid), .done (.id (pre ++ cid))) := by
  have : step c (some (line cid)) .check = (some (line cid), .done (.id (pre ++ cid))) := by
    unfold step
    simp only
    rw [if_neg (by rw [line_length cid h]; decide), trim_line cid h]
  unfold start
  rw [this]
  rfl

/-! ## C139 -/

/-- Full statement (false, see the counterexamples): all starts, one after the
other, on a host without the file end with the same identifier. -/
def C139_full : Prop :=
  ∀ (cids : List (List Char)), (∀ c ∈ cids, Good c) →
    ∃ id, ∀ p ∈ (starts cids none).2, p = .done (.id id)

/-- Once one start has come to its end, all later ones have the same identifier,
and it is the one drawn by the first. What is missing: the first start itself,
and starts that are interrupted or overlap. -/
theorem C139_later_starts_partial (cid : List Char) (h : Good cid) (cids : List (List Char)) :
    (starts (cid :: cids) none).1 = some (line cid) ∧
    ∀ p ∈ (starts (cid :: cids) none).2.tail, p = .done (.id (pre ++ cid)) := by
  have key : ∀ cids : List (List Char), (starts cids (some (line cid))).1 = some (line cid) ∧
      ∀ p ∈ (starts cids (some (line cid))).2, p = .done (.id (pre ++ cid)) := by
    intro cids
    induction cids with
    | nil => exact ⟨rfl, fun _ h => (nomatch h)⟩
    | cons c cs ih =>
      unfold starts
      simp only [start_some c cid h]
      refine ⟨ih.1, ?_⟩
      intro p hp
      rcases List.mem_cons.1 hp with rfl | hp
      · rfl
      · exact ih.2 p hp
  rw [starts]
  simp only [start_none cid]
  exact key cids

/-- A random identifier for the examples. -/
def sampleCid : List Char := List.replicate 44 'x'

example : Good sampleCid := ⟨by decide, by decide⟩

/-- The process that makes the file has another identifier than all later ones:
it keeps the newline. -/
theorem C139_first_start_counterexample (cid c : List Char) (h : Good cid) :
    ∃ a b, (starts [cid, c] none).2 = [.done (.id a), .done (.id b)] ∧ a ≠ b ∧ a = b ++ ['\n'] := by
  refine ⟨line cid, pre ++ cid, ?_, ?_, rfl⟩
  · unfold starts
    simp only [start_none cid]
    unfold starts
    simp only [start_some c cid h]
    rfl
  · intro e
    have := congrArg List.length e
    rw [line_length cid h, List.length_append, h.1] at this
    exact absurd this (by decide)

/-- So the full statement is false. -/
theorem C139_counterexample : ¬ C139_full := by
  intro h
  obtain ⟨a, b, e, hne, _⟩ := C139_first_start_counterexample sampleCid sampleCid ⟨by decide, by decide⟩
  obtain ⟨id, hid⟩ := h [sampleCid, sampleCid] (by
    intro c hc
    simp only [List.mem_cons, List.not_mem_nil, or_false, or_self] at hc
    subst hc
    exact ⟨by decide, by decide⟩)
  rw [e] at hid
  have h1 := hid _ (List.mem_cons_self)
  have h2 := hid (.done (.id b)) (by simp)
  cases h1
  cases h2
  exact hne rfl

/-- A first start that is interrupted between the creation of the file and the
write: every later start panics, and the file stays as it is. -/
theorem C139_crash_counterexample (cid : List Char) (cids : List (List Char)) :
    (step cid none .check).2 = .create ∧
    starts cids (step cid none .create).1 = (some [], cids.map (fun _ => .done .panic)) := by
  refine ⟨rfl, ?_⟩
  show starts cids (some []) = _
  induction cids with
  | nil => rfl
  | cons c cs ih =>
    rw [starts]
    have : start c (some []) = (some [], .done .panic) := rfl
    simp only [this, ih]
    rfl

/-- Two first starts at the same time, both past the test for the file before
either has made it: both come to their end, with different identifiers, and the
first one's is nowhere in the file. Later processes have that of the second
(less the newline). -/
theorem C139_race_counterexample (c1 c2 c : List Char) (hne : c1 ≠ c2) (h2 : Good c2) :
    both c1 c2 [true, false, true, true, false, false] (none, .check, .check) =
      (some (line c2), .done (.id (line c1)), .done (.id (line c2))) ∧
    line c1 ≠ line c2 ∧
    (start c (some (line c2))).2 = .done (.id (pre ++ c2)) := by
  refine ⟨?_, ?_, ?_⟩
  · show (some (line c2 ++ ([] : List Char).drop (line c2).length), Pc.done (.id (line c1)),
      Pc.done (.id (line c2))) = _
    rw [List.drop_nil, List.append_nil]
  · intro e
    unfold line at e
    rw [List.append_assoc, List.append_assoc] at e
    exact hne (List.append_cancel_right (List.append_cancel_left e))
  · rw [start_some c c2 h2]

example : sampleCid ≠ List.replicate 44 'y' ∧ Good (List.replicate 44 'y') :=
  ⟨by decide, by decide, by decide⟩

/-- A process that starts while the first one is between the creation of the file
and the write panics, though nothing has failed. -/
theorem C139_early_reader_counterexample (c1 c2 : List Char) :
    (both c1 c2 [true, true, false] (none, .check, .check)).2.2 = .done .panic := rfl

end Verif.HostCID
