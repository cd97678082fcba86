import Verif.Proofs.Sparse
import Verif.Proofs.CDCSpans
/-
The regions of a file, fed to the chunker.
-/
namespace Verif.Sparse

theorem slice_append {b : Bytes} {p q r : Nat} (h1 : p ≤ q) (h2 : q ≤ r) (_hr : r ≤ b.length) :
    (b.take q).drop p ++ (b.take r).drop q = (b.take r).drop p := by
  have : b.take q = (b.take r).take q := by rw [List.take_take]; congr 1; omega
  rw [this]
  generalize b.take r = c
  rw [show c.drop q = (c.drop p).drop (q - p) by rw [List.drop_drop]; congr 1; omega, List.drop_take,
    List.take_append_drop]

theorem toCDC_bytes {f : File} {s : Span} (h : s.pre = false) : (toCDC f s).bytes = (f.bytes.take s.endx).drop s.beg := by
  unfold toCDC
  cases s.hole <;> simp [h, CDC.Span.bytes]

theorem allZero_iff {b : Bytes} : CDC.allZero b = true ↔ ∀ i, i < b.length → b[i]? = some 0 := by
  unfold CDC.allZero
  rw [List.all_eq_true]
  constructor
  · intro h i hi
    rw [List.getElem?_eq_getElem hi]
    have := h b[i] (List.getElem_mem hi)
    simpa using this
  · intro h x hx
    obtain ⟨i, hi, rfl⟩ := List.mem_iff_getElem.1 hx
    have := h i hi
    rw [List.getElem?_eq_getElem hi] at this
    simpa using this

theorem tiles_chunks {f : File} : ∀ (r : List Span) (a b : Nat), Tiles f a r b → b ≤ f.size →
    ((r.map (toCDC f)).map CDC.Span.bytes).flatten = (f.bytes.take b).drop a ∧ a ≤ b ∧
      ∀ s ∈ r.map (toCDC f), s.Ok ∧ ∀ x, s ≠ .unwrit x := by
  intro r
  induction r with
  | nil =>
    intro a b h hb
    have h : a = b := h
    subst h
    refine ⟨?_, Nat.le_refl _, fun s hs => nomatch hs⟩
    simp only [List.map_nil, List.flatten_nil]
    rw [List.drop_eq_nil_of_le (by rw [List.length_take]; omega)]
  | cons s r ih =>
    intro a b h hb
    obtain ⟨h1, h2, h3, h4, h5, _, h7⟩ := h
    obtain ⟨i1, i2, i3⟩ := ih _ _ h7 hb
    refine ⟨?_, by omega, ?_⟩
    · simp only [List.map_cons, List.flatten_cons]
      rw [i1, toCDC_bytes h4, h1, slice_append (by omega) i2 hb]
    · intro t ht
      rw [List.map_cons, List.mem_cons] at ht
      rcases ht with rfl | ht
      · have hl : ((f.bytes.take s.endx).drop s.beg).length = s.endx - s.beg := slice_length (Nat.le_trans h3 hb)
        have hne : (f.bytes.take s.endx).drop s.beg ≠ [] := by
          intro hx; rw [hx] at hl; simp only [List.length_nil] at hl; omega
        unfold toCDC
        cases hh : s.hole with
        | true =>
          refine ⟨⟨hne, ?_⟩, fun x hx => by simp at hx⟩
          rw [allZero_iff, hl]
          intro i hi
          rw [slice_get, if_pos (by omega)]
          exact (h5 (s.beg + i) (by omega) (by omega)).2 hh
        | false =>
          simp only [h4, if_false, Bool.false_eq_true]
          exact ⟨hne, fun x hx => by simp at hx⟩
      · exact i3 t ht

open CDC in
theorem summarize_tail {δ : Type} (hash : Bytes → δ) (keep : Bool) (file z : Bytes) (ps : List Piece)
    (hnu : ∀ p ∈ ps, p.unwrit = false) : ∀ off, off + ((ps.map Piece.bytes).flatten).length = file.length →
    summarize hash (file ++ z) keep off (cutsOf off ps ++ [⟨file.length + z.length, false, true⟩]) =
      summarize hash file keep off (cutsOf off ps) ++
        (if z.length < 4096 then [] else [⟨file.length, file.length + z.length, .unwrit, []⟩]) := by
  induction ps with
  | nil =>
    intro off h
    simp only [List.map_nil, List.flatten_nil, List.length_nil, Nat.add_zero] at h
    subst h
    simp only [cutsOf, List.nil_append, summarize, Nat.add_sub_cancel_left, Bool.false_eq_true, if_false, if_true,
      and_true]
  | cons p ps ih =>
    intro off h
    simp only [List.map_cons, List.flatten_cons, List.length_append] at h
    have ih := ih (fun q hq => hnu q (List.mem_cons_of_mem _ hq)) (off + p.bytes.length) (by omega)
    have hu := hnu p (List.mem_cons_self ..)
    have ht : (file ++ z).take (off + p.bytes.length) = file.take (off + p.bytes.length) :=
      List.take_append_of_le_length (by omega)
    simp only [cutsOf, List.cons_append, summarize, hu, ht]
    by_cases hz : p.zero = true
    · simp only [hz, if_true, List.cons_append]
      rw [ih]
    · simp only [hz, if_false, Bool.false_eq_true, List.cons_append]
      rw [ih]

open CDC in
theorem summarizeFile_tail {δ : Type} (hash : Bytes → δ) (keep : Bool) {next : Bytes → Nat} {m bufsz : Nat}
    (hp : Progress next) (hl : LocalTo m next) (hst : Stable next) (hmax : ∀ d : Bytes, d ≠ [] → next d ≤ m)
    (hm : m ≤ bufsz) (hb : 0 < bufsz) (b z : Bytes) :
    ∃ cs, summarizeFile hash next bufsz keep ((if b = [] then [] else [CDC.Span.data b]) ++ [.unwrit z]) =
        some (cs ++ if z.length < 4096 then [] else [⟨b.length, b.length + z.length, .unwrit, []⟩]) ∧
      Describes hash 0 b cs := by
  by_cases hbn : b = []
  · subst hbn
    refine ⟨[], ?_, rfl⟩
    simp [summarizeFile, cutSpans, CDC.Span.bytes, summarize]
  · rw [if_neg hbn]
    have h0 : Cov [] [] := ⟨[], rfl, rfl, by simp⟩
    have hok : ∀ s ∈ [CDC.Span.data b], s.Ok := by
      intro s hs; rw [List.mem_singleton] at hs; subst hs; exact hbn
    obtain ⟨cuts, h1, ps, h2, h3, h4⟩ := cutSpans_cov hp hl hst hmax hm hb [.data b] hok h0
    have h5 : ∀ c ∈ cuts, c.unwrit = false :=
      cutSpans_written hp hl hst hmax hm hb [.data b] (by simp) [] 0 (by simp) cuts h1
    have hps : ∀ p ∈ ps, p.unwrit = false := fun p hp => cutsOf_written ps 0 (by rw [← h2]; exact h5) p hp
    simp only [List.map_cons, List.map_nil, List.flatten_cons, List.flatten_nil, List.append_nil, List.nil_append,
      CDC.Span.bytes] at h3
    have hc : cutSpans next bufsz [] 0 ([CDC.Span.data b] ++ [.unwrit z]) =
        some (cuts ++ [⟨b.length + z.length, false, true⟩]) := by
      have h1 : cutSpans next bufsz [] 0 [CDC.Span.data b] = some cuts := h1
      simp only [cutSpans] at h1
      simp only [List.cons_append, List.nil_append, cutSpans]
      revert h1
      cases readSpan next bufsz [] 0 b with
      | none => intro h1; exact nomatch h1
      | some acc =>
        intro h1
        simp only [Option.some.injEq] at h1
        subst h1
        simp
    refine ⟨summarize hash b keep 0 (cutsOf 0 ps), ?_, ?_⟩
    · simp only [summarizeFile]
      rw [hc, Option.map_some]
      simp only [List.cons_append, List.nil_append, List.map_cons, List.map_nil, List.flatten_cons, List.flatten_nil,
        List.append_nil, CDC.Span.bytes]
      rw [h2, summarize_tail hash keep b z ps hps 0 (by rw [h3]; omega)]
    · have := summarize_describes hash keep ps h4 hps [] b (by rw [h3]; rfl)
      rw [h3] at this
      exact this

end Verif.Sparse
