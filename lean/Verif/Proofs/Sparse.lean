import Verif.Spec.Sparse
/-
Proofs about sparse files: seeking, and the loops of FindSparseRegions, CopySparseFile and SparseDiff.
-/
namespace Verif.Sparse

theorem seekData_some {f : File} {off d : Nat} (h : seekData f off = some d) :
    off ≤ d ∧ d < f.size ∧ f.data d = true ∧ ∀ i, off ≤ i → i < d → f.data i = false := by
  unfold seekData at h
  rw [List.find?_range'_eq_some] at h
  obtain ⟨h1, h2, h3⟩ := h
  rw [List.mem_range'_1] at h2
  exact ⟨h2.1, by omega, h1, fun i hi hid => by simpa using h3 i hi hid⟩

theorem seekData_none {f : File} {off : Nat} (h : seekData f off = none) :
    ∀ i, off ≤ i → i < f.size → f.data i = false := by
  intro i h1 h2
  unfold seekData at h
  rw [List.find?_eq_none] at h
  have := h i (by rw [List.mem_range'_1]; omega)
  simpa using this

theorem seekHole_none {f : File} {off : Nat} (h : seekHole f off = none) : f.size ≤ off := by
  unfold seekHole at h
  by_cases hs : f.size ≤ off
  · exact hs
  · rw [if_neg hs] at h; exact nomatch h

theorem seekHole_some {f : File} {off h : Nat} (hh : seekHole f off = some h) :
    off < f.size ∧ off ≤ h ∧ h ≤ f.size ∧ (h < f.size → f.data h = false) ∧ ∀ i, off ≤ i → i < h → f.data i = true := by
  unfold seekHole at hh
  by_cases hs : f.size ≤ off
  · rw [if_pos hs] at hh; exact nomatch hh
  · rw [if_neg hs, Option.some.injEq] at hh
    cases hf : (List.range' off (f.size - off)).find? fun i => !f.data i with
    | none =>
      rw [hf] at hh
      have hh : f.size = h := hh
      subst hh
      rw [List.find?_eq_none] at hf
      refine ⟨by omega, by omega, Nat.le_refl _, fun hx => absurd hx (Nat.lt_irrefl _), ?_⟩
      intro i h1 h2
      have := hf i (by rw [List.mem_range'_1]; omega)
      simpa using this
    | some e =>
      rw [hf] at hh
      have hh : e = h := hh
      subst hh
      rw [List.find?_range'_eq_some] at hf
      obtain ⟨h1, h2, h3⟩ := hf
      rw [List.mem_range'_1] at h2
      exact ⟨by omega, h2.1, by omega, fun _ => by simpa using h1, fun i hi hid => by simpa using h3 i hi hid⟩

theorem isSparse_iff (f : File) : isSparse f = true ↔ ∃ i, i < f.size ∧ f.data i = false := by
  unfold isSparse
  cases h : seekHole f 0 with
  | none =>
    have := seekHole_none h
    constructor
    · intro hh; exact nomatch hh
    · rintro ⟨i, hi, _⟩; omega
  | some e =>
    obtain ⟨h1, h2, h3, h4, h5⟩ := seekHole_some h
    simp only [decide_eq_true_eq]
    constructor
    · intro he; exact ⟨e, he, h4 he⟩
    · rintro ⟨i, hi, hd⟩
      rcases Nat.lt_or_ge e f.size with hh | hh
      · exact hh
      · have := h5 i (by omega) (by omega)
        rw [hd] at this; exact nomatch this

theorem isSparse_false (f : File) : isSparse f = false ↔ ∀ i, i < f.size → f.data i = true := by
  rw [← Bool.not_eq_true, isSparse_iff]
  constructor
  · intro h i hi
    cases hd : f.data i with
    | true => rfl
    | false => exact absurd ⟨i, hi, hd⟩ h
  · rintro h ⟨i, hi, hd⟩
    rw [h i hi] at hd; exact nomatch hd

/-! ### FindSparseRegions -/

theorem tiles_head {f : File} {a b : Nat} {r : List Span} (h : Tiles f a r b) :
    ∀ s, r.head? = some s → f.data a = !s.hole := by
  intro s hs
  cases r with
  | nil => exact nomatch hs
  | cons x r =>
    cases hs
    exact (h.2.2.2.2.1 a (Nat.le_refl _) h.2.1).1

theorem tiles_hole {f : File} (hf : f.Ok) {a d b : Nat} {r : List Span} (hd : d ≤ f.size) (hdb : d ≤ b)
    (hh : ∀ i, a ≤ i → i < d → f.data i = false) (had : a ≤ d) (hr : Tiles f d r b)
    (hhead : a < d → ∀ s, r.head? = some s → s.hole = false) : Tiles f a (holeSpan a d ++ r) b := by
  unfold holeSpan
  by_cases h : a < d
  · rw [if_pos h]
    refine ⟨rfl, h, hdb, rfl, ?_, ?_, hr⟩
    · intro i h1 h2
      exact ⟨hh i h1 h2, fun _ => hf i (by dsimp only at h2; omega) (hh i h1 h2)⟩
    · intro s hs; exact hhead h s hs
  · rw [if_neg h]
    have : a = d := by omega
    subst this; exact hr

theorem regionLoop_tiles {f : File} (hf : f.Ok) : ∀ fuel off, off ≤ f.size → f.size - off ≤ fuel →
    ∃ r, regionLoop f fuel off = some r ∧ Tiles f off r f.size := by
  intro fuel
  induction fuel with
  | zero =>
    intro off h1 h2
    refine ⟨[], ?_, ?_⟩
    · unfold regionLoop; rw [if_neg (by omega)]
    · show off = f.size
      omega
  | succ fuel ih =>
    intro off h1 h2
    unfold regionLoop
    by_cases ho : off < f.size
    · rw [if_pos ho]
      cases hd : seekData f off with
      | none =>
        have hn := seekData_none hd
        refine ⟨_, rfl, rfl, ho, Nat.le_refl _, rfl, ?_, (fun s hs => nomatch hs), rfl⟩
        intro i hi hie
        exact ⟨hn i hi hie, fun _ => hf i hie (hn i hi hie)⟩
      | some d =>
        obtain ⟨d1, d2, d3, d4⟩ := seekData_some hd
        simp only [if_neg (Nat.not_le.2 d2)]
        cases hh : seekHole f d with
        | none => have := seekHole_none hh; omega
        | some e =>
          obtain ⟨e1, e2, e3, e4, e5⟩ := seekHole_some hh
          have hde : d < e := by
            rcases Nat.lt_or_ge d e with x | x
            · exact x
            · have : e = d := by omega
              subst this
              rw [e4 e1] at d3; exact nomatch d3
          obtain ⟨r, hr, ht⟩ := ih e e3 (by omega)
          refine ⟨holeSpan off d ++ { beg := d, endx := e } :: r, by dsimp only; rw [hr]; rfl, ?_⟩
          refine tiles_hole hf (by omega) (by omega) d4 d1 ⟨rfl, hde, e3, rfl, ?_, ?_, ht⟩ ?_
          · intro i i1 i2
            exact ⟨e5 i i1 i2, fun x => nomatch x⟩
          · intro s hs
            have := tiles_head ht s hs
            rcases Nat.lt_or_ge e f.size with x | x
            · rw [e4 x] at this
              have h' : s.hole = true := by
                cases hsh : s.hole with
                | true => rfl
                | false => rw [hsh] at this; exact nomatch this
              exact h'
            · cases r with
              | nil => exact nomatch hs
              | cons y r =>
                obtain ⟨q1, q2, q3, _⟩ := ht
                omega
          · intro _ s hs; cases hs; rfl
    · rw [if_neg ho]
      exact ⟨[], rfl, show off = f.size by omega⟩

/-! ### Bytes of a changed file -/

theorem get_of_ge {b : Bytes} {i : Nat} (h : b.length ≤ i) : b[i]? = none := List.getElem?_eq_none h

theorem write_get {f : File} {pos : Nat} {b : Bytes} (hb : b ≠ []) (i : Nat) : (f.write pos b).bytes[i]? =
    if i < pos then (if i < f.size then f.bytes[i]? else some 0)
    else if i < pos + b.length then b[i - pos]? else f.bytes[i]? := by
  unfold File.write File.size
  rw [if_neg hb]
  dsimp only
  have hl : (f.bytes.take pos ++ List.replicate (pos - f.bytes.length) (0 : UInt8)).length = pos := by
    rw [List.length_append, List.length_take, List.length_replicate]; omega
  by_cases h1 : i < pos
  · rw [if_pos h1, List.append_assoc, List.getElem?_append_left (by omega)]
    by_cases h2 : i < f.bytes.length
    · rw [if_pos h2, List.getElem?_append_left (by rw [List.length_take]; omega), List.getElem?_take_of_lt h1]
    · rw [if_neg h2, List.getElem?_append_right (by rw [List.length_take]; omega), List.getElem?_replicate,
        List.length_take, if_pos (by omega)]
  · rw [if_neg h1, List.append_assoc, List.getElem?_append_right (by omega), hl]
    by_cases h2 : i < pos + b.length
    · rw [if_pos h2, List.getElem?_append_left (by omega)]
    · rw [if_neg h2, List.getElem?_append_right (by omega), List.getElem?_drop]
      congr 1
      omega

theorem write_data {f : File} {pos : Nat} {b : Bytes} (hb : b ≠ []) (i : Nat) : (f.write pos b).data i =
    (f.data i || decide (pos ≤ i ∧ i < pos + b.length)) := by
  unfold File.write; rw [if_neg hb]

theorem write_size {f : File} {pos : Nat} {b : Bytes} (hb : b ≠ []) :
    (f.write pos b).size = max f.size (pos + b.length) := by
  unfold File.write File.size
  rw [if_neg hb]
  simp only [List.length_append, List.length_take, List.length_replicate, List.length_drop]
  omega

theorem punch_get {f : File} {off len : Nat} (i : Nat) : (f.punch off len).bytes[i]? =
    if off ≤ i ∧ i < off + len then f.bytes[i]?.map (fun _ => 0) else f.bytes[i]? := by
  unfold File.punch
  dsimp only
  rw [List.getElem?_mapIdx]
  by_cases h : off ≤ i ∧ i < off + len
  · simp [h]
  · simp [h]

theorem punch_size {f : File} {off len : Nat} : (f.punch off len).size = f.size := by
  unfold File.punch File.size
  simp

theorem slice_get {b : Bytes} {p e i : Nat} : ((b.take e).drop p)[i]? = if p + i < e then b[p + i]? else none := by
  rw [List.getElem?_drop]
  by_cases h : p + i < e
  · rw [if_pos h, List.getElem?_take_of_lt h]
  · rw [if_neg h, List.getElem?_take_eq_none (by omega)]

theorem slice_length {b : Bytes} {p e : Nat} (he : e ≤ b.length) : ((b.take e).drop p).length = e - p := by
  rw [List.length_drop, List.length_take]; omega

/-! ### CopySparseFile -/

/-- The copy up to `off`: the same bytes and data before it, nothing after it, and the size is the final one or
`off`. -/
structure Copied (src dst : File) (off : Nat) : Prop where
  size : dst.size = src.size ∨ dst.size = off
  before : ∀ i, i < off → dst.bytes[i]? = src.bytes[i]? ∧ dst.data i = src.data i
  after : ∀ i, off ≤ i → dst.data i = false ∧ (i < dst.size → dst.bytes[i]? = some 0)

theorem Copied.punch {src dst : File} {off len : Nat} (h : Copied src dst off) :
    Copied src (dst.punch off len) off where
  size := by rw [punch_size]; exact h.size
  before i hi := by
    rw [punch_get, if_neg (by omega)]
    refine ⟨(h.before i hi).1, ?_⟩
    show (dst.data i && !decide (off ≤ i ∧ i < off + len)) = _
    rw [decide_eq_false (by omega), (h.before i hi).2]; simp
  after i hi := by
    refine ⟨?_, ?_⟩
    · show (dst.data i && _) = false
      rw [(h.after i hi).1]; rfl
    · intro hs
      rw [punch_size] at hs
      rw [punch_get, (h.after i hi).2 hs]
      split <;> rfl

theorem Copied.range {src dst : File} (hf : src.Ok) {off d e : Nat} (h : Copied src dst off) (hod : off ≤ d) (hde : d < e)
    (he : e ≤ src.size) (hh : ∀ i, off ≤ i → i < d → src.data i = false)
    (hdat : ∀ i, d ≤ i → i < e → src.data i = true) : Copied src (copyRange src dst d e) e := by
  have hl : ((src.bytes.take e).drop d).length = e - d := slice_length he
  have hb : (src.bytes.take e).drop d ≠ [] := by
    intro hx; rw [hx] at hl; simp only [List.length_nil] at hl; omega
  refine ⟨?_, ?_, ?_⟩
  · unfold copyRange
    rw [write_size hb, hl]
    have := h.size
    omega
  · intro i hi
    unfold copyRange
    rw [write_get hb, write_data hb, hl]
    by_cases h1 : i < off
    · rw [if_pos (by omega)]
      obtain ⟨b1, b2⟩ := h.before i h1
      constructor
      · split
        · exact b1
        · rename_i hns
          exfalso
          have hlt : i < src.size := by omega
          rw [get_of_ge (Nat.not_lt.1 hns)] at b1
          have := List.getElem?_eq_none_iff.1 b1.symm
          exact absurd hlt (Nat.not_lt.2 this)
      · rw [b2, decide_eq_false (by omega)]; simp
    · obtain ⟨a1, a2⟩ := h.after i (by omega)
      by_cases h2 : i < d
      · rw [if_pos h2, hh i (by omega) h2, a1]
        refine ⟨?_, by rw [decide_eq_false (by omega)]; rfl⟩
        rw [hf i (by omega) (hh i (by omega) h2)]
        split
        · rename_i hx; exact a2 hx
        · rfl
      · rw [if_neg h2, if_pos (by omega), slice_get, if_pos (by omega), hdat i (by omega) (by omega),
          decide_eq_true (by omega)]
        refine ⟨by congr 1; omega, by simp⟩
  · intro i hi
    unfold copyRange
    obtain ⟨a1, a2⟩ := h.after i (by omega)
    rw [write_data hb, write_get hb, write_size hb, hl, a1]
    refine ⟨by rw [decide_eq_false (by omega)]; rfl, ?_⟩
    intro hs
    rw [if_neg (by omega), if_neg (by omega)]
    exact a2 (by omega)

/-- How the loop ends: everything is copied up to `p`, and what follows is a hole which the copy has only if its
size had been set. -/
theorem copyLoop_copied {src : File} (hf : src.Ok) (pre : Bool) : ∀ fuel off dst, off ≤ src.size → src.size - off ≤ fuel →
    Copied src dst off → (pre = true → dst.size = off) → (pre = false → dst.size = src.size) →
    ∃ dst' p, copyLoop src pre fuel dst off = some dst' ∧ off ≤ p ∧ p ≤ src.size ∧ Copied src dst' p ∧
      (pre = true → dst'.size = p) ∧ (pre = false → dst'.size = src.size) ∧
      (∀ i, p ≤ i → i < src.size → src.data i = false) ∧ (p = off ∨ src.data (p - 1) = true) := by
  intro fuel
  induction fuel with
  | zero =>
    intro off dst h1 h2 hc hp hq
    refine ⟨dst, off, ?_, Nat.le_refl _, h1, hc, hp, hq, fun i hi hi' => by omega, Or.inl rfl⟩
    unfold copyLoop; rw [if_neg (by omega)]
  | succ fuel ih =>
    intro off dst h1 h2 hc hp hq
    unfold copyLoop
    by_cases ho : off < src.size
    · rw [if_pos ho]
      cases hd : seekData src off with
      | none =>
        have hn := seekData_none hd
        refine ⟨_, off, rfl, Nat.le_refl _, h1, ?_, ?_, ?_, hn, Or.inl rfl⟩
        · cases pre with
          | true => exact hc
          | false => exact hc.punch
        · intro hpre; subst hpre; exact hp rfl
        · intro hpre; subst hpre
          show (dst.punch _ _).size = _
          rw [punch_size]; exact hq rfl
      | some d =>
        obtain ⟨d1, d2, d3, d4⟩ := seekData_some hd
        simp only [if_neg (Nat.not_le.2 d2)]
        cases hh : seekHole src d with
        | none => have := seekHole_none hh; omega
        | some e =>
          obtain ⟨e1, e2, e3, e4, e5⟩ := seekHole_some hh
          have hde : d < e := by
            rcases Nat.lt_or_ge d e with x | x
            · exact x
            · have : e = d := by omega
              subst this
              rw [e4 e1] at d3; exact nomatch d3
          have key : ∀ x : File, Copied src x off → x.size = dst.size →
              ∃ dst' p, copyLoop src pre fuel (copyRange src x d e) e = some dst' ∧ off ≤ p ∧ p ≤ src.size ∧
                Copied src dst' p ∧
                (pre = true → dst'.size = p) ∧ (pre = false → dst'.size = src.size) ∧
                (∀ i, p ≤ i → i < src.size → src.data i = false) ∧ (p = off ∨ src.data (p - 1) = true) := by
            intro x hx hxs
            have hl : ((src.bytes.take e).drop d).length = e - d := slice_length e3
            have hb : (src.bytes.take e).drop d ≠ [] := by
              intro hx; rw [hx] at hl; simp only [List.length_nil] at hl; omega
            have hsz : (copyRange src x d e).size = max x.size e := by
              unfold copyRange; rw [write_size hb, hl]; omega
            obtain ⟨dst', p, q1, q2, q3, q4, q5, q6, q7, q8⟩ := ih e (copyRange src x d e) e3 (by omega)
              (hx.range hf d1 hde e3 d4 e5)
              (fun hpre => by rw [hsz, hxs, hp hpre]; omega)
              (fun hpre => by rw [hsz, hxs, hq hpre]; omega)
            refine ⟨dst', p, q1, by omega, q3, q4, q5, q6, q7, ?_⟩
            rcases q8 with q8 | q8
            · right; subst q8; exact e5 (p - 1) (by omega) (by omega)
            · exact Or.inr q8
          by_cases hod : off < d
          · simp only [if_pos hod]
            exact key _ hc.punch punch_size
          · simp only [if_neg hod]
            exact key _ hc rfl
    · rw [if_neg ho]
      exact ⟨dst, off, rfl, Nat.le_refl _, h1, hc, hp, hq, fun i hi hi' => by omega, Or.inl rfl⟩

/-- A complete copy is the same file. -/
theorem Copied.same {src dst : File} (hf : src.Ok) {p : Nat} (h : Copied src dst p) (hp : p ≤ src.size)
    (hs : dst.size = src.size) (hh : ∀ i, p ≤ i → i < src.size → src.data i = false) : Same src dst := by
  have hbytes : ∀ i : Nat, src.bytes[i]? = dst.bytes[i]? := by
    intro i
    rcases Nat.lt_or_ge i p with h1 | h1
    · exact (h.before i h1).1.symm
    · rcases Nat.lt_or_ge i src.size with h2 | h2
      · rw [hf i h2 (hh i h1 h2), (h.after i h1).2 (by omega)]
      · rw [get_of_ge h2, get_of_ge (by rw [← hs] at h2; exact h2)]
  refine ⟨List.ext_getElem? hbytes, ?_⟩
  intro i hi
  rcases Nat.lt_or_ge i p with h1 | h1
  · exact (h.before i h1).2.symm
  · rw [hh i h1 hi, (h.after i h1).1]

theorem copied_empty (src : File) : Copied src {} 0 :=
  ⟨Or.inr rfl, fun i hi => absurd hi (Nat.not_lt_zero _), fun i _ => ⟨rfl, fun hs => absurd hs (Nat.not_lt_zero _)⟩⟩

theorem copied_truncate (src : File) : Copied src (({} : File).truncate src.size) 0 := by
  have hs : (({} : File).truncate src.size).size = src.size := by
    simp [File.truncate, File.size]
  refine ⟨Or.inl hs, fun i hi => absurd hi (Nat.not_lt_zero _), fun i _ => ⟨rfl, fun h => ?_⟩⟩
  rw [hs] at h
  simp only [File.truncate, File.size, List.take_nil, List.length_nil, Nat.sub_zero, List.nil_append]
  rw [List.getElem?_replicate]; exact if_pos h

/-! ### SparseDiff -/

theorem find_congr {p q : Nat → Bool} {l : List Nat} (h : ∀ x ∈ l, p x = q x) : l.find? p = l.find? q := by
  induction l with
  | nil => rfl
  | cons x l ih =>
    rw [List.find?_cons, List.find?_cons, h x (List.mem_cons_self ..), ih fun y hy => h y (List.mem_cons_of_mem _ hy)]

theorem seek_congr {a b : File} (hs : a.size = b.size) (h : ∀ i, i < a.size → a.data i = b.data i) (off : Nat) :
    seekData a off = seekData b off ∧ seekHole a off = seekHole b off := by
  have h' : ∀ x ∈ List.range' off (b.size - off), a.data x = b.data x := by
    intro x hx
    rw [List.mem_range'_1] at hx
    exact h x (by omega)
  unfold seekData seekHole
  rw [hs, find_congr h', find_congr (p := fun i => !a.data i) (q := fun i => !b.data i) fun x hx => by rw [h' x hx]]
  exact ⟨rfl, rfl⟩

theorem slice_eq {a b : Bytes} {d e : Nat} (h : (a.take e).drop d = (b.take e).drop d) :
    ∀ i, d ≤ i → i < e → a[i]? = b[i]? := by
  intro i h1 h2
  have := congrArg (fun l : Bytes => l[i - d]?) h
  rw [slice_get, slice_get, if_pos (by omega), if_pos (by omega)] at this
  rwa [show d + (i - d) = i by omega] at this

theorem diffLoop_spec {a b : File} (ha : a.Ok) (hb : b.Ok) (hs : a.size = b.size) : ∀ fuel off, off ≤ a.size →
    a.size - off ≤ fuel →
    ∃ r, diffLoop a b fuel off = some r ∧
      (r = true ↔ ∀ i, off ≤ i → i < a.size → a.bytes[i]? = b.bytes[i]? ∧ a.data i = b.data i) := by
  intro fuel
  induction fuel with
  | zero =>
    intro off h1 h2
    refine ⟨true, ?_, ?_⟩
    · unfold diffLoop; rw [if_neg (by omega)]
    · exact ⟨fun _ i hi hi' => by omega, fun _ => rfl⟩
  | succ fuel ih =>
    intro off h1 h2
    unfold diffLoop
    by_cases ho : off < a.size
    · rw [if_pos ho]
      have hno : ∀ i, off ≤ i → i < a.size → a.data i ≠ b.data i →
          ∃ r, some false = some r ∧
          (r = true ↔ ∀ i, off ≤ i → i < a.size → a.bytes[i]? = b.bytes[i]? ∧ a.data i = b.data i) := by
        intro i hi hi' hne
        exact ⟨false, rfl, (fun hh => nomatch hh), fun hh => absurd (hh i hi hi').2 hne⟩
      cases hd : seekData a off with
      | none =>
        have hn := seekData_none hd
        cases hd' : seekData b off with
        | none =>
          have hn' := seekData_none hd'
          refine ⟨true, rfl, fun _ i hi hi' => ?_, fun _ => rfl⟩
          have e1 := hn i hi hi'
          have e2 := hn' i hi (by omega)
          exact ⟨by rw [ha i hi' e1, hb i (by omega) e2], by rw [e1, e2]⟩
        | some d' =>
          obtain ⟨d1, d2, d3, _⟩ := seekData_some hd'
          exact hno d' d1 (by omega) (by rw [hn d' d1 (by omega), d3]; exact fun x => nomatch x)
      | some d =>
        obtain ⟨d1, d2, d3, d4⟩ := seekData_some hd
        cases hd' : seekData b off with
        | none =>
          have hn' := seekData_none hd'
          exact hno d d1 d2 (by rw [hn' d d1 (by omega), d3]; exact fun x => nomatch x)
        | some d' =>
          obtain ⟨f1, f2, f3, f4⟩ := seekData_some hd'
          dsimp only
          by_cases hne : d ≠ d'
          · rw [if_pos hne]
            rcases Nat.lt_or_ge d d' with x | x
            · exact hno d d1 d2 (by rw [d3, f4 d d1 x]; exact fun x => nomatch x)
            · exact hno d' f1 (by omega) (by rw [f3, d4 d' f1 (by omega)]; exact fun x => nomatch x)
          · rw [if_neg hne, if_neg (Nat.not_le.2 d2)]
            have hdd : d = d' := Classical.not_not.1 hne
            subst hdd
            cases hh : seekHole a d with
            | none => have := seekHole_none hh; omega
            | some e =>
              obtain ⟨e1, e2, e3, e4, e5⟩ := seekHole_some hh
              cases hh' : seekHole b d with
              | none => have := seekHole_none hh'; omega
              | some e' =>
                obtain ⟨g1, g2, g3, g4, g5⟩ := seekHole_some hh'
                dsimp only
                have hde : d < e := by
                  rcases Nat.lt_or_ge d e with x | x
                  · exact x
                  · have : e = d := by omega
                    subst this
                    rw [e4 e1] at d3; exact nomatch d3
                by_cases hee : e ≠ e'
                · rw [if_pos hee]
                  rcases Nat.lt_or_ge e e' with x | x
                  · exact hno e (by omega) (by omega) (by rw [e4 (by omega), g5 e e2 x]; exact fun x => nomatch x)
                  · exact hno e' (by omega) (by omega) (by
                      rw [g4 (by omega), e5 e' g2 (by omega)]; exact fun x => nomatch x)
                · rw [if_neg hee]
                  have : e = e' := Classical.not_not.1 hee
                  subst this
                  by_cases hsl : (a.bytes.take e).drop d ≠ (b.bytes.take e).drop d
                  · rw [if_pos hsl]
                    refine ⟨false, rfl, (fun hh => nomatch hh), fun hh => absurd ?_ hsl⟩
                    apply List.ext_getElem?
                    intro i
                    rw [slice_get, slice_get]
                    split
                    · exact (hh (d + i) (by omega) (by omega)).1
                    · rfl
                  · rw [if_neg hsl]
                    have hsl := slice_eq (Classical.not_not.1 hsl)
                    obtain ⟨r, hr, hiff⟩ := ih e e3 (by omega)
                    refine ⟨r, hr, ?_⟩
                    rw [hiff]
                    constructor
                    · intro hall i hi hi'
                      rcases Nat.lt_or_ge i d with x | x
                      · have x1 := d4 i hi x
                        have x2 := f4 i hi x
                        exact ⟨by rw [ha i hi' x1, hb i (by omega) x2], by rw [x1, x2]⟩
                      · rcases Nat.lt_or_ge i e with y | y
                        · exact ⟨hsl i x y, by rw [e5 i x y, g5 i x y]⟩
                        · exact hall i y hi'
                    · intro hall i hi hi'
                      exact hall i (by omega) hi'
    · rw [if_neg ho]
      exact ⟨true, rfl, fun _ i hi hi' => by omega, fun _ => rfl⟩

end Verif.Sparse
