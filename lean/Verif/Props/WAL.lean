import Verif.Proofs.WAL
/- C13-C16: the write-ahead log. -/
namespace Verif.WAL

open MsgBin (Bytes frame nextframe)
open Spec

/-! ## A small codec, for the examples -/

def encNat (n : Nat) : Bytes := List.replicate n 1 ++ [0]

def decNat : Bytes → Option (Nat × Bytes)
  | [] => none
  | b :: bs => if b = 0 then some (0, bs) else (decNat bs).map fun p => (p.1 + 1, p.2)

def encInt : Int → Bytes
  | .ofNat n => 0 :: encNat n
  | .negSucc n => 1 :: encNat n

def decInt : Bytes → Option (Int × Bytes)
  | [] => none
  | b :: bs => (decNat bs).map fun p => (if b = 0 then .ofNat p.1 else .negSucc p.1, p.2)

def sampleH (b : Bytes) : Bytes := [b.foldl (fun a x => a * 31 + x + 7) 0]

/-- Unary numbers; the hash is one byte. -/
def sampleCodec : Codec where
  ser e := encNat e.index ++ encInt e.term ++ encNat e.prevIndex ++ encInt e.prevTerm ++ e.body
  deser b :=
    (decNat b).bind fun (i, b) => (decInt b).bind fun (t, b) => (decNat b).bind fun (pi, b) =>
      (decInt b).map fun (pt, b) => ⟨i, t, pi, pt, b⟩
  serSum p := encNat p.1.length ++ p.1 ++ p.2
  deserSum b := (decNat b).map fun (n, r) => (r.take n, r.drop n)
  H := sampleH

theorem dec_encNat (n : Nat) (b : Bytes) : decNat (encNat n ++ b) = some (n, b) := by
  induction n with
  | zero => simp [encNat, decNat]
  | succ n ih =>
    have : encNat (n + 1) ++ b = 1 :: (encNat n ++ b) := by simp [encNat, List.replicate_succ]
    rw [this, decNat, if_neg (by decide), ih]; rfl

theorem dec_encInt (t : Int) (b : Bytes) : decInt (encInt t ++ b) = some (t, b) := by
  cases t <;> simp [encInt, decInt, dec_encNat]

theorem encNat_length (n : Nat) : (encNat n).length = n + 1 := by simp [encNat]

theorem sampleCodec_ok : sampleCodec.OK where
  ent e := by
    simp only [sampleCodec, List.append_assoc, dec_encNat, dec_encInt, Option.bind_some, Option.map_some]
  entLen e := by
    have h1 : 1 ≤ (encInt e.term).length := by cases e.term <;> simp [encInt]
    simp only [sampleCodec, List.length_append, encNat_length]; omega
  sum a b := by
    simp only [sampleCodec, List.append_assoc, dec_encNat, Option.map_some]
    simp [sampleH]
  sumLen a b := by simp [sampleCodec, sampleH, encNat]

/-- An entry as a caller makes it. -/
def ent (i : Nat) (t : Int) (b : Bytes) : Ent := ⟨i, t, 0, 0, b⟩

/-! ## C13 -/

/-- No call of `ops` discards applied entries from index A on: the compaction points given are at
most A. -/
def compactsBelow (A : Nat) : Op → Prop
  | .overwrite _ _ _ applied => applied ≤ A
  | .compact keep => keep ≤ A
  | _ => True

theorem base_step (k : Codec) (ok : k.OK) (w w' : Wal) (p : Plain) (o : Op) (A : Nat)
    (ho : o ≠ .reopen) (hA : compactsBelow A o)
    (h : Mem k w) (hb : w.idx.base = p.start ∨ w.idx.base < A) (hs : step k w o = some w') :
    w'.idx.base = (p.step w.idx.base o).start ∨ w'.idx.base < A := by
  cases o with
  | append e =>
    obtain ⟨r, a1, a2, a3, a4, a5, _⟩ := saveEntry_spec k w w' e h hs
    rw [a5]; exact hb
  | overwrite keep es commit applied =>
    have hst : (p.step w.idx.base (.overwrite keep es commit applied)).start = p.start := by
      simp only [Plain.step, Plain.overwrite]; split <;> rfl
    rw [hst]
    rcases overwrite_spec k w w' keep es commit applied h hs with ⟨_, _, e⟩ | ⟨_, w1, m1, b1, _, _, hc⟩
    · rw [e]; exact hb
    · obtain ⟨d, _, _, _, e1, e2, _⟩ := maybeCompact_spec k ok w1 w' applied m1 hc
      simp only [compactsBelow] at hA
      by_cases hd : d = 0
      · rw [e1, b1, hd]; simpa using hb
      · right; have := e2 (by omega); omega
  | compact keep =>
    rcases compact_spec k ok w w' keep h hs with e | ⟨d, d1, d2, d3, _, _, e, _⟩
    · rw [e]; exact hb
    · right; simp only [compactsBelow] at hA; omega
  | snapshot i t =>
    simp only [step, Option.some.injEq] at hs
    subst hs
    exact .inl rfl
  | reopen => exact absurd rfl ho

theorem base_run (k : Codec) (ok : k.OK) (A : Nat) (ops : List Op) : ∀ (w w' : Wal) (p p' : Plain),
    Op.reopen ∉ ops → (∀ o ∈ ops, compactsBelow A o) → Mem k w → Rel w p →
    (w.idx.base = p.start ∨ w.idx.base < A) → runBoth k w p ops = some (w', p') →
    w'.idx.base = p'.start ∨ w'.idx.base < A := by
  induction ops with
  | nil => intro w w' p p' _ _ _ _ hb hs; simp [runBoth] at hs; obtain ⟨rfl, rfl⟩ := hs; exact hb
  | cons o os ih =>
    intro w w' p p' hn hA h hr hb hs
    simp only [runBoth] at hs
    cases h1 : step k w o with
    | none => simp [h1] at hs
    | some w1 =>
      simp only [h1, Option.bind_some] at hs
      simp only [List.mem_cons, not_or] at hn
      have hne : o ≠ .reopen := fun e => hn.1 e.symm
      obtain ⟨m, r⟩ := step_spec k ok w w1 p o hne h hr h1
      exact ih w1 w' _ p' hn.2 (fun o ho => hA o (List.mem_cons_of_mem _ ho)) m r
        (base_step k ok w w1 p o A hne (hA o List.mem_cons_self) h hb h1) hs

/-- What the log answers when it is consistent. -/
theorem reads (k : Codec) (w : Wal) (p : Plain) (m : Mem k w) (r : Rel w p) :
    (p.start ≤ w.idx.base ∧ w.idx.base ≤ p.last) ∧
    (∀ i, w.idx.base < i → i ≤ p.last → ∃ e, getEntry w i = some e ∧ e.index = i ∧
      p.at i = some (cell e) ∧ RLE.getTermForIndex w.idx i = some e.term) ∧
    (∀ i, i ≤ w.idx.base ∨ p.last < i → getEntry w i = none) ∧
    RLE.lastIndex w.idx = some p.last ∧ w.lli = p.last ∧
    (∀ i, w.idx.base < i → ∃ es, getAllEntriesFrom w i = some (es, false) ∧
      es.map cell = p.cells.drop (i - 1 - p.start) ∧ es.map (·.index) = List.range' i (p.last + 1 - i)) ∧
    (∀ i, 0 < i → i ≤ w.idx.base → w.idx.base < p.last → getAllEntriesFrom w i = some ([], true)) := by
  have hc := congrArg List.length r.cells
  simp only [List.length_map, List.length_drop] at hc
  have h1 := r.start; have h2 := r.last
  obtain ⟨pt, hl⟩ := m.linked
  have hidx := linked_index k w.log _ _ hl
  have hlast : p.last = w.idx.base + w.log.length := by unfold Plain.last at *; omega
  have hfirst : ∀ f, w.log.head? = some f → f.ent.index = w.idx.base + 1 := by
    intro f hf
    rw [List.head?_eq_getElem?] at hf
    have := hidx 0 f hf
    omega
  refine ⟨⟨h1, h2⟩, ?_, ?_, ?_, ?_, ?_, ?_⟩
  · intro i hi hle
    have hlt : i - w.idx.base - 1 < w.log.length := by omega
    have hg := List.getElem?_eq_getElem hlt
    refine ⟨(w.log[i - w.idx.base - 1]).ent, ?_, ?_, ?_, ?_⟩
    · unfold getEntry
      cases hf : w.log.head? with
      | none => simp at hf; simp [hf] at hlt
      | some f =>
        have := hfirst f hf
        simp only
        rw [if_neg (by omega), show i - f.ent.index = i - w.idx.base - 1 by omega, hg]; rfl
    · have := hidx _ _ hg; omega
    · unfold Plain.at
      rw [if_pos (by omega)]
      have hm := congrArg (fun l => l[i - w.idx.base - 1]?) r.cells
      simp only [List.getElem?_map, hg, Option.map_some, List.getElem?_drop] at hm
      rw [hm]; congr 1; omega
    · rw [RLE.getTerm_held w.idx _ m.sim i (by simpa using hi) (by
        simp only [RLE.Spec.Plain.last, terms, List.length_map]; omega)]
      unfold RLE.Spec.Plain.termAt
      simp only [terms]
      rw [if_pos (by omega)]
      simp only [List.getElem?_map]
      rw [hg]; rfl
  · intro i hi
    unfold getEntry
    cases hf : w.log.head? with
    | none => rfl
    | some f =>
      have := hfirst f hf
      simp only
      split
      · rfl
      · have : w.log.length ≤ i - f.ent.index := by omega
        rw [List.getElem?_eq_none this]; rfl
  · rw [RLE.lastIndex_sim w.idx _ m.sim, hlast]
    simp [RLE.Spec.Plain.last, terms]
  · rw [m.lli, hlast]
  · intro i hi
    have hdrop : (w.log.drop (i - w.idx.base - 1)).map (fun r => cell r.ent) = p.cells.drop (i - 1 - p.start) := by
      rw [List.map_drop, r.cells, List.drop_drop]; congr 1; omega
    have hind : (w.log.drop (i - w.idx.base - 1)).map (·.ent.index) = List.range' i (p.last + 1 - i) := by
      apply List.ext_getElem?
      intro j
      simp only [List.getElem?_map, List.getElem?_drop]
      cases hj : w.log[i - w.idx.base - 1 + j]? with
      | none =>
        rw [List.getElem?_eq_none_iff] at hj
        rw [List.getElem?_eq_none (by simp; omega)]; rfl
      | some x =>
        have := hidx _ _ hj
        have hlt := (List.getElem?_eq_some_iff.mp hj).1
        rw [List.getElem?_range' (by omega)]
        simp only [Option.map_some]
        congr 1; omega
    unfold getAllEntriesFrom
    rw [if_neg (by omega)]
    cases hf : w.log.head? with
    | none =>
      have hn : w.log = [] := List.head?_eq_none_iff.mp hf
      refine ⟨[], rfl, ?_, ?_⟩
      · rw [← hdrop, hn]; simp
      · rw [← hind, hn]; simp
    | some f =>
      have := hfirst f hf
      simp only
      rw [if_neg (by omega), show i - f.ent.index = i - w.idx.base - 1 by omega]
      exact ⟨_, rfl, by rw [← hdrop]; simp [List.map_map, Function.comp_def],
        by rw [← hind]; simp [List.map_map, Function.comp_def]⟩
  · intro i h0 hi hb
    unfold getAllEntriesFrom
    rw [if_neg (by omega)]
    cases hf : w.log.head? with
    | none => simp at hf; simp [hf] at hlast; omega
    | some f =>
      have := hfirst f hf
      simp only
      rw [if_pos (by omega)]

/-- **C13.** After any sequence of appends, suffix overwrites, compactions and snapshot installs
that return, each index after the compaction base holds the entry last written there (the plain
log `p` says which that is), with its own index, and the compressed term index agrees; there is
nothing else; all entries from an index on come back in order; and the compaction base is the
last snapshot or lies below the last index applied or asked to be kept. -/
theorem C13_log_holds_what_was_written (k : Codec) (ok : k.OK) (nc : Bool) (t A : Nat) (ops : List Op)
    (hn : Op.reopen ∉ ops) (hA : ∀ o ∈ ops, compactsBelow A o) (w : Wal) (p : Plain)
    (h : runBoth k (new nc t) ⟨0, []⟩ ops = some (w, p)) :
    (p.start ≤ w.idx.base ∧ w.idx.base ≤ p.last) ∧
    (∀ i, w.idx.base < i → i ≤ p.last → ∃ e, getEntry w i = some e ∧ e.index = i ∧
      p.at i = some (cell e) ∧ RLE.getTermForIndex w.idx i = some e.term) ∧
    (∀ i, i ≤ w.idx.base ∨ p.last < i → getEntry w i = none) ∧
    RLE.lastIndex w.idx = some p.last ∧ w.lli = p.last ∧
    (∀ i, w.idx.base < i → ∃ es, getAllEntriesFrom w i = some (es, false) ∧
      es.map cell = p.cells.drop (i - 1 - p.start) ∧ es.map (·.index) = List.range' i (p.last + 1 - i)) ∧
    (∀ i, 0 < i → i ≤ w.idx.base → w.idx.base < p.last → getAllEntriesFrom w i = some ([], true)) ∧
    (w.idx.base = p.start ∨ w.idx.base < A) := by
  obtain ⟨m, r⟩ := runBoth_spec k ok ops _ _ _ _ hn (mem_new k nc t) (rel_new nc t) h
  have hb := base_run k ok A ops _ _ _ _ hn hA (mem_new k nc t) (rel_new nc t) (.inl rfl) h
  obtain ⟨a, b, c, d, e, f, g⟩ := reads k w p m r
  exact ⟨a, b, c, d, e, f, g, hb⟩

/-- The hypotheses hold: append three entries, overwrite the last two by three, compact. -/
example : ((runBoth sampleCodec (new false 0) ⟨0, []⟩
    [.append (ent 1 1 [9]), .append (ent 2 1 [8]), .append (ent 3 1 [7]),
     .overwrite 1 [ent 2 2 [6], ent 3 2 [5], ent 4 2 [4]] none 3]).map fun x =>
       (x.1.idx.base, x.2.last, (getEntry x.1 3).map cell, (getEntry x.1 2).map cell)) =
    some (2, 4, some ⟨2, [5]⟩, none) := by decide +kernel

/-- Not every call that should return does. Overwriting the first entry after a snapshot
panics. -/
theorem C13_overwrite_first_after_snapshot_panics :
    (run sampleCodec (new false 1000000) [.snapshot 5 3, .append (ent 6 4 [1])]).isSome = true ∧
    run sampleCodec (new false 1000000)
      [.snapshot 5 3, .append (ent 6 4 [1]), .overwrite 5 [ent 6 5 [2]] none 5] = none := by
  decide +kernel

/-- Without log compaction, replacing an uncommitted entry by just one entry panics. -/
theorem C13_overwrite_by_one_panics :
    (run sampleCodec (new true 1000000) [.append (ent 1 1 [1]), .append (ent 2 1 [1])]).isSome = true ∧
    run sampleCodec (new true 1000000)
      [.append (ent 1 1 [1]), .append (ent 2 1 [1]), .overwrite 1 [ent 2 2 [2]] (some 1) 1] = none := by
  decide +kernel

/-! ## C14 -/

/-- Does the call remove entries? -/
def removes (w : Wal) : Op → Bool
  | .overwrite keep es _ _ => decide
      (¬ (keep < w.idx.base ∧ keep + es.length ≤ w.idx.base) ∧
        max keep w.idx.base < w.idx.base + w.log.length)
  | _ => false

/-- Number of entries, counted from the first one held, up to which the in-memory file positions are
known right; `none` means all of them. Reopening and compacting leave one position too many. -/
def trusted (w w' : Wal) (hz : Option Nat) : Op → Option Nat
  | .append _ => hz
  | .overwrite keep es commit applied =>
    if w'.idx.base ≠ w.idx.base then some w'.log.length
    else if removes w (.overwrite keep es commit applied) then none else hz
  | .compact _ => if w'.idx.base ≠ w.idx.base then some w'.log.length else hz
  | .snapshot _ _ => some 0
  | .reopen => some w'.log.length

/-- The histories covered: an overwrite removes no entry that was appended since the last reopening,
compaction or snapshot, unless an overwrite removed something since; and a log is not
reopened while it is empty after a snapshot or compaction. -/
def Safe (w : Wal) (hz : Option Nat) : Op → Prop
  | .overwrite keep es c a => removes w (.overwrite keep es c a) = true →
      hzOK (max keep w.idx.base - w.idx.base) hz
  | .reopen => w.log ≠ [] ∨ w.idx.base = 0
  | _ => True

inductive Hist (k : Codec) : Wal → Plain → Option Nat → Prop
  | new (nc : Bool) (t : Nat) : Hist k (new nc t) ⟨0, []⟩ none
  | step {w w' : Wal} {p : Plain} {hz : Option Nat} (o : Op) : Hist k w p hz → Safe w hz o →
      step k w o = some w' → Hist k w' (p.step w.idx.base o) (trusted w w' hz o)

theorem seek0 (k : Codec) (w : Wal) (hz : Option Nat) (h : SeekOK k w hz) :
    w.seek[0]? = some 0 ∨ w.seek = [] := by
  cases hz with
  | none =>
    obtain ⟨h1, h2⟩ := h
    by_cases hl : w.log = []
    · right; rw [hl] at h1; exact List.eq_nil_of_length_eq_zero h1
    · left; rw [h2 0 (by have := List.length_pos_iff.mpr hl; omega)]; simp [off, enc]
  | some m =>
    rcases h.2 0 (by omega) with h | ⟨h, _⟩
    · left; rw [h]; simp [off, enc]
    · right; exact List.eq_nil_of_length_eq_zero h.symm

theorem hist_inv (k : Codec) (ok : k.OK) {w : Wal} {p : Plain} {hz : Option Nat} (h : Hist k w p hz) :
    Mem k w ∧ Rel w p ∧ Disk k w ∧ SeekOK k w hz := by
  induction h with
  | new nc t =>
    exact ⟨mem_new k nc t, rel_new nc t, ⟨rfl, rfl⟩, rfl, by intro i hi; simp [new] at hi⟩
  | @step w w' p hz o _ hsafe hs ih =>
    obtain ⟨m, r, d, s⟩ := ih
    by_cases ho : o = .reopen
    · subst ho
      obtain ⟨w1, g1, g2, g3, g4, g5, g6, _⟩ := reopen_spec k ok w m d
      simp only [step] at hs
      rw [g1] at hs
      simp only [Option.some.injEq] at hs
      subst hs
      refine ⟨g3, ?_, g4, g5⟩
      simp only [Plain.step]
      have hb : w1.idx.base = w.idx.base := by
        by_cases hl : w.log = []
        · rcases hsafe with h | h
          · exact absurd hl h
          · have : w.file = [] := by rw [d.file, hl]; rfl
            rw [reopen, openWal, if_pos this, Option.some.injEq] at g1
            rw [← g1, h]; rfl
        · exact (g6 hl).1
      exact ⟨by rw [hb]; exact r.start, by rw [hb]; exact r.last, by rw [g2, hb]; exact r.cells⟩
    · obtain ⟨m', r'⟩ := step_spec k ok w w' p o ho m r hs
      refine ⟨m', r', ?_⟩
      cases o with
      | append e =>
        obtain ⟨_, _, _, _, _, _, _, _, _, _, a, b, _⟩ := saveEntry_spec k w w' e m hs
        exact ⟨a d, b hz d s⟩
      | overwrite keep es commit applied =>
        rcases overwrite_spec k w w' keep es commit applied m hs with ⟨a, b, e⟩ | ⟨hc, w1, m1, b1, _, hsk, hmc⟩
        · subst e
          have : removes w' (.overwrite keep es commit applied) = false := by
            simp only [removes, decide_eq_false_iff_not]; intro hx; exact hx.1 ⟨a, b⟩
          simp only [trusted, ne_eq, not_true, if_false, this]
          exact ⟨d, s⟩
        · obtain ⟨dd, _, _, _, e1, _, e3⟩ := maybeCompact_spec k ok w1 w' applied m1 hmc
          have h1 := hsk hz d s
          have h2 : Disk k w1 ∧ SeekOK k w1
              (if removes w (.overwrite keep es commit applied) then none else hz) := by
            split at h1
            · next hlt =>
              have hr : removes w (.overwrite keep es commit applied) = true := by
                simp only [removes, decide_eq_true_eq]; exact ⟨hc, hlt⟩
              rw [if_pos hr]
              exact h1 (hsafe hr)
            · next hlt =>
              have hr : removes w (.overwrite keep es commit applied) = false := by
                simp only [removes, decide_eq_false_iff_not]; exact fun hx => hlt hx.2
              rw [hr]
              simpa using h1
          simp only [trusted]
          by_cases hd : dd = 0
          · rw [if_pos hd] at e3
            rw [if_neg (by rw [e1, b1, hd]; simp)]
            exact ⟨e3.1 h2.1, e3.2.1 _ h2.2⟩
          · rw [if_neg hd] at e3
            rw [if_pos (by rw [e1, b1]; omega)]
            exact e3
      | compact keep =>
        rcases compact_spec k ok w w' keep m hs with e | ⟨dd, d1, d2, d3, _, _, e, _, _, _, g1, g2⟩
        · subst e; simp only [trusted, ne_eq, not_true, if_false]; exact ⟨d, s⟩
        · simp only [trusted]
          rw [if_pos (by omega)]
          exact ⟨g1, g2⟩
      | snapshot i t =>
        simp only [step, Option.some.injEq] at hs
        subst hs
        refine ⟨⟨rfl, rfl⟩, Nat.le_refl _, ?_⟩
        intro j hj
        have : j = 0 := by simpa [installedSnapshot] using hj
        subst this
        rcases seek0 k w hz s with h | h
        · left; simp only [installedSnapshot, h]; simp [off, enc]
        · right; simp [installedSnapshot, h]
      | reopen => exact absurd rfl ho

/-- **C14 (partial).** At any point of a history as in `Safe`, closing and opening the log gives a
log that reads the same and, unless empty, stands at the same index; and it holds what was last
written, also across earlier reopenings. Missing: the histories that `Safe` excludes,
for which the property is false (below). -/
theorem C14_reopen_gives_the_same_log_partial (k : Codec) (ok : k.OK) {w : Wal} {p : Plain}
    {hz : Option Nat} (h : Hist k w p hz) :
    ∃ w', reopen k w = some w' ∧ w'.log = w.log ∧ (∀ i, getEntry w' i = getEntry w i) ∧
      (w.log ≠ [] → w'.idx.base = w.idx.base ∧ RLE.lastIndex w'.idx = some p.last ∧ w'.lli = p.last ∧
        ∀ i, w.idx.base < i → i ≤ p.last → ∃ e, getEntry w' i = some e ∧ e.index = i ∧
          p.at i = some (cell e) ∧ RLE.getTermForIndex w'.idx i = some e.term) := by
  obtain ⟨m, r, d, s⟩ := hist_inv k ok h
  obtain ⟨w', g1, g2, g3, g4, g5, g6, _⟩ := reopen_spec k ok w m d
  refine ⟨w', g1, g2, fun i => by simp only [getEntry, g2], fun hl => ?_⟩
  have hb := (g6 hl).1
  have r' : Rel w' p :=
    ⟨by rw [hb]; exact r.start, by rw [hb]; exact r.last, by rw [g2, hb]; exact r.cells⟩
  obtain ⟨_, a, _, b, c, _⟩ := reads k w' p g3 r'
  rw [hb] at a
  exact ⟨hb, b, c, a⟩

/-- In the first session, without compaction, every history of appends and suffix overwrites is covered. -/
theorem C14_first_session_partial (k : Codec) (ok : k.OK) (nc : Bool) (t : Nat) (ops : List Op)
    (hops : ∀ o ∈ ops, (∃ e, o = .append e) ∨ ∃ keep es c, o = .overwrite keep es c 0) (w : Wal)
    (h : run k (new nc t) ops = some w) :
    ∃ w', reopen k w = some w' ∧ w'.log = w.log ∧ ∀ i, getEntry w' i = getEntry w i := by
  have key : ∀ (ops : List Op) (w0 : Wal) (p : Plain),
      (∀ o ∈ ops, (∃ e, o = .append e) ∨ ∃ keep es c, o = .overwrite keep es c 0) →
      Hist k w0 p none → run k w0 ops = some w → ∃ p', Hist k w p' none := by
    intro ops
    induction ops with
    | nil => intro w0 p _ hh hr; simp [run] at hr; subst hr; exact ⟨p, hh⟩
    | cons o os ih =>
      intro w0 p ho hh hr
      simp only [run] at hr
      cases h1 : step k w0 o with
      | none => simp [h1] at hr
      | some w1 =>
        simp only [h1, Option.bind_some] at hr
        obtain ⟨m, r, d, s⟩ := hist_inv k ok hh
        have hs : Safe w0 none o := by
          rcases ho o List.mem_cons_self with ⟨e, rfl⟩ | ⟨kp, es, c, rfl⟩
          · trivial
          · intro _; trivial
        have hn := Hist.step o hh hs h1
        have ht : trusted w0 w1 none o = none := by
          rcases ho o List.mem_cons_self with ⟨e, rfl⟩ | ⟨kp, es, c, rfl⟩
          · rfl
          · simp only [trusted]
            rcases overwrite_spec k w0 w1 kp es c 0 m h1 with ⟨_, _, e⟩ | ⟨_, w2, m1, b1, _, _, hmc⟩
            · subst e; simp
            · obtain ⟨dd, _, _, _, e1, e2, _⟩ := maybeCompact_spec k ok w2 w1 0 m1 hmc
              have : dd = 0 := by
                by_cases hd : 0 < dd
                · have := e2 hd; omega
                · omega
              rw [if_neg (by rw [e1, b1, this]; simp)]
              split <;> rfl
        rw [ht] at hn
        exact ih w1 _ (fun o h => ho o (List.mem_cons_of_mem _ h)) hn hr
  obtain ⟨p', hh⟩ := key ops _ _ hops (Hist.new nc t) h
  obtain ⟨w', a, b, c, _⟩ := C14_reopen_gives_the_same_log_partial k ok hh
  exact ⟨w', a, b, c⟩

example : ((run sampleCodec (new false 1000000)
    [.append (ent 1 1 [9]), .append (ent 2 1 [8]), .overwrite 1 [ent 2 2 [6], ent 3 2 [5]] none 0]).bind
      fun w => (reopen sampleCodec w).map fun w' => (w'.lli, (getEntry w' 2).map cell)) =
    some (3, some ⟨2, [6]⟩) := by decide +kernel

/-- A history with a reopening, an append and an overwrite of an older entry is covered. -/
example : ∃ w p hz, Hist sampleCodec w p hz ∧ w.lli = 3 ∧ hz = none := by
  have h0 : Hist sampleCodec (new false 1000000) ⟨0, []⟩ none := .new _ _
  have h1 := Hist.step (.append (ent 1 1 [9])) h0 trivial
    (w' := (step sampleCodec (new false 1000000) (.append (ent 1 1 [9]))).get (by decide +kernel)) (by simp)
  have h2 := Hist.step .reopen h1 (by left; decide +kernel)
    (w' := (run sampleCodec (new false 1000000) [.append (ent 1 1 [9]), .reopen]).get (by decide +kernel))
    (by decide +kernel)
  have h3 := Hist.step (.append (ent 2 1 [8])) h2 trivial
    (w' := (run sampleCodec (new false 1000000)
      [.append (ent 1 1 [9]), .reopen, .append (ent 2 1 [8])]).get (by decide +kernel)) (by decide +kernel)
  have h4 := Hist.step (.overwrite 1 [ent 2 2 [6], ent 3 2 [5]] none 0) h3
    (by intro _; simp only [trusted, hzOK]; decide +kernel)
    (w' := (run sampleCodec (new false 1000000)
      [.append (ent 1 1 [9]), .reopen, .append (ent 2 1 [8]),
       .overwrite 1 [ent 2 2 [6], ent 3 2 [5]] none 0]).get (by decide +kernel)) (by decide +kernel)
  exact ⟨_, _, _, h4, by decide +kernel, by decide +kernel⟩

/-- The code violates C14: reopen, append two entries, overwrite the second; the log can no longer be
opened, though it reads well in memory. -/
theorem C14_reopen_append_overwrite_counterexample :
    (run sampleCodec (new false 1000000)
      [.append (ent 1 1 [9]), .reopen, .append (ent 2 1 [8]), .append (ent 3 1 [7]),
       .overwrite 2 [ent 3 2 [6]] none 0]).isSome = true ∧
    run sampleCodec (new false 1000000)
      [.append (ent 1 1 [9]), .reopen, .append (ent 2 1 [8]), .append (ent 3 1 [7]),
       .overwrite 2 [ent 3 2 [6]] none 0, .reopen] = none := by decide +kernel

/-- The same after a compaction, without any earlier reopening. -/
theorem C14_compact_append_overwrite_counterexample :
    (run sampleCodec (new false 1000000)
      [.append (ent 1 1 [9]), .append (ent 2 1 [9]), .compact 2, .append (ent 3 1 [8]), .append (ent 4 1 [7]),
       .overwrite 3 [ent 4 2 [6]] none 0]).isSome = true ∧
    run sampleCodec (new false 1000000)
      [.append (ent 1 1 [9]), .append (ent 2 1 [9]), .compact 2, .append (ent 3 1 [8]), .append (ent 4 1 [7]),
       .overwrite 3 [ent 4 2 [6]] none 0, .reopen] = none := by decide +kernel

/-- After a snapshot install, reopening loses the position: the log stands at 0 again. -/
theorem C14_reopen_after_snapshot_counterexample :
    (run sampleCodec (new false 1000000) [.snapshot 7 3]).map (·.lli) = some 7 ∧
    (run sampleCodec (new false 1000000) [.snapshot 7 3, .reopen]).map (·.lli) = some 0 := by
  decide +kernel

/-! ## C15 -/

/-- Every entry loaded is the one whose hash the parlog file holds. -/
theorem loadLoop_par (k : Codec) : ∀ (fuel : Nat) (w w' : Wal) (rest : Bytes),
    (∀ (i : Nat) (r : Rec), w.log[i]? = some r → w.par[i]? = some (k.H r.bytes) ∧ k.deser r.bytes = some r.ent) →
    loadLoop k fuel w rest = some w' →
    (∀ (i : Nat) (r : Rec), w'.log[i]? = some r → w.par[i]? = some (k.H r.bytes) ∧ k.deser r.bytes = some r.ent) := by
  intro fuel
  induction fuel with
  | zero => intro w w' rest _ h; simp [loadLoop] at h
  | succ n ih =>
    intro w w' rest hi h
    unfold loadLoop at h
    simp only at h
    split at h
    · simp only [Option.some.injEq] at h; subst h; exact hi
    · simp at h
    · next by_ r1 _ =>
      split at h
      · simp at h
      · next w2 r2 h2 =>
        have key : w2.par = w.par ∧ ∃ e, w2.log = w.log ++ [⟨e, by_⟩] ∧ k.deser by_ = some e ∧
            w.par[w.log.length]? = some (k.H by_) := by
          unfold loadOne at h2
          split at h2
          · simp at h2
          · next e he =>
            split at h2
            · split at h2
              · simp at h2
              · split at h2
                · simp at h2
                · split at h2
                  · simp at h2
                  · split at h2
                    · simp at h2
                    · next hp =>
                      simp only at h2
                      split at h2
                      · simp at h2
                      · split at h2
                        · simp at h2
                        · simp only [Option.some.injEq, Prod.mk.injEq] at h2
                          obtain ⟨rfl, _⟩ := h2
                          exact ⟨rfl, e, rfl, he, by simpa using hp⟩
            · simp at h2
        obtain ⟨k1, e, k2, k3, k4⟩ := key
        have := ih w2 w' r2 (by
          intro i r hr
          rw [k2] at hr
          rw [k1]
          by_cases hlt : i < w.log.length
          · rw [List.getElem?_append_left hlt] at hr; exact hi i r hr
          · rw [List.getElem?_append_right (by omega)] at hr
            have : i - w.log.length = 0 := by
              by_cases h0 : i - w.log.length = 0
              · exact h0
              · rw [List.getElem?_eq_none (by simp; omega)] at hr; simp at hr
            rw [this] at hr
            simp at hr
            subst hr
            rw [show i = w.log.length by omega]
            exact ⟨k4, k3⟩) h
        rw [k1] at this
        exact this

theorem openWal_par (k : Codec) (nc : Bool) (t : Nat) (f : Bytes) (par : List Bytes) (w : Wal)
    (h : openWal k nc t f par = some w) :
    ∀ (i : Nat) (r : Rec), w.log[i]? = some r → par[i]? = some (k.H r.bytes) ∧ k.deser r.bytes = some r.ent := by
  unfold openWal at h
  simp only at h
  split at h
  · simp only [Option.some.injEq] at h; subst h; intro i r hr; simp [new] at hr
  · exact loadLoop_par k _ _ _ _ (by intro i r hr; simp [new] at hr) h

/-- **C15 (partial).** If the hash has no collisions, any two log files that load with the same
parlog file beside them agree at every position both have: nothing stored in the log file can be changed,
inserted, dropped from the middle or reordered unnoticed. Missing: dropping entries from the end (not
detected, below), and changing both files together (the chain covers only the entry before,
below). -/
theorem C15_changed_entry_detected_partial (k : Codec) (inj : ∀ a b, k.H a = k.H b → a = b)
    (nc : Bool) (t : Nat) (f1 f2 : Bytes) (par : List Bytes) (w1 w2 : Wal)
    (h1 : openWal k nc t f1 par = some w1) (h2 : openWal k nc t f2 par = some w2) :
    ∀ (i : Nat) (r1 r2 : Rec), w1.log[i]? = some r1 → w2.log[i]? = some r2 → r1 = r2 := by
  intro i r1 r2 e1 e2
  obtain ⟨a1, b1⟩ := openWal_par k nc t f1 par w1 h1 i r1 e1
  obtain ⟨a2, b2⟩ := openWal_par k nc t f2 par w2 h2 i r2 e2
  rw [a1] at a2
  have hb := inj _ _ (Option.some.inj a2)
  rw [hb] at b1
  rw [b1] at b2
  cases r1; cases r2; simp_all

/-- The hypotheses can be met: a hash without collisions, and a file that loads. -/
example : ∃ k : Codec, (∀ a b, k.H a = k.H b → a = b) ∧ ∃ w, (run k (new false 1000000)
    [.append (ent 1 1 [9]), .append (ent 2 1 [8])]) = some w ∧
    (openWal k false 1000000 w.file w.par).isSome = true := by
  refine ⟨{ sampleCodec with H := id }, fun a b h => h, ?_⟩
  refine ⟨(run { sampleCodec with H := id } (new false 1000000)
    [.append (ent 1 1 [9]), .append (ent 2 1 [8])]).get (by decide +kernel), ?_, ?_⟩
  · simp
  · decide +kernel

/-- The stored chain hash of entry `i`, with the entries of `log` stored properly. -/
def chain (k : Codec) (log : List Rec) (i : Nat) : Option Bytes :=
  (log[i]?).map fun r => k.H (r.bytes ++ lastEntryBytes (log.take i))

/-- From the third entry on, an entry's pair of hashes fixes the entry and the one before. -/
theorem C15_chain_covers_predecessor_partial (k : Codec) (inj : ∀ a b, k.H a = k.H b → a = b)
    (log1 log2 : List Rec) (i : Nat) (h2 : 2 ≤ i) (a1 a2 b1 b2 : Rec)
    (x1 : log1[i]? = some a1) (x2 : log2[i]? = some a2)
    (y1 : log1[i - 1]? = some b1) (y2 : log2[i - 1]? = some b2)
    (hh : k.H a1.bytes = k.H a2.bytes) (hc : chain k log1 i = chain k log2 i) :
    a1.bytes = a2.bytes ∧ b1.bytes = b2.bytes := by
  have e : a1.bytes = a2.bytes := inj _ _ hh
  refine ⟨e, ?_⟩
  have last : ∀ (log : List Rec) (b : Rec), i < log.length → log[i - 1]? = some b →
      lastEntryBytes (log.take i) = b.bytes := by
    intro log b hl hb
    have hlen : (log.take i).length = i := by rw [List.length_take]; omega
    unfold lastEntryBytes
    rw [hlen, if_neg (by omega), if_neg (by omega), List.getLast?_eq_getElem?, hlen,
      List.getElem?_take, if_pos (by omega), hb]
  have l1 := (List.getElem?_eq_some_iff.mp x1).1
  have l2 := (List.getElem?_eq_some_iff.mp x2).1
  unfold chain at hc
  rw [x1, x2] at hc
  simp only [Option.map_some, Option.some.injEq] at hc
  rw [last log1 b1 l1 y1, last log2 b2 l2 y2, e] at hc
  exact List.append_cancel_left (inj _ _ hc)

example : ∃ log : List Rec, chain sampleCodec log 2 = some (sampleH ([3, 4, 5] ++ [6])) ∧ log.length = 3 :=
  ⟨[⟨ent 1 1 [], [1]⟩, ⟨ent 2 1 [], [6]⟩, ⟨ent 3 1 [], [3, 4, 5]⟩], by decide, rfl⟩

theorem enc_congr (k : Codec) (rs : List Rec) : ∀ (d1 d2 : List Rec),
    (∀ x : List Rec, lastEntryBytes (d1 ++ x) = lastEntryBytes (d2 ++ x)) → enc k d1 rs = enc k d2 rs := by
  induction rs with
  | nil => intro d1 d2 _; rfl
  | cons r rs ih =>
    intro d1 d2 h
    have h0 := h []
    simp only [List.append_nil] at h0
    rw [enc, enc, h0, ih (d1 ++ [r]) (d2 ++ [r]) (by
      intro x; rw [List.append_assoc, List.append_assoc]; exact h _)]

/-- The code violates C15, whatever the hash: in every log, exchange the first entry's content for any
other (keeping its index and terms) together with its own record and parlog hash. All later
records, with their chain hashes, stay byte for byte as they were, and the files load. -/
theorem C15_first_entry_unprotected_counterexample (k : Codec) (ok : k.OK) (nc : Bool) (t : Nat)
    (base : Nat) (pt : Int) (r : Rec) (rs : List Rec) (hl : Linked k base pt (r :: rs)) (body : Bytes)
    (hlen : (k.ser { r.ent with body := body }).length < 2 ^ 32) :
    let r' : Rec := ⟨{ r.ent with body := body }, k.ser { r.ent with body := body }⟩
    let old := recordBytes k r.bytes []
    let new' := recordBytes k r'.bytes []
    ∃ rest, enc k [] (r :: rs) = old ++ rest ∧
      ∃ w, openWal k nc t (new' ++ rest) ((r' :: rs).map fun r => k.H r.bytes) = some w ∧
        w.log = r' :: rs := by
  intro r' old new'
  refine ⟨enc k [r] rs, by simp [enc, old, lastEntryBytes], ?_⟩
  have he : enc k [r] rs = enc k [r'] rs := by
    apply enc_congr
    intro x
    unfold lastEntryBytes
    cases x with
    | nil => simp
    | cons y ys =>
      simp [List.getLast?_cons]
  have hl' : Linked k base pt (r' :: rs) := by
    obtain ⟨a, b, c, d, e, f, g⟩ := hl
    exact ⟨a, b, c, d, rfl, hlen, g⟩
  have hf : new' ++ enc k [r] rs = enc k [] (r' :: rs) := by
    rw [he]; simp [enc, new', lastEntryBytes]
  rw [hf]
  have hne : enc k [] (r' :: rs) ≠ [] := by
    intro h0
    have := enc_length k (r' :: rs) []
    rw [h0] at this
    simp at this
  obtain ⟨w, b1, b2, _⟩ := load_spec k ok
    { new nc t with file := enc k [] (r' :: rs), par := (r' :: rs).map fun r => k.H r.bytes }
    base pt (r' :: rs) rfl rfl hl' ⟨rfl, rfl⟩ (by intro i x hx; simp only [List.getElem?_map, hx]; rfl)
  exact ⟨w, by unfold openWal; simp only; rw [if_neg hne]; exact b1, b2⟩

/-- Cutting entries off the end of the log file is not detected either, whatever the parlog still says. -/
theorem C15_dropped_tail_undetected_counterexample (k : Codec) (ok : k.OK) (nc : Bool) (t : Nat) (w : Wal)
    (m : Mem k w) (d : Disk k w) (n : Nat) :
    ∃ f, (∃ g, w.file = f ++ g) ∧ ∃ w', openWal k nc t f w.par = some w' ∧ w'.log = w.log.take n := by
  obtain ⟨pt, hl⟩ := m.linked
  refine ⟨enc k [] (w.log.take n), ⟨enc k (w.log.take n) (w.log.drop n), ?_⟩, ?_⟩
  · have := enc_append k (w.log.take n) (w.log.drop n) []
    rw [List.take_append_drop, List.nil_append] at this
    rw [d.file, this]
  · by_cases hz : enc k [] (w.log.take n) = []
    · refine ⟨_, by unfold openWal; simp only; rw [if_pos hz], ?_⟩
      have := enc_length k (w.log.take n) []
      rw [hz] at this
      have h0 : w.log.take n = [] := List.eq_nil_of_length_eq_zero (by simpa using this)
      rw [h0]; rfl
    · have hl' : Linked k w.idx.base pt (w.log.take n) := by
        rw [← List.take_append_drop n w.log] at hl
        exact ((linked_append k _ _ _ _).mp hl).1
      obtain ⟨w', b1, b2, _⟩ := load_spec k ok
        { new nc t with file := enc k [] (w.log.take n), par := w.par } w.idx.base pt (w.log.take n) rfl rfl
        hl' ⟨rfl, rfl⟩ (by
          intro i x hx
          rw [List.getElem?_take] at hx
          split at hx
          · simp only [d.par, List.getElem?_map, hx]; rfl
          · simp at hx)
      exact ⟨w', by unfold openWal; simp only; rw [if_neg hz]; exact b1, b2⟩

/-! ## C16 -/

/-- wal.go:419-492 with par.go:107-165: what can be on disk when the machine stops during the append of
`e` to `w`: the first `n` bytes of the record reached the log file, and the parlog has its new record
(`true`) or not. The log file is synced before the parlog is written, so the latter only after the
whole record. (A torn parlog record, which makes newParLog panic, is left out.) -/
inductive CrashDisk (w w' : Wal) : Bytes → List Bytes → Prop
  | during (n : Nat) : CrashDisk w w' (w'.file.take (w.file.length + n)) w.par
  | done : CrashDisk w w' w'.file w'.par

theorem open_tail (k : Codec) (ok : k.OK) (nc : Bool) (t : Nat) (w : Wal) (m : Mem k w) (tail : Bytes)
    (par : List Bytes) (hp : ∀ (i : Nat) (r : Rec), w.log[i]? = some r → par[i]? = some (k.H r.bytes))
    (ht : tail ≠ []) : ∃ w' fuel, openWal k nc t (enc k [] w.log ++ tail) par = loadLoop k (fuel + 1) w' tail ∧
      w'.log = w.log ∧ w'.par = par := by
  obtain ⟨pt, hl⟩ := m.linked
  have hne : enc k [] w.log ++ tail ≠ [] := by simp [ht]
  have hlen := enc_length k w.log []
  have htl : 0 < tail.length := List.length_pos_iff.mpr ht
  obtain ⟨w', b1, b2, b3, b4⟩ := loadLoop_tail k ok w.idx.base pt tail
    ((enc k [] w.log ++ tail).length + 1 - w.log.length) w.log
    { new nc t with file := enc k [] w.log ++ tail, par := par } (by simpa [new] using hl)
    ⟨rfl, rfl⟩ (by simpa [new] using hp)
  refine ⟨w', (enc k [] w.log ++ tail).length - w.log.length, ?_, by simpa [new] using b2, b4⟩
  unfold openWal
  simp only
  rw [if_neg hne]
  have e1 : (enc k [] w.log ++ tail).length + 1 - w.log.length + w.log.length =
      (enc k [] w.log ++ tail).length + 1 := by rw [List.length_append]; omega
  rw [e1] at b1
  have e2 : (enc k [] w.log ++ tail).length - w.log.length + 1 =
      (enc k [] w.log ++ tail).length + 1 - w.log.length := by rw [List.length_append]; omega
  rw [e2]
  simpa [new] using b1

/-- **C16 (partial).** If the machine stops while appending and either nothing of the new record reached
the disk or the append had finished, the log opens with every entry whose append had
returned. Missing: the crash points in between, for which the property is false. -/
theorem C16_crash_before_or_after_append_partial (k : Codec) (ok : k.OK) {w w' : Wal} {p : Plain}
    {hz : Option Nat} (h : Hist k w p hz) (e : Ent) (hs : saveEntry k w e = some w') :
    (∃ u, openWal k w.noCompact w.threshold w.file w.par = some u ∧ u.log = w.log) ∧
    (∃ u, openWal k w.noCompact w.threshold w'.file w'.par = some u ∧ u.log = w'.log ∧
      ∃ r, u.log = w.log ++ [r] ∧ cell r.ent = cell e ∧ r.ent.index = e.index) := by
  obtain ⟨m, _, d, s⟩ := hist_inv k ok h
  obtain ⟨u, g1, g2, _⟩ := reopen_spec k ok w m d
  obtain ⟨r, a1, a2, a3, a4, a5, a6, a7, _, _, a8, _⟩ := saveEntry_spec k w w' e m hs
  obtain ⟨u', g1', g2', _⟩ := reopen_spec k ok w' a4 (a8 d)
  refine ⟨⟨u, g1, g2⟩, ⟨u', ?_, g2', r, by rw [g2', a1], a2, a3.symm⟩⟩
  rw [reopen, a6, a7] at g1'
  exact g1'

/-- The code violates C16: at every point of every append after the first byte reached the log
file and before the parlog record did, a crash leaves files that can never be opened again. -/
theorem C16_torn_append_unopenable_counterexample (k : Codec) (ok : k.OK) {w w' : Wal} {p : Plain}
    {hz : Option Nat} (h : Hist k w p hz) (e : Ent) (hs : saveEntry k w e = some w') (n : Nat) (hn : 0 < n)
    (nc : Bool) (t : Nat) :
    openWal k nc t (w'.file.take (w.file.length + n)) w.par = none := by
  obtain ⟨m, _, d, s⟩ := hist_inv k ok h
  obtain ⟨r, a1, a2, a3, a4, _, _, _, _, _, a8, _⟩ := saveEntry_spec k w w' e m hs
  have hfile : w'.file = w.file ++ recordBytes k r.bytes (lastEntryBytes w.log) := by
    rw [(a8 d).file, a1, enc_append, d.file]; simp [enc]
  obtain ⟨pt, hl⟩ := a4.linked
  rw [a1] at hl
  have hr := ((linked_append k _ _ _ _).mp hl).2
  have hlen : r.bytes.length < 2 ^ 32 := hr.2.2.2.2.2.1
  have hlen3 : 3 ≤ r.bytes.length := by rw [hr.2.2.2.2.1]; exact ok.entLen _
  have hsum := ok.sumLen r.bytes (r.bytes ++ lastEntryBytes w.log)
  generalize hS : frame (k.serSum (sums k r.bytes (lastEntryBytes w.log))) = S
  have hSlen : (k.serSum (sums k r.bytes (lastEntryBytes w.log))).length + 2 ≤ S.length := by
    rw [← hS]; exact MsgBin.frame_length _
  have htake : w'.file.take (w.file.length + n) = enc k [] w.log ++ (frame r.bytes ++ S).take n := by
    rw [hfile, List.take_length_add_append, d.file, recordBytes, hS]
  have hfl := MsgBin.frame_length r.bytes
  rw [htake]
  have hne : (frame r.bytes ++ S).take n ≠ [] := by
    intro h0
    have := congrArg List.length h0
    simp only [List.length_take, List.length_append, List.length_nil] at this
    omega
  obtain ⟨u, fuel, h1, h2, h3⟩ := open_tail k ok nc t w m ((frame r.bytes ++ S).take n) w.par
    (by intro i x hx; rw [d.par]; simp [hx]) hne
  rw [h1]
  unfold loadLoop
  simp only
  by_cases hcut : n < (frame r.bytes).length
  · have : (frame r.bytes ++ S).take n = (frame r.bytes).take n := by
      rw [List.take_append_of_le_length (by omega)]
    rw [this, MsgBin.nextframe_torn r.bytes hlen3 hlen n hn hcut]
  · have hsplit : (frame r.bytes ++ S).take n = frame r.bytes ++ S.take (n - (frame r.bytes).length) := by
      rw [List.take_append, List.take_of_length_le (by omega)]
    rw [hsplit, MsgBin.nextframe_frame r.bytes _ hlen3 hlen]
    simp only
    have hnone : ∀ v : Wal, v.log = w.log → v.par = w.par →
        loadOne k v r.bytes (S.take (n - (frame r.bytes).length)) = none := by
      intro v hv hvp
      unfold loadOne
      cases k.deser r.bytes with
      | none => rfl
      | some e' =>
        simp only
        generalize n - (frame r.bytes).length = j
        by_cases hj : j < S.length
        · by_cases h0 : j = 0
          · subst h0; simp [nextframe]
          · have := MsgBin.nextframe_torn _ hsum.1 hsum.2 j (by omega) (by
              have := hS; unfold sums at this; rw [this]; exact hj)
            have hS' := hS
            unfold sums at hS'
            rw [hS'] at this
            rw [this]
        · rw [List.take_of_length_le (by omega)]
          have := MsgBin.nextframe_frame _ [] hsum.1 hsum.2
          have hS' := hS
          unfold sums at hS'
          rw [hS', List.append_nil] at this
          rw [this]
          simp only
          rw [ok.sum]
          simp only
          have hpar : v.par[v.log.length]? = none := by
            rw [hvp, hv, d.par]; apply List.getElem?_eq_none; simp
          rw [hpar]
          split
          · rfl
          · split
            · rfl
            · simp
    rw [hnone _ (by simpa using h2) (by simpa using h3)]

/-- So a crash during an append can lose the log but never yields a wrong one: what opens is the log
before or after the append. -/
theorem C16_crash_yields_no_wrong_log_partial (k : Codec) (ok : k.OK) {w w' : Wal} {p : Plain}
    {hz : Option Nat} (h : Hist k w p hz) (e : Ent) (hs : saveEntry k w e = some w') (f : Bytes)
    (par : List Bytes) (hc : CrashDisk w w' f par) :
    openWal k w.noCompact w.threshold f par = none ∨
    ∃ u, openWal k w.noCompact w.threshold f par = some u ∧ (u.log = w.log ∨ u.log = w'.log) := by
  obtain ⟨⟨u, a, b⟩, ⟨u', a', b', _⟩⟩ := C16_crash_before_or_after_append_partial k ok h e hs
  cases hc with
  | during n =>
    by_cases hn : n = 0
    · obtain ⟨m, _, d, _⟩ := hist_inv k ok h
      obtain ⟨r, a1, _, _, _, _, _, _, _, _, a8, _⟩ := saveEntry_spec k w w' e m hs
      have hfile : w'.file = w.file ++ recordBytes k r.bytes (lastEntryBytes w.log) := by
        rw [(a8 d).file, a1, enc_append, d.file]; simp [enc]
      have : w'.file.take (w.file.length + n) = w.file := by
        rw [hfile, hn, Nat.add_zero, List.take_left]
      rw [this]
      exact .inr ⟨u, a, .inl b⟩
    · exact .inl (C16_torn_append_unopenable_counterexample k ok h e hs n (by omega) _ _)
  | done => exact .inr ⟨u', a', .inr b'⟩

/-- There are such crash points. -/
example : ∃ w w' : Wal, saveEntry sampleCodec w (ent 2 1 [8]) = some w' ∧
    ∃ p hz, Hist sampleCodec w p hz := by
  have h1 := Hist.step (.append (ent 1 1 [9])) (Hist.new (k := sampleCodec) false 1000000) trivial
    (w' := (step sampleCodec (new false 1000000) (.append (ent 1 1 [9]))).get (by decide +kernel)) (by simp)
  exact ⟨_, (run sampleCodec (new false 1000000) [.append (ent 1 1 [9]), .append (ent 2 1 [8])]).get
    (by decide +kernel), by decide +kernel, _, _, h1⟩

end Verif.WAL
