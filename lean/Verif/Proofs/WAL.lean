import Verif.Spec.WAL
import Verif.Proofs.RLE
import Verif.Proofs.MsgBin
namespace Verif.WAL
open MsgBin (Bytes frame nextframe)
open Spec

/-- What is assumed of the marshalling code: it round-trips and encodings have at least 3
bytes; the two hashes fit one frame. -/
structure Codec.OK (k : Codec) : Prop where
  ent : ∀ e, k.deser (k.ser e) = some e
  entLen : ∀ e, 3 ≤ (k.ser e).length
  sum : ∀ a b, k.deserSum (k.serSum (k.H a, k.H b)) = some (k.H a, k.H b)
  sumLen : ∀ a b, 3 ≤ (k.serSum (k.H a, k.H b)).length ∧ (k.serSum (k.H a, k.H b)).length < 2 ^ 32

def terms (log : List Rec) : List Int := log.map (·.ent.term)

/-- Entries as they should be on disk: numbered from base+1, each naming its predecessor,
terms not decreasing, `bytes` the encoding. `pt` is the term before the first. -/
def Linked (k : Codec) : (base : Nat) → (pt : Int) → List Rec → Prop
  | _, _, [] => True
  | base, pt, r :: rs =>
    r.ent.index = base + 1 ∧ r.ent.prevIndex = base ∧ r.ent.prevTerm = pt ∧ pt ≤ r.ent.term ∧
    r.bytes = k.ser r.ent ∧ r.bytes.length < 2 ^ 32 ∧ Linked k (base + 1) r.ent.term rs

/-- The last term of a list of entries, or `pt`. -/
def lastT (pt : Int) (log : List Rec) : Int := (terms log).getLast?.getD pt

theorem lastT_concat (pt : Int) (log : List Rec) (r : Rec) : lastT pt (log ++ [r]) = r.ent.term := by
  simp [lastT, terms]

theorem linked_append (k : Codec) (a b : List Rec) : ∀ base pt,
    Linked k base pt (a ++ b) ↔ Linked k base pt a ∧ Linked k (base + a.length) (lastT pt a) b := by
  induction a with
  | nil => intro base pt; simp [Linked, lastT, terms]
  | cons r rs ih =>
    intro base pt
    simp only [List.cons_append, Linked, ih]
    have h1 : base + 1 + rs.length = base + (r :: rs).length := by simp; omega
    have h2 : lastT r.ent.term rs = lastT pt (r :: rs) := by
      unfold lastT terms
      rw [List.map_cons, List.getLast?_cons]; simp
    rw [h1, h2]
    constructor
    · rintro ⟨a, b, c, d, e, f, g, h⟩; exact ⟨⟨a, b, c, d, e, f, g⟩, h⟩
    · rintro ⟨⟨a, b, c, d, e, f, g⟩, h⟩; exact ⟨a, b, c, d, e, f, g, h⟩

theorem linked_index (k : Codec) (log : List Rec) : ∀ base pt, Linked k base pt log →
    ∀ i r, log[i]? = some r → r.ent.index = base + 1 + i := by
  induction log with
  | nil => intro base pt _ i r h; simp at h
  | cons x xs ih =>
    intro base pt h i r hr
    cases i with
    | zero => simp at hr; subst hr; exact h.1
    | succ i =>
      simp at hr
      have := ih _ _ h.2.2.2.2.2.2 i r hr
      omega

/-- The state in memory is consistent. -/
structure Mem (k : Codec) (w : Wal) : Prop where
  sim : RLE.Sim w.idx ⟨w.idx.base, 0, terms w.log⟩
  lli : w.lli = w.idx.base + w.log.length
  linked : ∃ pt, Linked k w.idx.base pt w.log

/-- The bytes of a list of entries written after the entries `done`. -/
def enc (k : Codec) (done : List Rec) : List Rec → Bytes
  | [] => []
  | r :: rs => recordBytes k r.bytes (lastEntryBytes done) ++ enc k (done ++ [r]) rs

theorem enc_append (k : Codec) (a b : List Rec) : ∀ done,
    enc k done (a ++ b) = enc k done a ++ enc k (done ++ a) b := by
  induction a with
  | nil => intro done; simp [enc]
  | cons r rs ih => intro done; simp [enc, ih, List.append_assoc]

/-- The files on disk hold what is in memory. -/
structure Disk (k : Codec) (w : Wal) : Prop where
  file : w.file = enc k [] w.log
  par : w.par = w.log.map fun r => k.H r.bytes

/-- Position of entry number `i`. -/
def off (k : Codec) (log : List Rec) (i : Nat) : Nat := (enc k [] (log.take i)).length

/-- begseekpos is right: everywhere (`none`), or up to number m (`some m`). -/
def SeekOK (k : Codec) (w : Wal) : Option Nat → Prop
  | none => w.seek.length = w.log.length ∧ ∀ i, i < w.log.length → w.seek[i]? = some (off k w.log i)
  | some m => m ≤ w.log.length ∧ ∀ i, i ≤ m →
      w.seek[i]? = some (off k w.log i) ∨ (i = w.seek.length ∧ i = w.log.length)

theorem off_append (k : Codec) (log : List Rec) (r : Rec) (i : Nat) (h : i ≤ log.length) :
    off k (log ++ [r]) i = off k log i := by
  unfold off; rw [List.take_append_of_le_length h]

theorem lastTerm_idx (w : Wal) (k : Codec) (h : Mem k w) :
    RLE.lastTerm w.idx = lastT w.idx.compactTerm w.log := by
  unfold lastT
  by_cases hl : terms w.log = []
  · have h1 := h.sim.terms
    simp only [hl] at h1
    rw [RLE.flat_eq_nil h.sim.pos] at h1
    simp [RLE.lastTerm, h1, hl]
  · rw [RLE.lastTerm_sim w.idx _ h.sim (Or.inl hl)]
    unfold RLE.Spec.Plain.lastTerm
    simp only
    cases hg : (terms w.log).getLast? with
    | none => simp at hg; exact absurd hg hl
    | some x => rfl

/-- What one successful save does. -/
theorem saveEntry_spec (k : Codec) (w w' : Wal) (e : Ent) (h : Mem k w)
    (hs : saveEntry k w e = some w') :
    ∃ r, w'.log = w.log ++ [r] ∧ cell r.ent = cell e ∧ e.index = r.ent.index ∧ Mem k w' ∧
      w'.idx.base = w.idx.base ∧ w'.noCompact = w.noCompact ∧ w'.threshold = w.threshold ∧
      w'.prevApplied = w.prevApplied ∧ w'.llt = e.term ∧
      (Disk k w → Disk k w') ∧
      (∀ hz, Disk k w → SeekOK k w hz → SeekOK k w' hz) ∧
      r.ent.prevTerm = w.llt ∧ w.llt = lastT w.idx.compactTerm w.log := by
  unfold saveEntry at hs
  split at hs
  · simp at hs
  next h1 =>
  split at hs
  · simp at hs
  next h2 =>
  split at hs
  · simp at hs
  next h3 =>
  cases ha : RLE.addTerm w.idx e.term with
  | none => simp [ha] at hs
  | some idx =>
    simp only [ha] at hs
    split at hs
    · simp at hs
    next h4 =>
    simp only [Option.some.injEq] at hs
    have hsim := RLE.sim_add w.idx idx _ e.term h.sim ha
    have hb : idx.base = w.idx.base := hsim.1.base
    have hlt := lastTerm_idx w k h
    simp only [ne_eq, Decidable.not_not] at h1 h2
    rw [h2] at hlt
    obtain ⟨pt, hp⟩ := h.linked
    have hle : w.llt ≤ e.term := by
      unfold RLE.addTerm at ha
      simp only at ha
      split at ha
      · simp at ha
      next hct =>
      cases hr : RLE.addRun e.term w.idx.runs with
      | none => simp [hr] at ha
      | some rs =>
        rw [← h2]
        unfold RLE.lastTerm
        cases hg : w.idx.runs.getLast? with
        | none => simp only; omega
        | some x =>
          simp only
          have hx : ∀ rs, (RLE.addRun e.term rs).isSome → ∀ x, rs.getLast? = some x → x.1 ≤ e.term := by
            intro rs
            induction rs with
            | nil => intro _ x hx; simp at hx
            | cons y ys ih =>
              intro hh x hx
              cases ys with
              | nil =>
                simp at hx; subst hx
                obtain ⟨t, c⟩ := y
                simp only [RLE.addRun] at hh
                split at hh
                · next he => simp [he]
                · split at hh
                  · simp at hh
                  · simp only; omega
              | cons z zs =>
                rw [RLE.addRun] at hh
                · simp only [Option.isSome_map] at hh
                  exact ih hh x (by simpa using hx)
          exact hx w.idx.runs (by simp [hr]) x hg
    let r : Rec := ⟨{ e with prevTerm := w.llt, prevIndex := w.lli },
      k.ser { e with prevTerm := w.llt, prevIndex := w.lli }⟩
    have hw' : w'.log = w.log ++ [r] := by subst hs; rfl
    have hlink : ∃ pt, Linked k w.idx.base pt (w.log ++ [r]) := by
      by_cases hn : w.log = []
      · refine ⟨w.llt, ?_⟩
        rw [hn]
        have := h.lli
        rw [hn] at this
        simp at this
        simp only [List.nil_append, Linked, r]
        exact ⟨by omega, this, trivial, hle, trivial, by omega, trivial⟩
      · refine ⟨pt, (linked_append k _ _ _ _).mpr ⟨hp, ?_⟩⟩
        have hll : w.llt = lastT pt w.log := by
          rw [hlt]
          unfold lastT
          cases hg : (terms w.log).getLast? with
          | none => simp [terms] at hg; exact absurd hg hn
          | some x => rfl
        simp only [Linked, r]
        exact ⟨by have := h.lli; omega, h.lli, hll, by omega, trivial, by omega, trivial⟩
    have hdisk : Disk k w → Disk k w' := by
      intro hd
      subst hs
      exact ⟨by simp only [enc_append, hd.file]; simp [enc], by simp [hd.par]⟩
    refine ⟨r, hw', by subst hs; rfl, rfl, ?_, ?_, ?_, ?_, ?_, ?_, hdisk, ?_, rfl, ?_⟩
    · refine ⟨?_, ?_, ?_⟩
      · subst hs
        have := hsim.1
        simp only [RLE.Spec.Plain.add] at this
        simp only [terms, List.map_append, List.map_cons, List.map_nil, hb]
        exact this
      · subst hs; simp only [hb, List.length_append, List.length_singleton]; have := h.lli; omega
      · rw [hw', show w'.idx.base = w.idx.base by subst hs; exact hb]; exact hlink
    · subst hs; exact hb
    · subst hs; rfl
    · subst hs; rfl
    · subst hs; rfl
    · subst hs; rfl
    · intro hz hd hk
      have hoff : off k w.log w.log.length = w.file.length := by
        unfold off; rw [List.take_length, hd.file]
      cases hz with
      | none =>
        obtain ⟨ha, hb⟩ := hk
        have hseek : w'.seek = w.seek ++ [w.file.length] := by subst hs; rfl
        refine ⟨by rw [hw', hseek]; simp [ha], ?_⟩
        intro i hi
        rw [hw'] at hi ⊢
        simp only [List.length_append, List.length_singleton] at hi
        rw [off_append k _ _ _ (by omega), hseek]
        by_cases hi2 : i < w.log.length
        · rw [List.getElem?_append_left (by omega)]; exact hb i hi2
        · have : i = w.seek.length := by omega
          subst this
          simp [ha, hoff]
      | some m =>
        obtain ⟨ha, hb⟩ := hk
        have hseek : w'.seek = w.seek ++ [w.file.length] := by subst hs; rfl
        refine ⟨by rw [hw']; simp; omega, ?_⟩
        intro i hi
        rw [hw', off_append k _ _ _ (by omega), hseek]
        left
        rcases hb i hi with this | ⟨h1, h2⟩
        · rw [List.getElem?_append_left (List.getElem?_eq_some_iff.mp this).1]
          exact this
        · rw [h1, List.getElem?_append_right (Nat.le_refl _), ← h1, h2, hoff]; simp
    · exact hlt

theorem saveAll_spec (k : Codec) (es : List Ent) : ∀ (w w' : Wal), Mem k w →
    saveAll k w es = some w' →
    ∃ rs, w'.log = w.log ++ rs ∧ rs.map (fun r => cell r.ent) = es.map cell ∧
      rs.map (·.ent.index) = es.map (·.index) ∧ Mem k w' ∧
      w'.idx.base = w.idx.base ∧ w'.noCompact = w.noCompact ∧ w'.threshold = w.threshold ∧
      w'.prevApplied = w.prevApplied ∧
      (Disk k w → Disk k w') ∧ (∀ hz, Disk k w → SeekOK k w hz → SeekOK k w' hz) := by
  induction es with
  | nil =>
    intro w w' h hs
    simp [saveAll] at hs
    subst hs
    exact ⟨[], by simp, rfl, rfl, h, rfl, rfl, rfl, rfl, id, fun _ _ h => h⟩
  | cons e es ih =>
    intro w w' h hs
    simp only [saveAll] at hs
    cases h1 : saveEntry k w e with
    | none => simp [h1] at hs
    | some w1 =>
      simp only [h1, Option.bind_some] at hs
      obtain ⟨r, a1, a2, a3, a4, a5, a6, a7, a8, a9, a10, a11, _⟩ := saveEntry_spec k w w1 e h h1
      obtain ⟨rs, b1, b2, b3, b4, b5, b6, b7, b8, b9, b10⟩ := ih w1 w' a4 hs
      refine ⟨r :: rs, by rw [b1, a1]; simp, by simp [a2, b2], by simp [b3, a3], b4, by rw [b5, a5],
        by rw [b6, a6], by rw [b7, a7], by rw [b8, a8], fun hd => b9 (a10 hd), ?_⟩
      intro hz hd hk
      exact b10 hz (a10 hd) (a11 hz hd hk)

/-- The state of the index while loading. -/
def LoadIdx (w : Wal) (base : Nat) (pt : Int) : Prop :=
  if w.log = [] then w.idx.runs = [] ∧ w.idx.endi = 0
  else RLE.Sim w.idx ⟨base, 0, terms w.log⟩ ∧ w.idx.compactTerm = pt ∧
    w.lli = base + w.log.length ∧ w.llt = lastT pt w.log

theorem addTerm_ok (idx : RLE.T) (t : Int) (h1 : idx.compactTerm ≤ t)
    (h2 : ∀ r, idx.runs.getLast? = some r → r.1 ≤ t) : ∃ idx', RLE.addTerm idx t = some idx' := by
  obtain ⟨r, hr⟩ := RLE.addRun_some t idx.runs h2
  unfold RLE.addTerm
  simp only
  rw [if_neg (by omega), hr]
  exact ⟨_, rfl⟩

/-- Loading one entry that was written properly. -/
theorem loadOne_spec (k : Codec) (ok : k.OK) (w : Wal) (base : Nat) (pt : Int) (r : Rec) (rest : Bytes)
    (hl : Linked k base pt (w.log ++ [r])) (hi : LoadIdx w base pt)
    (hp : w.par[w.log.length]? = some (k.H r.bytes)) :
    ∃ w', loadOne k w r.bytes (frame (k.serSum (sums k r.bytes (lastEntryBytes w.log))) ++ rest) =
        some (w', rest) ∧ w'.log = w.log ++ [r] ∧ LoadIdx w' base pt ∧ w'.file = w.file ∧
      w'.par = w.par ∧ w'.seek = w.seek ∧ w'.noCompact = w.noCompact ∧ w'.threshold = w.threshold ∧
      w'.prevApplied = w.prevApplied := by
  rw [linked_append] at hl
  obtain ⟨hl1, h1, h2, h3, h4, h5, h6, _⟩ := hl
  unfold loadOne
  rw [h5, ok.ent]
  simp only
  unfold sums
  rw [MsgBin.nextframe_frame _ _ (ok.sumLen _ _).1 (ok.sumLen _ _).2]
  simp only [ok.sum]
  rw [h5] at hp
  simp only [ne_eq, not_true_eq_false, if_false, hp]
  have hpos0 : RLE.Pos [] := by intro x hx; simp at hx
  by_cases hn : w.log = []
  · rw [LoadIdx, if_pos hn] at hi
    simp only [hn, List.length_nil, Nat.add_zero] at h1 h2
    simp only [lastT, hn, terms, List.map_nil, List.getLast?_nil, Option.getD_none] at h3 h4
    simp only [hn, List.getLast?_nil]
    rw [if_neg (by omega)]
    simp only
    obtain ⟨idx', ha⟩ := addTerm_ok { w.idx with base := r.ent.prevIndex, compactTerm := r.ent.prevTerm }
      r.ent.term (by simp only; omega) (by intro x hx; simp [hi.1] at hx)
    rw [ha]
    refine ⟨_, rfl, by simp [← h5], ?_, rfl, rfl, rfl, rfl, rfl, rfl⟩
    rw [LoadIdx, if_neg (by simp)]
    have ha' := ha
    unfold RLE.addTerm at ha
    simp only [hi.2, hi.1] at ha
    rw [if_neg (by omega)] at ha
    simp [RLE.addRun] at ha
    refine ⟨?_, ?_, ?_, ?_⟩
    · subst ha
      refine ⟨h2, by simp [terms, RLE.flat], by simp [terms, h2], ?_⟩
      intro x hx; simp at hx; subst hx; simp
    · subst ha; exact h3
    · simp [h2]
    · simp [lastT, terms]
  · rw [LoadIdx, if_neg hn] at hi
    obtain ⟨hs, hc, hlli, hllt⟩ := hi
    obtain ⟨init, p, hip⟩ : ∃ init p, w.log = init ++ [p] := by
      exact ⟨w.log.dropLast, w.log.getLast hn, (List.dropLast_concat_getLast hn).symm⟩
    have hg : w.log.getLast? = some p := by rw [hip]; simp
    have hidx : p.ent.index = r.ent.prevIndex := by
      have := linked_index k w.log base pt hl1 (w.log.length - 1) p (by rw [← List.getLast?_eq_getElem?]; exact hg)
      have : 0 < w.log.length := by rw [hip]; simp
      omega
    have hterm : p.ent.term = r.ent.prevTerm := by
      rw [h3, hip, lastT_concat]
    simp only [hg, hidx, hterm, not_true_eq_false, if_false]
    have hlt : RLE.lastTerm w.idx = lastT pt w.log := by
      rw [RLE.lastTerm_sim w.idx _ hs (Or.inl (by simp [terms, hn]))]
      simp only [RLE.Spec.Plain.lastTerm, lastT]
      rw [hip]; simp [terms]
    obtain ⟨idx', ha⟩ := addTerm_ok w.idx r.ent.term (by
        have : ∀ (log : List Rec) base pt, Linked k base pt log → pt ≤ lastT pt log := by
          intro log
          induction log with
          | nil => intro base pt _; simp [lastT, terms]
          | cons x xs ih =>
            intro base pt hx
            have h1 := ih _ _ hx.2.2.2.2.2.2
            have h2 : lastT pt (x :: xs) = lastT x.ent.term xs := by
              unfold lastT terms
              rw [List.map_cons, List.getLast?_cons]; simp
            have h3 := hx.2.2.2.1
            omega
        have := this w.log base pt hl1
        omega) (by
        intro x hx
        rw [RLE.lastTerm, hx] at hlt
        simp only at hlt
        omega)
    rw [ha]
    refine ⟨_, rfl, by simp [← h5], ?_, rfl, rfl, rfl, rfl, rfl, rfl⟩
    rw [LoadIdx, if_neg (by simp)]
    have hadd := RLE.sim_add w.idx idx' _ r.ent.term hs ha
    refine ⟨?_, ?_, ?_, ?_⟩
    · have := hadd.1
      simp only [RLE.Spec.Plain.add] at this
      simp only [terms, List.map_append, List.map_cons, List.map_nil]
      exact this
    · simp only [hadd.2, hc]
    · simp only [hlli, List.length_append, List.length_singleton]; omega
    · simp [lastT, terms]

theorem loadLoop_spec (k : Codec) (ok : k.OK) (base : Nat) (pt : Int) (todo : List Rec) :
    ∀ (fuel : Nat) (w : Wal), todo.length < fuel → w.file = enc k [] (w.log ++ todo) →
    Linked k base pt (w.log ++ todo) → LoadIdx w base pt →
    (∀ (i : Nat) (r : Rec), (w.log ++ todo)[i]? = some r → w.par[i]? = some (k.H r.bytes)) →
    ∃ w', loadLoop k fuel w (enc k w.log todo) = some w' ∧ w'.log = w.log ++ todo ∧
      LoadIdx w' base pt ∧ w'.file = w.file ∧ w'.par = w.par ∧
      w'.seek = w.seek ++ (List.range' w.log.length (todo.length + 1)).map (off k (w.log ++ todo)) ∧
      w'.noCompact = w.noCompact ∧ w'.threshold = w.threshold ∧ w'.prevApplied = w.prevApplied := by
  induction todo with
  | nil =>
    intro fuel w hf hfile hl hi hp
    cases fuel with
    | zero => omega
    | succ fuel =>
      refine ⟨{ w with seek := w.seek ++ [w.file.length] }, by simp [loadLoop, enc, nextframe],
        by simp, ?_, rfl, rfl, ?_, rfl, rfl, rfl⟩
      · exact hi
      · simp only [List.append_nil] at hfile
        simp [off, hfile]
  | cons r rs ih =>
    intro fuel w hf hfile hl hi hp
    cases fuel with
    | zero => simp at hf
    | succ fuel =>
      have hl' := hl
      rw [show w.log ++ r :: rs = (w.log ++ [r]) ++ rs by simp] at hl'
      have hl1 := ((linked_append k _ _ _ _).mp hl').1
      have hr := ((linked_append k _ _ _ _).mp hl).2
      have hlen : r.bytes.length < 2 ^ 32 := hr.2.2.2.2.2.1
      have hlen3 : 3 ≤ r.bytes.length := by rw [hr.2.2.2.2.1]; exact ok.entLen _
      have henc : enc k [] (w.log ++ r :: rs) = enc k [] w.log ++ enc k w.log (r :: rs) := by
        rw [enc_append]; simp
      let w0 : Wal := { w with seek := w.seek ++ [w.file.length - (enc k w.log (r :: rs)).length] }
      obtain ⟨w1, h1, h2, h3, h4, h5, h6, h7, h8, h9⟩ := loadOne_spec k ok w0 base pt r
        (enc k (w.log ++ [r]) rs) hl1 hi (hp w.log.length r (by simp))
      obtain ⟨w', g1, g2, g3, g4, g5, g6, g7, g8, g9⟩ := ih fuel w1 (by simp at hf; omega)
        (by rw [h4, h2]; show w.file = _; rw [hfile]; simp [w0]) (by rw [h2]; exact hl') h3
        (by intro i x hx; rw [h5]; apply hp; rw [h2] at hx; simpa [w0] using hx)
      refine ⟨w', ?_, by rw [g2, h2]; simp [w0], g3, by rw [g4, h4], by rw [g5, h5], ?_,
        by rw [g7, h7], by rw [g8, h8], by rw [g9, h9]⟩
      · unfold loadLoop
        simp only
        have hsplit : enc k w.log (r :: rs) = frame r.bytes ++
            (frame (k.serSum (sums k r.bytes (lastEntryBytes w.log))) ++ enc k (w.log ++ [r]) rs) := by
          simp [enc, recordBytes]
        have hnf : nextframe (enc k w.log (r :: rs)) = .ok r.bytes
            (frame (k.serSum (sums k r.bytes (lastEntryBytes w.log))) ++ enc k (w.log ++ [r]) rs) := by
          rw [hsplit, MsgBin.nextframe_frame _ _ hlen3 hlen]
        rw [hnf]
        simp only
        have h1' := h1
        simp only [w0] at h1'
        rw [h1']
        simp only
        rw [h2] at g1
        exact g1
      · rw [g6, h6, h2]
        have hpos : w.file.length - (enc k w.log (r :: rs)).length = off k (w.log ++ r :: rs) w.log.length := by
          rw [hfile, henc]
          unfold off
          rw [List.take_left]
          simp
        simp only [w0, hpos, List.length_cons, List.length_append, List.length_nil, List.append_assoc,
          List.cons_append, List.nil_append]
        rw [show rs.length + 1 + 1 = (rs.length + 1) + 1 from rfl, List.range'_succ (s := w.log.length)]
        simp

/-- Opening files that hold `log`. -/
theorem load_spec (k : Codec) (ok : k.OK) (w : Wal) (base : Nat) (pt : Int) (log : List Rec)
    (h0 : w.log = []) (hfile : w.file = enc k [] log) (hl : Linked k base pt log)
    (hi : w.idx.runs = [] ∧ w.idx.endi = 0)
    (hp : ∀ (i : Nat) (r : Rec), log[i]? = some r → w.par[i]? = some (k.H r.bytes)) :
    ∃ w', loadLoop k (w.file.length + 1) w w.file = some w' ∧ w'.log = log ∧
      LoadIdx w' base pt ∧ w'.file = w.file ∧ w'.par = w.par ∧
      w'.seek = w.seek ++ (List.range' 0 (log.length + 1)).map (off k log) ∧
      w'.noCompact = w.noCompact ∧ w'.threshold = w.threshold ∧ w'.prevApplied = w.prevApplied := by
  have hfuel : ∀ (log done : List Rec), log.length ≤ (enc k done log).length := by
    intro log
    induction log with
    | nil => intro done; simp
    | cons r rs ih =>
      intro done
      have := ih (done ++ [r])
      have := MsgBin.frame_length r.bytes
      simp only [enc, recordBytes, List.length_append, List.length_cons]
      omega
  have := loadLoop_spec k ok base pt log (w.file.length + 1) w
    (by have := hfuel log []; rw [hfile]; omega) (by rw [h0]; exact hfile) (by rw [h0]; exact hl)
    (by rw [LoadIdx, if_pos h0]; exact hi) (by rw [h0]; exact hp)
  rw [h0] at this
  simp only [List.nil_append, List.length_nil] at this
  rw [← hfile] at this
  exact this


theorem mem_head (k : Codec) (w : Wal) (h : Mem k w) (r : Rec) (hr : w.log.head? = some r) :
    r.ent.index = w.idx.base + 1 := by
  obtain ⟨pt, hl⟩ := h.linked
  have := linked_index k w.log _ _ hl 0 r (by rw [← List.head?_eq_getElem?]; exact hr)
  omega

theorem mem_last (k : Codec) (w : Wal) (h : Mem k w) (r : Rec) (hr : w.log.getLast? = some r) :
    r.ent.index = w.idx.base + w.log.length := by
  obtain ⟨pt, hl⟩ := h.linked
  have := linked_index k w.log _ _ hl (w.log.length - 1) r (by rw [← List.getLast?_eq_getElem?]; exact hr)
  have : 0 < w.log.length := by
    cases hw : w.log with
    | nil => simp [hw] at hr
    | cons => simp
  omega

theorem linked_take (k : Codec) (log : List Rec) (n : Nat) (base : Nat) (pt : Int)
    (h : Linked k base pt log) : Linked k base pt (log.take n) := by
  rw [← List.take_append_drop n log, linked_append] at h
  exact h.1

theorem enc_take_prefix (k : Codec) (log : List Rec) (n : Nat) :
    (enc k [] log).take (off k log n) = enc k [] (log.take n) := by
  unfold off
  have : enc k [] log = enc k [] (log.take n) ++ enc k (log.take n) (log.drop n) := by
    rw [← List.nil_append (log.take n)]
    conv => lhs; rw [← List.take_append_drop n log]
    rw [enc_append]; simp
  rw [this]; simp

theorem off_le (k : Codec) (log : List Rec) (n : Nat) : off k log n ≤ (enc k [] log).length := by
  have := congrArg List.length (enc_take_prefix k log n)
  rw [List.length_take] at this
  unfold off at *
  omega

theorem off_take (k : Codec) (log : List Rec) (n i : Nat) (h : i ≤ n) :
    off k (log.take n) i = off k log i := by
  unfold off; rw [List.take_take, Nat.min_eq_left h]

/-- The position table is right at number `kc`. -/
def hzOK (kc : Nat) : Option Nat → Prop
  | none => True
  | some m => kc ≤ m

theorem cutTail_spec (k : Codec) (w w' : Wal) (kc : Nat) (es : List Ent) (commit : Option Nat)
    (h : Mem k w) (hk : kc < w.log.length)
    (hs : cutTail w (w.idx.base + kc) kc es commit = some w') :
    w'.log = w.log.take kc ∧ Mem k w' ∧ w'.idx.base = w.idx.base ∧ w'.noCompact = w.noCompact ∧
      w'.threshold = w.threshold ∧ w'.prevApplied = w.prevApplied ∧
      (∀ hz, Disk k w → SeekOK k w hz → hzOK kc hz → Disk k w' ∧ SeekOK k w' none) := by
  unfold cutTail at hs
  cases hb : w.seek[kc]? with
  | none => simp [hb] at hs
  | some beg =>
    simp only [hb] at hs
    split at hs
    · simp at hs
    split at hs
    · simp at hs
    split at hs
    · simp at hs
    cases ht : RLE.truncate w.idx (w.idx.base + kc) with
    | none => simp [ht] at hs
    | some idx =>
      simp only [ht, Option.some.injEq] at hs
      have hsim := RLE.sim_truncate w.idx idx _ _ h.sim ht
      unfold RLE.Spec.Plain.truncate at hsim
      simp only at hsim
      rw [if_neg (by omega), Nat.add_sub_cancel_left] at hsim
      have hb2 : idx.base = w.idx.base := hsim.base
      have hlog : w'.log = w.log.take kc := by subst hs; rfl
      refine ⟨hlog, ⟨?_, ?_, ?_⟩, by subst hs; exact hb2, by subst hs; rfl, by subst hs; rfl,
        by subst hs; rfl, ?_⟩
      · subst hs
        simp only [hb2, terms, List.map_take]
        exact hsim
      · subst hs
        simp only [hb2, List.length_take]; omega
      · obtain ⟨pt, hl⟩ := h.linked
        refine ⟨pt, ?_⟩
        subst hs
        simp only [hb2]
        exact linked_take k _ _ _ _ hl
      · intro hz hd hsk hzk
        have hbeg : beg = off k w.log kc := by
          cases hz with
          | none => have := hsk.2 kc hk; rw [hb] at this; exact Option.some.inj this
          | some m =>
            rcases hsk.2 kc hzk with this | ⟨h1, h2⟩
            · rw [hb] at this; exact Option.some.inj this
            · omega
        refine ⟨⟨?_, ?_⟩, ?_, ?_⟩
        · subst hs
          simp only
          unfold padTake
          have := off_le k w.log kc
          rw [hd.file, hbeg, enc_take_prefix, Nat.sub_eq_zero_of_le this]
          simp
        · subst hs
          simp [hd.par, List.map_take]
        · subst hs
          have : kc < w.seek.length := (List.getElem?_eq_some_iff.mp hb).1
          simp only [List.length_take]; omega
        · intro i hi
          rw [hlog] at hi ⊢
          have hseek : w'.seek = w.seek.take kc := by subst hs; rfl
          simp only [List.length_take] at hi
          rw [off_take k _ _ _ (by omega), hseek, List.getElem?_take_of_lt (by omega)]
          cases hz with
          | none => exact hsk.2 i (by omega)
          | some m =>
            rcases hsk.2 i (by simp only [hzOK] at hzk; omega) with this | ⟨h1, h2⟩
            · exact this
            · omega

/-- What a successful compaction does. -/
theorem compact_spec (k : Codec) (ok : k.OK) (w w' : Wal) (keep : Nat) (h : Mem k w)
    (hs : compact k w keep = some w') :
    w' = w ∨ ∃ d, 0 < d ∧ d < w.log.length ∧ w.idx.base + d + 1 = keep ∧
      w'.log.map (fun r => cell r.ent) = (w.log.drop d).map (fun r => cell r.ent) ∧ Mem k w' ∧
      w'.idx.base = w.idx.base + d ∧ w'.noCompact = w.noCompact ∧ w'.threshold = w.threshold ∧
      w'.prevApplied = w.prevApplied ∧ Disk k w' ∧ SeekOK k w' (some w'.log.length) := by
  unfold compact at hs
  split at hs
  · simp at hs
  next hnc =>
  cases hf : w.log.head? with
  | none => simp [hf] at hs; exact .inl hs.symm
  | some first =>
    cases hla : w.log.getLast? with
    | none => simp [hf, hla] at hs; exact .inl hs.symm
    | some last =>
      simp only [hf, hla] at hs
      split at hs
      · simp at hs; exact .inl hs.symm
      next hk0 =>
      split at hs
      · simp at hs
      next hk1 =>
      split at hs
      · simp at hs; exact .inl hs.symm
      next hk2 =>
      cases hc : RLE.compactNewBeg w.idx keep with
      | none => simp [hc] at hs
      | some idx1 =>
        simp only [hc] at hs
        have hfi := mem_head k w h first hf
        have hli := mem_last k w h last hla
        have hsim1 := (RLE.sim_compact w.idx idx1 _ keep h.sim hc).1
        have hb1 : idx1.base = keep - 1 := by
          rw [hsim1.base]; unfold RLE.Spec.Plain.compact; rw [if_neg hk0]
        generalize hs2 : ({ new w.noCompact w.threshold with
            lli := idx1.base, llt := idx1.compactTerm
            idx := { base := idx1.base, endi := idx1.base, compactTerm := idx1.compactTerm, runs := [] } } : Wal)
          = s2 at hs
        cases hsa : saveAll k s2 ((w.log.drop (keep - first.ent.index)).map (·.ent)) with
        | none => rw [hsa] at hs; cases hs
        | some s3 =>
          simp only [hsa] at hs
          split at hs
          · simp at hs
          next heq =>
          have hpos0 : RLE.Pos [] := by intro x hx; simp at hx
          have hm2 : Mem k s2 := by
            subst hs2
            refine ⟨⟨rfl, rfl, by simp [new, terms], hpos0⟩, by simp [new], ⟨0, trivial⟩⟩
          have hd2 : Disk k s2 := by subst hs2; exact ⟨rfl, rfl⟩
          obtain ⟨rs, a1, a2, a3, a4, a5, a6, a7, a8, a9, a10⟩ := saveAll_spec k _ s2 s3 hm2 hsa
          have h2log : s2.log = [] := by subst hs2; rfl
          have h2base : s2.idx.base = idx1.base := by subst hs2; rfl
          rw [h2log, List.nil_append] at a1
          have hd3 := a9 hd2
          obtain ⟨pt, hl⟩ := a4.linked
          obtain ⟨w4, b1, b2, b3, b4, b5, b6, b7, b8, b9⟩ := load_spec k ok
            { w with log := [], seek := [], file := s3.file, par := s3.par
                     idx := { RLE.new with base := idx1.base, compactTerm := idx1.compactTerm } }
            s3.idx.base pt s3.log rfl hd3.file hl ⟨rfl, rfl⟩
            (by intro i r hr; simp [hd3.par, hr])
          simp only at b1
          rw [b1] at hs
          injection hs with hs
          subst hs
          have hne : rs ≠ [] := by
            intro h0
            have hlen := congrArg List.length a2
            rw [h0] at hlen
            simp at hlen
            omega
          refine .inr ⟨keep - first.ent.index, by omega, by omega, by omega, ?_, ?_, ?_, b7, b8, b9,
            ?_, ?_⟩
          · rw [b2, a1, a2, List.map_map]; rfl
          · rw [LoadIdx, if_neg (by rw [b2, a1]; exact hne)] at b3
            have hbb : w4.idx.base = s3.idx.base := b3.1.base
            refine ⟨?_, ?_, ⟨pt, ?_⟩⟩
            · rw [hbb]; exact b3.1
            · rw [hbb]; exact b3.2.2.1
            · rw [hbb, b2]; exact hl
          · rw [LoadIdx, if_neg (by rw [b2, a1]; exact hne)] at b3
            rw [b3.1.base]
            simp only
            rw [a5, h2base]; omega
          · refine ⟨by rw [b4, b2]; exact hd3.file, by rw [b5, b2]; exact hd3.par⟩
          · refine ⟨Nat.le_refl _, ?_⟩
            intro i hi
            left
            rw [b6, b2]
            rw [b2] at hi
            simp only [List.nil_append, List.getElem?_map]
            rw [List.getElem?_range' (by omega)]
            simp


theorem maybeCompact_spec (k : Codec) (ok : k.OK) (w w' : Wal) (applied : Nat) (h : Mem k w)
    (hs : maybeCompact k w applied = some w') :
    ∃ d, d ≤ w.log.length ∧
      w'.log.map (fun r => cell r.ent) = (w.log.drop d).map (fun r => cell r.ent) ∧ Mem k w' ∧
      w'.idx.base = w.idx.base + d ∧ (0 < d → w.idx.base + d < applied) ∧
      (if d = 0 then
        (Disk k w → Disk k w') ∧ (∀ hz, SeekOK k w hz → SeekOK k w' hz) ∧ w'.log = w.log
       else Disk k w' ∧ SeekOK k w' (some w'.log.length)) := by
  unfold maybeCompact at hs
  split at hs
  · have hm : Mem k { w with prevApplied := applied } := ⟨h.sim, h.lli, h.linked⟩
    rcases compact_spec k ok _ w' applied hm hs with rfl | ⟨d, h1, h2, h3, h4, h5, h6, _, _, _, h7, h8⟩
    · refine ⟨0, by omega, by simp, hm, by simp, by omega, ?_⟩
      rw [if_pos rfl]
      refine ⟨fun hd => ⟨hd.file, hd.par⟩, ?_, rfl⟩
      intro hz hk
      cases hz <;> exact hk
    · simp only at h2 h3 h4 h6
      exact ⟨d, by omega, h4, h5, h6, by omega, by rw [if_neg (by omega)]; exact ⟨h7, h8⟩⟩
  · simp at hs
    subst hs
    exact ⟨0, by omega, by simp, h, by simp, by omega, by rw [if_pos rfl]; exact ⟨id, fun _ h => h, rfl⟩⟩

theorem barrier_eq (k : Codec) (w : Wal) (h : Mem k w) :
    barrier w = w.idx.base := by
  unfold barrier
  cases hf : w.log.head? with
  | none =>
    simp at hf
    have := h.lli
    rw [hf] at this
    simpa using this
  | some r =>
    have := mem_head k w h r hf
    simp only; omega

/-- What a successful overwrite does, up to compaction: either everything offered was already
compacted and nothing happens, or the tail after max(keep, base) is replaced. -/
theorem overwrite_spec (k : Codec) (w w' : Wal) (keep : Nat) (es : List Ent)
    (commit : Option Nat) (applied : Nat) (h : Mem k w)
    (hs : overwrite k w keep es commit applied = some w') :
    (keep < w.idx.base ∧ keep + es.length ≤ w.idx.base ∧ w' = w) ∨
    (¬ (keep < w.idx.base ∧ keep + es.length ≤ w.idx.base) ∧ ∃ w1, Mem k w1 ∧
      w1.idx.base = w.idx.base ∧
      w1.log.map (fun r => cell r.ent) =
        (w.log.take (max keep w.idx.base - w.idx.base)).map (fun r => cell r.ent) ++
        (es.drop (w.idx.base - keep)).map cell ∧
      (∀ hz, Disk k w → SeekOK k w hz →
        (if max keep w.idx.base < w.idx.base + w.log.length then
          hzOK (max keep w.idx.base - w.idx.base) hz → Disk k w1 ∧ SeekOK k w1 none
         else Disk k w1 ∧ SeekOK k w1 hz)) ∧
      maybeCompact k w1 applied = some w') := by
  unfold overwrite at hs
  simp only [barrier_eq k w h] at hs
  split at hs
  · next hc => simp at hs; exact .inl ⟨hc.1, hc.2, hs.symm⟩
  next hc =>
  refine .inr ⟨hc, ?_⟩
  generalize hkeep : max keep w.idx.base = K at hs ⊢
  generalize hes : es.drop (w.idx.base - keep) = es' at hs ⊢
  generalize hcut : cutAfter w K es' commit = cut at hs
  have key : ∀ w0, cut = some w0 →
      Mem k w0 ∧ w0.idx.base = w.idx.base ∧ w0.log = w.log.take (K - w.idx.base) ∧
      (∀ hz, Disk k w → SeekOK k w hz →
        (if K < w.idx.base + w.log.length then
          hzOK (K - w.idx.base) hz → Disk k w0 ∧ SeekOK k w0 none
         else Disk k w0 ∧ SeekOK k w0 hz)) := by
    intro w0 hw0
    have hnone : w.log.length ≤ K - w.idx.base → cut = some w → Mem k w0 ∧ w0.idx.base = w.idx.base ∧
        w0.log = w.log.take (K - w.idx.base) ∧
      (∀ hz, Disk k w → SeekOK k w hz →
        (if K < w.idx.base + w.log.length then
          hzOK (K - w.idx.base) hz → Disk k w0 ∧ SeekOK k w0 none
         else Disk k w0 ∧ SeekOK k w0 hz)) := by
      intro hle he
      rw [he] at hw0
      injection hw0 with hw0
      subst hw0
      refine ⟨h, rfl, (List.take_of_length_le hle).symm, ?_⟩
      intro hz hd hk
      rw [if_neg (by omega)]
      exact ⟨hd, hk⟩
    cases hf : w.log.head? with
    | none =>
      have : w.log = [] := by simpa using hf
      exact hnone (by simp [this]) (by rw [← hcut, cutAfter, hf])
    | some first =>
      cases hla : w.log.getLast? with
      | none =>
        have : w.log = [] := by simpa using hla
        exact hnone (by simp [this]) (by rw [← hcut, cutAfter, hf, hla])
      | some last =>
        have hfi := mem_head k w h first hf
        have hli := mem_last k w h last hla
        simp only [cutAfter, hf, hla] at hcut
        by_cases h1 : last.ent.index ≤ K
        · rw [if_pos h1] at hcut
          exact hnone (by omega) hcut.symm
        · rw [if_neg h1] at hcut
          have hct : cutTail w (w.idx.base + (K - w.idx.base)) (K - w.idx.base) es' commit = cut := by
            split at hcut
            · rw [← hcut]; congr 1 <;> omega
            · rw [← hcut]; congr 1 <;> omega
          rw [hw0] at hct
          obtain ⟨c1, c2, c3, c4, c5, c6, c7⟩ := cutTail_spec k w w0 (K - w.idx.base) es' commit h
            (by omega) hct
          refine ⟨c2, c3, c1, ?_⟩
          intro hz hd hk
          rw [if_pos (by omega)]
          exact c7 hz hd hk
  cases hcv : cut with
  | none => simp [hcv] at hs
  | some w0 =>
    obtain ⟨m0, b0, l0, d0⟩ := key w0 hcv
    simp only [hcv, Option.bind_some] at hs
    cases hsa : saveAll k w0 es' with
    | none => simp [hsa] at hs
    | some w1 =>
      simp only [hsa, Option.bind_some] at hs
      obtain ⟨rs, a1, a2, a3, a4, a5, a6, a7, a8, a9, a10⟩ := saveAll_spec k es' w0 w1 m0 hsa
      refine ⟨w1, a4, by rw [a5, b0], by rw [a1, List.map_append, a2, l0], ?_, hs⟩
      intro hz hd hk
      have := d0 hz hd hk
      split
      · next hlt =>
        rw [if_pos hlt] at this
        intro hh
        obtain ⟨x, y⟩ := this hh
        exact ⟨a9 x, a10 none x y⟩
      · next hlt =>
        rw [if_neg hlt] at this
        exact ⟨a9 this.1, a10 hz this.1 this.2⟩

/-- The log stands for the plain log. -/
structure Rel (w : Wal) (p : Plain) : Prop where
  start : p.start ≤ w.idx.base
  last : w.idx.base ≤ p.last
  cells : w.log.map (fun r => cell r.ent) = p.cells.drop (w.idx.base - p.start)

theorem rel_drop (w w' : Wal) (p : Plain) (d : Nat) (h : Rel w p) (hd : d ≤ w.log.length)
    (hb : w'.idx.base = w.idx.base + d)
    (hl : w'.log.map (fun r => cell r.ent) = (w.log.drop d).map (fun r => cell r.ent)) : Rel w' p := by
  have hlen := congrArg List.length h.cells
  simp only [List.length_map, List.length_drop] at hlen
  have h1 := h.start; have h2 := h.last
  unfold Plain.last at h2
  refine ⟨by omega, by unfold Plain.last; omega, ?_⟩
  rw [hl, List.map_drop, h.cells, List.drop_drop, hb]
  congr 1; omega

theorem step_spec (k : Codec) (ok : k.OK) (w w' : Wal) (p : Plain) (o : Op) (ho : o ≠ .reopen)
    (h : Mem k w) (hr : Rel w p) (hs : step k w o = some w') :
    Mem k w' ∧ Rel w' (p.step w.idx.base o) := by
  have hlen := congrArg List.length hr.cells
  simp only [List.length_map, List.length_drop] at hlen
  have h1 := hr.start; have h2 := hr.last
  unfold Plain.last at h2
  cases o with
  | append e =>
    obtain ⟨r, a1, a2, a3, a4, a5, _⟩ := saveEntry_spec k w w' e h hs
    refine ⟨a4, ⟨by rw [a5]; exact h1, ?_, ?_⟩⟩
    · simp only [Plain.step, Plain.last, List.length_append, List.length_singleton, a5]; omega
    · simp only [Plain.step, a1, a5, List.map_append, List.map_cons, List.map_nil, hr.cells, a2]
      rw [List.drop_append_of_le_length (by omega)]
  | overwrite keep es commit applied =>
    simp only [step] at hs
    simp only [Plain.step, Plain.overwrite]
    rcases overwrite_spec k w w' keep es commit applied h hs with ⟨c1, c2, rfl⟩ | ⟨c, w1, m1, b1, l1, _, hc⟩
    · rw [if_pos ⟨c2, c1⟩]; exact ⟨h, hr⟩
    · rw [if_neg (by omega)]
      obtain ⟨d, g1, g2, g3, g4, _⟩ := maybeCompact_spec k ok w1 w' applied m1 hc
      refine ⟨g3, rel_drop w1 w' _ d ⟨by rw [b1]; exact h1, ?_, ?_⟩ g1 g4 g2⟩
      · simp only [Plain.last, List.length_append, List.length_take, b1]; omega
      · rw [l1, b1, List.map_take, hr.cells]
        simp only
        rw [List.drop_append_of_le_length (by simp; omega), List.drop_take]
        congr 2; omega
  | compact keep =>
    rcases compact_spec k ok w w' keep h hs with rfl | ⟨d, g1, g2, g3, g4, g5, g6, _⟩
    · exact ⟨h, hr⟩
    · exact ⟨g5, rel_drop w w' p d hr (by omega) g6 g4⟩
  | snapshot i t =>
    simp [step] at hs
    subst hs
    refine ⟨⟨⟨rfl, rfl, by simp [installedSnapshot, terms], by intro x hx; simp [installedSnapshot] at hx⟩,
      by simp [installedSnapshot], ⟨0, trivial⟩⟩, ⟨Nat.le_refl _, by simp [Plain.step, Plain.last, installedSnapshot], ?_⟩⟩
    simp [Plain.step, installedSnapshot]
  | reopen => exact absurd rfl ho

theorem mem_new (k : Codec) (nc : Bool) (t : Nat) : Mem k (new nc t) :=
  ⟨RLE.sim_new, rfl, ⟨0, trivial⟩⟩

theorem rel_new (nc : Bool) (t : Nat) : Rel (new nc t) ⟨0, []⟩ := ⟨Nat.le_refl _, Nat.le_refl _, rfl⟩

theorem runBoth_spec (k : Codec) (ok : k.OK) (ops : List Op) : ∀ (w w' : Wal) (p p' : Plain),
    Op.reopen ∉ ops → Mem k w → Rel w p → runBoth k w p ops = some (w', p') → Mem k w' ∧ Rel w' p' := by
  induction ops with
  | nil => intro w w' p p' _ h hr hs; simp [runBoth] at hs; obtain ⟨rfl, rfl⟩ := hs; exact ⟨h, hr⟩
  | cons o os ih =>
    intro w w' p p' hn h hr hs
    simp only [runBoth] at hs
    cases h1 : step k w o with
    | none => simp [h1] at hs
    | some w1 =>
      simp only [h1, Option.bind_some] at hs
      simp only [List.mem_cons, not_or] at hn
      obtain ⟨m, r⟩ := step_spec k ok w w1 p o (fun e => hn.1 e.symm) h hr h1
      exact ih w1 w' _ p' hn.2 m r hs


/-- Loading proper entries followed by anything. -/
theorem loadLoop_tail (k : Codec) (ok : k.OK) (base : Nat) (pt : Int) (tail : Bytes) (fuel : Nat)
    (todo : List Rec) : ∀ (w : Wal), Linked k base pt (w.log ++ todo) → LoadIdx w base pt →
    (∀ (i : Nat) (r : Rec), (w.log ++ todo)[i]? = some r → w.par[i]? = some (k.H r.bytes)) →
    ∃ w', loadLoop k (fuel + todo.length) w (enc k w.log todo ++ tail) = loadLoop k fuel w' tail ∧
      w'.log = w.log ++ todo ∧ LoadIdx w' base pt ∧ w'.par = w.par := by
  induction todo with
  | nil => intro w hl hi hp; exact ⟨w, by simp [enc], by simp, hi, rfl⟩
  | cons r rs ih =>
    intro w hl hi hp
    have hl' := hl
    rw [show w.log ++ r :: rs = (w.log ++ [r]) ++ rs by simp] at hl'
    have hl1 := ((linked_append k _ _ _ _).mp hl').1
    have hr := ((linked_append k _ _ _ _).mp hl).2
    have hlen : r.bytes.length < 2 ^ 32 := hr.2.2.2.2.2.1
    have hlen3 : 3 ≤ r.bytes.length := by rw [hr.2.2.2.2.1]; exact ok.entLen _
    let w0 : Wal := { w with seek := w.seek ++ [w.file.length - (enc k w.log (r :: rs) ++ tail).length] }
    obtain ⟨w1, h1, h2, h3, h4, h5, h6, h7, h8, h9⟩ := loadOne_spec k ok w0 base pt r
      (enc k (w.log ++ [r]) rs ++ tail) hl1 hi (hp w.log.length r (by simp))
    obtain ⟨w', g1, g2, g3, g4⟩ := ih w1 (by rw [h2]; exact hl') h3
      (by intro i x hx; rw [h5]; apply hp; rw [h2] at hx; simpa [w0] using hx)
    refine ⟨w', ?_, by rw [g2, h2]; simp [w0], g3, by rw [g4, h5]⟩
    rw [List.length_cons, ← Nat.add_assoc]
    conv => lhs; unfold loadLoop
    simp only
    have hsplit : enc k w.log (r :: rs) ++ tail = frame r.bytes ++
        (frame (k.serSum (sums k r.bytes (lastEntryBytes w.log))) ++ (enc k (w.log ++ [r]) rs ++ tail)) := by
      simp [enc, recordBytes]
    have hnf : nextframe (enc k w.log (r :: rs) ++ tail) = .ok r.bytes
        (frame (k.serSum (sums k r.bytes (lastEntryBytes w.log))) ++ (enc k (w.log ++ [r]) rs ++ tail)) := by
      rw [hsplit, MsgBin.nextframe_frame _ _ hlen3 hlen]
    rw [hnf]
    simp only
    have h1' := h1
    simp only [w0] at h1'
    rw [h1']
    simp only
    rw [h2] at g1
    exact g1

theorem enc_length (k : Codec) (log : List Rec) : ∀ done, log.length ≤ (enc k done log).length := by
  induction log with
  | nil => intro done; simp
  | cons r rs ih =>
    intro done
    have := ih (done ++ [r])
    have := MsgBin.frame_length r.bytes
    simp only [enc, recordBytes, List.length_append, List.length_cons]
    omega

/-- Reopening consistent files. -/
theorem reopen_spec (k : Codec) (ok : k.OK) (w : Wal) (h : Mem k w) (hd : Disk k w) :
    ∃ w', reopen k w = some w' ∧ w'.log = w.log ∧ Mem k w' ∧ Disk k w' ∧
      SeekOK k w' (some w'.log.length) ∧ (w.log ≠ [] → w'.idx.base = w.idx.base ∧ w'.llt = RLE.lastTerm w'.idx) ∧
      w'.noCompact = w.noCompact ∧ w'.threshold = w.threshold := by
  obtain ⟨pt, hl⟩ := h.linked
  by_cases hn : w.log = []
  · have hf : w.file = [] := by rw [hd.file, hn]; rfl
    have hp : w.par = [] := by rw [hd.par, hn]; rfl
    refine ⟨{ new w.noCompact w.threshold with file := w.file, par := w.par }, by rw [reopen, openWal, if_pos hf], ?_, ?_, ?_, ?_, fun h => absurd hn h, rfl, rfl⟩
    · rw [hn]; rfl
    · exact ⟨RLE.sim_new, rfl, ⟨0, trivial⟩⟩
    · exact ⟨by rw [hf]; rfl, by rw [hp]; rfl⟩
    · refine ⟨Nat.le_refl _, ?_⟩
      intro i hi
      right
      have : i = 0 := by simpa [new] using hi
      subst this
      exact ⟨rfl, rfl⟩
  · have hf : w.file ≠ [] := by
      intro h0
      have := enc_length k w.log []
      rw [← hd.file, h0] at this
      simp at this
      exact hn this
    obtain ⟨w4, b1, b2, b3, b4, b5, b6, b7, b8, b9⟩ := load_spec k ok
      { new w.noCompact w.threshold with file := w.file, par := w.par } w.idx.base pt w.log rfl
      hd.file hl ⟨rfl, rfl⟩ (by intro i r hr; simp [hd.par, hr])
    rw [LoadIdx, if_neg (by rw [b2]; exact hn)] at b3
    have hb : w4.idx.base = w.idx.base := b3.1.base
    refine ⟨w4, by rw [reopen, openWal, if_neg hf]; exact b1, b2, ⟨?_, ?_, ⟨pt, ?_⟩⟩, ⟨?_, ?_⟩, ?_, ?_, b7, b8⟩
    · rw [hb]; exact b3.1
    · rw [hb]; exact b3.2.2.1
    · rw [hb, b2]; exact hl
    · rw [b4, b2]; exact hd.file
    · rw [b5, b2]; exact hd.par
    · refine ⟨Nat.le_refl _, ?_⟩
      intro i hi
      left
      rw [b6, b2]
      rw [b2] at hi
      simp only [new, List.nil_append, List.getElem?_map]
      rw [List.getElem?_range' (by omega)]
      simp
    · intro _
      refine ⟨hb, ?_⟩
      rw [RLE.lastTerm_sim w4.idx _ b3.1 (Or.inl (by rw [b2]; simpa [terms] using hn)), b3.2.2.2]
      unfold lastT RLE.Spec.Plain.lastTerm
      simp only
      cases hg : (terms w4.log).getLast? with
      | none => simp [terms, b2] at hg; exact absurd hg hn
      | some x => rfl

end Verif.WAL
