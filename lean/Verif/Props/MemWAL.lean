import Verif.Proofs.MemWAL
import Verif.Props.WAL
/- C122: the log kept in memory only. -/
namespace Verif.MemWAL

open WAL (Ent Op ent)
open WAL.Spec (Plain cell)

/-! ## What the log holds -/

/-- C122 (first part). After any calls the memory-only log holds, at each index above its compaction base, the entry
last written there and no other; indexes outside have none; the term index, the last index and term agree with it. -/
theorem C122_log_holds_what_was_written (nc : Bool) (ops : List Op) (hn : Op.reopen ∉ ops) (m : MWal) (p : Plain)
    (hs : runBoth (new nc) ⟨0, []⟩ ops = some (m, p)) :
    (p.start ≤ m.idx.base ∧ m.idx.base ≤ p.last) ∧
    (∀ i, m.idx.base < i → i ≤ p.last → ∃ e, getEntry m i = some e ∧ e.index = i ∧
      p.at i = some (cell e) ∧ RLE.getTermForIndex m.idx i = some e.term) ∧
    (∀ i, i ≤ m.idx.base ∨ p.last < i → getEntry m i = none) ∧
    RLE.lastIndex m.idx = some p.last ∧ m.lli = p.last ∧
    (m.idx.base < p.last → ∃ e, getEntry m p.last = some e ∧ m.llt = e.term) ∧
    (∀ i, m.idx.base < i → ∃ es, getAllEntriesFrom m i = some (es, false) ∧
      es.map cell = p.cells.drop (i - 1 - p.start) ∧ es.map (·.index) = List.range' i (p.last + 1 - i)) ∧
    (∀ i, 0 < i → i ≤ m.idx.base → m.idx.base < p.last → getAllEntriesFrom m i = some ([], true)) := by
  obtain ⟨h, r⟩ := runBoth_spec ops _ m _ p hn (inv_new nc) (rel_new nc) hs
  exact reads h r

/-- Two entries of term 1, the second overwritten in term 2, a third, and compaction up to the second. -/
def sampleOps : List Op :=
  [.append (ent 1 1 [7]), .append (ent 2 1 [8]), .overwrite 1 [ent 2 2 [9], ent 3 2 [4]] (some 1) 1, .compact 2]

example : (runBoth (new false) ⟨0, []⟩ sampleOps).map (fun x => (x.1.idx.base, x.1.log, x.2.cells.length)) =
    some (1, [ent 2 2 [9], ent 3 2 [4]], 3) := by decide +kernel

/-- C122. When no overwrite reaches below what was applied, the log is the one the calls describe: an entry is lost
to compaction only up to the last point named for it. -/
theorem C122_is_the_log_described (nc : Bool) (ops : List Op) (hn : Op.reopen ∉ ops) (hk : KeepsApplied 0 ops)
    (m : MWal) (hs : run (new nc) ops = some m) :
    m.lli = (described ⟨0, []⟩ ops).last ∧ m.idx.base ≤ ops.foldl floorAfter 0 ∧
    (∀ i, m.idx.base < i → i ≤ m.lli → ∃ e, getEntry m i = some e ∧ e.index = i ∧
      (described ⟨0, []⟩ ops).at i = some (cell e)) ∧
    (∀ i, i ≤ m.idx.base ∨ m.lli < i → getEntry m i = none) := by
  obtain ⟨h, r⟩ := run_spec ops _ m _ 0 hn hk (inv_new nc) (rel_new nc) (Nat.le_refl _) hs
  obtain ⟨_, b, c, _, d, _⟩ := reads h r
  refine ⟨d, base_run ops _ m 0 hn (inv_new nc) (Nat.le_refl _) hs, ?_, ?_⟩
  · intro i hi hle
    obtain ⟨e, g1, g2, g3, _⟩ := b i hi (by omega)
    exact ⟨e, g1, g2, g3⟩
  · intro i hi
    exact c i (by omega)

example : KeepsApplied 0 sampleOps := by
  refine ⟨?_, ?_, ?_, ?_, trivial⟩ <;> intro keep es c a h <;> injection h <;> simp [floorAfter] <;> omega

example : ((run (new false) sampleOps).map fun m => (m.lli, m.llt)) = some (3, 2) := by decide +kernel

/-! ## The same as the log on disk -/

/-- C122 (second part). After the same calls the log on disk and the log in memory have the same last index, and give
for every index neither has compacted away the same term and body. -/
theorem C122_same_as_disk_partial (k : WAL.Codec) (ok : k.OK) (nc nc' : Bool) (thresh : Nat) (ops : List Op)
    (hn : Op.reopen ∉ ops) (hk : KeepsApplied 0 ops) (w : WAL.Wal) (m : MWal)
    (hw : WAL.run k (WAL.new nc thresh) ops = some w) (hm : run (new nc') ops = some m) :
    m.lli = w.lli ∧ RLE.lastIndex m.idx = RLE.lastIndex w.idx ∧
    (∀ i, w.idx.base < i → m.idx.base < i → i ≤ m.lli → ∃ e e', WAL.getEntry w i = some e ∧ getEntry m i = some e' ∧
      e.index = e'.index ∧ e.term = e'.term ∧ e.body = e'.body ∧
      RLE.getTermForIndex w.idx i = RLE.getTermForIndex m.idx i) ∧
    (∀ i, m.lli < i → WAL.getEntry w i = none ∧ getEntry m i = none) := by
  obtain ⟨h, r⟩ := run_spec ops _ m _ 0 hn hk (inv_new nc') (rel_new nc') (Nat.le_refl _) hm
  obtain ⟨h', r'⟩ := disk_run_spec k ok ops _ w _ 0 hn hk (WAL.mem_new k nc thresh) (WAL.rel_new nc thresh)
    (Nat.le_refl _) hw
  obtain ⟨_, b, c, d, e, _⟩ := reads h r
  obtain ⟨_, b', c', d', e', _⟩ := WAL.reads k w _ h' r'
  refine ⟨by omega, by rw [d, d'], ?_, ?_⟩
  · intro i h1 h2 h3
    obtain ⟨x, x1, x2, x3, x4⟩ := b i h2 (by omega)
    obtain ⟨y, y1, y2, y3, y4⟩ := b' i h1 (by omega)
    rw [x3, Option.some.injEq] at y3
    unfold cell at y3
    injection y3 with y3 y3'
    exact ⟨y, x, y1, x1, by omega, y3.symm, y3'.symm, by rw [x4, y4, y3]⟩
  · intro i hi
    exact ⟨c' i (.inr (by omega)), c i (.inr (by omega))⟩

example : (WAL.run WAL.sampleCodec (WAL.new false 0) sampleOps).isSome = true ∧ (run (new false) sampleOps).isSome = true := by
  decide +kernel

/-- The two part after a snapshot install: one uncommitted entry over it, replaced by the next leader's, stops the
node whose log is on disk (its last term is set to 0 where the snapshot's is right) and not the other. The calls
before do not stop it. -/
theorem C122_over_snapshot_counterexample :
    ∃ ops o, Op.reopen ∉ ops ++ [o] ∧ KeepsApplied 0 (ops ++ [o]) ∧ AllFit false ⟨0, []⟩ 0 (ops ++ [o]) ∧
      (WAL.run WAL.sampleCodec (WAL.new false 0) ops).isSome = true ∧
      WAL.run WAL.sampleCodec (WAL.new false 0) (ops ++ [o]) = none ∧
      ((run (new false) (ops ++ [o])).map (·.log)) = some [ent 6 4 [2]] := by
  refine ⟨[.snapshot 5 3, .append (ent 6 3 [1])], .overwrite 5 [ent 6 4 [2]] (some 5) 5, by decide, ?_, ?_,
    by decide +kernel, by decide +kernel, by decide +kernel⟩
  · refine ⟨?_, ?_, ?_, trivial⟩ <;> intro keep es c a h <;> injection h <;> simp [floorAfter] <;> omega
  · simp [AllFit, Fits, Follows, termAfter, highest, Plain.step, Plain.last, ent]; omega

/-- So it is after every history of calls that leaves entries over a base of a term other than 0: on disk no entry can
replace the first of them, whatever is offered. -/
theorem C122_disk_stops_over_base_counterexample (k : WAL.Codec) (ok : k.OK) (nc : Bool) (thresh : Nat) (ops : List Op)
    (hn : Op.reopen ∉ ops) (w : WAL.Wal) (p : Plain)
    (hs : WAL.Spec.runBoth k (WAL.new nc thresh) ⟨0, []⟩ ops = some (w, p))
    (hl : w.idx.base < w.lli) (ht : w.idx.compactTerm ≠ 0) (e : Ent) (es : List Ent) (c : Option Nat) (a : Nat) :
    WAL.overwrite k w w.idx.base (e :: es) c a = none := by
  have h := (WAL.runBoth_spec k ok ops _ _ _ _ hn (WAL.mem_new k nc thresh) (WAL.rel_new nc thresh) hs).1
  exact disk_overwrite_base k h hl ht e es c a

example : (WAL.Spec.runBoth WAL.sampleCodec (WAL.new false 0) ⟨0, []⟩ [.snapshot 5 3, .append (ent 6 3 [1])]).map
    (fun x => (x.1.idx.base, x.1.lli, x.1.idx.compactTerm)) = some (5, 6, 3) := by decide +kernel

/-- The entries themselves differ in the link to the one before: the log on disk fills it in, the other keeps what
the caller put there. -/
theorem C122_links_counterexample :
    ∃ ops w m, Op.reopen ∉ ops ∧ WAL.run WAL.sampleCodec (WAL.new false 0) ops = some w ∧ run (new false) ops = some m ∧
      (WAL.getEntry w 2).map (fun e => (e.prevIndex, e.prevTerm)) = some (1, 1) ∧
      (getEntry m 2).map (fun e => (e.prevIndex, e.prevTerm)) = some (0, 0) := by
  refine ⟨[.append (ent 1 1 [7]), .append (ent 2 1 [8])], _, _, by decide, Option.some_get (h := ?_) |>.symm,
    Option.some_get (h := ?_) |>.symm, ?_, ?_⟩ <;> decide +kernel

/-! ## Calls that fit return -/

/-- C122 (third part). A history of calls that fit the log, none with a term below any term written before it, runs
to its end. `C122_stale_term_counterexample` is why the term is compared with all that was written and not with what
the log still holds. -/
theorem C122_returns_partial (nc : Bool) (ops : List Op) (hk : KeepsApplied 0 ops) (hf : AllFit nc ⟨0, []⟩ 0 ops) :
    ∃ m, run (new nc) ops = some m :=
  run_some ops _ _ 0 0 hk hf (inv_new nc) (rel_new nc)
    ⟨Int.le_refl _, fun x hx => by simp [new, terms] at hx⟩ (Nat.le_refl _)

example : AllFit false ⟨0, []⟩ 0 sampleOps := by
  simp [sampleOps, AllFit, Fits, Follows, termAfter, highest, Plain.step, Plain.overwrite, Plain.last, ent]
  omega

/-- The entries of each write follow on those the log then keeps, number by number and with no term going back, and
still the last write stops the node: the index remembers the term of an entry that was cut off. -/
theorem C122_stale_term_counterexample :
    ∃ (ops : List Op) (m : MWal) (e : Ent), Op.reopen ∉ ops ∧ KeepsApplied 0 ops ∧
      run (new false) ops = some m ∧ m.idx.base = 0 ∧ e.index = 1 ∧ 0 < e.term ∧
      overwrite m 0 [e] (some 0) 0 = none ∧ (overwrite (new false) 0 [e] (some 0) 0).isSome = true := by
  refine ⟨[.append (ent 1 1 []), .append (ent 2 3 []), .append (ent 3 3 []), .overwrite 2 [ent 3 4 []] (some 0) 0],
    _, ent 1 2 [], by decide, ?_, Option.some_get (h := ?_) |>.symm, ?_, rfl, by decide, ?_, ?_⟩
  · refine ⟨?_, ?_, ?_, ?_, trivial⟩ <;> intro keep es c a h <;> injection h <;> simp [floorAfter] <;> omega
  all_goals decide +kernel

/-- C122: without log compaction a write that would replace an entry already committed is refused, whatever it
brings. -/
theorem C122_committed_entries_are_kept (nc : Bool) (ops : List Op) (hn : Op.reopen ∉ ops) (m : MWal) (p : Plain)
    (hs : runBoth (new nc) ⟨0, []⟩ ops = some (m, p)) (hc : m.noCompact = true) (keep c : Nat) (es : List Ent) (a : Nat)
    (h1 : m.idx.base ≤ keep) (h2 : keep < m.lli) (h3 : keep < c) : overwrite m keep es (some c) a = none := by
  have h := (runBoth_spec ops _ m _ p hn (inv_new nc) (rel_new nc) hs).1
  exact committed_kept h hc h1 h2 h3

example : (runBoth (new true) ⟨0, []⟩ [.append (ent 1 1 [7]), .append (ent 2 1 [8])]).map
    (fun x => (x.1.noCompact, x.1.idx.base, x.1.lli)) = some (true, 0, 2) := by decide +kernel

/-- The last entry committed is kept too, the one after it is not. -/
example : ((run (new true) [.append (ent 1 1 [7]), .append (ent 2 1 [8]), .overwrite 1 [ent 2 2 [9]] (some 2) 0]).isSome,
    (run (new true) [.append (ent 1 1 [7]), .append (ent 2 1 [8]), .overwrite 1 [ent 2 2 [9]] (some 1) 0]).isSome) =
    (false, true) := by decide +kernel

end Verif.MemWAL
