import Verif.Proofs.KV

/-! C148: what answers say about a key. -/

namespace Verif.KV

/-- The answer tells the facts about a leaf, all but value and lease end. -/
def Tells (a : Ticket) (l : Leaf) : Prop :=
  a.vtype = l.vtype ∧ a.leasor = l.leasor ∧ a.leasorPeer = l.leasorPeer ∧ a.epoch = l.epoch ∧
  a.epochT0 = l.epochT0 ∧ a.writeIdx = l.writeIdx ∧ a.versionRead = l.version ∧ a.autoDel = l.autoDel

/-- A read that finds its key tells the facts about it, and leaves the store alone. -/
theorem C148_read_reports {drift now : Int} {kv kv' : Store} {t a : Ticket} (hop : t.op = .read)
    (h : apply drift now kv t = some (kv', a)) (hok : a.err = none) :
    kv' = kv ∧ ∃ l, leafOf kv t.table t.key = some l ∧ Tells a l ∧ a.val = l.value ∧ a.endTm = l.endTm := by
  simp only [apply, hop, Option.some.injEq] at h
  cases kv with
  | none =>
    simp only [doReadKey, Prod.mk.injEq] at h
    rw [← h.2] at hok
    cases hok
  | some m =>
    simp only [doReadKey, readLeaf] at h
    cases hl : leafOf (some m) t.table t.key with
    | none =>
      simp only [hl, Prod.mk.injEq] at h
      rw [← h.2] at hok
      cases hok
    | some l =>
      simp only [hl] at h
      by_cases he : expired t.table now l = true
      · simp only [he, if_true, Prod.mk.injEq] at h
        rw [← h.2] at hok
        cases hok
      · simp only [he, Bool.false_eq_true, if_false, Prod.mk.injEq] at h
        obtain ⟨rfl, rfl⟩ := h
        exact ⟨rfl, l, rfl, ⟨rfl, rfl, rfl, rfl, rfl, rfl, rfl, rfl⟩, rfl, rfl⟩

theorem failed_tells (drift : Int) (t : Ticket) (l : Leaf) (e : Err) :
    Tells (failed drift t l e) l ∧ (failed drift t l e).curVal = l.value ∧
      (failed drift t l e).endTm = l.endTm + drift :=
  ⟨⟨rfl, rfl, rfl, rfl, rfl, rfl, rfl, rfl⟩, rfl, rfl⟩

theorem write_refused {drift : Int} {kv kv' : Store} {t a : Ticket} (hf : t.err = none)
    (h : kvstoreWrite drift kv t = some (kv', a)) (hbad : a.err ≠ none) :
    kv' = kv ∧ ∃ l, leafOf kv t.table t.key = some l ∧ Tells a l ∧ a.curVal = l.value ∧
      a.endTm = l.endTm + drift := by
  unfold kvstoreWrite at h
  split at h
  · cases h
  · cases hl : leafOf kv t.table t.key with
    | none =>
      simp only [hl, Option.some.injEq, Prod.mk.injEq] at h
      rw [← h.2] at hbad
      exact absurd hf hbad
    | some l =>
      simp only [hl] at h
      cases hw : writeLeaf drift l t with
      | inr e =>
        simp only [hw, Option.some.injEq, Prod.mk.injEq] at h
        obtain ⟨rfl, rfl⟩ := h
        exact ⟨rfl, l, rfl, failed_tells ..⟩
      | inl l' =>
        simp only [hw, Option.some.injEq, Prod.mk.injEq] at h
        rw [← h.2] at hbad
        split at hbad <;> exact absurd hf hbad

/-- A write that is refused changes nothing and tells the facts about the key. -/
theorem C148_refused_write_reports {drift now : Int} {kv kv' : Store} {t a : Ticket} (hop : t.op = .write)
    (hf : t.err = none) (h : apply drift now kv t = some (kv', a)) (hbad : a.err ≠ none) :
    kv' = kv ∧ ∃ l, leafOf kv t.table t.key = some l ∧ Tells a l ∧ a.curVal = l.value ∧
      a.endTm = l.endTm + drift := by
  simp only [apply, hop] at h
  exact write_refused hf h hbad

theorem casWrite_refused {drift : Int} {kv kv' : Store} {t a : Ticket} (hf : t.err = none)
    (h : casWrite drift kv t = some (kv', a)) (hbad : a.err ≠ none) :
    kv' = kv ∧ ∃ l, leafOf kv t.table t.key = some l ∧ Tells a l ∧ a.curVal = l.value ∧
      a.endTm = l.endTm + drift := by
  unfold casWrite at h
  obtain ⟨⟨k, b⟩, hw, he⟩ := Option.map_eq_some_iff.1 h
  simp only [Prod.mk.injEq] at he
  obtain ⟨rfl, rfl⟩ := he
  obtain ⟨h1, l, h2, h3⟩ := write_refused (a := b) hf hw hbad
  exact ⟨h1, l, h2, h3⟩

/-- A compare-and-swap that is refused changes nothing, and tells that there is no key or the facts
about it. -/
theorem C148_refused_cas_reports {drift now : Int} {kv kv' : Store} {t a : Ticket} (hop : t.op = .cas)
    (hf : t.err = none) (h : apply drift now kv t = some (kv', a)) (hbad : a.err ≠ none) :
    kv' = kv ∧ ((leafOf kv t.table t.key = none ∧ a.err = some .keyNotFound) ∨
      ∃ l, leafOf kv t.table t.key = some l ∧ Tells a l ∧ a.curVal = l.value ∧ a.endTm = l.endTm + drift) := by
  simp only [apply, hop] at h
  unfold doCAS at h
  cases hl : leafOf kv t.table t.key with
  | none =>
    simp only [hl] at h
    split at h
    · simp only [Option.some.injEq, Prod.mk.injEq] at h
      obtain ⟨rfl, rfl⟩ := h
      exact ⟨rfl, .inl ⟨rfl, rfl⟩⟩
    · obtain ⟨_, l, hl', _⟩ := casWrite_refused hf h hbad
      rw [hl] at hl'
      cases hl'
  | some l =>
    have hcw : casWrite drift kv t = some (kv', a) → kv' = kv ∧ ((some l = none ∧ a.err = some .keyNotFound) ∨
      ∃ l', some l = some l' ∧ Tells a l' ∧ a.curVal = l'.value ∧ a.endTm = l'.endTm + drift) := by
      intro hc
      have := casWrite_refused hf hc hbad
      rw [hl] at this
      exact ⟨this.1, .inr this.2⟩
    simp only [hl] at h
    repeat' split at h
    all_goals first
      | exact hcw h
      | (simp only [Option.some.injEq, Prod.mk.injEq] at h
         obtain ⟨rfl, rfl⟩ := h
         exact ⟨rfl, .inr ⟨l, rfl, ⟨rfl, rfl, rfl, rfl, rfl, rfl, rfl, rfl⟩, rfl, rfl⟩⟩)

/-- A compare-and-swap that expects what is there (its version, or else its epoch, or else its
value) is carried out on a key that nobody holds. -/
theorem cas_expected {drift now : Int} {kv : Store} {t : Ticket} {l : Leaf} (hop : t.op = .cas)
    (hf : t.err = none) (htm : t.tm ≠ 0) (hl : leafOf kv t.table t.key = some l)
    (hfree : l.leasor = [] ∨ l.endTm = 0) (hidx : l.writeIdx < t.idx)
    (hx : t.oldVersion = l.version ∧ 0 < l.version ∨
      t.oldVersion = 0 ∧ t.oldEpoch = l.epoch ∧ 0 < l.epoch ∨
      t.oldVersion = 0 ∧ t.oldEpoch = 0 ∧ t.oldVal = l.value) :
    ∃ kv' a l', apply drift now kv t = some (kv', a) ∧ a.err = none ∧ a.swapped = true ∧
      leafOf kv' t.table t.key = some l' ∧ l'.value = t.val ∧ l'.version = l.version + 1 := by
  have hw : writeLeaf drift l t = .inl (freeLeaf l t) := by
    unfold writeLeaf
    rw [if_neg (by omega), if_pos hfree]
  have hv : validLease drift t l = false := by
    unfold validLease
    rw [if_pos hfree]
  have hcw : ∃ kv' a l', casWrite drift kv t = some (kv', a) ∧ a.err = none ∧ a.swapped = true ∧
      leafOf kv' t.table t.key = some l' ∧ l'.value = t.val ∧ l'.version = l.version + 1 := by
    have hnot : ¬ (l.leasor ≠ [] ∧ l.endTm ≠ 0 ∧
        ¬ (t.reqDur ≠ 0 ∧ l.leasor = t.leasor ∧ l.leasorPeer = t.fromID)) := by
      rintro ⟨a, b, _⟩
      exact hfree.elim a b
    unfold casWrite kvstoreWrite
    rw [if_neg htm]
    simp only [hl, hw, if_neg hnot, Option.map_some]
    refine ⟨_, _, freeLeaf l t, rfl, hf, ?_, ?_, rfl, rfl⟩
    · simp [hf]
    · rw [leafOf_setKey]; simp
  simp only [apply, hop]
  unfold doCAS
  simp only [hl, hv, Bool.false_eq_true, false_and, if_false]
  rcases hx with ⟨h1, h2⟩ | ⟨h1, h2, h3⟩ | ⟨h1, h2, h3⟩
  · rw [if_pos (by omega), if_neg (by omega)]; exact hcw
  · rw [if_neg (by omega), if_pos (by omega), if_neg (by omega)]; exact hcw
  · rw [if_neg (by omega), if_neg (by omega), h3]
    split
    · rw [if_neg (by simp)]; exact hcw
    · exact hcw

/-- A compare-and-swap that expects the version, the epoch or the value that a read has just
answered is carried out, if the answer shows no holder. -/
theorem C148_cas_after_read {drift now now2 : Int} {kv kv' : Store} {r a t : Ticket} (hr : r.op = .read)
    (h : apply drift now kv r = some (kv', a)) (hok : a.err = none)
    (hop : t.op = .cas) (hf : t.err = none) (htm : t.tm ≠ 0) (ht : t.table = r.table) (hk : t.key = r.key)
    (hfree : a.leasor = [] ∨ a.endTm = 0) (hidx : a.writeIdx < t.idx)
    (hx : t.oldVersion = a.versionRead ∧ 0 < a.versionRead ∨
      t.oldVersion = 0 ∧ t.oldEpoch = a.epoch ∧ 0 < a.epoch ∨
      t.oldVersion = 0 ∧ t.oldEpoch = 0 ∧ t.oldVal = a.val) :
    ∃ kv2 b, apply drift now2 kv' t = some (kv2, b) ∧ b.err = none ∧ b.swapped = true ∧
      ∃ l', leafOf kv2 t.table t.key = some l' ∧ l'.value = t.val ∧ l'.version = a.versionRead + 1 := by
  obtain ⟨rfl, l, hl, ⟨_, h2, _, h4, _, h6, h7, _⟩, h9, h10⟩ := C148_read_reports hr h hok
  rw [h2, h10] at hfree
  rw [h6] at hidx
  rw [h7, h4, h9] at hx
  obtain ⟨k, b, l', e1, e2, e3, e4, e5, e6⟩ :=
    cas_expected (drift := drift) (now := now2) hop hf htm (by rw [ht, hk]; exact hl) hfree hidx hx
  exact ⟨k, b, e1, e2, e3, l', e4, e5, by rw [h7]; exact e6⟩

/-- The same after a refused compare-and-swap that found its key. -/
theorem C148_cas_after_refusal {drift now now2 : Int} {kv kv' : Store} {r a t : Ticket} (hr : r.op = .cas)
    (hrf : r.err = none) (h : apply drift now kv r = some (kv', a)) (hbad : a.err ≠ none)
    (hfound : a.err ≠ some .keyNotFound)
    (hop : t.op = .cas) (hf : t.err = none) (htm : t.tm ≠ 0) (ht : t.table = r.table) (hk : t.key = r.key)
    (hfree : a.leasor = []) (hidx : a.writeIdx < t.idx)
    (hx : t.oldVersion = a.versionRead ∧ 0 < a.versionRead ∨
      t.oldVersion = 0 ∧ t.oldEpoch = a.epoch ∧ 0 < a.epoch ∨
      t.oldVersion = 0 ∧ t.oldEpoch = 0 ∧ t.oldVal = a.curVal) :
    ∃ kv2 b, apply drift now2 kv' t = some (kv2, b) ∧ b.err = none ∧ b.swapped = true ∧
      ∃ l', leafOf kv2 t.table t.key = some l' ∧ l'.value = t.val ∧ l'.version = a.versionRead + 1 := by
  obtain ⟨rfl, ⟨_, hn⟩ | ⟨l, hl, ⟨_, h2, _, h4, _, h6, h7, _⟩, h9, _⟩⟩ := C148_refused_cas_reports hr hrf h hbad
  · exact absurd hn hfound
  rw [h2] at hfree
  rw [h6] at hidx
  rw [h7, h4, h9] at hx
  obtain ⟨k, b, l', e1, e2, e3, e4, e5, e6⟩ :=
    cas_expected (drift := drift) (now := now2) hop hf htm (by rw [ht, hk]; exact hl) (.inl hfree) hidx hx
  exact ⟨k, b, e1, e2, e3, l', e4, e5, by rw [h7]; exact e6⟩

/-- A store with one key, written twice. -/
def twice : Store := some [([1], [([2], { value := [7], version := 2, epoch := 3, writeIdx := 5 })])]

example : ((apply 5 9 twice { op := .read, table := [1], key := [2] }).map fun r =>
      (r.2.err, r.2.val, r.2.versionRead, r.2.epoch)) = some (none, [7], 2, 3) ∧
    ((apply 5 9 twice { op := .cas, table := [1], key := [2], val := [8], oldVersion := 1, tm := 4, idx := 6 }).map fun r =>
      (r.2.err, r.2.curVal, r.2.versionRead, r.2.epoch, r.2.swapped)) = some (some .casVersion, [7], 2, 3, false) ∧
    ((apply 5 9 twice { op := .cas, table := [1], key := [2], val := [8], oldVersion := 2, tm := 4, idx := 6 }).map fun r =>
      (r.2.err, r.2.swapped)) = some (none, true) ∧
    ((apply 5 9 twice { op := .write, table := [1], key := [2], val := [8], tm := 4, idx := 5 }).map fun r =>
      (r.2.err, r.2.curVal)) = some (some .staleIndex, [7]) := by decide

end Verif.KV
