import Verif.Proofs.KVApply
namespace Verif.KV

/-! ### Compare-and-swap -/

theorem not_validLease {drift t l} : validLease drift t l = true ↔ InForce drift l t.tm := by
  unfold validLease InForce Leased
  by_cases h1 : l.leasor = [] ∨ l.endTm = 0
  · rw [if_pos h1]
    constructor
    · intro h; cases h
    · rintro ⟨⟨a, b⟩, -⟩; exact absurd h1 (fun h => h.elim a b)
  · rw [if_neg h1]
    by_cases h2 : l.endTm + drift < t.tm
    · rw [if_pos h2]
      constructor
      · intro h; cases h
      · intro h; omega
    · rw [if_neg h2]
      exact ⟨fun _ => ⟨⟨fun e => h1 (Or.inl e), fun e => h1 (Or.inr e)⟩, by omega⟩, fun _ => rfl⟩

/-- A compare-and-swap of an existing key whose name check and condition pass is the write. -/
theorem doCAS_found {drift kv t l} (hl : leafOf kv t.table t.key = some l)
    (h1 : ¬ (InForce drift l t.tm ∧ l.leasor ≠ t.leasor)) (h2 : CasCond l t) :
    doCAS drift kv t = casWrite drift kv t := by
  unfold doCAS
  rw [hl]
  simp only
  rw [if_neg (fun h => h1 ⟨not_validLease.1 h.1, h.2⟩)]
  unfold CasCond at h2
  by_cases a : 0 < t.oldVersion
  · rw [if_pos a] at h2 ⊢
    rw [if_neg (fun h => h h2)]
  · rw [if_neg a] at h2 ⊢
    by_cases b : 0 < t.oldEpoch
    · rw [if_pos b] at h2 ⊢
      rw [if_neg (fun h => h h2)]
    · rw [if_neg b] at h2 ⊢
      by_cases c : t.oldVal ≠ []
      · rw [if_pos c, if_neg (fun h => h (h2 c))]
      · rw [if_neg c]

/-- Otherwise it is refused. -/
theorem doCAS_refused {drift kv t l} (hl : leafOf kv t.table t.key = some l) (hs : t.swapped = false)
    (h : (InForce drift l t.tm ∧ l.leasor ≠ t.leasor) ∨ ¬ CasCond l t) :
    ∃ a, doCAS drift kv t = some (kv, a) ∧ a.err.isSome = true ∧ a.swapped = false := by
  unfold doCAS
  rw [hl]
  simp only
  by_cases h1 : InForce drift l t.tm ∧ l.leasor ≠ t.leasor
  · rw [if_pos ⟨not_validLease.2 h1.1, h1.2⟩]; exact ⟨_, rfl, rfl, hs⟩
  · rw [if_neg (fun h => h1 ⟨not_validLease.1 h.1, h.2⟩)]
    have h2 : ¬ CasCond l t := h.elim (fun h => absurd h h1) id
    unfold CasCond at h2
    by_cases a : 0 < t.oldVersion
    · rw [if_pos a] at h2 ⊢
      rw [if_pos h2]; exact ⟨_, rfl, rfl, rfl⟩
    · rw [if_neg a] at h2 ⊢
      by_cases b : 0 < t.oldEpoch
      · rw [if_pos b] at h2 ⊢
        rw [if_pos h2]; exact ⟨_, rfl, rfl, rfl⟩
      · rw [if_neg b] at h2 ⊢
        by_cases c : t.oldVal ≠ []
        · rw [if_pos c, if_pos (fun h => h2 (fun _ => h))]; exact ⟨_, rfl, rfl, rfl⟩
        · exact absurd (fun h => absurd h c) h2

theorem casWrite_swapped {drift kv t r} (h : casWrite drift kv t = some r) :
    r.2.swapped = r.2.err.isNone := by
  unfold casWrite at h
  cases hk : kvstoreWrite drift kv t with
  | none => rw [hk] at h; cases h
  | some q => rw [hk] at h; cases h; rfl

theorem casWrite_cases {drift kv t r} (hr : casWrite drift kv t = some r) (he : t.err = none) :
    (r.1 = kv ∧ r.2.err.isSome = true) ∨
    (r.2.err = none ∧ ∃ l', leafOf r.1 t.table t.key = some l' ∧ r.2.epoch = l'.epoch ∧
      ((leafOf kv t.table t.key = none ∧ l' = freshLeaf t) ∨
       ∃ l, leafOf kv t.table t.key = some l ∧ writeLeaf drift l t = .inl l')) := by
  unfold casWrite at hr
  cases hk : kvstoreWrite drift kv t with
  | none => rw [hk] at hr; cases hr
  | some q => rw [hk] at hr; cases hr; exact write_cases (r := q) hk he

/-- Either a refusal that reports itself as such, or the write. -/
theorem doCAS_cases' {drift kv t r} (hr : doCAS drift kv t = some r) (hf : Fresh t) :
    (r.1 = kv ∧ r.2.err.isSome = true ∧ r.2.swapped = false) ∨ (casWrite drift kv t = some r ∧
      match leafOf kv t.table t.key with
      | none => t.oldVersion ≤ 0 ∧ t.oldEpoch ≤ 0 ∧ t.oldVal = []
      | some l => CasCond l t ∧ ¬ (InForce drift l t.tm ∧ l.leasor ≠ t.leasor)) := by
  cases hl : leafOf kv t.table t.key with
  | none =>
    unfold doCAS at hr
    rw [hl] at hr
    simp only at hr
    split at hr
    · cases hr; exact Or.inl ⟨rfl, rfl, hf.2⟩
    · rename_i h
      refine Or.inr ⟨hr, ?_⟩
      refine ⟨?_, ?_, ?_⟩
      · rcases Int.lt_or_le 0 t.oldVersion with c | c
        · exact absurd (Or.inl c) h
        · exact c
      · rcases Int.lt_or_le 0 t.oldEpoch with c | c
        · exact absurd (Or.inr (Or.inl c)) h
        · exact c
      · by_cases c : t.oldVal = []
        · exact c
        · exact absurd (Or.inr (Or.inr c)) h
  | some l =>
    by_cases h : (InForce drift l t.tm ∧ l.leasor ≠ t.leasor) ∨ ¬ CasCond l t
    · obtain ⟨a, h1, h2, h3⟩ := doCAS_refused hl hf.2 h
      rw [h1] at hr; cases hr
      exact Or.inl ⟨rfl, h2, h3⟩
    · have h1 : ¬ (InForce drift l t.tm ∧ l.leasor ≠ t.leasor) := fun e => h (Or.inl e)
      have h2 : CasCond l t := Classical.byContradiction fun e => h (Or.inr e)
      rw [doCAS_found hl h1 h2] at hr
      exact Or.inr ⟨hr, h2, h1⟩

theorem writeLeaf_accepts {drift : Int} {l : Leaf} {t : Ticket} (hidx : l.writeIdx < t.idx)
    (h : ¬ Leased l ∨ (l.endTm + drift < t.tm ∧ (t.reqDur ≠ 0 → l.endTm < t.endTm)) ∨
      (Leased l ∧ Own l t ∧ t.reqDur ≠ 0 ∧ l.endTm < t.endTm)) :
    ∃ l', writeLeaf drift l t = .inl l' := by
  unfold writeLeaf
  rw [if_neg (by omega)]
  by_cases h2 : l.leasor = [] ∨ l.endTm = 0
  · rw [if_pos h2]; exact ⟨_, rfl⟩
  rw [if_neg h2]
  have hl : Leased l := ⟨fun e => h2 (Or.inl e), fun e => h2 (Or.inr e)⟩
  rcases h with h | ⟨h, h'⟩ | h
  · exact absurd hl h
  · rw [if_neg (by intro e; have := h' e.1; omega)]
    split
    · exact ⟨_, rfl⟩
    · exact ⟨_, rfl⟩
  · rw [if_neg (by intro e; omega), if_pos ⟨h.2.2.1, h.2.1⟩]; exact ⟨_, rfl⟩

theorem casWrite_some {drift kv t} (htm : t.tm ≠ 0) : ∃ r, casWrite drift kv t = some r := by
  unfold casWrite kvstoreWrite
  rw [if_neg htm]
  cases leafOf kv t.table t.key with
  | none => exact ⟨_, rfl⟩
  | some l =>
    simp only
    cases writeLeaf drift l t <;> exact ⟨_, rfl⟩

theorem doCAS_some {drift kv t} (htm : t.tm ≠ 0) : ∃ r, doCAS drift kv t = some r := by
  have := casWrite_some (drift := drift) (kv := kv) htm
  unfold doCAS
  cases leafOf kv t.table t.key with
  | none => simp only; split <;> first | exact ⟨_, rfl⟩ | exact this
  | some l =>
    simp only
    repeat' split
    all_goals first
      | exact ⟨_, rfl⟩
      | exact this

/-- The write behind a compare-and-swap of an absent key, or one `writeLeaf` accepts, succeeds. -/
theorem casWrite_succeeds {drift kv t r} (he : t.err = none) (hr : casWrite drift kv t = some r)
    (h : ∀ l, leafOf kv t.table t.key = some l → ∃ l', writeLeaf drift l t = .inl l') :
    r.2.err = none := by
  unfold casWrite kvstoreWrite at hr
  split at hr
  · cases hr
  · cases hl : leafOf kv t.table t.key with
    | none => rw [hl] at hr; cases hr; exact he
    | some l =>
      obtain ⟨l', h'⟩ := h l hl
      rw [hl] at hr
      simp only [h'] at hr
      cases hr
      simp only
      split <;> exact he

/-! ### Clocks -/

def NoAutoTab (tab : Table) : Prop := ∀ y ∈ tab, y.2.autoDel = false

theorem closed_noAuto : Closed NoAutoTab (fun l => l.autoDel = false) where
  nil := by intro y h; cases h
  ins := by
    intro tab k l h1 h2 y hy
    rcases mem_put hy with e | e
    · rw [e]; exact h2
    · exact h1 y e
  del := fun h y hy => h y (mem_erase hy).1
  leaf := fun h hx => h _ hx

theorem apply_noAuto {drift now kv t r} (h : AllTabs NoAutoTab kv)
    (ht : t.op = .write ∨ t.op = .cas → t.autoDel = false) (hr : apply drift now kv t = some r) :
    AllTabs NoAutoTab r.1 :=
  closed_noAuto.apply h (fun hop => ht hop)
    (fun hop _ _ _ hw => by rw [(writeLeaf_inl hw).2.2.2.2.2.1]; exact ht hop) hr

theorem visit_noAuto {t now xs} : ∀ {m}, NoAutoTab xs → (visit t now m xs).1 = m ∧
    ∀ now', visit t now m xs = visit t now' m xs := by
  induction xs with
  | nil => intro m _; exact ⟨rfl, fun _ => rfl⟩
  | cons x xs ih =>
    intro m h
    obtain ⟨h1, h2⟩ := ih (m := m) (fun y hy => h y (List.mem_cons_of_mem _ hy))
    have hx := h x List.mem_cons_self
    simp only [visit, not_expired hx, Bool.false_eq_true, if_false]
    exact ⟨h1, fun now' => by rw [h2 now']⟩

theorem readLeaf_noAuto {m now t k} (h : AllTabs NoAutoTab (some m)) :
    readLeaf now m t k = (m, leafOf (some m) t k) := by
  unfold readLeaf
  cases hl : leafOf (some m) t k with
  | none => rfl
  | some l => simp [not_expired (closed_noAuto.leafOf h hl)]

theorem apply_clock {drift now now' kv t} (h : AllTabs NoAutoTab kv) :
    apply drift now kv t = apply drift now' kv t := by
  unfold apply
  cases t.op <;> simp only
  · cases kv with
    | none => rfl
    | some m => simp [doReadKey, readLeaf_noAuto h]
  · cases kv with
    | none => rfl
    | some m => simp [doDeleteKey, readLeaf_noAuto h]
  · cases kv with
    | none => rfl
    | some m =>
      cases m with
      | nil => rfl
      | cons y m =>
        unfold doShowKeys
        simp only
        split
        · rfl
        · cases hl : lookup (y :: m) t.table with
          | none => rfl
          | some tab => simp only; rw [(visit_noAuto (h.lookup hl)).2 now']
  · cases kv with
    | none => rfl
    | some m =>
      unfold doScan
      simp only
      cases hl : lookup m t.table with
      | none => rfl
      | some tab =>
        simp only
        rw [(visit_noAuto (fun y hy => h.lookup hl y (rangeKeys_mem hy))).2 now']
  · cases kv with
    | none => rfl
    | some m =>
      unfold doScan
      simp only
      cases hl : lookup m t.table with
      | none => rfl
      | some tab =>
        simp only
        rw [(visit_noAuto (fun y hy => h.lookup hl y (prefixKeys_mem hy))).2 now']

theorem applyAll_clock {drift} : ∀ {log1 log2 : List (Ticket × Int)} {kv : Store}, AllTabs NoAutoTab kv →
    log1.map Prod.fst = log2.map Prod.fst →
    (∀ x ∈ log1, x.1.op = .write ∨ x.1.op = .cas → x.1.autoDel = false) →
    applyAll drift kv log1 = applyAll drift kv log2
  | [], [], _, _, _, _ => rfl
  | [], _ :: _, _, _, h, _ => by simp at h
  | _ :: _, [], _, _, h, _ => by simp at h
  | (t, n1) :: log1, (t2, n2) :: log2, kv, hk, h, ha => by
    simp only [List.map_cons, List.cons.injEq] at h
    obtain ⟨h1, h2⟩ := h
    subst h1
    simp only [applyAll]
    rw [apply_clock (now' := n2) hk]
    cases hq : apply drift n2 kv t with
    | none => rfl
    | some q =>
      simp only [Option.bind_some]
      rw [applyAll_clock (apply_noAuto hk (ha _ List.mem_cons_self) hq) h2
        (fun x hx => ha x (List.mem_cons_of_mem _ hx))]

/-! ### Scans -/

theorem blt_iff_lt : ∀ {a b : Key}, blt a b = true ↔ a < b
  | [], [] => by simp [blt]
  | [], _ :: _ => by simp [blt]
  | _ :: _, [] => by simp [blt]
  | a :: as, b :: bs => by
    simp only [blt, List.cons_lt_cons_iff]
    by_cases h : a = b
    · subst h; rw [if_pos rfl, blt_iff_lt]; simp
    · rw [if_neg h]; simp [h]

theorem ble_iff_le {a b : Key} : ble a b = true ↔ a ≤ b := by
  rw [ble_iff, ← List.not_lt, ← blt_iff_lt]
  constructor
  · rintro (e | h)
    · subst e; simp [blt_irrefl]
    · simp [blt_asymm h]
  · intro h
    by_cases e : a = b
    · exact Or.inl e
    · right; exact blt_total b a (fun e' => e e'.symm) (by simpa using h)

section
variable {β : Type}

theorem lookup_of_mem_ne {m : List (Key × β)} (h : m.Pairwise fun a b => a.1 ≠ b.1) {k : Key} {v : β}
    (hm : (k, v) ∈ m) : lookup m k = some v := by
  induction m with
  | nil => cases hm
  | cons y m ih =>
    obtain ⟨k', v'⟩ := y
    rw [List.pairwise_cons] at h
    rcases List.mem_cons.1 hm with e | e
    · cases e; simp [lookup]
    · simp only [lookup]
      rw [if_neg (fun e' => h.1 _ e e'.symm)]
      exact ih h.2 e

theorem Sorted.ne {m : List (Key × β)} (h : Sorted m) : m.Pairwise fun a b => a.1 ≠ b.1 :=
  h.imp fun h => blt_ne h

theorem Sorted.reverse_ne {m : List (Key × β)} (h : Sorted m) : m.reverse.Pairwise fun a b => a.1 ≠ b.1 := by
  rw [List.pairwise_reverse]
  exact h.imp fun h => (blt_ne h).symm
end

theorem lookup_visit {t now xs} : ∀ {m} (k : Key),
    lookup (visit t now m xs).2 k = lookup (xs.filter fun x => !expired t now x.2) k := by
  induction xs with
  | nil => intros; rfl
  | cons x xs ih =>
    intro m k
    obtain ⟨k', l⟩ := x
    simp only [visit]
    cases he : expired t now l with
    | true => simp [he, List.filter, ih]
    | false =>
      simp only [he, Bool.false_eq_true, if_false, List.filter, Bool.not_false]
      by_cases hk : k = k'
      · subst hk; rw [lookup_put_same]; simp [lookup]
      · rw [lookup_put_other _ _ hk, ih]; simp [lookup, hk]

theorem sorted_visit {t now xs} : ∀ {m}, Sorted (visit t now m xs).2 := by
  induction xs with
  | nil => intro m; exact List.Pairwise.nil
  | cons x xs ih =>
    intro m
    simp only [visit]
    split
    · exact ih
    · exact sorted_put ih

theorem mem_visit {t now xs m} (h : xs.Pairwise fun a b => a.1 ≠ b.1) (x : Key × Leaf) :
    x ∈ (visit t now m xs).2 ↔ x ∈ xs ∧ expired t now x.2 = false := by
  rw [show x = (x.1, x.2) from rfl, mem_iff_lookup sorted_visit, lookup_visit]
  constructor
  · intro h
    have := mem_of_lookup h
    simpa using this
  · intro ⟨h1, h2⟩
    refine lookup_of_mem_ne (h.sublist List.filter_sublist) ?_
    simp [List.mem_filter, h1, h2]

theorem rangeKeys_ne {tab t} (h : Sorted tab) : (rangeKeys tab t).Pairwise fun a b => a.1 ≠ b.1 := by
  unfold rangeKeys
  split
  · exact h.reverse_ne.sublist List.filter_sublist
  · exact h.ne.sublist List.filter_sublist

theorem prefixKeys_ne {tab t} (h : Sorted tab) : (prefixKeys tab t).Pairwise fun a b => a.1 ≠ b.1 := by
  unfold prefixKeys
  refine List.Pairwise.sublist (List.takeWhile_sublist _) ?_
  split
  · exact h.reverse_ne.sublist List.filter_sublist
  · exact h.ne.sublist List.filter_sublist

theorem takeWhile_prefix {p : Key} : ∀ {xs : Table}, Sorted xs → (∀ x ∈ xs, ble p x.1 = true) →
    xs.takeWhile (fun x => p.isPrefixOf x.1) = xs.filter (fun x => p.isPrefixOf x.1)
  | [], _, _ => rfl
  | x :: xs, h, hp => by
    unfold Sorted at h
    rw [List.pairwise_cons] at h
    have ih := takeWhile_prefix h.2 (fun y hy => hp y (List.mem_cons_of_mem _ hy))
    by_cases hx : p.isPrefixOf x.1 = true
    · simp only [List.takeWhile, List.filter, hx, ih]
    · have hx' := eq_false_of_ne_true hx
      simp only [List.takeWhile, List.filter, hx']
      symm
      rw [List.filter_eq_nil_iff]
      intro y hy hy2
      have := prefix_between (hp x List.mem_cons_self) (h.1 y hy) hy2
      exact hx this

theorem prefixKeys_asc {tab : Table} {t : Ticket} (h : Sorted tab) (hd : t.descend = false) (x : Key × Leaf) :
    x ∈ prefixKeys tab t ↔ x ∈ tab ∧ t.key <+: x.1 := by
  unfold prefixKeys
  rw [if_neg (by simp [hd]), takeWhile_prefix (h.sublist List.filter_sublist)]
  · simp only [List.mem_filter, inAsc]
    rw [List.isPrefixOf_iff_prefix]
    constructor
    · rintro ⟨⟨a, _⟩, b⟩; exact ⟨a, b⟩
    · rintro ⟨a, b⟩
      exact ⟨⟨a, by simp [prefix_ble (List.isPrefixOf_iff_prefix.2 b)]⟩, b⟩
  · intro x hx
    have := (List.mem_filter.1 hx).2
    simp only [inAsc, Bool.and_eq_true] at this
    exact this.1

end Verif.KV
