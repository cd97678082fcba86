import Verif.Model.KV
/- Lemmas about the key/value model. -/
namespace Verif.KV

/-! ### Order on keys -/

theorem blt_irrefl (a : Key) : blt a a = false := by
  induction a with
  | nil => rfl
  | cons x xs ih => simp [blt, ih]

theorem blt_trans : ∀ {a b c : Key}, blt a b = true → blt b c = true → blt a c = true
  | [], [], _, h, _ => by simp [blt] at h
  | [], _ :: _, [], _, h => by simp [blt] at h
  | [], _ :: _, _ :: _, _, _ => by simp [blt]
  | _ :: _, [], _, h, _ => by simp [blt] at h
  | _ :: _, _ :: _, [], _, h => by simp [blt] at h
  | a :: as, b :: bs, c :: cs, h1, h2 => by
    simp only [blt] at h1 h2 ⊢
    by_cases hab : a = b
    · rw [if_pos hab] at h1
      by_cases hbc : b = c
      · rw [if_pos hbc] at h2
        rw [if_pos (hab.trans hbc)]; exact blt_trans h1 h2
      · rw [if_neg hbc] at h2
        rw [if_neg (hab ▸ hbc), hab]; exact h2
    · rw [if_neg hab] at h1
      have hlt : a < b := of_decide_eq_true h1
      by_cases hbc : b = c
      · rw [if_neg (hbc ▸ hab)]; rw [← hbc]; exact h1
      · rw [if_neg hbc] at h2
        have hlt2 : b < c := of_decide_eq_true h2
        have h3 : a < c := UInt8.lt_trans hlt hlt2
        have h4 : a ≠ c := by
          intro e; rw [e] at h3; exact UInt8.lt_irrefl c h3
        rw [if_neg h4]
        exact decide_eq_true h3

theorem blt_total : ∀ (a b : Key), a ≠ b → blt a b = false → blt b a = true
  | [], [], h, _ => absurd rfl h
  | [], _ :: _, _, h => by simp [blt] at h
  | _ :: _, [], _, _ => by simp [blt]
  | a :: as, b :: bs, hne, h => by
    simp only [blt] at h ⊢
    by_cases hab : a = b
    · rw [if_pos hab] at h
      rw [if_pos hab.symm]
      exact blt_total as bs (fun e => hne (by rw [hab, e])) h
    · rw [if_neg hab] at h
      rw [if_neg (fun e => hab e.symm)]
      have h1 : ¬ a < b := of_decide_eq_false h
      refine decide_eq_true ?_
      have := UInt8.not_lt.1 h1
      exact UInt8.lt_of_le_of_ne this (fun e => hab e.symm)

theorem blt_asymm {a b : Key} (h : blt a b = true) : blt b a = false := by
  cases hb : blt b a with
  | false => rfl
  | true => have := blt_trans h hb; rw [blt_irrefl] at this; cases this

theorem blt_ne {a b : Key} (h : blt a b = true) : a ≠ b := by
  intro e; rw [e, blt_irrefl] at h; cases h

theorem ble_iff {a b : Key} : ble a b = true ↔ a = b ∨ blt a b = true := by
  simp [ble]

/-- Between a prefix and a key that starts with it, all keys start with it. -/
theorem prefix_between : ∀ {p x y : Key}, ble p x = true → blt x y = true →
    p.isPrefixOf y = true → p.isPrefixOf x = true
  | [], _, _, _, _, _ => by simp [List.isPrefixOf]
  | a :: p, [], _, h, _, _ => by simp [ble, blt] at h
  | a :: p, b :: x, [], _, _, h => by simp [List.isPrefixOf] at h
  | a :: p, b :: x, c :: y, h1, h2, h3 => by
    simp only [List.isPrefixOf, Bool.and_eq_true, beq_iff_eq] at h3 ⊢
    obtain ⟨hac, h3⟩ := h3
    have hab : a = b := by
      rcases ble_iff.1 h1 with e | h
      · exact (List.cons.inj e).1
      · simp only [blt] at h h2
        by_cases e : a = b
        · exact e
        · rw [if_neg e] at h
          have : a < b := of_decide_eq_true h
          by_cases e2 : b = c
          · exact hac.trans e2.symm
          · rw [if_neg e2] at h2
            have h4 : b < c := of_decide_eq_true h2
            rw [hac] at this
            exact absurd (UInt8.lt_trans this h4) (UInt8.lt_irrefl c)
    refine ⟨hab, ?_⟩
    have h1' : ble p x = true := by
      rcases ble_iff.1 h1 with e | h
      · exact ble_iff.2 (Or.inl (List.cons.inj e).2)
      · simp only [blt] at h; rw [if_pos hab] at h; exact ble_iff.2 (Or.inr h)
    have h2' : blt x y = true := by
      simp only [blt] at h2; rw [if_pos (hab.symm.trans hac)] at h2; exact h2
    exact prefix_between h1' h2' h3

theorem prefix_ble : ∀ {p x : Key}, p.isPrefixOf x = true → ble p x = true
  | [], [], _ => rfl
  | [], _ :: _, _ => by simp [ble, blt]
  | _ :: _, [], h => by simp [List.isPrefixOf] at h
  | a :: p, b :: x, h => by
    simp only [List.isPrefixOf, Bool.and_eq_true, beq_iff_eq] at h
    rcases ble_iff.1 (prefix_ble h.2) with e | e
    · rw [ble_iff]; left; rw [h.1, e]
    · rw [ble_iff]; right; simp [blt, h.1, e]

/-! ### Maps -/

section maps
variable {β : Type}

theorem lookup_put_same (k : Key) (v : β) (m) : lookup (put k v m) k = some v := by
  induction m with
  | nil => simp [put, lookup]
  | cons x m ih =>
    obtain ⟨k', v'⟩ := x
    simp only [put]
    split
    · simp [lookup]
    · rename_i hne
      split
      · simp [lookup]
      · simp [lookup, hne, ih]

theorem lookup_put_other {k k2 : Key} (v : β) (m) (h : k2 ≠ k) : lookup (put k v m) k2 = lookup m k2 := by
  induction m with
  | nil => simp [put, lookup, h]
  | cons x m ih =>
    obtain ⟨k', v'⟩ := x
    simp only [put]
    split
    · rename_i e; subst e; simp [lookup, h]
    · split
      · simp [lookup, h]
      · simp [lookup, ih]

theorem lookup_erase_same (k : Key) (m : List (Key × β)) : lookup (erase k m) k = none := by
  induction m with
  | nil => rfl
  | cons x m ih =>
    obtain ⟨k', v'⟩ := x
    unfold erase at ih ⊢
    by_cases h : k' = k
    · simpa [List.filter, h] using ih
    · simp only [List.filter, ne_eq, h, not_false_eq_true, decide_true, lookup]
      rw [if_neg (fun e => h e.symm)]; exact ih

theorem lookup_erase_other {k k2 : Key} (m : List (Key × β)) (h : k2 ≠ k) :
    lookup (erase k m) k2 = lookup m k2 := by
  induction m with
  | nil => rfl
  | cons x m ih =>
    obtain ⟨k', v'⟩ := x
    unfold erase at ih ⊢
    by_cases h' : k' = k
    · subst h'; simp [List.filter, lookup, h]
      simpa using ih
    · simp only [List.filter, ne_eq, h', not_false_eq_true, decide_true, lookup]
      split
      · rfl
      · exact ih

theorem mem_of_lookup {k : Key} {v : β} {m} (h : lookup m k = some v) : (k, v) ∈ m := by
  induction m with
  | nil => simp [lookup] at h
  | cons x m ih =>
    obtain ⟨k', v'⟩ := x
    simp only [lookup] at h
    split at h
    · rename_i e; cases h; subst e; exact List.mem_cons_self
    · exact List.mem_cons_of_mem _ (ih h)

theorem mem_put {k : Key} {v : β} {m} {x : Key × β} (h : x ∈ put k v m) : x = (k, v) ∨ x ∈ m := by
  induction m with
  | nil => simp [put] at h; exact Or.inl h
  | cons y m ih =>
    obtain ⟨k', v'⟩ := y
    simp only [put] at h
    split at h
    · rcases List.mem_cons.1 h with e | e
      · exact Or.inl e
      · exact Or.inr (List.mem_cons_of_mem _ e)
    · split at h
      · rcases List.mem_cons.1 h with e | e
        · exact Or.inl e
        · exact Or.inr e
      · rcases List.mem_cons.1 h with e | e
        · exact Or.inr (e ▸ List.mem_cons_self)
        · rcases ih e with e | e
          · exact Or.inl e
          · exact Or.inr (List.mem_cons_of_mem _ e)

theorem mem_erase {k : Key} {m : List (Key × β)} {x : Key × β} (h : x ∈ erase k m) : x ∈ m ∧ x.1 ≠ k := by
  simpa [erase] using h

/-- Strictly increasing keys. -/
def Sorted (m : List (Key × β)) : Prop := m.Pairwise fun a b => blt a.1 b.1 = true

theorem sorted_put {k : Key} {v : β} {m} (h : Sorted m) : Sorted (put k v m) := by
  induction m with
  | nil => simp [put, Sorted]
  | cons y m ih =>
    obtain ⟨k', v'⟩ := y
    unfold Sorted at h
    rw [List.pairwise_cons] at h
    simp only [put]
    split
    · rename_i e
      unfold Sorted; rw [List.pairwise_cons]
      exact ⟨fun a ha => e ▸ h.1 a ha, h.2⟩
    · rename_i hne
      split
      · rename_i hlt
        unfold Sorted; rw [List.pairwise_cons, List.pairwise_cons]
        refine ⟨fun a ha => ?_, h.1, h.2⟩
        rcases List.mem_cons.1 ha with e | e
        · subst e; exact hlt
        · exact blt_trans hlt (h.1 a e)
      · rename_i hlt
        have hgt := blt_total k k' hne (by simpa using hlt)
        unfold Sorted; rw [List.pairwise_cons]
        refine ⟨fun a ha => ?_, ih h.2⟩
        rcases mem_put ha with e | e
        · subst e; exact hgt
        · exact h.1 a e

theorem sorted_erase {k : Key} {m : List (Key × β)} (h : Sorted m) : Sorted (erase k m) :=
  List.Pairwise.sublist List.filter_sublist h

theorem lookup_of_mem {m : List (Key × β)} (h : Sorted m) {k : Key} {v : β} (hm : (k, v) ∈ m) :
    lookup m k = some v := by
  induction m with
  | nil => cases hm
  | cons y m ih =>
    obtain ⟨k', v'⟩ := y
    unfold Sorted at h
    rw [List.pairwise_cons] at h
    rcases List.mem_cons.1 hm with e | e
    · cases e; simp [lookup]
    · simp only [lookup]
      rw [if_neg (fun e' => blt_ne (h.1 _ e) e'.symm)]
      exact ih h.2 e

theorem mem_iff_lookup {m : List (Key × β)} (h : Sorted m) {k : Key} {v : β} :
    (k, v) ∈ m ↔ lookup m k = some v := ⟨lookup_of_mem h, mem_of_lookup⟩

end maps

/-! ### Leaves -/

theorem leafOf_getD (kv : Store) (t k : Key) : leafOf (some (kv.getD [])) t k = leafOf kv t k := by
  cases kv <;> rfl

theorem leafOf_setKey (m) (t k : Key) (l : Leaf) (t' k' : Key) :
    leafOf (some (setKey m t k l)) t' k' = if t' = t ∧ k' = k then some l else leafOf (some m) t' k' := by
  unfold leafOf setKey
  simp only [Option.bind_some]
  by_cases ht : t' = t
  · subst ht
    rw [lookup_put_same]
    by_cases hk : k' = k
    · subst hk; simp [lookup_put_same]
    · simp only [Option.bind_some, lookup_put_other _ _ hk, hk, and_false, if_false]
      cases lookup m t' <;> rfl
  · rw [lookup_put_other _ _ ht]; simp [ht]

theorem leafOf_put_other {m} {t t' : Key} (tab : Table) (k : Key) (h : t' ≠ t) :
    leafOf (some (put t tab m)) t' k = leafOf (some m) t' k := by
  simp [leafOf, lookup_put_other _ _ h]

theorem leafOf_ensureDead (m) (t k : Key) : leafOf (some (ensureDead m)) t k = leafOf (some m) t k := by
  unfold ensureDead
  cases h : lookup m dead with
  | some _ => rfl
  | none =>
    by_cases ht : t = dead
    · subst ht; simp [leafOf, lookup_put_same, h, lookup]
    · exact leafOf_put_other _ _ ht

theorem leafOf_eraseIn (m) (t k t' k' : Key) :
    leafOf (some (put t (erase k ((lookup m t).getD [])) m)) t' k' =
      if t' = t ∧ k' = k then none else leafOf (some m) t' k' := by
  unfold leafOf
  simp only [Option.bind_some]
  by_cases ht : t' = t
  · subst ht
    rw [lookup_put_same]
    by_cases hk : k' = k
    · subst hk; simp [lookup_erase_same]
    · simp only [Option.bind_some, lookup_erase_other _ hk, hk, and_false, if_false]
      cases lookup m t' <;> rfl
  · rw [lookup_put_other _ _ ht]; simp [ht]

/-- Outside "dead", burying removes one key and nothing else. -/
theorem leafOf_bury (m) (t : Key) (x : Key × Leaf) (t' k' : Key) (hd : t' ≠ dead) :
    leafOf (some (bury m t x)) t' k' = if t' = t ∧ k' = x.1 then none else leafOf (some m) t' k' := by
  unfold bury
  simp only
  rw [leafOf_eraseIn]
  split
  · rfl
  · rw [leafOf_put_other _ _ hd, leafOf_ensureDead]

theorem leafOf_visit (t : Key) (now : Int) (xs) : ∀ (m) (t' k' : Key), t' ≠ dead →
    (∀ x ∈ xs, t = t' → x.1 = k' → expired t now x.2 = false) →
    leafOf (some (visit t now m xs).1) t' k' = leafOf (some m) t' k' := by
  induction xs with
  | nil => intros; rfl
  | cons x xs ih =>
    intro m t' k' hd hx
    simp only [visit]
    split
    · rename_i he
      rw [ih _ _ _ hd (fun y hy => hx y (List.mem_cons_of_mem _ hy)), leafOf_bury _ _ _ _ _ hd, if_neg]
      rintro ⟨h1, h2⟩
      rw [hx x List.mem_cons_self h1.symm h2.symm] at he
      cases he
    · exact ih _ _ _ hd (fun y hy => hx y (List.mem_cons_of_mem _ hy))

/-! ### Tables kept in order -/

/-- Every table satisfies `P`. -/
def AllTabs (P : Table → Prop) (kv : Store) : Prop := ∀ m, kv = some m → ∀ x ∈ m, P x.2

theorem AllTabs.lookup {P : Table → Prop} {m} (h : AllTabs P (some m)) {t tab} (hl : lookup m t = some tab) :
    P tab := h m rfl _ (mem_of_lookup hl)

theorem AllTabs.getD {P : Table → Prop} (hn : P []) {m} (h : AllTabs P (some m)) (t) :
    P ((KV.lookup m t).getD []) := by
  cases hl : KV.lookup m t with
  | none => exact hn
  | some tab => exact h.lookup hl

theorem AllTabs.put {P : Table → Prop} {m} (h : AllTabs P (some m)) {t tab} (ht : P tab) :
    AllTabs P (some (put t tab m)) := by
  intro m' e x hx
  cases e
  rcases mem_put hx with e | e
  · rw [e]; exact ht
  · exact h m rfl x e

theorem AllTabs.erase {P : Table → Prop} {m} (h : AllTabs P (some m)) {t} :
    AllTabs P (some (erase t m)) := by
  intro m' e x hx
  cases e
  exact h m rfl x (mem_erase hx).1

theorem AllTabs.ensureDead {P : Table → Prop} (hn : P []) {m} (h : AllTabs P (some m)) :
    AllTabs P (some (ensureDead m)) := by
  unfold KV.ensureDead
  cases KV.lookup m dead with
  | some _ => exact h
  | none => exact h.put hn

/-- What a property of tables needs to survive every operation. -/
structure Closed (P : Table → Prop) (Q : Leaf → Prop) : Prop where
  nil : P []
  ins : ∀ {tab k l}, P tab → Q l → P (put k l tab)
  del : ∀ {tab k}, P tab → P (erase k tab)
  leaf : ∀ {tab x}, P tab → x ∈ tab → Q x.2

variable {P : Table → Prop} {Q : Leaf → Prop}

theorem Closed.bury (c : Closed P Q) {m} (h : AllTabs P (some m)) {t x} (hx : Q x.2) :
    AllTabs P (some (bury m t x)) := by
  unfold KV.bury
  simp only
  have h1 := h.ensureDead c.nil
  have h2 := h1.put (t := dead) (c.ins (k := x.1) (h1.getD c.nil dead) hx)
  exact h2.put (c.del (h2.getD c.nil t))

theorem Closed.visit (c : Closed P Q) {t now} (xs : List (Key × Leaf)) : ∀ {m}, AllTabs P (some m) →
    (∀ x ∈ xs, Q x.2) → AllTabs P (some (visit t now m xs).1) := by
  induction xs with
  | nil => intro m h _; exact h
  | cons x xs ih =>
    intro m h hx
    simp only [KV.visit]
    split
    · exact ih (c.bury h (hx x List.mem_cons_self)) (fun y hy => hx y (List.mem_cons_of_mem _ hy))
    · exact ih h (fun y hy => hx y (List.mem_cons_of_mem _ hy))

theorem Closed.setKey (c : Closed P Q) {kv : Store} (h : AllTabs P kv) {t k l} (hl : Q l) :
    AllTabs P (some (setKey (kv.getD []) t k l)) := by
  have h' : AllTabs P (some (kv.getD [])) := by
    cases kv with
    | none => intro m e x hx; cases e; cases hx
    | some m => exact h
  exact h'.put (c.ins (h'.getD c.nil t) hl)

theorem leafOf_mem {kv : Store} {t k l} (h : leafOf kv t k = some l) :
    ∃ m tab, kv = some m ∧ lookup m t = some tab ∧ lookup tab k = some l := by
  cases kv with
  | none => cases h
  | some m =>
    simp only [leafOf, Option.bind_some] at h
    cases hl : lookup m t with
    | none => rw [hl] at h; cases h
    | some tab => rw [hl] at h; exact ⟨m, tab, rfl, hl, h⟩

theorem Closed.leafOf (c : Closed P Q) {kv : Store} (h : AllTabs P kv) {t k l}
    (hl : leafOf kv t k = some l) : Q l := by
  obtain ⟨m, tab, rfl, h1, h2⟩ := leafOf_mem hl
  exact c.leaf (h.lookup h1) (mem_of_lookup h2)

theorem Closed.readLeaf (c : Closed P Q) {m now t k} (h : AllTabs P (some m)) :
    AllTabs P (some (readLeaf now m t k).1) := by
  unfold KV.readLeaf
  cases hl : KV.leafOf (some m) t k with
  | none => exact h
  | some l =>
    simp only
    split
    · exact c.bury h (c.leafOf h hl)
    · exact h

theorem Closed.kvstoreWrite (c : Closed P Q) {drift kv t r} (h : AllTabs P kv)
    (hf : Q (freshLeaf t)) (hw : ∀ l l', Q l → writeLeaf drift l t = .inl l' → Q l')
    (hr : kvstoreWrite drift kv t = some r) : AllTabs P r.1 := by
  unfold KV.kvstoreWrite at hr
  split at hr
  · cases hr
  · cases hl : KV.leafOf kv t.table t.key with
    | none => rw [hl] at hr; cases hr; exact c.setKey h hf
    | some l =>
      rw [hl] at hr
      simp only at hr
      cases hwl : writeLeaf drift l t with
      | inr e => rw [hwl] at hr; cases hr; exact h
      | inl l' => rw [hwl] at hr; cases hr; exact c.setKey h (hw l l' (c.leafOf h hl) hwl)

theorem Closed.casWrite (c : Closed P Q) {drift kv t r} (h : AllTabs P kv)
    (hf : Q (freshLeaf t)) (hw : ∀ l l', Q l → writeLeaf drift l t = .inl l' → Q l')
    (hr : casWrite drift kv t = some r) : AllTabs P r.1 := by
  unfold KV.casWrite at hr
  cases hk : KV.kvstoreWrite drift kv t with
  | none => rw [hk] at hr; cases hr
  | some q => rw [hk] at hr; cases hr; exact c.kvstoreWrite (r := q) h hf hw hk

/-- A compare-and-swap either leaves the store or is the write. -/
theorem doCAS_cases {drift kv t r} (h : doCAS drift kv t = some r) :
    (r.1 = kv ∧ r.2.err.isSome = true) ∨ casWrite drift kv t = some r := by
  unfold doCAS at h
  cases hl : KV.leafOf kv t.table t.key with
  | none =>
    rw [hl] at h
    simp only at h
    split at h
    · cases h; exact Or.inl ⟨rfl, rfl⟩
    · exact Or.inr h
  | some l =>
    rw [hl] at h
    simp only at h
    repeat' split at h
    all_goals first
      | (cases h; exact Or.inl ⟨rfl, rfl⟩)
      | exact Or.inr h

theorem rangeKeys_mem {tab t x} (h : x ∈ rangeKeys tab t) : x ∈ tab := by
  unfold rangeKeys at h
  split at h
  · exact List.mem_reverse.1 (List.mem_filter.1 h).1
  · exact (List.mem_filter.1 h).1

theorem prefixKeys_mem {tab t x} (h : x ∈ prefixKeys tab t) : x ∈ tab := by
  unfold prefixKeys at h
  have h := (List.takeWhile_sublist _).subset h
  split at h
  · exact List.mem_reverse.1 (List.mem_filter.1 h).1
  · exact (List.mem_filter.1 h).1

theorem Closed.doScan (c : Closed P Q) {sel now kv t} (h : AllTabs P kv)
    (hs : ∀ {tab t x}, x ∈ sel tab t → x ∈ tab) : AllTabs P (doScan sel now kv t).1 := by
  unfold KV.doScan
  cases kv with
  | none => exact h
  | some m =>
    simp only
    cases hl : KV.lookup m t.table with
    | none => exact h
    | some tab => exact c.visit _ (h.ensureDead c.nil) (fun x hx => c.leaf (h.lookup hl) (hs hx))

theorem Closed.doShowKeys (c : Closed P Q) {now kv t} (h : AllTabs P kv) :
    AllTabs P (doShowKeys now kv t).1 := by
  cases kv with
  | none => exact h
  | some m =>
    cases m with
    | nil => exact h
    | cons y m =>
      unfold KV.doShowKeys
      simp only
      split
      · exact h
      · cases hl : KV.lookup (y :: m) t.table with
        | none => exact h
        | some tab => exact c.visit _ (h.ensureDead c.nil) (fun x hx => c.leaf (h.lookup hl) hx)

theorem Closed.doReadKey (c : Closed P Q) {now kv t} (h : AllTabs P kv) :
    AllTabs P (doReadKey now kv t).1 := by
  unfold KV.doReadKey
  cases kv with
  | none => exact h
  | some m =>
    have := c.readLeaf (now := now) (t := t.table) (k := t.key) h
    simp only
    generalize KV.readLeaf now m t.table t.key = r at this ⊢
    obtain ⟨m', o⟩ := r
    cases o <;> exact this

theorem Closed.doDeleteKey (c : Closed P Q) {drift now kv t} (h : AllTabs P kv) :
    AllTabs P (doDeleteKey drift now kv t).1 := by
  unfold KV.doDeleteKey
  cases kv with
  | none => exact h
  | some m =>
    simp only
    cases KV.lookup m t.table with
    | none => exact h
    | some tab =>
      have := c.readLeaf (now := now) (t := t.table) (k := t.key) h
      simp only
      generalize KV.readLeaf now m t.table t.key = r at this ⊢
      obtain ⟨m', o⟩ := r
      cases o with
      | none => exact this
      | some l =>
        simp only
        split
        · exact AllTabs.put this (c.del (AllTabs.getD c.nil this _))
        · exact this

theorem Closed.apply (c : Closed P Q) {drift now kv t r} (h : AllTabs P kv)
    (hf : t.op = .write ∨ t.op = .cas → Q (freshLeaf t))
    (hw : t.op = .write ∨ t.op = .cas → ∀ l l', Q l → writeLeaf drift l t = .inl l' → Q l')
    (hr : apply drift now kv t = some r) : AllTabs P r.1 := by
  unfold KV.apply at hr
  cases hop : t.op <;> rw [hop] at hr <;> simp only at hr
  · cases hr; exact h
  · exact c.kvstoreWrite h (hf (Or.inl hop)) (hw (Or.inl hop)) hr
  · rcases doCAS_cases hr with e | e
    · rw [e.1]; exact h
    · exact c.casWrite h (hf (Or.inr hop)) (hw (Or.inr hop)) e
  · cases hr; exact c.doReadKey h
  · cases hr; exact c.doDeleteKey h
  · unfold doMakeTable at hr
    split at hr
    · cases hr; exact h
    · cases kv with
      | none => cases hr
      | some m =>
        simp only at hr
        cases hl : KV.lookup m t.table with
        | none => rw [hl] at hr; cases hr; exact h.put c.nil
        | some _ => rw [hl] at hr; cases hr; exact h
  · unfold doDeleteTable at hr
    cases kv with
    | none => cases hr
    | some m =>
      simp only at hr
      split at hr
      · cases hr; exact h
      · cases hr; exact h.erase
  · unfold doRenameTable at hr
    cases kv with
    | none => cases hr
    | some m =>
      simp only at hr
      repeat' split at hr
      all_goals first
        | (cases hr; exact h)
        | (cases hr; rename_i hl; exact (h.put (h.lookup hl)).erase)
  · cases hr; exact c.doShowKeys h
  · cases hr; exact c.doScan h rangeKeys_mem
  · cases hr; exact c.doScan h prefixKeys_mem

theorem closed_sorted : Closed (Sorted (β := Leaf)) (fun _ => True) :=
  ⟨List.Pairwise.nil, fun h _ => sorted_put h, fun h => sorted_erase h, fun _ _ => trivial⟩

theorem apply_sorted {drift now kv t r} (h : AllTabs Sorted kv) (hr : apply drift now kv t = some r) :
    AllTabs Sorted r.1 :=
  closed_sorted.apply h (fun _ => trivial) (fun _ _ _ _ _ => trivial) hr

theorem applyAll_sorted {drift} : ∀ {log kv r}, AllTabs Sorted kv →
    applyAll drift kv log = some r → AllTabs Sorted r.1
  | [], kv, r, h, hr => by cases hr; exact h
  | (t, now) :: log, kv, r, h, hr => by
    simp only [applyAll] at hr
    cases ha : apply drift now kv t with
    | none => rw [ha] at hr; cases hr
    | some q =>
      rw [ha] at hr
      simp only [Option.bind_some] at hr
      cases hb : applyAll drift q.1 log with
      | none => rw [hb] at hr; cases hr
      | some q2 => rw [hb] at hr; cases hr; exact applyAll_sorted (r := q2) (apply_sorted h ha) hb

theorem allTabs_none {P : Table → Prop} : AllTabs P none := by intro m e; cases e

/-! ### What each operation does to one key -/

theorem leafOf_readLeaf {now m t k t' k'} (hd : t' ≠ dead)
    (hx : ∀ l, leafOf (some m) t k = some l → t = t' → k = k' → expired t now l = false) :
    leafOf (some (readLeaf now m t k).1) t' k' = leafOf (some m) t' k' := by
  unfold readLeaf
  cases hl : leafOf (some m) t k with
  | none => rfl
  | some l =>
    simp only
    split
    · rename_i he
      rw [leafOf_bury _ _ _ _ _ hd, if_neg]
      rintro ⟨h1, h2⟩
      rw [hx l hl h1.symm h2.symm] at he; cases he
    · rfl

theorem leafOf_write {drift kv t r} (hr : kvstoreWrite drift kv t = some r) (t' k' : Key)
    (h : ¬ (t' = t.table ∧ k' = t.key)) : leafOf r.1 t' k' = leafOf kv t' k' := by
  unfold kvstoreWrite at hr
  split at hr
  · cases hr
  · cases hl : leafOf kv t.table t.key with
    | none => rw [hl] at hr; cases hr; simp only; rw [leafOf_setKey, if_neg h, leafOf_getD]
    | some l =>
      rw [hl] at hr
      simp only at hr
      cases hwl : writeLeaf drift l t with
      | inr e => rw [hwl] at hr; cases hr; rfl
      | inl l' => rw [hwl] at hr; cases hr; simp only; rw [leafOf_setKey, if_neg h, leafOf_getD]

theorem leafOf_cas {drift kv t r} (hr : doCAS drift kv t = some r) (t' k' : Key)
    (h : ¬ (t' = t.table ∧ k' = t.key)) : leafOf r.1 t' k' = leafOf kv t' k' := by
  rcases doCAS_cases hr with e | e
  · rw [e.1]
  · unfold casWrite at e
    cases hk : kvstoreWrite drift kv t with
    | none => rw [hk] at e; cases e
    | some q => rw [hk] at e; cases e; exact leafOf_write hk t' k' h

/-- Operations that cannot touch a key's leaf: anything but writes and deletes of the key, and
removal or renaming of tables; readers only if the leaf has not run out. -/
theorem leafOf_apply_other {drift now kv t r} {T K : Key} (hd : T ≠ dead) (hs : AllTabs Sorted kv)
    (hr : apply drift now kv t = some r)
    (hw : t.op = .write ∨ t.op = .cas ∨ t.op = .deleteKey → ¬ (T = t.table ∧ K = t.key))
    (ht : t.op = .deleteTable ∨ t.op = .renameTable → t.table ≠ T)
    (hn : t.op = .renameTable → t.newTable ≠ T ∨ (leafOf kv T K).isSome)
    (hx : ∀ l, leafOf kv T K = some l → expired T now l = false) :
    leafOf r.1 T K = leafOf kv T K := by
  have hx' : ∀ {m : List (Key × Table)} {tab : Table}, kv = some m → lookup m t.table = some tab → ∀ {xs : List (Key × Leaf)}, (∀ x ∈ xs, x ∈ tab) →
      ∀ x ∈ xs, t.table = T → x.1 = K → expired t.table now x.2 = false := by
    intro m tab e hl xs hsub x hxm h1 h2
    subst e
    have := lookup_of_mem (hs.lookup hl) (hsub x hxm)
    rw [h1]
    refine hx x.2 ?_
    rw [← h1, ← h2]
    simp [leafOf, hl, this]
  unfold apply at hr
  cases hop : t.op <;> rw [hop] at hr <;> simp only at hr
  · cases hr; rfl
  · exact leafOf_write hr _ _ (hw (Or.inl hop))
  · exact leafOf_cas hr _ _ (hw (Or.inr (Or.inl hop)))
  · cases hr
    unfold doReadKey
    cases kv with
    | none => rfl
    | some m =>
      have := leafOf_readLeaf (now := now) (m := m) (t := t.table) (k := t.key) (k' := K) hd
        (fun l hl h1 h2 => by rw [h1]; exact hx l (by rw [← h1, ← h2]; exact hl))
      simp only
      generalize readLeaf now m t.table t.key = q at this ⊢
      obtain ⟨m', o⟩ := q
      cases o <;> exact this
  · cases hr
    unfold doDeleteKey
    cases kv with
    | none => rfl
    | some m =>
      simp only
      cases lookup m t.table with
      | none => rfl
      | some tab =>
        have := leafOf_readLeaf (now := now) (m := m) (t := t.table) (k := t.key) (k' := K) hd
          (fun l hl h1 h2 => by rw [h1]; exact hx l (by rw [← h1, ← h2]; exact hl))
        simp only
        generalize readLeaf now m t.table t.key = q at this ⊢
        obtain ⟨m', o⟩ := q
        cases o with
        | none => exact this
        | some l =>
          simp only
          split
          · simp only; rw [leafOf_eraseIn, if_neg (hw (Or.inr (Or.inr hop)))]; exact this
          · exact this
  · unfold doMakeTable at hr
    split at hr
    · cases hr; rfl
    · cases kv with
      | none => cases hr
      | some m =>
        simp only at hr
        cases hl : lookup m t.table with
        | none =>
          rw [hl] at hr; cases hr
          by_cases e : T = t.table
          · subst e; simp [leafOf, lookup_put_same, hl, lookup]
          · exact leafOf_put_other _ _ e
        | some _ => rw [hl] at hr; cases hr; rfl
  · unfold doDeleteTable at hr
    cases kv with
    | none => cases hr
    | some m =>
      simp only at hr
      split at hr
      · cases hr; rfl
      · cases hr
        simp [leafOf, lookup_erase_other m (fun e => ht (Or.inl hop) e.symm)]
  · unfold doRenameTable at hr
    cases kv with
    | none => cases hr
    | some m =>
      simp only at hr
      repeat' split at hr
      all_goals first
        | (cases hr; rfl)
        | skip
      rename_i hnew _ _ _
      cases hr
      have hne : t.newTable ≠ T := by
        rcases hn hop with h | h
        · exact h
        · intro e
          rw [e] at hnew
          simp only [leafOf, Option.bind_some] at h
          cases hl : lookup m T with
          | none => rw [hl] at h; cases h
          | some _ => rw [hl] at hnew; exact hnew rfl
      simp [leafOf, lookup_erase_other _ (fun e => ht (Or.inr hop) e.symm),
        lookup_put_other _ _ (fun e => hne e.symm)]
  · cases hr
    cases kv with
    | none => rfl
    | some m =>
      cases m with
      | nil => rfl
      | cons y m =>
        unfold doShowKeys
        simp only
        split
        · rfl
        · cases hl : lookup (y :: m) t.table with
          | none => rfl
          | some tab =>
            simp only
            rw [leafOf_visit _ _ _ _ _ _ hd (hx' rfl hl (fun x h => h)), leafOf_ensureDead]
  · cases hr
    unfold doScan
    cases kv with
    | none => rfl
    | some m =>
      simp only
      cases hl : lookup m t.table with
      | none => rfl
      | some tab =>
        simp only
        rw [leafOf_visit _ _ _ _ _ _ hd (hx' rfl hl (fun x h => rangeKeys_mem h)), leafOf_ensureDead]
  · cases hr
    unfold doScan
    cases kv with
    | none => rfl
    | some m =>
      simp only
      cases hl : lookup m t.table with
      | none => rfl
      | some tab =>
        simp only
        rw [leafOf_visit _ _ _ _ _ _ hd (hx' rfl hl (fun x h => prefixKeys_mem h)), leafOf_ensureDead]

end Verif.KV
