import Verif.Proofs.KVMore
/- What is stored is what the answers say was written (C62). -/
namespace Verif.KV

/-- What the store holds outside "dead" was the last thing written there. -/
def Sub (kv : Store) (m : Key → Key → Option Key) : Prop :=
  ∀ tb k l, tb ≠ dead → leafOf kv tb k = some l → m tb k = some l.value

/-- The store holds exactly what was written. -/
def Same (kv : Store) (m : Key → Key → Option Key) : Prop :=
  ∀ tb k, (leafOf kv tb k).map Leaf.value = m tb k

theorem leafOf_bury_sub {m t x t' k' l} (hd : t' ≠ dead)
    (h : leafOf (some (bury m t x)) t' k' = some l) : leafOf (some m) t' k' = some l := by
  rw [leafOf_bury _ _ _ _ _ hd] at h
  split at h
  · cases h
  · exact h

theorem leafOf_visit_sub {t now xs} : ∀ {m t' k' l}, t' ≠ dead →
    leafOf (some (visit t now m xs).1) t' k' = some l → leafOf (some m) t' k' = some l := by
  induction xs with
  | nil => intro m t' k' l _ h; exact h
  | cons x xs ih =>
    intro m t' k' l hd h
    simp only [visit] at h
    split at h
    · exact leafOf_bury_sub hd (ih hd h)
    · exact ih hd h

theorem leafOf_readLeaf_sub {m now t k t' k' l} (hd : t' ≠ dead)
    (h : leafOf (some (readLeaf now m t k).1) t' k' = some l) : leafOf (some m) t' k' = some l := by
  unfold readLeaf at h
  cases hl : leafOf (some m) t k with
  | none => rw [hl] at h; exact h
  | some y =>
    rw [hl] at h
    dsimp only at h
    split at h
    · exact leafOf_bury_sub hd h
    · exact h

/-- What a write or compare-and-swap does to all leaves. -/
theorem write_leaves {drift kv t r} (hr : kvstoreWrite drift kv t = some r) (he : t.err = none) :
    (r.1 = kv ∧ r.2.err ≠ none) ∨
    (r.2.err = none ∧ ∃ l', l'.value = t.val ∧
      ∀ tb k, leafOf r.1 tb k = if tb = t.table ∧ k = t.key then some l' else leafOf kv tb k) := by
  unfold kvstoreWrite at hr
  split at hr
  · cases hr
  · cases hl : leafOf kv t.table t.key with
    | none =>
      rw [hl] at hr; cases hr
      refine Or.inr ⟨he, freshLeaf t, rfl, fun tb k => ?_⟩
      simp only; rw [leafOf_setKey, leafOf_getD]
    | some l =>
      rw [hl] at hr
      simp only at hr
      cases hwl : writeLeaf drift l t with
      | inr e => rw [hwl] at hr; cases hr; exact Or.inl ⟨rfl, by simp [failed]⟩
      | inl l' =>
        rw [hwl] at hr; cases hr
        refine Or.inr ⟨?_, l', (writeLeaf_inl hwl).2.1, fun tb k => ?_⟩
        · simp only; split <;> exact he
        · simp only; rw [leafOf_setKey, leafOf_getD]

theorem cas_leaves {drift kv t r} (hr : doCAS drift kv t = some r) (he : t.err = none) :
    (r.1 = kv ∧ r.2.err ≠ none) ∨
    (r.2.err = none ∧ ∃ l', l'.value = t.val ∧
      ∀ tb k, leafOf r.1 tb k = if tb = t.table ∧ k = t.key then some l' else leafOf kv tb k) := by
  rcases doCAS_cases hr with e | e
  · exact Or.inl ⟨e.1, by intro h; rw [h] at e; simp at e⟩
  · unfold casWrite at e
    cases hk : kvstoreWrite drift kv t with
    | none => rw [hk] at e; cases e
    | some q => rw [hk] at e; cases e; exact write_leaves (r := q) hk he

theorem leafOf_makeTable {m : List (Key × Table)} {T tb k : Key} (h : lookup m T = none) :
    leafOf (some (put T [] m)) tb k = leafOf (some m) tb k := by
  by_cases e : tb = T
  · subst e
    simp [leafOf, lookup_put_same, h, lookup]
  · exact leafOf_put_other _ _ e

theorem leafOf_eraseTable {m : List (Key × Table)} {T tb k : Key} :
    leafOf (some (erase T m)) tb k = if tb = T then none else leafOf (some m) tb k := by
  split
  · next e => subst e; simp [leafOf, lookup_erase_same]
  · next e => simp [leafOf, lookup_erase_other _ e]

theorem leafOf_rename {m : List (Key × Table)} {T N tb k : Key} {tab : Table} (hn : N ≠ T)
    (hl : lookup m T = some tab) :
    leafOf (some (erase T (put N tab m))) tb k =
      if tb = T then none else if tb = N then leafOf (some m) T k else leafOf (some m) tb k := by
  rw [leafOf_eraseTable]
  split
  · rfl
  · split
    · next e => subst e; simp [leafOf, lookup_put_same, hl]
    · next e => exact leafOf_put_other _ _ e

theorem doScan_leaves {sel now kv t} :
    ∀ tb k l, tb ≠ dead → leafOf (doScan sel now kv t).1 tb k = some l → leafOf kv tb k = some l := by
  intro tb k l hd h
  unfold doScan at h
  cases kv with
  | none => exact h
  | some m =>
    dsimp only at h
    cases hl : lookup m t.table with
    | none => rw [hl] at h; exact h
    | some tab =>
      rw [hl] at h
      have := leafOf_visit_sub hd h
      rwa [leafOf_ensureDead] at this

theorem doShowKeys_leaves {now kv t} :
    ∀ tb k l, tb ≠ dead → leafOf (doShowKeys now kv t).1 tb k = some l → leafOf kv tb k = some l := by
  intro tb k l hd h
  unfold doShowKeys at h
  cases kv with
  | none => exact h
  | some m =>
    cases m with
    | nil => exact h
    | cons y m =>
      dsimp only at h
      split at h
      · exact h
      · cases hl : lookup (y :: m) t.table with
        | none => rw [hl] at h; exact h
        | some tab =>
          rw [hl] at h
          have := leafOf_visit_sub hd h
          rwa [leafOf_ensureDead] at this

theorem doReadKey_leaves {now kv t} :
    ∀ tb k l, tb ≠ dead → leafOf (doReadKey now kv t).1 tb k = some l → leafOf kv tb k = some l := by
  intro tb k l hd h
  unfold doReadKey at h
  cases kv with
  | none => exact h
  | some m =>
    dsimp only at h
    have hs := @leafOf_readLeaf_sub m now t.table t.key tb k l hd
    cases hq : readLeaf now m t.table t.key with
    | mk m' o =>
      rw [hq] at h hs
      cases o with
      | none => exact hs h
      | some y => exact hs h

theorem delete_leaves {drift now kv t r} (hr : doDeleteKey drift now kv t = r) :
    (∀ tb k l, tb ≠ dead → leafOf r.1 tb k = some l → leafOf kv tb k = some l) ∧
    (r.2.err = none → ∀ l, t.table ≠ dead → leafOf r.1 t.table t.key ≠ some l) := by
  unfold doDeleteKey at hr
  cases kv with
  | none => subst hr; exact ⟨fun _ _ _ _ h => h, fun _ _ _ h => by cases h⟩
  | some mm =>
    dsimp only at hr
    cases hl : lookup mm t.table with
    | none =>
      rw [hl] at hr
      subst hr
      exact ⟨fun _ _ _ _ h => h, fun _ l _ h => by simp [leafOf, hl] at h⟩
    | some tab =>
      rw [hl] at hr
      dsimp only at hr
      have hsub := @leafOf_readLeaf_sub mm now t.table t.key
      cases hq : readLeaf now mm t.table t.key with
      | mk m' o =>
        rw [hq] at hsub hr
        cases o with
        | none => subst hr; exact ⟨fun _ _ _ hd h => hsub hd h, fun h => by cases h⟩
        | some y =>
          dsimp only at hr
          split at hr
          · subst hr
            refine ⟨fun tb k l hd h => ?_, fun _ l _ h => ?_⟩
            · dsimp only at h
              rw [leafOf_eraseIn] at h
              split at h
              · cases h
              · exact hsub hd h
            · dsimp only at h
              rw [leafOf_eraseIn, if_pos ⟨rfl, rfl⟩] at h
              cases h
          · subst hr; exact ⟨fun _ _ _ hd h => hsub hd h, fun h => by cases h⟩

theorem delete_leaves_noAuto {drift now kv t r} (ha : AllTabs NoAutoTab kv)
    (hr : doDeleteKey drift now kv t = r) (he : t.err = none) :
    (r.2.err ≠ none ∧ r.1 = kv) ∨ (r.2.err = none ∧
      ∀ tb k, leafOf r.1 tb k = if tb = t.table ∧ k = t.key then none else leafOf kv tb k) := by
  unfold doDeleteKey at hr
  cases kv with
  | none => subst hr; exact Or.inr ⟨he, fun tb k => by simp [leafOf]⟩
  | some mm =>
    dsimp only at hr
    cases hl : lookup mm t.table with
    | none =>
      rw [hl] at hr
      subst hr
      refine Or.inr ⟨he, fun tb k => ?_⟩
      dsimp only
      split
      · next e => rw [e.1]; simp [leafOf, hl]
      · rfl
    | some tab =>
      rw [hl] at hr
      dsimp only at hr
      rw [readLeaf_noAuto ha] at hr
      cases hq : leafOf (some mm) t.table t.key with
      | none => rw [hq] at hr; subst hr; exact Or.inl ⟨by simp, rfl⟩
      | some y =>
        rw [hq] at hr
        dsimp only at hr
        split at hr
        · subst hr
          exact Or.inr ⟨rfl, fun tb k => leafOf_eraseIn _ _ _ _ _⟩
        · subst hr; exact Or.inl ⟨by simp, rfl⟩

theorem sub_step {drift now kv t r m} (hs : Sub kv m) (he : t.err = none)
    (hnd : t.op = .renameTable → t.table ≠ dead) (hr : apply drift now kv t = some r) :
    Sub r.1 (observe m t r.2) := by
  unfold apply at hr
  unfold observe
  cases hop : t.op <;> rw [hop] at hr <;> simp only at hr ⊢
  case noop => cases hr; exact hs
  case read => cases hr; exact fun tb k l hd h => hs tb k l hd (doReadKey_leaves tb k l hd h)
  case showKeys => cases hr; exact fun tb k l hd h => hs tb k l hd (doShowKeys_leaves tb k l hd h)
  case readKeyRange => cases hr; exact fun tb k l hd h => hs tb k l hd (doScan_leaves tb k l hd h)
  case readPrefixRange => cases hr; exact fun tb k l hd h => hs tb k l hd (doScan_leaves tb k l hd h)
  case write =>
    rcases write_leaves hr he with ⟨h1, h2⟩ | ⟨h1, l', h2, h3⟩
    · rw [if_neg h2, h1]; exact hs
    · rw [if_pos h1]
      intro tb k l hd h
      rw [h3] at h
      dsimp only
      split at h
      · next e => rw [if_pos e]; cases h; rw [h2]
      · next e => rw [if_neg e]; exact hs tb k l hd h
  case cas =>
    rcases cas_leaves hr he with ⟨h1, h2⟩ | ⟨h1, l', h2, h3⟩
    · rw [if_neg h2, h1]; exact hs
    · rw [if_pos h1]
      intro tb k l hd h
      rw [h3] at h
      dsimp only
      split at h
      · next e => rw [if_pos e]; cases h; rw [h2]
      · next e => rw [if_neg e]; exact hs tb k l hd h
  case deleteKey =>
    cases hr
    obtain ⟨h1, h2⟩ := delete_leaves (r := doDeleteKey drift now kv t) rfl
    split
    · next hn =>
      intro tb k l hd h
      dsimp only
      split
      · next e => obtain ⟨rfl, rfl⟩ := e; exact absurd h (h2 hn l hd)
      · exact hs tb k l hd (h1 tb k l hd h)
    · exact fun tb k l hd h => hs tb k l hd (h1 tb k l hd h)
  case makeTable =>
    unfold doMakeTable at hr
    split at hr
    · cases hr; exact hs
    · cases kv with
      | none => cases hr
      | some mm =>
        dsimp only at hr
        cases hl : lookup mm t.table with
        | some tab => rw [hl] at hr; cases hr; exact hs
        | none =>
          rw [hl] at hr; cases hr
          intro tb k l hd h
          dsimp only at h
          rw [leafOf_makeTable hl] at h
          exact hs tb k l hd h
  case deleteTable =>
    unfold doDeleteTable at hr
    cases kv with
    | none => cases hr
    | some mm =>
      dsimp only at hr
      split at hr
      · next e => cases hr; rw [if_pos e]; exact hs
      · next e =>
        cases hr
        rw [if_neg e]
        intro tb k l hd h
        dsimp only at h ⊢
        rw [leafOf_eraseTable] at h
        split at h
        · cases h
        · next e => rw [if_neg e]; exact hs tb k l hd h
  case renameTable =>
    unfold doRenameTable at hr
    cases kv with
    | none => cases hr
    | some mm =>
      dsimp only at hr
      split at hr
      · cases hr; simp only [reduceCtorEq, false_and, if_false]; exact hs
      split at hr
      · cases hr; simp only [reduceCtorEq, false_and, if_false]; exact hs
      split at hr
      · cases hr; simp only [reduceCtorEq, false_and, if_false]; exact hs
      split at hr
      · next e => cases hr; rw [if_neg (fun h => h.2 e)]; exact hs
      split at hr
      · cases hr; simp only [reduceCtorEq, false_and, if_false]; exact hs
      next hne _ =>
      cases hl : lookup mm t.table with
      | none => rw [hl] at hr; cases hr; simp only [reduceCtorEq, false_and, if_false]; exact hs
      | some tab =>
        rw [hl] at hr; cases hr
        rw [if_pos ⟨he, hne⟩]
        intro tb k l hd h
        dsimp only at h ⊢
        rw [leafOf_rename hne hl] at h
        split at h
        · cases h
        · next e1 =>
          rw [if_neg e1]
          split at h
          · next e2 => rw [if_pos e2]; exact hs _ _ _ (hnd hop) h
          · next e2 => rw [if_neg e2]; exact hs _ _ _ hd h

theorem same_step {drift now kv t r m} (hs : Same kv m) (ha : AllTabs NoAutoTab kv) (he : t.err = none)
    (hr : apply drift now kv t = some r) : Same r.1 (observe m t r.2) := by
  unfold apply at hr
  unfold observe
  have hscan : ∀ sel, (∀ tab t, ∀ y ∈ sel tab t, y ∈ tab) → ∀ tb k,
      leafOf (doScan sel now kv t).1 tb k = leafOf kv tb k := by
    intro sel hsel tb k
    unfold doScan
    cases kv with
    | none => rfl
    | some mm =>
      dsimp only
      cases hl : lookup mm t.table with
      | none => rfl
      | some tab =>
        dsimp only
        rw [(visit_noAuto (fun y hy => ha.lookup hl y (hsel _ _ y hy))).1, leafOf_ensureDead]
  cases hop : t.op <;> rw [hop] at hr <;> simp only at hr ⊢
  case noop => cases hr; exact hs
  case read =>
    cases hr
    unfold doReadKey
    cases kv with
    | none => exact hs
    | some mm =>
      dsimp only
      rw [readLeaf_noAuto ha]
      cases leafOf (some mm) t.table t.key with
      | none => exact hs
      | some l => exact hs
  case showKeys =>
    cases hr
    unfold doShowKeys
    cases kv with
    | none => exact hs
    | some mm =>
      cases mm with
      | nil => exact hs
      | cons y mm =>
        dsimp only
        split
        · exact hs
        · cases hl : lookup (y :: mm) t.table with
          | none => exact hs
          | some tab =>
            intro tb k
            dsimp only
            rw [(visit_noAuto (ha.lookup hl)).1, leafOf_ensureDead]
            exact hs tb k
  case readKeyRange =>
    cases hr
    intro tb k
    rw [hscan _ (fun _ _ y hy => rangeKeys_mem hy)]
    exact hs tb k
  case readPrefixRange =>
    cases hr
    intro tb k
    rw [hscan _ (fun _ _ y hy => prefixKeys_mem hy)]
    exact hs tb k
  case write =>
    rcases write_leaves hr he with ⟨h1, h2⟩ | ⟨h1, l', h2, h3⟩
    · rw [if_neg h2, h1]; exact hs
    · rw [if_pos h1]
      intro tb k
      rw [h3]
      dsimp only
      split
      · rw [← h2]; rfl
      · exact hs tb k
  case cas =>
    rcases cas_leaves hr he with ⟨h1, h2⟩ | ⟨h1, l', h2, h3⟩
    · rw [if_neg h2, h1]; exact hs
    · rw [if_pos h1]
      intro tb k
      rw [h3]
      dsimp only
      split
      · rw [← h2]; rfl
      · exact hs tb k
  case deleteKey =>
    cases hr
    rcases delete_leaves_noAuto ha (r := doDeleteKey drift now kv t) rfl he with ⟨h1, h2⟩ | ⟨h1, h2⟩
    · rw [if_neg h1, h2]; exact hs
    · rw [if_pos h1]
      intro tb k
      rw [h2]
      dsimp only
      split
      · rfl
      · exact hs tb k
  case makeTable =>
    unfold doMakeTable at hr
    split at hr
    · cases hr; exact hs
    · cases kv with
      | none => cases hr
      | some mm =>
        dsimp only at hr
        cases hl : lookup mm t.table with
        | some tab => rw [hl] at hr; cases hr; exact hs
        | none =>
          rw [hl] at hr; cases hr
          intro tb k
          dsimp only
          rw [leafOf_makeTable hl]
          exact hs tb k
  case deleteTable =>
    unfold doDeleteTable at hr
    cases kv with
    | none => cases hr
    | some mm =>
      dsimp only at hr
      split at hr
      · next e => cases hr; rw [if_pos e]; exact hs
      · next e =>
        cases hr
        rw [if_neg e]
        intro tb k
        dsimp only
        rw [leafOf_eraseTable]
        split
        · rfl
        · exact hs tb k
  case renameTable =>
    unfold doRenameTable at hr
    cases kv with
    | none => cases hr
    | some mm =>
      dsimp only at hr
      split at hr
      · cases hr; simp only [reduceCtorEq, false_and, if_false]; exact hs
      split at hr
      · cases hr; simp only [reduceCtorEq, false_and, if_false]; exact hs
      split at hr
      · cases hr; simp only [reduceCtorEq, false_and, if_false]; exact hs
      split at hr
      · next e => cases hr; rw [if_neg (fun h => h.2 e)]; exact hs
      split at hr
      · cases hr; simp only [reduceCtorEq, false_and, if_false]; exact hs
      next hne _ =>
      cases hl : lookup mm t.table with
      | none => rw [hl] at hr; cases hr; simp only [reduceCtorEq, false_and, if_false]; exact hs
      | some tab =>
        rw [hl] at hr; cases hr
        rw [if_pos ⟨he, hne⟩]
        intro tb k
        dsimp only
        rw [leafOf_rename hne hl]
        split
        · rfl
        · split
          · exact hs _ _
          · exact hs _ _

theorem sub_run {drift} : ∀ {hist : List (Ticket × Int)} {kv kv' : Store} {ans m}, Sub kv m →
    (∀ x ∈ hist, x.1.err = none) → (∀ x ∈ hist, x.1.op = .renameTable → x.1.table ≠ dead) →
    applyAll drift kv hist = some (kv', ans) →
    Sub kv' (((hist.map Prod.fst).zip ans).foldl (fun m x => observe m x.1 x.2) m)
  | [], _, _, _, _, hs, _, _, h => by cases h; exact hs
  | (t, now) :: hist, kv, kv', ans, m, hs, h1, h2, h => by
    obtain ⟨q, q2, ha, hb, e⟩ := applyAll_cons h
    cases e
    exact sub_run (hist := hist) (sub_step hs (h1 _ List.mem_cons_self) (h2 _ List.mem_cons_self) ha)
      (fun x hx => h1 x (List.mem_cons_of_mem _ hx)) (fun x hx => h2 x (List.mem_cons_of_mem _ hx)) hb

theorem same_run {drift} : ∀ {hist : List (Ticket × Int)} {kv kv' : Store} {ans m}, Same kv m →
    AllTabs NoAutoTab kv → (∀ x ∈ hist, x.1.err = none) →
    (∀ x ∈ hist, x.1.op = .write ∨ x.1.op = .cas → x.1.autoDel = false) →
    applyAll drift kv hist = some (kv', ans) →
    Same kv' (((hist.map Prod.fst).zip ans).foldl (fun m x => observe m x.1 x.2) m) ∧
      AllTabs NoAutoTab kv'
  | [], _, _, _, _, hs, ha, _, _, h => by cases h; exact ⟨hs, ha⟩
  | (t, now) :: hist, kv, kv', ans, m, hs, hk, h1, h2, h => by
    obtain ⟨q, q2, ha, hb, e⟩ := applyAll_cons h
    cases e
    exact same_run (hist := hist) (same_step hs hk (h1 _ List.mem_cons_self) ha)
      (apply_noAuto hk (h2 _ List.mem_cons_self) ha)
      (fun x hx => h1 x (List.mem_cons_of_mem _ hx)) (fun x hx => h2 x (List.mem_cons_of_mem _ hx)) hb

end Verif.KV
