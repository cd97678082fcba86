import Verif.Proofs.KV
import Verif.Spec.KV
namespace Verif.KV

theorem applyAll_cons {drift kv t now log r} (h : applyAll drift kv ((t, now) :: log) = some r) :
    ∃ q q2, apply drift now kv t = some q ∧ applyAll drift q.1 log = some q2 ∧ r = (q2.1, q.2 :: q2.2) := by
  simp only [applyAll] at h
  cases ha : apply drift now kv t with
  | none => rw [ha] at h; cases h
  | some q =>
    rw [ha] at h
    simp only [Option.bind_some] at h
    cases hb : applyAll drift q.1 log with
    | none => rw [hb] at h; cases h
    | some q2 => rw [hb] at h; cases h; exact ⟨q, q2, rfl, hb, rfl⟩

theorem Reached.sorted {drift kv} (h : Reached drift kv) : AllTabs Sorted kv := by
  obtain ⟨hist, ans, h⟩ := h
  exact applyAll_sorted (r := (kv, ans)) allTabs_none h

/-! ### Leases -/

theorem writeLeaf_foreign {drift l t} (hl : Leased l) (hn : t.leasor ≠ l.leasor ∨ t.fromID ≠ l.leasorPeer)
    (htm : t.tm ≤ l.endTm + drift) : ∃ e, writeLeaf drift l t = .inr e := by
  unfold writeLeaf
  split
  · exact ⟨_, rfl⟩
  · rw [if_neg (fun h => h.elim hl.1 hl.2)]
    split
    · exact ⟨_, rfl⟩
    · rw [if_neg, if_neg (by omega)]
      · exact ⟨_, rfl⟩
      · rintro ⟨-, h1, h2⟩
        rcases hn with h | h
        · exact h h1.symm
        · exact h h2.symm

theorem write_foreign {drift kv t r l} (hr : kvstoreWrite drift kv t = some r)
    (hleaf : leafOf kv t.table t.key = some l) (hl : Leased l)
    (hn : t.leasor ≠ l.leasor ∨ t.fromID ≠ l.leasorPeer) (htm : t.tm ≤ l.endTm + drift) :
    r.1 = kv ∧ r.2.err.isSome = true := by
  obtain ⟨e, he⟩ := writeLeaf_foreign hl hn htm
  unfold kvstoreWrite at hr
  split at hr
  · cases hr
  · rw [hleaf] at hr
    simp only [he] at hr
    cases hr
    exact ⟨rfl, rfl⟩

theorem cas_foreign {drift kv t r l} (hr : doCAS drift kv t = some r)
    (hleaf : leafOf kv t.table t.key = some l) (hl : Leased l)
    (hn : t.leasor ≠ l.leasor ∨ t.fromID ≠ l.leasorPeer) (htm : t.tm ≤ l.endTm + drift) :
    r.1 = kv ∧ r.2.err.isSome = true := by
  rcases doCAS_cases hr with e | e
  · exact e
  · unfold casWrite at e
    cases hk : kvstoreWrite drift kv t with
    | none => rw [hk] at e; cases e
    | some q => rw [hk] at e; cases e; exact write_foreign (r := q) hk hleaf hl hn htm

theorem delete_foreign {drift now kv t l}
    (hleaf : leafOf kv t.table t.key = some l) (hl : Leased l) (hn : t.leasor ≠ l.leasor)
    (htm : t.tm ≤ l.endTm + drift) (hx : expired t.table now l = false) :
    leafOf (doDeleteKey drift now kv t).1 t.table t.key = some l ∧
      (doDeleteKey drift now kv t).2.err.isSome = true := by
  obtain ⟨m, tab, rfl, h1, h2⟩ := leafOf_mem hleaf
  have hrd : readLeaf now m t.table t.key = (m, some l) := by
    unfold readLeaf; rw [hleaf]; simp [hx]
  unfold doDeleteKey
  simp only [h1, hrd]
  rw [if_neg]
  · exact ⟨hleaf, rfl⟩
  · rintro (h | h | h | h)
    · exact hl.1 h
    · exact hl.2 h
    · exact hn h.symm
    · omega

theorem lease_step {drift now kv t r} {T K : Key} {l : Leaf} (hd : T ≠ dead) (hs : AllTabs Sorted kv)
    (hleaf : leafOf kv T K = some l) (hl : Leased l)
    (hfor : Touches t T K → NotHolder l t ∧ t.tm ≤ l.endTm + drift)
    (htab : t.op = .deleteTable ∨ t.op = .renameTable → t.table ≠ T)
    (hx : expired T now l = false) (hr : apply drift now kv t = some r) :
    leafOf r.1 T K = some l ∧ (Touches t T K → r.2.err.isSome = true) := by
  by_cases ht : Touches t T K
  · have ht' := ht
    obtain ⟨hn, htm⟩ := hfor ht
    obtain ⟨hop, rfl, rfl⟩ := ht
    unfold apply at hr
    rcases hop with hop | hop | hop <;> rw [hop] at hr <;> simp only at hr
    · have hn' : t.leasor ≠ l.leasor ∨ t.fromID ≠ l.leasorPeer := by
        rcases hn with h | h
        · exact Or.inl h
        · exact Or.inr h.2
      obtain ⟨h1, h2⟩ := write_foreign hr hleaf hl hn' htm
      exact ⟨h1 ▸ hleaf, fun _ => h2⟩
    · have hn' : t.leasor ≠ l.leasor ∨ t.fromID ≠ l.leasorPeer := by
        rcases hn with h | h
        · exact Or.inl h
        · exact Or.inr h.2
      obtain ⟨h1, h2⟩ := cas_foreign hr hleaf hl hn' htm
      exact ⟨h1 ▸ hleaf, fun _ => h2⟩
    · have hn' : t.leasor ≠ l.leasor := by
        rcases hn with h | h
        · exact h
        · exact absurd hop h.1
      cases hr
      obtain ⟨h1, h2⟩ := delete_foreign (now := now) hleaf hl hn' htm hx
      exact ⟨h1, fun _ => h2⟩
  · refine ⟨?_, fun h => absurd h ht⟩
    rw [leafOf_apply_other hd hs hr (fun hop h => ht ⟨hop, h.1.symm, h.2.symm⟩) htab
      (fun _ => Or.inr (by rw [hleaf]; rfl))
      (fun l' hl' => by rw [hleaf] at hl'; cases hl'; exact hx)]
    exact hleaf

theorem lease_run {drift} {T K : Key} {l : Leaf} (hd : T ≠ dead) (hl : Leased l) :
    ∀ {log : List (Ticket × Int)} {kv kv' : Store} {ans : List Ticket}, AllTabs Sorted kv → leafOf kv T K = some l →
    (∀ x ∈ log, Touches x.1 T K → NotHolder l x.1 ∧ x.1.tm ≤ l.endTm + drift) →
    (∀ x ∈ log, x.1.op = .deleteTable ∨ x.1.op = .renameTable → x.1.table ≠ T) →
    (l.autoDel = true → ∀ x ∈ log, x.2 ≤ l.endTm) →
    applyAll drift kv log = some (kv', ans) →
    leafOf kv' T K = some l ∧
      ∀ (i : Nat) (x : Ticket × Int), log[i]? = some x → Touches x.1 T K → ∃ a : Ticket, ans[i]? = some a ∧ a.err.isSome = true
  | [], kv, kv', ans, hs, hleaf, _, _, _, hr => by
    cases hr
    exact ⟨hleaf, fun i x h => by simp at h⟩
  | (t, now) :: log, kv, kv', ans, hs, hleaf, h1, h2, h3, hr => by
    obtain ⟨q, q2, ha, hb, e⟩ := applyAll_cons hr
    have hx : expired T now l = false := by
      unfold expired
      cases hau : l.autoDel with
      | false => simp
      | true => have h3' := h3 hau (t, now) List.mem_cons_self; simp at h3' ⊢; intros; exact h3'
    obtain ⟨g1, g2⟩ := lease_step hd hs hleaf hl (h1 _ List.mem_cons_self) (h2 _ List.mem_cons_self) hx ha
    obtain ⟨g3, g4⟩ := lease_run hd hl (kv' := q2.1) (ans := q2.2) (apply_sorted hs ha) g1
      (fun x hxm => h1 x (List.mem_cons_of_mem _ hxm)) (fun x hxm => h2 x (List.mem_cons_of_mem _ hxm))
      (fun hau x hxm => h3 hau x (List.mem_cons_of_mem _ hxm)) hb
    cases e
    refine ⟨g3, ?_⟩
    intro i x hi ht
    cases i with
    | zero => simp at hi; subst hi; exact ⟨q.2, rfl, g2 ht⟩
    | succ i => exact g4 i x (by simpa using hi) ht

/-! ### Successful writes -/

/-- What a write does: refused with nothing changed, or the leaf replaced as `writeLeaf` says. -/
theorem write_cases {drift kv t r} (hr : kvstoreWrite drift kv t = some r) (he : t.err = none) :
    (r.1 = kv ∧ r.2.err.isSome = true) ∨
    (r.2.err = none ∧ ∃ l', leafOf r.1 t.table t.key = some l' ∧ r.2.epoch = l'.epoch ∧
      ((leafOf kv t.table t.key = none ∧ l' = freshLeaf t) ∨
       ∃ l, leafOf kv t.table t.key = some l ∧ writeLeaf drift l t = .inl l')) := by
  unfold kvstoreWrite at hr
  split at hr
  · cases hr
  · cases hl : leafOf kv t.table t.key with
    | none =>
      rw [hl] at hr; cases hr
      exact Or.inr ⟨he, freshLeaf t, by simp only; rw [leafOf_setKey]; simp, rfl, Or.inl ⟨rfl, rfl⟩⟩
    | some l =>
      rw [hl] at hr
      simp only at hr
      cases hwl : writeLeaf drift l t with
      | inr e => rw [hwl] at hr; cases hr; exact Or.inl ⟨rfl, rfl⟩
      | inl l' =>
        rw [hwl] at hr; cases hr
        refine Or.inr ⟨?_, l', ?_, ?_, Or.inr ⟨l, rfl, hwl⟩⟩
        · simp only; split <;> exact he
        · simp only; rw [leafOf_setKey]; simp
        · simp only; split <;> rfl

theorem cas_cases {drift kv t r} (hr : doCAS drift kv t = some r) (he : t.err = none) :
    (r.1 = kv ∧ r.2.err.isSome = true) ∨
    (r.2.err = none ∧ ∃ l', leafOf r.1 t.table t.key = some l' ∧ r.2.epoch = l'.epoch ∧
      ((leafOf kv t.table t.key = none ∧ l' = freshLeaf t) ∨
       ∃ l, leafOf kv t.table t.key = some l ∧ writeLeaf drift l t = .inl l')) := by
  rcases doCAS_cases hr with e | e
  · exact Or.inl e
  · unfold casWrite at e
    cases hk : kvstoreWrite drift kv t with
    | none => rw [hk] at e; cases e
    | some q => rw [hk] at e; cases e; exact write_cases (r := q) hk he

theorem writes_cases {drift now kv t r} {T K : Key} (hw : Writes t T K) (hr : apply drift now kv t = some r)
    (he : t.err = none) :
    (r.1 = kv ∧ r.2.err.isSome = true) ∨
    (r.2.err = none ∧ ∃ l', leafOf r.1 T K = some l' ∧ r.2.epoch = l'.epoch ∧
      ((leafOf kv T K = none ∧ l' = freshLeaf t) ∨
       ∃ l, leafOf kv T K = some l ∧ writeLeaf drift l t = .inl l')) := by
  obtain ⟨hop, rfl, rfl⟩ := hw
  unfold apply at hr
  rcases hop with hop | hop <;> rw [hop] at hr <;> simp only at hr
  · exact write_cases hr he
  · exact cas_cases hr he

/-- The leaf a successful write leaves behind. -/
theorem writeLeaf_inl {drift l t l'} (h : writeLeaf drift l t = .inl l') :
    l.writeIdx < t.idx ∧ l'.value = t.val ∧ l'.leasor = t.leasor ∧ l'.leasorPeer = t.fromID ∧
    l'.version = l.version + 1 ∧ l'.autoDel = t.autoDel ∧ l'.endTm = t.endTm ∧ l'.writeIdx = t.idx ∧
    ((l'.epoch = l.epoch + 1 ∧ ¬ (Leased l ∧ t.tm ≤ l.endTm + drift)) ∨
     (l'.epoch = l.epoch ∧ Leased l ∧ Own l t ∧ t.reqDur ≠ 0 ∧ l.endTm < t.endTm)) := by
  unfold writeLeaf at h
  by_cases h1 : t.idx ≤ l.writeIdx
  · rw [if_pos h1] at h; cases h
  rw [if_neg h1] at h
  by_cases h2 : l.leasor = [] ∨ l.endTm = 0
  · rw [if_pos h2] at h; cases h
    refine ⟨by omega, rfl, rfl, rfl, rfl, rfl, rfl, rfl, Or.inl ⟨rfl, ?_⟩⟩
    rintro ⟨⟨a, b⟩, -⟩
    rcases h2 with h2 | h2
    · exact a h2
    · exact b h2
  rw [if_neg h2] at h
  by_cases h3 : t.reqDur ≠ 0 ∧ t.endTm ≤ l.endTm
  · rw [if_pos h3] at h; cases h
  rw [if_neg h3] at h
  by_cases h4 : t.reqDur ≠ 0 ∧ l.leasor = t.leasor ∧ l.leasorPeer = t.fromID
  · rw [if_pos h4] at h; cases h
    refine ⟨by omega, rfl, h4.2.1, rfl, rfl, rfl, rfl, rfl, Or.inr ⟨rfl, ⟨fun e => h2 (Or.inl e), fun e => h2 (Or.inr e)⟩, h4.2, h4.1, ?_⟩⟩
    have := h4.1
    have h5 : ¬ t.endTm ≤ l.endTm := fun e => h3 ⟨this, e⟩
    omega
  rw [if_neg h4] at h
  by_cases h5 : l.endTm + drift < t.tm
  · rw [if_pos h5] at h; cases h
    exact ⟨by omega, rfl, rfl, rfl, rfl, rfl, rfl, rfl, Or.inl ⟨rfl, fun e => by omega⟩⟩
  · rw [if_neg h5] at h; cases h

/-! ### Lease epochs -/

/-- A key's leaf is never older than the last reported epoch; if as old, its holder is the one
it was reported to. -/
def Bound (kv : Store) (T K : Key) (h p : Key) (e : Nat) : Prop :=
  ∃ l, leafOf kv T K = some l ∧ l.autoDel = false ∧ e ≤ l.epoch ∧ (e = l.epoch → l.leasor = h ∧ l.leasorPeer = p)

theorem not_expired {T : Key} {now : Int} {l : Leaf} (h : l.autoDel = false) : expired T now l = false := by
  simp [expired, h]

theorem quiet_step {drift now kv t r} {T K : Key} (hd : T ≠ dead) (hs : AllTabs Sorted kv)
    (hw : ¬ Writes t T K) (hrem : ¬ Removes t T K)
    (hx : ∀ l, leafOf kv T K = some l → l.autoDel = false) (hr : apply drift now kv t = some r) :
    leafOf r.1 T K = leafOf kv T K := by
  refine leafOf_apply_other hd hs hr ?_ ?_ ?_ (fun l hl => not_expired (hx l hl))
  · rintro (h | h | h) ⟨h1, h2⟩
    · exact hw ⟨Or.inl h, h1.symm, h2.symm⟩
    · exact hw ⟨Or.inr h, h1.symm, h2.symm⟩
    · exact hrem (Or.inl ⟨h, h1.symm, h2.symm⟩)
  · intro h e; exact hrem (Or.inr ⟨h, Or.inl e⟩)
  · intro h; exact Or.inl (fun e => hrem (Or.inr ⟨Or.inr h, Or.inr e⟩))

theorem noauto_step {drift now kv t r} {T K : Key} (hd : T ≠ dead) (hs : AllTabs Sorted kv)
    (hrem : ¬ Removes t T K) (ha : Writes t T K → t.autoDel = false ∧ t.err = none)
    (hx : ∀ l, leafOf kv T K = some l → l.autoDel = false) (hr : apply drift now kv t = some r) :
    ∀ l, leafOf r.1 T K = some l → l.autoDel = false := by
  by_cases hw : Writes t T K
  · rcases writes_cases hw hr (ha hw).2 with h | ⟨_, l', h1, _, h3⟩
    · rw [h.1]; exact hx
    · intro l hl
      rw [h1] at hl; cases hl
      rcases h3 with ⟨_, rfl⟩ | ⟨l0, _, h⟩
      · exact (ha hw).1
      · rw [(writeLeaf_inl h).2.2.2.2.2.1]; exact (ha hw).1
  · rw [quiet_step hd hs hw hrem hx hr]; exact hx

theorem bound_step {drift now kv t r} {T K h p : Key} {e : Nat} (hd : T ≠ dead) (hs : AllTabs Sorted kv)
    (hrem : ¬ Removes t T K) (ha : Writes t T K → t.autoDel = false ∧ t.err = none)
    (hb : Bound kv T K h p e) (hr : apply drift now kv t = some r) :
    Bound r.1 T K h p e ∧
    (Writes t T K → r.2.err = none → ¬ (t.leasor = h ∧ t.fromID = p) → e < r.2.epoch) := by
  obtain ⟨l, hl, hau, hle, hh⟩ := hb
  by_cases hw : Writes t T K
  · rcases writes_cases hw hr (ha hw).2 with hf | ⟨_, l', h1, h2, h3⟩
    · refine ⟨hf.1 ▸ ⟨l, hl, hau, hle, hh⟩, fun _ h0 => ?_⟩
      rw [h0] at hf; cases hf.2
    · rcases h3 with ⟨h3, _⟩ | ⟨l0, h3, h4⟩
      · rw [hl] at h3; cases h3
      · rw [hl] at h3; cases h3
        obtain ⟨_, _, g1, g2, _, g3, _, _, g4⟩ := writeLeaf_inl h4
        rcases g4 with ⟨g4, _⟩ | ⟨g4, _, g5, _⟩
        · refine ⟨⟨l', h1, g3.trans (ha hw).1, by omega, fun e' => by omega⟩, fun _ _ _ => by omega⟩
        · refine ⟨⟨l', h1, g3.trans (ha hw).1, by omega, fun e' => ?_⟩, fun _ _ hne => ?_⟩
          · obtain ⟨q1, q2⟩ := hh (by omega)
            rw [g1, g2, ← g5.1, ← g5.2]; exact ⟨q1, q2⟩
          · rw [h2, g4]
            rcases Nat.lt_or_ge e l.epoch with c | c
            · exact c
            · obtain ⟨q1, q2⟩ := hh (by omega)
              exact absurd ⟨g5.1 ▸ q1, g5.2 ▸ q2⟩ hne
  · refine ⟨⟨l, ?_, hau, hle, hh⟩, fun h => absurd h hw⟩
    rw [quiet_step hd hs hw hrem (fun l' hl' => by rw [hl] at hl'; cases hl'; exact hau) hr]
    exact hl

theorem bound_run {drift} {T K h p : Key} {e : Nat} (hd : T ≠ dead) :
    ∀ {log : List (Ticket × Int)} {kv kv' : Store} {ans : List Ticket}, AllTabs Sorted kv →
    (∀ x ∈ log, ¬ Removes x.1 T K) → (∀ x ∈ log, Writes x.1 T K → x.1.autoDel = false ∧ x.1.err = none) →
    Bound kv T K h p e → applyAll drift kv log = some (kv', ans) →
    ∀ (j : Nat) (y : Ticket × Int) (b : Ticket), log[j]? = some y → ans[j]? = some b → Writes y.1 T K → b.err = none →
      ¬ (y.1.leasor = h ∧ y.1.fromID = p) → e < b.epoch
  | [], _, _, _, _, _, _, _, _ => by intro j y b h; simp at h
  | (t, now) :: log, kv, kv', ans, hs, h1, h2, hb, hr => by
    obtain ⟨q, q2, ha, hb', e⟩ := applyAll_cons hr
    obtain ⟨g1, g2⟩ := bound_step hd hs (h1 _ List.mem_cons_self) (h2 _ List.mem_cons_self) hb ha
    have g3 := bound_run hd (kv' := q2.1) (ans := q2.2) (apply_sorted hs ha) (fun x hx => h1 x (List.mem_cons_of_mem _ hx))
      (fun x hx => h2 x (List.mem_cons_of_mem _ hx)) g1 hb'
    cases e
    intro j y b hj hj2 hw he hne
    cases j with
    | zero => simp at hj hj2; subst hj; subst hj2; exact g2 hw he hne
    | succ j => exact g3 j y b (by simpa using hj) (by simpa using hj2) hw he hne

theorem epochs_run {drift} {T K : Key} (hd : T ≠ dead) :
    ∀ {log : List (Ticket × Int)} {kv kv' : Store} {ans : List Ticket}, AllTabs Sorted kv →
    (∀ l, leafOf kv T K = some l → l.autoDel = false) →
    (∀ x ∈ log, ¬ Removes x.1 T K) → (∀ x ∈ log, Writes x.1 T K → x.1.autoDel = false ∧ x.1.err = none) →
    applyAll drift kv log = some (kv', ans) →
    ∀ (i j : Nat) (x y : Ticket × Int) (a b : Ticket), i < j → log[i]? = some x → ans[i]? = some a → log[j]? = some y → ans[j]? = some b →
      Writes x.1 T K → a.err = none → Writes y.1 T K → b.err = none →
      ¬ (y.1.leasor = x.1.leasor ∧ y.1.fromID = x.1.fromID) → a.epoch < b.epoch
  | [], _, _, _, _, _, _, _, _ => by intro i j x y a b _ h; simp at h
  | (t, now) :: log, kv, kv', ans, hs, hx, h1, h2, hr => by
    obtain ⟨q, q2, ha, hb', e⟩ := applyAll_cons hr
    have hs' := apply_sorted hs ha
    have hx' := noauto_step hd hs (h1 _ List.mem_cons_self) (h2 _ List.mem_cons_self) hx ha
    have t1 : ∀ x ∈ log, ¬ Removes x.1 T K := fun x hx => h1 x (List.mem_cons_of_mem _ hx)
    have t2 : ∀ x ∈ log, Writes x.1 T K → x.1.autoDel = false ∧ x.1.err = none :=
      fun x hx => h2 x (List.mem_cons_of_mem _ hx)
    have g3 := epochs_run hd (kv' := q2.1) (ans := q2.2) hs' hx' t1 t2 hb'
    cases e
    intro i j x y a b hij hi hi2 hj hj2 hw he hw2 he2 hne
    cases j with
    | zero => omega
    | succ j =>
      simp only [List.getElem?_cons_succ] at hj hj2
      cases i with
      | succ i =>
        simp only [List.getElem?_cons_succ] at hi hi2
        exact g3 i j x y a b (by omega) hi hi2 hj hj2 hw he hw2 he2 hne
      | zero =>
        simp at hi hi2; subst hi; subst hi2
        refine bound_run (h := t.leasor) (p := t.fromID) (e := q.2.epoch) hd (kv' := q2.1) (ans := q2.2)
          hs' t1 t2 ?_ hb' j y b hj hj2 hw2 he2 hne
        rcases writes_cases hw ha (h2 _ List.mem_cons_self hw).2 with hf | ⟨_, l', k1, k2, k3⟩
        · rw [he] at hf; cases hf.2
        · refine ⟨l', k1, hx' l' k1, by omega, fun _ => ?_⟩
          rcases k3 with ⟨_, rfl⟩ | ⟨l0, _, k4⟩
          · exact ⟨rfl, rfl⟩
          · exact ⟨(writeLeaf_inl k4).2.2.1, (writeLeaf_inl k4).2.2.2.1⟩

end Verif.KV
