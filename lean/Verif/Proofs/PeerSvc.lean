import Verif.Spec.PeerSvc
import Mathlib.Data.List.Nodup
/-
Invariant of the table of instances.
-/
namespace Verif.PeerSvc

def State.all (s : State) : List Inst := s.running ++ s.leaving

structure Inv (lim : Nat) (s : State) : Prop where
  cur : ∀ r, s.cur = some r → r < s.regs.length
  small : 0 < lim → ∀ (r : Nat) (t : Table), s.regs[r]? = some (some t) → t.length ≤ lim
  len : s.started.length = s.next
  ids : ∀ i ∈ s.all, s.started[i.num]? = some i.id
  nums : (s.all.map (·.num)).Nodup
  owner : ∀ (r : Nat) (t : Table) e, s.regs[r]? = some (some t) → e ∈ t → (⟨e.2, r, e.1⟩ : Inst) ∈ s.all
  here : s.started.Nodup → ∀ i ∈ s.all, ∃ t : Table, s.regs[i.reg]? = some (some t) ∧ (i.id, i.num) ∈ t

theorem inv_init (lim : Nat) : Inv lim {} := by
  constructor <;> simp [State.all]

theorem Table.mem_del {t : Table} {id : Str} {e : Str × Nat} :
    e ∈ t.del id ↔ e ∈ t ∧ e.1 ≠ id := by simp [Table.del]

theorem Table.length_del (t : Table) (id : Str) : (t.del id).length ≤ t.length :=
  List.length_filter_le _ _

theorem Table.mem_set {t : Table} {id : Str} {n : Nat} {e : Str × Nat} :
    e ∈ t.set id n ↔ e = (id, n) ∨ (e ∈ t ∧ e.1 ≠ id) := by
  simp only [Table.set, List.mem_cons, Table.mem_del]

theorem inv_register {lim : Nat} {s : State} (h : Inv lim s) : Inv lim (register s) := by
  have key : ∀ (r : Nat) (t : Table), (register s).regs[r]? = some (some t) → s.regs[r]? = some (some t) := by
    intro r t ht
    simp only [register] at ht
    rw [List.getElem?_append] at ht
    split at ht
    · exact ht
    · rename_i hlt
      cases hk : r - s.regs.length with
      | zero => rw [hk] at ht; simp at ht
      | succ k => rw [hk] at ht; simp at ht
  refine ⟨?_, fun hl r t ht => h.small hl r t (key r t ht), h.len, h.ids, h.nums,
    fun r t e ht he => h.owner r t e (key r t ht) he, fun hn i hi => ?_⟩
  · intro r hr
    simp only [register, Option.some.injEq] at hr
    simp only [register, List.length_append, List.length_cons, List.length_nil]
    omega
  · obtain ⟨t, ht, he⟩ := h.here hn i hi
    refine ⟨t, ?_, he⟩
    simp only [register]
    rw [List.getElem?_append_left (List.getElem?_eq_some_iff.1 ht).1, ht]

theorem table_eq {s : State} {r : Nat} {t : Table} (h : s.regs[r]? = some (some t)) :
    s.table r = some t := by simp [State.table, h]

theorem table_some {s : State} {r : Nat} {t : Table} (h : s.table r = some t) :
    s.regs[r]? = some (some t) := by
  unfold State.table at h
  cases hr : s.regs[r]? with
  | none => rw [hr] at h; cases h
  | some o => rw [hr] at h; simp at h; rw [h]

theorem inv_startPeer {lim : Nat} {s : State} (h : Inv lim s) {r : Nat} (hr : r < s.regs.length)
    (a f : Str) : Inv lim (startPeer lim s r a f).1 := by
  unfold startPeer
  split
  · exact h
  · rename_i hc
    dsimp only
    generalize (if a = [] then f else a) = id
    have hnew : s.next ∉ s.all.map (·.num) := by
      intro hm
      obtain ⟨i, hi, hie⟩ := List.mem_map.1 hm
      have := (List.getElem?_eq_some_iff.1 (h.ids i hi)).1
      rw [h.len, hie] at this
      exact Nat.lt_irrefl _ this
    have hall : ∀ j : Inst, j ∈ s.all ++ [⟨s.next, r, id⟩] ↔
        j ∈ s.running ++ [⟨s.next, r, id⟩] ++ s.leaving := by
      intro j
      simp only [State.all, List.mem_append, List.mem_cons, List.not_mem_nil, or_false]
      constructor
      · rintro ((h | h) | h) <;> simp [h]
      · rintro ((h | h) | h) <;> simp [h]
    have hperm : (s.running ++ [(⟨s.next, r, id⟩ : Inst)] ++ s.leaving).Perm
        (⟨s.next, r, id⟩ :: s.all) := by
      simp only [State.all, List.append_assoc, List.cons_append, List.nil_append]
      exact List.perm_middle
    have hget : ∀ (r' : Nat) (t : Table), (s.regs.set r (some (((s.table r).getD []).set id s.next)))[r']? =
        some (some t) → (r' = r ∧ t = ((s.table r).getD []).set id s.next) ∨
          (r' ≠ r ∧ s.regs[r']? = some (some t)) := by
      intro r' t ht
      rw [List.getElem?_set] at ht
      by_cases hrr : r = r'
      · subst hrr
        rw [if_pos rfl, if_pos hr] at ht
        simp only [Option.some.injEq] at ht
        exact Or.inl ⟨rfl, ht.symm⟩
      · rw [if_neg hrr] at ht
        exact Or.inr ⟨fun e => hrr e.symm, ht⟩
    refine ⟨?_, ?_, ?_, ?_, ?_, ?_, ?_⟩
    · intro r' hr'
      simp only [List.length_set]
      exact h.cur r' hr'
    · intro hl r' t ht
      rcases hget r' t ht with ⟨rfl, rfl⟩ | ⟨_, ht⟩
      · have hlt : ((s.table r').getD []).length < lim := by
          cases hT : s.table r' with
          | none => simpa using hl
          | some t' =>
            rw [hT] at hc
            simp only [Option.isSome_some, Option.getD_some, true_and] at hc ⊢
            exact Nat.lt_of_not_le (fun hle => hc ⟨hl, hle⟩)
        have := Table.length_del ((s.table r').getD []) id
        simp only [Table.set, List.length_cons]
        omega
      · exact h.small hl r' t ht
    · simp [h.len]
    · intro i hi
      rcases List.mem_append.1 ((hall i).2 hi) with hi | hi
      · have := h.ids i hi
        show (s.started ++ [id])[i.num]? = _
        rw [List.getElem?_append_left (List.getElem?_eq_some_iff.1 this).1, this]
      · rw [List.mem_singleton] at hi
        subst hi
        show (s.started ++ [id])[s.next]? = _
        rw [← h.len]
        simp
    · show ((s.running ++ [(⟨s.next, r, id⟩ : Inst)] ++ s.leaving).map (·.num)).Nodup
      rw [(hperm.map _).nodup_iff, List.map_cons, List.nodup_cons]
      exact ⟨hnew, h.nums⟩
    · intro r' t e ht he
      apply (hall _).1
      rcases hget r' t ht with ⟨rfl, rfl⟩ | ⟨_, ht⟩
      · rcases Table.mem_set.1 he with rfl | ⟨he, _⟩
        · simp
        · cases hT : s.table r' with
          | none => rw [hT] at he; simp at he
          | some t' =>
            rw [hT] at he
            exact List.mem_append_left _ (h.owner r' t' e (table_some hT) he)
      · exact List.mem_append_left _ (h.owner r' t e ht he)
    · intro hn i hi
      change (s.started ++ [id]).Nodup at hn
      rw [List.nodup_append] at hn
      rcases List.mem_append.1 ((hall i).2 hi) with hi' | hi
      · obtain ⟨t, ht, he⟩ := h.here hn.1 i hi'
        by_cases hir : i.reg = r
        · subst hir
          refine ⟨((s.table i.reg).getD []).set id s.next, ?_, ?_⟩
          · rw [List.getElem?_set, if_pos rfl, if_pos hr]
          · rw [table_eq ht]
            apply Table.mem_set.2
            refine Or.inr ⟨he, fun e => ?_⟩
            have hmem : i.id ∈ s.started := List.mem_of_getElem? (h.ids i hi')
            exact hn.2.2 _ hmem id (by simp) e
        · refine ⟨t, ?_, he⟩
          rw [List.getElem?_set, if_neg (fun e => hir e.symm), ht]
      · rw [List.mem_singleton] at hi
        subst hi
        refine ⟨((s.table r).getD []).set id s.next, ?_, Table.mem_set.2 (Or.inl rfl)⟩
        rw [List.getElem?_set, if_pos rfl, if_pos hr]

theorem inv_ret {lim : Nat} {s : State} (h : Inv lim s) (n : Nat) : Inv lim (ret s n) := by
  have hperm : (ret s n).all.Perm s.all := by
    simp only [ret, State.all]
    have hp := List.filter_append_perm (fun i : Inst => i.num == n) s.running
    have h1 : (s.running.filter (fun i => i.num != n) ++
        (s.leaving ++ s.running.filter (fun i => i.num == n))).Perm
        (s.running.filter (fun i => i.num == n) ++ s.running.filter (fun i => i.num != n) ++
          s.leaving) := by
      refine (List.Perm.append_left _ List.perm_append_comm).trans ?_
      rw [← List.append_assoc]
      exact List.Perm.append_right _ List.perm_append_comm
    exact h1.trans (List.Perm.append_right _ hp)
  exact ⟨h.cur, h.small, h.len, fun i hi => h.ids i (hperm.mem_iff.1 hi),
    (hperm.map _).nodup_iff.2 h.nums, fun r t e ht he => hperm.mem_iff.2 (h.owner r t e ht he),
    fun hn i hi => h.here hn i (hperm.mem_iff.1 hi)⟩

theorem num_inj {lim : Nat} {s : State} (h : Inv lim s) {i j : Inst} (hi : i ∈ s.all)
    (hj : j ∈ s.all) (he : i.num = j.num) : i = j :=
  List.inj_on_of_nodup_map h.nums hi hj he

theorem id_inj {lim : Nat} {s : State} (h : Inv lim s) (hn : s.started.Nodup) {i j : Inst}
    (hi : i ∈ s.all) (hj : j ∈ s.all) (he : i.id = j.id) : i = j := by
  apply num_inj h hi hj
  have h1 := h.ids i hi
  have h2 := h.ids j hj
  rw [he] at h1
  obtain ⟨l1, e1⟩ := List.getElem?_eq_some_iff.1 h1
  obtain ⟨l2, e2⟩ := List.getElem?_eq_some_iff.1 h2
  exact (List.Nodup.getElem_inj_iff hn).1 (e1.trans e2.symm)

theorem leave_get {s : State} {i : Inst} {r : Nat} {t : Table}
    (ht : (s.regs.modify i.reg (Option.map (Table.del · i.id)))[r]? = some (some t)) :
    ∃ t', s.regs[r]? = some (some t') ∧
      ((r = i.reg ∧ t = t'.del i.id) ∨ (r ≠ i.reg ∧ t = t')) := by
  rw [List.getElem?_modify] at ht
  cases hs : s.regs[r]? with
  | none => rw [hs] at ht; simp at ht
  | some o =>
    rw [hs] at ht
    by_cases hr : i.reg = r
    · simp only [hr, if_true] at ht
      cases o with
      | none => cases ht
      | some t' =>
        replace ht : some (some (Table.del t' i.id)) = some (some t) := ht
        simp only [Option.some.injEq] at ht
        exact ⟨t', rfl, Or.inl ⟨hr.symm, ht.symm⟩⟩
    · simp [hr] at ht
      subst ht
      exact ⟨t, rfl, Or.inr ⟨fun e => hr e.symm, rfl⟩⟩

theorem inv_leave {lim : Nat} {s : State} (h : Inv lim s) (n : Nat) : Inv lim (leave s n) := by
  unfold leave
  cases hf : s.leaving.find? (fun i => i.num == n) with
  | none => exact h
  | some i =>
    have hin : i.num = n := by have := List.find?_some hf; simpa using this
    have hmem : i ∈ s.all := List.mem_append_right _ (List.mem_of_find?_eq_some hf)
    have hall : ∀ j, j ∈ s.running ++ s.leaving.filter (fun j => j.num != n) ↔
        j ∈ s.all ∧ j ≠ i := by
      intro j
      simp only [State.all, List.mem_append, List.mem_filter, bne_iff_ne, ne_eq]
      constructor
      · rintro (hj | ⟨hj, hne⟩)
        · refine ⟨Or.inl hj, ?_⟩
          rintro rfl
          have := h.nums
          simp only [State.all, List.map_append, List.nodup_append] at this
          exact this.2.2 _ (List.mem_map_of_mem hj) _
            (List.mem_map_of_mem (List.mem_of_find?_eq_some hf)) rfl
        · exact ⟨Or.inr hj, fun e => hne (e ▸ hin)⟩
      · rintro ⟨hj | hj, hne⟩
        · exact Or.inl hj
        · refine Or.inr ⟨hj, fun e => hne ?_⟩
          exact num_inj h (List.mem_append_right _ hj) hmem (e.trans hin.symm)
    have hsub : (s.running ++ s.leaving.filter (fun j => j.num != n)).Sublist s.all :=
      List.Sublist.append_left List.filter_sublist _
    dsimp only
    refine ⟨fun r hr => ?_, fun hl r t ht => ?_, h.len, fun j hj => h.ids j ((hall j).1 hj).1,
      h.nums.sublist (hsub.map _), fun r t e ht he => ?_, fun hn j hj => ?_⟩
    · simp only [List.length_modify]; exact h.cur r hr
    · obtain ⟨t', ht', ⟨_, rfl⟩ | ⟨_, rfl⟩⟩ := leave_get ht
      · exact Nat.le_trans (Table.length_del _ _) (h.small hl r t' ht')
      · exact h.small hl r _ ht'
    · apply (hall _).2
      obtain ⟨t', ht', ⟨hr, rfl⟩ | ⟨hr, rfl⟩⟩ := leave_get ht
      · obtain ⟨he, hne⟩ := Table.mem_del.1 he
        refine ⟨h.owner r t' e ht' he, fun e => hne ?_⟩
        rw [← e]
      · refine ⟨h.owner r _ e ht' he, fun e => hr ?_⟩
        rw [← e]
    · obtain ⟨hj, hne⟩ := (hall j).1 hj
      obtain ⟨t, ht, he⟩ := h.here hn j hj
      by_cases hr : i.reg = j.reg
      · refine ⟨t.del i.id, ?_, Table.mem_del.2 ⟨he, fun e => hne (id_inj h hn hj hmem e)⟩⟩
        rw [List.getElem?_modify, ht]
        simp [hr]
      · refine ⟨t, ?_, he⟩
        rw [List.getElem?_modify, ht]
        simp [hr]

theorem inv_ensure {lim : Nat} {s : State} (h : Inv lim s) (r : Nat) : Inv lim (ensureTable s r) := by
  have hget : ∀ (r' : Nat) (t : Table), (ensureTable s r).regs[r']? = some (some t) →
      s.regs[r']? = some (some t) ∨ t = [] := by
    intro r' t ht
    simp only [ensureTable] at ht
    rw [List.getElem?_set] at ht
    by_cases hrr : r = r'
    · subst hrr
      rw [if_pos rfl] at ht
      split at ht
      · simp only [Option.some.injEq] at ht
        cases hT : s.table r with
        | none => rw [hT] at ht; exact Or.inr ht.symm
        | some t' => rw [hT] at ht; simp at ht; subst ht; exact Or.inl (table_some hT)
      · cases ht
    · rw [if_neg hrr] at ht
      exact Or.inl ht
  refine ⟨fun r' hr' => ?_, fun hl r' t ht => ?_, h.len, h.ids, h.nums, fun r' t e ht he => ?_,
    fun hn i hi => ?_⟩
  · simp only [ensureTable, List.length_set]; exact h.cur r' hr'
  · rcases hget r' t ht with ht | rfl
    · exact h.small hl r' t ht
    · simp
  · rcases hget r' t ht with ht | rfl
    · exact h.owner r' t e ht he
    · cases he
  · obtain ⟨t, ht, he⟩ := h.here hn i hi
    refine ⟨t, ?_, he⟩
    simp only [ensureTable]
    rw [List.getElem?_set]
    by_cases hrr : r = i.reg
    · rw [if_pos hrr, hrr, table_eq ht, if_pos (List.getElem?_eq_some_iff.1 ht).1]
      rfl
    · rw [if_neg hrr, ht]

theorem inv_leaves {lim : Nat} {s : State} (h : Inv lim s) (mid : List Nat) :
    Inv lim (mid.foldl leave s) := by
  induction mid generalizing s with
  | nil => exact h
  | cons n mid ih => exact ih (inv_leave h n)

theorem inv_dead {lim : Nat} {s : State} (h : Inv lim s) : Inv lim { s with dead := true } :=
  ⟨h.cur, h.small, h.len, h.ids, h.nums, h.owner, h.here⟩

theorem leave_fields (s : State) (n : Nat) : (leave s n).running = s.running ∧
    (leave s n).started = s.started ∧ (leave s n).regs.length = s.regs.length ∧
    (leave s n).cur = s.cur ∧ (leave s n).next = s.next := by
  unfold leave
  split <;> simp

theorem leaves_fields (s : State) (mid : List Nat) : (mid.foldl leave s).running = s.running ∧
    (mid.foldl leave s).started = s.started ∧ (mid.foldl leave s).regs.length = s.regs.length ∧
    (mid.foldl leave s).cur = s.cur ∧ (mid.foldl leave s).next = s.next := by
  induction mid generalizing s with
  | nil => simp
  | cons n mid ih =>
    obtain ⟨a, b, c, d, e⟩ := ih (leave s n)
    obtain ⟨a', b', c', d', e'⟩ := leave_fields s n
    exact ⟨a.trans a', b.trans b', c.trans c', d.trans d', e.trans e'⟩

theorem inv_bootstrap {lim : Nat} {s : State} (h : Inv lim s) (q : Req) (mid : List Nat) (f : Str) :
    Inv lim (bootstrap lim s q mid f).1 := by
  unfold bootstrap
  cases hc : s.cur with
  | none => exact h
  | some r =>
    have h' := inv_leaves (inv_ensure h r) mid
    have hr : r < (mid.foldl leave (ensureTable s r)).regs.length := by
      rw [(leaves_fields _ mid).2.2.1]
      simp only [ensureTable, List.length_set]
      exact h.cur r hc
    dsimp only
    generalize hs' : mid.foldl leave (ensureTable s r) = s' at h' hr
    split
    · exact inv_dead h'
    · exact h'
    · split
      · split
        · exact inv_dead h'
        · exact h'
      · exact inv_startPeer h' hr _ _

theorem inv_step {lim : Nat} {s : State} (h : Inv lim s) (o : Op) : Inv lim (step lim s o).1 := by
  unfold step
  split
  · exact h
  · cases o with
    | register => exact inv_register h
    | startLocal f =>
      simp only [startLocal]
      cases hc : s.cur with
      | none => exact h
      | some r => exact inv_startPeer h (h.cur r hc) _ _
    | request q mid f => exact inv_bootstrap h q mid f
    | ret n => exact inv_ret h n
    | leave n => exact inv_leave h n

theorem run_cons (lim : Nat) (s : State) (o : Op) (ops : List Op) :
    run lim s (o :: ops) = run lim (step lim s o).1 ops := rfl

theorem inv_run {lim : Nat} {s : State} (h : Inv lim s) (ops : List Op) : Inv lim (run lim s ops) := by
  induction ops generalizing s with
  | nil => exact h
  | cons o ops ih => exact ih (inv_step h o)

theorem startPeer_regs (lim : Nat) (s : State) (r : Nat) (a f : Str) :
    (startPeer lim s r a f).1.regs.length = s.regs.length := by
  unfold startPeer
  split <;> simp

theorem regs_step (lim : Nat) (s : State) (o : Op) :
    (step lim s o).1.regs.length ≤ s.regs.length + registrations [o] := by
  unfold step registrations
  split
  · exact Nat.le_add_right _ _
  · cases o with
    | register => simp [register]
    | startLocal f =>
      simp only [startLocal]
      cases s.cur with
      | none => exact Nat.le_add_right _ _
      | some r => dsimp only; rw [startPeer_regs]; exact Nat.le_add_right _ _
    | request q mid f =>
      refine Nat.le_trans (Nat.le_of_eq ?_) (Nat.le_add_right _ _)
      simp only [bootstrap]
      cases s.cur with
      | none => rfl
      | some r =>
        have hlen := (leaves_fields (ensureTable s r) mid).2.2.1
        simp only [ensureTable, List.length_set] at hlen
        dsimp only
        simp only [ensureTable]
        split
        · exact hlen
        · exact hlen
        · split
          · split
            · exact hlen
            · exact hlen
          · rw [startPeer_regs]; exact hlen
    | ret n => exact Nat.le_add_right _ _
    | leave n => simp only [(leave_fields s n).2.2.1]; exact Nat.le_add_right _ _

theorem regs_run (lim : Nat) (s : State) (ops : List Op) :
    (run lim s ops).regs.length ≤ s.regs.length + registrations ops := by
  induction ops generalizing s with
  | nil => exact Nat.le_add_right _ _
  | cons o ops ih =>
    have h1 := ih (step lim s o).1
    have h2 := regs_step lim s o
    rw [run_cons]
    unfold registrations at *
    rw [List.count_cons] at *
    simp only [List.count_nil] at h2
    omega

/-- All ids in tables. -/
def State.keys (s : State) : List Str := s.regs.flatMap (fun o => (o.getD []).map (·.1))

theorem keys_length {lim : Nat} {l : List (Option Table)}
    (h : ∀ o ∈ l, (o.getD []).length ≤ lim) :
    (l.flatMap (fun o => (o.getD []).map (·.1))).length ≤ lim * l.length := by
  induction l with
  | nil => simp
  | cons o l ih =>
    have h1 := h o (by simp)
    have h2 := ih (fun o' ho' => h o' (by simp [ho']))
    simp only [List.flatMap_cons, List.length_append, List.length_map, List.length_cons,
      Nat.mul_succ]
    omega

/-- The entry of a running instance stays while others leave. -/
theorem leaves_here {lim : Nat} {s : State} (h : Inv lim s) (hn : s.started.Nodup) {i : Inst}
    (hi : i ∈ s.running) (mid : List Nat) :
    ∃ t, (mid.foldl leave s).table i.reg = some t ∧ (i.id, i.num) ∈ t := by
  have h' := inv_leaves h mid
  have hf := leaves_fields s mid
  obtain ⟨t, ht, he⟩ := h'.here (by rw [hf.2.1]; exact hn) i
    (List.mem_append_left _ (by rw [hf.1]; exact hi))
  exact ⟨t, table_eq ht, he⟩

theorem leave_sub (s : State) (n r : Nat) :
    ∀ e ∈ ((leave s n).table r).getD [], e ∈ (s.table r).getD [] := by
  unfold leave
  cases hf : s.leaving.find? (fun i => i.num == n) with
  | none => exact fun e he => he
  | some i =>
    intro e he
    dsimp only at he
    cases hT : State.table { s with
        regs := s.regs.modify i.reg (Option.map (Table.del · i.id))
        leaving := s.leaving.filter (fun j => j.num != n) } r with
    | none => rw [hT] at he; cases he
    | some t =>
      rw [hT] at he
      obtain ⟨t', ht', hh⟩ := leave_get (s := s) (table_some hT)
      rw [table_eq ht']
      rcases hh with ⟨_, rfl⟩ | ⟨_, rfl⟩
      · exact (Table.mem_del.1 he).1
      · exact he

theorem leaves_sub (s : State) (mid : List Nat) (r : Nat) :
    ∀ e ∈ ((mid.foldl leave s).table r).getD [], e ∈ (s.table r).getD [] := by
  induction mid generalizing s with
  | nil => exact fun e he => he
  | cons n mid ih => exact fun e he => leave_sub s n r e (ih (leave s n) e he)

theorem ensure_table {s : State} {r : Nat} (hr : r < s.regs.length) :
    (ensureTable s r).table r = some ((s.table r).getD []) := by
  simp [State.table, ensureTable, List.getElem?_set, hr]

end Verif.PeerSvc
