import Verif.Proofs.PeerSvc
import Mathlib.Data.List.Perm.Subperm
/-
C112: service instances stay within their limit.
-/
namespace Verif.PeerSvc

/-- The limit is that of the configuration; without an entry there is none. -/
theorem C112_config (names : List Str) (maxes : List Nat) (svc : Str) (n : Nat)
    (h : getLimitMax names maxes svc = some n) :
    (svc ∉ names → n = 0) ∧
    ∀ k : Nat, names[k]? = some svc → (∀ j < k, names[j]? ≠ some svc) → maxes[k]? = some n := by
  unfold getLimitMax at h
  split at h
  · cases h
  · rename_i hl
    have hl : names.length = maxes.length := by omega
    simp only [Option.some.injEq] at h
    subst h
    induction names generalizing maxes with
    | nil => exact ⟨fun _ => rfl, fun k hk => by simp at hk⟩
    | cons a names ih =>
      cases maxes with
      | nil => simp at hl
      | cons m maxes =>
        have hl' : names.length = maxes.length := by simpa using hl
        by_cases ha : a = svc
        · subst ha
          refine ⟨fun hn => absurd (List.mem_cons_self ..) hn, fun k hk hj => ?_⟩
          cases k with
          | zero => simp
          | succ k => exact absurd rfl (hj 0 (Nat.succ_pos _))
        · obtain ⟨i1, i2⟩ := ih maxes (by omega) hl'
          have hb : (a == svc) = false := by simpa using ha
          simp only [List.zip_cons_cons, List.find?_cons, hb]
          refine ⟨fun hn => i1 (fun hm => hn (List.mem_cons_of_mem _ hm)), fun k hk hj => ?_⟩
          cases k with
          | zero => simp [ha] at hk
          | succ k =>
            simp only [List.getElem?_cons_succ] at hk ⊢
            exact i2 k hk (fun j hjk => by have := hj (j + 1) (by omega); simpa using this)

example : getLimitMax [[1], [2], [2]] [5, 1, 7] [2] = some 1 ∧
    getLimitMax [[1], [2]] [5, 1] [3] = some 0 ∧ getLimitMax [[1]] [] [1] = none := by decide

/-- However instances are started, requested, and end: as long as no two of them have had the same
id, the number running is within the limit, times the number of registrations of the service. -/
theorem C112_limit_partial (lim : Nat) (hl : 0 < lim) (ops : List Op)
    (hn : (run lim {} ops).started.Nodup) :
    (run lim {} ops).running.length ≤ lim * registrations ops := by
  have h := inv_run (inv_init lim) ops
  have hr := regs_run lim {} ops
  generalize run lim {} ops = s at h hn hr
  have hsub : s.all.map (·.id) ⊆ s.keys := by
    intro x hx
    obtain ⟨i, hi, rfl⟩ := List.mem_map.1 hx
    obtain ⟨t, ht, he⟩ := h.here hn i hi
    exact List.mem_flatMap.2 ⟨some t, List.mem_of_getElem? ht, List.mem_map.2 ⟨_, he, rfl⟩⟩
  have hnd : (s.all.map (·.id)).Nodup := by
    refine List.Nodup.map_on (fun i hi j hj e => id_inj h hn hi hj e) ?_
    exact List.Nodup.of_map _ h.nums
  have h1 := (List.subperm_of_subset hnd hsub).length_le
  have h2 : s.keys.length ≤ lim * s.regs.length := by
    apply keys_length
    intro o ho
    cases o with
    | none => simp
    | some t =>
      obtain ⟨r, hr, he⟩ := List.getElem_of_mem ho
      exact h.small hl r t (by rw [List.getElem?_eq_getElem hr, he])
  have h3 : s.running.length ≤ s.all.length := by simp [State.all]
  have h4 : lim * s.regs.length ≤ lim * registrations ops := by
    apply Nat.mul_le_mul_left
    simpa using hr
  rw [List.length_map] at h1
  omega

/-- Limit 2: a local start, a remote one, a third refused and rejected, one ends, a remote one. -/
def exOps : List Op :=
  [.register, .startLocal [1], .request ⟨.startCircuit, [9], some none⟩ [] [2], .startLocal [3],
    .request (startRemotePeerAndGetCircuit false [4]) [] [5], .ret 0, .leave 0,
    .request (startRemotePeerAndGetCircuit false [6]) [] [7]]

example : (run 2 {} exOps).started = [[1], [2], [6]] ∧ (run 2 {} exOps).running.length = 2 ∧
    registrations exOps = 1 ∧ (run 2 {} exOps).dead = false := by decide

/-- A remote may ask for an id in use. The new instance then takes the old one's place in the table,
and any number can run under a limit of 2. -/
theorem C112_same_id_counterexample (k : Nat) : ∃ ops, registrations ops = 1 ∧
    (run 2 {} ops).running.length = k ∧ (run 2 {} ops).dead = false := by
  let q : Op := .request (startRemotePeerAndGetCircuit false [4]) [] []
  have key : ∀ k : Nat, (run 2 {} (Op.register :: List.replicate k q)).running.length = k ∧
      (run 2 {} (Op.register :: List.replicate k q)).dead = false ∧
      (run 2 {} (Op.register :: List.replicate k q)).cur = some 0 ∧
      ∃ t, (run 2 {} (Op.register :: List.replicate k q)).regs = [t] ∧
        (t = none ∨ ∃ n, t = some [([4], n)]) := by
    intro k
    induction k with
    | zero => exact ⟨rfl, rfl, rfl, none, rfl, Or.inl rfl⟩
    | succ k ih =>
      have he : run 2 {} (Op.register :: List.replicate (k + 1) q) =
          (step 2 (run 2 {} (Op.register :: List.replicate k q)) q).1 := by
        rw [List.replicate_succ', run, run, ← List.cons_append, List.foldl_append]
        rfl
      rw [he]
      obtain ⟨h1, h2, h3, t, h4, h5⟩ := ih
      generalize run 2 {} (Op.register :: List.replicate k q) = s at h1 h2 h3 h4
      obtain ⟨regs, cur, running, leaving, next, started, dead⟩ := s
      dsimp only at h1 h2 h3 h4
      subst h2 h3 h4
      rcases h5 with rfl | ⟨n, rfl⟩ <;>
        simp [step, q, startRemotePeerAndGetCircuit, bootstrap, State.table, ensureTable, choose,
          startPeer, h1, Table.set, Table.del]
  refine ⟨_, ?_, (key k).1, (key k).2.1⟩
  simp [registrations, q, List.count_replicate]

/-- Registering again forgets the instances running: with limit 1, two. -/
theorem C112_register_counterexample : ∃ ops : List Op,
    ops = [.register, .startLocal [1], .register, .startLocal [2]] ∧
    (run 1 {} ops).running.length = 2 ∧ (run 1 {} ops).started.Nodup :=
  ⟨_, rfl, by decide, by decide⟩

/-- A prefer-extant request, while an instance of the current registration runs, never starts
another: it is served by that one, or the host panics because there are several. -/
theorem C112_extant (lim : Nat) (ops : List Op) (hn : (run lim {} ops).started.Nodup) (i : Inst)
    (hi : i ∈ (run lim {} ops).running) (hc : (run lim {} ops).cur = some i.reg)
    (hd : (run lim {} ops).dead = false) (q : Req) (hq : q.typ = .atMostOne) (mid : List Nat)
    (f : Str) :
    (step lim (run lim {} ops) (.request q mid f)).2 = .served i.num ∨
    ((step lim (run lim {} ops) (.request q mid f)).2 = .panicked ∧
      2 ≤ (run lim {} ops).count i.reg) := by
  have h := inv_run (inv_init lim) ops
  generalize run lim {} ops = s at h hn hi hc hd
  obtain ⟨t, ht, he⟩ := h.here hn i (List.mem_append_left _ hi)
  have hE := inv_ensure h i.reg
  obtain ⟨t2, ht2, he2⟩ := leaves_here (s := ensureTable s i.reg) hE hn hi mid
  have hs2 := leaves_sub (ensureTable s i.reg) mid i.reg
  rw [ht2, ensure_table (h.cur _ hc), table_eq ht] at hs2
  simp only [Option.getD_some] at hs2
  simp only [step, hd, Bool.false_eq_true, if_false, bootstrap, hc, table_eq ht, choose, hq, ht2,
    Option.getD_some, State.count]
  have h0 : t.length ≠ 0 := by
    intro h0
    rw [List.length_eq_zero_iff] at h0
    rw [h0] at he; cases he
  rw [if_neg h0]
  by_cases h1 : t.length = 1
  · rw [if_pos h1]
    obtain ⟨e, rfl⟩ := List.length_eq_one_iff.1 h1
    cases t2 with
    | nil => cases he2
    | cons e' t2 =>
      left
      have hee := hs2 e' (List.mem_cons_self ..)
      rw [List.mem_singleton] at hee he
      simp only [hee, ← he]
  · rw [if_neg h1]
    exact Or.inr ⟨rfl, by omega⟩

/-- With a limit of 1 it is always served by the one that runs. -/
theorem C112_extant_single (ops : List Op) (hn : (run 1 {} ops).started.Nodup) (i : Inst)
    (hi : i ∈ (run 1 {} ops).running) (hc : (run 1 {} ops).cur = some i.reg)
    (hd : (run 1 {} ops).dead = false) (q : Req) (hq : q.typ = .atMostOne) (mid : List Nat)
    (f : Str) :
    (step 1 (run 1 {} ops) (.request q mid f)).2 = .served i.num := by
  rcases C112_extant 1 ops hn i hi hc hd q hq mid f with h | ⟨_, h2⟩
  · exact h
  · exfalso
    have h := inv_run (inv_init 1) ops
    generalize run 1 {} ops = s at h hn hi h2
    obtain ⟨t, ht, _⟩ := h.here hn i (List.mem_append_left _ hi)
    have := h.small (by decide) _ t ht
    rw [State.count, table_eq ht, Option.getD_some] at h2
    omega

example : let s := run 1 {} [.register, .startLocal [1]]
    s.running = [⟨0, 0, [1]⟩] ∧ s.cur = some 0 ∧ s.dead = false ∧
    (step 1 s (.request (startRemotePeerAndGetCircuit true []) [] [2])).2 = .served 0 := by decide

/-- The one it is served by may have ended already. -/
theorem C112_extant_counterexample :
    (step 1 (run 1 {} [.register, .startLocal [1], .ret 0])
      (.request (startRemotePeerAndGetCircuit true []) [] [2])).2 = .served 0 ∧
    (run 1 {} [.register, .startLocal [1], .ret 0]).running = [] := by decide

/-- StartRemotePeer does not pass its prefer-extant flag on: it always asks for a new instance. -/
theorem C112_flag_counterexample (s : State) (b : Bool) (r : Nat) (hc : s.cur = some r)
    (hd : s.dead = false) (mid : List Nat) (f : Str) :
    ∃ i, (step 0 s (.request (startRemotePeer b) mid f)).2 = .started i := by
  simp only [step, hd, Bool.false_eq_true, if_false, bootstrap, hc, startRemotePeer, choose]
  cases s.table r with
  | none => simp [startPeer]
  | some t => simp [startPeer]

example : (run 0 {} [.register, .startLocal [1]]).cur = some 0 ∧
    (run 0 {} [.register, .startLocal [1]]).running.length = 1 := by decide

/-- A request is turned away only for an unknown service or at the limit, and a local start too. -/
theorem C112_turned_away (lim : Nat) (s : State) (o : Op)
    (h : (step lim s o).2 = .rejected ∨ (step lim s o).2 = .refused) :
    s.cur = none ∨ ∃ r, s.cur = some r ∧ 0 < lim ∧ lim ≤ s.count r := by
  unfold step at h
  split at h
  · simp at h
  · cases o with
    | register => simp at h
    | ret n => simp at h
    | leave n => simp at h
    | startLocal f =>
      simp only [startLocal] at h
      cases hc : s.cur with
      | none => exact Or.inl rfl
      | some r =>
        rw [hc] at h
        simp only [startPeer] at h
        split at h
        · rename_i hl; exact Or.inr ⟨r, rfl, hl.1, hl.2.2⟩
        · simp at h
    | request q mid f =>
      simp only [bootstrap] at h
      cases hc : s.cur with
      | none => exact Or.inl rfl
      | some r =>
        rw [hc] at h
        dsimp only at h
        generalize hs' : mid.foldl leave (ensureTable s r) = s' at h
        refine Or.inr ⟨r, rfl, ?_⟩
        split at h
        · simp at h
        · simp at h
        · split at h
          · rename_i hl; exact hl
          · rename_i hl
            simp only [startPeer] at h
            split at h
            · rename_i hl2
              refine ⟨hl2.1, Nat.le_trans hl2.2.2 ?_⟩
              rw [← hs']
              have key : ∀ (m : List Nat) (s1 : State),
                  ((m.foldl leave s1).table r |>.getD []).length ≤ ((s1.table r).getD []).length := by
                intro m
                induction m with
                | nil => exact fun _ => Nat.le_refl _
                | cons n m ih =>
                  intro s1
                  refine Nat.le_trans (ih (leave s1 n)) ?_
                  unfold leave
                  cases hf : s1.leaving.find? (fun i => i.num == n) with
                  | none => exact Nat.le_refl _
                  | some i =>
                    dsimp only
                    cases hT : State.table { s1 with
                        regs := s1.regs.modify i.reg (Option.map (Table.del · i.id))
                        leaving := s1.leaving.filter (fun j => j.num != n) } r with
                    | none => simp
                    | some t =>
                      obtain ⟨t', ht', hh⟩ := leave_get (s := s1) (table_some hT)
                      rw [table_eq ht']
                      rcases hh with ⟨_, rfl⟩ | ⟨_, rfl⟩
                      · exact Table.length_del _ _
                      · exact Nat.le_refl _
              refine Nat.le_trans (key mid _) ?_
              unfold State.count
              by_cases hr : r < s.regs.length
              · rw [ensure_table hr]; exact Nat.le_refl _
              · have : (ensureTable s r).table r = none := by
                  have : (s.regs.set r (some ((s.table r).getD [])))[r]? = none := by
                    rw [List.getElem?_eq_none_iff, List.length_set]; omega
                  simp only [State.table, ensureTable] at this ⊢
                  rw [this]; rfl
                rw [this]; simp
            · simp at h

/-- Exactly these requests make the host panic (with no instance leaving meanwhile). -/
theorem C112_panics_counterexample (lim : Nat) (s : State) (r : Nat) (hc : s.cur = some r)
    (hr : r < s.regs.length) (hd : s.dead = false) (q : Req) (f : Str) :
    (step lim s (.request q [] f)).2 = .panicked ↔ Harmful lim s r q := by
  simp only [step, hd, Bool.false_eq_true, if_false, bootstrap, hc, List.foldl_nil,
    ensure_table hr, Option.getD_some]
  have hstart : ∀ s' a, (startPeer lim s' r a f).2 ≠ .panicked := by
    intro s' a
    unfold startPeer
    split <;> simp
  obtain ⟨typ, toID, args⟩ := q
  unfold Harmful State.count
  cases typ with
  | takeToID =>
    simp only [choose, reduceCtorEq, false_and, or_false, or_self, true_and]
    cases args with
    | none => simp
    | some a =>
      cases a with
      | none => simp
      | some a =>
        by_cases ha : toID = a
        · subst ha
          simp only [Option.join_some, ne_eq, not_true_eq_false, if_false, Option.isNone_some,
            Bool.false_eq_true, iff_false]
          split
          · simp
          · exact hstart _ _
        · simp [ha, Ne.symm ha, Option.join]
  | atMostOne =>
    simp only [choose, reduceCtorEq, false_and, false_or, or_false, or_self, true_and]
    cases hT : s.table r with
    | none =>
      simp only [Option.getD_none, List.length_nil]
      have : ¬ (lim > 0 ∧ 0 ≥ lim) := by omega
      rw [if_neg this]
      simp [hstart]
    | some t =>
      simp only [Option.getD_some]
      match t with
      | [] =>
        have : ¬ (lim > 0 ∧ 0 ≥ lim) := by omega
        simp only [List.length_nil, if_true, if_neg this]
        simp [hstart]
      | [e] => simp
      | e :: e' :: t => simp
  | start =>
    simp only [choose, reduceCtorEq, false_and, false_or, or_false, true_and]
    cases hT : s.table r with
    | none =>
      have : ¬ (lim > 0 ∧ 0 ≥ lim) := by omega
      simp only [Option.getD_none, List.length_nil, if_neg this]
      simp only [hstart, false_iff]
      omega
    | some t =>
      simp only [Option.getD_some]
      by_cases h0 : toID = []
      · simp only [h0, if_true, or_true, implies_true, and_true]
        split
        · rename_i hl
          cases args <;> simp [hl.1, hl.2]
        · rename_i hl
          simp only [hstart, false_iff]
          exact fun h => hl ⟨h.2.1, h.2.2⟩
      · simp only [h0, if_false, or_false]
        cases hg : Table.get t toID with
        | some n =>
          simp only [reduceCtorEq, false_iff]
          rintro ⟨_, _, _, h⟩
          unfold Table.get at hg
          cases hf : t.find? (fun e => e.1 == toID) with
          | none => rw [hf] at hg; cases hg
          | some e =>
            have h1 := List.find?_some hf
            exact h e (List.mem_of_find?_eq_some hf) (by simpa using h1)
        | none =>
          have hno : ∀ e ∈ t, e.1 ≠ toID := by
            unfold Table.get at hg
            rw [Option.map_eq_none_iff, List.find?_eq_none] at hg
            intro e he
            have := hg e he
            simpa using this
          dsimp only
          split
          · rename_i hl
            cases args <;> simp [hl.1, hl.2] <;> exact fun a b hab => hno (a, b) hab
          · rename_i hl
            simp only [hstart, false_iff]
            exact fun h => hl ⟨h.2.1, h.2.2.1⟩
  | startCircuit =>
    simp only [choose, reduceCtorEq, false_and, false_or, or_true, true_and]
    cases hT : s.table r with
    | none =>
      have : ¬ (lim > 0 ∧ 0 ≥ lim) := by omega
      simp only [Option.getD_none, List.length_nil, if_neg this]
      simp only [hstart, false_iff]
      omega
    | some t =>
      simp only [Option.getD_some]
      by_cases h0 : toID = []
      · simp only [h0, if_true, or_true, implies_true, and_true]
        split
        · rename_i hl
          cases args <;> simp [hl.1, hl.2]
        · rename_i hl
          simp only [hstart, false_iff]
          exact fun h => hl ⟨h.2.1, h.2.2⟩
      · simp only [h0, if_false, or_false]
        cases hg : Table.get t toID with
        | some n =>
          simp only [reduceCtorEq, false_iff]
          rintro ⟨_, _, _, h⟩
          unfold Table.get at hg
          cases hf : t.find? (fun e => e.1 == toID) with
          | none => rw [hf] at hg; cases hg
          | some e =>
            have h1 := List.find?_some hf
            exact h e (List.mem_of_find?_eq_some hf) (by simpa using h1)
        | none =>
          have hno : ∀ e ∈ t, e.1 ≠ toID := by
            unfold Table.get at hg
            rw [Option.map_eq_none_iff, List.find?_eq_none] at hg
            intro e he
            have := hg e he
            simpa using this
          dsimp only
          split
          · rename_i hl
            cases args <;> simp [hl.1, hl.2] <;> exact fun a b hab => hno (a, b) hab
          · rename_i hl
            simp only [hstart, false_iff]
            exact fun h => hl ⟨h.2.1, h.2.2.1⟩

/-- StartRemotePeer of this library is such a request: at the limit it brings the other host down. -/
theorem C112_start_panics_counterexample : ∃ ops : List Op,
    ops = [.register, .startLocal [1], .request (startRemotePeer true) [] [2]] ∧
    (run 1 {} ops).dead = true := ⟨_, rfl, by decide⟩

/-- StartRemotePeerAndGetCircuit with the prefer-extant flag does when there are two instances. -/
theorem C112_extant_panics_counterexample : ∃ ops : List Op,
    ops = [.register, .startLocal [1], .startLocal [2],
      .request (startRemotePeerAndGetCircuit true []) [] [3]] ∧
    (run 0 {} ops).dead = true := ⟨_, rfl, by decide⟩

/-- And with one, if it leaves at that moment. -/
theorem C112_race_panics_counterexample : ∃ ops : List Op,
    ops = [.register, .startLocal [1], .ret 0,
      .request (startRemotePeerAndGetCircuit true []) [0] [3]] ∧
    (run 1 {} ops).dead = true := ⟨_, rfl, by decide⟩

/-- With a limit of 1, StartRemotePeerAndGetCircuit does not, unless in that moment. -/
theorem C112_no_panic_partial (ops : List Op) (b : Bool) (id f : Str)
    (hd : (run 1 {} ops).dead = false) :
    (step 1 (run 1 {} ops) (.request (startRemotePeerAndGetCircuit b id) [] f)).2 ≠ .panicked := by
  have h := inv_run (inv_init 1) ops
  generalize run 1 {} ops = s at h hd
  cases hc : s.cur with
  | none => simp [step, hd, bootstrap, hc]
  | some r =>
    rw [Ne, C112_panics_counterexample 1 s r hc (h.cur r hc) hd]
    have hcount : s.count r ≤ 1 := by
      unfold State.count
      cases hT : s.table r with
      | none => simp
      | some t => exact h.small (by decide) r t (table_some hT)
    cases b with
    | true =>
      simp only [Harmful, startRemotePeerAndGetCircuit]
      simp
      omega
    | false => simp [Harmful, startRemotePeerAndGetCircuit]

example : (run 1 {} [.register, .startLocal [1]]).dead = false := by decide

end Verif.PeerSvc
