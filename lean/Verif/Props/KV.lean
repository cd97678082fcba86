import Verif.Proofs.KVRead
/- C29-C32, C60, C61: the key/value store. -/
namespace Verif.KV

def kA : Key := [97]
def kB : Key := [98]
def tT : Key := [116]
def pA : Key := [1]
def pB : Key := [2]

/-- A write by `h` at `p` of `v`, stamped `tm`, at log index `i`, asking for a lease of `dur`. -/
def wr (op : Op) (h p v : Key) (tm : Int) (i : Nat) (dur : Int) : Ticket :=
  prepOne { op := op, table := tT, key := kA, val := v, leasor := h, fromID := p, reqDur := dur } tm i

/-- One lease, by A until 110. -/
def leasedStore : Store := ((applyAll 5 none [(wr .write kA pA [7] 10 1 100, 11)]).getD (none, [])).1

def leasedLeaf : Leaf :=
  { value := [7], leasor := kA, leasorPeer := pA, endTm := 110, epochT0 := 10, writeIdx := 1, epoch := 1, version := 1 }

example : leafOf leasedStore tT kA = some leasedLeaf := by decide
theorem leasedStore_reached : Reached 5 leasedStore :=
  ⟨[(wr .write kA pA [7] 10 1 100, 11)], ((applyAll 5 none [(wr .write kA pA [7] 10 1 100, 11)]).getD (none, [])).2, rfl⟩

/-! ## C29 -/

/-- C29, partial: in any reached store, while a key is leased, no write, compare-and-swap or delete
by another than the holder, stamped no later than the lease end plus the drift bound, changes the
key, whatever else is done in between, and each is answered with an error.
Missing: removal or renaming of the whole table by anyone (counterexample below), a key marked for
automatic deletion read at a local clock past the lease end (counterexample below), and for deletes
a client of the same name at another peer. The table "dead", filled by the store itself, is left
out. -/
theorem C29_lease_excludes_partial {drift : Int} {kv kv' : Store} {table key : Key} {l : Leaf}
    {log : List (Ticket × Int)} {ans : List Ticket}
    (hreach : Reached drift kv) (htable : table ≠ dead)
    (hleaf : leafOf kv table key = some l) (hleased : Leased l)
    (hforeign : ∀ x ∈ log, Touches x.1 table key → NotHolder l x.1 ∧ x.1.tm ≤ l.endTm + drift)
    (htabs : ∀ x ∈ log, x.1.op = .deleteTable ∨ x.1.op = .renameTable → x.1.table ≠ table)
    (hauto : l.autoDel = true → ∀ x ∈ log, x.2 ≤ l.endTm)
    (hrun : applyAll drift kv log = some (kv', ans)) :
    leafOf kv' table key = some l ∧
    ∀ (i : Nat) (x : Ticket × Int), log[i]? = some x → Touches x.1 table key →
      ∃ a : Ticket, ans[i]? = some a ∧ a.err.isSome = true :=
  lease_run htable hleased hreach.sorted hleaf hforeign htabs hauto hrun

/-- Writes, compare-and-swaps and deletes by B up to the last covered instant, a read, a scan and
a write of another key. -/
def foreignLog : List (Ticket × Int) :=
  [ (wr .write kB pB [8] 20 2 0, 20), (wr .cas kB pB [8] 115 3 500, 21),
    ({ op := .read, table := tT, key := kA }, 22), (wr .write kA pB [8] 60 4 500, 61),
    ({ wr .deleteKey kB pB [] 115 5 0 with val := [] }, 116),
    ({ op := .readKeyRange, table := tT }, 200),
    ({ wr .write kB pB [8] 20 6 0 with key := kB }, 20) ]

example : (∀ x ∈ foreignLog, (x.1.op = .write ∨ x.1.op = .cas ∨ x.1.op = .deleteKey) ∧ x.1.table = tT ∧
      x.1.key = kA → (x.1.leasor ≠ kA ∨ (x.1.op ≠ .deleteKey ∧ x.1.fromID ≠ pA)) ∧ x.1.tm ≤ 110 + 5) ∧
    (∀ x ∈ foreignLog, x.1.op = .deleteTable ∨ x.1.op = .renameTable → x.1.table ≠ tT) ∧
    (applyAll 5 leasedStore foreignLog).isSome = true ∧
    (((applyAll 5 leasedStore foreignLog).getD (none, [])).2.map fun a => a.err.isSome) =
      [true, true, false, true, true, false, false] := by decide

/-- One instant later the key can be taken. -/
example : (((applyAll 5 leasedStore [(wr .write kB pB [8] 116 2 0, 0)]).getD (none, [])).2.map
    fun a => a.err.isSome) = [false] := by decide

/-- C29 does not hold for whole tables: anyone can remove or rename the table of a leased key. -/
theorem C29_table_counterexample :
    ∃ t1 t2 : Ticket, (t1.op = .deleteTable ∧ t2.op = .renameTable) ∧ t1.leasor ≠ leasedLeaf.leasor ∧
      t2.leasor ≠ leasedLeaf.leasor ∧ t1.tm ≤ leasedLeaf.endTm ∧ t2.tm ≤ leasedLeaf.endTm ∧
      leafOf leasedStore tT kA = some leasedLeaf ∧
      leafOf ((apply 5 20 leasedStore t1).getD (none, {})).1 tT kA = none ∧
      leafOf ((apply 5 20 leasedStore t2).getD (none, {})).1 tT kA = none :=
  ⟨{ op := .deleteTable, table := tT, leasor := kB, fromID := pB, tm := 20 },
   { op := .renameTable, table := tT, newTable := kB, leasor := kB, fromID := pB, tm := 20 }, by decide⟩

/-- Nor for keys marked for automatic deletion: a read at a clock past the lease end takes the key
away before the drift bound has passed. -/
theorem C29_autodelete_counterexample :
    ∃ (w t : Ticket) (kv : Store), w.op = .write ∧ w.autoDel = true ∧
      kv = ((apply 5 11 none w).getD (none, {})).1 ∧
      (leafOf kv tT kA).map Leaf.endTm = some 110 ∧ t.op = .read ∧ t.tm ≤ 110 + 5 ∧
      leafOf ((apply 5 111 kv t).getD (none, {})).1 tT kA = none :=
  ⟨{ wr .write kA pA [7] 10 1 100 with autoDel := true }, { op := .read, table := tT, key := kA, tm := 111 },
   _, rfl, rfl, rfl, by decide, rfl, by decide, by decide⟩

/-! ## C30 -/

/-- C30, partial: in any run that does not remove the key, if a write or compare-and-swap of the key
succeeds and later one by another holder succeeds, the lease epoch reported to the later is
strictly greater. Missing: runs that remove the key, where the epoch starts again
(counterexample). -/
theorem C30_epochs_increase_partial {drift : Int} {kv kv' : Store} {table key : Key}
    {log : List (Ticket × Int)} {ans : List Ticket}
    (hreach : Reached drift kv) (htable : table ≠ dead)
    (hstart : ∀ l, leafOf kv table key = some l → l.autoDel = false)
    (hkeep : ∀ x ∈ log, ¬ Removes x.1 table key)
    (hreq : ∀ x ∈ log, Writes x.1 table key → x.1.autoDel = false ∧ x.1.err = none)
    (hrun : applyAll drift kv log = some (kv', ans))
    {i j : Nat} {x y : Ticket × Int} {a b : Ticket} (hij : i < j)
    (hx : log[i]? = some x) (ha : ans[i]? = some a) (hy : log[j]? = some y) (hb : ans[j]? = some b)
    (hwx : Writes x.1 table key) (hea : a.err = none) (hwy : Writes y.1 table key) (heb : b.err = none)
    (hother : ¬ (y.1.leasor = x.1.leasor ∧ y.1.fromID = x.1.fromID)) : a.epoch < b.epoch :=
  epochs_run htable hreach.sorted hstart hkeep hreq hrun i j x y a b hij hx ha hy hb hwx hea hwy heb hother

/-- A holds, extends, loses to B, who loses to A again. -/
def passing : List (Ticket × Int) :=
  [ (wr .write kA pA [1] 10 1 100, 0), (wr .write kA pA [2] 50 2 100, 0), (wr .write kB pB [3] 156 3 100, 0),
    (wr .cas kA pA [4] 262 4 100, 0) ]

example : ((applyAll 5 none passing).getD (none, [])).2.map (fun a => (a.err, a.epoch)) =
    [(none, 1), (none, 1), (none, 2), (none, 3)] ∧
    (∀ x ∈ passing, x.1.op ≠ .deleteKey ∧ x.1.op ≠ .deleteTable ∧ x.1.op ≠ .renameTable ∧
      x.1.autoDel = false ∧ x.1.err = none) := by decide

/-- C30 does not hold when the key is removed in between: A holds with epoch 1, gives the key up,
and B is told epoch 1 as well; in a longer history A was told a larger epoch than B. -/
theorem C30_counterexample :
    ∃ log : List (Ticket × Int),
      ((applyAll 5 none log).getD (none, [])).2.map (fun a => (a.op, a.err, a.fromID, a.epoch)) =
        [(.write, none, pA, 1), (.write, none, pB, 2), (.deleteKey, none, pB, 0), (.write, none, pA, 1)] :=
  ⟨[ (wr .write kA pA [1] 10 1 100, 0), (wr .write kB pB [2] 116 2 100, 0), (wr .deleteKey kB pB [] 120 3 0, 0),
     (wr .write kA pA [3] 130 4 100, 0)], by decide⟩

/-! ## C31 -/

/-- C31: a compare-and-swap that reports success met its condition with no foreign lease in force;
the new value is stored with the version increased by one (1 for a new key) and no other key
changed. -/
theorem C31_success {drift : Int} {kv kv' : Store} {t a : Ticket} (hf : Fresh t)
    (hr : doCAS drift kv t = some (kv', a)) (hs : a.swapped = true) :
    CasMet drift kv t ∧
    (∃ l', leafOf kv' t.table t.key = some l' ∧ l'.value = t.val ∧ l'.vtype = t.vtype ∧
      l'.version = ((leafOf kv t.table t.key).map Leaf.version).getD 0 + 1) ∧
    ∀ table key, ¬ (table = t.table ∧ key = t.key) → leafOf kv' table key = leafOf kv table key := by
  refine ⟨?_, ?_, fun table key h => leafOf_cas hr table key h⟩
  · rcases doCAS_cases' hr hf with h | ⟨hw, hc⟩
    · rw [h.2.2] at hs; cases hs
    · unfold CasMet
      rcases casWrite_cases hw hf.1 with h | ⟨_, l', h1, _, h3⟩
      · rw [casWrite_swapped hw] at hs
        cases he : a.err with
        | none => simp [he] at h
        | some e => simp [he] at hs
      · rcases h3 with ⟨h3, _⟩ | ⟨l, h3, h4⟩
        · rw [h3] at hc ⊢; exact hc
        · rw [h3] at hc ⊢
          refine ⟨hc.1, ?_⟩
          rintro ⟨hforce, hown⟩
          obtain ⟨_, _, _, _, _, _, _, _, g⟩ := writeLeaf_inl h4
          rcases g with g | g
          · exact g.2 hforce
          · exact hown g.2.2.1
  · rcases doCAS_cases' hr hf with h | ⟨hw, hc⟩
    · rw [h.2.2] at hs; cases hs
    · rcases casWrite_cases hw hf.1 with h | ⟨_, l', h1, _, h3⟩
      · rw [casWrite_swapped hw] at hs
        cases he : a.err with
        | none => simp [he] at h
        | some e => simp [he] at hs
      · refine ⟨l', h1, ?_⟩
        rcases h3 with ⟨h3, rfl⟩ | ⟨l, h3, h4⟩
        · rw [h3]; exact ⟨rfl, rfl, rfl⟩
        · rw [h3]
          have g := writeLeaf_inl h4
          refine ⟨g.2.1, ?_, g.2.2.2.2.1⟩
          unfold writeLeaf at h4
          repeat' split at h4
          all_goals first
            | (cases h4; rfl)
            | cases h4

/-- C31: one that reports failure left the store as it was and says why. -/
theorem C31_failure {drift : Int} {kv kv' : Store} {t a : Ticket} (hf : Fresh t)
    (hr : doCAS drift kv t = some (kv', a)) (hs : a.swapped = false) : kv' = kv ∧ a.err.isSome = true := by
  rcases doCAS_cases' hr hf with h | ⟨hw, _⟩
  · exact ⟨h.1, h.2.1⟩
  · rcases casWrite_cases hw hf.1 with h | h
    · exact h
    · have h0 : a.err = none := h.1
      rw [casWrite_swapped hw] at hs
      simp [h0] at hs

/-- C31, partial: for a request as the leader stamps it, at an index after every write of the key,
whose sender does not hold a lease in force on the key: it is carried out and reports success
exactly when its condition is met and no foreign lease is in force. Missing: the holder's own
request (next theorem and counterexample). -/
theorem C31_iff_partial {drift : Int} {kv : Store} {t0 : Ticket} {now : Int} {idx : Nat}
    (hf : Fresh t0) (hdrift : 0 ≤ drift) (hdur : 0 ≤ t0.reqDur) (hnow : now ≠ 0)
    (hidx : ∀ l, leafOf kv t0.table t0.key = some l → l.writeIdx < idx)
    (hown : ∀ l, leafOf kv t0.table t0.key = some l → ¬ (InForce drift l now ∧ Own l t0)) :
    ∃ kv' a, doCAS drift kv (prepOne t0 now idx) = some (kv', a) ∧
      (a.swapped = true ↔ CasMet drift kv (prepOne t0 now idx)) := by
  obtain ⟨⟨kv', a⟩, hr⟩ := doCAS_some (drift := drift) (kv := kv) (t := prepOne t0 now idx) hnow
  refine ⟨kv', a, hr, ?_⟩
  have hf' : Fresh (prepOne t0 now idx) := hf
  constructor
  · intro hs; exact (C31_success hf' hr hs).1
  · intro hmet
    rcases doCAS_cases' hr hf' with h | ⟨hw, _⟩
    · exfalso
      unfold CasMet at hmet
      cases hl : leafOf kv (prepOne t0 now idx).table (prepOne t0 now idx).key with
      | none =>
        rw [hl] at hmet
        simp only at hmet
        have : doCAS drift kv (prepOne t0 now idx) = casWrite drift kv (prepOne t0 now idx) := by
          unfold doCAS; rw [hl]; simp only
          rw [if_neg]
          rintro (c | c | c)
          · omega
          · omega
          · exact c hmet.2.2
        rw [this] at hr
        have h1 := casWrite_succeeds hf'.1 hr (fun l h => by rw [hl] at h; cases h)
        rw [h1] at h; simp at h
      | some l =>
        rw [hl] at hmet
        simp only at hmet
        have hno : ¬ InForce drift l now := fun e => hmet.2 ⟨e, fun o => hown l hl ⟨e, o⟩⟩
        have := doCAS_found hl (fun e => hno e.1) hmet.1
        rw [this] at hr
        have h1 := casWrite_succeeds hf'.1 hr (fun l1 h => by
          rw [hl] at h; cases h
          refine writeLeaf_accepts (hidx l hl) ?_
          by_cases hle : Leased l
          · right; left
            have : ¬ now ≤ l.endTm + drift := fun e => hno ⟨hle, e⟩
            refine ⟨by show l.endTm + drift < now; omega, fun hd => ?_⟩
            have hd' : t0.reqDur ≠ 0 := hd
            have hp : 0 < t0.reqDur := by omega
            show l.endTm < (prepOne t0 now idx).endTm
            have : (prepOne t0 now idx).endTm = now + t0.reqDur := by simp [prepOne, hp]
            omega
          · exact Or.inl hle)
        rw [h1] at h; simp at h
    · rw [casWrite_swapped hw]
      rcases casWrite_cases hw hf'.1 with h | h
      · exfalso
        have h1 := casWrite_succeeds hf'.1 hw (fun l hl => by
          unfold CasMet at hmet
          rw [hl] at hmet
          have hno : ¬ InForce drift l now := fun e => hmet.2 ⟨e, fun o => hown l hl ⟨e, o⟩⟩
          refine writeLeaf_accepts (hidx l hl) ?_
          by_cases hle : Leased l
          · right; left
            have : ¬ now ≤ l.endTm + drift := fun e => hno ⟨hle, e⟩
            refine ⟨by show l.endTm + drift < now; omega, fun hd => ?_⟩
            have hd' : t0.reqDur ≠ 0 := hd
            have hp : 0 < t0.reqDur := by omega
            show l.endTm < (prepOne t0 now idx).endTm
            have : (prepOne t0 now idx).endTm = now + t0.reqDur := by simp [prepOne, hp]
            omega
          · exact Or.inl hle)
        rw [h1] at h; simp at h
      · have h0 : a.err = none := h.1
        simp [h0]

/-- The holder of the lease in force succeeds exactly when the condition is met and it asks for a
lease that ends later. -/
theorem C31_holder {drift : Int} {kv : Store} {t0 : Ticket} {now : Int} {idx : Nat} {l : Leaf}
    (hf : Fresh t0) (hdur : 0 ≤ t0.reqDur) (hnow : now ≠ 0)
    (hl : leafOf kv t0.table t0.key = some l) (hidx : l.writeIdx < idx)
    (hforce : InForce drift l now) (hown : Own l t0) :
    ∃ kv' a, doCAS drift kv (prepOne t0 now idx) = some (kv', a) ∧
      (a.swapped = true ↔ CasCond l t0 ∧ 0 < t0.reqDur ∧ l.endTm < now + t0.reqDur) := by
  obtain ⟨⟨kv', a⟩, hr⟩ := doCAS_some (drift := drift) (kv := kv) (t := prepOne t0 now idx) hnow
  refine ⟨kv', a, hr, ?_⟩
  have hf' : Fresh (prepOne t0 now idx) := hf
  have hl' : leafOf kv (prepOne t0 now idx).table (prepOne t0 now idx).key = some l := hl
  constructor
  · intro hs
    rcases doCAS_cases' hr hf' with h | ⟨hw, hc⟩
    · rw [h.2.2] at hs; cases hs
    · rw [hl'] at hc
      refine ⟨hc.1, ?_⟩
      rcases casWrite_cases hw hf'.1 with h | ⟨_, l', _, _, h3⟩
      · rw [casWrite_swapped hw] at hs
        cases he : a.err with
        | none => simp [he] at h
        | some e => simp [he] at hs
      · rcases h3 with ⟨h3, _⟩ | ⟨l1, h3, h4⟩
        · rw [hl'] at h3; cases h3
        · rw [hl'] at h3; cases h3
          obtain ⟨_, _, _, _, _, _, _, _, g⟩ := writeLeaf_inl h4
          rcases g with g | ⟨_, _, _, g1, g2⟩
          · exact absurd hforce g.2
          · have g1' : t0.reqDur ≠ 0 := g1
            have hp : 0 < t0.reqDur := by omega
            have : (prepOne t0 now idx).endTm = now + t0.reqDur := by simp [prepOne, hp]
            exact ⟨hp, by omega⟩
  · rintro ⟨hc, hp, hlt⟩
    have h1 : doCAS drift kv (prepOne t0 now idx) = casWrite drift kv (prepOne t0 now idx) :=
      doCAS_found hl' (fun e => e.2 hown.1) hc
    rw [h1] at hr
    have := casWrite_succeeds hf'.1 hr (fun l1 h => by
      rw [hl'] at h; cases h
      refine writeLeaf_accepts hidx (Or.inr (Or.inr ⟨hforce.1, hown, ?_, ?_⟩))
      · show t0.reqDur ≠ 0; omega
      · have : (prepOne t0 now idx).endTm = now + t0.reqDur := by simp [prepOne, hp]
        omega)
    rw [casWrite_swapped hr, this]; rfl

/-- The hypotheses met: on the leased store B is refused, on the right version after the lease B
swaps, on a wrong one not, A extends. -/
example :
    (doCAS 5 leasedStore { wr .cas kB pB [8] 50 2 0 with oldVersion := 1 }).map (·.2.swapped) = some false ∧
    (doCAS 5 leasedStore { wr .cas kB pB [8] 116 2 0 with oldVersion := 1 }).map (·.2.swapped) = some true ∧
    (doCAS 5 leasedStore { wr .cas kB pB [8] 116 2 0 with oldVersion := 2 }).map (·.2.swapped) = some false ∧
    (doCAS 5 leasedStore { wr .cas kB pB [8] 116 2 0 with oldVal := [7] }).map (·.2.swapped) = some true ∧
    (doCAS 5 leasedStore { wr .cas kA pA [8] 50 2 100 with oldEpoch := 1 }).map (·.2.swapped) = some true ∧
    Fresh (wr .cas kB pB [8] 50 2 0) := by
  refine ⟨by decide, by decide, by decide, by decide, by decide, rfl, rfl⟩

/-- C31 does not hold for the holder itself: its condition is met, no foreign lease is in force,
and the request is refused, because it asks for no lease. -/
theorem C31_holder_counterexample :
    ∃ t : Ticket, Fresh t ∧ leafOf leasedStore t.table t.key = some leasedLeaf ∧ Own leasedLeaf t ∧
      leasedLeaf.writeIdx < t.idx ∧ CasMet 5 leasedStore t ∧
      (doCAS 5 leasedStore t).map (·.2.swapped) = some false := by
  refine ⟨{ wr .cas kA pA [8] 50 2 0 with oldVersion := 1 }, ⟨rfl, rfl⟩, by decide, ⟨rfl, rfl⟩, by decide, ?_, by decide⟩
  have hl : leafOf leasedStore tT kA = some leasedLeaf := by decide
  have hmet : ∀ t : Ticket, t.table = tT → t.key = kA → t.oldVersion = 1 → t.leasor = kA → t.fromID = pA →
      CasMet 5 leasedStore t := by
    intro t h1 h2 h3 h4 h5
    unfold CasMet CasCond
    rw [h1, h2, hl]
    exact ⟨by rw [h3, if_pos (by decide)]; rfl, fun h => h.2 ⟨h4.symm, h5.symm⟩⟩
  exact hmet _ rfl rfl rfl rfl rfl

/-! ## C32 -/

/-- C32, partial: two replicas that apply the same log, at whatever local times, end with the same
tables and give the same answers (and if one panics so does the other), as long as no entry asks
for automatic deletion. -/
theorem C32_clock_independent_partial {drift : Int} {log1 log2 : List (Ticket × Int)}
    (hsame : log1.map Prod.fst = log2.map Prod.fst)
    (hno : ∀ x ∈ log1, x.1.op = .write ∨ x.1.op = .cas → x.1.autoDel = false) :
    applyAll drift none log1 = applyAll drift none log2 :=
  applyAll_clock allTabs_none hsame hno

example : (foreignLog.map Prod.fst = (foreignLog.map fun x => (x.1, x.2 + 1000)).map Prod.fst) ∧
    (∀ x ∈ foreignLog, x.1.op = .write ∨ x.1.op = .cas → x.1.autoDel = false) ∧
    (applyAll 5 none foreignLog).isSome = true := by decide

/-- Reads of single keys that a leader answers by itself, outside the log, change nothing either,
under the same restriction. -/
theorem C32_local_read_partial {drift : Int} {log : List (Ticket × Int)} {kv : Store} {ans : List Ticket}
    (hrun : applyAll drift none log = some (kv, ans))
    (hno : ∀ x ∈ log, x.1.op = .write ∨ x.1.op = .cas → x.1.autoDel = false) (now : Int) (t : Ticket) :
    (doReadKey now kv t).1 = kv := by
  have key : ∀ {log : List (Ticket × Int)} {kv0 kv : Store} {ans : List Ticket}, AllTabs NoAutoTab kv0 →
      (∀ x ∈ log, x.1.op = .write ∨ x.1.op = .cas → x.1.autoDel = false) →
      applyAll drift kv0 log = some (kv, ans) → AllTabs NoAutoTab kv := by
    intro log
    induction log with
    | nil => intro kv0 kv ans h _ hr; cases hr; exact h
    | cons x log ih =>
      intro kv0 kv ans h hno hr
      obtain ⟨q, q2, ha, hb, e⟩ := applyAll_cons hr
      cases e
      exact ih (ans := q2.2) (apply_noAuto h (hno _ List.mem_cons_self) ha)
        (fun y hy => hno y (List.mem_cons_of_mem _ hy)) hb
  have hk := key allTabs_none hno hrun
  cases kv with
  | none => rfl
  | some m =>
    unfold doReadKey
    simp only [readLeaf_noAuto hk]
    cases leafOf (some m) t.table t.key <;> rfl

/-- C32 does not hold with automatic deletion: the same log, applied 20 ns later, gives other
tables and other answers. -/
theorem C32_autodelete_counterexample :
    ∃ log1 log2 : List (Ticket × Int), log1.map Prod.fst = log2.map Prod.fst ∧
      ((applyAll 5 none log1).map fun r => (leafOf r.1 tT kA).isSome) = some true ∧
      ((applyAll 5 none log2).map fun r => (leafOf r.1 tT kA).isSome) = some false ∧
      ((applyAll 5 none log1).map fun r => r.2.map Ticket.err) ≠ ((applyAll 5 none log2).map fun r => r.2.map Ticket.err) :=
  let w := { wr .write kA pA [7] 10 1 100 with autoDel := true }
  let t : Ticket := { op := .read, table := tT, key := kA, tm := 105 }
  ⟨[(w, 11), (t, 106)], [(w, 11), (t, 126)], by decide⟩

/-- Nor when a leader answers a scan by itself: the scan makes the table "dead" on the leader only,
so a later entry that renames a table to that name is refused there and carried out on the
followers. No automatic deletion is involved. -/
theorem C32_local_scan_counterexample :
    ∃ (kv : Store) (scan t : Ticket), Reached 5 kv ∧ scan.op = .readKeyRange ∧
      ((apply 5 30 (doScan rangeKeys 20 kv scan).1 t).map fun r => (leafOf r.1 tT kA).isSome) = some true ∧
      ((apply 5 30 kv t).map fun r => (leafOf r.1 tT kA).isSome) = some false :=
  ⟨leasedStore, { op := .readKeyRange, table := tT },
   { op := .renameTable, table := tT, newTable := dead }, leasedStore_reached, rfl, by decide, by decide⟩

/-- Nor when an entry is applied by the leader and then sent again to a follower that lags behind:
applying rewrites the ticket held in the log (the error itself is not sent), so a compare-and-swap
the leader refused, because the holder asked for a shorter lease, is carried out by the follower. -/
theorem C32_resent_counterexample :
    ∃ (kv : Store) (t : Ticket), Reached 5 kv ∧ Fresh t ∧
      ((apply 5 60 kv t).map fun r => (leafOf r.1 tT kA).map Leaf.value) = some (some [7]) ∧
      (((apply 5 60 kv t).bind fun r => apply 5 61 kv { r.2 with err := none }).map
        fun r => (leafOf r.1 tT kA).map Leaf.value) = some (some [8]) :=
  ⟨leasedStore, wr .cas kA pA [8] 50 2 10, leasedStore_reached, ⟨rfl, rfl⟩, by decide, by decide⟩

/-! ## C60 -/

/-- C60: a range read of a table of any reached store answers, in increasing order of keys, exactly
the keys of the table in the range asked for, with their current leaves, leaving out those marked
for automatic deletion whose lease has run out. Ascending, the range is from `key` up to, not
including, `keyEnd` (no bound if empty); descending, from `key` down to, not including,
`keyEnd`. -/
theorem C60_range {drift now : Int} {kv : Store} {m : List (Key × Table)} {tab : Table} {t : Ticket}
    (hreach : Reached drift kv) (hkv : kv = some m) (htab : lookup m t.table = some tab)
    (hop : t.op = .readKeyRange) :
    ∃ kv' a, apply drift now kv t = some (kv', a) ∧ a.err = none ∧
      a.scan.Pairwise (fun x y => x.1 < y.1) ∧
      ∀ (k : Key) (l : Leaf), (k, l) ∈ a.scan ↔ leafOf kv t.table k = some l ∧ expired t.table now l = false ∧
        (if t.descend then (k ≤ t.key ∨ t.key = []) ∧ (t.keyEnd = [] ∨ t.keyEnd < k)
         else t.key ≤ k ∧ (t.keyEnd = [] ∨ k < t.keyEnd)) := by
  subst hkv
  have hs := (hreach.sorted).lookup htab
  refine ⟨_, _, by unfold apply; rw [hop], ?_⟩
  unfold doScan
  simp only [htab]
  refine ⟨trivial, sorted_visit.imp fun h => blt_iff_lt.1 h, ?_⟩
  intro k l
  rw [mem_visit (rangeKeys_ne hs)]
  have h1 : leafOf (some m) t.table k = some l ↔ (k, l) ∈ tab := by
    rw [mem_iff_lookup hs]; simp [leafOf, htab]
  rw [h1]
  unfold rangeKeys
  cases t.descend with
  | true =>
    simp only [if_true, List.mem_filter, List.mem_reverse, inDesc, Bool.and_eq_true, Bool.or_eq_true,
      ble_iff_le, blt_iff_lt, decide_eq_true_eq]
    constructor
    · rintro ⟨⟨a, b⟩, c⟩; exact ⟨a, c, b⟩
    · rintro ⟨a, c, b⟩; exact ⟨⟨a, b⟩, c⟩
  | false =>
    simp only [Bool.false_eq_true, if_false, List.mem_filter, inAsc, Bool.and_eq_true, Bool.or_eq_true,
      ble_iff_le, blt_iff_lt, decide_eq_true_eq]
    constructor
    · rintro ⟨⟨a, b⟩, c⟩; exact ⟨a, c, b⟩
    · rintro ⟨a, c, b⟩; exact ⟨⟨a, b⟩, c⟩

/-- C60, partial: an ascending prefix read answers exactly the keys that begin with the prefix.
Missing: descending prefix reads (counterexample). -/
theorem C60_prefix_partial {drift now : Int} {kv : Store} {m : List (Key × Table)} {tab : Table} {t : Ticket}
    (hreach : Reached drift kv) (hkv : kv = some m) (htab : lookup m t.table = some tab)
    (hop : t.op = .readPrefixRange) (hasc : t.descend = false) :
    ∃ kv' a, apply drift now kv t = some (kv', a) ∧ a.err = none ∧
      a.scan.Pairwise (fun x y => x.1 < y.1) ∧
      ∀ (k : Key) (l : Leaf), (k, l) ∈ a.scan ↔
        leafOf kv t.table k = some l ∧ expired t.table now l = false ∧ t.key <+: k := by
  subst hkv
  have hs := (hreach.sorted).lookup htab
  refine ⟨_, _, by unfold apply; rw [hop], ?_⟩
  unfold doScan
  simp only [htab]
  refine ⟨trivial, sorted_visit.imp fun h => blt_iff_lt.1 h, ?_⟩
  intro k l
  rw [mem_visit (prefixKeys_ne hs), prefixKeys_asc hs hasc]
  have h1 : leafOf (some m) t.table k = some l ↔ (k, l) ∈ tab := by
    rw [mem_iff_lookup hs]; simp [leafOf, htab]
  rw [h1]
  constructor
  · rintro ⟨⟨a, b⟩, c⟩; exact ⟨a, c, b⟩
  · rintro ⟨a, c, b⟩; exact ⟨⟨a, b⟩, c⟩

/-- Three keys in one table. -/
def threeKeys : Store := ((applyAll 5 none
  [({ wr .write [] pA [1] 10 1 0 with key := [1, 2] }, 0), ({ wr .write [] pA [2] 11 2 0 with key := [1] }, 0),
   ({ wr .write [] pA [3] 12 3 0 with key := [2] }, 0)]).getD (none, [])).1

example :
    ((apply 5 0 threeKeys { op := .readKeyRange, table := tT, key := [1], keyEnd := [2] }).map
      fun r => r.2.scan.map Prod.fst) = some [[1], [1, 2]] ∧
    ((apply 5 0 threeKeys { op := .readKeyRange, table := tT, key := [2], keyEnd := [1], descend := true }).map
      fun r => r.2.scan.map Prod.fst) = some [[1, 2], [2]] ∧
    ((apply 5 0 threeKeys { op := .readPrefixRange, table := tT, key := [1] }).map
      fun r => r.2.scan.map Prod.fst) = some [[1], [1, 2]] := by decide

/-- C60 does not hold for descending prefix reads: they never answer a key longer than the prefix,
in any store. -/
theorem C60_prefix_descending_counterexample {drift now : Int} {kv : Store} {t : Ticket}
    (hop : t.op = .readPrefixRange) (hdesc : t.descend = true) (hkey : t.key ≠ []) {kv' : Store} {a : Ticket}
    (hr : apply drift now kv t = some (kv', a)) (hscan : t.scan = []) :
    ∀ x ∈ a.scan, x.1 = t.key := by
  unfold apply at hr
  rw [hop] at hr
  simp only at hr
  have hr := Option.some.inj hr
  have ha := congrArg Prod.snd hr
  dsimp only at ha
  rw [← ha]
  unfold doScan
  cases kv with
  | none => simp only; intro x hx; rw [hscan] at hx; cases hx
  | some m =>
    simp only
    cases lookup m t.table with
    | none => intro x hx; cases hx
    | some tab =>
      simp only
      intro x hx
      have h1 := mem_of_lookup ((lookup_visit x.1).symm.trans (lookup_of_mem sorted_visit hx))
      have h2 := (List.mem_filter.1 h1).1
      unfold prefixKeys at h2
      rw [if_pos hdesc] at h2
      have hp : ∀ {xs : List (Key × Leaf)} {y}, y ∈ xs.takeWhile (fun x => t.key.isPrefixOf x.1) →
          t.key.isPrefixOf y.1 = true := by
        intro xs
        induction xs with
        | nil => intro y h; cases h
        | cons z zs ih =>
          intro y h
          simp only [List.takeWhile] at h
          split at h
          · rename_i hz
            rcases List.mem_cons.1 h with e | e
            · rw [e]; exact hz
            · exact ih e
          · cases h
      have h3 := hp h2
      have h4 := (List.mem_filter.1 ((List.takeWhile_sublist _).subset h2)).2
      simp only [inDesc, hkey, decide_false, Bool.or_false, Bool.and_eq_true] at h4
      rcases ble_iff.1 h4.1 with e | e
      · exact e
      · rcases ble_iff.1 (prefix_ble h3) with e' | e'
        · exact e'.symm
        · have := blt_asymm e; simp only at e'; rw [e'] at this; cases this

/-- The case is reached: two keys begin with the prefix, one is answered. -/
example : ((apply 5 0 threeKeys { op := .readPrefixRange, table := tT, key := [1], descend := true }).map
      fun r => r.2.scan.map Prod.fst) = some [[1]] := by decide

/-! ## C61 -/

/-- C61, partial: a write that reaches the log stamped after the lease end plus the drift bound takes
the key: the value is stored, the requester becomes the holder and is told a new lease epoch.
Missing: that the leader lets the write reach the log (counterexample). -/
theorem C61_expired_lease_taken_partial {drift : Int} {kv : Store} {t0 : Ticket} {now clock : Int} {idx : Nat} {l : Leaf}
    (hop : t0.op = .write) (hf : Fresh t0) (hdrift : 0 ≤ drift) (hdur : 0 ≤ t0.reqDur) (hnow : now ≠ 0)
    (hl : leafOf kv t0.table t0.key = some l) (hidx : l.writeIdx < idx)
    (hother : ¬ Own l t0) (hover : l.endTm + drift < now) :
    ∃ kv' a l', apply drift clock kv (prepOne t0 now idx) = some (kv', a) ∧ a.err = none ∧
      leafOf kv' t0.table t0.key = some l' ∧ l'.value = t0.val ∧ l'.leasor = t0.leasor ∧
      l'.leasorPeer = t0.fromID ∧ l'.epoch = l.epoch + 1 ∧ a.epoch = l.epoch + 1 := by
  have hl' : leafOf kv (prepOne t0 now idx).table (prepOne t0 now idx).key = some l := hl
  obtain ⟨l', hw⟩ := writeLeaf_accepts (drift := drift) (l := l) (t := prepOne t0 now idx) hidx (by
    right; left
    refine ⟨hover, fun hd => ?_⟩
    have hd' : t0.reqDur ≠ 0 := hd
    have hp : 0 < t0.reqDur := by omega
    have : (prepOne t0 now idx).endTm = now + t0.reqDur := by simp [prepOne, hp]
    omega)
  have happ : apply drift clock kv (prepOne t0 now idx) = kvstoreWrite drift kv (prepOne t0 now idx) := by
    unfold apply
    have : (prepOne t0 now idx).op = .write := hop
    rw [this]
  have hsome : ∃ r, kvstoreWrite drift kv (prepOne t0 now idx) = some r := by
    unfold kvstoreWrite
    rw [if_neg (show (prepOne t0 now idx).tm ≠ 0 from hnow), hl']
    simp only [hw]
    exact ⟨_, rfl⟩
  obtain ⟨⟨kv', a⟩, hr⟩ := hsome
  rcases write_cases hr hf.1 with h | ⟨h0, l1, h1, h2, h3⟩
  · exfalso
    have hr2 := hr
    unfold kvstoreWrite at hr2
    rw [if_neg (show (prepOne t0 now idx).tm ≠ 0 from hnow), hl'] at hr2
    simp only [hw] at hr2
    have ha := congrArg Prod.snd (Option.some.inj hr2)
    dsimp only at ha
    have : a.err = none := by rw [← ha]; split <;> exact hf.1
    rw [this] at h; simp at h
  · rcases h3 with ⟨h3, _⟩ | ⟨l2, h3, h4⟩
    · rw [hl'] at h3; cases h3
    · rw [hl'] at h3; cases h3
      rw [hw] at h4; cases h4
      have g := writeLeaf_inl hw
      refine ⟨kv', a, l', happ.trans hr, h0, h1, g.2.1, g.2.2.1, g.2.2.2.1, ?_⟩
      rcases g.2.2.2.2.2.2.2.2 with g' | g'
      · exact ⟨g'.1, h2.trans g'.1⟩
      · exact absurd g'.2.2.1 hother

example : Leased leasedLeaf ∧ ¬ Own leasedLeaf (wr .write kB pB [8] 0 0 50) ∧ leasedLeaf.endTm + 5 < 116 ∧
    ((apply 5 0 leasedStore (wr .write kB pB [8] 116 2 50)).map fun r => (r.2.err, r.2.epoch)) = some (none, 2) := by
  refine ⟨⟨by decide, by decide⟩, ?_, by decide, by decide⟩
  rintro ⟨h, _⟩
  exact absurd h (by decide)

/-- C61 does not hold at a leader that may serve reads locally: there, a new write that asks for a
lease is tried against the time stamp it does not have yet, so however long ago another holder's
lease ran out, it is answered as refused and never reaches the log. -/
theorem C61_never_replicated_counterexample {drift : Int} {kv : Store} {t : Ticket} {l : Leaf}
    (hl : leafOf kv t.table t.key = some l) (hleased : Leased l) (hother : ¬ Own l t)
    (hasks : t.leasor ≠ [] ∧ 0 < t.reqDur) (hnew : t.tm = 0) (hpast : 0 ≤ l.endTm + drift) :
    ∀ now, leaderReplicates drift now true kv t = false := by
  intro now
  unfold leaderReplicates
  rw [if_pos]
  refine ⟨hasks.1, hasks.2, rfl, ?_⟩
  unfold wouldWrite
  rw [hl]
  simp only
  rw [if_neg (fun h => h.elim hleased.1 hleased.2)]
  split
  · simp
  · rw [if_neg (fun h => hother h.2)]
    simp only [decide_eq_true_eq]
    omega

example : leaderReplicates 5 1000000 true leasedStore { wr .write kB pB [8] 0 0 50 with tm := 0, endTm := 0 } = false ∧
    leaderReplicates 5 20 true leasedStore { wr .write kA pA [8] 0 0 500 with tm := 0, endTm := 0 } = true := by decide

/-- At such a leader, a write that asks for a lease does reach the log when the key is not leased,
and, from the holder, exactly when it would move the end of the lease. -/
theorem C61_replicated_iff {drift now : Int} {kv : Store} {t : Ticket} (hasks : t.leasor ≠ [] ∧ 0 < t.reqDur) :
    (∀ l, leafOf kv t.table t.key = some l → Leased l → Own l t →
      (leaderReplicates drift now true kv t = true ↔ l.endTm < now + t.reqDur)) ∧
    ((∀ l, leafOf kv t.table t.key = some l → ¬ Leased l) → leaderReplicates drift now true kv t = true) := by
  have hd : t.reqDur ≠ 0 := by omega
  constructor
  · intro l hl hleased hown
    have hw : wouldWrite drift now kv t = decide (l.endTm < now + t.reqDur) := by
      unfold wouldWrite
      rw [hl]
      simp only
      rw [if_neg (fun h => h.elim hleased.1 hleased.2)]
      split
      · next h => symm; rw [decide_eq_false_iff_not]; omega
      · next h =>
        rw [if_pos ⟨hd, hown⟩]
        symm; rw [decide_eq_true_eq]
        have : ¬ (now + t.reqDur ≤ l.endTm) := fun h' => h ⟨hd, h'⟩
        omega
    unfold leaderReplicates
    rw [hw]
    simp [hasks.1, hasks.2]
  · intro h
    have hw : wouldWrite drift now kv t = true := by
      unfold wouldWrite
      cases hl : leafOf kv t.table t.key with
      | none => rfl
      | some l =>
        simp only
        rw [if_pos]
        have := h l hl
        unfold Leased at this
        exact Classical.byContradiction fun hn => this ⟨fun e => hn (Or.inl e), fun e => hn (Or.inr e)⟩
    unfold leaderReplicates
    rw [hw]
    simp

/-! ## C62 -/

/-- C62, first half: a read that finds the key returns the value of the last write or
compare-and-swap of that key that was answered as done, following tables as they are renamed.
The table "dead", where expired values go, is set apart. -/
theorem C62_read_returns_last_write {drift : Int} {hist : List (Ticket × Int)} {ans : List Ticket} {kv kv' : Store}
    {r a : Ticket} {now : Int} (h : applyAll drift none hist = some (kv, ans))
    (hfresh : ∀ x ∈ hist, x.1.err = none) (hdead : ∀ x ∈ hist, x.1.op = .renameTable → x.1.table ≠ dead)
    (hop : r.op = .read) (ht : r.table ≠ dead) (hr : apply drift now kv r = some (kv', a)) (hok : a.err = none) :
    lastWritten ((hist.map Prod.fst).zip ans) r.table r.key = some a.val := by
  have hs := sub_run (m := fun _ _ => none) (fun tb k l _ h => by cases h) hfresh hdead h
  unfold apply at hr
  rw [hop] at hr
  simp only [Option.some.injEq] at hr
  unfold doReadKey readLeaf at hr
  cases kv with
  | none => cases hr; cases hok
  | some m =>
    dsimp only at hr
    cases hl : leafOf (some m) r.table r.key with
    | none => rw [hl] at hr; cases hr; cases hok
    | some l =>
      rw [hl] at hr
      dsimp only at hr
      by_cases hx : expired r.table now l = true
      · rw [if_pos hx] at hr; cases hr; cases hok
      · rw [if_neg hx] at hr; cases hr
        exact hs _ _ _ ht hl

/-- C62, second half: when no write asks for auto-delete, a read is answered "not found" exactly
when nothing was written since the key or its table was removed. -/
theorem C62_not_found_iff {drift : Int} {hist : List (Ticket × Int)} {ans : List Ticket} {kv kv' : Store}
    {r a : Ticket} {now : Int} (h : applyAll drift none hist = some (kv, ans))
    (hfresh : ∀ x ∈ hist, x.1.err = none)
    (hauto : ∀ x ∈ hist, x.1.op = .write ∨ x.1.op = .cas → x.1.autoDel = false)
    (hop : r.op = .read) (hr : apply drift now kv r = some (kv', a)) :
    (a.err = none ∧ lastWritten ((hist.map Prod.fst).zip ans) r.table r.key = some a.val) ∨
    (a.err = some .keyNotFound ∧ lastWritten ((hist.map Prod.fst).zip ans) r.table r.key = none) := by
  obtain ⟨hs, ha⟩ := same_run (m := fun _ _ => none) (fun tb k => rfl) allTabs_none hfresh hauto h
  have hs' := hs r.table r.key
  unfold lastWritten
  unfold apply at hr
  rw [hop] at hr
  simp only [Option.some.injEq] at hr
  unfold doReadKey at hr
  cases kv with
  | none => cases hr; exact Or.inr ⟨rfl, hs'.symm⟩
  | some m =>
    dsimp only at hr
    rw [readLeaf_noAuto ha] at hr
    cases hl : leafOf (some m) r.table r.key with
    | none => rw [hl] at hr hs'; cases hr; exact Or.inr ⟨rfl, hs'.symm⟩
    | some l => rw [hl] at hr hs'; cases hr; exact Or.inl ⟨rfl, hs'.symm⟩

/-- Two writes, one refused, a rename, and a read of what the second left. -/
def readHist : List (Ticket × Int) :=
  [(wr .write [] [] [7] 10 1 0, 11), (wr .write kA pA [8] 20 2 100, 21), (wr .write kB pB [9] 30 3 100, 31),
   ({ op := .renameTable, table := tT, newTable := [117] }, 40)]
example : (applyAll 5 none readHist).map (fun q => q.2.map Ticket.err) =
    some [none, none, some .leased, none] := by decide
example : (applyAll 5 none readHist).map (fun q => lastWritten ((readHist.map Prod.fst).zip q.2) [117] kA) =
    some (some [8]) := by decide
example : (applyAll 5 none readHist).map (fun q => lastWritten ((readHist.map Prod.fst).zip q.2) tT kA) =
    some none := by decide
example : (applyAll 5 none readHist).bind (fun q =>
    (apply 5 50 q.1 { op := .read, table := [117], key := kA }).map fun x => x.2.val) = some [8] := by decide
example : (∀ x ∈ readHist, x.1.err = none) ∧
    (∀ x ∈ readHist, x.1.op = .renameTable → x.1.table ≠ dead) ∧
    (∀ x ∈ readHist, x.1.op = .write ∨ x.1.op = .cas → x.1.autoDel = false) := by decide

end Verif.KV
