import Verif.Proofs.CAS
/-
C45 and C46: the content-addressed store.
-/
namespace Verif.CAS

/-! ### C46 -/

/-- C46: every record (a 55 byte hash and two int32 lengths) is encoded to exactly 64 bytes and
decodes to the same record, consuming exactly those bytes whatever follows. -/
theorem C46_record_round_trip (e : Entry) (hh : e.blake3.length = 55)
    (hc : -2147483648 ≤ e.clen ∧ e.clen < 2147483648) (hu : -2147483648 ≤ e.ulen ∧ e.ulen < 2147483648) :
    ∃ b, marshal e = some b ∧ b.length = 64 ∧
      ∀ rest, ∃ d, unmarshal (b ++ rest) = some (d, rest) ∧
        d.blake3 = e.blake3 ∧ d.clen = e.clen ∧ d.ulen = e.ulen := by
  refine ⟨_, marshal_some e hh, ?_, ?_⟩
  · exact hdr_length e hh
  · intro rest
    exact ⟨_, unmarshal_marshal e rest hh hc hu, rfl, rfl, rfl⟩

/-- The offset of record `i`: the compressed lengths before it. -/
def offset (es : List Entry) (i : Nat) : Int := ((es.take i).map (·.clen)).sum

/-- C46: an index file made of any list of records with distinct hashes is parsed as exactly
those records, in order, each with the offset its predecessors' lengths give it. -/
theorem C46_file_parses (es : List Entry) (hh : ∀ e ∈ es, e.blake3.length = 55)
    (hc : ∀ e ∈ es, 0 ≤ e.clen ∧ e.clen < 2147483648)
    (hu : ∀ e ∈ es, -2147483648 ≤ e.ulen ∧ e.ulen < 2147483648)
    (hd : (es.map (·.blake3)).Nodup) (file : Bytes)
    (hfile : (es.mapM marshal).map List.flatten = some file) :
    ∃ ds, loadIndex file = some ds ∧
      ds.map (fun e => (e.blake3, e.clen, e.ulen)) = es.map (fun e => (e.blake3, e.clen, e.ulen)) ∧
      ∀ i (h : i < ds.length), (ds[i].beg : Int) = offset es i := by
  -- give each record its offset
  have hmar : ∀ l : List Entry, (∀ e ∈ l, e.blake3.length = 55) →
      (l.mapM marshal).map List.flatten = some (l.flatMap hdr) := by
    intro l hl
    have : l.mapM marshal = some (l.map hdr) := by
      induction l with
      | nil => rfl
      | cons a l ih =>
        rw [List.mapM_cons, marshal_some a (hl a List.mem_cons_self),
          ih (fun x hx => hl x (List.mem_cons_of_mem _ hx))]
        rfl
    rw [this]; simp [List.flatMap]
  rw [hmar es hh] at hfile
  injection hfile with hfile
  have hplace : ∀ (l : List Entry) (beg : Nat), (∀ e ∈ l, 0 ≤ e.clen) →
      ∃ ds : List Entry, ds.map (fun e => (e.blake3, e.clen, e.ulen)) = l.map (fun e => (e.blake3, e.clen, e.ulen)) ∧
        Chained beg ds ∧ ds.flatMap hdr = l.flatMap hdr ∧
        ∀ i (h : i < ds.length), (ds[i].beg : Int) = beg + offset l i := by
    intro l
    induction l with
    | nil => intro beg _; exact ⟨[], rfl, trivial, rfl, by simp⟩
    | cons a l ih =>
      intro beg hl
      have ha := hl a List.mem_cons_self
      obtain ⟨ds, h1, h2, h3, h4⟩ := ih (nextBeg beg a) (fun x hx => hl x (List.mem_cons_of_mem _ hx))
      refine ⟨{ a with beg := beg } :: ds, by simp [h1], ⟨rfl, by simpa [nextBeg] using h2⟩, ?_, ?_⟩
      · simp only [List.flatMap_cons, h3]; rfl
      · intro i hi
        cases i with
        | zero => simp [offset]
        | succ i =>
          have := h4 i (by simpa using hi)
          simp only [List.getElem_cons_succ, this, offset, List.take_succ_cons, List.map_cons, List.sum_cons,
            nextBeg]
          omega
  obtain ⟨ds, h1, h2, h3, h4⟩ := hplace es 0 (fun e he => (hc e he).1)
  have hmem : ∀ d ∈ ds, ∃ e ∈ es, d.blake3 = e.blake3 ∧ d.clen = e.clen ∧ d.ulen = e.ulen := by
    intro d hd
    have : (d.blake3, d.clen, d.ulen) ∈ es.map (fun e => (e.blake3, e.clen, e.ulen)) := by
      rw [← h1]; exact List.mem_map_of_mem hd
    obtain ⟨e, he, heq⟩ := List.mem_map.1 this
    simp only [Prod.mk.injEq] at heq
    exact ⟨e, he, heq.1.symm, heq.2.1.symm, heq.2.2.symm⟩
  have hwf : ∀ d ∈ ds, Wf d := by
    intro d hd
    obtain ⟨e, he, e1, e2, e3⟩ := hmem d hd
    have := hc e he
    exact ⟨e1 ▸ hh e he, ⟨by omega, by omega⟩, e3 ▸ hu e he⟩
  refine ⟨ds, ?_, h1, by simpa using h4⟩
  unfold loadIndex
  rw [← hfile, ← h3]
  have hlen : ds.length ≤ (ds.flatMap hdr).length := by
    clear h1 h2 h3 h4 hmem
    induction ds with
    | nil => simp
    | cons a ds ih =>
      have := hdr_length a (hwf a List.mem_cons_self).1
      have := ih (fun x hx => hwf x (List.mem_cons_of_mem _ hx))
      simp only [List.flatMap_cons, List.length_append, List.length_cons]
      omega
  have hb : ds.map (·.blake3) = es.map (·.blake3) := by
    have := congrArg (List.map Prod.fst) h1
    rw [List.map_map, List.map_map] at this
    exact this
  have := loadRecords_ok ds [] (ds.flatMap hdr).length 0 hlen hwf h2 (by simpa [hb] using hd)
  simpa using this

/-- A torn index file (not a whole number of records) cannot be opened. -/
theorem C46_torn_index_panics (file : Bytes) (h : file.length % 64 ≠ 0) : loadIndex file = none := by
  unfold loadIndex
  have : ∀ (fuel : Nat) (f : Bytes) (beg : Nat) (seen : List Entry), f.length % 64 ≠ 0 →
      loadRecords fuel beg seen f = none := by
    intro fuel
    induction fuel with
    | zero => intro f beg seen hf; cases f with
      | nil => simp at hf
      | cons => rfl
    | succ fuel ih =>
      intro f beg seen hf
      cases hfe : f with
      | nil => rw [hfe] at hf; simp at hf
      | cons x xs =>
        rw [← hfe]
        have hun : loadRecords (fuel + 1) beg seen f = match unmarshal f with
            | none => none
            | some (e0, rest) =>
              if seen.any (fun x => x.blake3 == e0.blake3) then none
              else loadRecords fuel (nextBeg beg { e0 with beg := beg }) (seen ++ [{ e0 with beg := beg }]) rest := by
          rw [hfe, loadRecords]
          rfl
          exact List.cons_ne_nil _ _
        rw [hun]
        cases hu : unmarshal f with
        | none => rfl
        | some p =>
          obtain ⟨e0, rest⟩ := p
          simp only
          split
          · rfl
          · apply ih
            unfold unmarshal at hu
            split at hu
            · next heq =>
              simp only [Option.some.injEq, Prod.mk.injEq] at hu
              have h1 := congrArg List.length heq
              simp only [List.length_drop, List.length_cons] at h1
              rw [← hu.2]; omega
            · simp at hu
  exact this _ _ _ _ h

example : ∃ b, marshal ⟨List.replicate 55 97, 0, 70, -1⟩ = some b ∧ b.drop 56 = [0, 0, 0, 70, 255, 255, 255, 255] :=
  ⟨_, rfl, by decide⟩

/-! ### C45 -/

/-- All blobs handed to append in a history. -/
def appended : List Op → List Bytes
  | [] => []
  | .append bs :: os => bs.map (·.1) ++ appended os
  | _ :: os => appended os

variable (H : Bytes → Bytes) (enc : Bytes → Bytes) (dec : Bytes → Option Bytes)

/-- What the theorems assume of a blob: its hash has 55 bytes, the codec restores it, and it
is small enough for the store's read buffer and 32-bit lengths. -/
def Storable (b : Bytes) : Prop :=
  b ≠ [] ∧ (H b).length = 55 ∧ dec (enc b) = some b ∧ enc b ≠ [] ∧ (enc b).length + 64 ≤ 1048576 ∧
  b.length < 2147483648

/-- A fresh store. -/
def fresh (maxMem : Nat) : Store := { maxMemBlob := maxMem }

theorem fresh_holds (m : Nat) : Holds H enc dec (fresh m) [] :=
  ⟨by simp, by simp, rfl, rfl, rfl, by simp [fresh, findData], by simp [fresh], by simp [fresh, findData],
    by simp [fresh]⟩

theorem run_holds (ops : List Op) (s s' : Store) (L : List Bytes) (h : Holds H enc dec s L)
    (hfit : ∀ b ∈ appended ops, Storable H enc dec b)
    (hcol : ∀ x ∈ L ++ appended ops, ∀ y ∈ L ++ appended ops, H x = H y → x = y)
    (hrun : run H enc dec s ops = some s') :
    ∃ L', Holds H enc dec s' L' ∧ ∀ x, x ∈ L' ↔ x ∈ L ∨ x ∈ appended ops := by
  induction ops generalizing s L with
  | nil =>
    simp only [run, Option.some.injEq] at hrun
    subst hrun
    exact ⟨L, h, by simp [appended]⟩
  | cons o ops ih =>
    simp only [run] at hrun
    split at hrun
    · simp at hrun
    · next s1 h1 =>
      cases o with
      | append bs =>
        obtain ⟨L1, h2, h3⟩ := h.appendAll H enc dec
          (fun p hp => hfit p.1 (by simp only [appended, List.mem_append]; exact .inl (List.mem_map_of_mem hp)))
          (by intro x hx y hy; apply hcol <;> simp only [appended, List.mem_append] at * <;> grind) h1
        obtain ⟨L2, h4, h5⟩ := ih s1 L1 h2
          (fun b hb => hfit b (by simp only [appended, List.mem_append]; exact .inr hb))
          (by intro x hx y hy; apply hcol <;> simp only [appended, List.mem_append, h3] at * <;> grind) hrun
        refine ⟨L2, h4, fun x => ?_⟩
        rw [h5, h3]; simp only [appended, List.mem_append]; grind
      | get k ev =>
        obtain ⟨r, s2, h2, h3, _⟩ := h.get_ok H enc dec k ev
        simp only [step, h2, Option.map_some, Option.some.injEq] at h1
        subst h1
        exact ih _ L h3 hfit hcol hrun
      | reopen m =>
        obtain ⟨s2, h2, h3, _⟩ := h.reopen_ok H enc dec m
        simp only [step, h2, Option.some.injEq] at h1
        subst h1
        exact ih _ L h3 hfit hcol hrun

/-- C45, partial: after every history of appends, lookups (with any cache evictions) and
reopenings in which no operation panicked, looking up any hash succeeds: it returns the
bytes appended under that hash, and not-found if there are none (missing: histories that
panic, see the counterexamples and the two theorems below; reopening with data
verification). -/
theorem C45_lookup_returns_appended_partial (maxMem : Nat) (ops : List Op) (s : Store)
    (hfit : ∀ b ∈ appended ops, Storable H enc dec b)
    (hcol : ∀ x ∈ appended ops, ∀ y ∈ appended ops, H x = H y → x = y)
    (hrun : run H enc dec (fresh maxMem) ops = some s) (k : Bytes) (ev : Nat) :
    ∃ r s', get dec s k ev = some (r, s') ∧
      (∀ b ∈ appended ops, H b = k → r = some b) ∧ ((∀ b ∈ appended ops, H b ≠ k) → r = none) := by
  obtain ⟨L, h1, h2⟩ := run_holds H enc dec ops _ s [] (fresh_holds H enc dec maxMem) hfit
    (by simpa using hcol) hrun
  obtain ⟨r, s', h3, _, h4, h5⟩ := h1.get_ok H enc dec k ev
  exact ⟨r, s', h3, fun b hb => h4 b ((h2 b).2 (.inr hb)),
    fun hn => h5 (fun b hb => hn b (by simpa using (h2 b).1 hb))⟩

/-- C45: a history that appends every blob once never panics, whatever the cache size,
evictions and reopenings. -/
theorem C45_distinct_appends_never_panic (maxMem : Nat) (ops : List Op)
    (hfit : ∀ b ∈ appended ops, Storable H enc dec b) (hnd : ((appended ops).map H).Nodup) :
    ∃ s, run H enc dec (fresh maxMem) ops = some s := by
  have key : ∀ (ops : List Op) (s : Store) (L : List Bytes), Holds H enc dec s L →
      (∀ b ∈ appended ops, Storable H enc dec b) → ((L ++ appended ops).map H).Nodup →
      ∃ s', run H enc dec s ops = some s' := by
    intro ops
    induction ops with
    | nil => intro s L _ _ _; exact ⟨s, rfl⟩
    | cons o ops ih =>
      intro s L h hf hn
      cases o with
      | append bs =>
        simp only [appended] at hf hn
        obtain ⟨s1, h1, h2⟩ := h.appendFresh H enc dec (bs := bs)
          (fun p hp => hf p.1 (List.mem_append.2 (.inl (List.mem_map_of_mem hp))))
          (by rw [← List.append_assoc, List.map_append] at hn; exact (List.nodup_append.1 hn).1)
        obtain ⟨s2, h3⟩ := ih s1 _ h2 (fun b hb => hf b (List.mem_append.2 (.inr hb))) (by simpa using hn)
        exact ⟨s2, by simp only [run, step, h1, h3]⟩
      | get k ev =>
        obtain ⟨r, s1, h1, h2, _⟩ := h.get_ok H enc dec k ev
        obtain ⟨s2, h3⟩ := ih s1 L h2 hf hn
        exact ⟨s2, by simp only [run, step, h1, Option.map_some, h3]⟩
      | reopen m =>
        obtain ⟨s1, h1, h2, _⟩ := h.reopen_ok H enc dec m
        obtain ⟨s2, h3⟩ := ih s1 L h2 hf hn
        exact ⟨s2, by simp only [run, step, h1, h3]⟩
  exact key ops _ [] (fresh_holds H enc dec maxMem) hfit (by simpa using hnd)

/-- C45: with a cache at least as large as the number of appends and no reopening, blobs may
be appended again and nothing panics. -/
theorem C45_reappend_with_large_cache (maxMem : Nat) (ops : List Op)
    (hfit : ∀ b ∈ appended ops, Storable H enc dec b)
    (hcol : ∀ x ∈ appended ops, ∀ y ∈ appended ops, H x = H y → x = y)
    (hroom : (appended ops).length ≤ maxMem) (hno : ∀ m, .reopen m ∉ ops) :
    ∃ s, run H enc dec (fresh maxMem) ops = some s := by
  have key : ∀ (ops : List Op) (s : Store) (L : List Bytes), Holds H enc dec s L → AllCached H s L →
      (∀ b ∈ appended ops, Storable H enc dec b) →
      (∀ x ∈ L ++ appended ops, ∀ y ∈ L ++ appended ops, H x = H y → x = y) →
      L.length + (appended ops).length ≤ s.maxMemBlob → (∀ m, .reopen m ∉ ops) →
      ∃ s', run H enc dec s ops = some s' := by
    intro ops
    induction ops with
    | nil => intro s L _ _ _ _ _ _; exact ⟨s, rfl⟩
    | cons o ops ih =>
      intro s L h hall hf hc hr hn
      have hn' : ∀ m, .reopen m ∉ ops := fun m hm => hn m (List.mem_cons_of_mem _ hm)
      cases o with
      | append bs =>
        simp only [appended, List.length_append, List.length_map] at hf hc hr
        obtain ⟨s1, L1, h1, h2, h3, h4, h5, h6⟩ := h.appendCached H enc dec (bs := bs)
          (fun p hp => hf p.1 (List.mem_append.2 (.inl (List.mem_map_of_mem hp)))) hall (by omega)
          (by intro x hx y hy; apply hc <;> simp only [List.mem_append] at * <;> grind)
        obtain ⟨s2, h7⟩ := ih s1 L1 h2 h3 (fun b hb => hf b (List.mem_append.2 (.inr hb)))
          (by intro x hx y hy; apply hc <;> simp only [List.mem_append, h6] at * <;> grind)
          (by rw [h4]; omega) hn'
        exact ⟨s2, by simp only [run, step, h1, h7]⟩
      | get k ev =>
        have h1 : ∃ r, get dec s k ev = some (r, s) := by
          unfold get
          cases hf : findEntry s.index k with
          | none => exact ⟨none, rfl⟩
          | some e =>
            rw [h.index] at hf
            obtain ⟨L1, b, L2, hL, hbk, he⟩ := findEntry_some H enc 0 L k e hf
            have := hall b (by rw [hL]; simp)
            rw [hbk] at this
            obtain ⟨v, hv⟩ := Option.isSome_iff_exists.1 this
            exact ⟨some v, by simp only [hv]⟩
        obtain ⟨r, h1⟩ := h1
        obtain ⟨s2, h3⟩ := ih s L h hall hf hc hr hn'
        exact ⟨s2, by simp only [run, step, h1, Option.map_some, h3]⟩
      | reopen m => exact absurd List.mem_cons_self (hn m)
  exact key ops _ [] (fresh_holds H enc dec maxMem) (by simp [AllCached]) hfit (by simpa using hcol)
    (by simpa [fresh] using hroom) hno

theorem split_unique (L1 M1 L2 M2 : List Bytes) (b : Bytes) (h1 : b ∉ L1) (h2 : b ∉ M1)
    (h : L1 ++ b :: L2 = M1 ++ b :: M2) : L1 = M1 := by
  induction L1 generalizing M1 with
  | nil =>
    cases M1 with
    | nil => rfl
    | cons x M1 => simp at h; simp [h.1] at h2
  | cons x L1 ih =>
    cases M1 with
    | nil => simp at h; simp [h.1] at h1
    | cons y M1 =>
      simp only [List.cons_append, List.cons.injEq] at h
      simp only [List.mem_cons, not_or] at h1 h2
      rw [h.1, ih M1 h1.2 h2.2 h.2]

theorem verifyLoop_ok (ev : Nat) (L L1 L2 : List Bytes) (fuel : Nat) (s : Store) (found : Nat)
    (hL : L = L1 ++ L2) (hfits : ∀ b ∈ L, Fits H enc dec b) (hnd : (L.map H).Nodup)
    (hidx : s.index = entriesFrom H enc 0 L)
    (hsub : ∀ k, (findData s.mapData k).isSome → k ∈ L1.map H)
    (hkn : s.memkeys.Nodup) (hkeys : ∀ k, k ∈ s.memkeys ↔ (findData s.mapData k).isSome)
    (hroom : s.memkeys.length ≤ s.maxMemBlob) (hfuel : L2.length < fuel) :
    ∃ s', verifyLoop ev fuel s ((L1.map (fun b => (enc b).length + 64)).sum) found
        (L2.flatMap (record H enc)) = some (s', found + L2.length) ∧ s'.index = s.index := by
  induction L2 generalizing L1 fuel s found with
  | nil =>
    cases fuel with
    | zero => simp at hfuel
    | succ fuel => exact ⟨s, by simp [verifyLoop], rfl⟩
  | cons b L2 ih =>
    cases fuel with
    | zero => simp at hfuel
    | succ fuel =>
      have hb : Fits H enc dec b := hfits b (by rw [hL]; simp)
      have hlen : 0 < (enc b).length := List.length_pos_iff.2 hb.2.2.2.1
      have h5 := hb.2.2.2.2.1
      have h6 := hb.2.2.2.2.2
      have hsplit : (b :: L2).flatMap (record H enc) =
          hdr ⟨H b, 0, (enc b).length + 64, b.length⟩ ++ (enc b ++ L2.flatMap (record H enc)) := by
        simp [List.flatMap_cons, record]
      have hun := unmarshal_marshal ⟨H b, 0, (enc b).length + 64, b.length⟩ (enc b ++ L2.flatMap (record H enc))
        hb.2.1 ⟨by simp only; omega, by simp only; omega⟩ ⟨by simp only; omega, by simp only; omega⟩
      have hun' : unmarshal ((b :: L2).flatMap (record H enc)) =
          some (⟨H b, 0, (enc b).length + 64, b.length⟩, enc b ++ L2.flatMap (record H enc)) := by
        rw [hsplit]; exact hun
      have hl64 : ((b :: L2).flatMap (record H enc)).length > 64 := by
        have hhl := hdr_length ⟨H b, 0, (enc b).length + 64, b.length⟩ hb.2.1
        rw [hsplit, List.length_append, List.length_append, hhl]; omega
      unfold verifyLoop
      rw [if_neg (by omega), hun']
      simp only
      generalize hoff : (L1.map (fun b => (enc b).length + 64)).sum = off
      have hsz : (((enc b).length : Int) + 64 - 64).toNat = (enc b).length := by omega
      rw [if_neg (by omega), hsz, if_neg (by simp)]
      have hfind : findEntry s.index (H b) = some ⟨H b, off, (enc b).length + 64, b.length⟩ := by
        rw [hidx]
        cases hf : findEntry (entriesFrom H enc 0 L) (H b) with
        | none => rw [findEntry_none] at hf; exact absurd rfl (hf b (by rw [hL]; simp))
        | some e =>
          obtain ⟨M1, b', M2, e1, e2, e3⟩ := findEntry_some H enc 0 L (H b) e hf
          have : b' = b := nodup_map_inj H L hnd b' (by rw [e1]; simp) b (by rw [hL]; simp) e2
          subst this
          -- the position is unique
          have hM : M1 = L1 := by
            have hnd' : L.Nodup := List.Pairwise.of_map H (fun a b h e => h (by rw [e])) hnd
            rw [hL] at e1 hnd'
            have h1 : b' ∉ L1 := fun h => (List.nodup_append.1 hnd').2.2 b' h b' (by simp) rfl
            rw [e1] at hnd'
            have h2 : b' ∉ M1 := fun h => (List.nodup_append.1 hnd').2.2 b' h b' (by simp) rfl
            exact split_unique L1 M1 L2 M2 b' h1 h2 e1 ▸ rfl
          rw [e3, hM, ← hoff]; simp
      rw [hfind]
      simp only [ne_eq, not_true_eq_false, if_false]
      have habs : findData s.mapData (H b) = none := by
        cases hd : findData s.mapData (H b) with
        | none => rfl
        | some v =>
          have := hsub (H b) (by simp [hd])
          rw [hL, List.map_append, List.nodup_append] at hnd
          exact absurd rfl (hnd.2.2 _ this (H b) (by simp))
      obtain ⟨s', h1, _, _, h4, _, h6', h7, h8, h9, _⟩ :=
        addToMapData_ok s (H b) ((enc b ++ L2.flatMap (record H enc)).take (enc b).length) ev habs hkn hkeys hroom
      rw [h1]
      simp only
      have hnext : nextBeg off ⟨H b, off, (enc b).length + 64, b.length⟩ =
          ((L1 ++ [b]).map (fun b => (enc b).length + 64)).sum := by
        simp [nextBeg, hoff]; omega
      rw [hnext, List.drop_left' rfl]
      obtain ⟨s'', h10, h11⟩ := ih (L1 ++ [b]) fuel s' (found + 1) (by rw [hL]; simp) (by rw [h4, hidx])
        (by
          intro k hk
          obtain ⟨v, hv⟩ := Option.isSome_iff_exists.1 hk
          rcases h6' k v hv with h | ⟨rfl, _⟩
          · have := hsub k (by simp [h]); simp at this ⊢; exact .inl this
          · simp)
        h7 h8 h9 (by simpa using hfuel)
      exact ⟨s'', by rw [h10]; simp; omega, by rw [h11, h4]⟩

/-- C45: reopening with data verification accepts every store whose history did not panic,
and finds the same index. -/
theorem C45_verification_accepts (maxMem m ev : Nat) (ops : List Op) (s : Store)
    (hfit : ∀ b ∈ appended ops, Storable H enc dec b)
    (hcol : ∀ x ∈ appended ops, ∀ y ∈ appended ops, H x = H y → x = y)
    (hrun : run H enc dec (fresh maxMem) ops = some s) :
    ∃ s', reopenVerify s m ev = some s' ∧ s'.index = s.index := by
  obtain ⟨L, h, _⟩ := run_holds H enc dec ops _ s [] (fresh_holds H enc dec maxMem) hfit
    (by simpa using hcol) hrun
  obtain ⟨s1, h1, h2, h3, h4, h5, h6, h7⟩ := h.reopen_ok H enc dec m
  unfold reopenVerify
  rw [h1]
  simp only
  have hilen : ∀ (L : List Bytes) (beg : Nat), (∀ b ∈ L, (H b).length = 55) →
      ((entriesFrom H enc beg L).flatMap hdr).length = 64 * L.length := by
    intro L
    induction L with
    | nil => intros; rfl
    | cons b L ih =>
      intro beg hL
      simp only [entriesFrom, List.flatMap_cons, List.length_append, List.length_cons]
      rw [ih _ (fun x hx => hL x (List.mem_cons_of_mem _ hx)), hdr_length _ (hL b List.mem_cons_self)]
      omega
  have hil : s1.indexFile.length = 64 * L.length := by
    rw [h2.indexFile]; exact hilen L 0 (fun b hb => (h2.fits b hb).2.1)
  have hidx : s1.index = s.index := by rw [h2.index, h.index]
  have hdl : 64 * L.length ≤ s1.data.length := by
    rw [h2.data, data_length H enc L (fun b hb => (h2.fits b hb).2.1)]
    have : ∀ L : List Bytes, 64 * L.length ≤ (L.map (fun b => (enc b).length + 64)).sum := by
      intro L
      induction L with
      | nil => simp
      | cons b L ih => simp only [List.map_cons, List.sum_cons, List.length_cons]; omega
    exact this L
  by_cases hd : s1.data = []
  · rw [if_pos hd, if_pos (by rw [hil]; rw [hd] at hdl; simp at hdl; omega)]
    exact ⟨s1, rfl, hidx⟩
  · rw [if_neg hd]
    have hLne : L ≠ [] := by rintro rfl; exact hd h2.data
    have : 0 < L.length := List.length_pos_iff.2 hLne
    rw [if_neg (by omega)]
    obtain ⟨s2, h8, h9⟩ := verifyLoop_ok H enc dec ev L [] L (s1.data.length + 1) s1 0 (by simp) h2.fits h2.nodup
      h2.index (by simp [h3, findData]) h2.keysNodup h2.keys h2.room (by omega)
    rw [← h2.data] at h8
    simp only [List.map_nil, List.sum_nil] at h8
    rw [h8]
    simp only
    rw [if_pos (by rw [hil]; omega)]
    exact ⟨s2, rfl, by rw [h9, hidx]⟩

/-! A toy hash and codec that meet the hypotheses. -/

/-- Pads to 55 bytes: injective on blobs shorter than 55 without trailing zeros. -/
def toyHash (b : Bytes) : Bytes := (b ++ List.replicate 55 0).take 55
/-- Stores blobs behind a marker byte. -/
def toyEnc (b : Bytes) : Bytes := 0 :: b
def toyDec : Bytes → Option Bytes
  | 0 :: b => some b
  | _ => none

example : let ops := [Op.append [([1], 0), ([2], 5)], .get (toyHash [1]) 3, .reopen 1, .append [([3, 4], 1)],
      .get (toyHash [2]) 7]
    (∀ b ∈ appended ops, Storable toyHash toyEnc toyDec b) ∧ ((appended ops).map toyHash).Nodup ∧
    ∃ s, run toyHash toyEnc toyDec (fresh 1) ops = some s := by
  refine ⟨?_, by decide, Option.isSome_iff_exists.1 (by decide +kernel)⟩
  intro b hb
  simp only [appended, List.map_cons, List.map_nil, List.cons_append, List.nil_append, List.mem_cons,
    List.not_mem_nil, or_false] at hb
  rcases hb with rfl | rfl | rfl <;> refine ⟨by simp, by decide, by decide, by decide, by decide, by decide⟩

/-- Appending again a blob stored before the last reopening panics. -/
theorem C45_reappend_after_reopen_counterexample :
    run toyHash toyEnc toyDec (fresh 10) [.append [([1], 0)], .reopen 10, .append [([1], 0)]] = none := by
  decide +kernel

/-- Appending again a blob that the cache has evicted panics. -/
theorem C45_reappend_after_eviction_counterexample :
    run toyHash toyEnc toyDec (fresh 1) [.append [([1], 0), ([2], 0)], .append [([1], 0)]] = none := by
  decide +kernel

/-- After reopening with data verification, lookups return the compressed bytes. -/
theorem C45_verified_reopen_returns_compressed_counterexample :
    (((run toyHash toyEnc toyDec (fresh 10) [.append [([1], 0)]]).bind
      (fun s => reopenVerify s 10 0)).bind (fun s => get toyDec s (toyHash [1]) 0)).map (·.1) =
      some (some [0, 1]) := by
  decide +kernel

end Verif.CAS
