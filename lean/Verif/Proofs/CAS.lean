import Verif.Model.CAS
import Mathlib.Data.List.Perm.Subperm
/-
Lemmas about the content store: records round trip, what the files contain.
-/
namespace Verif.CAS

/-- int32 range. -/
def IsInt32 (i : Int) : Prop := -2147483648 ≤ i ∧ i < 2147483648

theorem toNat_ofNat_mod (n : Nat) : (UInt8.ofNat (n % 256)).toNat = n % 256 := by
  simp

theorem int32_roundtrip (i : Int) (h : IsInt32 i) : ∃ b0 b1 b2 b3, fromInt32 i = [b0, b1, b2, b3] ∧
    toInt32 b0 b1 b2 b3 = i := by
  refine ⟨_, _, _, _, rfl, ?_⟩
  unfold toInt32
  simp only [toNat_ofNat_mod]
  have h1 := h.1
  have h2 := h.2
  split <;> omega

theorem fromInt32_length (i : Int) : (fromInt32 i).length = 4 := rfl

theorem marshal_some (e : Entry) (h : e.blake3.length = 55) :
    marshal e = some (10 :: e.blake3 ++ fromInt32 e.clen ++ fromInt32 e.ulen) := by
  unfold marshal
  rw [if_neg (by omega), List.take_of_length_le (by omega)]

theorem unmarshal_marshal (e : Entry) (rest : Bytes) (h : e.blake3.length = 55)
    (hc : IsInt32 e.clen) (hu : IsInt32 e.ulen) :
    unmarshal (10 :: e.blake3 ++ fromInt32 e.clen ++ fromInt32 e.ulen ++ rest) =
      some ({ e with beg := 0 }, rest) := by
  obtain ⟨c0, c1, c2, c3, e1, e2⟩ := int32_roundtrip e.clen hc
  obtain ⟨u0, u1, u2, u3, e3, e4⟩ := int32_roundtrip e.ulen hu
  unfold unmarshal
  have hd : (10 :: e.blake3 ++ fromInt32 e.clen ++ fromInt32 e.ulen ++ rest).drop 56 =
      c0 :: c1 :: c2 :: c3 :: u0 :: u1 :: u2 :: u3 :: rest := by
    rw [e1, e3]
    rw [List.append_assoc, List.append_assoc, List.drop_left' (by simp [h])]
    rfl
  have ht : ((10 :: e.blake3 ++ fromInt32 e.clen ++ fromInt32 e.ulen ++ rest).take 56).drop 1 = e.blake3 := by
    rw [List.append_assoc, List.append_assoc, List.take_left' (by simp [h])]
    rfl
  rw [hd]
  simp only [ht, e2, e4]

/-- Encoded header of an entry with a 55 byte hash. -/
def hdr (e : Entry) : Bytes := 10 :: e.blake3 ++ fromInt32 e.clen ++ fromInt32 e.ulen

theorem hdr_length (e : Entry) (h : e.blake3.length = 55) : (hdr e).length = 64 := by
  simp [hdr, h, fromInt32_length]

/-- The records' begin offsets are consecutive. -/
def Chained : Nat → List Entry → Prop
  | _, [] => True
  | beg, e :: es => e.beg = beg ∧ Chained (nextBeg beg e) es

/-- Entries as they can be on disk. -/
def Wf (e : Entry) : Prop := e.blake3.length = 55 ∧ IsInt32 e.clen ∧ IsInt32 e.ulen

theorem loadRecords_ok (es seen : List Entry) (fuel beg : Nat) (hf : es.length ≤ fuel)
    (hw : ∀ e ∈ es, Wf e) (hch : Chained beg es)
    (hnd : ((seen ++ es).map (·.blake3)).Nodup) :
    loadRecords fuel beg seen (es.flatMap hdr) = some (seen ++ es) := by
  induction es generalizing seen fuel beg with
  | nil => cases fuel <;> simp [loadRecords]
  | cons e es ih =>
    have hwe := hw e List.mem_cons_self
    cases fuel with
    | zero => simp at hf
    | succ fuel =>
      have hne : (e :: es).flatMap hdr = 10 :: (e.blake3 ++ fromInt32 e.clen ++ fromInt32 e.ulen ++ es.flatMap hdr) := by
        simp [List.flatMap_cons, hdr]
      have hun := unmarshal_marshal e (es.flatMap hdr) hwe.1 hwe.2.1 hwe.2.2
      rw [hne]
      unfold loadRecords
      simp only [List.cons_append] at hun
      rw [hun]
      simp only
      have he : ({ e with beg := beg } : Entry) = e := by
        have := hch.1; cases e; simp_all
      rw [he]
      have hfresh : seen.any (fun x => x.blake3 == e.blake3) = false := by
        rw [List.any_eq_false]
        intro x hx hxe
        rw [List.map_append, List.nodup_append] at hnd
        exact hnd.2.2 x.blake3 (List.mem_map_of_mem hx) e.blake3 (by simp) (by simpa using hxe)
      rw [if_neg (by simp [hfresh])]
      rw [ih (seen ++ [e]) fuel (nextBeg beg e) (by simpa using hf)
        (fun x hx => hw x (List.mem_cons_of_mem _ hx)) hch.2 (by simpa using hnd)]
      simp

/-! ### Consistent stores -/

section
variable (H : Bytes → Bytes) (enc : Bytes → Bytes) (dec : Bytes → Option Bytes)

/-- The entries of a list of stored blobs, offsets running from `beg`. -/
def entriesFrom : Nat → List Bytes → List Entry
  | _, [] => []
  | beg, b :: bs =>
    ⟨H b, beg, (enc b).length + 64, b.length⟩ :: entriesFrom (beg + (enc b).length + 64) bs

/-- A blob's bytes in the data file. -/
def record (b : Bytes) : Bytes := hdr ⟨H b, 0, (enc b).length + 64, b.length⟩ ++ enc b

/-- What each stored blob must satisfy. -/
def Fits (b : Bytes) : Prop :=
  b ≠ [] ∧ (H b).length = 55 ∧ dec (enc b) = some b ∧ enc b ≠ [] ∧ (enc b).length + 64 ≤ 1048576 ∧
  b.length < 2147483648

/-- The store holds exactly the blobs `L`, in that order. -/
structure Holds (s : Store) (L : List Bytes) : Prop where
  fits : ∀ b ∈ L, Fits H enc dec b
  nodup : (L.map H).Nodup
  index : s.index = entriesFrom H enc 0 L
  indexFile : s.indexFile = (entriesFrom H enc 0 L).flatMap hdr
  data : s.data = L.flatMap (record H enc)
  cached : ∀ k v, findData s.mapData k = some v → v ∈ L ∧ H v = k
  keysNodup : s.memkeys.Nodup
  keys : ∀ k, k ∈ s.memkeys ↔ (findData s.mapData k).isSome
  room : s.memkeys.length ≤ s.maxMemBlob

theorem entriesFrom_append (beg : Nat) (L M : List Bytes) :
    entriesFrom H enc beg (L ++ M) = entriesFrom H enc beg L ++
      entriesFrom H enc (beg + (L.map (fun b => (enc b).length + 64)).sum) M := by
  induction L generalizing beg with
  | nil => simp [entriesFrom]
  | cons b L ih =>
    simp only [List.cons_append, entriesFrom, ih, List.map_cons, List.sum_cons]
    congr 3
    omega

theorem record_length (b : Bytes) (h : (H b).length = 55) : (record H enc b).length = (enc b).length + 64 := by
  simp only [record, List.length_append]
  rw [hdr_length _ h]; omega

theorem data_length (L : List Bytes) (h : ∀ b ∈ L, (H b).length = 55) :
    (L.flatMap (record H enc)).length = (L.map (fun b => (enc b).length + 64)).sum := by
  induction L with
  | nil => rfl
  | cons b L ih =>
    simp only [List.flatMap_cons, List.length_append, List.map_cons, List.sum_cons]
    rw [record_length H enc b (h b List.mem_cons_self), ih (fun x hx => h x (List.mem_cons_of_mem _ hx))]

theorem entriesFrom_chained (beg : Nat) (L : List Bytes) : Chained beg (entriesFrom H enc beg L) := by
  induction L generalizing beg with
  | nil => trivial
  | cons b L ih =>
    refine ⟨rfl, ?_⟩
    have : nextBeg beg ⟨H b, beg, (enc b).length + 64, b.length⟩ = beg + (enc b).length + 64 := by
      unfold nextBeg; simp only; omega
    rw [this]; exact ih _

theorem entriesFrom_blake3 (beg : Nat) (L : List Bytes) :
    (entriesFrom H enc beg L).map (·.blake3) = L.map H := by
  induction L generalizing beg with
  | nil => rfl
  | cons b L ih => simp [entriesFrom, ih]

theorem entriesFrom_wf (beg : Nat) (L : List Bytes) (h : ∀ b ∈ L, Fits H enc dec b) :
    ∀ e ∈ entriesFrom H enc beg L, Wf e := by
  induction L generalizing beg with
  | nil => simp [entriesFrom]
  | cons b L ih =>
    intro e he
    rcases List.mem_cons.1 he with rfl | he
    · have := h b List.mem_cons_self
      have h5 := this.2.2.2.2.1
      have h6 := this.2.2.2.2.2
      exact ⟨this.2.1, ⟨by simp only; omega, by simp only; omega⟩, ⟨by simp only; omega, by simp only; omega⟩⟩
    · exact ih _ (fun x hx => h x (List.mem_cons_of_mem _ hx)) e he

theorem findEntry_none (beg : Nat) (L : List Bytes) (k : Bytes) :
    findEntry (entriesFrom H enc beg L) k = none ↔ ∀ b ∈ L, H b ≠ k := by
  induction L generalizing beg with
  | nil => simp [entriesFrom, findEntry]
  | cons b L ih =>
    have := ih (beg + (enc b).length + 64)
    unfold findEntry at *
    simp only [entriesFrom, List.find?_cons, List.mem_cons, forall_eq_or_imp]
    by_cases hb : H b = k
    · simp [hb]
    · simp only [show (H b == k) = false from by simpa using hb, this]
      simp [hb]

theorem findEntry_some (beg : Nat) (L : List Bytes) (k : Bytes) (e : Entry)
    (h : findEntry (entriesFrom H enc beg L) k = some e) :
    ∃ L1 b L2, L = L1 ++ b :: L2 ∧ H b = k ∧
      e = ⟨k, beg + (L1.map (fun b => (enc b).length + 64)).sum, (enc b).length + 64, b.length⟩ := by
  induction L generalizing beg with
  | nil => simp [entriesFrom, findEntry] at h
  | cons b L ih =>
    unfold findEntry at h
    simp only [entriesFrom, List.find?_cons] at h
    by_cases hb : H b = k
    · simp only [hb, beq_self_eq_true, Option.some.injEq] at h
      exact ⟨[], b, L, rfl, hb, by rw [← h]; simp⟩
    · simp only [show (H b == k) = false from by simpa using hb] at h
      obtain ⟨L1, b', L2, h1, h2, h3⟩ := ih _ h
      refine ⟨b :: L1, b', L2, by rw [h1]; rfl, h2, ?_⟩
      rw [h3]
      simp only [List.map_cons, List.sum_cons]
      congr 1
      omega

theorem findData_filter (m : List (Bytes × Bytes)) (victim k : Bytes) :
    findData (m.filter (fun p => p.1 != victim)) k = if k = victim then none else findData m k := by
  induction m with
  | nil => simp [findData]
  | cons p m ih =>
    unfold findData at *
    by_cases hp : p.1 = victim
    · simp only [List.filter_cons, hp, bne_self_eq_false, Bool.false_eq_true, if_false, ih, List.find?_cons]
      by_cases hk : k = victim
      · simp [hk]
      · simp [hk, show (victim == k) = false from by simp; exact fun e => hk e.symm]
    · have : (p.1 != victim) = true := by simpa using hp
      simp only [List.filter_cons, this, if_true, List.find?_cons]
      by_cases hk : p.1 = k
      · have : k ≠ victim := fun e => hp (hk.trans e)
        simp [hk, this]
      · simp only [show (p.1 == k) = false from by simpa using hk, ih]

theorem findData_cons (m : List (Bytes × Bytes)) (k v k' : Bytes) :
    findData ((k, v) :: m) k' = if k' = k then some v else findData m k' := by
  unfold findData
  by_cases h : k' = k
  · simp [h]
  · simp [h, show (k == k') = false from by simp; exact fun e => h e.symm]

/-- Adding an absent key to the cache succeeds and keeps it consistent. -/
theorem addToMapData_ok (s : Store) (k v : Bytes) (ev : Nat) (habs : findData s.mapData k = none)
    (hnd : s.memkeys.Nodup) (hkeys : ∀ k, k ∈ s.memkeys ↔ (findData s.mapData k).isSome)
    (hroom : s.memkeys.length ≤ s.maxMemBlob) :
    ∃ s', addToMapData s k v ev = some s' ∧ s'.data = s.data ∧ s'.indexFile = s.indexFile ∧
      s'.index = s.index ∧ s'.maxMemBlob = s.maxMemBlob ∧
      (∀ k' v', findData s'.mapData k' = some v' → findData s.mapData k' = some v' ∨ (k' = k ∧ v' = v)) ∧
      s'.memkeys.Nodup ∧ (∀ k, k ∈ s'.memkeys ↔ (findData s'.mapData k).isSome) ∧
      s'.memkeys.length ≤ s'.maxMemBlob ∧
      (s.memkeys.length < s.maxMemBlob → ∀ k', (findData s'.mapData k').isSome ↔
        (findData s.mapData k').isSome ∨ k' = k) := by
  have hk : k ∉ s.memkeys := by rw [hkeys k]; simp [habs]
  unfold addToMapData
  by_cases h0 : s.maxMemBlob = 0
  · rw [if_pos h0]
    exact ⟨s, rfl, rfl, rfl, rfl, rfl, fun k' v' h => .inl h, hnd, hkeys, hroom, by omega⟩
  rw [if_neg h0]
  simp only [habs, Option.isSome_none, Bool.false_eq_true, if_false]
  by_cases hfull : s.memkeys.length = s.maxMemBlob
  · rw [if_pos hfull]
    have hi : ev % s.memkeys.length < s.memkeys.length := Nat.mod_lt _ (by omega)
    rw [List.getElem?_eq_getElem hi]
    simp only
    generalize hidx : ev % s.memkeys.length = i at *
    have hv : s.memkeys[i] ∈ s.memkeys := List.getElem_mem _
    have hvk : s.memkeys[i] ≠ k := fun e => hk (e ▸ hv)
    have hvm := (hkeys _).1 hv
    rw [if_neg (by rw [findData_cons, if_neg hvk]; simp; exact Option.isSome_iff_ne_none.1 hvm)]
    refine ⟨_, rfl, rfl, rfl, rfl, rfl, ?_, ?_, ?_, ?_, by omega⟩
    · intro k' v' h
      simp only [findData_filter, findData_cons] at h
      split at h
      · simp at h
      · split at h
        · next e => exact .inr ⟨e, by simpa using h.symm⟩
        · exact .inl h
    · simp only
      rw [List.nodup_iff_pairwise_ne] at *
      rw [List.pairwise_iff_getElem] at *
      intro a b ha hb hab
      simp only [List.length_set] at ha hb
      rw [List.getElem_set, List.getElem_set]
      split
      · split
        · omega
        · exact fun e => hk (e ▸ List.getElem_mem _)
      · split
        · exact fun e => hk (e ▸ List.getElem_mem _)
        · exact hnd a b ha hb hab
    · intro k'
      simp only [findData_filter, findData_cons]
      have hinj : ∀ j (hj : j < s.memkeys.length), s.memkeys[j] = s.memkeys[i] → j = i := by
        intro j hj e
        rw [List.nodup_iff_pairwise_ne, List.pairwise_iff_getElem] at hnd
        rcases Nat.lt_trichotomy j i with h | h | h
        · exact absurd e (hnd j i hj hi h)
        · exact h
        · exact absurd e.symm (hnd i j hi hj h)
      constructor
      · intro hm
        obtain ⟨j, hj, e⟩ := List.getElem_of_mem hm
        simp only [List.length_set] at hj
        rw [List.getElem_set] at e
        split at e
        · subst e; rw [if_neg (fun e => hvk e.symm), if_pos rfl]; rfl
        · next hne =>
          have h1 : k' ∈ s.memkeys := e ▸ List.getElem_mem _
          have h2 : k' ≠ s.memkeys[i] := by
            intro e2; exact hne (hinj j hj (by rw [e, e2])).symm
          have h3 : k' ≠ k := fun e2 => hk (e2 ▸ h1)
          rw [if_neg h2, if_neg h3]; exact (hkeys k').1 h1
      · intro h
        split at h
        · simp at h
        · next hne =>
          split at h
          · next e => subst e; exact List.mem_iff_getElem.2 ⟨i, by simpa using hi, by simp⟩
          · have h1 := (hkeys k').2 h
            obtain ⟨j, hj, e⟩ := List.getElem_of_mem h1
            have : i ≠ j := by rintro rfl; exact hne e.symm
            exact List.mem_iff_getElem.2 ⟨j, by simpa using hj, by rw [List.getElem_set, if_neg this, e]⟩
    · simp [hfull]
  · rw [if_neg hfull]
    refine ⟨_, rfl, rfl, rfl, rfl, rfl, ?_, ?_, ?_, ?_, ?_⟩
    · intro k' v' h
      simp only [findData_cons] at h
      split at h
      · next e => exact .inr ⟨e, by simpa using h.symm⟩
      · exact .inl h
    · simp only
      rw [List.nodup_append]
      exact ⟨hnd, by simp, by intro a ha b hb; simp at hb; subst hb; exact fun e => hk (e ▸ ha)⟩
    · intro k'
      simp only [findData_cons, List.mem_append, List.mem_singleton]
      by_cases e : k' = k
      · simp [e]
      · simp only [e, or_false, if_false]; exact hkeys k'
    · simp only [List.length_append, List.length_singleton]; omega
    · intro _ k'
      simp only [findData_cons]
      by_cases e : k' = k <;> simp [e]

/-- Reading a stored blob back from the data file. -/
theorem read_back (L1 L2 : List Bytes) (b : Bytes) (h : ∀ x ∈ L1 ++ b :: L2, (H x).length = 55) :
    let d := (L1 ++ b :: L2).flatMap (record H enc)
    let beg := (L1.map (fun b => (enc b).length + 64)).sum
    ((d.drop beg).take ((enc b).length + 64)).length = (enc b).length + 64 ∧
    ((d.drop beg).take ((enc b).length + 64)).drop 64 = enc b := by
  simp only
  rw [List.flatMap_append, List.flatMap_cons,
    List.drop_left' (data_length H enc L1 (fun x hx => h x (by simp [hx])))]
  have hb := h b (by simp)
  rw [List.take_left' (record_length H enc b hb)]
  refine ⟨record_length H enc b hb, ?_⟩
  rw [record, List.drop_left' (hdr_length _ hb)]

theorem nodup_map_inj (f : Bytes → Bytes) (L : List Bytes) (h : (L.map f).Nodup) :
    ∀ b ∈ L, ∀ b' ∈ L, f b = f b' → b = b' := by
  induction L with
  | nil => simp
  | cons x L ih =>
    simp only [List.map_cons, List.nodup_cons, List.mem_map, not_exists, not_and] at h
    intro b hb b' hb' e
    rcases List.mem_cons.1 hb with h1 | h1 <;> rcases List.mem_cons.1 hb' with h2 | h2
    · rw [h1, h2]
    · exact absurd (h1 ▸ e.symm) (h.1 b' h2)
    · exact absurd (h2 ▸ e) (h.1 b h1)
    · exact ih h.2 b h1 b' h2 e

theorem Holds.get_ok {s : Store} {L : List Bytes} (h : Holds H enc dec s L) (k : Bytes) (ev : Nat) :
    ∃ r s', get dec s k ev = some (r, s') ∧ Holds H enc dec s' L ∧
      (∀ b ∈ L, H b = k → r = some b) ∧ ((∀ b ∈ L, H b ≠ k) → r = none) := by
  have huniq : ∀ b ∈ L, ∀ b' ∈ L, H b = H b' → b = b' := by
    exact nodup_map_inj H L h.nodup
  unfold get
  rw [h.index]
  cases hf : findEntry (entriesFrom H enc 0 L) k with
  | none =>
    rw [findEntry_none] at hf
    exact ⟨none, s, rfl, h, fun b hb e => absurd e (hf b hb), fun _ => rfl⟩
  | some e =>
    obtain ⟨L1, b, L2, hL, hbk, he⟩ := findEntry_some H enc 0 L k e hf
    have hbL : b ∈ L := by rw [hL]; simp
    cases hm : findData s.mapData k with
    | some v =>
      have := h.cached k v hm
      have hv : v = b := huniq v this.1 b hbL (by rw [this.2, hbk])
      exact ⟨some v, s, rfl, h, fun b' hb' e' => by rw [huniq b' hb' v this.1 (by rw [e', this.2])],
        fun hn => absurd hbk (hn b hbL)⟩
    | none =>
      have hfit := h.fits b hbL
      have hlen : 0 < (enc b).length := List.length_pos_iff.2 hfit.2.2.2.1
      have hclen : e.clen = (((enc b).length + 64 : Nat) : Int) := by rw [he]; simp
      have hrb := read_back H enc L1 L2 b (fun x hx => (h.fits x (hL ▸ hx)).2.1)
      simp only at hrb
      have hbeg : e.beg = (L1.map (fun b => (enc b).length + 64)).sum := by rw [he]; simp
      have h5 := hfit.2.2.2.2.1
      have hcn : e.clen.toNat = (enc b).length + 64 := by rw [hclen]; rfl
      simp only
      rw [if_neg (by omega), if_neg (by omega), hcn, hbeg, h.data, hL, if_neg (by omega), hrb.2, hfit.2.2.1]
      simp only
      rw [if_neg (by rw [he]; simp)]
      have hek : e.blake3 = k := by rw [he]
      rw [hek]
      obtain ⟨s', hs', h1, h2, h3, h4, h5, h6, h7, h8, _⟩ :=
        addToMapData_ok s k b ev hm h.keysNodup h.keys h.room
      rw [hs']
      refine ⟨some b, s', rfl, ?_, fun b' hb' e' => by rw [huniq b' (hL ▸ hb') b hbL (by rw [e', hbk])],
        fun hn => absurd hbk (hn b (by simp))⟩
      rw [← hL]
      exact ⟨h.fits, h.nodup, by rw [h3, h.index], by rw [h2, h.indexFile], by rw [h1, h.data],
        fun k' v' hv => by
          rcases h5 k' v' hv with h | ⟨rfl, rfl⟩
          · exact ‹Holds H enc dec s L›.cached k' v' h
          · exact ⟨hbL, hbk⟩,
        h6, h7, h8⟩

theorem Holds.append_new {s : Store} {L : List Bytes} (h : Holds H enc dec s L) (b : Bytes) (ev : Nat)
    (hfit : Fits H enc dec b) (hnew : ∀ x ∈ L, H x ≠ H b) :
    ∃ s', appendOne H enc s b ev = some s' ∧ Holds H enc dec s' (L ++ [b]) ∧
      s'.maxMemBlob = s.maxMemBlob ∧
      (s.memkeys.length < s.maxMemBlob → ∀ k', (findData s'.mapData k').isSome ↔
        (findData s.mapData k').isSome ∨ k' = H b) := by
  have hidx : findEntry s.index (H b) = none := by rw [h.index, findEntry_none]; exact hnew
  have hdat : findData s.mapData (H b) = none := by
    cases hd : findData s.mapData (H b) with
    | none => rfl
    | some v => exact absurd (h.cached _ v hd).2 (hnew v (h.cached _ v hd).1)
  obtain ⟨s1, hs1, h1, h2, h3, h4, h5, h6, h7, h8, h9⟩ :=
    addToMapData_ok s (H b) b ev hdat h.keysNodup h.keys h.room
  unfold appendOne
  rw [if_neg hfit.1]
  simp only [hidx, hdat, hs1, Option.isSome_none, ne_eq, not_true_eq_false, if_false, Bool.false_eq_true]
  rw [if_neg (by have := hfit.2.1; omega), marshal_some _ hfit.2.1]
  refine ⟨_, rfl, ?_, h4, h9⟩
  have hoff : s.data.length = (L.map (fun b => (enc b).length + 64)).sum := by
    rw [h.data]; exact data_length H enc L (fun x hx => (h.fits x hx).2.1)
  have hent : entriesFrom H enc 0 (L ++ [b]) = entriesFrom H enc 0 L ++
      [⟨H b, s.data.length, (enc b).length + 64, b.length⟩] := by
    rw [entriesFrom_append, hoff]; simp [entriesFrom]
  refine ⟨?_, ?_, ?_, ?_, ?_, ?_, h6, h7, h8⟩
  · intro x hx
    rcases List.mem_append.1 hx with hx | hx
    · exact h.fits x hx
    · simp at hx; subst hx; exact hfit
  · rw [List.map_append, List.nodup_append]
    refine ⟨h.nodup, by simp, ?_⟩
    intro a ha c hc
    simp at hc; subst hc
    obtain ⟨x, hx, rfl⟩ := List.mem_map.1 ha
    exact hnew x hx
  · simp only [h3, h.index, hent]
  · simp only [h2, h.indexFile, hent, List.flatMap_append, List.flatMap_cons, List.flatMap_nil,
      List.append_nil]
    rfl
  · simp only [h1, h.data, List.flatMap_append, List.flatMap_cons, List.flatMap_nil, List.append_nil,
      List.append_assoc]
    congr 1
    unfold record hdr
    simp
  · intro k v hv
    rcases h5 k v hv with hv | ⟨rfl, rfl⟩
    · exact ⟨by simp [(h.cached k v hv).1], (h.cached k v hv).2⟩
    · exact ⟨by simp, rfl⟩

theorem Holds.reopen_ok {s : Store} {L : List Bytes} (h : Holds H enc dec s L) (m : Nat) :
    ∃ s', reopen s m = some s' ∧ Holds H enc dec s' L ∧ s'.mapData = [] ∧ s'.data = s.data ∧
      s'.indexFile = s.indexFile ∧ s'.maxMemBlob = m ∧ s'.memkeys = [] := by
  have hw := entriesFrom_wf H enc dec 0 L h.fits
  have hl : loadIndex s.indexFile = some (entriesFrom H enc 0 L) := by
    unfold loadIndex
    rw [h.indexFile]
    have := loadRecords_ok (entriesFrom H enc 0 L) [] ((entriesFrom H enc 0 L).flatMap hdr).length 0
      (by
        generalize entriesFrom H enc 0 L = es at hw
        induction es with
        | nil => simp
        | cons e es ih =>
          simp only [List.flatMap_cons, List.length_append, List.length_cons]
          have := hdr_length e (hw e List.mem_cons_self).1
          have := ih (fun x hx => hw x (List.mem_cons_of_mem _ hx))
          omega)
      hw (entriesFrom_chained H enc 0 L) (by simpa [entriesFrom_blake3] using h.nodup)
    simpa using this
  unfold reopen
  rw [hl]
  refine ⟨_, rfl, ?_, rfl, rfl, rfl, rfl, rfl⟩
  exact ⟨h.fits, h.nodup, rfl, h.indexFile, h.data, by simp [findData], by simp, by simp [findData], by simp⟩

/-- Appending one blob, new or not, without panic. -/
theorem Holds.append_any {s s' : Store} {L : List Bytes} (h : Holds H enc dec s L) (b : Bytes) (ev : Nat)
    (hfit : Fits H enc dec b) (hcol : ∀ x ∈ L, H x = H b → x = b)
    (hs : appendOne H enc s b ev = some s') :
    (b ∉ L ∧ Holds H enc dec s' (L ++ [b])) ∨ (b ∈ L ∧ s' = s) := by
  by_cases hb : b ∈ L
  · right
    refine ⟨hb, ?_⟩
    unfold appendOne at hs
    rw [if_neg hfit.1] at hs
    have hidx : (findEntry s.index (H b)).isSome = true := by
      cases hf : findEntry s.index (H b) with
      | some e => rfl
      | none => rw [h.index, findEntry_none] at hf; exact absurd rfl (hf b hb)
    simp only [hidx] at hs
    split at hs
    · simp at hs
    · next hd =>
      have hd : (findData s.mapData (H b)).isSome = true := by
        cases hh : (findData s.mapData (H b)).isSome
        · rw [hh] at hd; simp at hd
        · rfl
      rw [if_pos hd] at hs
      exact (Option.some.inj hs).symm
  · left
    obtain ⟨s2, h1, h2, _⟩ := h.append_new H enc dec b ev hfit (fun x hx e => hb (hcol x hx e ▸ hx))
    rw [h1] at hs
    exact ⟨hb, (Option.some.inj hs) ▸ h2⟩

theorem Holds.appendAll {bs : List (Bytes × Nat)} {s s' : Store} {L : List Bytes}
    (h : Holds H enc dec s L) (hfit : ∀ p ∈ bs, Fits H enc dec p.1)
    (hcol : ∀ x ∈ L ++ bs.map (·.1), ∀ y ∈ L ++ bs.map (·.1), H x = H y → x = y)
    (hs : append H enc s bs = some s') :
    ∃ L', Holds H enc dec s' L' ∧ ∀ x, x ∈ L' ↔ x ∈ L ∨ x ∈ bs.map (·.1) := by
  induction bs generalizing s L with
  | nil =>
    simp only [append, Option.some.injEq] at hs
    subst hs
    exact ⟨L, h, by simp⟩
  | cons p bs ih =>
    obtain ⟨b, ev⟩ := p
    simp only [append] at hs
    split at hs
    · simp at hs
    · next s1 h1 =>
      have hfb := hfit _ List.mem_cons_self
      rcases h.append_any H enc dec b ev hfb
        (fun x hx e => hcol x (by simp [hx]) b (by simp) e) h1 with ⟨_, hh⟩ | ⟨hb, rfl⟩
      · obtain ⟨L', h2, h3⟩ := ih hh (fun q hq => hfit q (List.mem_cons_of_mem _ hq))
          (by
            intro x hx y hy
            apply hcol <;> simp at * <;> grind) hs
        refine ⟨L', h2, fun x => ?_⟩
        rw [h3]; simp; grind
      · obtain ⟨L', h2, h3⟩ := ih h (fun q hq => hfit q (List.mem_cons_of_mem _ hq))
          (by
            intro x hx y hy
            apply hcol <;> simp at * <;> grind) hs
        refine ⟨L', h2, fun x => ?_⟩
        rw [h3]; simp; grind

theorem Holds.appendFresh {bs : List (Bytes × Nat)} {s : Store} {L : List Bytes}
    (h : Holds H enc dec s L) (hfit : ∀ p ∈ bs, Fits H enc dec p.1)
    (hnd : ((L ++ bs.map (·.1)).map H).Nodup) :
    ∃ s', append H enc s bs = some s' ∧ Holds H enc dec s' (L ++ bs.map (·.1)) := by
  induction bs generalizing s L with
  | nil => exact ⟨s, rfl, by simpa using h⟩
  | cons p bs ih =>
    obtain ⟨b, ev⟩ := p
    have hnew : ∀ x ∈ L, H x ≠ H b := by
      intro x hx
      rw [List.map_append, List.nodup_append] at hnd
      exact hnd.2.2 _ (List.mem_map_of_mem hx) _ (by simp)
    obtain ⟨s1, h1, h2, _⟩ := h.append_new H enc dec b ev (hfit _ List.mem_cons_self) hnew
    obtain ⟨s2, h3, h4⟩ := ih h2 (fun q hq => hfit q (List.mem_cons_of_mem _ hq)) (by simpa using hnd)
    exact ⟨s2, by simp only [append, h1, h3], by simpa using h4⟩

/-- Every stored blob is in the cache. -/
def AllCached (s : Store) (L : List Bytes) : Prop := ∀ b ∈ L, (findData s.mapData (H b)).isSome = true

theorem Holds.keys_le {s : Store} {L : List Bytes} (h : Holds H enc dec s L) :
    s.memkeys.length ≤ L.length := by
  have hsub : ∀ k ∈ s.memkeys, k ∈ L.map H := by
    intro k hk
    have := (h.keys k).1 hk
    obtain ⟨v, hv⟩ := Option.isSome_iff_exists.1 this
    have := h.cached k v hv
    exact List.mem_map.2 ⟨v, this.1, this.2⟩
  have := (List.subperm_of_subset h.keysNodup hsub).length_le
  simpa using this

theorem Holds.appendCached {bs : List (Bytes × Nat)} {s : Store} {L : List Bytes}
    (h : Holds H enc dec s L) (hfit : ∀ p ∈ bs, Fits H enc dec p.1) (hall : AllCached H s L)
    (hroom : L.length + bs.length ≤ s.maxMemBlob)
    (hcol : ∀ x ∈ L ++ bs.map (·.1), ∀ y ∈ L ++ bs.map (·.1), H x = H y → x = y) :
    ∃ s' L', append H enc s bs = some s' ∧ Holds H enc dec s' L' ∧ AllCached H s' L' ∧
      s'.maxMemBlob = s.maxMemBlob ∧ L'.length ≤ L.length + bs.length ∧
      ∀ x, x ∈ L' ↔ x ∈ L ∨ x ∈ bs.map (·.1) := by
  induction bs generalizing s L with
  | nil => exact ⟨s, L, rfl, h, hall, rfl, by simp, by simp⟩
  | cons p bs ih =>
    obtain ⟨b, ev⟩ := p
    have hfb := hfit _ List.mem_cons_self
    simp only [List.length_cons] at hroom
    by_cases hb : b ∈ L
    · have h1 : appendOne H enc s b ev = some s := by
        unfold appendOne
        rw [if_neg hfb.1]
        have hidx : (findEntry s.index (H b)).isSome = true := by
          cases hf : findEntry s.index (H b) with
          | some e => rfl
          | none => rw [h.index, findEntry_none] at hf; exact absurd rfl (hf b hb)
        have hdat := hall b hb
        simp [hidx, hdat]
      obtain ⟨s', L', e1, e2, e3, e4, e5, e6⟩ := ih h (fun q hq => hfit q (List.mem_cons_of_mem _ hq)) hall
        (by omega) (by intro x hx y hy; apply hcol <;> simp at * <;> grind)
      refine ⟨s', L', by simp only [append, h1, e1], e2, e3, e4, by simp; omega, fun x => ?_⟩
      rw [e6]; simp; grind
    · obtain ⟨s1, h1, h2, h3, h4⟩ := h.append_new H enc dec b ev hfb
        (fun x hx e => hb (hcol x (by simp [hx]) b (by simp) e ▸ hx))
      have hlt : s.memkeys.length < s.maxMemBlob := by have := h.keys_le; omega
      have hall1 : AllCached H s1 (L ++ [b]) := by
        intro x hx
        rw [h4 hlt]
        rcases List.mem_append.1 hx with hx | hx
        · exact .inl (hall x hx)
        · simp at hx; subst hx; exact .inr rfl
      obtain ⟨s', L', e1, e2, e3, e4, e5, e6⟩ := ih h2 (fun q hq => hfit q (List.mem_cons_of_mem _ hq)) hall1
        (by rw [h3]; simp; omega) (by intro x hx y hy; apply hcol <;> simp at * <;> grind)
      refine ⟨s', L', by simp only [append, h1, e1], e2, e3, by rw [e4, h3], by simp at e5 ⊢; omega, fun x => ?_⟩
      rw [e6]; simp; grind

end
end Verif.CAS
