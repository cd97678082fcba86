import Verif.Proofs.PumpFlow
/-
The pump's map against the circuits: a circuit is in the map exactly as long as it is open.
-/
namespace Verif.Pump

open Verif.Frag

theorem lookup_erase_self {α} (m : List (Str × α)) (k : Str) : lookup (erase m k) k = none := by
  simp [lookup, erase, List.find?_eq_none]

theorem lookup_erase_ne {α} (m : List (Str × α)) {k j : Str} (h : j ≠ k) :
    lookup (erase m k) j = lookup m j := by
  induction m with
  | nil => rfl
  | cons p m ih =>
    simp only [lookup, erase, List.filter_cons, List.find?_cons] at *
    by_cases h1 : p.1 = k
    · have : (p.1 == j) = false := by simp [h1, Ne.symm h]
      simp [h1, this]
      rw [show (k == j) = false by simp [Ne.symm h]]
      simpa using ih
    · simp only [bne_iff_ne, ne_eq, h1, not_false_eq_true, ↓reduceIte, List.find?_cons]
      split <;> simp_all

theorem lookup_append_ne {α} (m : List (Str × α)) {k j : Str} (v : α) (h : j ≠ k) :
    lookup (m ++ [(k, v)]) j = lookup m j := by
  simp only [lookup, List.find?_append]
  cases h1 : m.find? (fun p => p.1 == j)
  · simp [Ne.symm h]
  · simp

theorem lookup_insert_self {α} (m : List (Str × α)) (k : Str) (v : α) :
    lookup (insert m k v) k = some v := by
  have := lookup_erase_self m k
  simp only [lookup, Option.map_eq_none_iff] at this
  simp [insert, lookup, List.find?_append, this]

theorem lookup_insert_ne {α} (m : List (Str × α)) {k j : Str} (v : α) (h : j ≠ k) :
    lookup (insert m k v) j = lookup m j := by
  rw [insert, lookup_append_ne _ _ h, lookup_erase_ne _ h]

theorem lookup_mem {α} {m : List (Str × α)} {k : Str} {v : α} (h : lookup m k = some v) :
    (k, v) ∈ m := by
  simp only [lookup, Option.map_eq_some_iff] at h
  obtain ⟨p, hp, rfl⟩ := h
  have h1 := List.mem_of_find?_eq_some hp
  have h2 := List.find?_some hp
  simp only [beq_iff_eq] at h2
  rw [← h2]; exact h1

theorem lookup_of_mem {α} {m : List (Str × α)} (hn : (m.map (·.1)).Nodup) {k : Str} {v : α}
    (h : (k, v) ∈ m) : lookup m k = some v := by
  induction m with
  | nil => cases h
  | cons p m ih =>
    simp only [List.map_cons, List.nodup_cons] at hn
    rcases List.mem_cons.1 h with rfl | h
    · simp [lookup]
    · have : p.1 ≠ k := fun he => hn.1 (by rw [he]; exact List.mem_map_of_mem (f := (·.1)) h)
      have := ih hn.2 h
      simp only [lookup, List.find?_cons] at this ⊢
      rw [show (p.1 == k) = false by simpa using ‹p.1 ≠ k›]
      exact this

theorem erase_of_none {α} {m : List (Str × α)} {k : Str} (h : lookup m k = none) :
    erase m k = m := by
  simp only [lookup, Option.map_eq_none_iff, List.find?_eq_none] at h
  exact List.filter_eq_self.2 (fun p hp => by simpa using h p hp)

theorem erase_length {α} {m : List (Str × α)} (hn : (m.map (·.1)).Nodup) {k : Str} {v : α}
    (h : lookup m k = some v) : (erase m k).length + 1 = m.length := by
  induction m with
  | nil => simp [lookup] at h
  | cons p m ih =>
    simp only [List.map_cons, List.nodup_cons] at hn
    by_cases h1 : p.1 = k
    · have : lookup m k = none := by
        cases h2 : lookup m k with
        | none => rfl
        | some w => exact absurd (List.mem_map_of_mem (f := (·.1)) (lookup_mem h2)) (h1 ▸ hn.1)
      have := erase_of_none this
      simp only [erase] at this
      simp [erase, h1, this]
    · have h2 : lookup m k = some v := by
        simp only [lookup, List.find?_cons] at h ⊢
        rw [show (p.1 == k) = false by simpa using h1] at h
        exact h
      have := ih hn.2 h2
      simp only [erase] at this
      simp only [erase, List.filter_cons, bne_iff_ne, ne_eq, h1, not_false_eq_true, ↓reduceIte,
        List.length_cons]
      omega

theorem erase_keys {α} {m : List (Str × α)} (hn : (m.map (·.1)).Nodup) (k : Str) :
    ((erase m k).map (·.1)).Nodup :=
  hn.sublist (List.filter_sublist.map _)

/-- What matters of the circuits here: their ids, and whether they are closed. -/
def view (s : State) : List (Str × Bool) := s.ckts.map (fun k => (k.id, k.canc))

/-- The map and the open circuits correspond. -/
structure VI (v : List (Str × Bool)) (m : List (Str × Nat)) : Prop where
  uniq : (v.map (·.1)).Nodup
  mem : ∀ id c, lookup m id = some c → v[c]? = some (id, false)
  opn : ∀ id (c : Nat), v[c]? = some (id, false) → lookup m id = some c
  keys : (m.map (·.1)).Nodup
  cnt : m.length = (v.filter (fun p => !p.2)).length

theorem VI.same {v m id} {c d : Nat} {b b' : Bool} (h : VI v m) (hc : v[c]? = some (id, b))
    (hd : v[d]? = some (id, b')) : c = d := by
  obtain ⟨hc1, hc2⟩ := List.getElem?_eq_some_iff.1 hc
  obtain ⟨hd1, hd2⟩ := List.getElem?_eq_some_iff.1 hd
  have hp := List.pairwise_iff_getElem.1 h.uniq
  rcases Nat.lt_trichotomy c d with hlt | heq | hlt
  · have := hp c d (by simpa using hc1) (by simpa using hd1) hlt
    simp [hc2, hd2] at this
  · exact heq
  · have := hp d c (by simpa using hd1) (by simpa using hc1) hlt
    simp [hc2, hd2] at this

theorem filter_set_open {v : List (Str × Bool)} {c : Nat} {id : Str}
    (h : v[c]? = some (id, false)) :
    ((v.set c (id, true)).filter (fun p => !p.2)).length + 1 =
      (v.filter (fun p => !p.2)).length := by
  induction v generalizing c with
  | nil => simp at h
  | cons p v ih =>
    cases c with
    | zero => simp at h; subst h; simp
    | succ c =>
      simp only [List.getElem?_cons_succ] at h
      have := ih h
      simp only [List.set_cons_succ, List.filter_cons]
      split
      · simp only [List.length_cons]; omega
      · exact this

theorem VI.shut {v m id} {c : Nat} (h : VI v m) (hc : v[c]? = some (id, false)) :
    VI (v.set c (id, true)) (erase m id) := by
  have hlt : c < v.length := (List.getElem?_eq_some_iff.1 hc).1
  have hset : ∀ d : Nat, (v.set c (id, true))[d]? = if c = d then some (id, true) else v[d]? := by
    intro d
    rw [List.getElem?_set]
    by_cases hcd : c = d
    · subst hcd; simp [hlt]
    · simp [hcd]
  refine ⟨?_, ?_, ?_, erase_keys h.keys _, ?_⟩
  · have : (v.set c (id, true)).map (·.1) = v.map (·.1) := by
      rw [List.map_set]
      apply List.ext_getElem?
      intro i
      rw [List.getElem?_set]
      split
      · rename_i hi; subst hi
        obtain ⟨_, hce⟩ := List.getElem?_eq_some_iff.1 hc
        simp [hlt, hce]
      · rfl
    rw [this]; exact h.uniq
  · intro j d hd
    by_cases hj : j = id
    · subst hj; rw [lookup_erase_self] at hd; cases hd
    · rw [lookup_erase_ne _ hj] at hd
      have h1 := h.mem j d hd
      rw [hset]
      rw [if_neg]
      · exact h1
      · rintro rfl; rw [hc] at h1; cases h1; exact hj rfl
  · intro j d hd
    rw [hset] at hd
    split at hd
    · cases hd
    · rename_i hcd
      have h1 := h.opn j d hd
      have hj : j ≠ id := fun he => hcd (by subst he; exact h.same hc hd)
      rw [lookup_erase_ne _ hj]; exact h1
  · have h1 := erase_length h.keys (h.opn id c hc)
    have h2 := filter_set_open hc
    have h3 := h.cnt
    omega

theorem VI.tell {v m} {id : Str} (h : VI v m) (hn : ((v ++ [(id, false)]).map (·.1)).Nodup) :
    VI (v ++ [(id, false)]) (insert m id v.length) := by
  have hid : ∀ (c : Nat) b, v[c]? ≠ some (id, b) := by
    intro c b hc
    simp only [List.map_append, List.map_cons, List.map_nil, List.nodup_append] at hn
    exact hn.2.2 id (List.mem_map_of_mem (f := (·.1)) (List.mem_of_getElem? hc)) id (by simp) rfl
  have hnone : lookup m id = none := by
    cases h1 : lookup m id with
    | none => rfl
    | some c => exact absurd (h.mem _ _ h1) (hid _ _)
  refine ⟨hn, ?_, ?_, ?_, ?_⟩
  · intro j c hc
    by_cases hj : j = id
    · subst hj
      rw [lookup_insert_self] at hc
      cases hc; simp
    · rw [lookup_insert_ne _ _ hj] at hc
      have := h.mem _ _ hc
      rw [List.getElem?_append_left (List.getElem?_eq_some_iff.1 this).1]; exact this
  · intro j c hc
    by_cases hlt : c < v.length
    · rw [List.getElem?_append_left hlt] at hc
      have hj : j ≠ id := by rintro rfl; exact hid _ _ hc
      rw [lookup_insert_ne _ _ hj]; exact h.opn _ _ hc
    · rw [List.getElem?_append_right (by omega)] at hc
      cases h2 : c - v.length with
      | zero =>
        rw [h2] at hc; simp at hc; subst hc
        rw [lookup_insert_self]; congr 1; omega
      | succ i => rw [h2] at hc; simp at hc
  · rw [insert, erase_of_none hnone, List.map_append, List.nodup_append]
    refine ⟨h.keys, by simp, ?_⟩
    intro a ha b hb
    simp only [List.map_cons, List.map_nil, List.mem_singleton] at hb
    subst hb
    rintro rfl
    obtain ⟨p, hp, hpe⟩ := List.mem_map.1 ha
    have : lookup m p.1 = some p.2 := lookup_of_mem h.keys hp
    rw [hpe, hnone] at this; cases this
  · rw [insert, erase_of_none hnone]
    simp [List.filter_append, h.cnt]

theorem view_get {s : State} {c : Nat} {k : Ckt} (h : s.ckts[c]? = some k) :
    (view s)[c]? = some (k.id, k.canc) := by simp [view, h]

theorem view_get' {s : State} {c : Nat} {p : Str × Bool} (h : (view s)[c]? = some p) :
    ∃ k, s.ckts[c]? = some k ∧ k.id = p.1 ∧ k.canc = p.2 := by
  simp only [view, List.getElem?_map, Option.map_eq_some_iff] at h
  obtain ⟨k, hk, rfl⟩ := h
  exact ⟨k, hk, rfl, rfl⟩

/-- A circuit after the pump has closed it. -/
def Ckt.shut (k : Ckt) : Ckt := { k with canc := true, stopReq := true }

/-- `cleanupCkt` on a closed circuit does nothing; on an open one it closes it. -/
theorem cleanup_closed {s : State} {c : Nat} {k : Ckt} {b : Bool} (h : VI (view s) s.m)
    (hk : s.ckts[c]? = some k) (hc : k.canc = true) : cleanup s c b = s := by
  have h1 := view_get hk
  have : lookup s.m k.id = none := by
    cases h2 : lookup s.m k.id with
    | none => rfl
    | some d =>
      have h3 := h.mem _ _ h2
      have := h.same h1 h3
      subst this
      rw [h1] at h3; simp [hc] at h3
  simp [cleanup, hk, this]

theorem cleanup_open {s : State} {c : Nat} {k : Ckt} {b : Bool} (h : VI (view s) s.m)
    (hk : s.ckts[c]? = some k) (hc : k.canc = false) :
    cleanup s c b = { s with
      out := if b then s.out ++ [closing k] else s.out
      ckts := s.ckts.set c k.shut
      m := erase s.m k.id } := by
  have h1 := view_get hk
  rw [hc] at h1
  have h2 := h.opn _ _ h1
  have hne : s.m.isEmpty = false := by
    cases hm : s.m with
    | nil => rw [hm] at h2; simp [lookup] at h2
    | cons _ _ => rfl
  simp [cleanup, hk, h2, hne, Ckt.shut]

/-- What closing circuits leaves alone. -/
structure Shut (s s' : State) : Prop where
  readsIn : s'.readsIn = s.readsIn
  errorsIn : s'.errorsIn = s.errorsIn
  arrived : s'.arrived = s.arrived
  arrivedErr : s'.arrivedErr = s.arrivedErr
  phase : s'.phase = s.phase
  stop : s'.stop = s.stop
  self : s'.self = s.self
  autoCkts : s'.autoCkts = s.autoCkts
  autoPeers : s'.autoPeers = s.autoPeers
  remotes : s'.remotes = s.remotes
  len : s'.ckts.length = s.ckts.length
  ckt : ∀ (c : Nat) k', s'.ckts[c]? = some k' →
    ∃ k, s.ckts[c]? = some k ∧ (k' = k ∨ (k.canc = false ∧ k' = k.shut))
  vi : VI (view s') s'.m

theorem Shut.refl {s : State} (h : VI (view s) s.m) : Shut s s :=
  ⟨rfl, rfl, rfl, rfl, rfl, rfl, rfl, rfl, rfl, rfl, rfl, fun _ k h => ⟨k, h, .inl rfl⟩, h⟩

theorem Shut.trans {a b c : State} (h1 : Shut a b) (h2 : Shut b c) : Shut a c := by
  refine ⟨h2.readsIn.trans h1.readsIn, h2.errorsIn.trans h1.errorsIn, h2.arrived.trans h1.arrived,
    h2.arrivedErr.trans h1.arrivedErr, h2.phase.trans h1.phase, h2.stop.trans h1.stop,
    h2.self.trans h1.self, h2.autoCkts.trans h1.autoCkts, h2.autoPeers.trans h1.autoPeers,
    h2.remotes.trans h1.remotes, h2.len.trans h1.len, ?_, h2.vi⟩
  intro d k'' hk''
  obtain ⟨k', hk', h3⟩ := h2.ckt d k'' hk''
  obtain ⟨k, hk, h4⟩ := h1.ckt d k' hk'
  refine ⟨k, hk, ?_⟩
  rcases h4 with rfl | ⟨hc, rfl⟩
  · exact h3
  · rcases h3 with rfl | ⟨hc', rfl⟩
    · exact .inr ⟨hc, rfl⟩
    · cases hc'

theorem view_shut {s : State} {c : Nat} {k : Ckt} (s' : State)
    (hs : s'.ckts = s.ckts.set c k.shut) : view s' = (view s).set c (k.id, true) := by
  simp only [view, hs, List.map_set]
  rfl

theorem shut_cleanup {s : State} (c : Nat) (b : Bool) (h : VI (view s) s.m) :
    Shut s (cleanup s c b) := by
  cases hk : s.ckts[c]? with
  | none => simp only [cleanup, hk]; exact Shut.refl h
  | some k =>
    cases hc : k.canc with
    | true => rw [cleanup_closed h hk hc]; exact Shut.refl h
    | false =>
      rw [cleanup_open h hk hc]
      refine ⟨rfl, rfl, rfl, rfl, rfl, rfl, rfl, rfl, rfl, rfl, by simp, ?_, ?_⟩
      · intro d k' hk'
        rw [List.getElem?_set] at hk'
        split at hk'
        · rename_i hcd; subst hcd
          split at hk'
          · cases hk'; exact ⟨k, hk, .inr ⟨hc, rfl⟩⟩
          · cases hk'
        · exact ⟨k', hk', .inl rfl⟩
      · have h1 := view_get hk
        rw [hc] at h1
        have := h.shut h1
        rw [view_shut (k := k) (c := c) (s := s) _ rfl]
        exact this

theorem shut_cleanups {s : State} (cs : List Nat) (h : VI (view s) s.m) :
    Shut s (cleanups s cs) := by
  induction cs generalizing s with
  | nil => exact Shut.refl h
  | cons c cs ih =>
    have h1 := shut_cleanup c true h
    exact h1.trans (ih h1.vi)

/-- A closed circuit stays closed, an open one named for cleanup closes. -/
theorem cleanup_shuts {s : State} {c : Nat} {b : Bool} (h : VI (view s) s.m) {k' : Ckt}
    (hk' : (cleanup s c b).ckts[c]? = some k') : k'.canc = true := by
  cases hk : s.ckts[c]? with
  | none => simp only [cleanup, hk] at hk'; cases hk'
  | some k =>
    cases hc : k.canc with
    | true => rw [cleanup_closed h hk hc, hk] at hk'; cases hk'; exact hc
    | false =>
      rw [cleanup_open h hk hc, List.getElem?_set_self (List.getElem?_eq_some_iff.1 hk).1] at hk'
      cases hk'; rfl

theorem Shut.canc {s s' : State} (h : Shut s s') {c : Nat} {k k' : Ckt} (hk : s.ckts[c]? = some k)
    (hk' : s'.ckts[c]? = some k') (hc : k.canc = true) : k'.canc = true := by
  obtain ⟨k0, h0, h1⟩ := h.ckt c k' hk'
  rw [hk] at h0; cases h0
  rcases h1 with rfl | ⟨_, rfl⟩
  · exact hc
  · rfl

theorem cleanups_shuts {s : State} {cs : List Nat} {c : Nat} (h : VI (view s) s.m) (hc : c ∈ cs)
    {k' : Ckt} (hk' : (cleanups s cs).ckts[c]? = some k') : k'.canc = true := by
  induction cs generalizing s with
  | nil => cases hc
  | cons d cs ih =>
    have h1 := shut_cleanup d true h
    have h2 := shut_cleanups cs h1.vi
    rcases List.mem_cons.1 hc with rfl | hc
    · obtain ⟨k1, hk1, _⟩ := h2.ckt c k' hk'
      exact h2.canc hk1 hk' (cleanup_shuts h hk1)
    · exact ih h1.vi hc hk'

/-- After the exit every circuit is closed. -/
theorem exit_shuts {s : State} (h : VI (view s) s.m) {c : Nat} {k' : Ckt}
    (hk' : (cleanups s (s.m.map (·.2))).ckts[c]? = some k') : k'.canc = true := by
  have h1 := shut_cleanups (s.m.map (·.2)) h
  obtain ⟨k, hk, h2⟩ := h1.ckt c k' hk'
  rcases h2 with rfl | ⟨_, rfl⟩
  · cases hc : k'.canc with
    | true => rfl
    | false =>
      have h3 := view_get hk
      rw [hc] at h3
      have h4 := lookup_mem (h.opn _ _ h3)
      exact hc ▸ cleanups_shuts h (List.mem_map_of_mem (f := (·.2)) h4) hk'
  · rfl

/-- No open circuit left means an empty map. -/
theorem VI.empty {v m} (h : VI v m) (hall : ∀ (c : Nat) id, v[c]? ≠ some (id, false)) : m = [] := by
  cases hm : m with
  | nil => rfl
  | cons p m' =>
    have : lookup m p.1 = some p.2 := lookup_of_mem h.keys (by rw [hm]; simp)
    exact absurd (h.mem _ _ this) (hall _ _)

end Verif.Pump
