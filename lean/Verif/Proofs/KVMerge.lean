import Verif.Spec.KVMerge
import Verif.Proofs.ArtTree
import Verif.Proofs.ArtWalk
import Verif.Proofs.ArtRange

/-! Lemmas for C141: inserting all leaves of one tree into another. -/

namespace Verif.KVMerge

open Verif.Art

variable {V : Type}

theorem loop_of {t : Tree V} {L : List (Key × V)} (h : TreeOk t L) {n : Nat} (hn : t.size < n) :
    t.drain n (t.iter [] []) = L := by
  have hb : ¬ Below [] L := below_nil L
  rw [h.size] at hn
  rw [ascend_ok h hb n hn, List.filter_eq_self]
  simp

theorem shows_of {t : Tree V} {m : Key → Option V} (h : Holds t m) : Shows t m := by
  obtain ⟨L, h2, h3⟩ := h
  refine ⟨by rw [h2.size]; exact count_of h3, ⟨L, h3, fun n hn => loop_of h2 hn⟩, ?_⟩
  intro q hq
  rcases find_exact h2 hq with ⟨g1, e, g2, g3, rfl⟩ | ⟨g1, g2⟩
  · have hm : e ∈ L := List.mem_of_getElem? g2
    have hc := (h3.2 e.1 e.2).1 hm
    refine ⟨by simp [g1, hc], fun _ => ?_⟩
    rw [g3, hc]; rfl
  · refine ⟨?_, by rw [g1]; simp⟩
    rw [g1]
    simp only [Bool.false_eq_true, false_iff, ne_eq, Decidable.not_not]
    cases hc : m q with
    | none => rfl
    | some v => exact absurd rfl (g2 _ ((h3.2 q v).2 hc))

theorem lookup_none {L : List (Key × V)} {q : Key} (h : ∀ e ∈ L, e.1 ≠ q) : List.lookup q L = none := by
  induction L with
  | nil => rfl
  | cons e L ih =>
    rw [List.lookup_cons, show (q == e.1) = false by simpa using fun hh => h e (by simp) hh.symm]
    exact ih (fun x hx => h x (List.mem_cons_of_mem _ hx))

/-- Inserting a sorted list of leaves. -/
theorem insertAll (L : List (Key × V)) : ∀ {t : Tree V} {m : Key → Option V}, Holds t m →
    L.Pairwise (fun a b => a.1 < b.1) →
    (∀ e ∈ L, ∀ a, (m a ≠ none ∨ ∃ x ∈ L, x.1 = a) → ¬ ZeroExt a e.1 ∧ ¬ ZeroExt e.1 a) →
    ∃ t', L.foldlM (fun t e => (t.insert e.1 e.2).map (·.1)) t = some t' ∧
      Holds t' (fun q => match List.lookup q L with | some v => some v | none => m q) := by
  induction L with
  | nil => exact fun h _ _ => ⟨_, rfl, h⟩
  | cons e L ih =>
    intro t m h hs hz
    obtain ⟨t1, u, h1, h2, -⟩ := h.insert (k := e.1) (v := e.2)
      (fun a ha => hz e (by simp) a (.inl ha))
    obtain ⟨hlt, hs'⟩ := List.pairwise_cons.1 hs
    obtain ⟨t', h3, h4⟩ := ih h2 hs' (by
      intro x hx a ha
      refine hz x (List.mem_cons_of_mem _ hx) a ?_
      rcases ha with ha | ⟨y, hy, hya⟩
      · by_cases hae : a = e.1
        · exact .inr ⟨e, by simp, hae.symm⟩
        · rw [if_neg hae] at ha
          exact .inl ha
      · exact .inr ⟨y, List.mem_cons_of_mem _ hy, hya⟩)
    refine ⟨t', ?_, ?_⟩
    · rw [List.foldlM_cons, h1]
      exact h3
    · have : (fun q => match List.lookup q (e :: L) with | some v => some v | none => m q) =
          (fun q => match List.lookup q L with
            | some v => some v
            | none => if q = e.1 then some e.2 else m q) := by
        funext q
        by_cases hq : q = e.1
        · subst hq
          have hn : List.lookup e.1 L = none := lookup_none (fun x hx hxe => by
            have := hlt x hx
            rw [hxe] at this
            exact List.lt_irrefl _ this)
          rw [List.lookup_cons, beq_self_eq_true, hn]
          simp
        · rw [List.lookup_cons, show (q == e.1) = false by simpa using hq]
          cases List.lookup q L <;> simp [hq]
      rw [this]
      exact h4

theorem lookup_lists {L : List (Key × V)} {m : Key → Option V} (h : Lists L m) (q : Key) :
    List.lookup q L = m q := by
  cases hm : m q with
  | none =>
    refine lookup_none (fun e he hq => ?_)
    have := (h.2 e.1 e.2).1 he
    rw [hq, hm] at this
    cases this
  | some v =>
    have hmem := (h.2 q v).2 hm
    obtain ⟨hs, -⟩ := h
    clear hm
    induction L with
    | nil => cases hmem
    | cons e L ih =>
      obtain ⟨hlt, hs'⟩ := List.pairwise_cons.1 hs
      rw [List.lookup_cons]
      rcases List.mem_cons.1 hmem with rfl | hmem
      · simp
      · have := hlt _ hmem
        rw [show (q == e.1) = false by
          simp only [beq_eq_false_iff_ne]
          intro hq
          rw [← hq] at this
          exact List.lt_irrefl _ this]
        exact ih hmem hs'

theorem copyInto_holds {src dst : Tree V} {r m : Key → Option V} (hs : Holds src r) (hd : Holds dst m)
    (hz : ∀ k a, r k ≠ none → (r a ≠ none ∨ m a ≠ none) → ¬ ZeroExt a k ∧ ¬ ZeroExt k a) :
    ∃ t, copyInto src dst = some t ∧ Holds t (over m r) := by
  obtain ⟨L, h1, h2⟩ := hs
  have hL : src.drain (src.size + 1) (src.iter [] []) = L := loop_of h1 (by omega)
  obtain ⟨t, h3, h4⟩ := insertAll L hd h2.1 (by
    intro e he a ha
    have hr : r e.1 ≠ none := by rw [(h2.2 e.1 e.2).1 he]; simp
    refine hz e.1 a hr ?_
    rcases ha with ha | ⟨x, hx, rfl⟩
    · exact .inr ha
    · exact .inl (by rw [(h2.2 x.1 x.2).1 hx]; simp))
  refine ⟨t, by unfold copyInto; rw [hL]; exact h3, ?_⟩
  have : over m r = (fun q => match List.lookup q L with | some v => some v | none => m q) := by
    funext q
    unfold over
    rw [lookup_lists h2 q]
    cases r q <;> rfl
  rw [this]
  exact h4

theorem empty_holds : Holds ({} : Tree V) (fun _ => none) := ⟨[], ⟨rfl, rfl⟩, .nil, by simp⟩

theorem clone_holds {t : Tree V} {m : Key → Option V} (h : Holds t m)
    (hz : ∀ k a, m k ≠ none → m a ≠ none → ¬ ZeroExt a k) :
    ∃ t', cloneTable t = some t' ∧ Holds t' m := by
  obtain ⟨t', h1, h2⟩ := copyInto_holds h empty_holds (by
    intro k a hk ha
    rcases ha with ha | ha
    · exact ⟨hz k a hk ha, hz a k ha hk⟩
    · exact absurd rfl ha)
  refine ⟨t', h1, ?_⟩
  have : over (fun _ => none) m = m := by
    funext q
    unfold over
    cases m q <;> rfl
  rw [this] at h2
  exact h2

theorem run_gives {ops : List (Op V)} (h : Separate ops) {t : Tree V} (ht : run ops = some t) :
    Holds t (contents ops) := by
  obtain ⟨u, h1, h2⟩ := run_holds ops h
  rw [ht] at h1
  cases h1
  exact h2

/-- Keys that are in a table at the same time do not extend each other by a zero byte. -/
theorem separate_apart (ops : List (Op V)) (h : Separate ops) :
    ∀ k a, contents ops k ≠ none → contents ops a ≠ none → ¬ ZeroExt a k := by
  induction ops with
  | nil => exact fun k a hk _ => absurd rfl hk
  | cons op ops ih =>
    cases op with
    | insert x v =>
      intro k a hk ha
      obtain ⟨h1, h2⟩ := h
      simp only [contents] at hk ha
      by_cases hkx : k = x
      · by_cases hax : a = x
        · subst hkx hax
          rintro ⟨s, hs⟩
          have := congrArg List.length hs
          simp at this
        · rw [if_neg hax] at ha
          subst hkx
          exact (h1 a ha).1
      · rw [if_neg hkx] at hk
        by_cases hax : a = x
        · subst hax
          exact (h1 k hk).2
        · rw [if_neg hax] at ha
          exact ih h2 k a hk ha
    | remove x =>
      intro k a hk ha
      simp only [contents] at hk ha
      by_cases hkx : k = x
      · rw [if_pos hkx] at hk
        exact absurd rfl hk
      · by_cases hax : a = x
        · rw [if_pos hax] at ha
          exact absurd rfl ha
        · rw [if_neg hkx] at hk
          rw [if_neg hax] at ha
          exact ih h k a hk ha

theorem table_set_same (n : List UInt8) (t : Tree V) (s : Store V) : table (setTable n t s) n = some t := by
  unfold table
  induction s with
  | nil => simp [setTable, List.lookup_cons]
  | cons e s ih =>
    obtain ⟨m, u⟩ := e
    unfold setTable
    split
    · simp [List.lookup_cons]
    · rename_i h
      rw [List.lookup_cons, show (n == m) = false by simpa using h]
      exact ih

theorem table_set_other {n n' : List UInt8} (hn : n' ≠ n) (t : Tree V) (s : Store V) :
    table (setTable n t s) n' = table s n' := by
  unfold table
  induction s with
  | nil =>
    rw [show setTable n t [] = [(n, t)] from rfl, List.lookup_cons,
      show (n' == n) = false by simpa using hn]
  | cons e s ih =>
    obtain ⟨m, u⟩ := e
    unfold setTable
    split
    · rename_i h
      subst h
      simp [List.lookup_cons, show (n' == n) = false by simpa using hn]
    · rw [List.lookup_cons, List.lookup_cons]
      split
      · rfl
      · exact ih

theorem mergeLoop {p q : List UInt8 → Option (List (Op V))} {s0 : Store V} (hs0 : Made s0 p)
    (hz : ∀ n x y, p n = some x → q n = some y → ∀ k a, contents y k ≠ none → contents x a ≠ none →
      ¬ ZeroExt a k ∧ ¬ ZeroExt k a) (r : Store V) :
    ∀ s : Store V, (r.map Prod.fst).Nodup →
      (∀ e ∈ r, ∃ ops, q e.1 = some ops ∧ Separate ops ∧ Holds e.2 (contents ops)) →
      (∀ n ∈ r.map Prod.fst, table s n = table s0 n) →
      ∃ s', r.foldlM mergeOne s = some s' ∧
        (∀ n, n ∉ r.map Prod.fst → table s' n = table s n) ∧
        (∀ n ∈ r.map Prod.fst, Merged (p n) (q n) (table s' n)) := by
  induction r with
  | nil => exact fun s _ _ _ => ⟨s, rfl, fun _ _ => rfl, fun _ h => absurd h (by simp)⟩
  | cons e r ih =>
    intro s hnd hr hsame
    rw [List.map_cons, List.nodup_cons] at hnd
    obtain ⟨y, hq, hsep, hy⟩ := hr e (by simp)
    have he : table s e.1 = table s0 e.1 := hsame e.1 (by simp)
    have hone : ∃ u, mergeOne s e = some (setTable e.1 u s) ∧ Merged (p e.1) (q e.1) (some u) := by
      have hp := hs0 e.1
      unfold mergeOne Merged
      rw [he, hq]
      cases hpe : p e.1 with
      | none =>
        rw [hpe] at hp
        rw [hp]
        obtain ⟨u, h1, h2⟩ := clone_holds hy (separate_apart y hsep)
        exact ⟨u, by simp only [h1, Option.map_some], u, rfl, shows_of h2⟩
      | some x =>
        rw [hpe] at hp
        obtain ⟨hxs, t0, h0, hx0⟩ := hp
        have hx : Holds t0 (contents x) := run_gives hxs hx0
        rw [h0]
        obtain ⟨u, h1, h2⟩ := copyInto_holds hy hx (by
          intro k a hk ha
          rcases ha with ha | ha
          · exact ⟨separate_apart y hsep k a hk ha, separate_apart y hsep a k ha hk⟩
          · exact hz e.1 x y hpe hq k a hk ha)
        exact ⟨u, by simp only [h1, Option.map_some], u, rfl, shows_of h2⟩
    obtain ⟨u, h1, h2⟩ := hone
    obtain ⟨s', h3, h4, h5⟩ := ih (setTable e.1 u s) hnd.2 (fun x hx => hr x (List.mem_cons_of_mem _ hx)) (by
      intro n hn
      have hne : n ≠ e.1 := fun h => hnd.1 (h ▸ hn)
      rw [table_set_other hne]
      exact hsame n (List.mem_cons_of_mem _ hn))
    refine ⟨s', ?_, ?_, ?_⟩
    · rw [List.foldlM_cons, h1]
      exact h3
    · intro n hn
      simp only [List.map_cons, List.mem_cons, not_or] at hn
      rw [h4 n hn.2, table_set_other hn.1]
    · intro n hn
      rcases List.mem_cons.1 hn with rfl | hn
      · rw [h4 e.1 hnd.1, table_set_same]
        exact h2
      · exact h5 n hn

theorem cloneStore_merge (r : Store V) : ∀ (acc : Store V), (r.map Prod.fst).Nodup →
    (∀ n ∈ r.map Prod.fst, table acc n = none) →
    r.foldlM (fun acc e => (cloneTable e.2).map fun t => setTable e.1 t acc) acc = r.foldlM mergeOne acc := by
  induction r with
  | nil => exact fun _ _ _ => rfl
  | cons e r ih =>
    intro acc hnd hn
    rw [List.map_cons, List.nodup_cons] at hnd
    rw [List.foldlM_cons, List.foldlM_cons]
    have : mergeOne acc e = (cloneTable e.2).map fun t => setTable e.1 t acc := by
      unfold mergeOne
      rw [hn e.1 (by simp)]
    rw [this]
    cases cloneTable e.2 with
    | none => rfl
    | some t =>
      refine ih _ hnd.2 (fun n hm => ?_)
      have hne : n ≠ e.1 := fun h => hnd.1 (h ▸ hm)
      rw [table_set_other hne]
      exact hn n (List.mem_cons_of_mem _ hm)

end Verif.KVMerge
