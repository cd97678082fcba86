import Verif.Proofs.ArtSearch
/-
Lemmas about the radix tree as a whole: the calls, the searches and the iterator.
-/
namespace Verif.Art

set_option linter.unusedVariables false
set_option linter.unusedSectionVars false

variable {V : Type}

/-! ### Sorted lists -/

theorem sorted_ext {l1 l2 : List (Key × V)} (h1 : l1.Pairwise fun a b => a.1 < b.1)
    (h2 : l2.Pairwise fun a b => a.1 < b.1) (h : ∀ e, e ∈ l1 ↔ e ∈ l2) : l1 = l2 := by
  induction l1 generalizing l2 with
  | nil =>
    cases l2 with
    | nil => rfl
    | cons b l2 => have := (h b).2 (by simp); simp at this
  | cons a l1 ih =>
    cases l2 with
    | nil => have := (h a).1 (by simp); simp at this
    | cons b l2 =>
      rw [List.pairwise_cons] at h1 h2
      have hab : a = b := by
        rcases List.mem_cons.1 ((h a).1 (by simp)) with h3 | h3
        · exact h3
        · rcases List.mem_cons.1 ((h b).2 (by simp)) with h4 | h4
          · exact h4.symm
          · exact absurd (h1.1 b h4) (klt_asymm (h2.1 a h3))
      subst hab
      rw [ih h1.2 h2.2]
      intro e
      constructor
      · intro he
        rcases List.mem_cons.1 ((h e).1 (by simp [he])) with h3 | h3
        · subst h3; exact absurd (h1.1 e he) (klt_irrefl _)
        · exact h3
      · intro he
        rcases List.mem_cons.1 ((h e).2 (by simp [he])) with h3 | h3
        · subst h3; exact absurd (h2.1 e he) (klt_irrefl _)
        · exact h3

theorem sorted_key {l : List (Key × V)} (h : l.Pairwise fun a b => a.1 < b.1) {e f : Key × V}
    (he : e ∈ l) (hf : f ∈ l) (hk : e.1 = f.1) : e = f := by
  induction l with
  | nil => simp at he
  | cons a l ih =>
    rw [List.pairwise_cons] at h
    rcases List.mem_cons.1 he with h1 | h1 <;> rcases List.mem_cons.1 hf with h2 | h2
    · rw [h1, h2]
    · rw [h1] at hk; exact absurd hk (klt_ne (h.1 f h2))
    · rw [h2] at hk; exact absurd hk.symm (klt_ne (h.1 e h1))
    · exact ih h.2 h1 h2

/-! ### Calls -/

/-- The tree is well formed and these are its leaves. -/
structure TreeOk (t : Tree V) (L : List (Key × V)) : Prop where
  root : match t.root with
    | none => L = []
    | some r => Ok [] r ∧ L = r.leaves
  size : t.size = L.length

theorem TreeOk.sorted {t : Tree V} {L : List (Key × V)} (h : TreeOk t L) : L.Pairwise fun a b => a.1 < b.1 := by
  have := h.root
  cases hr : t.root with
  | none => rw [hr] at this; subst this; exact .nil
  | some r => rw [hr] at this; rw [this.2]; exact this.1.sorted

theorem agree_nil (k : Key) : Agree [] k := by intro i hi; simp at hi
theorem fit_nil (k : Key) : Fit k [] := by intro i hi; simp at hi

theorem TreeOk.insert {t : Tree V} {L : List (Key × V)} (h : TreeOk t L) {k : Key} {v : V}
    (hsep : ∀ e ∈ L, e.1 ≠ k → ¬ ZeroExt e.1 k ∧ ¬ ZeroExt k e.1) :
    ∃ t' u L', t.insert k v = some (t', u) ∧ TreeOk t' L' ∧ Inserted k v L L' u ∧
      t'.version = t.version + 1 := by
  have hroot := h.root
  unfold Tree.insert
  cases hr : t.root with
  | none =>
    rw [hr] at hroot
    subst hroot
    refine ⟨_, _, [(k, v)], rfl, ⟨⟨.leaf (agree_nil k), by simp [Node.leaves]⟩, ?_⟩, ?_, rfl⟩
    · have := h.size; simpa using this
    · exact .inl ⟨rfl, by simp, .refl _⟩
  | some r =>
    rw [hr] at hroot
    obtain ⟨hok, rfl⟩ := hroot
    obtain ⟨n', u, h1, h2, h3⟩ := insert_ok hok (v := v) (agree_nil k) hsep
    simp only [List.length_nil] at h1
    simp only [h1, Option.map_some]
    refine ⟨{ root := some n', size := if u then t.size else t.size + 1, version := t.version + 1 }, u,
      n'.leaves, rfl, ⟨⟨h2, rfl⟩, ?_⟩, h3, rfl⟩
    rw [h3.length, h.size]

/-- What a removal does to the leaves. -/
theorem TreeOk.remove {t : Tree V} {L : List (Key × V)} (h : TreeOk t L) (k : Key) :
    ((t.remove k) = (t, none) ∧ ∀ e ∈ L, e.1 ≠ k) ∨
    ∃ t' v L', t.remove k = (t', some (k, v)) ∧ TreeOk t' L' ∧ L.Perm ((k, v) :: L') ∧
      t'.version = t.version + 1 := by
  have hroot := h.root
  unfold Tree.remove
  cases hr : t.root with
  | none => rw [hr] at hroot; subst hroot; left; simp
  | some r =>
    rw [hr] at hroot
    obtain ⟨hok, rfl⟩ := hroot
    have hd := del_ok hok k
    simp only [List.length_nil] at hd
    dsimp only
    cases hdel : r.del k 0 with
    | none => rw [hdel] at hd; left; exact ⟨rfl, hd⟩
    | some x =>
      obtain ⟨o, lf⟩ := x
      rw [hdel] at hd
      right
      cases o with
      | none =>
        obtain ⟨h1, h2, h3⟩ := hd
        refine ⟨_, lf.2, [], by rw [← h1], ⟨rfl, ?_⟩, by rw [h2, ← h1], rfl⟩
        rw [h.size, h2]; rfl
      | some n' =>
        obtain ⟨h1, h2, h3⟩ := hd
        refine ⟨{ root := some n', size := t.size - 1, version := t.version + 1 }, lf.2, n'.leaves,
          by rw [← h1], ⟨⟨h2, rfl⟩, ?_⟩, by rw [← h1]; exact h3, rfl⟩
        simp only [h.size, h3.length_eq]; simp

theorem lists_insert {k : Key} {v : V} {L L' : List (Key × V)} {u : Bool} {m : Key → Option V}
    (h : Lists L m) (hs : L'.Pairwise fun a b => a.1 < b.1) (hi : Inserted k v L L' u) :
    Lists L' (fun q => if q = k then some v else m q) ∧ (u = true ↔ m k ≠ none) := by
  obtain ⟨h1, h2⟩ := h
  rcases hi with ⟨rfl, h3, h4⟩ | ⟨rfl, v0, rest, h3, h4⟩
  · refine ⟨⟨hs, ?_⟩, ?_⟩
    · intro a x
      rw [h4.mem_iff, List.mem_cons]
      by_cases hak : a = k
      · subst hak
        simp only [Prod.mk.injEq, true_and, if_true, Option.some.injEq]
        constructor
        · rintro (h | h)
          · exact h.symm
          · exact absurd rfl (h3 _ h)
        · intro h; exact .inl h.symm
      · simp only [Prod.mk.injEq, hak, false_and, false_or, if_false]
        exact h2 a x
    · simp only [Bool.false_eq_true, false_iff, ne_eq, Classical.not_not]
      cases hm : m k with
      | none => rfl
      | some x => exact absurd rfl (h3 _ ((h2 k x).2 hm))
  · refine ⟨⟨hs, ?_⟩, ?_⟩
    · intro a x
      rw [h4.mem_iff, List.mem_cons]
      have hL : ∀ e, e ∈ L ↔ e = (k, v0) ∨ e ∈ rest := by
        intro e; rw [h3.mem_iff, List.mem_cons]
      have hkr : ∀ x, (k, x) ∉ rest := by
        intro x hx
        have hs' : (rest.map (·.1)).Nodup ∧ k ∉ rest.map (·.1) := by
          have hn : (L.map (·.1)).Nodup := by
            rw [List.Nodup, List.pairwise_map]
            exact h1.imp (fun h => klt_ne h)
          have := (h3.map (·.1)).nodup_iff.1 hn
          rw [List.map_cons, List.nodup_cons] at this
          exact ⟨this.2, this.1⟩
        exact hs'.2 (List.mem_map.2 ⟨(k, x), hx, rfl⟩)
      by_cases hak : a = k
      · subst hak
        simp only [Prod.mk.injEq, true_and, if_true, Option.some.injEq]
        constructor
        · rintro (h | h)
          · exact h.symm
          · exact absurd h (hkr x)
        · intro h; exact .inl h.symm
      · simp only [Prod.mk.injEq, hak, false_and, false_or, if_false]
        rw [← h2 a x, hL]
        simp [hak]
    · simp only [true_iff]
      have := (h2 k v0).1 (h3.mem_iff.2 (by simp))
      rw [this]; simp

theorem lists_remove {k : Key} {v : V} {L L' : List (Key × V)} {m : Key → Option V}
    (h : Lists L m) (hs : L'.Pairwise fun a b => a.1 < b.1) (hp : L.Perm ((k, v) :: L')) :
    Lists L' (fun q => if q = k then none else m q) ∧ m k = some v := by
  obtain ⟨h1, h2⟩ := h
  refine ⟨⟨hs, ?_⟩, (h2 k v).1 (hp.mem_iff.2 (by simp))⟩
  intro a x
  have hkr : ∀ x, (k, x) ∉ L' := by
    intro x hx
    have hn : (L.map (·.1)).Nodup := by
      rw [List.Nodup, List.pairwise_map]
      exact h1.imp (fun h => klt_ne h)
    have := (hp.map (·.1)).nodup_iff.1 hn
    rw [List.map_cons, List.nodup_cons] at this
    exact this.1 (List.mem_map.2 ⟨(k, x), hx, rfl⟩)
  by_cases hak : a = k
  · subst hak; simpa using hkr x
  · simp only [hak, if_false]
    rw [← h2 a x, hp.mem_iff]
    simp [hak]

/-- A tree that has this map. -/
def Holds (t : Tree V) (m : Key → Option V) : Prop := ∃ L, TreeOk t L ∧ Lists L m

theorem Holds.insert {t : Tree V} {m : Key → Option V} (h : Holds t m) {k : Key} {v : V}
    (hsep : ∀ a, m a ≠ none → ¬ ZeroExt a k ∧ ¬ ZeroExt k a) :
    ∃ t' u, t.insert k v = some (t', u) ∧ Holds t' (fun q => if q = k then some v else m q) ∧
      (u = true ↔ m k ≠ none) ∧ t'.version = t.version + 1 := by
  obtain ⟨L, h1, h2⟩ := h
  obtain ⟨t', u, L', h3, h4, h5, h6⟩ := h1.insert (k := k) (v := v)
    (fun e he _ => hsep e.1 (by rw [(h2.2 e.1 e.2).1 he]; simp))
  have := lists_insert h2 h4.sorted h5
  exact ⟨t', u, h3, ⟨L', h4, this.1⟩, this.2, h6⟩

theorem Holds.remove {t : Tree V} {m : Key → Option V} (h : Holds t m) (k : Key) :
    Holds (t.remove k).1 (fun q => if q = k then none else m q) ∧
    (t.remove k).2 = (m k).map fun v => (k, v) := by
  obtain ⟨L, h1, h2⟩ := h
  rcases h1.remove k with ⟨h3, h4⟩ | ⟨t', v, L', h3, h4, h5, -⟩
  · rw [h3]
    have hmk : m k = none := by
      cases hm : m k with
      | none => rfl
      | some x => exact absurd rfl (h4 _ ((h2.2 k x).2 hm))
    refine ⟨⟨L, h1, ?_⟩, by simp [hmk]⟩
    have : (fun q => if q = k then none else m q) = m := by
      funext q; by_cases hq : q = k
      · simp [hq, hmk]
      · simp [hq]
    rw [this]; exact h2
  · rw [h3]
    have := lists_remove h2 h4.sorted h5
    exact ⟨⟨L', h4, this.1⟩, by simp [this.2]⟩

theorem run_holds (ops : List (Op V)) (h : Separate ops) : ∃ t, run ops = some t ∧ Holds t (contents ops) := by
  induction ops with
  | nil => exact ⟨{}, rfl, [], ⟨rfl, rfl⟩, .nil, by simp [contents]⟩
  | cons op ops ih =>
    cases op with
    | insert k v =>
      obtain ⟨t, h1, h2⟩ := ih h.2
      obtain ⟨t', u, h3, h4, -⟩ := h2.insert (v := v) h.1
      exact ⟨t', by simp [run, h1, h3], h4⟩
    | remove k =>
      obtain ⟨t, h1, h2⟩ := ih h
      exact ⟨(t.remove k).1, by simp [run, h1], (h2.remove k).1⟩

/-! ### Searches -/

/-- The list is right up to the place found: nothing before it (or after it) will do. -/
theorem find_exact {t : Tree V} {L : List (Key × V)} (h : TreeOk t L) {q : Key} (hq : q ≠ [] ∨ t.size ≠ 1) :
    ((t.find .exact q).found = true ∧ ∃ e, L[(t.find .exact q).idx]? = some e ∧
      (t.find .exact q).lf = some e ∧ e.1 = q) ∨
    ((t.find .exact q).found = false ∧ ∀ e ∈ L, e.1 ≠ q) := by
  have hroot := h.root
  unfold Tree.find
  cases hr : t.root with
  | none => rw [hr] at hroot; subst hroot; right; simp
  | some r =>
    rw [hr] at hroot
    obtain ⟨hok, rfl⟩ := hroot
    dsimp only
    rw [if_neg (by grind)]
    have hg := get_ok hok q
    simp only [List.length_nil] at hg
    by_cases hs : t.size = 1
    · rw [if_pos hs]
      simp only [single, Node.search]
      rcases hg with ⟨h1, h2⟩ | ⟨h1, h2⟩
      · left; simpa [h1] using h2
      · right; simpa [h1] using h2
    · rw [if_neg hs]; exact hg

/-- The query is smaller than all the keys, and differs from them in a byte that they all share. -/
def Below (q : Key) (L : List (Key × V)) : Prop :=
  2 ≤ L.length ∧ ∃ i c, i < q.length ∧ q.get i < c ∧
    ∀ e ∈ L, e.1.get i = c ∧ ∀ j, j < i → e.1.get j = q.get j

theorem miss_iff {r : Node V} (h : Ok [] r) (h2 : 2 ≤ r.leaves.length) (q : Key) :
    Miss q 0 r ↔ Below q r.leaves := by
  cases h with
  | leaf h => simp [Node.leaves] at h2
  | @inner _ comp kind subN kids sorted two low cap kid sub len =>
    have hok : Ok [] (.inner comp kind subN kids) := .inner sorted two low cap kid sub len
    simp only [Miss, List.drop_zero]
    have hsp := mismatch_spec comp q
    have hcomp : ∀ e ∈ leavesOf kids, Agree comp e.1 := by
      intro e he
      obtain ⟨x, hx, he⟩ := mem_leavesOf.1 he
      have := ((kid x hx).agree e he).mono
      simpa using this
    constructor
    · intro hm
      rw [hm] at hsp
      obtain ⟨i, h3, h4, h5, h6⟩ := hsp
      refine ⟨h2, i, comp.get i, h4, by simpa using h6, ?_⟩
      intro e he
      have he : e ∈ leavesOf kids := by simpa [Node.leaves] using he
      refine ⟨hcomp e he i h3, ?_⟩
      intro j hj
      rw [hcomp e he j (by omega), h5 j hj]
    · rintro ⟨-, i, c, h3, h4, h5⟩
      simp only [Node.leaves] at h5
      -- the shared bytes end where the children part
      have hi : i < comp.length := by
        refine Classical.byContradiction fun hi => ?_
        match kids, two with
        | (x, m) :: (y, n) :: rest, _ =>
          have hxy : x < y := by
            rw [List.pairwise_cons] at sorted
            exact sorted.1 (y, n) (by simp)
          have hm := (kid (x, m) (by simp))
          have hn := (kid (y, n) (by simp))
          obtain ⟨e, he⟩ := List.exists_mem_of_ne_nil _ hm.ne_nil
          obtain ⟨f, hf⟩ := List.exists_mem_of_ne_nil _ hn.ne_nil
          have h6 := kid_byte (p := []) (comp := comp) (by simpa using hm) he (q := [])
          have h7 := kid_byte (p := []) (comp := comp) (by simpa using hn) hf (q := [])
          simp only [List.length_nil, Nat.zero_add] at h6 h7
          have he' : e ∈ leavesOf ((x, m) :: (y, n) :: rest) := by simp only [leavesOf]; simp [he]
          have hf' : f ∈ leavesOf ((x, m) :: (y, n) :: rest) := by simp only [leavesOf]; simp [hf]
          have h8 := h5 e he'
          have h9 := h5 f hf'
          have : x = y := by
            by_cases hj : comp.length = i
            · rw [← hj] at h8 h9; rw [← h6, ← h7, h8.1, h9.1]
            · rw [← h6, ← h7, h8.2 _ (by omega), h9.2 _ (by omega)]
          exact ub _ _ hxy this
      obtain ⟨e, he⟩ := List.exists_mem_of_ne_nil _ hok.ne_nil
      have he : e ∈ leavesOf kids := by simpa [Node.leaves] using he
      obtain ⟨h6, h7⟩ := h5 e he
      have hcg : ∀ j, j < comp.length → e.1.get j = comp.get j := fun j hj => hcomp e he j hj
      cases hm : mismatch comp q with
      | none =>
        rw [hm] at hsp
        have := hsp i hi h3
        rw [this, ← hcg i hi, h6] at h4
        exact absurd h4 (by grind)
      | some g =>
        rw [hm] at hsp
        obtain ⟨j, g1, g2, g3, g4⟩ := hsp
        have hji : j = i := by
          by_cases hlt : j < i
          · have := h7 j hlt
            rw [hcg j g1] at this
            rw [this] at g4
            split at g4 <;> exact absurd g4 (by grind)
          · by_cases hgt : i < j
            · have := g3 i hgt
              rw [this, ← hcg i hi, h6] at h4
              exact absurd h4 (by grind)
            · omega
        subst hji
        cases g with
        | false => rfl
        | true =>
          simp only [if_true] at g4
          rw [← hcg j g1, h6] at g4
          exact absurd g4 (by grind)

/-- A tree with one key is a leaf. -/
theorem one_leaf {p : Key} {r : Node V} (h : Ok p r) (h1 : r.leaves.length = 1) : ∃ k v, r = .leaf k v := by
  cases h with
  | @leaf _ k v h => exact ⟨k, v, rfl⟩
  | @inner _ comp kind subN kids a b c d e f g =>
    exfalso
    have hok2 : Ok p (.inner comp kind subN kids) := .inner a b c d e f g
    obtain ⟨y, z, rest, hyz⟩ := hok2.two_leaves
    simp only [Node.leaves, hyz] at h1
    simp at h1

theorem miss_found {r : Node V} {q : Key} (hq : q ≠ []) (hl : 2 ≤ r.leaves.length) (hm : Miss q 0 r) (sm : SMod) :
    (r.getGTE q sm 0 0 false 0).found = false := by
  cases r with
  | leaf k v => simp [Node.leaves] at hl
  | inner comp kind subN kids =>
    rw [Node.getGTE]
    dsimp only
    rw [if_neg (by simp), if_neg hq, if_neg (by simp), if_neg (by simp)]
    simp only [Miss] at hm
    rw [hm]

/-- What the searches for greater keys find. -/
theorem find_up {t : Tree V} {L : List (Key × V)} (h : TreeOk t L) {q : Key} (hq : q ≠ []) {sm : SMod}
    (hs : sm = .gte ∨ sm = .gt) (hd : sm = .gt → ∀ e, L = [e] → e.1 ≠ q) :
    ((t.find sm q).found = true ∧ ¬ Below q L ∧ ∃ l1 e l2, L = l1 ++ e :: l2 ∧ (t.find sm q).idx = l1.length ∧
      (t.find sm q).lf = some e ∧ Good sm q e.1 ∧ ∀ x ∈ l1, ¬ Good sm q x.1) ∨
    ((t.find sm q).found = false ∧ ((∀ e ∈ L, ¬ Good sm q e.1) ∨ Below q L)) := by
  have hroot := h.root
  unfold Tree.find
  cases hr : t.root with
  | none => rw [hr] at hroot; subst hroot; right; simp
  | some r =>
    rw [hr] at hroot
    obtain ⟨hok, rfl⟩ := hroot
    dsimp only
    rw [if_neg (by grind)]
    have hpos : 0 < r.leaves.length := List.length_pos_iff.2 hok.ne_nil
    by_cases h1 : t.size = 1
    · rw [if_pos h1]
      rw [h.size] at h1
      obtain ⟨k, v, rfl⟩ := one_leaf hok h1
      simp only [Node.leaves] at hd ⊢
      have hnb : ¬ Below q [(k, v)] := by rintro ⟨h2, -⟩; simp at h2
      have hsr : Node.search (.leaf k v) sm q = leafGet q k v := by
        rcases hs with rfl | rfl <;> simp [Node.search, Node.getGTE]
      rw [hsr]
      rcases klt_tri q k with hlt | heq | hgt
      · rw [leafGet_lt hlt]
        left
        rcases hs with rfl | rfl <;>
          exact ⟨by simp [single], hnb, [], (k, v), [], rfl, by simp [single], by simp [single], good_of_gt (by simp) hlt, by simp⟩
      · rw [leafGet_eq heq.symm]
        rcases hs with rfl | rfl
        · left
          exact ⟨by simp [single], hnb, [], (k, v), [], rfl, by simp [single], by simp [single],
            by simp [Good, heq, klt_irrefl], by simp⟩
        · exact absurd heq.symm (hd rfl (k, v) rfl)
      · rw [leafGet_gt hgt]
        right
        rcases hs with rfl | rfl <;>
          exact ⟨by simp [single], .inl (by simpa using not_good_of_lt (by simp) hgt)⟩
    · rw [if_neg h1]
      rw [h.size] at h1
      have h2 : 2 ≤ r.leaves.length := by omega
      rw [← miss_iff hok h2]
      have hg := getGTE_ok hok hq (fit_nil q) hs 0
      simp only [List.length_nil] at hg
      have hx : r.search sm q = r.getGTE q sm 0 0 false 0 := by
        rcases hs with rfl | rfl <;> rfl
      rw [hx]
      rcases hg with hg | ⟨f1, f2, f3⟩ | ⟨f1, f2, f3, f4⟩ | ⟨f1, w, f2, f3⟩
      · obtain ⟨g1, g2⟩ := hg
        left
        refine ⟨g1, ?_, g2⟩
        intro hm
        rw [miss_found hq h2 hm] at g1
        exact absurd g1 (by simp)
      · right; exact ⟨f1, .inl f3⟩
      · right; exact ⟨f1, .inr (f4 trivial)⟩
      · rw [f2] at h2; simp [Node.leaves] at h2

/-- What the searches for smaller keys find. -/
theorem find_down {t : Tree V} {L : List (Key × V)} (h : TreeOk t L) {q : Key} (hq : q ≠ []) {sm : SMod}
    (hs : sm = .lte ∨ sm = .lt) (hd : sm = .lt → ∀ e, L = [e] → e.1 ≠ q) :
    ((t.find sm q).found = true ∧ ∃ l1 e l2, L = l1 ++ e :: l2 ∧ (t.find sm q).idx = l1.length ∧
      (t.find sm q).lf = some e ∧ Good sm q e.1 ∧ ∀ x ∈ l2, ¬ Good sm q x.1) ∨
    ((t.find sm q).found = false ∧ ∀ e ∈ L, ¬ Good sm q e.1) := by
  have hroot := h.root
  unfold Tree.find
  cases hr : t.root with
  | none => rw [hr] at hroot; subst hroot; right; simp
  | some r =>
    rw [hr] at hroot
    obtain ⟨hok, rfl⟩ := hroot
    dsimp only
    rw [if_neg (by grind)]
    have hpos : 0 < r.leaves.length := List.length_pos_iff.2 hok.ne_nil
    by_cases h1 : t.size = 1
    · rw [if_pos h1]
      rw [h.size] at h1
      obtain ⟨k, v, rfl⟩ := one_leaf hok h1
      simp only [Node.leaves] at hd ⊢
      have hsr : Node.search (.leaf k v) sm q = leafGet q k v := by
        rcases hs with rfl | rfl <;> simp [Node.search, Node.getLTE]
      rw [hsr]
      rcases klt_tri q k with hlt | heq | hgt
      · rw [leafGet_lt hlt]
        right
        rcases hs with rfl | rfl <;>
          exact ⟨by simp [single], by simpa using not_good_of_gt (by simp) hlt⟩
      · rw [leafGet_eq heq.symm]
        rcases hs with rfl | rfl
        · left
          exact ⟨by simp [single], [], (k, v), [], rfl, by simp [single], by simp [single],
            by simp [Good, heq, klt_irrefl], by simp⟩
        · exact absurd heq.symm (hd rfl (k, v) rfl)
      · rw [leafGet_gt hgt]
        left
        rcases hs with rfl | rfl <;>
          exact ⟨by simp [single], [], (k, v), [], rfl, by simp [single], by simp [single], good_of_lt (by simp) hgt, by simp⟩
    · rw [if_neg h1]
      rw [h.size] at h1
      have h2 : 2 ≤ r.leaves.length := by omega
      have hg := getLTE_ok hok hq (fit_nil q) hs 0
      simp only [List.length_nil] at hg
      have hx : r.search sm q = r.getLTE q sm 0 0 false 0 := by
        rcases hs with rfl | rfl <;> rfl
      rw [hx]
      rcases hg with hg | ⟨f1, f2, f3⟩ | ⟨f1, f2, f3, f4⟩ | ⟨f1, w, f2, f3⟩
      · exact .inl hg
      · right; exact ⟨f1, f3⟩
      · obtain ⟨k, v, rfl⟩ := f4 trivial
        simp [Node.leaves] at h2
      · rw [f2] at h2; simp [Node.leaves] at h2

/-- A search with no key finds the first leaf, or the last. -/
theorem find_nil {t : Tree V} {L : List (Key × V)} (h : TreeOk t L) (hne : L ≠ []) (sm : SMod) (hs : sm ≠ .exact) :
    (t.find sm []).found = true ∧
    (if sm = .gte ∨ sm = .gt then (t.find sm []).lf = L.head? ∧ (t.find sm []).idx = 0
     else (t.find sm []).lf = L.getLast? ∧ (t.find sm []).idx = L.length - 1) := by
  have hroot := h.root
  unfold Tree.find
  cases hr : t.root with
  | none => rw [hr] at hroot; exact absurd hroot hne
  | some r =>
    rw [hr] at hroot
    obtain ⟨hok, rfl⟩ := hroot
    dsimp only
    by_cases h1 : t.size = 1
    · rw [if_pos ⟨rfl, h1⟩]
      rw [h.size] at h1
      obtain ⟨k, v, rfl⟩ := one_leaf hok h1
      simp [Node.leaves]
    · rw [if_neg (by simp [h1]), if_neg h1]
      rw [h.size] at h1
      have hfirst := first_ok hok
      have hlast := last_ok hok
      have hpos : 0 < r.leaves.length := List.length_pos_iff.2 hne
      cases r with
      | leaf k v => simp [Node.leaves] at h1
      | inner comp kind subN kids =>
        have hsub : subN = (Node.inner comp kind subN kids).leaves.length := hok.subn
        cases sm with
        | exact => exact absurd rfl hs
        | gte => simp [Node.search, Node.getGTE, hfirst]
        | gt => simp [Node.search, Node.getGTE, hfirst]
        | lte =>
          simp only [Node.search, Node.getLTE]
          rw [if_neg (by simp), if_pos trivial]
          simp only [reduceCtorEq, or_self, if_false]
          exact ⟨trivial, hlast, by rw [← hsub]⟩
        | lt =>
          simp only [Node.search, Node.getLTE]
          rw [if_neg (by simp), if_pos trivial]
          simp only [reduceCtorEq, or_self, if_false]
          exact ⟨trivial, hlast, by rw [← hsub]⟩

end Verif.Art
