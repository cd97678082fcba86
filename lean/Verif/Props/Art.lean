import Verif.Proofs.ArtAt
/-
The radix tree: C36 (a sorted map), C37 (nearest keys), C64 (changing the tree during an
iteration), C65 (places in the order).
-/
namespace Verif.Art

set_option linter.unusedSectionVars false
variable {V : Type}

/-! ### Calls used in the examples -/

/-- "u1", "u2", "ze" and the empty key come and go. -/
def sample : List (Op Nat) :=
  [.insert [122, 101] 5, .remove [117, 49], .insert [117, 50] 4, .insert [117, 49] 3, .insert [117, 50] 2, .insert [] 1]

/-! ### C36: a sorted map -/

/-- C36. After any inserts and removals — none of which puts in a key while the tree holds it
with a zero byte and more behind it, or the other way round — the tree is the map of the calls:
no call panics, the size is the number of keys, an insert says whether the key was there, a removal
gives what it removed, and an exact search finds the keys of the map and no others, with the
latest value. Partial: keys with zero bytes as above (`C36_zero_byte_counterexample`), and a
search for the empty key in a tree with one key (`C36_empty_key_counterexample`). -/
theorem C36_tree_is_the_map_partial (ops : List (Op V)) (h : Separate ops) :
    ∃ t, run ops = some t ∧ Count (contents ops) t.size ∧
      (∀ k v, (∀ a, contents ops a ≠ none → ¬ ZeroExt a k ∧ ¬ ZeroExt k a) →
        ∃ t' updated, t.insert k v = some (t', updated) ∧ (updated = true ↔ contents ops k ≠ none)) ∧
      (∀ k, (t.remove k).2 = (contents ops k).map fun v => (k, v)) ∧
      (∀ q, q ≠ [] ∨ t.size ≠ 1 →
        ((t.find .exact q).found = true ↔ contents ops q ≠ none) ∧
        ((t.find .exact q).found = true → (t.find .exact q).lf = (contents ops q).map fun v => (q, v))) := by
  obtain ⟨t, h1, L, h2, h3⟩ := run_holds ops h
  refine ⟨t, h1, by rw [h2.size]; exact count_of h3, ?_, ?_, ?_⟩
  · intro k v hk
    obtain ⟨t', u, g1, -, g2, -⟩ := Holds.insert ⟨L, h2, h3⟩ (v := v) hk
    exact ⟨t', u, g1, g2⟩
  · intro k
    exact (Holds.remove ⟨L, h2, h3⟩ k).2
  · intro q hq
    rcases find_exact h2 hq with ⟨g1, e, g2, g3, rfl⟩ | ⟨g1, g2⟩
    · have hm : e ∈ L := List.mem_of_getElem? g2
      have hc := (h3.2 e.1 e.2).1 hm
      refine ⟨by simp [g1, hc], fun _ => ?_⟩
      rw [g3, hc]; rfl
    · refine ⟨?_, by rw [g1]; simp⟩
      rw [g1]
      simp only [Bool.false_eq_true, false_iff, ne_eq, Decidable.not_not]
      cases hc : contents ops q with
      | none => rfl
      | some v => exact absurd rfl (g2 _ ((h3.2 q v).2 hc))

/-- Calls that meet the hypotheses, and what the tree has to hold then. -/
example : Separate sample ∧ contents sample [117, 50] = some 4 ∧ contents sample [117, 49] = none ∧
    contents sample [] = some 1 := by
  refine ⟨?_, rfl, rfl, rfl⟩
  have hz : ∀ a b : Key, (0 : UInt8) ∉ a → (0 : UInt8) ∉ b → ¬ ZeroExt a b ∧ ¬ ZeroExt b a := by
    rintro a b ha hb
    exact ⟨by rintro ⟨s, rfl⟩; simp at hb, by rintro ⟨s, rfl⟩; simp at ha⟩
  have hc : ∀ (ops : List (Op Nat)), (∀ k v, Op.insert k v ∈ ops → (0 : UInt8) ∉ k) →
      ∀ a, contents ops a ≠ none → (0 : UInt8) ∉ a := by
    intro ops
    induction ops with
    | nil => intro _ a h; simp [contents] at h
    | cons op ops ih =>
      intro hops a ha
      cases op with
      | insert k v =>
        simp only [contents] at ha
        split at ha
        · rename_i hak; rw [hak]; exact hops k v (by simp)
        · exact ih (fun k v hk => hops k v (by simp [hk])) a ha
      | remove k =>
        simp only [contents] at ha
        split at ha
        · simp at ha
        · exact ih (fun k v hk => hops k v (by simp [hk])) a ha
  unfold sample
  refine ⟨fun a ha => hz _ _ (hc _ (by simp <;> grind) a ha) (by decide), ?_⟩
  refine ⟨fun a ha => hz _ _ (hc _ (by simp <;> grind) a ha) (by decide), ?_⟩
  refine ⟨fun a ha => hz _ _ (hc _ (by simp <;> grind) a ha) (by decide), ?_⟩
  refine ⟨fun a ha => hz _ _ (hc _ (by simp <;> grind) a ha) (by decide), ?_⟩
  exact ⟨fun a ha => hz _ _ (hc _ (by simp <;> grind) a ha) (by decide), trivial⟩

/-- C36. A loop over a range gives the keys of the range with their values, in byte order upwards
(`Ascend(a, b)`: from `a` to before `b`) or downwards (`Descend(a, b)`: from `b` to after `a`);
with no bounds, all of them. Partial: a lower bound `a` below a prefix common to all keys
(`C36_range_counterexample`). -/
theorem C36_ranges_partial (ops : List (Op V)) (h : Separate ops) :
    ∃ t l, run ops = some t ∧ Lists l (contents ops) ∧ ∀ a b n, t.size < n → (2 ≤ t.size → ¬ Under a (contents ops)) →
      t.drain n (t.iter a b) = l.filter (fun e => decide (¬ e.1 < a ∧ (b = [] ∨ e.1 < b))) ∧
      t.drain n (t.revIter a b) =
        (l.filter fun e => decide ((b = [] ∨ ¬ b < e.1) ∧ (a = [] ∨ a < e.1))).reverse := by
  obtain ⟨t, h1, L, h2, h3⟩ := run_holds ops h
  refine ⟨t, L, h1, h3, ?_⟩
  intro a b n hn hu
  have hb : ¬ Below a L := by
    rw [below_iff h3, ← h2.size]
    rintro ⟨g1, g2⟩; exact hu g1 g2
  rw [h2.size] at hn
  exact ⟨ascend_ok h2 hb n hn, descend_ok h2 hb n hn⟩

/-- C36. A loop without bounds gives every key. -/
theorem C36_full_iteration_partial (ops : List (Op V)) (h : Separate ops) :
    ∃ t l, run ops = some t ∧ Lists l (contents ops) ∧ ∀ n, t.size < n →
      t.drain n (t.iter [] []) = l ∧ t.drain n (t.revIter [] []) = l.reverse := by
  obtain ⟨t, l, h1, h2, h3⟩ := C36_ranges_partial ops h
  refine ⟨t, l, h1, h2, fun n hn => ?_⟩
  obtain ⟨g1, g2⟩ := h3 [] [] n hn (fun _ => by rintro ⟨p, c, d, s, h, -⟩; simp at h)
  rw [g1, g2]
  constructor
  · rw [List.filter_eq_self]; simp
  · congr 1; rw [List.filter_eq_self]; simp

/-- A tree, the loop over a range of it, upwards and downwards. -/
example : (run sample).map (fun t => (t.drain 9 (t.iter [] [122]), t.drain 9 (t.revIter [] []))) =
    some ([([], 1), ([117, 50], 4)], [([122, 101], 5), ([117, 50], 4), ([], 1)]) := by decide +kernel

/-- With "a\0b", "a\0c" and "d" in the tree, the key "a" cannot be found after it was inserted,
and inserting it a second time panics. -/
theorem C36_zero_byte_counterexample :
    let ops : List (Op Nat) := [.insert [97] 4, .insert [100] 3, .insert [97, 0, 99] 2, .insert [97, 0, 98] 1]
    (run ops).map (fun t => (t.find .exact [97]).found) = some false ∧
    contents ops [97] = some 4 ∧ run (.insert [97] 5 :: ops) = none := by
  refine ⟨by decide +kernel, rfl, by rfl⟩

/-- In a tree with one key, a search for the empty key finds that key. -/
theorem C36_empty_key_counterexample (k : Key) (v : V) :
    ∃ t, run [.insert k v] = some t ∧ t.find .exact [] = { lf := some (k, v), idx := 0, found := true } := by
  refine ⟨_, rfl, ?_⟩
  simp [Tree.find]

/-- When the lower bound is below a prefix common to all keys, and there are at least two, then a
loop gives nothing, although upwards every key is in its range. -/
theorem C36_range_counterexample (ops : List (Op V)) (h : Separate ops) (a b : Key) :
    ∃ t, run ops = some t ∧ (2 ≤ t.size → Under a (contents ops) →
      (∀ k, contents ops k ≠ none → a < k) ∧ ∀ n, t.drain n (t.iter a b) = [] ∧ t.drain n (t.revIter a b) = []) := by
  obtain ⟨t, h1, L, h2, h3⟩ := run_holds ops h
  refine ⟨t, h1, fun hsz hu => ⟨?_, ?_⟩⟩
  · obtain ⟨p, c, d, s, rfl, hd, hall⟩ := hu
    intro k hk
    obtain ⟨z, hz⟩ := hall k hk
    rw [← hz, List.append_assoc]
    refine List.append_left_lt ?_
    exact List.Lex.rel hd
  · have hb : Below a L := (below_iff h3 a).2 ⟨by rw [← h2.size]; exact hsz, hu⟩
    intro n
    cases n with
    | zero => exact ⟨rfl, rfl⟩
    | succ n =>
      have e1 := (first_res h2 false a b).2.1 hb
      have e2 := (first_res h2 true a b).2.1 hb
      simp only [startIter, Bool.false_eq_true, if_false, if_true] at e1 e2
      rw [Tree.drain, Tree.drain]
      generalize t.next (t.iter a b) = x at e1
      generalize t.next (t.revIter a b) = y at e2
      obtain ⟨x1, x2⟩ := x
      obtain ⟨y1, y2⟩ := y
      simp only at e1 e2
      subst e1 e2
      exact ⟨rfl, rfl⟩

/-- "u1" and "u2" in the tree, and a loop from "a". -/
example : (run [.insert [117, 49] 1, .insert [117, 50] 2]).map
    (fun t => (t.drain 9 (t.iter [97] []), t.drain 9 (t.iter [117] []))) =
    some ([], [([117, 49], 1), ([117, 50], 2)]) := by decide +kernel

/-! ### C37: nearest keys -/

/-- C37. A search finds the first key that is at least, or above, the one asked for, or the last
one that is at most, or below it, with its value and its place in the order; and finds nothing
only when there is none. Partial: keys below a prefix common to all keys when searching upwards
(`C37_common_prefix_counterexample`), and a strict search for the only key of a tree
(`C37_single_key_counterexample`). -/
theorem C37_nearest_key_partial (ops : List (Op V)) (h : Separate ops) (sm : SMod) (q : Key) (hsm : sm ≠ .exact)
    (hq : q ≠ []) :
    ∃ t, run ops = some t ∧
      ((sm = .gte ∨ sm = .gt → 2 ≤ t.size → ¬ Under q (contents ops)) →
       (sm = .gt ∨ sm = .lt → t.size = 1 → contents ops q = none) →
        FirstIs (contents ops) (Wanted sm q) (decide (sm = .lte ∨ sm = .lt))
          (if (t.find sm q).found then (t.find sm q).lf else none) ∧
        ((t.find sm q).found = true → (t.find sm q).lf.isSome = true) ∧
        ∀ k v, (t.find sm q).found = true → (t.find sm q).lf = some (k, v) →
          Rank (contents ops) k (t.find sm q).idx) := by
  obtain ⟨t, h1, L, h2, h3⟩ := run_holds ops h
  refine ⟨t, h1, fun hu hd => ?_⟩
  have hgw : ∀ k, Good sm q k ↔ Wanted sm q k := by intro k; cases sm <;> simp [Good, Wanted]
  have hsingle : sm = .gt ∨ sm = .lt → ∀ e, L = [e] → e.1 ≠ q := by
    rintro hs e rfl rfl
    have := hd hs (by rw [h2.size]; rfl)
    rw [(h3.2 e.1 e.2).1 (by simp)] at this
    simp at this
  have hnb : sm = .gte ∨ sm = .gt → ¬ Below q L := by
    intro hs
    rw [below_iff h3, ← h2.size]
    rintro ⟨g1, g2⟩; exact hu hs g1 g2
  have hnone : (∀ e ∈ L, ¬ Good sm q e.1) → ∀ a, contents ops a ≠ none → ¬ Wanted sm q a := by
    intro hn a ha
    obtain ⟨v, hv⟩ := (lists_mem h3).1 ha
    rw [← hgw]; exact hn _ hv
  by_cases hs : sm = .gte ∨ sm = .gt
  · have hr : decide (sm = .lte ∨ sm = .lt) = false := by rcases hs with rfl | rfl <;> simp
    rw [hr]
    rcases find_up h2 hq hs (fun hs => hsingle (.inl hs)) with ⟨g1, -, l1, e, l2, g2, g3, g4, g5, g6⟩ | ⟨g1, g2 | g2⟩
    · rw [if_pos g1, g4]
      refine ⟨⟨(h3.2 e.1 e.2).1 (by rw [g2]; simp), (hgw _).1 g5, ?_⟩, by simp, ?_⟩
      · intro a ha hw
        obtain ⟨v, hv⟩ := (lists_mem h3).1 ha
        refine first_of_split (rev := false) (P := Good sm q) h2.sorted (by simpa [order] using g2) g6 _ hv ((hgw _).2 hw)
      · intro k v _ hkv
        simp at hkv; subst hkv
        rw [g3]; exact rank_of h3 g2
    · rw [g1]
      exact ⟨hnone g2, by simp, by simp⟩
    · exact absurd g2 (hnb hs)
  · have hs' : sm = .lte ∨ sm = .lt := by cases sm <;> simp at *
    have hr : decide (sm = .lte ∨ sm = .lt) = true := by simpa using hs'
    rw [hr]
    rcases find_down h2 hq hs' (fun hs => hsingle (.inr hs)) with ⟨g1, l1, e, l2, g2, g3, g4, g5, g6⟩ | ⟨g1, g2⟩
    · rw [if_pos g1, g4]
      refine ⟨⟨(h3.2 e.1 e.2).1 (by rw [g2]; simp), (hgw _).1 g5, ?_⟩, by simp, ?_⟩
      · intro a ha hw
        obtain ⟨v, hv⟩ := (lists_mem h3).1 ha
        refine first_of_split (rev := true) (pre := l2.reverse) (post := l1.reverse) (P := Good sm q) h2.sorted
          (by simp [order, g2]) (fun x hx => g6 x (by simpa using hx)) _ hv ((hgw _).2 hw)
      · intro k v _ hkv
        simp at hkv; subst hkv
        rw [g3]; exact rank_of h3 g2
    · rw [g1]
      exact ⟨hnone g2, by simp, by simp⟩

/-- C37. A search without a key finds the first key, or the last. -/
theorem C37_no_key_partial (ops : List (Op V)) (h : Separate ops) (sm : SMod) (hsm : sm ≠ .exact) :
    ∃ t, run ops = some t ∧
      FirstIs (contents ops) (fun _ => True) (decide (sm = .lte ∨ sm = .lt))
        (if (t.find sm []).found then (t.find sm []).lf else none) := by
  obtain ⟨t, h1, L, h2, h3⟩ := run_holds ops h
  refine ⟨t, h1, ?_⟩
  by_cases hne : L = []
  · subst hne
    have hf : (t.find sm []).found = false := by
      have := h2.root
      cases hr : t.root with
      | none => simp [Tree.find, hr]
      | some r => rw [hr] at this; exact absurd this.2.symm this.1.ne_nil
    rw [hf]
    intro a ha
    obtain ⟨v, hv⟩ := (lists_mem h3).1 ha
    simp at hv
  · obtain ⟨g1, g2⟩ := find_nil h2 hne sm hsm
    rw [if_pos g1]
    by_cases hs : sm = .gte ∨ sm = .gt
    · rw [if_pos hs] at g2
      have hr : decide (sm = .lte ∨ sm = .lt) = false := by rcases hs with rfl | rfl <;> simp
      rw [hr, g2.1]
      cases L with
      | nil => exact absurd rfl hne
      | cons e L =>
        refine ⟨(h3.2 e.1 e.2).1 (by simp), trivial, ?_⟩
        intro a ha _
        obtain ⟨v, hv⟩ := (lists_mem h3).1 ha
        exact first_of_split (rev := false) (pre := []) (P := fun _ => True) h2.sorted (by simp [order]; rfl) (by simp) _ hv trivial
    · rw [if_neg hs] at g2
      have hs' : sm = .lte ∨ sm = .lt := by cases sm <;> simp at *
      have hr : decide (sm = .lte ∨ sm = .lt) = true := by simpa using hs'
      rw [hr, g2.1]
      cases hl : L.getLast? with
      | none => simp at hl; exact absurd hl hne
      | some e =>
        obtain ⟨A, rfl⟩ := last_split hl
        refine ⟨(h3.2 e.1 e.2).1 (by simp), trivial, ?_⟩
        intro a ha _
        obtain ⟨v, hv⟩ := (lists_mem h3).1 ha
        exact first_of_split (rev := true) (pre := []) (post := A.reverse) (P := fun _ => True) h2.sorted
          (by simp [order]) (by simp) _ hv trivial

/-- Four searches for a key that is not there. -/
example : (run sample).map (fun t => [(t.find .gte [117, 51]).lf, (t.find .lte [117, 51]).lf, (t.find .lt [117, 50]).lf]) =
    some [some ([122, 101], 5), some ([117, 50], 4), some ([], 1)] ∧
    (run sample).map (fun t => ((t.find .gt [117, 50]).idx, (t.find .gte [123]).found)) = some (2, false) := by
  decide +kernel

/-- No common prefix of the sample's keys is above the key asked for: the empty key is there. -/
example (q : Key) : ¬ Under q (contents sample) := by
  rintro ⟨p, c, d, s, -, -, h⟩
  have := h [] (by decide)
  simp at this

/-- When the key asked for is below a prefix common to all keys, and there are at least two, then
the upward searches find nothing, though every key is above it. -/
theorem C37_common_prefix_counterexample (ops : List (Op V)) (h : Separate ops) (q : Key) :
    ∃ t, run ops = some t ∧ (2 ≤ t.size → Under q (contents ops) →
      (∃ k, contents ops k ≠ none) ∧ (∀ k, contents ops k ≠ none → q < k) ∧
      (t.find .gte q).found = false ∧ (t.find .gt q).found = false) := by
  obtain ⟨t, h1, L, h2, h3⟩ := run_holds ops h
  refine ⟨t, h1, fun hsz hu => ?_⟩
  have hlen : 2 ≤ L.length := by rw [← h2.size]; exact hsz
  have hb : Below q L := (below_iff h3 q).2 ⟨hlen, hu⟩
  have hq : q ≠ [] := by rintro rfl; exact below_nil L hb
  have hone : ∀ e, L = [e] → e.1 ≠ q := by rintro e rfl; simp at hlen
  refine ⟨?_, ?_, ?_, ?_⟩
  · cases L with
    | nil => simp at hlen
    | cons e L => exact ⟨e.1, (lists_mem h3).2 ⟨e.2, by simp⟩⟩
  · obtain ⟨p, c, d, s, rfl, hd, hall⟩ := hu
    intro k hk
    obtain ⟨z, hz⟩ := hall k hk
    rw [← hz, List.append_assoc]
    refine List.append_left_lt ?_
    exact List.Lex.rel hd
  · rcases find_up h2 hq (sm := .gte) (.inl rfl) (fun _ => hone) with ⟨-, g, -⟩ | ⟨g, -⟩
    · exact absurd hb g
    · exact g
  · rcases find_up h2 hq (sm := .gt) (.inr rfl) (fun _ => hone) with ⟨-, g, -⟩ | ⟨g, -⟩
    · exact absurd hb g
    · exact g

/-- The keys "u1" and "u2", and the first key at or above "a". -/
example : (run [.insert [117, 49] 1, .insert [117, 50] 2]).map (fun t => (t.find .gte [97]).found) = some false := by
  decide +kernel

/-- In a tree with one key, the strict searches for that key find it. -/
theorem C37_single_key_counterexample (k : Key) (v : V) (hk : k ≠ []) :
    ∃ t, run [.insert k v] = some t ∧
      t.find .gt k = { lf := some (k, v), idx := 0, found := true } ∧
      t.find .lt k = { lf := some (k, v), idx := 0, found := true } := by
  refine ⟨_, rfl, ?_⟩
  have h : leafGet k k v = _ := leafGet_eq (val := v) rfl
  simp [Tree.find, hk, Node.search, Node.getGTE, Node.getLTE, h, single]

/-! ### C64: changing the tree during an iteration -/

/-- C64. While a program inserts and removes keys, the iterator's next answer is always the first
key after the last one it gave, among those the tree holds then, up to the end of its range, and
its index is that key's place in the order then; it ends only when there is none. Partial: see
`Walk` for the programs left out, and: the last key given was removed and lies below a prefix
common to all keys left, or it is the only key left. `C64_*_counterexample` show what happens in
these cases. -/
theorem C64_next_key_partial {rev : Bool} {a b : Key} {ops : List (Op V)} {t : Tree V} {it : Iter V}
    {last : Option Key} (hw : Walk rev a b ops t it last) (hs : Separate ops) (hE : contents ops [] = none)
    (h1 : ∀ c, last = some c → t.size = 1 → contents ops c = none)
    (hf : last = none → 2 ≤ t.size → ¬ Under a (contents ops))
    (hu : ∀ c, last = some c → rev = false → 2 ≤ t.size → ¬ Under c (contents ops)) :
    FirstIs (contents ops) (fun k => InRange rev a b k ∧ ∀ c, last = some c → After rev c k) rev (t.answer it) ∧
    ∀ k v, t.answer it = some (k, v) → ∃ i : Nat, (t.next it).1.curIdx = i ∧ Rank (contents ops) k i := by
  obtain ⟨-, L, h2, h3, h4⟩ := walk_inv hw hs
  cases last with
  | none =>
    dsimp only at h4
    subst h4
    have hb : ¬ Below a L := by
      rw [below_iff h3, ← h2.size]; rintro ⟨g1, g2⟩; exact hf rfl g1 g2
    refine firstIs_of h3 (((first_res h2 rev a b).1 hb).congr ?_)
    intro k; simp
  | some c =>
    obtain ⟨g1, g2, g3, g4, g5⟩ := h4
    have hE' : ∀ e ∈ L, e.1 ≠ [] := by
      intro e he hn
      have := (h3.2 e.1 e.2).1 he
      rw [hn, hE] at this; simp at this
    have hone : ∀ e, L = [e] → e.1 ≠ c := by
      rintro e rfl rfl
      have := h1 e.1 rfl (by rw [h2.size]; rfl)
      rw [(h3.2 e.1 e.2).1 (by simp)] at this; simp at this
    have hb : it.reverse = false → ¬ Below c L := by
      rw [g4]
      intro hr
      rw [below_iff h3, ← h2.size]; rintro ⟨q1, q2⟩; exact hu c rfl hr q1 q2
    have hres := (live_res h2 g1 g2 hone hE').1 hb
    rw [g4] at hres
    refine firstIs_of h3 (hres.congr ?_)
    intro k
    have := left_iff g4 g5 g3 k
    rw [g4] at this
    rw [this]
    simp

/-- C64. When `Next` has said that there are no more keys, it says so from then on. -/
theorem C64_ended_stays_ended (t t' : Tree V) (it : Iter V) (h : (t.next it).2 = false) :
    t'.answer (t.next it).1 = none := by
  have iter_closed : ∀ (fuel : Nat) (it : Iter V), (Iter.iterate fuel it).2 = false → (Iter.iterate fuel it).1.closed = true := by
    intro fuel
    induction fuel with
    | zero => intro it _; rfl
    | succ fuel ih =>
      intro it
      rw [Iter.iterate]
      cases it.stack with
      | nil => intro _; rfl
      | cons c below =>
        dsimp only
        cases hc : it.child c with
        | none => exact ih _
        | some x =>
          obtain ⟨b, n⟩ := x
          cases n with
          | leaf k v =>
            dsimp only
            split
            · intro h; simp at h
            · exact ih _
          | inner c1 c2 c3 c4 => exact ih _
  have go_closed : ∀ it : Iter V, (t.go it).2 = false → (t.go it).1.closed = true := by
    intro it
    unfold Tree.go
    split
    · intro _; rfl
    · split
      · intro h; simp at h
      · intro _; rfl
    · exact iter_closed _ _
    · exact iter_closed _ _
    · exact iter_closed _ _
  have hc : (t.next it).1.closed = true := by
    revert h
    unfold Tree.next
    split
    · intro _; assumption
    · split
      · split
        · intro _; rfl
        · exact go_closed _
      · exact go_closed _
  unfold Tree.answer
  rw [next_closed hc]
  simp

/-- A walk over "a", "b", "d" that removes "b" and inserts "c" after "a" was given. -/
example : ∃ t it, Walk false [] [] [.insert [99] 4, .remove [98], .insert [100] 3, .insert [98] 2, .insert [97] 1]
    t it (some [97]) ∧ t.answer it = some ([99], 4) ∧ t.size = 3 := by
  have h0 := Walk.start (V := Nat) (rev := false) (a := []) (b := [])
    (ops := [.insert [100] 3, .insert [98] 2, .insert [97] 1]) (t := _) rfl
  have h1 := Walk.next (k := [97]) (v := 1) h0 rfl (by decide +kernel) (by decide +kernel)
  have h2 := Walk.call (op := .remove [98]) h1 rfl
  have h3 := Walk.call (op := .insert [99] 4) h2 rfl
  exact ⟨_, _, h3, by decide +kernel, by decide +kernel⟩

/-- With "a", "b1" and "b2" in the tree, removing "a" when it was given ends the iteration: "b1" and
"b2" are not visited. -/
theorem C64_removal_ends_early_counterexample :
    ∃ t it, Walk (V := Nat) false [] [] [.remove [97], .insert [98, 50] 3, .insert [98, 49] 2, .insert [97] 1]
      t it (some [97]) ∧ t.answer it = none ∧
      contents [.remove [97], .insert [98, 50] 3, .insert [98, 49] 2, .insert [97] 1] [98, 49] = some 2 := by
  have h0 := Walk.start (V := Nat) (rev := false) (a := []) (b := [])
    (ops := [.insert [98, 50] 3, .insert [98, 49] 2, .insert [97] 1]) (t := _) rfl
  have h1 := Walk.next (k := [97]) (v := 1) h0 rfl (by decide +kernel) (by decide +kernel)
  have h2 := Walk.call (op := .remove [97]) h1 rfl
  exact ⟨_, _, h2, by decide +kernel, rfl⟩

/-- With "a" and "b" in the tree, removing "b" when "a" was given makes the iterator give "a" a
second time. -/
theorem C64_key_given_twice_counterexample :
    ∃ t it, Walk (V := Nat) false [] [] [.remove [98], .insert [98] 2, .insert [97] 1] t it (some [97]) ∧
      t.answer it = some ([97], 1) := by
  have h0 := Walk.start (V := Nat) (rev := false) (a := []) (b := [])
    (ops := [.insert [98] 2, .insert [97] 1]) (t := _) rfl
  have h1 := Walk.next (k := [97]) (v := 1) h0 rfl (by decide +kernel) (by decide +kernel)
  have h2 := Walk.call (op := .remove [98]) h1 rfl
  exact ⟨_, _, h2, by decide +kernel⟩

/-- An insertion between the call that makes the iterator and the first `Next` makes it leave out
the key it was to start from. -/
theorem C64_change_before_first_counterexample :
    ∃ t t', run (V := Nat) [.insert [98] 2, .insert [97] 1] = some t ∧
      run [.insert [99] 3, .insert [98] 2, .insert [97] 1] = some t' ∧
      t'.answer (t.iter [97] []) = some ([98], 2) ∧ t.answer (t.iter [97] []) = some ([97], 1) :=
  ⟨_, _, rfl, rfl, by decide +kernel, by decide +kernel⟩

/-- With one key in the tree the iterator is done when it has given it: a key inserted then is not
visited. -/
theorem C64_single_key_counterexample :
    ∃ t t', run (V := Nat) [.insert [97] 1] = some t ∧ run [.insert [98] 2, .insert [97] 1] = some t' ∧
      t.answer (t.iter [] []) = some ([97], 1) ∧ t'.answer (t.next (t.iter [] [])).1 = none :=
  ⟨_, _, rfl, rfl, by decide +kernel, by decide +kernel⟩

/-- Downwards, with the empty key in the tree, a removal makes the iterator start over: the keys
are "", "a", "b"; "b" and "a" were given, "b" is removed; the next one is "a" again. -/
theorem C64_empty_key_counterexample :
    ∃ t t', run (V := Nat) [.insert [98] 3, .insert [97] 2, .insert [] 1] = some t ∧
      run [.remove [98], .insert [98] 3, .insert [97] 2, .insert [] 1] = some t' ∧
      t.answer (t.revIter [] []) = some ([98], 3) ∧
      t.answer (t.next (t.revIter [] [])).1 = some ([97], 2) ∧
      t'.answer (t.next (t.next (t.revIter [] [])).1).1 = some ([97], 2) :=
  ⟨_, _, rfl, rfl, by decide +kernel, by decide +kernel, by decide +kernel⟩

/-! ### C65: places in the order -/

/-- C65. `At(i)`, `Atv(i)` and `Atfar(i)` give the key that has `i` keys before it, whatever calls were
made before, to them or to change the tree; and there is none when there are not that many keys. -/
theorem C65_at_partial (ops : List (Op V)) (t : Tree V) (c : Option (Iter V)) (h : Indexed ops t c) (hs : Separate ops) (i : Nat) :
    (t.at c i).1 = t.atfar i ∧
    (∀ k v, (t.at c i).1 = some (k, v) ↔ contents ops k = some v ∧ Rank (contents ops) k i) ∧
    ∀ n, Count (contents ops) n → ((t.at c i).1 = none ↔ n ≤ i) := by
  obtain ⟨-, L, h2, h3, h4⟩ := indexed_inv h hs
  rw [(at_spec h2 h4 i).1]
  refine ⟨?_, fun k v => index_iff h3, ?_⟩
  · unfold Tree.atfar
    have hroot := h2.root
    cases hr : t.root with
    | none => rw [hr] at hroot; subst hroot; rfl
    | some r => rw [hr] at hroot; rw [hroot.2, Option.bind_some, at_ok hroot.1]
  · intro n hn
    rw [count_unique hn (count_of h3)]
    exact List.getElem?_eq_none_iff

/-- Three calls in a row, the second from the kept iterator, the third beyond the end. -/
example : (run sample).map (fun t => [(t.at none 1).1, (t.at (t.at none 1).2 2).1, (t.at (t.at (t.at none 1).2 2).2 3).1]) =
    some [some ([117, 50], 4), some ([122, 101], 5), none] ∧
    (run sample).map (fun t => (t.cached (t.at none 1).2 2).isSome) = some true := by decide +kernel

/-- C65. `LeafIndex` and `FindExact` give the number of keys before the one asked for. -/
theorem C65_index_of_key_partial (ops : List (Op V)) (h : Separate ops) :
    ∃ t, run ops = some t ∧ ∀ q, q ≠ [] ∨ t.size ≠ 1 → contents ops q ≠ none →
      (t.find .exact q).found = true ∧ Rank (contents ops) q (t.find .exact q).idx := by
  obtain ⟨t, h1, L, h2, h3⟩ := run_holds ops h
  refine ⟨t, h1, fun q hq hc => ?_⟩
  rcases find_exact h2 hq with ⟨g1, e, g2, g3, rfl⟩ | ⟨g1, g2⟩
  · exact ⟨g1, (index_iff h3 (k := e.1) (v := e.2)).1 g2 |>.2⟩
  · obtain ⟨v, hv⟩ := (lists_mem h3).1 hc
    exact absurd rfl (g2 _ hv)

example : (run sample).map (fun t => ((t.find .exact [122, 101]).idx, (t.find .exact [117, 50]).idx)) = some (2, 1) := by
  decide +kernel

end Verif.Art
