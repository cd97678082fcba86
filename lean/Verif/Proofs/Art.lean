import Verif.Spec.Art
/-
Lemmas about the radix tree: its shape, insert and remove.
-/
namespace Verif.Art

set_option linter.unusedVariables false
set_option linter.unusedSectionVars false

variable {V : Type}

/-! ### Byte strings -/

theorem klt_trans {a b c : Key} (h : a < b) (h2 : b < c) : a < c := List.lt_trans h h2
theorem klt_irrefl (a : Key) : ¬ a < a := List.lt_irrefl a
theorem klt_asymm {a b : Key} (h : a < b) : ¬ b < a := List.lt_asymm h
theorem klt_tri (a b : Key) : a < b ∨ a = b ∨ b < a := Std.lt_trichotomy a b
theorem klt_ne {a b : Key} (h : a < b) : a ≠ b := fun e => klt_irrefl a (by rw [e] at h ⊢; exact h)
theorem not_klt_iff {a b : Key} : ¬ a < b ↔ a = b ∨ b < a := by
  constructor
  · intro h; rcases klt_tri a b with h1 | h1 | h1
    · exact absurd h1 h
    · exact .inl h1
    · exact .inr h1
  · rintro (rfl | h) h2
    · exact klt_irrefl _ h2
    · exact klt_asymm h h2
theorem klt_of_not {a b c : Key} (h : ¬ b < a) (h2 : b < c) : a < c := by
  rcases klt_tri a b with h1 | h1 | h1
  · exact klt_trans h1 h2
  · exact h1 ▸ h2
  · exact absurd h1 h
theorem klt_of_not' {a b c : Key} (h : a < b) (h2 : ¬ c < b) : a < c := by
  rcases klt_tri b c with h1 | h1 | h1
  · exact klt_trans h h1
  · exact h1 ▸ h
  · exact absurd h1 h2

theorem cmp_spec (a b : Key) :
    (cmp a b = .lt ↔ a < b) ∧ (cmp a b = .gt ↔ b < a) ∧ (cmp a b = .eq ↔ a = b) := by
  induction a generalizing b with
  | nil =>
    cases b with
    | nil => simp [cmp]
    | cons y ys => simp [cmp]
  | cons x xs ih =>
    cases b with
    | nil => simp [cmp]
    | cons y ys =>
      obtain ⟨h1, h2, h3⟩ := ih ys
      unfold cmp
      simp only [List.cons_lt_cons_iff, List.cons.injEq]
      by_cases hxy : x < y
      · have : ¬ y < x := by grind
        have : x ≠ y := by grind
        simp [*]; try grind
      · by_cases hyx : y < x
        · have : x ≠ y := by grind
          simp [*]
        · have : x = y := by grind
          subst this
          simp [h1, h2, h3]

theorem cmp_lt {a b : Key} : cmp a b = .lt ↔ a < b := (cmp_spec a b).1
theorem cmp_gt {a b : Key} : cmp a b = .gt ↔ b < a := (cmp_spec a b).2.1
theorem cmp_eq {a b : Key} : cmp a b = .eq ↔ a = b := (cmp_spec a b).2.2

theorem get_lt {k : Key} {i : Nat} (h : i < k.length) : k.get i = k[i] := by
  simp [Key.get, h]
theorem get_ge {k : Key} {i : Nat} (h : k.length ≤ i) : k.get i = 0 := by
  simp [Key.get, h]
theorem get_pos {k : Key} {i : Nat} {b : UInt8} (h : b < k.get i) : i < k.length := by
  by_cases hi : i < k.length
  · exact hi
  · rw [get_ge (by omega)] at h
    exact absurd h (by have := UInt8.not_lt_zero (a := b); simpa using this)
theorem get_append_left {p c : Key} {i : Nat} (h : i < p.length) : Key.get (p ++ c) i = Key.get p i := by
  simp [Key.get, List.getElem?_append_left h]
theorem get_append_right {p c : Key} {i : Nat} (h : p.length ≤ i) :
    Key.get (p ++ c) i = Key.get c (i - p.length) := by
  simp [Key.get, List.getElem?_append_right h]
theorem get_drop (k : Key) (d i : Nat) : Key.get (k.drop d) i = k.get (d + i) := by
  simp [Key.get]
theorem get_take {k : Key} {n i : Nat} (h : i < n) : Key.get (k.take n) i = k.get i := by
  simp [Key.get, List.getElem?_take, h]
theorem get_cons_zero (b : UInt8) (k : Key) : Key.get (b :: k) 0 = b := by simp [Key.get]

/-- The first byte that differs decides, the shorter string being filled up with zeros. -/
theorem lt_of_pad {a b : Key} {d : Nat} (h : ∀ i, i < d → a.get i = b.get i) (hd : a.get d < b.get d) :
    a < b := by
  have hb := get_pos hd
  rw [List.lt_iff_exists]
  by_cases ha : d < a.length
  · refine .inr ⟨d, ha, hb, ?_, ?_⟩
    · intro j hj
      have := h j hj
      rwa [get_lt (by omega), get_lt (by omega)] at this
    · rwa [get_lt ha, get_lt hb] at hd
  · refine .inl ⟨?_, by omega⟩
    apply List.ext_getElem
    · simp; omega
    · intro i h1 h2
      have := h i (by omega)
      rw [get_lt (by omega), get_lt (by omega)] at this
      simpa using this

/-- A string comes before those it is a proper prefix of. -/
theorem lt_of_prefix {a b : Key} (h : ∀ i, i < a.length → a.get i = b.get i) (hl : a.length < b.length) :
    a < b := by
  rw [List.lt_iff_exists]
  refine .inl ⟨?_, hl⟩
  apply List.ext_getElem
  · simp; omega
  · intro i h1 h2
    have := h i (by omega)
    rw [get_lt (by omega), get_lt (by omega)] at this
    simpa using this

theorem zeroExt_of {a b : Key} (h : ∀ i, i < a.length → a.get i = b.get i) (hl : a.length < b.length)
    (hz : b.get a.length = 0) : ZeroExt a b := by
  refine ⟨b.drop (a.length + 1), ?_⟩
  have h1 : a = b.take a.length := by
    apply List.ext_getElem
    · simp; omega
    · intro i h1 h2
      have := h i (by omega)
      rw [get_lt (by omega), get_lt (by omega)] at this
      simpa using this
  have h2 : b = b.take a.length ++ b.drop a.length := (List.take_append_drop ..).symm
  rw [List.drop_eq_getElem_cons hl] at h2
  rw [get_lt hl] at hz
  rw [hz, ← h1] at h2
  exact h2

/-- Two keys that may be together in a tree differ before either has ended. -/
theorem sep_agree {a b : Key} {d : Nat} (hne : a ≠ b) (h1 : ¬ ZeroExt a b) (h2 : ¬ ZeroExt b a)
    (h : ∀ i, i < d → a.get i = b.get i) : d ≤ a.length ∧ d ≤ b.length := by
  by_cases hl : a.length = b.length
  · by_cases hd : d ≤ a.length
    · omega
    · exfalso; apply hne
      apply List.ext_getElem hl
      intro i h3 h4
      have := h i (by omega)
      rwa [get_lt h3, get_lt h4] at this
  · rcases Nat.lt_or_gt_of_ne hl with hl | hl
    · by_cases hd : d ≤ a.length
      · omega
      · exfalso; apply h1
        refine zeroExt_of (fun i hi => h i (by omega)) hl ?_
        rw [← h _ (by omega), get_ge (Nat.le_refl _)]
    · by_cases hd : d ≤ b.length
      · omega
      · exfalso; apply h2
        refine zeroExt_of (fun i hi => (h i (by omega)).symm) hl ?_
        rw [h _ (by omega), get_ge (Nat.le_refl _)]

theorem commonLen_spec (a b : Key) :
    commonLen a b ≤ a.length ∧ commonLen a b ≤ b.length ∧
    (∀ i, i < commonLen a b → a.get i = b.get i) ∧
    (commonLen a b = a.length ∨ commonLen a b = b.length ∨
      a.get (commonLen a b) ≠ b.get (commonLen a b)) := by
  induction a generalizing b with
  | nil => simp [commonLen]
  | cons x xs ih =>
    cases b with
    | nil => simp [commonLen]
    | cons y ys =>
      unfold commonLen
      by_cases hxy : x = y
      · rw [if_pos hxy]
        obtain ⟨h1, h2, h3, h4⟩ := ih ys
        refine ⟨by simp; omega, by simp; omega, ?_, ?_⟩
        · intro i hi
          cases i with
          | zero => simp [Key.get, hxy]
          | succ i => have := h3 i (by omega); simpa [Key.get] using this
        · rcases h4 with h | h | h
          · left; simp [h]
          · right; left; simp [h]
          · right; right; simpa [Key.get] using h
      · rw [if_neg hxy]
        refine ⟨by simp, by simp, by simp, .inr (.inr ?_)⟩
        simpa [Key.get] using hxy

/-! ### The leaves of a tree -/

mutual
/-- The leaves below a node, from left to right. -/
def Node.leaves : Node V → List (Key × V)
  | .leaf k v => [(k, v)]
  | .inner _ _ _ kids => leavesOf kids
def leavesOf : List (UInt8 × Node V) → List (Key × V)
  | [] => []
  | (_, n) :: rest => n.leaves ++ leavesOf rest
end

theorem leavesOf_append (a b : Kids V) : leavesOf (a ++ b) = leavesOf a ++ leavesOf b := by
  induction a with
  | nil => simp [leavesOf]
  | cons p a ih => obtain ⟨c, n⟩ := p; simp [leavesOf, ih]

theorem mem_leavesOf {kids : Kids V} {e : Key × V} :
    e ∈ leavesOf kids ↔ ∃ p ∈ kids, e ∈ p.2.leaves := by
  induction kids with
  | nil => simp [leavesOf]
  | cons p a ih => obtain ⟨c, n⟩ := p; simp [leavesOf, ih]

/-- All keys below a node reached along the path `p` begin with `p`, filled up with zeros. -/
def Agree (p k : Key) : Prop := ∀ i, i < p.length → k.get i = p.get i

theorem Agree.mono {p c k : Key} (h : Agree (p ++ c) k) : Agree p k := by
  intro i hi
  rw [h i (by simp; omega), get_append_left hi]

theorem Agree.snoc {p k : Key} {b : UInt8} (h : Agree p k) (hb : k.get p.length = b) : Agree (p ++ [b]) k := by
  intro i hi
  simp at hi
  by_cases h2 : i < p.length
  · rw [h i h2, get_append_left h2]
  · have : i = p.length := by omega
    subst this
    rw [hb, get_append_right (Nat.le_refl _)]; simp [Key.get]

theorem Agree.last {p k : Key} {b : UInt8} (h : Agree (p ++ [b]) k) : k.get p.length = b := by
  rw [h _ (by simp), get_append_right (Nat.le_refl _)]; simp [Key.get]

/-- A well-formed subtree at the end of the path `p`. -/
inductive Ok : Key → Node V → Prop
  | leaf {p k v} : Agree p k → Ok p (.leaf k v)
  | inner {p comp kind subN kids} :
    (sorted : kids.Pairwise fun a b => a.1 < b.1) →
    (two : 2 ≤ kids.length) →
    (low : kind.low ≤ kids.length) → (cap : kids.length ≤ kind.cap) →
    (kid : ∀ e ∈ kids, Ok (p ++ comp ++ [e.1]) e.2) →
    (sub : subN = (leavesOf kids).length) →
    (len : ∀ e ∈ leavesOf kids, p.length + comp.length ≤ e.1.length) →
    Ok p (.inner comp kind subN kids)

theorem Ok.agree {p : Key} {n : Node V} (h : Ok p n) : ∀ e ∈ n.leaves, Agree p e.1 := by
  induction h with
  | leaf h => intro e he; simp [Node.leaves] at he; subst he; exact h
  | inner sorted two low cap kid sub len ih =>
    intro e he
    obtain ⟨q, hq, he⟩ := mem_leavesOf.1 (by simpa [Node.leaves] using he)
    have := ih q hq e he
    rw [List.append_assoc] at this
    exact this.mono

theorem Ok.subn {p : Key} {n : Node V} (h : Ok p n) : n.subn = n.leaves.length := by
  cases h with
  | leaf h => simp [Node.subn, Node.leaves]
  | inner sorted two low cap kid sub len => simp [Node.subn, Node.leaves, sub]

theorem Ok.ne_nil {p : Key} {n : Node V} (h : Ok p n) : n.leaves ≠ [] := by
  induction h with
  | leaf h => simp [Node.leaves]
  | @inner p comp kind subN kids sorted two low cap kid sub len ih =>
    cases kids with
    | nil => simp at two
    | cons q rest => obtain ⟨c, m⟩ := q; have := ih (c, m) (by simp); simp [Node.leaves, leavesOf]; grind

/-- The order of leaves below different children. -/
theorem lt_of_bytes {p a b : Key} {x y : UInt8} (ha : Agree (p ++ [x]) a) (hb : Agree (p ++ [y]) b)
    (h : x < y) : a < b := by
  refine lt_of_pad (d := p.length) ?_ ?_
  · intro i hi; rw [ha.mono i hi, hb.mono i hi]
  · rw [ha.last, hb.last]; exact h

theorem sortedOf {p : Key} {kids : Kids V} (sorted : kids.Pairwise fun a b => a.1 < b.1)
    (kid : ∀ e ∈ kids, Ok (p ++ [e.1]) e.2)
    (ih : ∀ e ∈ kids, e.2.leaves.Pairwise fun a b => a.1 < b.1) :
    (leavesOf kids).Pairwise fun a b => a.1 < b.1 := by
  induction kids with
  | nil => simp [leavesOf]
  | cons q rest ih2 =>
    obtain ⟨c, m⟩ := q
    rw [List.pairwise_cons] at sorted
    simp only [leavesOf, List.pairwise_append]
    refine ⟨ih (c, m) (by simp), ih2 sorted.2 (fun e he => kid e (by simp [he])) (fun e he => ih e (by simp [he])), ?_⟩
    intro a ha b hb
    obtain ⟨r, hr, hb⟩ := mem_leavesOf.1 hb
    exact lt_of_bytes ((kid (c, m) (by simp)).agree a ha) ((kid r (by simp [hr])).agree b hb) (sorted.1 r hr)

theorem Ok.sorted {p : Key} {n : Node V} (h : Ok p n) : n.leaves.Pairwise fun a b => a.1 < b.1 := by
  induction h with
  | leaf h => simp [Node.leaves]
  | inner sorted two low cap kid sub len ih =>
    simpa [Node.leaves] using sortedOf sorted kid ih

theorem Ok.two_leaves {p : Key} {comp : Key} {kind subN} {kids : Kids V} (h : Ok p (.inner comp kind subN kids)) :
    ∃ a b rest, leavesOf kids = a :: b :: rest := by
  cases h with
  | inner sorted two low cap kid sub len =>
    match kids, two with
    | (c, m) :: (d, n) :: rest, _ =>
      have h1 := (kid (c, m) (by simp)).ne_nil
      have h2 := (kid (d, n) (by simp)).ne_nil
      simp only at h1 h2
      cases hm : m.leaves with
      | nil => exact absurd hm h1
      | cons a as =>
        cases hn : n.leaves with
        | nil => exact absurd hn h2
        | cons b bs =>
          cases as with
          | nil => exact ⟨a, b, bs ++ leavesOf rest, by simp [leavesOf, hm, hn]⟩
          | cons a2 as => exact ⟨a, a2, as ++ (b :: bs ++ leavesOf rest), by simp [leavesOf, hm, hn]⟩

/-! ### Children -/

theorem child_none {b : UInt8} {kids : Kids V} : child b kids = none ↔ ∀ e ∈ kids, e.1 ≠ b := by
  simp [child]

/-- Where the child for a byte is. -/
theorem split_at {b : UInt8} {kids : Kids V} (h : ∃ e ∈ kids, e.1 = b) :
    ∃ pre n post, kids = pre ++ (b, n) :: post ∧ ∀ e ∈ pre, e.1 ≠ b := by
  induction kids with
  | nil => simp at h
  | cons q rest ih =>
    obtain ⟨c, m⟩ := q
    by_cases hc : c = b
    · exact ⟨[], m, rest, by simp [hc], by simp⟩
    · obtain ⟨e, he, hb⟩ := h
      have : e ∈ rest := by
        rcases List.mem_cons.1 he with rfl | h
        · exact absurd hb hc
        · exact h
      obtain ⟨pre, n, post, h1, h2⟩ := ih ⟨e, this, hb⟩
      exact ⟨(c, m) :: pre, n, post, by simp [h1], by
        intro e he; rcases List.mem_cons.1 he with rfl | h
        · exact hc
        · exact h2 e h⟩

theorem child_mid {b : UInt8} {pre post : Kids V} {n : Node V} (h : ∀ e ∈ pre, e.1 ≠ b) :
    child b (pre ++ (b, n) :: post) = some n := by
  have : pre.find? (fun p => p.1 == b) = none := by simpa using h
  simp [child, List.find?_append, this]

theorem pren_mid {p : Key} {b : UInt8} {pre post : Kids V} {n : Node V} (h : ∀ e ∈ pre, e.1 ≠ b)
    (hk : ∀ e ∈ pre, Ok (p ++ [e.1]) e.2) :
    pren b (pre ++ (b, n) :: post) = (leavesOf pre).length := by
  induction pre with
  | nil => simp [pren, leavesOf]
  | cons q rest ih =>
    obtain ⟨c, m⟩ := q
    have h1 := h (c, m) (by simp)
    simp only at h1
    simp only [List.cons_append, pren, if_neg h1, leavesOf, List.length_append]
    rw [ih (fun e he => h e (by simp [he])) (fun e he => hk e (by simp [he])),
      (hk (c, m) (by simp)).subn]

theorem addChild_perm (b : UInt8) (n : Node V) (kids : Kids V) :
    (addChild b n kids).Perm ((b, n) :: kids) := by
  induction kids with
  | nil => exact .refl _
  | cons q rest ih =>
    obtain ⟨c, m⟩ := q
    unfold addChild
    by_cases h : b ≤ c
    · rw [if_pos h]
    · rw [if_neg h]
      exact (List.Perm.cons _ ih).trans (List.Perm.swap ..)

theorem addChild_sorted {b : UInt8} {n : Node V} {kids : Kids V} (hs : kids.Pairwise fun a b => a.1 < b.1)
    (hb : ∀ e ∈ kids, e.1 ≠ b) : (addChild b n kids).Pairwise fun a b => a.1 < b.1 := by
  induction kids with
  | nil => simp [addChild]
  | cons q rest ih =>
    obtain ⟨c, m⟩ := q
    rw [List.pairwise_cons] at hs
    have hcb := hb (c, m) (by simp)
    simp only at hcb
    unfold addChild
    by_cases h : b ≤ c
    · rw [if_pos h, List.pairwise_cons, List.pairwise_cons]
      refine ⟨?_, hs.1, hs.2⟩
      have h1 : b < c := by grind
      intro e he
      rcases List.mem_cons.1 he with rfl | h
      · exact h1
      · have := hs.1 e h; simp only at this ⊢; grind
    · rw [if_neg h, List.pairwise_cons]
      refine ⟨?_, ih hs.2 (fun e he => hb e (by simp [he]))⟩
      intro e he
      rcases List.mem_cons.1 ((addChild_perm b n rest).mem_iff.1 he) with rfl | h
      · simp only; grind
      · exact hs.1 e h

/-- There are 256 bytes. -/
theorem bytes_length {kids : Kids V} (hs : kids.Pairwise fun a b => a.1 < b.1) : kids.length ≤ 256 := by
  have key : ∀ (l : Kids V) (lo : Nat), l.Pairwise (fun a b => a.1 < b.1) → lo ≤ 256 →
      (∀ e ∈ l, lo ≤ e.1.toNat) → l.length ≤ 256 - lo := by
    intro l
    induction l with
    | nil => intro lo _ _ _; simp
    | cons q rest ih =>
      intro lo h1 h2 h3
      rw [List.pairwise_cons] at h1
      have hq := h3 q (by simp)
      have hq2 := q.1.toNat_lt
      have := ih (q.1.toNat + 1) h1.2 (by omega) (fun e he => by
        have := h1.1 e he
        rw [UInt8.lt_iff_toNat_lt] at this
        omega)
      simp only [List.length_cons]
      omega
  have := key kids 0 hs (by omega) (by simp)
  simpa using this

theorem leavesOf_perm {a b : Kids V} (h : a.Perm b) : (leavesOf a).Perm (leavesOf b) := by
  induction h with
  | nil => exact .refl _
  | cons x h ih => obtain ⟨c, n⟩ := x; simpa [leavesOf] using List.Perm.append_left _ ih
  | swap x y l =>
    obtain ⟨c, n⟩ := x; obtain ⟨d, m⟩ := y
    simp only [leavesOf, ← List.append_assoc]
    exact List.Perm.append_right _ List.perm_append_comm
  | trans h1 h2 ih1 ih2 => exact ih1.trans ih2

theorem addChild_leaves (b : UInt8) (n : Node V) (kids : Kids V) :
    (leavesOf (addChild b n kids)).Perm (n.leaves ++ leavesOf kids) := by
  simpa [leavesOf] using leavesOf_perm (addChild_perm b n kids)

theorem delChild_mid {b : UInt8} {pre post : Kids V} {n : Node V} (h : ∀ e ∈ pre, e.1 ≠ b) :
    delChild b (pre ++ (b, n) :: post) = pre ++ post := by
  induction pre with
  | nil => simp [delChild]
  | cons q rest ih =>
    obtain ⟨c, m⟩ := q
    have h1 := h (c, m) (by simp)
    simp only at h1
    simp only [List.cons_append, delChild, if_neg h1]
    rw [ih (fun e he => h e (by simp [he]))]

theorem insertKid_none {k : Key} {v : V} {d : Nat} {b : UInt8} {kids : Kids V} (h : ∀ e ∈ kids, e.1 ≠ b) :
    insertKid k v d b kids = some none := by
  induction kids with
  | nil => simp [insertKid]
  | cons q rest ih =>
    obtain ⟨c, m⟩ := q
    have h1 := h (c, m) (by simp)
    simp only at h1
    rw [insertKid, if_neg h1, ih (fun e he => h e (by simp [he]))]; rfl

theorem insertKid_mid {k : Key} {v : V} {d : Nat} {b : UInt8} {pre post : Kids V} {n n' : Node V} {u : Bool}
    (h : ∀ e ∈ pre, e.1 ≠ b) (hn : n.insert k v d = some (n', u)) :
    insertKid k v d b (pre ++ (b, n) :: post) = some (some (pre ++ (b, n') :: post, u)) := by
  induction pre with
  | nil => simp [insertKid, hn]
  | cons q rest ih =>
    obtain ⟨c, m⟩ := q
    have h1 := h (c, m) (by simp)
    simp only at h1
    rw [List.cons_append, insertKid, if_neg h1, ih (fun e he => h e (by simp [he]))]; rfl

theorem delKid_none {k : Key} {d : Nat} {b : UInt8} {kids : Kids V} (h : ∀ e ∈ kids, e.1 ≠ b) :
    delKid k d b kids = none := by
  induction kids with
  | nil => simp [delKid]
  | cons q rest ih =>
    obtain ⟨c, m⟩ := q
    have h1 := h (c, m) (by simp)
    simp only at h1
    rw [delKid, if_neg h1, ih (fun e he => h e (by simp [he]))]; rfl

theorem delKid_mid {k : Key} {d : Nat} {b : UInt8} {pre post : Kids V} {n : Node V} (h : ∀ e ∈ pre, e.1 ≠ b) :
    delKid k d b (pre ++ (b, n) :: post) =
      (n.del k d).map fun r => (r.1.map fun n' => pre ++ (b, n') :: post, r.2) := by
  induction pre with
  | nil => simp [delKid]
  | cons q rest ih =>
    obtain ⟨c, m⟩ := q
    have h1 := h (c, m) (by simp)
    simp only at h1
    rw [List.cons_append, delKid, if_neg h1, ih (fun e he => h e (by simp [he]))]
    cases n.del k d with
    | none => rfl
    | some r => obtain ⟨o, lf⟩ := r; cases o <;> rfl

/-! ### Insert -/

/-- What an insertion does to the leaves. -/
def Inserted (k : Key) (v : V) (old new : List (Key × V)) (u : Bool) : Prop :=
  (u = false ∧ (∀ e ∈ old, e.1 ≠ k) ∧ new.Perm ((k, v) :: old)) ∨
  (u = true ∧ ∃ v0 rest, old.Perm ((k, v0) :: rest) ∧ new.Perm ((k, v) :: rest))

theorem Inserted.lift {k : Key} {v : V} {old new a b : List (Key × V)} {u : Bool}
    (h : Inserted k v old new u) (ha : ∀ e ∈ a, e.1 ≠ k) (hb : ∀ e ∈ b, e.1 ≠ k) :
    Inserted k v (a ++ (old ++ b)) (a ++ (new ++ b)) u := by
  rcases h with ⟨h1, h2, h3⟩ | ⟨h1, v0, rest, h2, h3⟩
  · refine .inl ⟨h1, ?_, ?_⟩
    · intro e he; simp at he; rcases he with h | h | h
      · exact ha e h
      · exact h2 e h
      · exact hb e h
    · exact ((h3.append_right b).append_left a).trans (by simpa using List.perm_middle)
  · refine .inr ⟨h1, v0, a ++ (rest ++ b), ?_, ?_⟩
    · exact ((h2.append_right b).append_left a).trans (by simpa using List.perm_middle)
    · exact ((h3.append_right b).append_left a).trans (by simpa using List.perm_middle)

theorem Inserted.length {k : Key} {v : V} {old new : List (Key × V)} {u : Bool}
    (h : Inserted k v old new u) : new.length = if u then old.length else old.length + 1 := by
  rcases h with ⟨rfl, h2, h3⟩ | ⟨rfl, v0, rest, h2, h3⟩
  · simp [h3.length_eq]
  · simp [h3.length_eq, h2.length_eq]

/-- The two children of a new node4. -/
theorem pair_ok {p comp : Key} {b c : UInt8} {n m : Node V} (hbc : b ≠ c)
    (hn : Ok (p ++ comp ++ [b]) n) (hm : Ok (p ++ comp ++ [c]) m) {s : Nat}
    (hs : s = n.leaves.length + m.leaves.length)
    (hln : ∀ e ∈ n.leaves, p.length + comp.length ≤ e.1.length)
    (hlm : ∀ e ∈ m.leaves, p.length + comp.length ≤ e.1.length) :
    Ok p (.inner comp .n4 s (addChild b n (addChild c m []))) := by
  have hc : addChild c m [] = [(c, m)] := rfl
  rw [hc]
  have hp := addChild_perm b n [(c, m)]
  have hlv := addChild_leaves b n [(c, m)]
  simp only [leavesOf, List.append_nil] at hlv
  have hl : (addChild b n [(c, m)]).length = 2 := by rw [hp.length_eq]; rfl
  refine .inner ?_ (by omega) (by simp [hl, Kind.low]) (by simp [hl, Kind.cap]) ?_ ?_ ?_
  · exact addChild_sorted (by simp) (by simp; exact fun h => hbc h.symm)
  · intro e he
    rcases List.mem_cons.1 (hp.mem_iff.1 he) with rfl | h
    · exact hn
    · simp at h; subst h; exact hm
  · rw [hlv.length_eq, hs]; simp
  · intro e he
    rcases List.mem_append.1 (hlv.mem_iff.1 he) with h | h
    · exact hln e h
    · exact hlm e h

theorem leafInsert_ok {p k key : Key} {v val : V} (hk : Agree p k) (hkey : Agree p key)
    (hsep : key ≠ k → ¬ ZeroExt key k ∧ ¬ ZeroExt k key) :
    Ok p (leafInsert k v p.length key val).1 ∧
    Inserted k v [(key, val)] (leafInsert k v p.length key val).1.leaves (leafInsert k v p.length key val).2 := by
  unfold leafInsert
  by_cases h : k = key
  · rw [if_pos h]
    subst h
    exact ⟨.leaf hk, .inr ⟨rfl, val, [], .refl _, by simp [Node.leaves]⟩⟩
  · rw [if_neg h]
    obtain ⟨hz1, hz2⟩ := hsep (Ne.symm h)
    obtain ⟨c1, c2, c3, c4⟩ := commonLen_spec (key.drop p.length) (k.drop p.length)
    generalize hlp : commonLen (key.drop p.length) (k.drop p.length) = lp at *
    simp only [get_drop, List.length_drop] at c1 c2 c3 c4
    have hag : ∀ i, i < p.length + lp → key.get i = k.get i := by
      intro i hi
      by_cases h2 : i < p.length
      · rw [hk i h2, hkey i h2]
      · have := c3 (i - p.length) (by omega)
        rwa [show p.length + (i - p.length) = i by omega] at this
    obtain ⟨l1, l2⟩ := sep_agree (Ne.symm h) hz1 hz2 hag
    have hdiff : key.get (p.length + lp) ≠ k.get (p.length + lp) := by
      intro he
      have hag' : ∀ i, i < p.length + lp + 1 → key.get i = k.get i := by
        intro i hi
        by_cases h2 : i < p.length + lp
        · exact hag i h2
        · rw [show i = p.length + lp by omega]; exact he
      obtain ⟨l3, l4⟩ := sep_agree (Ne.symm h) hz1 hz2 hag'
      rcases c4 with h | h | h
      · omega
      · omega
      · exact h he
    have htl : ((key.drop p.length).take lp).length = lp := by simp; omega
    have hcomp : ∀ x : Key, (∀ i, i < p.length + lp → key.get i = x.get i) →
        Agree (p ++ (key.drop p.length).take lp) x := by
      intro x hx i hi
      rw [List.length_append, htl] at hi
      rw [← hx i hi]
      by_cases h2 : i < p.length
      · rw [get_append_left h2, hkey i h2]
      · rw [get_append_right (by omega), get_take (by omega), get_drop,
          show p.length + (i - p.length) = i by omega]
    have hpl : (p ++ (key.drop p.length).take lp).length = p.length + lp := by
      rw [List.length_append, htl]
    refine ⟨pair_ok (Ne.symm hdiff) (.leaf ((hcomp k hag).snoc (by rw [hpl])))
      (.leaf ((hcomp key (fun _ _ => rfl)).snoc (by rw [hpl]))) (by simp [Node.leaves]) ?_ ?_, .inl ⟨rfl, ?_, ?_⟩⟩
    · intro e he; simp [Node.leaves] at he; subst he; rw [htl]; exact l2
    · intro e he; simp [Node.leaves] at he; subst he; rw [htl]; exact l1
    · intro e he; simp at he; subst he; exact Ne.symm h
    · simp only [Node.leaves]
      refine (addChild_leaves ..).trans ?_
      simp [Node.leaves, addChild, leavesOf]

theorem pairwise_ne {pre post : Kids V} {b : UInt8} {n : Node V}
    (h : (pre ++ (b, n) :: post).Pairwise fun a b => a.1 < b.1) :
    (∀ e ∈ pre, e.1 < b) ∧ (∀ e ∈ post, b < e.1) := by
  rw [List.pairwise_append, List.pairwise_cons] at h
  exact ⟨fun e he => h.2.2 e he (b, n) (by simp), fun e he => h.2.1.1 e he⟩

theorem pairwise_replace {pre post : Kids V} {b : UInt8} {n n' : Node V}
    (h : (pre ++ (b, n) :: post).Pairwise fun a b => a.1 < b.1) :
    (pre ++ (b, n') :: post).Pairwise fun a b => a.1 < b.1 := by
  rw [List.pairwise_append, List.pairwise_cons] at h ⊢
  refine ⟨h.1, h.2.1, ?_⟩
  intro a ha c hc
  rcases List.mem_cons.1 hc with rfl | hc
  · exact h.2.2 a ha (b, n) (by simp)
  · exact h.2.2 a ha c (by simp [hc])

theorem ub (a b : UInt8) (h : a < b) : a ≠ b := by grind

/-- Keys below other children are different keys. -/
theorem other_ne {p k : Key} {b : UInt8} {kids : Kids V} (hk : k.get p.length = b)
    (kid : ∀ e ∈ kids, Ok (p ++ [e.1]) e.2) (hb : ∀ e ∈ kids, e.1 ≠ b) :
    ∀ e ∈ leavesOf kids, e.1 ≠ k := by
  intro e he hek
  obtain ⟨q, hq, he⟩ := mem_leavesOf.1 he
  have := ((kid q hq).agree e he).last
  rw [hek, hk] at this
  exact hb q hq this.symm

theorem insert_ok {p : Key} {n : Node V} (h : Ok p n) {k : Key} {v : V} (hk : Agree p k)
    (hsep : ∀ e ∈ n.leaves, e.1 ≠ k → ¬ ZeroExt e.1 k ∧ ¬ ZeroExt k e.1) :
    ∃ n' u, n.insert k v p.length = some (n', u) ∧ Ok p n' ∧ Inserted k v n.leaves n'.leaves u := by
  induction h with
  | @leaf p key val hkey =>
    refine ⟨_, _, rfl, ?_⟩
    exact leafInsert_ok hk hkey (hsep (key, val) (by simp [Node.leaves]))
  | @inner p comp kind subN kids sorted two low cap kid sub len ih =>
    have hok : Ok p (.inner comp kind subN kids) := .inner sorted two low cap kid sub len
    -- some leaf has another key
    obtain ⟨e0, he0, hne0⟩ : ∃ e ∈ leavesOf kids, e.1 ≠ k := by
      obtain ⟨a, b, rest, hab⟩ := hok.two_leaves
      have hs := hok.sorted
      simp only [Node.leaves, hab, List.pairwise_cons] at hs
      have hlt := hs.1 b (by simp)
      rw [hab]
      by_cases ha : a.1 = k
      · exact ⟨b, by simp, fun hb => klt_ne hlt (by rw [ha, hb])⟩
      · exact ⟨a, by simp, ha⟩
    have hag0 : Agree p e0.1 := hok.agree e0 (by simpa [Node.leaves] using he0)
    obtain ⟨hz1, hz2⟩ := hsep e0 (by simpa [Node.leaves] using he0) hne0
    have hkl : p.length ≤ k.length :=
      (sep_agree hne0 hz1 hz2 (d := p.length) (fun i hi => by rw [hk i hi, hag0 i hi])).2
    have hcomp : ∀ e ∈ leavesOf kids, Agree (p ++ comp) e.1 := by
      intro e he
      obtain ⟨q, hq, he⟩ := mem_leavesOf.1 he
      exact ((kid q hq).agree e he).mono
    obtain ⟨c1, c2, c3, c4⟩ := commonLen_spec comp (k.drop p.length)
    rw [Node.insert, if_neg (by omega)]
    dsimp only
    generalize hmis : commonLen comp (k.drop p.length) = mis at *
    simp only [get_drop, List.length_drop] at c1 c2 c3 c4
    by_cases hlt : mis < comp.length
    · rw [if_pos hlt]
      have hd : k.get (p.length + mis) ≠ comp.getD mis 0 := by
        intro he
        rcases c4 with h | h | h
        · omega
        · have hag : ∀ i, i < p.length + mis + 1 → e0.1.get i = k.get i := by
            intro i hi
            have hci := hcomp e0 he0 i (by simp; omega)
            rw [hci]
            by_cases h2 : i < p.length
            · rw [get_append_left h2, hk i h2]
            · rw [get_append_right (by omega)]
              by_cases h3 : i - p.length < mis
              · have := c3 _ h3; rw [this, show p.length + (i - p.length) = i by omega]
              · rw [show i - p.length = mis by omega, show i = p.length + mis by omega, he]; rfl
          have := (sep_agree hne0 hz1 hz2 hag).2
          omega
        · exact h he.symm
      have htl : (comp.take mis).length = mis := by simp; omega
      have hpl : (p ++ comp.take mis).length = p.length + mis := by rw [List.length_append, htl]
      have hkA : Agree (p ++ comp.take mis) k := by
        intro i hi
        rw [hpl] at hi
        by_cases h2 : i < p.length
        · rw [get_append_left h2, hk i h2]
        · rw [get_append_right (by omega), get_take (by omega), c3 _ (by omega),
            show p.length + (i - p.length) = i by omega]
      have hsplit : comp = comp.take mis ++ comp.getD mis 0 :: comp.drop (mis + 1) := by
        conv => lhs; rw [← List.take_append_drop mis comp, List.drop_eq_getElem_cons hlt]
        simp [hlt]
      refine ⟨_, _, rfl, pair_ok (Ne.symm hd) ?_ (.leaf (hkA.snoc (by rw [hpl]))) ?_ ?_ ?_, .inl ⟨rfl, ?_, ?_⟩⟩
      · refine .inner sorted two low cap ?_ sub ?_
        · intro e he
          have := kid e he
          rw [show p ++ comp.take mis ++ [comp.getD mis 0] ++ comp.drop (mis + 1) ++ [e.1]
            = p ++ comp ++ [e.1] by conv => rhs; rw [hsplit]
                                    simp]
          exact this
        · intro e he
          have := len e he
          simp only [List.length_append, List.length_take, List.length_drop, List.length_cons, List.length_nil]
          omega
      · simp [Node.leaves, sub]
      · intro e he
        have := len e (by simpa [Node.leaves] using he)
        rw [htl]; omega
      · intro e he; simp [Node.leaves] at he; subst he; rw [htl]; simp only; omega
      · intro e he hek
        have he : e ∈ leavesOf kids := by simpa [Node.leaves] using he
        have h1 := hcomp e he (p.length + mis) (by simp; omega)
        rw [hek, get_append_right (by omega)] at h1
        apply hd
        rw [h1, show p.length + mis - p.length = mis by omega]; rfl
      · simp only [Node.leaves]
        refine (addChild_leaves ..).trans ?_
        simpa [Node.leaves, addChild, leavesOf] using List.perm_append_comm
    · rw [if_neg hlt]
      have hmc : mis = comp.length := by omega
      have hpl : (p ++ comp).length = p.length + mis := by rw [List.length_append, hmc]
      have hkA : Agree (p ++ comp) k := by
        intro i hi
        rw [hpl] at hi
        by_cases h2 : i < p.length
        · rw [get_append_left h2, hk i h2]
        · rw [get_append_right (by omega), c3 _ (by omega),
            show p.length + (i - p.length) = i by omega]
      by_cases hb : ∃ e ∈ kids, e.1 = k.get (p.length + mis)
      · obtain ⟨pre, m, post, rfl, hpre⟩ := split_at hb
        obtain ⟨o1, o2⟩ := pairwise_ne sorted
        generalize hbb : k.get (p.length + mis) = b at *
        have hkb : Agree (p ++ comp ++ [b]) k := hkA.snoc (by rw [hpl, hbb])
        obtain ⟨m', u, hm, hmok, hins⟩ := ih (b, m) (by simp) hkb
          (fun e he => hsep e (by simp only [Node.leaves, leavesOf_append, leavesOf]; simp; grind))
        have hlen : (p ++ comp ++ [b]).length = p.length + mis + 1 := by
          rw [List.length_append, hpl]; rfl
        simp only [hlen] at hm
        rw [insertKid_mid hpre hm]
        have hins' : Inserted k v (leavesOf (pre ++ (b, m) :: post)) (leavesOf (pre ++ (b, m') :: post)) u := by
          simp only [leavesOf_append, leavesOf]
          refine hins.lift ?_ ?_
          · exact other_ne (p := p ++ comp) (by rw [hpl, hbb]) (fun e he => kid e (by simp [he])) hpre
          · exact other_ne (p := p ++ comp) (by rw [hpl, hbb]) (fun e he => kid e (by simp [he]))
              (fun e he => (ub _ _ (o2 e he)).symm)
        refine ⟨_, _, rfl, ?_, by simpa [Node.leaves] using hins'⟩
        have hl2 : (pre ++ (b, m') :: post).length = (pre ++ (b, m) :: post).length := by simp
        refine .inner (pairwise_replace sorted) (by rw [hl2]; exact two) (by rw [hl2]; exact low) (by rw [hl2]; exact cap) ?_ ?_ ?_
        · intro e he
          rw [List.mem_append, List.mem_cons] at he
          rcases he with h | rfl | h
          · exact kid e (by simp [h])
          · exact hmok
          · exact kid e (by simp [h])
        · rw [hins'.length, sub]
        · intro e he
          rcases hins' with ⟨-, -, h3⟩ | ⟨-, v0, rest, h2, h3⟩
          · rcases List.mem_cons.1 (h3.mem_iff.1 he) with rfl | h
            · simp only; omega
            · exact len e h
          · rcases List.mem_cons.1 (h3.mem_iff.1 he) with rfl | h
            · simp only; omega
            · exact len e (h2.mem_iff.2 (by simp [h]))
      · have hb' : ∀ e ∈ kids, e.1 ≠ k.get (p.length + mis) := fun e he h => hb ⟨e, he, h⟩
        rw [insertKid_none hb']
        have hperm := addChild_perm (k.get (p.length + mis)) (.leaf k v) kids
        have hlv := addChild_leaves (k.get (p.length + mis)) (.leaf k v) kids
        simp only [Node.leaves, List.singleton_append] at hlv
        have hcap : kids.length + 1 ≤ 256 := by
          have := bytes_length (addChild_sorted (n := Node.leaf k v) sorted hb')
          rwa [hperm.length_eq] at this
        refine ⟨_, _, rfl, ?_, .inl ⟨rfl, ?_, by simpa [Node.leaves] using hlv⟩⟩
        · refine .inner (addChild_sorted sorted hb') ?_ ?_ ?_ ?_ ?_ ?_
          · rw [hperm.length_eq]; simp; omega
          · rw [hperm.length_eq]
            split <;> cases kind <;> simp_all [Kind.low, Kind.cap, Kind.grow] <;> omega
          · rw [hperm.length_eq]
            split <;> cases kind <;> simp_all [Kind.low, Kind.cap, Kind.grow] <;> omega
          · intro e he
            rcases List.mem_cons.1 (hperm.mem_iff.1 he) with rfl | h
            · exact .leaf (hkA.snoc (by rw [hpl]))
            · exact kid e h
          · rw [hlv.length_eq, sub]; rfl
          · intro e he
            rcases List.mem_cons.1 (hlv.mem_iff.1 he) with rfl | h
            · simp only; omega
            · exact len e h
        · intro e he
          exact other_ne (p := p ++ comp) (by rw [hpl]) kid hb' e (by simpa [Node.leaves] using he)

/-! ### Remove -/

theorem mismatch_spec (a b : Key) :
    match mismatch a b with
    | none => ∀ i, i < a.length → i < b.length → b.get i = a.get i
    | some g => ∃ i, i < a.length ∧ i < b.length ∧ (∀ j, j < i → b.get j = a.get j) ∧
        (if g then a.get i < b.get i else b.get i < a.get i) := by
  induction a generalizing b with
  | nil => simp [mismatch]
  | cons x xs ih =>
    cases b with
    | nil => simp [mismatch]
    | cons y ys =>
      unfold mismatch
      by_cases hxy : x = y
      · rw [if_pos hxy]
        have := ih ys
        cases hm : mismatch xs ys with
        | none =>
          rw [hm] at this
          intro i h1 h2
          cases i with
          | zero => simp [Key.get, hxy]
          | succ i =>
            have := this i (by simpa using h1) (by simpa using h2)
            simpa [Key.get] using this
        | some g =>
          rw [hm] at this
          obtain ⟨i, h1, h2, h3, h4⟩ := this
          refine ⟨i + 1, by simpa using h1, by simpa using h2, ?_, by simpa [Key.get] using h4⟩
          intro j hj
          cases j with
          | zero => simp [Key.get, hxy]
          | succ j => have := h3 j (by omega); simpa [Key.get] using this
      · rw [if_neg hxy]
        refine ⟨0, by simp, by simp, by simp, ?_⟩
        by_cases h : x < y
        · simpa [Key.get, h] using h
        · simp [Key.get, h]; grind

/-- A key that does not fit the compressed bytes is not below the node. -/
theorem mismatch_ne {p comp q : Key} {kind : Kind} {subN : Nat} {kids : Kids V}
    (h : Ok p (.inner comp kind subN kids)) (hm : mismatch comp (q.drop p.length) ≠ none) :
    ∀ e ∈ leavesOf kids, e.1 ≠ q := by
  intro e he heq
  have hs := mismatch_spec comp (q.drop p.length)
  cases h with
  | inner sorted two low cap kid sub len =>
    obtain ⟨r, hr, he⟩ := mem_leavesOf.1 he
    have hag := ((kid r hr).agree e he).mono
    cases hg : mismatch comp (q.drop p.length) with
    | none => exact hm hg
    | some g =>
      rw [hg] at hs
      obtain ⟨i, h1, h2, h3, h4⟩ := hs
      rw [get_drop] at h4
      have := hag (p.length + i) (by simp; omega)
      rw [get_append_right (by omega), show p.length + i - p.length = i by omega, heq] at this
      rw [this] at h4
      split at h4 <;> exact absurd h4 (by grind)

/-- The child that a key leads to, below a node whose compressed bytes it fits. -/
theorem kid_byte {p comp q : Key} {e : Key × V} {b : UInt8} {m : Node V}
    (h : Ok (p ++ comp ++ [b]) m) (he : e ∈ m.leaves) : e.1.get (p.length + comp.length) = b := by
  have := (h.agree e he).last
  rwa [List.length_append] at this

theorem kids_ne {p comp q : Key} {b : UInt8} {kids : Kids V} (hq : q.get (p.length + comp.length) = b)
    (kid : ∀ e ∈ kids, Ok (p ++ comp ++ [e.1]) e.2) (hb : ∀ e ∈ kids, e.1 ≠ b) :
    ∀ e ∈ leavesOf kids, e.1 ≠ q :=
  other_ne (p := p ++ comp) (by rwa [List.length_append]) kid hb

theorem addPrefix_leaves (c : Key) (b : UInt8) (n : Node V) : (n.addPrefix c b).leaves = n.leaves := by
  cases n <;> simp [Node.addPrefix, Node.leaves]

theorem addPrefix_ok {p comp : Key} {b : UInt8} {n : Node V} (h : Ok (p ++ comp ++ [b]) n) :
    Ok p (n.addPrefix comp b) := by
  cases h with
  | leaf h =>
    refine .leaf ?_
    rw [List.append_assoc] at h
    exact h.mono
  | @inner _ comp' kind subN kids sorted two low cap kid sub len =>
    refine .inner sorted two low cap ?_ sub ?_
    · intro e he
      have := kid e he
      rw [show p ++ (comp ++ b :: comp') ++ [e.1] = p ++ comp ++ [b] ++ comp' ++ [e.1] by simp]
      exact this
    · intro e he
      have := len e he
      simp only [List.length_append, List.length_cons, List.length_nil] at this ⊢
      omega

theorem del_ok {p : Key} {n : Node V} (h : Ok p n) (k : Key) :
    match n.del k p.length with
    | none => ∀ e ∈ n.leaves, e.1 ≠ k
    | some (none, lf) => lf.1 = k ∧ n.leaves = [lf] ∧ n = .leaf lf.1 lf.2
    | some (some n', lf) => lf.1 = k ∧ Ok p n' ∧ n.leaves.Perm (lf :: n'.leaves) := by
  induction h with
  | @leaf p key val hkey =>
    unfold Node.del
    by_cases hk : key = k
    · rw [if_pos hk]; simp [Node.leaves, hk]
    · rw [if_neg hk]; simp [Node.leaves, hk]
  | @inner p comp kind subN kids sorted two low cap kid sub len ih =>
    have hok : Ok p (.inner comp kind subN kids) := .inner sorted two low cap kid sub len
    rw [Node.del]
    by_cases hm : mismatch comp (k.drop p.length) ≠ none
    · rw [if_pos hm]; simpa [Node.leaves] using mismatch_ne hok hm
    · rw [if_neg hm]
      dsimp only
      generalize hbb : k.get (p.length + comp.length) = b
      by_cases hb : ∃ e ∈ kids, e.1 = b
      · obtain ⟨pre, m, post, rfl, hpre⟩ := split_at hb
        obtain ⟨o1, o2⟩ := pairwise_ne sorted
        rw [delKid_mid hpre]
        have hI := ih (b, m) (by simp)
        have hlen : (p ++ comp ++ [b]).length = p.length + comp.length + 1 := by simp; omega
        simp only [hlen] at hI
        have hpreL : ∀ e ∈ leavesOf pre, e.1 ≠ k :=
          kids_ne hbb (fun e he => kid e (by simp [he])) hpre
        have hpostL : ∀ e ∈ leavesOf post, e.1 ≠ k :=
          kids_ne hbb (fun e he => kid e (by simp [he])) (fun e he => (ub _ _ (o2 e he)).symm)
        cases hd : m.del k (p.length + comp.length + 1) with
        | none =>
          rw [hd] at hI
          simp only [Option.map_none, Node.leaves, leavesOf_append, leavesOf]
          intro e he
          rcases List.mem_append.1 he with h | h
          · exact hpreL e h
          · rcases List.mem_append.1 h with h | h
            · exact hI e h
            · exact hpostL e h
        | some r =>
          obtain ⟨o, lf⟩ := r
          rw [hd] at hI
          cases o with
          | none =>
            simp only [Option.map_some, Option.map_none]
            obtain ⟨h1, h2, h3⟩ := hI
            rw [delChild_mid hpre]
            have hperm : (leavesOf (pre ++ (b, m) :: post)).Perm (lf :: leavesOf (pre ++ post)) := by
              simp only [leavesOf_append, leavesOf, h2]
              exact List.perm_middle
            have hsorted' : (pre ++ post).Pairwise fun a b => a.1 < b.1 := by
              rw [List.pairwise_append, List.pairwise_cons] at sorted
              rw [List.pairwise_append]
              exact ⟨sorted.1, sorted.2.1.2, fun a ha c hc => sorted.2.2 a ha c (by simp [hc])⟩
            have hkid' : ∀ e ∈ pre ++ post, Ok (p ++ comp ++ [e.1]) e.2 := by
              intro e he
              exact kid e (by rcases List.mem_append.1 he with h | h <;> simp [h])
            by_cases hc : kind = .n4 ∧ (pre ++ (b, m) :: post).length ≤ 2
            · rw [if_pos hc]
              cases hpp : pre ++ post with
              | nil =>
                exfalso
                have : (pre ++ post).length = 0 := by rw [hpp]; rfl
                simp only [List.length_append, List.length_cons] at two this
                omega
              | cons q rest =>
                obtain ⟨lb, left⟩ := q
                have hrest : rest = [] := by
                  have h4 : (pre ++ post).length = rest.length + 1 := by rw [hpp]; rfl
                  have h5 := hc.2
                  simp at h4 h5
                  have : rest.length = 0 := by omega
                  exact List.length_eq_zero_iff.1 this
                subst hrest
                refine ⟨h1, addPrefix_ok (hkid' (lb, left) (by rw [hpp]; simp)), ?_⟩
                rw [addPrefix_leaves]
                simp only [Node.leaves]
                rw [hpp] at hperm
                simpa [leavesOf] using hperm
            · rw [if_neg hc]
              have hll : (pre ++ (b, m) :: post).length = (pre ++ post).length + 1 := by simp; omega
              refine ⟨h1, ?_, by simpa [Node.leaves] using hperm⟩
              refine .inner hsorted' ?_ ?_ ?_ hkid' ?_ ?_
              · rw [hll] at hc low
                cases kind <;> simp only [Kind.low, true_and, reduceCtorEq, false_and] at hc low <;> omega
              · rw [hll] at hc low ⊢
                split <;> rename_i hle <;> cases kind <;>
                  simp only [Kind.low, Kind.shrink, true_and, reduceCtorEq, false_and] at hc low hle ⊢ <;> omega
              · rw [hll] at cap low ⊢
                split <;> rename_i hle <;> cases kind <;>
                  simp only [Kind.low, Kind.shrink, Kind.cap] at cap low hle ⊢ <;> omega
              · have := hperm.length_eq
                simp only [List.length_cons] at this
                omega
              · intro e he
                exact len e (hperm.mem_iff.2 (by simp [he]))
          | some m' =>
            simp only [Option.map_some]
            obtain ⟨h1, h2, h3⟩ := hI
            have hperm : (leavesOf (pre ++ (b, m) :: post)).Perm (lf :: leavesOf (pre ++ (b, m') :: post)) := by
              simp only [leavesOf_append, leavesOf]
              exact ((h3.append_right _).append_left _).trans (by simp)
            have hl2 : (pre ++ (b, m') :: post).length = (pre ++ (b, m) :: post).length := by simp
            refine ⟨h1, ?_, by simpa [Node.leaves] using hperm⟩
            refine .inner (pairwise_replace sorted) (by rw [hl2]; exact two) (by rw [hl2]; exact low) (by rw [hl2]; exact cap) ?_ ?_ ?_
            · intro e he
              rw [List.mem_append, List.mem_cons] at he
              rcases he with h | rfl | h
              · exact kid e (by simp [h])
              · exact h2
              · exact kid e (by simp [h])
            · have := hperm.length_eq
              simp only [List.length_cons] at this
              omega
            · intro e he
              exact len e (hperm.mem_iff.2 (by simp [he]))
      · have hb' : ∀ e ∈ kids, e.1 ≠ b := fun e he h => hb ⟨e, he, h⟩
        rw [delKid_none hb']
        simpa [Node.leaves] using kids_ne hbb kid hb'

/-! ### Exact search and order statistics -/

theorem leafGet_eq {q key : Key} {val : V} (h : key = q) :
    leafGet q key val = { value := some (key, val), found := true } := by
  unfold leafGet
  rw [cmp_eq.2 h.symm]
theorem leafGet_lt {q key : Key} {val : V} (h : q < key) :
    leafGet q key val = { value := some (key, val), dir := -1 } := by
  unfold leafGet
  rw [cmp_lt.2 h]
theorem leafGet_gt {q key : Key} {val : V} (h : key < q) :
    leafGet q key val = { value := some (key, val), dir := 1 } := by
  unfold leafGet
  rw [cmp_gt.2 h]

theorem getKid_mid {q : Key} {d : Nat} {b : UInt8} {pre post : Kids V} {n : Node V} (h : ∀ e ∈ pre, e.1 ≠ b) :
    getKid q d b (pre ++ (b, n) :: post) = n.get q d := by
  induction pre with
  | nil => simp [getKid]
  | cons r rest ih =>
    obtain ⟨c, m⟩ := r
    have h1 := h (c, m) (by simp)
    simp only at h1
    rw [List.cons_append, getKid, if_neg h1, ih (fun e he => h e (by simp [he]))]

theorem get_ok {p : Key} {n : Node V} (h : Ok p n) (q : Key) :
    ((n.get q p.length).found = true ∧
      ∃ e, n.leaves[(n.get q p.length).id]? = some e ∧ (n.get q p.length).value = some e ∧ e.1 = q) ∨
    ((n.get q p.length).found = false ∧ ∀ e ∈ n.leaves, e.1 ≠ q) := by
  induction h with
  | @leaf p key val hkey =>
    rw [Node.get]
    rcases klt_tri q key with h | h | h
    · rw [leafGet_lt h]; right; simp [Node.leaves]; exact fun h2 => klt_ne h h2.symm
    · rw [leafGet_eq h.symm]; left; simp [Node.leaves, h]
    · rw [leafGet_gt h]; right; simp [Node.leaves]; exact fun h2 => klt_ne h h2
  | @inner p comp kind subN kids sorted two low cap kid sub len ih =>
    have hok : Ok p (.inner comp kind subN kids) := .inner sorted two low cap kid sub len
    rw [Node.get]
    by_cases hm : mismatch comp (q.drop p.length) ≠ none
    · rw [if_pos hm]; right; exact ⟨rfl, by simpa [Node.leaves] using mismatch_ne hok hm⟩
    · rw [if_neg hm]
      dsimp only
      generalize hbb : q.get (p.length + comp.length) = b
      by_cases hb : ∃ e ∈ kids, e.1 = b
      · obtain ⟨pre, m, post, rfl, hpre⟩ := split_at hb
        obtain ⟨o1, o2⟩ := pairwise_ne sorted
        rw [child_mid hpre, getKid_mid hpre]
        dsimp only
        have hpren : pren b (pre ++ (b, m) :: post) = (leavesOf pre).length :=
          pren_mid (p := p ++ comp) hpre (fun e he => kid e (by simp [he]))
        rw [hpren]
        have hI := ih (b, m) (by simp)
        have hlen : (p ++ comp ++ [b]).length = p.length + comp.length + 1 := by simp; omega
        simp only [hlen] at hI
        rcases hI with ⟨h1, e, h2, h3, h4⟩ | ⟨h1, h2⟩
        · left
          refine ⟨h1, e, ?_, h3, h4⟩
          simp only [Node.leaves, leavesOf_append, leavesOf]
          rw [List.getElem?_append_right (by omega), Nat.add_sub_cancel,
            List.getElem?_append_left (List.getElem?_eq_some_iff.1 h2).1]
          exact h2
        · right
          refine ⟨h1, ?_⟩
          simp only [Node.leaves, leavesOf_append, leavesOf]
          intro e he
          rcases List.mem_append.1 he with h | h
          · exact kids_ne hbb (fun e he => kid e (by simp [he])) hpre e h
          · rcases List.mem_append.1 h with h | h
            · exact h2 e h
            · exact kids_ne hbb (fun e he => kid e (by simp [he])) (fun e he => (ub _ _ (o2 e he)).symm) e h
      · have hb' : ∀ e ∈ kids, e.1 ≠ b := fun e he h => hb ⟨e, he, h⟩
        rw [child_none.2 hb']
        right
        exact ⟨rfl, by simpa [Node.leaves] using kids_ne hbb kid hb'⟩

theorem at_ok {p : Key} {n : Node V} (h : Ok p n) (i : Nat) : n.at i = n.leaves[i]? := by
  induction h generalizing i with
  | @leaf p key val hkey =>
    rw [Node.at]
    cases i <;> simp [Node.leaves]
  | @inner p comp kind subN kids sorted two low cap kid sub len ih =>
    have key : ∀ (l : Kids V) (i : Nat), (∀ e ∈ l, e ∈ kids) → atKid i l = (leavesOf l)[i]? := by
      intro l
      induction l with
      | nil => intro i _; simp [atKid, leavesOf]
      | cons r rest ih2 =>
        intro i hl
        obtain ⟨c, m⟩ := r
        have hm := hl (c, m) (by simp)
        rw [atKid, leavesOf, (kid _ hm).subn]
        simp only
        by_cases hi : i < m.leaves.length
        · rw [if_pos hi, List.getElem?_append_left hi]; exact ih _ hm i
        · rw [if_neg hi, List.getElem?_append_right (by omega)]
          exact ih2 _ (fun e he => hl e (by simp [he]))
    rw [Node.at, Node.leaves]
    by_cases hi : subN ≤ i
    · rw [if_pos hi, List.getElem?_eq_none (by omega)]
    · rw [if_neg hi]; exact key kids i (fun e he => he)

end Verif.Art
