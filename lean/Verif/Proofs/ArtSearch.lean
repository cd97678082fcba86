import Verif.Proofs.Art
/-
Lemmas about the nearest-key searches of the radix tree.
-/
namespace Verif.Art

set_option linter.unusedVariables false
set_option linter.unusedSectionVars false

variable {V : Type}

theorem first_ok {p : Key} {n : Node V} (h : Ok p n) : n.first = n.leaves.head? := by
  induction h with
  | leaf h => simp [Node.first, Node.leaves]
  | @inner p comp kind subN kids sorted two low cap kid sub len ih =>
    cases kids with
    | nil => simp at two
    | cons q rest =>
      obtain ⟨c, m⟩ := q
      rw [Node.first, Node.leaves, leavesOf]
      rw [ih (c, m) (by simp)]
      have hne := (kid (c, m) (by simp)).ne_nil
      simp only at hne ⊢
      cases hm : m.leaves with
      | nil => exact absurd hm hne
      | cons a as => rfl

theorem last_ok {p : Key} {n : Node V} (h : Ok p n) : n.last = n.leaves.getLast? := by
  induction h with
  | leaf h => simp [Node.last, Node.leaves]
  | @inner p comp kind subN kids sorted two low cap kid sub len ih =>
    rw [Node.last, Node.leaves]
    have key : ∀ (l : Kids V), l ≠ [] → (∀ e ∈ l, e ∈ kids) → lastOf l = (leavesOf l).getLast? ∧ leavesOf l ≠ [] := by
      intro l
      induction l with
      | nil => intro h; exact absurd rfl h
      | cons q rest ih2 =>
        intro _ hl
        obtain ⟨c, m⟩ := q
        have hm := hl (c, m) (by simp)
        cases rest with
        | nil =>
          refine ⟨?_, by simp only [leavesOf]; have := (kid _ hm).ne_nil; simpa using this⟩
          simp only [lastOf, leavesOf, List.append_nil]
          exact ih _ hm
        | cons r rest =>
          obtain ⟨h1, h2⟩ := ih2 (by simp) (fun e he => hl e (by simp [he]))
          refine ⟨?_, ?_⟩
          · rw [lastOf, leavesOf, h1, List.getLast?_append, List.getLast?_eq_some_getLast h2]; rfl
          · rw [leavesOf]; simp [h2]
    exact (key kids (by intro h; rw [h] at two; simp at two) (fun e he => he)).1

/-! ### Where the query goes -/

/-- The query follows the path, as far as it goes. -/
def Fit (q p : Key) : Prop := ∀ i, i < p.length → i < q.length → q.get i = p.get i

theorem fit_comp {q p comp : Key} (h : Fit q p) (hm : mismatch comp (q.drop p.length) = none) :
    Fit q (p ++ comp) := by
  intro i h1 h2
  simp only [List.length_append] at h1
  by_cases h3 : i < p.length
  · rw [h i h3 h2, get_append_left h3]
  · have := mismatch_spec comp (q.drop p.length)
    rw [hm] at this
    have := this (i - p.length) (by omega) (by simp; omega)
    rw [get_drop, show p.length + (i - p.length) = i by omega] at this
    rw [this, get_append_right (by omega)]

theorem fit_snoc {q p : Key} {b : UInt8} (h : Fit q p) (hb : q.get p.length = b) : Fit q (p ++ [b]) := by
  intro i h1 h2
  simp only [List.length_append, List.length_cons, List.length_nil] at h1
  by_cases h3 : i < p.length
  · rw [h i h3 h2, get_append_left h3]
  · have : i = p.length := by omega
    subst this
    rw [hb, get_append_right (Nat.le_refl _)]; simp [Key.get]

theorem kid_lt {p q : Key} {b : UInt8} {m : Node V} (hm : Ok (p ++ [b]) m) (hf : Fit q p)
    (hb : b < q.get p.length) : ∀ e ∈ m.leaves, e.1 < q := by
  intro e he
  have ha := hm.agree e he
  have hl := get_pos hb
  refine lt_of_pad (d := p.length) ?_ ?_
  · intro i hi; rw [ha.mono i hi, hf i hi (by omega)]
  · rw [ha.last]; exact hb

theorem kid_gt {p q : Key} {b : UInt8} {m : Node V} (hm : Ok (p ++ [b]) m) (hf : Fit q p)
    (hb : q.get p.length < b) : ∀ e ∈ m.leaves, q < e.1 := by
  intro e he
  have ha := hm.agree e he
  have hl : p.length < e.1.length := by
    have := ha.last
    rw [← this] at hb
    exact get_pos hb
  by_cases hq : p.length ≤ q.length
  · refine lt_of_pad (d := p.length) ?_ ?_
    · intro i hi; rw [ha.mono i hi, hf i hi (by omega)]
    · rw [ha.last]; exact hb
  · refine lt_of_prefix ?_ (by omega)
    intro i hi
    rw [hf i (by omega) hi, ha.mono i (by omega)]

theorem mismatch_order {p comp q : Key} {kind : Kind} {subN : Nat} {kids : Kids V}
    (h : Ok p (.inner comp kind subN kids)) (hf : Fit q p) {g : Bool}
    (hm : mismatch comp (q.drop p.length) = some g) :
    ∀ e ∈ leavesOf kids, if g then e.1 < q else q < e.1 := by
  intro e he
  have hs := mismatch_spec comp (q.drop p.length)
  rw [hm] at hs
  obtain ⟨i, h1, h2, h3, h4⟩ := hs
  cases h with
  | inner sorted two low cap kid sub len =>
    obtain ⟨r, hr, he⟩ := mem_leavesOf.1 he
    have hag := ((kid r hr).agree e he).mono
    simp only [List.length_drop] at h2
    have hpre : ∀ j, j < p.length + i → q.get j = e.1.get j := by
      intro j hj
      rw [hag j (by simp; omega)]
      by_cases h5 : j < p.length
      · rw [hf j h5 (by omega), get_append_left h5]
      · have := h3 (j - p.length) (by omega)
        rw [get_drop, show p.length + (j - p.length) = j by omega] at this
        rw [this, get_append_right (by omega)]
    have hat : e.1.get (p.length + i) = comp.get i := by
      rw [hag _ (by simp; omega), get_append_right (by omega), show p.length + i - p.length = i by omega]
    rw [get_drop, ← hat] at h4
    cases g with
    | true => exact lt_of_pad (fun j hj => (hpre j hj).symm) (by simpa using h4)
    | false => simpa using lt_of_pad hpre (by simpa using h4)

/-! ### The neighbours of a byte -/

theorem split_bytes {kids : Kids V} (hs : kids.Pairwise fun a b => a.1 < b.1) (x : UInt8) :
    ∃ A B, kids = A ++ B ∧ (∀ e ∈ A, e.1 < x) ∧ (∀ e ∈ B, x ≤ e.1) := by
  induction kids with
  | nil => exact ⟨[], [], rfl, by simp, by simp⟩
  | cons r rest ih =>
    rw [List.pairwise_cons] at hs
    by_cases h : r.1 < x
    · obtain ⟨A, B, h1, h2, h3⟩ := ih hs.2
      refine ⟨r :: A, B, by simp [h1], ?_, h3⟩
      intro e he
      rcases List.mem_cons.1 he with rfl | he
      · exact h
      · exact h2 e he
    · refine ⟨[], r :: rest, rfl, by simp, ?_⟩
      intro e he
      rcases List.mem_cons.1 he with rfl | he
      · grind
      · have := hs.1 e he; grind

theorem find_head {α : Type} {f : α → Bool} {A B : List α} (hA : ∀ e ∈ A, f e = false) (hB : ∀ e ∈ B, f e = true) :
    (A ++ B).find? f = B.head? := by
  have : A.find? f = none := by simpa using hA
  rw [List.find?_append, this]
  cases B with
  | nil => rfl
  | cons b B => simp [hB b (by simp)]

theorem kGte_split {x : UInt8} {A B : Kids V} (hA : ∀ e ∈ A, e.1 < x) (hB : ∀ e ∈ B, x ≤ e.1) :
    kGte x (A ++ B) = B.head? := by
  unfold kGte
  refine find_head (fun e he => ?_) (fun e he => ?_)
  · have := hA e he; simp; grind
  · simpa using hB e he

theorem kNext_split {x : UInt8} {A B : Kids V} (hA : ∀ e ∈ A, e.1 ≤ x) (hB : ∀ e ∈ B, x < e.1) :
    kNext (some x) (A ++ B) = B.head? := by
  unfold kNext
  refine find_head (fun e he => ?_) (fun e he => ?_)
  · have := hA e he; simp; grind
  · simpa using hB e he

theorem kPrev_split {x : UInt8} {A B : Kids V} (hA : ∀ e ∈ A, e.1 < x) (hB : ∀ e ∈ B, x ≤ e.1) :
    kPrev (some x) (A ++ B) = A.getLast? := by
  unfold kPrev
  simp only [List.reverse_append]
  rw [find_head, List.head?_reverse]
  · intro e he; have := hB e (by simpa using he); simp; grind
  · intro e he; simpa using hA e (by simpa using he)

theorem kLte_split {x : UInt8} {A B : Kids V} (hA : ∀ e ∈ A, e.1 ≤ x) (hB : ∀ e ∈ B, x < e.1) :
    kLte x (A ++ B) = A.getLast? := by
  unfold kLte
  simp only [List.reverse_append]
  rw [find_head, List.head?_reverse]
  · intro e he; have := hB e (by simpa using he); simp; grind
  · intro e he; simpa using hA e (by simpa using he)

theorem gteKid_mid {q : Key} {sm d cd swd c} {b : UInt8} {pre post : Kids V} {n : Node V} (h : ∀ e ∈ pre, e.1 ≠ b) :
    gteKid q sm d cd swd c b (pre ++ (b, n) :: post) = n.getGTE q sm d cd swd c := by
  induction pre with
  | nil => simp [gteKid]
  | cons r rest ih =>
    obtain ⟨x, m⟩ := r
    have h1 := h (x, m) (by simp)
    simp only at h1
    rw [List.cons_append, gteKid, if_neg h1, ih (fun e he => h e (by simp [he]))]

theorem lteKid_mid {q : Key} {sm d cd swd c} {b : UInt8} {pre post : Kids V} {n : Node V} (h : ∀ e ∈ pre, e.1 ≠ b) :
    lteKid q sm d cd swd c b (pre ++ (b, n) :: post) = n.getLTE q sm d cd swd c := by
  induction pre with
  | nil => simp [lteKid]
  | cons r rest ih =>
    obtain ⟨x, m⟩ := r
    have h1 := h (x, m) (by simp)
    simp only at h1
    rw [List.cons_append, lteKid, if_neg h1, ih (fun e he => h e (by simp [he]))]

/-! ### Greater keys -/

/-- The keys a search is after. -/
def Good : SMod → Key → Key → Prop
  | .gte, q, k => ¬ k < q
  | .gt, q, k => q < k
  | .lte, q, k => ¬ q < k
  | .lt, q, k => k < q
  | .exact, q, k => k = q

/-- The search has found the first leaf it is after, and its place. -/
def HitUp (sm : SMod) (q : Key) (L : List (Key × V)) (r : Res V) : Prop :=
  r.found = true ∧ ∃ l1 e l2, L = l1 ++ e :: l2 ∧ r.id = l1.length ∧ r.value = some e ∧
    Good sm q e.1 ∧ ∀ x ∈ l1, ¬ Good sm q x.1

theorem HitUp.shift {sm : SMod} {q : Key} {L A B : List (Key × V)} {r r' : Res V} (h : HitUp sm q L r)
    (hA : ∀ x ∈ A, ¬ Good sm q x.1) (hf : r'.found = true) (hv : r'.value = r.value)
    (hi : r'.id = r.id + A.length) : HitUp sm q (A ++ (L ++ B)) r' := by
  obtain ⟨h1, l1, e, l2, h2, h3, h4, h5, h6⟩ := h
  refine ⟨hf, A ++ l1, e, l2 ++ B, by simp [h2], by simp [hi, h3]; omega, by rw [hv, h4], h5, ?_⟩
  intro x hx
  rcases List.mem_append.1 hx with h | h
  · exact hA x h
  · exact h6 x h

/-- The first leaf after some that are too small. -/
theorem HitUp.first {sm : SMod} {q : Key} {L A B : List (Key × V)} {r : Res V} (hL : L ≠ [])
    (hA : ∀ x ∈ A, ¬ Good sm q x.1) (hg : ∀ x ∈ L, Good sm q x.1) (hf : r.found = true) (hv : r.value = L.head?)
    (hi : r.id = A.length) : HitUp sm q (A ++ (L ++ B)) r := by
  cases L with
  | nil => exact absurd rfl hL
  | cons e L =>
    exact ⟨hf, A, e, L ++ B, by simp, hi, by simp [hv], hg e (by simp), hA⟩

theorem good_of_gt {sm : SMod} (hs : sm = .gte ∨ sm = .gt) {q k : Key} (h : q < k) : Good sm q k := by
  rcases hs with rfl | rfl
  · exact klt_asymm h
  · exact h
theorem not_good_of_lt {sm : SMod} (hs : sm = .gte ∨ sm = .gt) {q k : Key} (h : k < q) : ¬ Good sm q k := by
  rcases hs with rfl | rfl
  · exact fun h2 => h2 h
  · exact klt_asymm h

theorem gteKid_after {P : Key} {m : Node V} (h : Ok P m) {q : Key} (hq : q ≠ []) (hg : ∀ e ∈ m.leaves, q < e.1)
    (sm d cd) (swd : Bool) (c : Int) (hc : swd = true ∨ c = -1) :
    ((m.getGTE q sm d cd swd c).found = true ∨ (m.getGTE q sm d cd swd c).dir < 0) ∧
    (swd = false → (m.getGTE q sm d cd swd c).found = false) ∧
    (m.getGTE q sm d cd swd c).value = m.leaves.head? ∧ (m.getGTE q sm d cd swd c).id = 0 := by
  have hfirst := first_ok h
  cases h with
  | @leaf _ k v ha =>
    rw [Node.getGTE, leafGet_lt (hg (k, v) (by simp [Node.leaves]))]
    simp [Node.leaves]
  | inner sorted two low cap kid sub len =>
    rw [Node.getGTE]
    dsimp only
    by_cases hw : swd = true
    · rw [if_pos hw]; simp [hfirst, hw]
    · rw [if_neg hw, if_neg hq]
      have : c = -1 := by rcases hc with h | h; exact absurd h hw; exact h
      subst this
      simp [hfirst]

theorem gteKid_before {P : Key} {m : Node V} (h : Ok P m) {q : Key} (hq : q ≠ []) (hg : ∀ e ∈ m.leaves, e.1 < q)
    (sm d cd) :
    (m.getGTE q sm d cd false 1).found = false ∧ 0 < (m.getGTE q sm d cd false 1).dir := by
  cases h with
  | @leaf _ k v ha =>
    rw [Node.getGTE, leafGet_gt (hg (k, v) (by simp [Node.leaves]))]
    simp
  | inner sorted two low cap kid sub len =>
    rw [Node.getGTE]
    dsimp only
    rw [if_neg (by simp), if_neg hq]
    simp

theorem byteCmp_lt {a b : UInt8} (h : a < b) : byteCmp a b 0 = -1 := by
  have : ¬ b < a := by grind
  simp [byteCmp, h, this]
theorem byteCmp_gt {a b : UInt8} (h : b < a) : byteCmp a b 0 = 1 := by
  simp [byteCmp, h]
theorem byteCmp_self (a : UInt8) : byteCmp a a 0 = 0 := by simp [byteCmp]

/-- The query is smaller than all keys and parts from them within the compressed bytes of the
node. -/
def Miss (q : Key) (d : Nat) : Node V → Prop
  | .leaf _ _ => True
  | .inner comp _ _ _ => mismatch comp (q.drop d) = some false

theorem last_split {α : Type} {A : List α} {x : α} (h : A.getLast? = some x) : ∃ A', A = A' ++ [x] := by
  refine ⟨A.dropLast, ?_⟩
  have hne : A ≠ [] := by intro h2; rw [h2] at h; simp at h
  rw [List.getLast?_eq_some_getLast hne] at h
  have := List.dropLast_concat_getLast hne
  simp at h
  rw [h] at this
  exact this.symm

theorem getGTE_ok {p : Key} {n : Node V} (h : Ok p n) {q : Key} (hq : q ≠ []) (hf : Fit q p) {sm : SMod}
    (hs : sm = .gte ∨ sm = .gt) (cd : Nat) :
    let r := n.getGTE q sm p.length cd false 0
    HitUp sm q n.leaves r ∨
    (r.found = false ∧ 0 < r.dir ∧ ∀ e ∈ n.leaves, ¬ Good sm q e.1) ∨
    (r.found = false ∧ r.dir < 0 ∧ (∀ e ∈ n.leaves, q < e.1) ∧ (cd = 0 → Miss q p.length n)) ∨
    (sm = .gt ∧ ∃ v, n = .leaf q v ∧ r = { value := some (q, v), found := true }) := by
  induction h generalizing cd with
  | @leaf p key val hkey =>
    intro r
    simp only [r]
    rw [Node.getGTE]
    rcases klt_tri q key with h | h | h
    · rw [leafGet_lt h]; right; right; left
      simp [Node.leaves, h, Miss]
    · rw [leafGet_eq h.symm]
      rcases hs with rfl | rfl
      · left; exact ⟨rfl, [], (key, val), [], rfl, rfl, rfl, by simp [Good, h, klt_irrefl], by simp⟩
      · right; right; right; exact ⟨rfl, val, by rw [h], by rw [h]⟩
    · rw [leafGet_gt h]; right; left
      refine ⟨rfl, by simp, ?_⟩
      intro e he
      simp [Node.leaves] at he
      subst he
      exact not_good_of_lt hs h
  | @inner p comp kind subN kids sorted two low cap kid sub len ih =>
    have hok : Ok p (.inner comp kind subN kids) := .inner sorted two low cap kid sub len
    intro r
    simp only [r]
    have hfirst := first_ok hok
    rw [Node.getGTE]
    dsimp only
    rw [if_neg (by simp), if_neg hq, if_neg (by simp), if_neg (by simp)]
    simp only [Node.leaves] at hfirst ⊢
    cases hm : mismatch comp (q.drop p.length) with
    | some g =>
      have hord := mismatch_order hok hf hm
      cases g with
      | true =>
        right; left
        exact ⟨rfl, by simp, fun e he => not_good_of_lt hs (by simpa using hord e he)⟩
      | false =>
        right; right; left
        exact ⟨rfl, by simp, fun e he => by simpa using hord e he, fun _ => hm⟩
    | none =>
      dsimp only
      have hfc := fit_comp hf hm
      have hpl : (p ++ comp).length = p.length + comp.length := List.length_append
      generalize hqk : q.get (p.length + comp.length) = qk
      rw [← hpl] at hqk
      obtain ⟨A, B, rfl, hA, hB⟩ := split_bytes sorted qk
      have hAlt : ∀ e ∈ leavesOf A, e.1 < q := by
        intro e he
        obtain ⟨x, hx, he⟩ := mem_leavesOf.1 he
        exact kid_lt (kid x (by simp [hx])) hfc (by rw [hqk]; exact hA x hx) e he
      rw [kGte_split hA hB]
      cases B with
      | nil =>
        right; left
        refine ⟨rfl, by simp, fun e he => not_good_of_lt hs (hAlt e (by simpa using he))⟩
      | cons b B' =>
        obtain ⟨nb, next⟩ := b
        simp only [List.head?_cons]
        obtain ⟨o1, o2⟩ := pairwise_ne sorted
        have hAne : ∀ e ∈ A, e.1 ≠ nb := fun e he => ub _ _ (o1 e he)
        have hB'gt : ∀ e ∈ B', qk < e.1 := by
          intro e he
          have h1 := o2 e he
          have h2 := hB (nb, next) (by simp)
          simp only at h2
          grind
        have hB'lt : ∀ e ∈ leavesOf B', q < e.1 := by
          intro e he
          obtain ⟨x, hx, he⟩ := mem_leavesOf.1 he
          exact kid_gt (kid x (by simp [hx])) hfc (by rw [hqk]; exact hB'gt x hx) e he
        rw [gteKid_mid hAne]
        have hpren : pren nb (A ++ (nb, next) :: B') = (leavesOf A).length :=
          pren_mid (p := p ++ comp) hAne (fun e he => kid e (by simp [he]))
        rw [hpren]
        have hokn : Ok (p ++ comp ++ [nb]) next := kid (nb, next) (by simp)
        have hlv : leavesOf (A ++ (nb, next) :: B') = leavesOf A ++ (next.leaves ++ leavesOf B') := by
          simp [leavesOf_append, leavesOf]
        rw [hlv] at hfirst ⊢
        have hnb : qk ≤ nb := by simpa using hB (nb, next) (by simp)
        -- the branch that looks at the previous child
        have prevBranch : ∀ (hnl : ∀ e ∈ next.leaves, q < e.1) (out : Res V),
            out = (match kPrev (some qk) (A ++ (nb, next) :: B') with
              | none => { value := Node.first (.inner comp kind subN (A ++ (nb, next) :: B')), found := decide (cd = 0), dir := -1 }
              | some (pb, _) =>
                let r2 := gteKid q sm (p.length + comp.length + 1) (cd + 1) false (byteCmp qk pb 0) pb (A ++ (nb, next) :: B')
                if r2.found then { value := r2.value, found := true, id := r2.id + pren pb (A ++ (nb, next) :: B') }
                else if 0 < r2.dir then { value := next.first, found := true, id := (leavesOf A).length }
                else { value := r2.value, dir := r2.dir, id := r2.id + pren pb (A ++ (nb, next) :: B') }) →
            HitUp sm q (leavesOf A ++ (next.leaves ++ leavesOf B')) out ∨
            (out.found = false ∧ out.dir < 0 ∧ (∀ e ∈ leavesOf A ++ (next.leaves ++ leavesOf B'), q < e.1) ∧ cd ≠ 0) := by
          intro hnl out hout
          rw [kPrev_split hA hB] at hout
          cases hgl : A.getLast? with
          | none =>
            rw [hgl] at hout
            have hA0 : A = [] := by simpa using hgl
            subst hA0
            simp only [leavesOf, List.nil_append] at hfirst hlv hout ⊢
            rw [hfirst] at hout
            have hall : ∀ e ∈ next.leaves ++ leavesOf B', q < e.1 := by
              intro e he
              rcases List.mem_append.1 he with h | h
              · exact hnl e h
              · exact hB'lt e h
            by_cases hcd : cd = 0
            · left
              have := HitUp.first (sm := sm) (q := q) (L := next.leaves ++ leavesOf B') (A := []) (B := []) (r := out)
                (by have := hokn.ne_nil; simp [this]) (by simp) (fun x hx => good_of_gt hs (hall x hx))
                (by rw [hout]; simp [hcd]) (by rw [hout]) (by rw [hout]; rfl)
              simpa using this
            · right
              refine ⟨by rw [hout]; simp [hcd], by rw [hout]; simp, hall, hcd⟩
          | some x =>
            obtain ⟨pb, pm⟩ := x
            rw [hgl] at hout
            dsimp only at hout
            obtain ⟨A', hA'⟩ := last_split hgl
            have hpb : pb < qk := hA (pb, pm) (by rw [hA']; simp)
            have hne : ∀ e ∈ A', e.1 ≠ pb := by
              have hs2 := sorted
              rw [hA'] at hs2
              rw [List.append_assoc] at hs2
              exact fun e he => ub _ _ ((pairwise_ne hs2).1 e he)
            have hmid : gteKid q sm (p.length + comp.length + 1) (cd + 1) false (byteCmp qk pb 0) pb (A ++ (nb, next) :: B')
                = pm.getGTE q sm (p.length + comp.length + 1) (cd + 1) false (byteCmp qk pb 0) := by
              rw [hA', List.append_assoc]
              exact gteKid_mid hne
            rw [hmid, byteCmp_gt hpb] at hout
            have hokp : Ok (p ++ comp ++ [pb]) pm := kid (pb, pm) (by rw [hA']; simp)
            obtain ⟨b1, b2⟩ := gteKid_before hokp hq
              (fun e he => kid_lt hokp hfc (by rw [hqk]; exact hpb) e he) sm (p.length + comp.length + 1) (cd + 1)
            rw [if_neg (by simp [b1]), if_pos b2] at hout
            left
            exact HitUp.first hokn.ne_nil (fun x hx => not_good_of_lt hs (hAlt x hx))
              (fun x hx => good_of_gt hs (hnl x hx)) (by rw [hout]) (by rw [hout]; exact first_ok hokn) (by rw [hout])
        by_cases heq : nb = qk
        · subst heq
          rw [byteCmp_self]
          have hI := ih (nb, next) (by simp) (fit_snoc hfc hqk) (cd + 1)
          simp only [show (p ++ comp ++ [nb]).length = p.length + comp.length + 1 by simp; omega] at hI
          generalize hr : next.getGTE q sm (p.length + comp.length + 1) (cd + 1) false 0 = r0 at hI ⊢
          have hnext : ∀ A2 : Kids V, A2 = A ++ (nb, next) :: B' → kNext (some nb) A2 = B'.head? := by
            intro A2 h2
            rw [h2, show A ++ (nb, next) :: B' = (A ++ [(nb, next)]) ++ B' by simp]
            refine kNext_split ?_ o2
            intro e he
            rcases List.mem_append.1 he with h | h
            · have := o1 e h; grind
            · simp at h; subst h; simp
          rcases hI with hI | ⟨f1, f2, f3⟩ | ⟨f1, f2, f3, f4⟩ | ⟨f1, v, f2, f3⟩
          · -- found below
            left
            have hgood := hI
            obtain ⟨h1, l1, e, l2, h2, h3, h4, h5, h6⟩ := hI
            rcases hs with rfl | rfl
            · rw [if_pos ⟨h1, rfl⟩]
              exact hgood.shift (fun x hx => not_good_of_lt (.inl rfl) (hAlt x hx)) rfl rfl rfl
            · rw [if_neg (by simp), if_pos ⟨h1, rfl⟩, if_pos (by rw [h4]; simp; exact cmp_gt.2 h5)]
              exact hgood.shift (fun x hx => not_good_of_lt (.inr rfl) (hAlt x hx)) rfl rfl rfl
          · -- all below are too small
            rw [if_neg (by simp [f1]), if_neg (by simp [f1]), if_pos f2]
            rw [hnext _ rfl]
            cases B' with
            | nil =>
              right; left
              refine ⟨rfl, by simp, ?_⟩
              intro e he
              simp only [leavesOf, List.append_nil] at he
              rcases List.mem_append.1 he with h | h
              · exact not_good_of_lt hs (hAlt e h)
              · exact f3 e h
            | cons x B2 =>
              obtain ⟨nnb, nn⟩ := x
              simp only [List.head?_cons]
              have hnn : nb < nnb := o2 (nnb, nn) (by simp)
              have hpre2 : ∀ e ∈ A ++ [(nb, next)], e.1 ≠ nnb := by
                intro e he
                rcases List.mem_append.1 he with h | h
                · have := o1 e h; grind
                · simp at h; subst h; exact ub _ _ hnn
              have hmid : ∀ (d : Nat) (s : Bool) (c : Int), gteKid q sm d (cd + 1) s c nnb (A ++ (nb, next) :: (nnb, nn) :: B2)
                  = nn.getGTE q sm d (cd + 1) s c := by
                intro d s c
                rw [show A ++ (nb, next) :: (nnb, nn) :: B2 = (A ++ [(nb, next)]) ++ (nnb, nn) :: B2 by simp]
                exact gteKid_mid hpre2
              rw [hmid, byteCmp_lt hnn]
              have hokm : Ok (p ++ comp ++ [nnb]) nn := kid (nnb, nn) (by simp)
              obtain ⟨a1, a2, a3, a4⟩ := gteKid_after hokm hq
                (fun e he => kid_gt hokm hfc (by rw [hqk]; exact hnn) e he) sm (p.length + comp.length) (cd + 1)
                (decide (1 < r0.dir)) (-1) (.inr rfl)
              have hpren2 : pren nnb (A ++ (nb, next) :: (nnb, nn) :: B2) = (leavesOf (A ++ [(nb, next)])).length := by
                rw [show A ++ (nb, next) :: (nnb, nn) :: B2 = (A ++ [(nb, next)]) ++ (nnb, nn) :: B2 by simp]
                exact pren_mid (p := p ++ comp) hpre2 (fun e he => kid e (by
                  rcases List.mem_append.1 he with h | h
                  · simp [h]
                  · simp at h; simp [h]))
              left
              have hlv2 : leavesOf A ++ (next.leaves ++ leavesOf ((nnb, nn) :: B2))
                  = leavesOf (A ++ [(nb, next)]) ++ (nn.leaves ++ leavesOf B2) := by
                simp [leavesOf_append, leavesOf]
              rw [hlv2]
              have hbefore : ∀ x ∈ leavesOf (A ++ [(nb, next)]), ¬ Good sm q x.1 := by
                intro e he
                rw [leavesOf_append] at he
                rcases List.mem_append.1 he with h | h
                · exact not_good_of_lt hs (hAlt e h)
                · exact f3 e (by simpa [leavesOf] using h)
              have hafter : ∀ x ∈ nn.leaves, Good sm q x.1 := fun x hx =>
                good_of_gt hs (kid_gt hokm hfc (by rw [hqk]; exact hnn) x hx)
              split
              · exact HitUp.first hokm.ne_nil hbefore hafter rfl a3 (by simp [a4, hpren2])
              · split
                · exact HitUp.first hokm.ne_nil hbefore hafter rfl a3 (by simp [a4, hpren2])
                · rename_i g1 g2
                  rcases a1 with h | h
                  · exact absurd h g1
                  · exact absurd h g2
          · -- all below are too large
            rw [if_neg (by simp [f1]), if_neg (by simp [f1]), if_neg (by omega)]
            rcases prevBranch f3 _ rfl with h | ⟨h1, h2, h3, h4⟩
            · exact .inl h
            · exact .inr (.inr (.inl ⟨h1, h2, h3, fun h => absurd h h4⟩))
          · -- the key itself, but a greater one is wanted
            subst f1
            rw [f3, if_neg (by simp), if_pos ⟨rfl, rfl⟩, if_neg (by
              simp only [Option.map_some, Option.some.injEq]
              rw [cmp_gt]; exact klt_irrefl q)]
            rw [hnext _ rfl]
            have hnl : next.leaves = [(q, v)] := by rw [show next = .leaf q v from f2]; simp [Node.leaves]
            cases B' with
            | nil =>
              right; left
              refine ⟨rfl, by simp, ?_⟩
              intro e he
              simp only [leavesOf, List.append_nil, hnl] at he
              rcases List.mem_append.1 he with h | h
              · exact not_good_of_lt (.inr rfl) (hAlt e h)
              · simp at h; subst h; exact klt_irrefl q
            | cons x B2 =>
              obtain ⟨nnb, nn⟩ := x
              simp only [List.head?_cons]
              have hnn : nb < nnb := o2 (nnb, nn) (by simp)
              have hpre2 : ∀ e ∈ A ++ [(nb, next)], e.1 ≠ nnb := by
                intro e he
                rcases List.mem_append.1 he with h | h
                · have := o1 e h; grind
                · simp at h; subst h; exact ub _ _ hnn
              have hpren2 : pren nnb (A ++ (nb, next) :: (nnb, nn) :: B2) = (leavesOf (A ++ [(nb, next)])).length := by
                rw [show A ++ (nb, next) :: (nnb, nn) :: B2 = (A ++ [(nb, next)]) ++ (nnb, nn) :: B2 by simp]
                exact pren_mid (p := p ++ comp) hpre2 (fun e he => kid e (by
                  rcases List.mem_append.1 he with h | h
                  · simp [h]
                  · simp at h; simp [h]))
              have hokm : Ok (p ++ comp ++ [nnb]) nn := kid (nnb, nn) (by simp)
              left
              have hlv2 : leavesOf A ++ (next.leaves ++ leavesOf ((nnb, nn) :: B2))
                  = leavesOf (A ++ [(nb, next)]) ++ (nn.leaves ++ leavesOf B2) := by
                simp [leavesOf_append, leavesOf]
              rw [hlv2]
              refine HitUp.first hokm.ne_nil ?_ (fun x hx =>
                good_of_gt (.inr rfl) (kid_gt hokm hfc (by rw [hqk]; exact hnn) x hx)) rfl (first_ok hokm) hpren2
              intro e he
              rw [leavesOf_append] at he
              rcases List.mem_append.1 he with h | h
              · exact not_good_of_lt (.inr rfl) (hAlt e h)
              · simp [leavesOf, hnl] at h; subst h; exact klt_irrefl q
        · have hlt : qk < nb := by grind
          rw [byteCmp_lt hlt]
          have hnl : ∀ e ∈ next.leaves, q < e.1 := kid_gt hokn hfc (by rw [hqk]; exact hlt)
          obtain ⟨a1, a2, a3, a4⟩ := gteKid_after hokn hq hnl sm (p.length + comp.length + 1) (cd + 1) false (-1) (.inr rfl)
          have hdir : (next.getGTE q sm (p.length + comp.length + 1) (cd + 1) false (-1)).dir < 0 := by
            rcases a1 with h | h
            · rw [a2 rfl] at h; exact absurd h (by simp)
            · exact h
          rw [if_neg (by simp [a2 rfl]), if_neg (by simp [a2 rfl]), if_neg (by omega)]
          rcases prevBranch hnl _ rfl with h | ⟨h1, h2, h3, h4⟩
          · exact .inl h
          · exact .inr (.inr (.inl ⟨h1, h2, h3, fun h => absurd h h4⟩))

/-! ### Smaller keys -/

/-- The search has found the last leaf it is after, and its place. -/
def HitDown (sm : SMod) (q : Key) (L : List (Key × V)) (r : Res V) : Prop :=
  r.found = true ∧ ∃ l1 e l2, L = l1 ++ e :: l2 ∧ r.id = l1.length ∧ r.value = some e ∧
    Good sm q e.1 ∧ ∀ x ∈ l2, ¬ Good sm q x.1

theorem HitDown.shift {sm : SMod} {q : Key} {L A B : List (Key × V)} {r r' : Res V} (h : HitDown sm q L r)
    (hB : ∀ x ∈ B, ¬ Good sm q x.1) (hf : r'.found = true) (hv : r'.value = r.value)
    (hi : r'.id = r.id + A.length) : HitDown sm q (A ++ (L ++ B)) r' := by
  obtain ⟨h1, l1, e, l2, h2, h3, h4, h5, h6⟩ := h
  refine ⟨hf, A ++ l1, e, l2 ++ B, by simp [h2], by simp [hi, h3]; omega, by rw [hv, h4], h5, ?_⟩
  intro x hx
  rcases List.mem_append.1 hx with h | h
  · exact h6 x h
  · exact hB x h

/-- The last leaf before some that are too large. -/
theorem HitDown.last {sm : SMod} {q : Key} {L A B : List (Key × V)} {r : Res V} (hL : L ≠ [])
    (hB : ∀ x ∈ B, ¬ Good sm q x.1) (hg : ∀ x ∈ L, Good sm q x.1) (hf : r.found = true) (hv : r.value = L.getLast?)
    (hi : r.id = A.length + L.length - 1) : HitDown sm q (A ++ (L ++ B)) r := by
  obtain ⟨L', hL'⟩ := last_split (List.getLast?_eq_some_getLast hL)
  generalize L.getLast hL = e at hL'
  subst hL'
  refine ⟨hf, A ++ L', e, B, by simp, ?_, by simp [hv], hg e (by simp), hB⟩
  simp only [List.length_append, List.length_cons, List.length_nil] at hi ⊢
  omega

theorem good_of_lt {sm : SMod} (hs : sm = .lte ∨ sm = .lt) {q k : Key} (h : k < q) : Good sm q k := by
  rcases hs with rfl | rfl
  · exact klt_asymm h
  · exact h
theorem not_good_of_gt {sm : SMod} (hs : sm = .lte ∨ sm = .lt) {q k : Key} (h : q < k) : ¬ Good sm q k := by
  rcases hs with rfl | rfl
  · exact fun h2 => h2 h
  · exact klt_asymm h

theorem lteKid_before {P : Key} {m : Node V} (h : Ok P m) {q : Key} (hq : q ≠ []) (hg : ∀ e ∈ m.leaves, e.1 < q)
    (sm d cd) (lwd : Bool) (c : Int) (hc : lwd = true ∨ c = 1) :
    ((m.getLTE q sm d cd lwd c).found = true ∨ 0 < (m.getLTE q sm d cd lwd c).dir) ∧
    (lwd = false → (m.getLTE q sm d cd lwd c).found = false) ∧
    (m.getLTE q sm d cd lwd c).value = m.leaves.getLast? ∧
    (m.getLTE q sm d cd lwd c).id = m.leaves.length - 1 := by
  have hlast := last_ok h
  have hsub := h.subn
  cases h with
  | @leaf _ k v ha =>
    rw [Node.getLTE, leafGet_gt (hg (k, v) (by simp [Node.leaves]))]
    simp [Node.leaves]
  | inner sorted two low cap kid sub len =>
    simp only [Node.subn, Node.leaves] at hsub
    simp only [Node.leaves] at hlast ⊢
    rw [Node.getLTE]
    dsimp only
    by_cases hw : lwd = true
    · rw [if_pos hw, hlast]; simp [hw, hsub]
    · rw [if_neg hw, if_neg hq]
      have : c = 1 := by rcases hc with h | h; exact absurd h hw; exact h
      subst this
      rw [hlast]
      simp [hsub]

theorem lteKid_after {P : Key} {m : Node V} (h : Ok P m) {q : Key} (hq : q ≠ []) (hg : ∀ e ∈ m.leaves, q < e.1)
    (sm d cd) :
    (m.getLTE q sm d cd false (-1)).found = false ∧ (m.getLTE q sm d cd false (-1)).dir < 0 := by
  cases h with
  | @leaf _ k v ha =>
    rw [Node.getLTE, leafGet_lt (hg (k, v) (by simp [Node.leaves]))]
    simp
  | inner sorted two low cap kid sub len =>
    rw [Node.getLTE]
    dsimp only
    rw [if_neg (by simp), if_neg hq]
    simp

theorem split_bytes' {kids : Kids V} (hs : kids.Pairwise fun a b => a.1 < b.1) (x : UInt8) :
    ∃ A B, kids = A ++ B ∧ (∀ e ∈ A, e.1 ≤ x) ∧ (∀ e ∈ B, x < e.1) := by
  obtain ⟨A, B, h1, h2, h3⟩ := split_bytes hs x
  cases B with
  | nil => exact ⟨A, [], h1, fun e he => by have := h2 e he; grind, by simp⟩
  | cons b B =>
    rw [h1] at hs
    obtain ⟨o1, o2⟩ := pairwise_ne hs
    by_cases hb : b.1 = x
    · refine ⟨A ++ [b], B, by simp [h1], ?_, by rw [← hb]; exact o2⟩
      intro e he
      rcases List.mem_append.1 he with h | h
      · have := h2 e h; grind
      · simp at h; subst h; grind
    · refine ⟨A, b :: B, h1, fun e he => by have := h2 e he; grind, ?_⟩
      have hx := h3 b (by simp)
      intro e he
      rcases List.mem_cons.1 he with rfl | h
      · grind
      · have := o2 e h; grind

theorem getLTE_ok {p : Key} {n : Node V} (h : Ok p n) {q : Key} (hq : q ≠ []) (hf : Fit q p) {sm : SMod}
    (hs : sm = .lte ∨ sm = .lt) (cd : Nat) :
    let r := n.getLTE q sm p.length cd false 0
    HitDown sm q n.leaves r ∨
    (r.found = false ∧ r.dir < 0 ∧ ∀ e ∈ n.leaves, ¬ Good sm q e.1) ∨
    (r.found = false ∧ 0 < r.dir ∧ (∀ e ∈ n.leaves, e.1 < q) ∧ (cd = 0 → ∃ k v, n = .leaf k v)) ∨
    (sm = .lt ∧ ∃ v, n = .leaf q v ∧ r = { value := some (q, v), found := true }) := by
  induction h generalizing cd with
  | @leaf p key val hkey =>
    intro r
    simp only [r]
    rw [Node.getLTE]
    rcases klt_tri q key with h | h | h
    · rw [leafGet_lt h]; right; left
      refine ⟨rfl, by simp, ?_⟩
      intro e he
      simp [Node.leaves] at he
      subst he
      exact not_good_of_gt hs h
    · rw [leafGet_eq h.symm]
      rcases hs with rfl | rfl
      · left; exact ⟨rfl, [], (key, val), [], rfl, rfl, rfl, by simp [Good, h, klt_irrefl], by simp⟩
      · right; right; right; exact ⟨rfl, val, by rw [h], by rw [h]⟩
    · rw [leafGet_gt h]; right; right; left
      simp [Node.leaves, h]
  | @inner p comp kind subN kids sorted two low cap kid sub len ih =>
    have hok : Ok p (.inner comp kind subN kids) := .inner sorted two low cap kid sub len
    intro r
    simp only [r]
    have hlast := last_ok hok
    rw [Node.getLTE]
    dsimp only
    rw [if_neg (by simp), if_neg hq, if_neg (by simp), if_neg (by simp)]
    have hne := hok.ne_nil
    simp only [Node.leaves] at hlast hne ⊢
    cases hm : mismatch comp (q.drop p.length) with
    | some g =>
      have hord := mismatch_order hok hf hm
      cases g with
      | true =>
        dsimp only
        by_cases hcd : cd = 0
        · left
          have := HitDown.last (sm := sm) (q := q) (A := []) (B := []) hne (by simp)
            (fun x hx => good_of_lt hs (by simpa using hord x hx))
            (r := { value := Node.last (.inner comp kind subN kids), found := decide (cd = 0), dir := 1, id := subN - 1 })
            (by simp [hcd]) (by rw [← hlast]) (by simp [sub])
          simpa using this
        · right; right; left
          exact ⟨by simp [hcd], by simp, fun e he => by simpa using hord e he, fun h => absurd h hcd⟩
      | false =>
        right; left
        exact ⟨rfl, by simp, fun e he => not_good_of_gt hs (by simpa using hord e he)⟩
    | none =>
      dsimp only
      have hfc := fit_comp hf hm
      have hpl : (p ++ comp).length = p.length + comp.length := List.length_append
      generalize hqk : q.get (p.length + comp.length) = qk
      rw [← hpl] at hqk
      obtain ⟨A, B, rfl, hA, hB⟩ := split_bytes' sorted qk
      have hBgt : ∀ e ∈ leavesOf B, q < e.1 := by
        intro e he
        obtain ⟨x, hx, he⟩ := mem_leavesOf.1 he
        exact kid_gt (kid x (by simp [hx])) hfc (by rw [hqk]; exact hB x hx) e he
      rw [kLte_split hA hB]
      cases hgl : A.getLast? with
      | none =>
        have hA0 : A = [] := by simpa using hgl
        subst hA0
        right; left
        refine ⟨rfl, by simp, fun e he => not_good_of_gt hs (hBgt e (by simpa using he))⟩
      | some x =>
        obtain ⟨pb, prev⟩ := x
        obtain ⟨A', hA'⟩ := last_split hgl
        subst hA'
        have hsplit : A' ++ [(pb, prev)] ++ B = A' ++ (pb, prev) :: B := by simp
        rw [hsplit] at sorted hlast hne kid sub ⊢
        simp only [hsplit] at ih
        dsimp only
        obtain ⟨o1, o2⟩ := pairwise_ne sorted
        have hAne : ∀ e ∈ A', e.1 ≠ pb := fun e he => ub _ _ (o1 e he)
        have hpb : pb ≤ qk := hA (pb, prev) (by simp)
        have hA'lt : ∀ e ∈ A', e.1 < qk := by
          intro e he
          have := o1 e he
          grind
        have hAlt : ∀ e ∈ leavesOf A', e.1 < q := by
          intro e he
          obtain ⟨x, hx, he⟩ := mem_leavesOf.1 he
          exact kid_lt (kid x (by simp [hx])) hfc (by rw [hqk]; exact hA'lt x hx) e he
        rw [lteKid_mid hAne]
        have hpren : pren pb (A' ++ (pb, prev) :: B) = (leavesOf A').length :=
          pren_mid (p := p ++ comp) hAne (fun e he => kid e (by simp [he]))
        rw [hpren]
        have hokn : Ok (p ++ comp ++ [pb]) prev := kid (pb, prev) (by simp)
        have hlv : leavesOf (A' ++ (pb, prev) :: B) = leavesOf A' ++ (prev.leaves ++ leavesOf B) := by
          simp [leavesOf_append, leavesOf]
        rw [hlv] at hlast hne sub ⊢
        have hprevk : kPrev (some pb) (A' ++ (pb, prev) :: B) = A'.getLast? :=
          kPrev_split o1 (by
            intro e he
            rcases List.mem_cons.1 he with rfl | h
            · simp
            · have := o2 e h; grind)
        -- the last leaf of the child before
        have before : ∀ (ppb : UInt8) (pm : Node V) (hx : A'.getLast? = some (ppb, pm)) (out : Res V)
            (hmid : ∀ e ∈ prev.leaves, ¬ Good sm q e.1),
            out.found = true → out.value = pm.leaves.getLast? →
            out.id = pren ppb (A' ++ (pb, prev) :: B) + pm.leaves.length - 1 →
            HitDown sm q (leavesOf A' ++ (prev.leaves ++ leavesOf B)) out := by
          intro ppb pm hx out hmid h1 h2 h3
          obtain ⟨A2, hA2⟩ := last_split hx
          subst hA2
          have hs2 := sorted
          rw [List.append_assoc] at hs2
          have hne2 : ∀ e ∈ A2, e.1 ≠ ppb := fun e he => ub _ _ ((pairwise_ne hs2).1 e he)
          have hokp : Ok (p ++ comp ++ [ppb]) pm := kid (ppb, pm) (by simp)
          have hpr : pren ppb (A2 ++ [(ppb, pm)] ++ (pb, prev) :: B) = (leavesOf A2).length := by
            rw [List.append_assoc]
            exact pren_mid (p := p ++ comp) hne2 (fun e he => kid e (by simp [he]))
          rw [hpr] at h3
          have : leavesOf (A2 ++ [(ppb, pm)]) ++ (prev.leaves ++ leavesOf B)
              = leavesOf A2 ++ (pm.leaves ++ (prev.leaves ++ leavesOf B)) := by
            simp [leavesOf_append, leavesOf]
          rw [this]
          refine HitDown.last hokp.ne_nil ?_ ?_ h1 h2 h3
          · intro x hx
            rcases List.mem_append.1 hx with h | h
            · exact hmid x h
            · exact not_good_of_gt hs (hBgt x h)
          · intro x hx
            exact good_of_lt hs (hAlt x (by simp [leavesOf_append, leavesOf, hx]))
        -- the branch that looks at the next child
        have nextBranch : ∀ (hnl : ∀ e ∈ prev.leaves, e.1 < q) (out : Res V),
            out = (match kNext (some qk) (A' ++ (pb, prev) :: B) with
              | none => { value := Node.last (.inner comp kind subN (A' ++ (pb, prev) :: B)), found := decide (cd = 0), dir := 1, id := subN - 1 }
              | some (nb, _) =>
                let r2 := lteKid q sm (p.length + comp.length + 1) (cd + 1) false (byteCmp qk nb 0) nb (A' ++ (pb, prev) :: B)
                if r2.found then { value := r2.value, found := true, id := r2.id + pren nb (A' ++ (pb, prev) :: B) }
                else if r2.dir < 0 then
                  { value := prev.last, found := true, id := (leavesOf A').length + prev.subn - 1 }
                else { value := r2.value, dir := r2.dir, id := r2.id + pren nb (A' ++ (pb, prev) :: B) }) →
            HitDown sm q (leavesOf A' ++ (prev.leaves ++ leavesOf B)) out ∨
            (out.found = false ∧ 0 < out.dir ∧ (∀ e ∈ leavesOf A' ++ (prev.leaves ++ leavesOf B), e.1 < q) ∧ cd ≠ 0) := by
          intro hnl out hout
          have hkn : kNext (some qk) (A' ++ (pb, prev) :: B) = B.head? := by
            rw [← hsplit]; exact kNext_split hA hB
          rw [hkn] at hout
          cases B with
          | nil =>
            simp only [List.head?_nil] at hout
            simp only [leavesOf, List.append_nil] at hlast hne sub ⊢
            have hall : ∀ e ∈ leavesOf A' ++ prev.leaves, e.1 < q := by
              intro e he
              rcases List.mem_append.1 he with h | h
              · exact hAlt e h
              · exact hnl e h
            by_cases hcd : cd = 0
            · left
              have := HitDown.last (sm := sm) (q := q) (L := leavesOf A' ++ prev.leaves) (A := []) (B := []) (r := out)
                hne (by simp) (fun x hx => good_of_lt hs (hall x hx))
                (by rw [hout]; simp [hcd]) (by rw [hout]; exact hlast) (by rw [hout]; simp [sub])
              simpa using this
            · right
              exact ⟨by rw [hout]; simp [hcd], by rw [hout]; simp, hall, hcd⟩
          | cons y B2 =>
            obtain ⟨nb, nm⟩ := y
            simp only [List.head?_cons] at hout
            have hnb : qk < nb := hB (nb, nm) (by simp)
            have hpre2 : ∀ e ∈ A' ++ [(pb, prev)], e.1 ≠ nb := by
              intro e he
              have := hA e he
              grind
            have hmid : lteKid q sm (p.length + comp.length + 1) (cd + 1) false (byteCmp qk nb 0) nb (A' ++ (pb, prev) :: (nb, nm) :: B2)
                = nm.getLTE q sm (p.length + comp.length + 1) (cd + 1) false (byteCmp qk nb 0) := by
              rw [← hsplit]
              exact lteKid_mid hpre2
            have hokm : Ok (p ++ comp ++ [nb]) nm := kid (nb, nm) (by simp)
            rw [hmid, byteCmp_lt hnb] at hout
            obtain ⟨b1, b2⟩ := lteKid_after hokm hq
              (fun e he => kid_gt hokm hfc (by rw [hqk]; exact hnb) e he) sm (p.length + comp.length + 1) (cd + 1)
            rw [if_neg (by simp [b1]), if_pos b2] at hout
            left
            exact HitDown.last hokn.ne_nil (fun x hx => not_good_of_gt hs (hBgt x hx))
              (fun x hx => good_of_lt hs (hnl x hx)) (by rw [hout]) (by rw [hout]; exact last_ok hokn)
              (by rw [hout]; simp [hokn.subn])
        by_cases heq : pb = qk
        · subst heq
          rw [byteCmp_self]
          have hI := ih (pb, prev) (by simp) (fit_snoc hfc hqk) (cd + 1)
          simp only [show (p ++ comp ++ [pb]).length = p.length + comp.length + 1 by simp; omega] at hI
          generalize hr : prev.getLTE q sm (p.length + comp.length + 1) (cd + 1) false 0 = r0 at hI ⊢
          rcases hI with hI | ⟨f1, f2, f3⟩ | ⟨f1, f2, f3, f4⟩ | ⟨f1, v, f2, f3⟩
          · -- found below
            left
            have hgood := hI
            obtain ⟨h1, l1, e, l2, h2, h3, h4, h5, h6⟩ := hI
            rcases hs with rfl | rfl
            · rw [if_pos ⟨h1, rfl⟩]
              exact hgood.shift (fun x hx => not_good_of_gt (.inl rfl) (hBgt x hx)) rfl rfl rfl
            · rw [if_neg (by simp), if_pos ⟨h1, rfl⟩, if_pos (by rw [h4]; simp; exact cmp_lt.2 h5)]
              exact hgood.shift (fun x hx => not_good_of_gt (.inr rfl) (hBgt x hx)) rfl rfl rfl
          · -- all below are too large
            rw [if_neg (by simp [f1]), if_neg (by simp [f1]), if_pos f2]
            rw [hprevk]
            cases hx : A'.getLast? with
            | none =>
              have hA0 : A' = [] := by simpa using hx
              subst hA0
              right; left
              refine ⟨rfl, by simp, ?_⟩
              intro e he
              simp only [leavesOf, List.nil_append] at he
              rcases List.mem_append.1 he with h | h
              · exact f3 e h
              · exact not_good_of_gt hs (hBgt e h)
            | some y =>
              obtain ⟨ppb, pm⟩ := y
              dsimp only
              obtain ⟨A2, hA2⟩ := last_split hx
              have hppb : ppb < pb := o1 (ppb, pm) (by rw [hA2]; simp)
              have hs2 := sorted
              rw [hA2, List.append_assoc] at hs2
              have hne2 : ∀ e ∈ A2, e.1 ≠ ppb := fun e he => ub _ _ ((pairwise_ne hs2).1 e he)
              have hmid : ∀ (d : Nat) (s : Bool) (c : Int), lteKid q sm d (cd + 1) s c ppb (A' ++ (pb, prev) :: B)
                  = pm.getLTE q sm d (cd + 1) s c := by
                intro d s c
                rw [hA2, List.append_assoc]
                exact lteKid_mid hne2
              rw [hmid, byteCmp_gt hppb]
              have hokp : Ok (p ++ comp ++ [ppb]) pm := kid (ppb, pm) (by rw [hA2]; simp)
              obtain ⟨a1, a2, a3, a4⟩ := lteKid_before hokp hq
                (fun e he => kid_lt hokp hfc (by rw [hqk]; exact hppb) e he) sm (p.length + comp.length) (cd + 1)
                (decide (r0.dir < -1)) 1 (.inr rfl)
              have hpos : 0 < pm.leaves.length := by
                have := hokp.ne_nil
                exact List.length_pos_iff.2 this
              left
              split
              · exact before ppb pm hx _ f3 rfl a3 (by simp only [a4]; omega)
              · split
                · exact before ppb pm hx _ f3 rfl a3 (by simp only [a4]; omega)
                · rename_i g1 g2
                  rcases a1 with h | h
                  · exact absurd h g1
                  · exact absurd h g2
          · -- all below are too small
            rw [if_neg (by simp [f1]), if_neg (by simp [f1]), if_neg (by omega)]
            rcases nextBranch f3 _ rfl with h | ⟨h1, h2, h3, h4⟩
            · exact .inl h
            · exact .inr (.inr (.inl ⟨h1, h2, h3, fun h => absurd h h4⟩))
          · -- the key itself, but a smaller one is wanted
            subst f1
            have hnl : prev.leaves = [(q, v)] := by rw [show prev = .leaf q v from f2]; simp [Node.leaves]
            rw [f3, if_neg (by simp), if_pos ⟨rfl, rfl⟩, if_neg (by
              simp only [Option.map_some, Option.some.injEq]
              rw [cmp_lt]; exact klt_irrefl q)]
            rw [hprevk]
            have hself : ∀ e ∈ prev.leaves, ¬ Good .lt q e.1 := by
              intro e he
              rw [hnl] at he
              simp at he; subst he; exact klt_irrefl q
            cases hx : A'.getLast? with
            | none =>
              have hA0 : A' = [] := by simpa using hx
              subst hA0
              right; left
              refine ⟨rfl, by simp, ?_⟩
              intro e he
              simp only [leavesOf, List.nil_append] at he
              rcases List.mem_append.1 he with h | h
              · exact hself e h
              · exact not_good_of_gt (.inr rfl) (hBgt e h)
            | some y =>
              obtain ⟨ppb, pm⟩ := y
              dsimp only
              obtain ⟨A2, hA2⟩ := last_split hx
              have hokp : Ok (p ++ comp ++ [ppb]) pm := kid (ppb, pm) (by rw [hA2]; simp)
              left
              exact before ppb pm hx _ hself rfl (last_ok hokp) (by simp only [hokp.subn])
        · have hlt : pb < qk := by grind
          rw [byteCmp_gt hlt]
          have hnl : ∀ e ∈ prev.leaves, e.1 < q := kid_lt hokn hfc (by rw [hqk]; exact hlt)
          obtain ⟨a1, a2, a3, a4⟩ := lteKid_before hokn hq hnl sm (p.length + comp.length + 1) (cd + 1) false 1 (.inr rfl)
          have hdir : 0 < (prev.getLTE q sm (p.length + comp.length + 1) (cd + 1) false 1).dir := by
            rcases a1 with h | h
            · rw [a2 rfl] at h; exact absurd h (by simp)
            · exact h
          rw [if_neg (by simp [a2 rfl]), if_neg (by simp [a2 rfl]), if_neg (by omega)]
          rcases nextBranch hnl _ rfl with h | ⟨h1, h2, h3, h4⟩
          · exact .inl h
          · exact .inr (.inr (.inl ⟨h1, h2, h3, fun h => absurd h h4⟩))

end Verif.Art
