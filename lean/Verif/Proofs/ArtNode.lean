import Verif.Model.ArtNode
import Verif.Proofs.Art
/- The node types hold the list of children of Model/Art.lean. -/
namespace Verif.Art

variable {V : Type}

abbrev Sorted (kids : Kids V) : Prop := kids.Pairwise fun a b => a.1 < b.1

/-- Another child for a byte that has one. -/
def setChild (b : UInt8) (c : Node V) (kids : Kids V) : Kids V := kids.map fun e => if e.1 = b then (b, c) else e

/-! ### Lists of children -/

theorem child_some {b : UInt8} {c : Node V} {kids : Kids V} (hs : Sorted kids) :
    child b kids = some c ↔ (b, c) ∈ kids := by
  induction kids with
  | nil => simp [child]
  | cons e rest ih =>
    rw [Sorted, List.pairwise_cons] at hs
    have ih := ih hs.2
    obtain ⟨x, m⟩ := e
    simp only [child, List.find?_cons] at ih ⊢
    by_cases h : x = b
    · subst h
      simp only [BEq.rfl, Option.map_some, Option.some.injEq, List.mem_cons, Prod.mk.injEq, true_and]
      constructor
      · intro h; exact .inl h.symm
      · rintro (h | h)
        · exact h.symm
        · have := hs.1 _ h
          simp only [UInt8.lt_irrefl] at this
    · have : (x == b) = false := by simpa using h
      simp only [this, ih, List.mem_cons, Prod.mk.injEq]
      constructor
      · exact .inr
      · rintro (⟨h', _⟩ | h')
        · exact absurd h'.symm h
        · exact h'

theorem child_addChild {b x : UInt8} {c : Node V} {kids : Kids V} (hb : child b kids = none) :
    child x (addChild b c kids) = if x = b then some c else child x kids := by
  rw [child_none] at hb
  induction kids with
  | nil =>
    by_cases h : b = x
    · subst h; simp [addChild, child]
    · have h' : ¬ x = b := fun e => h e.symm
      simp [addChild, child, h, h']
  | cons e rest ih =>
    obtain ⟨y, m⟩ := e
    have hy := hb (y, m) (by simp)
    have ih := ih (fun e he => hb e (by simp [he]))
    simp only [addChild]
    by_cases h : b ≤ y
    · rw [if_pos h]
      by_cases h2 : b = x
      · subst h2; simp [child]
      · have h' : ¬ x = b := fun e => h2 e.symm
        simp [child, h2, h']
    · rw [if_neg h]
      simp only [child, List.find?_cons] at ih ⊢
      by_cases h2 : y = x
      · subst h2; simp only at hy; simp [hy]
      · have : (y == x) = false := by simpa using h2
        simp only [this]
        exact ih

theorem child_delChild {b x : UInt8} {kids : Kids V} (hs : Sorted kids) :
    child x (delChild b kids) = if x = b then none else child x kids := by
  induction kids with
  | nil => simp [delChild, child]
  | cons e rest ih =>
    rw [Sorted, List.pairwise_cons] at hs
    obtain ⟨y, m⟩ := e
    have ih := ih hs.2
    simp only [delChild]
    by_cases h : y = b
    · subst h
      rw [if_pos rfl]
      by_cases h2 : x = y
      · subst h2
        rw [if_pos rfl, child_none]
        intro e he h3
        have := hs.1 _ he
        simp only [h3] at this
        exact absurd this (UInt8.lt_irrefl _)
      · rw [if_neg h2]
        have h3 : (y == x) = false := by simpa using fun e : y = x => h2 e.symm
        simp only [child, List.find?_cons, h3]
    · rw [if_neg h]
      simp only [child, List.find?_cons] at ih ⊢
      by_cases h2 : y = x
      · subst h2; simp [h]
      · have : (y == x) = false := by simpa using h2
        simp only [this]
        exact ih

theorem child_setChild {b x : UInt8} {c : Node V} {kids : Kids V} (hb : child b kids ≠ none) :
    child x (setChild b c kids) = if x = b then some c else child x kids := by
  induction kids with
  | nil => simp [child] at hb
  | cons e rest ih =>
    obtain ⟨y, m⟩ := e
    simp only [child, setChild, List.map_cons, List.find?_cons] at ih hb ⊢
    by_cases h : y = b
    · subst h
      by_cases h2 : x = y
      · subst h2; simp
      · have h3 : (y == x) = false := by simpa using fun e : y = x => h2 e.symm
        simp only [if_true, h3, if_neg h2]
        have : ∀ l : Kids V, (l.map fun e => if e.1 = y then (y, c) else e).find? (fun p => p.1 == x) =
            l.find? fun p => p.1 == x := by
          intro l
          induction l with
          | nil => rfl
          | cons e l ih =>
            simp only [List.map_cons, List.find?_cons, ih]
            by_cases h4 : e.1 = y
            · rw [if_pos h4]
              simp only [h3, h4]
            · rw [if_neg h4]
        rw [this]
    · rw [if_neg h]
      have h3 : (y == b) = false := by simpa using h
      simp only [h3] at hb
      by_cases h2 : y = x
      · subst h2; simp [h]
      · have h4 : (y == x) = false := by simpa using h2
        simp only [h4]
        exact ih hb

theorem setChild_sorted {b : UInt8} {c : Node V} {kids : Kids V} (hs : Sorted kids) : Sorted (setChild b c kids) := by
  have key : ∀ e : UInt8 × Node V, (if e.1 = b then (b, c) else e).1 = e.1 := by
    intro e; split <;> simp [*]
  rw [Sorted, setChild, List.pairwise_map]
  refine hs.imp ?_
  intro a d h
  rw [key, key]; exact h

theorem delChild_sublist (b : UInt8) (kids : Kids V) : (delChild b kids).Sublist kids := by
  induction kids with
  | nil => simp [delChild]
  | cons e rest ih =>
    obtain ⟨y, m⟩ := e
    simp only [delChild]
    split
    · exact List.sublist_cons_self ..
    · exact ih.cons_cons _

theorem delChild_sorted {b : UInt8} {kids : Kids V} (hs : Sorted kids) : Sorted (delChild b kids) :=
  List.Pairwise.sublist (delChild_sublist b kids) hs

theorem addChild_length (b : UInt8) (c : Node V) (kids : Kids V) : (addChild b c kids).length = kids.length + 1 := by
  induction kids with
  | nil => rfl
  | cons e rest ih =>
    obtain ⟨y, m⟩ := e
    simp only [addChild]; split <;> simp [ih]

theorem delChild_length {b : UInt8} {kids : Kids V} (hb : child b kids ≠ none) :
    (delChild b kids).length + 1 = kids.length := by
  induction kids with
  | nil => simp [child] at hb
  | cons e rest ih =>
    obtain ⟨y, m⟩ := e
    simp only [delChild]
    by_cases h : y = b
    · rw [if_pos h]; rfl
    · rw [if_neg h]
      have h3 : (y == b) = false := by simpa using h
      simp only [child, List.find?_cons, h3] at hb ih
      have := ih hb
      simp only [List.length_cons]; omega

theorem setChild_length (b : UInt8) (c : Node V) (kids : Kids V) : (setChild b c kids).length = kids.length := by
  simp [setChild]

/-- A list of children is cut at a new byte. -/
theorem add_split {b : UInt8} {kids : Kids V} (hs : Sorted kids) (hb : child b kids = none) :
    ∃ A B, kids = A ++ B ∧ (∀ e ∈ A, e.1 < b) ∧ (∀ e ∈ B, b < e.1) ∧ ∀ c, addChild b c kids = A ++ (b, c) :: B := by
  rw [child_none] at hb
  induction kids with
  | nil => exact ⟨[], [], rfl, by simp, by simp, fun c => rfl⟩
  | cons e rest ih =>
    rw [Sorted, List.pairwise_cons] at hs
    obtain ⟨y, m⟩ := e
    by_cases h : b ≤ y
    · refine ⟨[], (y, m) :: rest, rfl, by simp, ?_, fun c => by simp [addChild, h]⟩
      intro e he
      have h2 := hb e he
      have : b ≤ e.1 := by
        rcases List.mem_cons.1 he with rfl | he
        · exact h
        · exact UInt8.le_trans h (UInt8.le_of_lt (hs.1 _ he))
      exact UInt8.lt_of_le_of_ne this (fun h => h2 h.symm)
    · obtain ⟨A, B, h1, h2, h3, h4⟩ := ih hs.2 (fun e he => hb e (by simp [he]))
      refine ⟨(y, m) :: A, B, by simp [h1], ?_, h3, fun c => by simp [addChild, h, h4 c]⟩
      intro e he
      rcases List.mem_cons.1 he with rfl | he
      · exact UInt8.not_le.1 h
      · exact h2 e he

/-- A list of children is cut at a byte that has a child. -/
theorem mem_split {b : UInt8} {m : Node V} {kids : Kids V} (hs : Sorted kids) (hb : child b kids = some m) :
    ∃ A B, kids = A ++ (b, m) :: B ∧ (∀ e ∈ A, e.1 < b) ∧ (∀ e ∈ B, b < e.1) ∧ delChild b kids = A ++ B ∧
      ∀ c, setChild b c kids = A ++ (b, c) :: B := by
  rw [child_some hs] at hb
  obtain ⟨A, B, h⟩ := List.append_of_mem hb
  subst h
  rw [Sorted, List.pairwise_append, List.pairwise_cons] at hs
  obtain ⟨h1, ⟨h2, h3⟩, h4⟩ := hs
  have hA : ∀ e ∈ A, e.1 < b := fun e he => h4 e he (b, m) (by simp)
  refine ⟨A, B, rfl, hA, h2, ?_, ?_⟩
  · clear h1 h4 hb
    induction A with
    | nil => simp [delChild]
    | cons e A ih =>
      obtain ⟨y, m'⟩ := e
      have : y ≠ b := UInt8.ne_of_lt (hA (y, m') (by simp))
      simp [delChild, this, ih (fun e he => hA e (by simp [he]))]
  · intro c
    have e1 : ∀ l : Kids V, (∀ e ∈ l, e.1 ≠ b) → (l.map fun e => if e.1 = b then (b, c) else e) = l := by
      intro l hl
      induction l with
      | nil => rfl
      | cons e l ih => simp [hl e (by simp), ih (fun e he => hl e (by simp [he]))]
    rw [setChild, List.map_append, List.map_cons, e1 A (fun e he => UInt8.ne_of_lt (hA e he)),
      e1 B (fun e he h => UInt8.ne_of_lt (h2 e he) h.symm), if_pos rfl]

/-! ### All bytes, in order -/

theorem mem_bytes (b : UInt8) : b ∈ bytes := by
  refine List.mem_map.2 ⟨b.toNat, List.mem_range.2 b.toNat_lt, ?_⟩
  simp

theorem bytes_sorted : bytes.Pairwise (· < ·) := by
  rw [bytes, List.pairwise_map]
  refine (List.pairwise_lt_range (n := 256)).imp_of_mem ?_
  intro a b ha hb h
  rw [List.mem_range] at ha hb
  rw [UInt8.lt_iff_toNat_lt, UInt8.toNat_ofNat_of_lt' ha, UInt8.toNat_ofNat_of_lt' hb]
  exact h

theorem bytes_length256 : bytes.length = 256 := by simp [bytes]

theorem bytes_getElem {i : Nat} (h : i < bytes.length) : bytes[i] = UInt8.ofNat i := by simp [bytes]

theorem getD_map_bytes {α : Type} (f : UInt8 → α) (b : UInt8) (d : α) : (bytes.map f).getD b.toNat d = f b := by
  have h : b.toNat < bytes.length := by rw [bytes_length256]; exact b.toNat_lt
  rw [List.getD_eq_getElem?_getD, List.getElem?_map, List.getElem?_eq_getElem h, bytes_getElem]
  simp

/-- A loop over all bytes finds what a search in the children finds. -/
theorem scan (R : UInt8 → UInt8 → Prop) (asymm : ∀ a b, R a b → ¬ R b a) (bs : List UInt8) (hbs : bs.Pairwise R)
    (all : ∀ b, b ∈ bs) (ks : Kids V) (hks : ks.Pairwise fun a b => R a.1 b.1) (ch : UInt8 → Option (Node V))
    (hch : ∀ b c, ch b = some c ↔ (b, c) ∈ ks) (P : UInt8 → Bool) :
    ((bs.find? fun b => P b && (ch b).isSome).bind fun b => answer (b, ch b)) = ks.find? fun e => P e.1 := by
  cases h : ks.find? fun e => P e.1 with
  | none =>
    rw [List.find?_eq_none] at h
    have : (bs.find? fun b => P b && (ch b).isSome) = none := by
      rw [List.find?_eq_none]
      intro b _ h2
      rw [Bool.and_eq_true] at h2
      obtain ⟨h2, h3⟩ := h2
      obtain ⟨c, hc⟩ := Option.isSome_iff_exists.1 h3
      exact h (b, c) ((hch b c).1 hc) h2
    rw [this]; rfl
  | some e =>
    obtain ⟨x, c⟩ := e
    rw [List.find?_eq_some_iff_append] at h
    obtain ⟨hp, pre, post, rfl, hpre⟩ := h
    have hx : ch x = some c := (hch x c).2 (by simp)
    have : (bs.find? fun b => P b && (ch b).isSome) = some x := by
      rw [List.find?_eq_some_iff_append]
      obtain ⟨A, B, hAB⟩ := List.append_of_mem (all x)
      refine ⟨by simp [hx]; exact hp, A, B, hAB, ?_⟩
      intro a ha
      rw [hAB, List.pairwise_append] at hbs
      have hax : R a x := hbs.2.2 a ha x (by simp)
      cases hca : ch a with
      | none => simp
      | some c' =>
        have hm := (hch a c').1 hca
        rw [List.mem_append, List.mem_cons] at hm
        rw [List.pairwise_append, List.pairwise_cons] at hks
        rcases hm with hm | hm | hm
        · have := hpre _ hm
          simp only at this
          simpa using this
        · rw [Prod.mk.injEq] at hm
          rw [hm.1] at hax
          exact absurd hax (asymm _ _ hax)
        · exact absurd hax (asymm _ _ (hks.2.1.1 _ hm))
    rw [this]
    simp [hx, answer]

theorem scanUp {kids : Kids V} (hs : Sorted kids) (ch : UInt8 → Option (Node V)) (hch : ∀ b, ch b = child b kids)
    (P : UInt8 → Bool) :
    ((bytes.find? fun b => P b && (ch b).isSome).bind fun b => answer (b, ch b)) = kids.find? fun e => P e.1 :=
  scan (· < ·) (fun _ _ h h2 => UInt8.lt_asymm h h2) bytes bytes_sorted mem_bytes kids hs ch
    (fun b c => by rw [hch b]; exact child_some hs) P

theorem scanDown {kids : Kids V} (hs : Sorted kids) (ch : UInt8 → Option (Node V)) (hch : ∀ b, ch b = child b kids)
    (P : UInt8 → Bool) :
    ((bytes.reverse.find? fun b => P b && (ch b).isSome).bind fun b => answer (b, ch b)) =
      kids.reverse.find? fun e => P e.1 :=
  scan (fun a b => b < a) (fun _ _ h h2 => UInt8.lt_asymm h h2) bytes.reverse
    (List.pairwise_reverse.2 bytes_sorted) (fun b => List.mem_reverse.2 (mem_bytes b)) kids.reverse
    (List.pairwise_reverse.2 hs) ch (fun b c => by rw [hch b, List.mem_reverse]; exact child_some hs) P

theorem find_true {α : Type} (l : List α) : (l.find? fun _ => true) = l.head? := by cases l <;> rfl

/-- The children that a loop over all bytes meets, in its order. -/
theorem collect {kids : Kids V} (hs : Sorted kids) : (bytes.filterMap fun b => (child b kids).map fun c => (b, c)) = kids := by
  have h1 : Sorted (bytes.filterMap fun b => (child b kids).map fun c => (b, c)) := by
    rw [Sorted, List.pairwise_filterMap]
    refine bytes_sorted.imp ?_
    intro a b h x hx y hy
    rw [Option.map_eq_some_iff] at hx hy
    obtain ⟨_, _, rfl⟩ := hx
    obtain ⟨_, _, rfl⟩ := hy
    exact h
  have nodup : ∀ l : Kids V, Sorted l → l.Nodup := by
    intro l hl
    refine hl.imp ?_
    intro a b h e
    subst e
    exact absurd h (UInt8.lt_irrefl _)
  have perm : (bytes.filterMap fun b => (child b kids).map fun c => (b, c)).Perm kids := by
    rw [List.perm_ext_iff_of_nodup (nodup _ h1) (nodup _ hs)]
    rintro ⟨b, c⟩
    rw [List.mem_filterMap, ← child_some hs]
    constructor
    · rintro ⟨x, _, hx⟩
      rw [Option.map_eq_some_iff] at hx
      obtain ⟨_, h, e⟩ := hx
      cases e
      exact h
    · intro h
      exact ⟨b, mem_bytes b, by simp [h]⟩
  exact perm.eq_of_pairwise (fun a b _ _ h h2 => absurd h2 (UInt8.lt_asymm h)) h1 hs

/-! ### Arrays -/

theorem copy_insert {α : Type} (X Y : List α) (x d : α) :
    (copyInto (X ++ (Y ++ [d])) (X.length + 1) ((X ++ (Y ++ [d])).drop X.length)).set X.length x = X ++ x :: Y := by
  have h1 : (X ++ (Y ++ [d])).drop X.length = Y ++ [d] := List.drop_left
  rw [h1, copyInto]
  obtain ⟨z, Z, hz⟩ : ∃ z Z, Y ++ [d] = z :: Z := by cases Y <;> simp
  have h2 : (X ++ (Y ++ [d])).take (X.length + 1) = X ++ [z] := by
    rw [hz, List.take_append]
    simp [List.take_of_length_le]
  have h3 : (Y ++ [d]).take ((X ++ (Y ++ [d])).length - (X.length + 1)) = Y := by
    have : (X ++ (Y ++ [d])).length - (X.length + 1) = Y.length := by
      simp only [List.length_append, List.length_cons, List.length_nil]; omega
    rw [this]; exact List.take_left
  have h4 : (X ++ (Y ++ [d])).drop (X.length + 1 + (Y ++ [d]).length) = [] := by
    rw [List.drop_eq_nil_iff]
    simp only [List.length_append, List.length_cons, List.length_nil]; omega
  rw [h2, h3, h4]
  simp

theorem copy_remove {α : Type} (X B : List α) (y d : α) (m : Nat) :
    (copyInto (X ++ y :: (B ++ List.replicate m d)) X.length
      ((X ++ y :: (B ++ List.replicate m d)).drop (X.length + 1))).set (X.length + B.length) d =
      X ++ (B ++ List.replicate (m + 1) d) := by
  have h1 : (X ++ y :: (B ++ List.replicate m d)).drop (X.length + 1) = B ++ List.replicate m d := by
    rw [List.drop_append, List.drop_of_length_le (by omega)]
    have : X.length + 1 - X.length = 1 := by omega
    rw [this]; rfl
  rw [h1, copyInto]
  have h2 : (X ++ y :: (B ++ List.replicate m d)).take X.length = X := List.take_left
  have h3 : (B ++ List.replicate m d).take ((X ++ y :: (B ++ List.replicate m d)).length - X.length) =
      B ++ List.replicate m d := by
    apply List.take_of_length_le
    simp only [List.length_append, List.length_cons]; omega
  rw [h2, h3]
  have h4 : ∃ z, (X ++ y :: (B ++ List.replicate m d)).drop (X.length + (B ++ List.replicate m d).length) = [z] ∧
      (m ≠ 0 → z = d) := by
    rw [List.drop_append, List.drop_of_length_le (by omega)]
    have : X.length + (B ++ List.replicate m d).length - X.length = (B ++ List.replicate m d).length := by omega
    rw [this, List.nil_append]
    cases m with
    | zero =>
      rw [List.replicate_zero, List.append_nil]
      have hl : B.length < (y :: B).length := by simp
      refine ⟨(y :: B)[B.length], ?_, by simp⟩
      rw [← List.getElem_cons_drop hl]
      simp
    | succ m =>
      refine ⟨d, ?_, fun _ => rfl⟩
      rw [List.replicate_succ', ← List.append_assoc]
      have : (B ++ List.replicate m d ++ [d]).length = (y :: (B ++ List.replicate m d)).length := by
        simp only [List.length_append, List.length_cons, List.length_nil]
      rw [this]
      show List.drop _ ((y :: (B ++ List.replicate m d)) ++ [d]) = [d]
      exact List.drop_left
  obtain ⟨z, h4, h5⟩ := h4
  rw [h4, List.append_assoc, List.append_assoc, List.set_append_right _ _ (by omega),
    List.set_append_right _ _ (by omega)]
  have : X.length + B.length - X.length - B.length = 0 := by omega
  rw [this]
  cases m with
  | zero => simp
  | succ m => rw [h5 (by omega)]; simp [List.replicate_succ, ← List.replicate_succ']

/-! ### node4 and node16 -/

/-- A node4 or node16 with these children. -/
structure Small.Rep (n : Small V) (kids : Kids V) : Prop where
  sorted : Sorted kids
  lth : n.lth = kids.length
  fits : kids.length ≤ n.cap
  keys : n.keys = kids.map (·.1) ++ List.replicate (n.cap - kids.length) 0
  children : n.children = kids.map (fun e => some e.2) ++ List.replicate (n.cap - kids.length) none

theorem Small.Rep.slots {n : Small V} {kids : Kids V} (h : n.Rep kids) :
    n.slots = kids.map (fun e => (e.1, some e.2)) ++ List.replicate (n.cap - kids.length) (0, none) := by
  rw [Small.slots, h.keys, h.children, List.zip_append (by simp), List.zip_map', List.zip_replicate]
  simp

theorem pick_find (kids : Kids V) (m : Nat) (P : UInt8 → Bool) :
    ((kids.map (fun e => (e.1, some e.2)) ++ List.replicate m ((0 : UInt8), (none : Option (Node V)))).find?
      fun s => P s.1).bind answer = kids.find? fun e => P e.1 := by
  rw [List.find?_append, List.find?_map]
  have : ((fun s : UInt8 × Option (Node V) => P s.1) ∘ fun e : UInt8 × Node V => (e.1, some e.2)) = fun e => P e.1 := rfl
  rw [this]
  cases kids.find? fun e => P e.1 with
  | some e => rfl
  | none =>
    simp only [Option.map_none, Option.none_or]
    cases h : (List.replicate m ((0 : UInt8), (none : Option (Node V)))).find? fun s => P s.1 with
    | none => rfl
    | some s =>
      have := List.mem_of_find?_eq_some h
      rw [List.mem_replicate] at this
      rw [this.2]; rfl

theorem Small.Rep.head {n : Small V} {kids : Kids V} (h : n.Rep kids) : n.slots[0]?.bind answer = kids.head? := by
  rw [h.slots]
  cases kids with
  | cons e rest => rfl
  | nil => cases n.cap - ([] : Kids V).length <;> rfl

theorem Small.Rep.final {n : Small V} {kids : Kids V} (h : n.Rep kids) (hne : kids ≠ []) :
    n.slots[n.lth - 1]?.bind answer = kids.getLast? := by
  have h1 : kids.length - 1 < kids.length := by
    have := List.length_pos_iff.2 hne; omega
  rw [h.slots, h.lth, List.getElem?_append_left (by simpa using h1), List.getElem?_map, List.getLast?_eq_getElem?,
    List.getElem?_eq_getElem h1]
  rfl

theorem Small.Rep.next {n : Small V} {kids : Kids V} (h : n.Rep kids) (k : Option UInt8) : n.next k = kNext k kids := by
  cases k with
  | none => exact h.head
  | some k =>
    rw [Small.next, kNext, h.slots]
    exact pick_find kids _ fun b => decide (k < b)

theorem Small.Rep.gte {n : Small V} {kids : Kids V} (h : n.Rep kids) (k : UInt8) : n.gte k = kGte k kids := by
  rw [Small.gte, kGte, h.slots]
  exact pick_find kids _ fun b => decide (k ≤ b)

theorem Small.Rep.used {n : Small V} {kids : Kids V} (h : n.Rep kids) :
    (n.slots.take n.lth).reverse = kids.reverse.map (fun e => (e.1, some e.2)) := by
  rw [h.slots, h.lth]
  have : kids.length = (kids.map fun e => (e.1, some e.2)).length := by simp
  rw [this, List.take_left, List.map_reverse]

theorem Small.Rep.prev {n : Small V} {kids : Kids V} (h : n.Rep kids) (k : Option UInt8) : n.prev k = kPrev k kids := by
  cases k with
  | none =>
    simp only [Small.prev, kPrev]
    by_cases hne : kids = []
    · rw [if_pos (by rw [h.lth, hne]; rfl), hne]; rfl
    · rw [if_neg (by rw [h.lth]; exact fun h0 => hne (List.length_eq_zero_iff.1 h0)), h.final hne]
  | some k =>
    rw [Small.prev, kPrev, h.used]
    have := pick_find kids.reverse 0 fun b => decide (b < k)
    simpa using this

theorem Small.Rep.lte {n : Small V} {kids : Kids V} (h : n.Rep kids) (k : UInt8) : n.lte k = kLte k kids := by
  rw [Small.lte, kLte, h.used]
  have := pick_find kids.reverse 0 fun b => decide (b ≤ k)
  simpa using this

theorem findIdx_zeros {m : Nat} {k : UInt8} {i : Nat}
    (h : (List.replicate m (0 : UInt8)).findIdx? (fun b => k == b) = some i) : i < m := by
  have := List.findIdx?_eq_some_iff_findIdx_eq.1 h
  simpa using this.1

theorem Small.Rep.child {n : Small V} {kids : Kids V} (h : n.Rep kids) (k : UInt8) :
    (n.child k).2 = Art.child k kids := by
  cases hc : Art.child k kids with
  | some m =>
    obtain ⟨A, B, h1, h2, h3, -⟩ := mem_split h.sorted hc
    have : n.keys.findIdx? (fun b => k == b) = some A.length := by
      rw [h.keys, h1, List.map_append, List.append_assoc, List.findIdx?_append]
      have : (A.map (·.1)).findIdx? (fun b => k == b) = none := by
        rw [List.findIdx?_eq_none_iff]
        intro b hb
        obtain ⟨e, he, rfl⟩ := List.mem_map.1 hb
        have := h2 e he
        simp only [beq_eq_false_iff_ne]
        intro h; rw [h] at this; exact absurd this (UInt8.lt_irrefl _)
      rw [this]
      simp [List.findIdx?_cons]
    rw [Small.child, this]
    simp only
    rw [h.children, h1]
    simp [List.getD_eq_getElem?_getD]
  | none =>
    rw [child_none] at hc
    have h1 : (kids.map (·.1)).findIdx? (fun b => k == b) = none := by
      rw [List.findIdx?_eq_none_iff]
      intro b hb
      obtain ⟨e, he, rfl⟩ := List.mem_map.1 hb
      have := hc e he
      simp only [beq_eq_false_iff_ne]
      intro h; exact this h.symm
    rw [Small.child, h.keys, List.findIdx?_append, h1]
    cases h2 : (List.replicate (n.cap - kids.length) (0 : UInt8)).findIdx? (fun b => k == b) with
    | none => rfl
    | some i =>
      simp only [Option.map_some, List.length_map, Option.none_or]
      rw [h.children, List.getD_eq_getElem?_getD, List.getElem?_append_right (by simp)]
      cases h3 : (List.replicate (n.cap - kids.length) (none : Option (Node V)))[
        i + kids.length - (List.map (fun e => some e.2) kids).length]? with
      | none => rfl
      | some c =>
        have := List.mem_of_getElem? h3
        rw [List.mem_replicate] at this
        rw [this.2]; rfl

theorem Small.Rep.childIdx {n : Small V} {A B : Kids V} {k : UInt8} {m : Node V} (h : n.Rep (A ++ (k, m) :: B))
    (hA : ∀ e ∈ A, e.1 < k) : (n.child k).1 = A.length := by
  have : n.keys.findIdx? (fun b => k == b) = some A.length := by
    rw [h.keys, List.map_append, List.append_assoc, List.findIdx?_append]
    have : (A.map (·.1)).findIdx? (fun b => k == b) = none := by
      rw [List.findIdx?_eq_none_iff]
      intro b hb
      obtain ⟨e, he, rfl⟩ := List.mem_map.1 hb
      have := hA e he
      simp only [beq_eq_false_iff_ne]
      intro h; rw [h] at this; exact absurd this (UInt8.lt_irrefl _)
    rw [this]
    simp [List.findIdx?_cons]
  rw [Small.child, this]

theorem Small.Rep.index {n : Small V} {A B : Kids V} {k : UInt8} (h : n.Rep (A ++ B)) (hroom : (A ++ B).length < n.cap)
    (hA : ∀ e ∈ A, e.1 < k) (hB : ∀ e ∈ B, k < e.1) : n.index k = A.length := by
  have h1 : (A.map (·.1)).findIdx? (fun b => decide (k ≤ b)) = none := by
    rw [List.findIdx?_eq_none_iff]
    intro b hb
    obtain ⟨e, he, rfl⟩ := List.mem_map.1 hb
    simpa using hA e he
  rw [Small.index, h.keys, List.map_append, List.append_assoc, List.findIdx?_append, h1]
  cases B with
  | cons e B =>
    have := UInt8.le_of_lt (hB e (by simp))
    simp [List.findIdx?_cons, this]
  | nil =>
    obtain ⟨m, hm⟩ : ∃ m, n.cap - (A ++ ([] : Kids V)).length = m + 1 := ⟨n.cap - (A ++ ([] : Kids V)).length - 1, by omega⟩
    rw [hm, List.replicate_succ, List.map_nil, List.nil_append, List.findIdx?_cons]
    by_cases hk : k ≤ 0
    · simp [hk]
    · have : (List.replicate m (0 : UInt8)).findIdx? (fun b => decide (k ≤ b)) = none := by
        rw [List.findIdx?_eq_none_iff]
        intro b hb
        rw [List.mem_replicate] at hb
        rw [hb.2]; simpa using hk
      have hl := h.lth
      rw [List.append_nil] at hl
      simp [hk, this, hl]

theorem Small.Rep.addChild {n : Small V} {kids : Kids V} (h : n.Rep kids) (hroom : kids.length < n.cap) {k : UInt8}
    (hk : Art.child k kids = none) (c : Node V) : (n.addChild k c).Rep (Art.addChild k c kids) := by
  obtain ⟨A, B, rfl, hA, hB, hadd⟩ := add_split h.sorted hk
  have hs := addChild_sorted (n := c) h.sorted (child_none.1 hk)
  rw [hadd] at hs ⊢
  have hidx := h.index hroom hA hB
  obtain ⟨m, hm⟩ : ∃ m, n.cap - (A ++ B).length = m + 1 := ⟨n.cap - (A ++ B).length - 1, by omega⟩
  have hm' : n.cap - (A ++ (k, c) :: B).length = m := by
    simp only [List.length_append, List.length_cons] at hm ⊢; omega
  refine ⟨hs, ?_, ?_, ?_, ?_⟩
  · simp only [Small.addChild, h.lth, List.length_append, List.length_cons]; omega
  · simp only [Small.addChild, List.length_append, List.length_cons] at hroom ⊢; omega
  · show (copyInto n.keys (n.index k + 1) (n.keys.drop (n.index k))).set (n.index k) k = _ ++ List.replicate (n.cap - _) 0
    rw [hidx, hm', h.keys, hm, List.map_append, List.append_assoc, List.replicate_succ', ← List.append_assoc (B.map _)]
    have : A.length = (A.map (·.1)).length := by simp
    rw [this, copy_insert]
    simp
  · show (copyInto n.children (n.index k + 1) (n.children.drop (n.index k))).set (n.index k) (some c) =
      _ ++ List.replicate (n.cap - _) none
    rw [hidx, hm', h.children, hm, List.map_append, List.append_assoc, List.replicate_succ', ← List.append_assoc (B.map _)]
    have : A.length = (A.map (fun e => some e.2)).length := by simp
    rw [this, copy_insert]
    simp

theorem Small.Rep.remove {n : Small V} {kids : Kids V} (h : n.Rep kids) {k : UInt8} (hk : Art.child k kids ≠ none) :
    (n.replace (n.child k).1 none).Rep (delChild k kids) := by
  obtain ⟨m, hm⟩ := Option.ne_none_iff_exists'.1 hk
  obtain ⟨A, B, rfl, hA, hB, hdel, -⟩ := mem_split h.sorted hm
  have hs := delChild_sorted (b := k) h.sorted
  rw [hdel] at hs ⊢
  have hidx := h.childIdx hA
  have hfits := h.fits
  have hl : n.lth - 1 = A.length + B.length := by
    rw [h.lth]; simp only [List.length_append, List.length_cons]; omega
  have hc : n.cap - (A ++ B).length = n.cap - (A ++ (k, m) :: B).length + 1 := by
    simp only [List.length_append, List.length_cons] at hfits ⊢; omega
  refine ⟨hs, ?_, ?_, ?_, ?_⟩
  · simp only [Small.replace, hl, List.length_append]
  · simp only [Small.replace, List.length_append, List.length_cons] at hfits ⊢; omega
  · show (copyInto n.keys (n.child k).1 (n.keys.drop ((n.child k).1 + 1))).set (n.lth - 1) 0 = _ ++ List.replicate (n.cap - _) 0
    rw [hidx, hl, hc, h.keys, List.map_append, List.map_cons, List.append_assoc, List.cons_append]
    have e1 : A.length = (A.map (·.1)).length := by simp
    have e2 : B.length = (B.map (·.1)).length := by simp
    rw [e1, e2, copy_remove]
    simp
  · show (copyInto n.children (n.child k).1 (n.children.drop ((n.child k).1 + 1))).set (n.lth - 1) none =
      _ ++ List.replicate (n.cap - _) none
    rw [hidx, hl, hc, h.children, List.map_append, List.map_cons, List.append_assoc, List.cons_append]
    have e1 : A.length = (A.map (fun e => some e.2)).length := by simp
    have e2 : B.length = (B.map (fun e => some e.2)).length := by simp
    rw [e1, e2, copy_remove]
    simp

theorem Small.Rep.put {n : Small V} {kids : Kids V} (h : n.Rep kids) {k : UInt8} (hk : Art.child k kids ≠ none)
    (c : Node V) : (n.replace (n.child k).1 (some c)).Rep (setChild k c kids) := by
  obtain ⟨m, hm⟩ := Option.ne_none_iff_exists'.1 hk
  obtain ⟨A, B, rfl, hA, hB, -, hset⟩ := mem_split h.sorted hm
  have hs := setChild_sorted (b := k) (c := c) h.sorted
  rw [hset] at hs ⊢
  have hidx := h.childIdx hA
  have hlen : (A ++ (k, c) :: B).length = (A ++ (k, m) :: B).length := by simp
  refine ⟨hs, ?_, ?_, ?_, ?_⟩
  · rw [hlen]; exact h.lth
  · rw [hlen]; exact h.fits
  · rw [hlen]
    have := h.keys
    simp only [Small.replace, this, List.map_append, List.map_cons]
  · rw [hlen]
    show n.children.set (n.child k).1 (some c) = _ ++ List.replicate (n.cap - _) none
    rw [hidx, h.children]
    simp

theorem copy_fit {α : Type} (l : List α) (cap : Nat) (d : α) (h : l.length ≤ cap) (m : Nat) :
    copyInto (List.replicate cap d) 0 (l ++ List.replicate m d) = l ++ List.replicate (cap - l.length) d := by
  rw [copyInto, List.take_zero, List.nil_append, List.length_replicate, Nat.sub_zero, Nat.zero_add, List.take_append,
    List.take_of_length_le h, List.take_replicate, List.drop_replicate, List.append_assoc, List.replicate_append_replicate]
  congr 2
  simp only [List.length_append, List.length_replicate]
  omega

theorem Small.Rep.resize {n : Small V} {kids : Kids V} (h : n.Rep kids) {cap : Nat} (hc : kids.length ≤ cap) :
    (n.resize cap).Rep kids := by
  refine ⟨h.sorted, h.lth, hc, ?_, ?_⟩
  · simp only [Small.resize]
    rw [h.keys, copy_fit _ _ _ (by simpa using hc)]; simp
  · simp only [Small.resize]
    rw [h.children, copy_fit _ _ _ (by simpa using hc)]; simp

/-! ### node256 -/

theorem getD_set {α : Type} (l : List α) (i j : Nat) (x d : α) (hi : i < l.length) :
    (l.set i x).getD j d = if j = i then x else l.getD j d := by
  rw [List.getD_eq_getElem?_getD, List.getD_eq_getElem?_getD, List.getElem?_set]
  by_cases h : i = j
  · subst h; simp [hi]
  · rw [if_neg h, if_neg (fun e : j = i => h e.symm)]

theorem toNat_inj {a b : UInt8} : a.toNat = b.toNat ↔ a = b := UInt8.toNat_inj

/-- A node256 with these children. -/
structure N256.Rep (n : N256 V) (kids : Kids V) : Prop where
  sorted : Sorted kids
  lth : n.lth = kids.length
  clen : n.children.length = 256
  slot : ∀ b, n.slot b = Art.child b kids

theorem N256.Rep.next {n : N256 V} {kids : Kids V} (h : n.Rep kids) (k : Option UInt8) : n.next k = kNext k kids := by
  cases k with
  | none =>
    have := scanUp h.sorted n.slot h.slot fun _ => true
    rw [find_true] at this
    exact this
  | some k => exact scanUp h.sorted n.slot h.slot fun b => decide (k < b)

theorem N256.Rep.gte {n : N256 V} {kids : Kids V} (h : n.Rep kids) (k : UInt8) : n.gte k = kGte k kids :=
  scanUp h.sorted n.slot h.slot fun b => decide (k ≤ b)

theorem N256.Rep.prev {n : N256 V} {kids : Kids V} (h : n.Rep kids) (k : Option UInt8) : n.prev k = kPrev k kids := by
  cases k with
  | none =>
    have := scanDown h.sorted n.slot h.slot fun _ => true
    rw [find_true, List.head?_reverse] at this
    exact this
  | some k => exact scanDown h.sorted n.slot h.slot fun b => decide (b < k)

theorem N256.Rep.lte {n : N256 V} {kids : Kids V} (h : n.Rep kids) (k : UInt8) : n.lte k = kLte k kids :=
  scanDown h.sorted n.slot h.slot fun b => decide (b ≤ k)

theorem N256.Rep.first {n : N256 V} {kids : Kids V} (h : n.Rep kids) : n.first = kids.head? := by
  have := h.next none
  simpa only [N256.next, Bool.true_and, kNext, N256.first] using this

theorem N256.Rep.last {n : N256 V} {kids : Kids V} (h : n.Rep kids) : n.last = kids.getLast? := by
  have := h.prev none
  simpa only [N256.prev, Bool.true_and, kPrev, N256.last] using this

theorem N256.slot_set {n : N256 V} {k : UInt8} (h : n.children.length = 256) (c : Option (Node V)) (l : Nat) (b : UInt8) :
    N256.slot { children := n.children.set k.toNat c, lth := l } b = if b = k then c else n.slot b := by
  rw [N256.slot, getD_set _ _ _ _ _ (by rw [h]; exact k.toNat_lt)]
  simp only [toNat_inj, N256.slot]

theorem N256.Rep.addChild {n : N256 V} {kids : Kids V} (h : n.Rep kids) {k : UInt8} (hk : Art.child k kids = none)
    (c : Node V) : (n.addChild k c).Rep (Art.addChild k c kids) := by
  refine ⟨addChild_sorted h.sorted (child_none.1 hk), ?_, ?_, ?_⟩
  · rw [addChild_length, ← h.lth]; rfl
  · simp [N256.addChild, h.clen]
  · intro b
    rw [N256.addChild, N256.slot_set h.clen, child_addChild hk, h.slot]

theorem N256.replace_eq (n : N256 V) (k : UInt8) (c : Option (Node V)) :
    n.replace (n.child k).1 c = { children := n.children.set k.toNat c, lth := if c.isNone then n.lth - 1 else n.lth } := by
  have : k.toNat % 256 = k.toNat := Nat.mod_eq_of_lt k.toNat_lt
  simp only [N256.replace, N256.child, this]

theorem N256.Rep.remove {n : N256 V} {kids : Kids V} (h : n.Rep kids) {k : UInt8} (hk : Art.child k kids ≠ none) :
    (n.replace (n.child k).1 none).Rep (delChild k kids) := by
  rw [N256.replace_eq]
  refine ⟨delChild_sorted h.sorted, ?_, by simp [h.clen], ?_⟩
  · have := delChild_length hk
    simp only [Option.isNone_none, if_true, h.lth]; omega
  · intro b
    rw [N256.slot_set h.clen, child_delChild h.sorted, h.slot]

theorem N256.Rep.put {n : N256 V} {kids : Kids V} (h : n.Rep kids) {k : UInt8} (hk : Art.child k kids ≠ none) (c : Node V) :
    (n.replace (n.child k).1 (some c)).Rep (setChild k c kids) := by
  rw [N256.replace_eq]
  refine ⟨setChild_sorted h.sorted, ?_, by simp [h.clen], ?_⟩
  · rw [setChild_length]; exact h.lth
  · intro b
    rw [N256.slot_set h.clen, child_setChild hk, h.slot]

/-! ### node48 -/

/-- A node48 with these children. -/
structure N48.Rep (n : N48 V) (kids : Kids V) : Prop where
  sorted : Sorted kids
  lth : n.lth = kids.length
  fits : kids.length ≤ 48
  klen : n.keys.length = 256
  clen : n.children.length = 48
  hsome : ∀ b c, Art.child b kids = some c → n.key b ≠ 0 ∧ n.key b ≤ 48 ∧ n.slot (n.key b) = some c
  hnone : ∀ b, Art.child b kids = none → n.key b = 0
  inj : ∀ b b', n.key b ≠ 0 → n.key b = n.key b' → b = b'
  count : n.children.countP Option.isSome = kids.length

/-- The child for a byte, as the code finds it. -/
def N48.ch (n : N48 V) (b : UInt8) : Option (Node V) := if n.key b = 0 then none else n.slot (n.key b)

theorem N48.Rep.ch {n : N48 V} {kids : Kids V} (h : n.Rep kids) (b : UInt8) : n.ch b = Art.child b kids := by
  unfold N48.ch
  cases hc : Art.child b kids with
  | none => rw [if_pos (h.hnone b hc)]
  | some c =>
    have := h.hsome b c hc
    rw [if_neg this.1, this.2.2]

theorem N48.Rep.isSome {n : N48 V} {kids : Kids V} (h : n.Rep kids) (b : UInt8) : decide (n.key b ≠ 0) = (n.ch b).isSome := by
  rw [h.ch]
  cases hc : Art.child b kids with
  | none => simp [h.hnone b hc]
  | some c => simp [(h.hsome b c hc).1]

theorem N48.Rep.scan {n : N48 V} {kids : Kids V} (h : n.Rep kids) (bs : List UInt8) (P : UInt8 → Bool) :
    ((bs.find? fun b => P b && decide (n.key b ≠ 0)).bind n.found) =
      (bs.find? fun b => P b && (n.ch b).isSome).bind fun b => answer (b, n.ch b) := by
  have : (fun b => P b && decide (n.key b ≠ 0)) = fun b => P b && (n.ch b).isSome := by
    funext b; rw [h.isSome]
  rw [this]
  cases hf : bs.find? fun b => P b && (n.ch b).isSome with
  | none => rfl
  | some b =>
    have h1 := List.find?_some hf
    rw [Bool.and_eq_true, ← h.isSome, decide_eq_true_eq] at h1
    simp only [Option.bind_some, N48.found, N48.ch, if_neg h1.2]

theorem N48.Rep.next {n : N48 V} {kids : Kids V} (h : n.Rep kids) (k : Option UInt8) : n.next k = kNext k kids := by
  rw [N48.next, h.scan]
  cases k with
  | none =>
    have := scanUp h.sorted n.ch h.ch fun _ => true
    rw [find_true] at this
    exact this
  | some k => exact scanUp h.sorted n.ch h.ch fun b => decide (k < b)

theorem N48.Rep.gte {n : N48 V} {kids : Kids V} (h : n.Rep kids) (k : UInt8) : n.gte k = kGte k kids := by
  rw [N48.gte, h.scan]
  exact scanUp h.sorted n.ch h.ch fun b => decide (k ≤ b)

theorem N48.Rep.prev {n : N48 V} {kids : Kids V} (h : n.Rep kids) (k : Option UInt8) : n.prev k = kPrev k kids := by
  rw [N48.prev, h.scan]
  cases k with
  | none =>
    have := scanDown h.sorted n.ch h.ch fun _ => true
    rw [find_true, List.head?_reverse] at this
    exact this
  | some k => exact scanDown h.sorted n.ch h.ch fun b => decide (b < k)

theorem N48.Rep.lte {n : N48 V} {kids : Kids V} (h : n.Rep kids) (k : UInt8) : n.lte k = kLte k kids := by
  rw [N48.lte, h.scan]
  exact scanDown h.sorted n.ch h.ch fun b => decide (b ≤ k)

theorem answer_snd (o : Option UInt8) (f : UInt8 → Option (Node V)) :
    (o.bind fun b => answer (b, f b)).map (·.2) = o.bind f := by
  cases o with
  | none => rfl
  | some b => simp only [Option.bind_some]; cases f b <;> rfl

theorem N48.Rep.first {n : N48 V} {kids : Kids V} (h : n.Rep kids) : n.first = kids.head?.map (·.2) := by
  have := congrArg (Option.map (·.2)) (h.next none)
  simp only [N48.next, Bool.true_and, kNext] at this
  rw [← this, N48.first]
  exact (answer_snd _ _).symm

theorem N48.Rep.last {n : N48 V} {kids : Kids V} (h : n.Rep kids) : n.last = kids.getLast?.map (·.2) := by
  have := congrArg (Option.map (·.2)) (h.prev none)
  simp only [N48.prev, Bool.true_and, kPrev] at this
  rw [← this, N48.last]
  exact (answer_snd _ _).symm

theorem N48.Rep.child {n : N48 V} {kids : Kids V} (h : n.Rep kids) (k : UInt8) : (n.child k).2 = Art.child k kids := by
  rw [← h.ch, N48.child, N48.ch]
  split <;> rfl

theorem N48.Rep.childIdx {n : N48 V} {kids : Kids V} (h : n.Rep kids) {k : UInt8} (hk : Art.child k kids ≠ none) :
    (n.child k).1 = k.toNat := by
  obtain ⟨m, hm⟩ := Option.ne_none_iff_exists'.1 hk
  rw [N48.child, if_neg (h.hsome k m hm).1]

theorem N48.key_set {keys : List Nat} {k : UInt8} (hl : keys.length = 256) (x : Nat) (b : UInt8) :
    (keys.set k.toNat x).getD b.toNat 0 = if b = k then x else keys.getD b.toNat 0 := by
  rw [getD_set _ _ _ _ _ (by rw [hl]; exact k.toNat_lt)]
  simp only [toNat_inj]

theorem N48.Rep.grow {n : N48 V} {kids : Kids V} (h : n.Rep kids) : n.grow.Rep kids := by
  refine ⟨h.sorted, h.lth, ?_, ?_⟩
  · simp [N48.grow, bytes_length256]
  · intro b
    rw [N256.slot, N48.grow]
    simp only
    rw [getD_map_bytes]
    exact h.ch b

theorem N48.Rep.shrink {n : N48 V} {kids : Kids V} (h : n.Rep kids) (hl : kids.length ≤ 16) : n.shrink.Rep kids := by
  have : (bytes.filterMap fun b => if n.key b = 0 then none else (n.slot (n.key b)).map fun c => (b, c)) = kids := by
    rw [← collect h.sorted]
    congr 1
    funext b
    rw [← h.ch, N48.ch]
    split <;> rfl
  refine ⟨h.sorted, h.lth, hl, ?_, ?_⟩
  · simp only [N48.shrink, this]
    have := copy_fit (kids.map (·.1)) 16 0 (by simpa using hl) 0
    simpa using this
  · simp only [N48.shrink, this]
    have := copy_fit (kids.map fun e => some e.2) 16 none (by simpa using hl) 0
    simpa using this

theorem N48.Rep.addChild {n : N48 V} {kids : Kids V} (h : n.Rep kids) (hroom : kids.length < 48) {k : UInt8}
    (hk : Art.child k kids = none) (c : Node V) : (n.addChild k c).Rep (Art.addChild k c kids) := by
  have hfree : ∃ i, n.children.findIdx? Option.isNone = some i := by
    cases hf : n.children.findIdx? Option.isNone with
    | some i => exact ⟨i, rfl⟩
    | none =>
      rw [List.findIdx?_eq_none_iff] at hf
      have : n.children.countP Option.isSome = n.children.length := by
        rw [List.countP_eq_length]
        intro a ha
        have := hf a ha
        cases a <;> simp_all
      rw [h.count, h.clen] at this; omega
  obtain ⟨i, hi⟩ := hfree
  have hi' := List.findIdx?_eq_some_iff_getElem.1 hi
  obtain ⟨hlt, hnone, -⟩ := hi'
  have hnone : n.children[i] = none := by simpa using hnone
  have hfresh : ∀ b, n.key b ≠ i + 1 := by
    intro b hb
    cases hc : Art.child b kids with
    | none => have := h.hnone b hc; omega
    | some m =>
      have := (h.hsome b m hc).2.2
      rw [hb, N48.slot, Nat.add_sub_cancel, List.getD_eq_getElem?_getD, List.getElem?_eq_getElem hlt, hnone] at this
      simp at this
  have e : n.addChild k c =
      { keys := n.keys.set k.toNat (i + 1), children := n.children.set i (some c), lth := n.lth + 1 } := by
    rw [N48.addChild, hi]
  have hkey : ∀ b, (n.addChild k c).key b = if b = k then i + 1 else n.key b := by
    intro b; rw [e]; exact N48.key_set h.klen _ b
  have hslot : ∀ j, (n.addChild k c).slot j = if j - 1 = i then some c else n.slot j := by
    intro j; rw [e]; exact getD_set _ _ _ _ _ hlt
  refine ⟨addChild_sorted h.sorted (child_none.1 hk), ?_, ?_, ?_, ?_, ?_, ?_, ?_, ?_⟩
  · rw [addChild_length, e, h.lth]
  · rw [addChild_length]; omega
  · rw [e]; simp [h.klen]
  · rw [e]; simp [h.clen]
  · intro b m hm
    rw [child_addChild hk] at hm
    rw [hkey]
    by_cases hb : b = k
    · rw [if_pos hb] at hm ⊢
      have hlt' := hlt
      rw [h.clen] at hlt'
      refine ⟨by omega, by omega, ?_⟩
      rw [hslot, if_pos (by omega), hm]
    · rw [if_neg hb] at hm ⊢
      obtain ⟨h1, h2, h3⟩ := h.hsome b m hm
      refine ⟨h1, h2, ?_⟩
      have := hfresh b
      rw [hslot, if_neg (by omega), h3]
  · intro b hb
    rw [child_addChild hk] at hb
    rw [hkey]
    by_cases hbk : b = k
    · rw [if_pos hbk] at hb; simp at hb
    · rw [if_neg hbk] at hb ⊢; exact h.hnone b hb
  · intro b b' h1 h2
    rw [hkey] at h1 h2
    rw [hkey] at h2
    by_cases hb : b = k <;> by_cases hb' : b' = k
    · rw [hb, hb']
    · rw [if_pos hb, if_neg hb'] at h2; exact absurd h2.symm (hfresh b')
    · rw [if_neg hb, if_pos hb'] at h2; exact absurd h2 (hfresh b)
    · rw [if_neg hb] at h1 h2; rw [if_neg hb'] at h2; exact h.inj b b' h1 h2
  · rw [e, addChild_length]
    simp only
    rw [List.countP_set hlt, h.count, hnone]
    simp

theorem N48.Rep.remove {n : N48 V} {kids : Kids V} (h : n.Rep kids) {k : UInt8} (hk : Art.child k kids ≠ none) :
    (n.replace (n.child k).1 none).Rep (delChild k kids) := by
  obtain ⟨m, hm⟩ := Option.ne_none_iff_exists'.1 hk
  obtain ⟨hk1, hk2, hk3⟩ := h.hsome k m hm
  have hlen := delChild_length hk
  have hlt : n.key k - 1 < n.children.length := by rw [h.clen]; omega
  have e : n.replace (n.child k).1 none =
      { keys := n.keys.set k.toNat 0, children := n.children.set (n.key k - 1) none, lth := n.lth - 1 } := by
    rw [h.childIdx hk]; rfl
  rw [e]
  generalize hn : ({ keys := n.keys.set k.toNat 0, children := n.children.set (n.key k - 1) none, lth := n.lth - 1 } : N48 V) = n'
  have hkey : ∀ b, n'.key b = if b = k then 0 else n.key b := by
    intro b; subst hn; exact N48.key_set h.klen _ b
  have hslot : ∀ j, n'.slot j = if j - 1 = n.key k - 1 then none else n.slot j := by
    intro j; subst hn; exact getD_set _ _ _ _ _ hlt
  refine ⟨delChild_sorted h.sorted, ?_, ?_, ?_, ?_, ?_, ?_, ?_, ?_⟩
  · subst hn; simp only [h.lth]; omega
  · have := h.fits; omega
  · subst hn; simp [h.klen]
  · subst hn; simp [h.clen]
  · intro b c hc
    rw [child_delChild h.sorted] at hc
    by_cases hb : b = k
    · rw [if_pos hb] at hc; simp at hc
    · rw [if_neg hb] at hc
      obtain ⟨h1, h2, h3⟩ := h.hsome b c hc
      rw [hkey, if_neg hb]
      refine ⟨h1, h2, ?_⟩
      rw [hslot, if_neg, h3]
      intro h4
      exact hb (h.inj b k h1 (by omega))
  · intro b hb
    rw [child_delChild h.sorted] at hb
    rw [hkey]
    by_cases hbk : b = k
    · rw [if_pos hbk]
    · rw [if_neg hbk] at hb ⊢; exact h.hnone b hb
  · intro b b' h1 h2
    rw [hkey] at h1 h2
    rw [hkey] at h2
    by_cases hb : b = k
    · rw [if_pos hb] at h1; exact absurd rfl h1
    · rw [if_neg hb] at h1 h2
      by_cases hb' : b' = k
      · rw [if_pos hb'] at h2; exact absurd h2 h1
      · rw [if_neg hb'] at h2; exact h.inj b b' h1 h2
  · subst hn
    simp only
    have hs : n.children[n.key k - 1] = some m := by
      rw [N48.slot, List.getD_eq_getElem?_getD, List.getElem?_eq_getElem hlt] at hk3
      simpa using hk3
    rw [List.countP_set hlt, h.count, hs]
    simp; omega

theorem N48.Rep.put {n : N48 V} {kids : Kids V} (h : n.Rep kids) {k : UInt8} (hk : Art.child k kids ≠ none)
    (c : Node V) : (n.replace (n.child k).1 (some c)).Rep (setChild k c kids) := by
  obtain ⟨m, hm⟩ := Option.ne_none_iff_exists'.1 hk
  obtain ⟨hk1, hk2, hk3⟩ := h.hsome k m hm
  have hlt : n.key k - 1 < n.children.length := by rw [h.clen]; omega
  have e : n.replace (n.child k).1 (some c) = { n with children := n.children.set (n.key k - 1) (some c) } := by
    rw [h.childIdx hk]; rfl
  rw [e]
  generalize hn : ({ n with children := n.children.set (n.key k - 1) (some c) } : N48 V) = n'
  have hkey : ∀ b, n'.key b = n.key b := by
    intro b; subst hn; rfl
  have hslot : ∀ j, n'.slot j = if j - 1 = n.key k - 1 then some c else n.slot j := by
    intro j; subst hn; exact getD_set _ _ _ _ _ hlt
  refine ⟨setChild_sorted h.sorted, ?_, ?_, ?_, ?_, ?_, ?_, ?_, ?_⟩
  · subst hn; rw [setChild_length]; exact h.lth
  · rw [setChild_length]; exact h.fits
  · subst hn; exact h.klen
  · subst hn; simp [h.clen]
  · intro b c' hc
    rw [child_setChild hk] at hc
    rw [hkey]
    by_cases hb : b = k
    · rw [if_pos hb] at hc
      rw [hb]
      exact ⟨hk1, hk2, by rw [hslot, if_pos rfl, hc]⟩
    · rw [if_neg hb] at hc
      obtain ⟨h1, h2, h3⟩ := h.hsome b c' hc
      refine ⟨h1, h2, ?_⟩
      rw [hslot, if_neg, h3]
      intro h4
      exact hb (h.inj b k h1 (by omega))
  · intro b hb
    rw [child_setChild hk] at hb
    rw [hkey]
    by_cases hbk : b = k
    · rw [if_pos hbk] at hb; simp at hb
    · rw [if_neg hbk] at hb; exact h.hnone b hb
  · intro b b' h1 h2
    rw [hkey] at h1 h2
    rw [hkey] at h2
    exact h.inj b b' h1 h2
  · subst hn
    simp only
    have hs : n.children[n.key k - 1] = some m := by
      rw [N48.slot, List.getD_eq_getElem?_getD, List.getElem?_eq_getElem hlt] at hk3
      simpa using hk3
    rw [List.countP_set hlt, h.count, hs, setChild_length]
    have : 0 < kids.length := by
      cases kids with
      | nil => simp [Art.child] at hk
      | cons => simp
    simp; omega

/-! ### Filling a node48 -/

/-- The index of a byte among these children, from 1; 0 if it has none. -/
def place (b : UInt8) (kids : Kids V) : Nat :=
  match kids.findIdx? (fun e => e.1 == b) with
  | some i => i + 1
  | none => 0

theorem place_concat {b x : UInt8} {c : Node V} {kids : Kids V} (hb : ∀ e ∈ kids, e.1 ≠ b) :
    place x (kids ++ [(b, c)]) = if x = b then kids.length + 1 else place x kids := by
  unfold place
  rw [List.findIdx?_append]
  by_cases h : x = b
  · subst h
    have : kids.findIdx? (fun e => e.1 == x) = none := by
      rw [List.findIdx?_eq_none_iff]
      intro e he; simpa using hb e he
    simp [this, List.findIdx?_cons]
  · rw [if_neg h]
    have h2 : (b == x) = false := by simpa using fun e : b = x => h e.symm
    cases kids.findIdx? (fun e => e.1 == x) <;> simp [List.findIdx?_cons, h2]

theorem place_rep {n : N48 V} {kids : Kids V} (hs : Sorted kids) (hfit : kids.length ≤ 48) (hl : n.lth = kids.length)
    (hk : n.keys.length = 256) (hp : ∀ b, n.key b = place b kids)
    (hc : n.children = kids.map (fun e => some e.2) ++ List.replicate (48 - kids.length) none) : n.Rep kids := by
  have some_place : ∀ b i, kids.findIdx? (fun e => e.1 == b) = some i → ∃ h : i < kids.length, kids[i].1 = b := by
    intro b i hi
    obtain ⟨h, h2, _⟩ := List.findIdx?_eq_some_iff_getElem.1 hi
    exact ⟨h, by simpa using h2⟩
  refine ⟨hs, hl, hfit, hk, ?_, ?_, ?_, ?_, ?_⟩
  · rw [hc]; simp only [List.length_append, List.length_map, List.length_replicate]; omega
  · intro b c hbc
    obtain ⟨A, B, h1, h2, -⟩ := mem_split hs hbc
    have : kids.findIdx? (fun e => e.1 == b) = some A.length := by
      rw [h1, List.findIdx?_append]
      have : A.findIdx? (fun e => e.1 == b) = none := by
        rw [List.findIdx?_eq_none_iff]
        intro e he
        simpa using UInt8.ne_of_lt (h2 e he)
      rw [this]; simp [List.findIdx?_cons]
    have hpl : place b kids = A.length + 1 := by simp [place, this]
    have hA : A.length < kids.length := by rw [h1]; simp
    rw [hp, hpl]
    refine ⟨by omega, by omega, ?_⟩
    rw [N48.slot, hc, h1]
    simp [List.getD_eq_getElem?_getD]
  · intro b hb
    rw [hp, place]
    have : kids.findIdx? (fun e => e.1 == b) = none := by
      rw [List.findIdx?_eq_none_iff]
      intro e he
      simpa using child_none.1 hb e he
    rw [this]
  · intro b b' h1 h2
    rw [hp, hp] at h2
    rw [hp] at h1
    unfold place at h1 h2
    cases hb : kids.findIdx? (fun e => e.1 == b) with
    | none => rw [hb] at h1; simp at h1
    | some i =>
      cases hb' : kids.findIdx? (fun e => e.1 == b') with
      | none => rw [hb, hb'] at h2; simp at h2
      | some j =>
        rw [hb, hb'] at h2
        simp only [Nat.add_right_cancel_iff] at h2
        subst h2
        obtain ⟨_, e1⟩ := some_place b i hb
        obtain ⟨_, e2⟩ := some_place b' i hb'
        rw [← e1, ← e2]
  · rw [hc, List.countP_append, List.countP_map]
    have : (List.replicate (48 - kids.length) (none : Option (Node V))).countP Option.isSome = 0 := by
      rw [List.countP_eq_zero]
      intro a ha
      rw [List.mem_replicate] at ha
      rw [ha.2]; simp
    rw [this, Nat.add_zero, List.countP_eq_length]
    intro e _; rfl

theorem Small.Rep.grow48 {n : Small V} {kids : Kids V} (h : n.Rep kids) (hcap : n.cap ≤ 48) : n.grow48.Rep kids := by
  have hfit : kids.length ≤ 48 := Nat.le_trans h.fits hcap
  have hclen : n.children.length = n.cap := by
    rw [h.children]
    have := h.fits
    simp only [List.length_append, List.length_map, List.length_replicate]; omega
  have key : ∀ j, j ≤ n.children.length →
      let keys := (List.range j).foldl (fun keys i =>
        if (n.children.getD i none).isNone then keys else keys.set (n.keys.getD i 0).toNat (i + 1)) (List.replicate 256 0)
      keys.length = 256 ∧ ∀ b : UInt8, keys.getD b.toNat 0 = place b (kids.take j) := by
    intro j
    induction j with
    | zero =>
      intro _
      refine ⟨by rw [List.range_zero, List.foldl_nil, List.length_replicate], ?_⟩
      intro b
      rw [List.range_zero, List.foldl_nil, List.getD_eq_getElem?_getD, List.getElem?_replicate]
      split <;> simp [place]
    | succ j ih =>
      intro hj
      have ih := ih (by omega)
      simp only at ih ⊢
      rw [List.range_succ, List.foldl_append, List.foldl_cons, List.foldl_nil]
      by_cases hjk : j < kids.length
      · have h1 : n.children.getD j none = some kids[j].2 := by
          rw [h.children, List.getD_eq_getElem?_getD, List.getElem?_append_left (by simpa using hjk)]
          simp [hjk]
        have h2 : n.keys.getD j 0 = kids[j].1 := by
          rw [h.keys, List.getD_eq_getElem?_getD, List.getElem?_append_left (by simpa using hjk)]
          simp [hjk]
        rw [h1, h2]
        simp only [Option.isNone_some, Bool.false_eq_true, if_false]
        refine ⟨by rw [List.length_set]; exact ih.1, ?_⟩
        intro b
        rw [N48.key_set ih.1, ih.2, List.take_succ_eq_append_getElem hjk]
        have hnew : ∀ e ∈ kids.take j, e.1 ≠ kids[j].1 := by
          intro e he hne
          have hs := h.sorted
          rw [Sorted, ← List.take_append_drop j kids, List.pairwise_append] at hs
          have := hs.2.2 e he kids[j] (by
            rw [List.mem_iff_getElem]
            exact ⟨0, by rw [List.length_drop]; omega, by simp⟩)
          rw [hne] at this
          exact absurd this (UInt8.lt_irrefl _)
        have := place_concat (x := b) (c := kids[j].2) hnew
        rw [show kids[j] = (kids[j].1, kids[j].2) from rfl, this]
        have : (kids.take j).length = j := by rw [List.length_take]; omega
        rw [this]
      · have h1 : n.children.getD j none = none := by
          rw [h.children, List.getD_eq_getElem?_getD, List.getElem?_append_right (by simpa using Nat.le_of_not_lt hjk),
            List.getElem?_replicate]
          split <;> rfl
        rw [h1]
        simp only [Option.isNone_none, if_true]
        rw [List.take_of_length_le (by omega)] at ih
        rw [List.take_of_length_le (by omega)]
        exact ih
  have key := key _ (Nat.le_refl _)
  simp only at key
  have hf := h.fits
  rw [hclen, List.take_of_length_le h.fits] at key
  refine place_rep h.sorted hfit h.lth ?_ ?_ ?_
  · simp only [Small.grow48, hclen]; exact key.1
  · intro b
    simp only [Small.grow48, N48.key, hclen]; exact key.2 b
  · simp only [Small.grow48]
    rw [h.children, copy_fit _ _ _ (by simpa using hfit)]
    simp

theorem N256.Rep.shrink {n : N256 V} {kids : Kids V} (h : n.Rep kids) (hfit : kids.length ≤ 48) : n.shrink.Rep kids := by
  have key : ∀ (j : Nat) (p rest : List UInt8), p.length = j → bytes = p ++ rest →
      let done := p.filterMap fun b => (Art.child b kids).map fun c => (b, c)
      let r := p.foldl (fun (s : N48 V × Nat) b =>
        match n.slot b with
        | none => s
        | some c => ({ s.1 with keys := s.1.keys.set b.toNat (s.2 + 1), children := s.1.children.set s.2 (some c) }, s.2 + 1))
        ({ lth := n.lth, keys := List.replicate 256 0, children := List.replicate 48 none }, 0)
      r.2 = done.length ∧ r.1.lth = n.lth ∧ r.1.keys.length = 256 ∧ (∀ b, r.1.key b = place b done) ∧
        r.1.children = done.map (fun e => some e.2) ++ List.replicate (48 - done.length) none := by
    intro j
    induction j with
    | zero =>
      intro p rest hj _
      obtain rfl := List.length_eq_zero_iff.1 hj
      refine ⟨rfl, rfl, List.length_replicate, ?_, ?_⟩
      · intro b
        rw [List.foldl_nil, N48.key]
        simp only
        rw [List.getD_eq_getElem?_getD, List.getElem?_replicate]
        split <;> simp [place]
      · rfl
    | succ j ih =>
      intro p' rest hj hp
      obtain ⟨p, x, rfl⟩ : ∃ p x, p' = p ++ [x] := by
        rcases List.eq_nil_or_concat p' with rfl | ⟨p, x, h⟩
        · simp at hj
        · exact ⟨p, x, by simpa using h⟩
      have ih := ih p (x :: rest) (by simpa using hj) (by rw [hp]; simp)
      simp only at ih ⊢
      rw [List.foldl_append, List.foldl_cons, List.foldl_nil, List.filterMap_append]
      have hlen : (p ++ [x]).filterMap (fun b => (Art.child b kids).map fun c => (b, c)) <+: kids := by
        have := collect h.sorted
        rw [hp, List.filterMap_append] at this
        exact ⟨_, this⟩
      generalize p.foldl _ _ = r at ih ⊢
      obtain ⟨i1, i2, i3, i4, i5⟩ := ih
      rw [h.slot]
      rw [List.filterMap_append] at hlen
      have hlen := hlen.length_le
      generalize hd : (p.filterMap fun b => (Art.child b kids).map fun c => (b, c)) = done at *
      cases hc : Art.child x kids with
      | none =>
        simp only [List.filterMap_cons, hc, Option.map_none, List.filterMap_nil, List.append_nil]
        exact ⟨i1, i2, i3, i4, i5⟩
      | some c =>
        simp only [List.filterMap_cons, hc, Option.map_some, List.filterMap_nil] at hlen ⊢
        have hnew : ∀ e ∈ done, e.1 ≠ x := by
          intro e he hne
          rw [← hd, List.mem_filterMap] at he
          obtain ⟨b, hb, he⟩ := he
          rw [Option.map_eq_some_iff] at he
          obtain ⟨_, _, rfl⟩ := he
          simp only at hne
          have hs := bytes_sorted
          rw [hp, List.pairwise_append, List.pairwise_append] at hs
          have := hs.1.2.2 b hb x (by simp)
          rw [hne] at this
          exact absurd this (UInt8.lt_irrefl _)
        simp only [List.length_append, List.length_cons, List.length_nil] at hlen
        refine ⟨?_, i2, ?_, ?_, ?_⟩
        · simp [i1]
        · simpa using i3
        · intro b
          have e1 : (N48.key { r.1 with keys := r.1.keys.set x.toNat (r.2 + 1), children := r.1.children.set r.2 (some c) } b) =
            if b = x then r.2 + 1 else r.1.key b := N48.key_set i3 _ b
          rw [e1, i4, place_concat hnew, i1]
        · rw [i5, i1]
          obtain ⟨m, hm⟩ : ∃ m, 48 - done.length = m + 1 := ⟨48 - done.length - 1, by omega⟩
          have hm' : 48 - (done ++ [(x, c)]).length = m := by
            simp only [List.length_append, List.length_cons, List.length_nil]; omega
          rw [hm, hm', List.set_append_right _ _ (by simp)]
          simp [List.replicate_succ]
  have key := key _ bytes [] rfl (by simp)
  simp only at key
  rw [collect h.sorted] at key
  obtain ⟨-, h2, h3, h4, h5⟩ := key
  exact place_rep h.sorted hfit (h2.trans h.lth) h3 h4 h5

/-! ### All four -/

/-- A node of some type with these children. -/
def ANode.Rep (n : ANode V) (kind : Kind) (kids : Kids V) : Prop :=
  match kind, n with
  | .n4, .small n => n.cap = 4 ∧ n.Rep kids
  | .n16, .small n => n.cap = 16 ∧ n.Rep kids
  | .n48, .n48 n => n.Rep kids
  | .n256, .n256 n => n.Rep kids
  | _, _ => False

theorem ANode.Rep.cases {n : ANode V} {kind : Kind} {kids : Kids V} (h : n.Rep kind kids) :
    (∃ s, n = .small s ∧ s.Rep kids ∧ ((kind = .n4 ∧ s.cap = 4) ∨ (kind = .n16 ∧ s.cap = 16))) ∨
    (∃ s, n = .n48 s ∧ s.Rep kids ∧ kind = .n48) ∨ (∃ s, n = .n256 s ∧ s.Rep kids ∧ kind = .n256) := by
  cases kind <;> cases n <;> simp_all [ANode.Rep]

theorem ANode.Rep.sorted {n : ANode V} {kind : Kind} {kids : Kids V} (h : n.Rep kind kids) : Sorted kids := by
  rcases h.cases with ⟨s, -, hs, -⟩ | ⟨s, -, hs, -⟩ | ⟨s, -, hs, -⟩ <;> exact hs.sorted

theorem ANode.Rep.lth {n : ANode V} {kind : Kind} {kids : Kids V} (h : n.Rep kind kids) : n.lth = kids.length := by
  rcases h.cases with ⟨s, rfl, hs, -⟩ | ⟨s, rfl, hs, -⟩ | ⟨s, rfl, hs, -⟩ <;> exact hs.lth

theorem ANode.Rep.kind {n : ANode V} {kind : Kind} {kids : Kids V} (h : n.Rep kind kids) : n.kind = kind := by
  rcases h.cases with ⟨s, rfl, hs, ⟨rfl, hc⟩ | ⟨rfl, hc⟩⟩ | ⟨s, rfl, hs, rfl⟩ | ⟨s, rfl, hs, rfl⟩ <;>
    simp [ANode.kind, *]

theorem ANode.Rep.fits {n : ANode V} {kind : Kind} {kids : Kids V} (h : n.Rep kind kids) : kids.length ≤ kind.cap := by
  rcases h.cases with ⟨s, rfl, hs, ⟨rfl, hc⟩ | ⟨rfl, hc⟩⟩ | ⟨s, rfl, hs, rfl⟩ | ⟨s, rfl, hs, rfl⟩
  · rw [Kind.cap, ← hc]; exact hs.fits
  · rw [Kind.cap, ← hc]; exact hs.fits
  · exact hs.fits
  · exact bytes_length hs.sorted

theorem ANode.Rep.child {n : ANode V} {kind : Kind} {kids : Kids V} (h : n.Rep kind kids) (b : UInt8) :
    (n.child b).2 = Art.child b kids := by
  rcases h.cases with ⟨s, rfl, hs, -⟩ | ⟨s, rfl, hs, -⟩ | ⟨s, rfl, hs, -⟩
  · exact hs.child b
  · exact hs.child b
  · exact hs.slot b

theorem ANode.Rep.next {n : ANode V} {kind : Kind} {kids : Kids V} (h : n.Rep kind kids) (k : Option UInt8) :
    n.next k = kNext k kids := by
  rcases h.cases with ⟨s, rfl, hs, -⟩ | ⟨s, rfl, hs, -⟩ | ⟨s, rfl, hs, -⟩ <;> exact hs.next k

theorem ANode.Rep.prev {n : ANode V} {kind : Kind} {kids : Kids V} (h : n.Rep kind kids) (k : Option UInt8) :
    n.prev k = kPrev k kids := by
  rcases h.cases with ⟨s, rfl, hs, -⟩ | ⟨s, rfl, hs, -⟩ | ⟨s, rfl, hs, -⟩ <;> exact hs.prev k

theorem ANode.Rep.gte {n : ANode V} {kind : Kind} {kids : Kids V} (h : n.Rep kind kids) (k : UInt8) :
    n.gte k = kGte k kids := by
  rcases h.cases with ⟨s, rfl, hs, -⟩ | ⟨s, rfl, hs, -⟩ | ⟨s, rfl, hs, -⟩ <;> exact hs.gte k

theorem ANode.Rep.lte {n : ANode V} {kind : Kind} {kids : Kids V} (h : n.Rep kind kids) (k : UInt8) :
    n.lte k = kLte k kids := by
  rcases h.cases with ⟨s, rfl, hs, -⟩ | ⟨s, rfl, hs, -⟩ | ⟨s, rfl, hs, -⟩ <;> exact hs.lte k

theorem ANode.Rep.first {n : ANode V} {kind : Kind} {kids : Kids V} (h : n.Rep kind kids) :
    n.first = kids.head?.map (·.2) := by
  rcases h.cases with ⟨s, rfl, hs, -⟩ | ⟨s, rfl, hs, -⟩ | ⟨s, rfl, hs, -⟩
  · exact congrArg (Option.map (·.2)) hs.head
  · exact hs.first
  · exact congrArg (Option.map (·.2)) hs.first

theorem ANode.Rep.last {n : ANode V} {kind : Kind} {kids : Kids V} (h : n.Rep kind kids) (hne : kids ≠ []) :
    n.last = kids.getLast?.map (·.2) := by
  rcases h.cases with ⟨s, rfl, hs, -⟩ | ⟨s, rfl, hs, -⟩ | ⟨s, rfl, hs, -⟩
  · exact congrArg (Option.map (·.2)) (hs.final hne)
  · exact hs.last
  · exact congrArg (Option.map (·.2)) hs.last

theorem ANode.Rep.addRoom {n : ANode V} {kind : Kind} {kids : Kids V} (h : n.Rep kind kids) (hroom : kids.length < kind.cap)
    {b : UInt8} (hb : Art.child b kids = none) (c : Node V) : (n.addChild b c).Rep kind (Art.addChild b c kids) := by
  rcases h.cases with ⟨s, rfl, hs, ⟨rfl, hc⟩ | ⟨rfl, hc⟩⟩ | ⟨s, rfl, hs, rfl⟩ | ⟨s, rfl, hs, rfl⟩
  · exact ⟨hc, hs.addChild (by rw [hc]; exact hroom) hb c⟩
  · exact ⟨hc, hs.addChild (by rw [hc]; exact hroom) hb c⟩
  · exact hs.addChild hroom hb c
  · exact hs.addChild hb c

theorem ANode.Rep.grow {n : ANode V} {kind : Kind} {kids : Kids V} (h : n.Rep kind kids) : n.grow.Rep kind.grow kids := by
  have hfits := h.fits
  rcases h.cases with ⟨s, rfl, hs, ⟨rfl, hc⟩ | ⟨rfl, hc⟩⟩ | ⟨s, rfl, hs, rfl⟩ | ⟨s, rfl, hs, rfl⟩
  · simp only [ANode.grow, hc, if_true]
    exact ⟨rfl, hs.resize (by simp only [Kind.cap] at hfits; omega)⟩
  · simp only [ANode.grow, hc]
    exact hs.grow48 (by omega)
  · exact hs.grow
  · exact hs

theorem ANode.Rep.shrink {n : ANode V} {kind : Kind} {kids : Kids V} (h : n.Rep kind kids) (hk : kind ≠ .n4)
    (hl : kids.length < kind.low) : n.shrink.Rep kind.shrink kids := by
  rcases h.cases with ⟨s, rfl, hs, ⟨rfl, hc⟩ | ⟨rfl, hc⟩⟩ | ⟨s, rfl, hs, rfl⟩ | ⟨s, rfl, hs, rfl⟩
  · exact absurd rfl hk
  · exact ⟨rfl, hs.resize (by simp only [Kind.low] at hl; omega)⟩
  · exact ⟨rfl, hs.shrink (by simp only [Kind.low] at hl; omega)⟩
  · exact hs.shrink (by simp only [Kind.low] at hl; omega)

theorem child_some_of_full {kids : Kids V} (hs : Sorted kids) (hl : kids.length = 256) (b : UInt8) :
    Art.child b kids ≠ none := by
  intro hb
  have := bytes_length (addChild_sorted (n := .leaf [] ()) (b := b) (kids := kids.map fun e => (e.1, .leaf [] ()))
    (by rw [List.pairwise_map]; exact hs) (by
      intro e he
      obtain ⟨e', he', rfl⟩ := List.mem_map.1 he
      exact child_none.1 hb e' he'))
  rw [addChild_length, List.length_map] at this
  omega

theorem ANode.Rep.add {n : ANode V} {kind : Kind} {kids : Kids V} (h : n.Rep kind kids) {b : UInt8}
    (hb : Art.child b kids = none) (c : Node V) :
    (n.add b c).Rep (if kids.length = kind.cap then kind.grow else kind) (Art.addChild b c kids) := by
  have hfull : n.full = decide (kids.length = kind.cap) := by rw [ANode.full, h.lth, h.kind]
  rw [ANode.add, hfull]
  by_cases hl : kids.length = kind.cap
  · rw [if_pos (by simpa using hl), if_pos hl]
    refine h.grow.addRoom ?_ hb c
    cases kind with
    | n256 => exact absurd hb (child_some_of_full h.sorted hl b)
    | n4 | n16 | n48 => rw [hl]; decide
  · rw [if_neg (by simpa using hl), if_neg hl]
    have := h.fits
    exact h.addRoom (by omega) hb c

theorem ANode.Rep.put {n : ANode V} {kind : Kind} {kids : Kids V} (h : n.Rep kind kids) {b : UInt8}
    (hb : Art.child b kids ≠ none) (c : Node V) : (n.put b c).Rep kind (setChild b c kids) := by
  rcases h.cases with ⟨s, rfl, hs, ⟨rfl, hc⟩ | ⟨rfl, hc⟩⟩ | ⟨s, rfl, hs, rfl⟩ | ⟨s, rfl, hs, rfl⟩
  · exact ⟨hc, hs.put hb c⟩
  · exact ⟨hc, hs.put hb c⟩
  · exact hs.put hb c
  · exact hs.put hb c

theorem ANode.Rep.delete {n : ANode V} {kind : Kind} {kids : Kids V} (h : n.Rep kind kids) {b : UInt8}
    (hb : Art.child b kids ≠ none) : (n.replace (n.child b).1 none).Rep kind (delChild b kids) := by
  rcases h.cases with ⟨s, rfl, hs, ⟨rfl, hc⟩ | ⟨rfl, hc⟩⟩ | ⟨s, rfl, hs, rfl⟩ | ⟨s, rfl, hs, rfl⟩
  · exact ⟨hc, hs.remove hb⟩
  · exact ⟨hc, hs.remove hb⟩
  · exact hs.remove hb
  · exact hs.remove hb

theorem ANode.Rep.remove {n : ANode V} {kind : Kind} {kids : Kids V} (h : n.Rep kind kids) {b : UInt8}
    (hb : Art.child b kids ≠ none) :
    (n.remove b).Rep (if kids.length ≤ kind.low ∧ kind ≠ .n4 then kind.shrink else kind) (delChild b kids) := by
  have hmin : n.min = decide (kids.length ≤ kind.low) := by rw [ANode.min, h.lth, h.kind]
  have hlen := delChild_length hb
  rw [ANode.remove, hmin, h.kind]
  simp only [decide_eq_true_eq]
  by_cases hl : kids.length ≤ kind.low ∧ kind ≠ .n4
  · rw [if_pos hl, if_pos hl]
    exact (h.delete hb).shrink hl.2 (by omega)
  · rw [if_neg hl, if_neg hl]
    exact h.delete hb

theorem Small.Rep.empty {V : Type} (cap : Nat) : (Small.empty cap : Small V).Rep [] := by
  refine ⟨List.Pairwise.nil, rfl, Nat.zero_le _, ?_, ?_⟩ <;> simp [Small.empty]

end Verif.Art
