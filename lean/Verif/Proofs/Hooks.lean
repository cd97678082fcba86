import Verif.Model.Hooks
import Verif.Proofs.Omap
import Verif.Spec.Art

/-!
# Lemmas about the hooks
-/

namespace Verif.Hooks

open Omap

variable {K V : Type} [KeyOrder K] [DecidableEq K]

theorem nodup_rev {α : Type} {l : List α} (h : l.Nodup) : l.reverse.Nodup :=
  (List.reverse_perm l).nodup_iff.2 h

theorem cached_list {m : Omap K V} (h : Inv m) : (cached m).2 = m.tree := by
  unfold cached
  split
  · rename_i hc; exact h.valid hc.1 hc.2
  · rfl

theorem reached_inv {m : Omap K V} (h : Reached m) : Inv m := by
  obtain ⟨ops, done, hr⟩ := h
  exact run_ok inv_new hr

/-- Setting pairs with different keys, on top of a map. -/
theorem sets_find : ∀ (l : List (K × V)) (m : Omap K V), Inv m → (l.map (·.1)).Nodup →
    Inv (l.foldl (fun m kv => (set m kv.1 kv.2).1) m) ∧
    ∀ k v, find (l.foldl (fun m kv => (set m kv.1 kv.2).1) m).tree k = some v ↔
      (k, v) ∈ l ∨ (k ∉ l.map (·.1) ∧ find m.tree k = some v)
  | [], m, h, _ => ⟨h, by simp⟩
  | x :: l, m, h, hn => by
      simp only [List.map_cons, List.nodup_cons] at hn
      have h1 : Inv (set m x.1 x.2).1 := inv_simple h (.set x.1 x.2)
      obtain ⟨g1, g2⟩ := sets_find l _ h1 hn.2
      refine ⟨g1, fun k v => ?_⟩
      simp only [List.foldl_cons]
      rw [g2 k v]
      have e : find (set m x.1 x.2).1.tree k = if k = x.1 then some x.2 else find m.tree k :=
        find_insert h.sorted k
      rw [e]
      obtain ⟨a, b⟩ := x
      simp only [List.mem_cons, List.map_cons, Prod.mk.injEq, not_or] at hn ⊢
      by_cases hk : k = a
      · subst hk
        simp only [if_true, Option.some.injEq, true_and, not_true_eq_false, false_and, or_false]
        constructor
        · rintro (hm | ⟨-, hm⟩)
          · exact Or.inr hm
          · exact Or.inl hm.symm
        · rintro (hm | hm)
          · exact Or.inr ⟨hn.1, hm.symm⟩
          · exact Or.inl hm
      · simp [hk]

theorem tree_ext {a b : List (K × V)} (ha : Sorted a) (hb : Sorted b)
    (h : ∀ k v, find a k = some v ↔ find b k = some v) : a = b := by
  have hmem : ∀ x, x ∈ a ↔ x ∈ b := by
    rintro ⟨k, v⟩
    rw [find_iff ha, find_iff hb, h]
  clear h
  induction a generalizing b with
  | nil =>
    cases b with
    | nil => rfl
    | cons y b => exact absurd ((hmem y).2 (by simp)) (by simp)
  | cons x a ih =>
    cases b with
    | nil => exact absurd ((hmem x).1 (by simp)) (by simp)
    | cons y b =>
      obtain ⟨ha1, ha2⟩ := List.pairwise_cons.1 ha
      obtain ⟨hb1, hb2⟩ := List.pairwise_cons.1 hb
      have hxy : x = y := by
        rcases List.mem_cons.1 ((hmem x).1 (by simp)) with h | h
        · exact h
        · rcases List.mem_cons.1 ((hmem y).2 (by simp)) with h' | h'
          · exact h'.symm
          · exact absurd (hb1 x h) (lt_asymm (ha1 y h'))
      subst hxy
      rw [ih ha2 hb2 ?_]
      intro z
      have hz := hmem z
      simp only [List.mem_cons] at hz
      constructor
      · intro h
        rcases hz.1 (Or.inr h) with h' | h'
        · subst h'; exact absurd (ha1 z h) (KeyOrder.irrefl _)
        · exact h'
      · intro h
        rcases hz.2 (Or.inr h) with h' | h'
        · subst h'; exact absurd (hb1 z h) (KeyOrder.irrefl _)
        · exact h'

theorem sorted_keys {l : List (K × V)} (h : Sorted l) : (l.map (·.1)).Nodup := by
  rw [List.Nodup, List.pairwise_map]
  exact h.imp fun h => lt_ne h

/-- Loading pairs in any order. -/
theorem entriesLoad_perm {t l : List (K × V)} (ht : Sorted t) (hp : l.Perm t) :
    Inv (entriesLoad l) ∧ (entriesLoad l).tree = t := by
  have hn : (l.map (·.1)).Nodup := (hp.map _).nodup_iff.2 (sorted_keys ht)
  obtain ⟨h1, h2⟩ := sets_find l {} inv_new hn
  refine ⟨h1, tree_ext h1.sorted ht fun k v => ?_⟩
  unfold entriesLoad
  rw [h2 k v, hp.mem_iff, find_iff ht]
  simp [find_nil]

omit [KeyOrder K] [DecidableEq K] in
theorem ticketIndex_find {I : Type} [DecidableEq I] (id : V → I) : ∀ (l : List (K × V)) (f : I → Option V),
    (l.map fun x => id x.2).Nodup → ∀ i v,
    l.foldl (fun f kv i => if i = id kv.2 then some kv.2 else f i) f i = some v ↔
      (∃ k, (k, v) ∈ l ∧ id v = i) ∨ ((∀ x ∈ l, id x.2 ≠ i) ∧ f i = some v)
  | [], f, _, i, v => by simp
  | x :: l, f, hn, i, v => by
      simp only [List.map_cons, List.nodup_cons] at hn
      simp only [List.foldl_cons]
      rw [ticketIndex_find id l _ hn.2 i v]
      obtain ⟨a, b⟩ := x
      simp only [List.mem_cons, Prod.mk.injEq, forall_eq_or_imp]
      have hnot : ∀ y ∈ l, id y.2 ≠ id b := fun y hy he =>
        hn.1 (List.mem_map.2 ⟨y, hy, he⟩)
      by_cases hi : i = id b
      · subst hi
        simp only [if_true, Option.some.injEq, ne_eq, not_true_eq_false, false_and, or_false]
        constructor
        · rintro (⟨k, hm, he⟩ | ⟨-, rfl⟩)
          · exact absurd he (hnot _ hm)
          · exact ⟨a, Or.inl ⟨rfl, rfl⟩, rfl⟩
        · rintro ⟨k, ⟨-, rfl⟩ | hm, he⟩
          · exact Or.inr ⟨hnot, rfl⟩
          · exact absurd he (hnot _ hm)
      · simp only [if_neg hi]
        constructor
        · rintro (⟨k, hm, he⟩ | ⟨h1, h2⟩)
          · exact Or.inl ⟨k, Or.inr hm, he⟩
          · exact Or.inr ⟨⟨fun h => hi h.symm, h1⟩, h2⟩
        · rintro (⟨k, ⟨-, rfl⟩ | hm, he⟩ | ⟨⟨-, h1⟩, h2⟩)
          · exact absurd he.symm hi
          · exact Or.inl ⟨k, hm, he⟩
          · exact Or.inr ⟨h1, h2⟩

omit [KeyOrder K] in
theorem storeLoad_pairs : ∀ (l : List (K × V)) (m : K → Option V), (l.map (·.1)).Nodup →
    ∃ m', storeLoad m (storeSave l).1 (storeSave l).2 = some m' ∧
      ∀ k v, m' k = some v ↔ (k, v) ∈ l ∨ (k ∉ l.map (·.1) ∧ m k = some v)
  | [], m, _ => ⟨m, rfl, by simp⟩
  | x :: l, m, hn => by
      simp only [List.map_cons, List.nodup_cons] at hn
      obtain ⟨m', h1, h2⟩ := storeLoad_pairs l (fun j => if j = x.1 then some x.2 else m j) hn.2
      refine ⟨m', h1, fun k v => ?_⟩
      rw [h2 k v]
      obtain ⟨a, b⟩ := x
      simp only [List.mem_cons, List.map_cons, Prod.mk.injEq, not_or] at hn ⊢
      by_cases hk : k = a
      · subst hk
        simp only [if_true, Option.some.injEq, true_and, not_true_eq_false, false_and, or_false]
        constructor
        · rintro (hm | ⟨-, hm⟩)
          · exact Or.inr hm
          · exact Or.inl hm.symm
        · rintro (hm | hm)
          · exact Or.inr ⟨hn.1, hm.symm⟩
          · exact Or.inl hm
      · simp [hk]

open Art (Separate ZeroExt contents)

/-- Keys that are in the tree at the same time are apart. -/
theorem contents_apart : ∀ (ops : List (Art.Op V)), Separate ops → ∀ a b, a ≠ b → contents ops a ≠ none →
    contents ops b ≠ none → ¬ ZeroExt a b
  | [], _, a, _, _, h, _ => by simp [contents] at h
  | .insert k v :: ops, hs, a, b, hab, ha, hb => by
      simp only [contents] at ha hb
      by_cases h1 : a = k
      · have h2 : b ≠ k := fun h => hab (h1.trans h.symm)
        rw [if_neg h2] at hb
        subst h1
        exact (hs.1 b hb).2
      · rw [if_neg h1] at ha
        by_cases h2 : b = k
        · subst h2
          exact (hs.1 a ha).1
        · rw [if_neg h2] at hb
          exact contents_apart ops hs.2 a b hab ha hb
  | .remove k :: ops, hs, a, b, hab, ha, hb => by
      simp only [contents] at ha hb
      have h1 : a ≠ k := fun h => by simp [h] at ha
      have h2 : b ≠ k := fun h => by simp [h] at hb
      rw [if_neg h1] at ha
      rw [if_neg h2] at hb
      exact contents_apart ops hs a b hab ha hb

/-- Inserting pairs one after the other is a run of the tree. -/
theorem treeLoad_run : ∀ (l : List (Art.Key × V)) (ops : List (Art.Op V)) (t : Art.Tree V), Art.run ops = some t →
    treeLoad t l = Art.run ((l.map fun e => Art.Op.insert e.1 e.2).reverse ++ ops)
  | [], ops, t, h => by simp [treeLoad, h]
  | e :: l, ops, t, h => by
      simp only [treeLoad, List.map_cons, List.reverse_cons, List.append_assoc, List.singleton_append]
      cases hi : t.insert e.1 e.2 with
      | none =>
        have : Art.run (.insert e.1 e.2 :: ops) = none := by simp [Art.run, h, hi]
        have hnone : ∀ (l' : List (Art.Op V)), Art.run (l' ++ (.insert e.1 e.2 :: ops)) = none := by
          intro l'
          induction l' with
          | nil => exact this
          | cons o l' ih => cases o <;> simp [Art.run, ih]
        rw [hnone]
        rfl
      | some r =>
        simp only [Option.bind_some]
        exact treeLoad_run l (.insert e.1 e.2 :: ops) r.1 (by simp [Art.run, h, hi])

theorem inserts_contents : ∀ (l : List (Art.Key × V)), (l.map (·.1)).Nodup → ∀ k v,
    contents ((l.map fun e => Art.Op.insert e.1 e.2).reverse) k = some v ↔ (k, v) ∈ l := by
  have aux : ∀ (r : List (Art.Key × V)), (r.map (·.1)).Nodup → ∀ k v,
      contents (r.map fun e => Art.Op.insert e.1 e.2) k = some v ↔ (k, v) ∈ r := by
    intro r
    induction r with
    | nil => intro _ k v; simp [contents]
    | cons x r ih =>
      intro hn k v
      simp only [List.map_cons, List.nodup_cons] at hn
      obtain ⟨a, b⟩ := x
      simp only [List.map_cons, contents, List.mem_cons, Prod.mk.injEq]
      by_cases hk : k = a
      · subst hk
        simp only [if_true, Option.some.injEq, true_and]
        constructor
        · exact fun h => Or.inl h.symm
        · rintro (h | h)
          · exact h.symm
          · exact absurd (List.mem_map.2 ⟨_, h, rfl⟩) hn.1
      · simp only [if_neg hk, hk, false_and, false_or]
        exact ih hn.2 k v
  intro l hn k v
  rw [← List.map_reverse, aux _ (by rw [List.map_reverse]; exact nodup_rev hn) k v,
    List.mem_reverse]

theorem inserts_separate : ∀ (l : List (Art.Key × V)),
    (l.map (·.1)).Nodup → (∀ a ∈ l, ∀ b ∈ l, a.1 ≠ b.1 → ¬ ZeroExt a.1 b.1) →
    Separate ((l.map fun e => Art.Op.insert e.1 e.2).reverse) := by
  have aux : ∀ (r : List (Art.Key × V)), (r.map (·.1)).Nodup →
      (∀ a ∈ r, ∀ b ∈ r, a.1 ≠ b.1 → ¬ ZeroExt a.1 b.1) →
      Separate (r.map fun e => Art.Op.insert e.1 e.2) := by
    intro r
    induction r with
    | nil => intro _ _; trivial
    | cons x r ih =>
      intro hn ha
      have hn' := hn
      simp only [List.map_cons, List.nodup_cons] at hn
      refine ⟨?_, ih hn.2 fun a h1 b h2 => ha a (by simp [h1]) b (by simp [h2])⟩
      intro a hc
      cases hv : contents (r.map fun e => Art.Op.insert e.1 e.2) a with
      | none => exact absurd hv hc
      | some v =>
        have hr : (r.reverse.map (·.1)).Nodup := by
          rw [List.map_reverse]; exact nodup_rev hn.2
        have hm : (a, v) ∈ r := by
          have := (inserts_contents r.reverse hr a v)
          rw [← List.map_reverse, List.reverse_reverse, List.mem_reverse] at this
          exact this.1 hv
        have hne : a ≠ x.1 := fun h => hn.1 (List.mem_map.2 ⟨_, hm, h⟩)
        exact ⟨ha (a, v) (by simp [hm]) x (by simp) hne, ha x (by simp) (a, v) (by simp [hm]) hne.symm⟩
  intro l hn ha
  rw [← List.map_reverse]
  exact aux _ (by rw [List.map_reverse]; exact nodup_rev hn)
    fun a h1 b h2 => ha a (List.mem_reverse.1 h1) b (List.mem_reverse.1 h2)

end Verif.Hooks
