import Verif.Spec.Omap
namespace Verif.Omap
set_option linter.unusedSectionVars false
variable {K V : Type} [KeyOrder K] [DecidableEq K]
open KeyOrder

def Sorted (t : List (K × V)) : Prop := t.Pairwise fun a b => a.1 < b.1

theorem lt_ne {a b : K} (h : a < b) : a ≠ b := fun e => irrefl b (e ▸ h)
theorem lt_ne' {a b : K} (h : a < b) : b ≠ a := fun e => irrefl b (e ▸ h)
theorem lt_asymm {a b : K} (h : a < b) : ¬ b < a := fun h' => irrefl a (trans h h')

/-! ### The tree -/

theorem find_nil (k : K) : find ([] : List (K × V)) k = none := rfl

theorem find_cons (x : K × V) (t : List (K × V)) (k : K) :
    find (x :: t) k = if x.1 = k then some x.2 else find t k := by
  unfold find
  rw [List.find?_cons]
  by_cases h : x.1 = k
  · simp [h]
  · simp [h]

theorem find_some_mem {t : List (K × V)} {k : K} {v : V} (h : find t k = some v) : (k, v) ∈ t := by
  induction t with
  | nil => cases h
  | cons x t ih =>
    rw [find_cons] at h
    by_cases c : x.1 = k
    · rw [if_pos c] at h; cases h; subst c; exact List.mem_cons_self
    · rw [if_neg c] at h; exact List.mem_cons_of_mem _ (ih h)

theorem find_none {t : List (K × V)} {k : K} (h : ∀ x ∈ t, x.1 ≠ k) : find t k = none := by
  induction t with
  | nil => rfl
  | cons x t ih =>
    rw [find_cons, if_neg (h x List.mem_cons_self)]
    exact ih fun y hy => h y (List.mem_cons_of_mem _ hy)

theorem mem_find {t : List (K × V)} (hs : Sorted t) {k : K} {v : V} (h : (k, v) ∈ t) : find t k = some v := by
  induction t with
  | nil => cases h
  | cons x t ih =>
    rw [find_cons]
    obtain ⟨h1, h2⟩ := List.pairwise_cons.1 hs
    rcases List.mem_cons.1 h with e | e
    · subst e; simp
    · rw [if_neg (lt_ne (h1 _ e))]; exact ih h2 e

theorem find_iff {t : List (K × V)} (hs : Sorted t) {k : K} {v : V} : (k, v) ∈ t ↔ find t k = some v :=
  ⟨mem_find hs, find_some_mem⟩

theorem insert_mem {k : K} {v : V} {t : List (K × V)} {x : K × V} (h : x ∈ insert k v t) : x = (k, v) ∨ x ∈ t := by
  induction t with
  | nil => simp [insert] at h; exact Or.inl h
  | cons y t ih =>
    obtain ⟨k', v'⟩ := y
    unfold insert at h
    split at h
    · rcases List.mem_cons.1 h with e | e
      · exact Or.inl e
      · exact Or.inr (List.mem_cons_of_mem _ e)
    · split at h
      · rcases List.mem_cons.1 h with e | e
        · exact Or.inl e
        · exact Or.inr e
      · rcases List.mem_cons.1 h with e | e
        · exact Or.inr (e ▸ List.mem_cons_self)
        · rcases ih e with e | e
          · exact Or.inl e
          · exact Or.inr (List.mem_cons_of_mem _ e)

theorem insert_sorted {k : K} {v : V} {t : List (K × V)} (hs : Sorted t) : Sorted (insert k v t) := by
  induction t with
  | nil => unfold insert; exact List.pairwise_singleton _ _
  | cons y t ih =>
    obtain ⟨k', v'⟩ := y
    obtain ⟨h1, h2⟩ := List.pairwise_cons.1 hs
    unfold insert
    by_cases c : k = k'
    · rw [if_pos c]; subst c; exact List.pairwise_cons.2 ⟨h1, h2⟩
    · rw [if_neg c]
      by_cases c2 : k < k'
      · rw [if_pos c2]
        refine List.pairwise_cons.2 ⟨?_, hs⟩
        intro x hx
        rcases List.mem_cons.1 hx with e | e
        · rw [e]; exact c2
        · exact trans c2 (h1 x e)
      · rw [if_neg c2]
        refine List.pairwise_cons.2 ⟨?_, ih h2⟩
        intro x hx
        rcases insert_mem hx with e | e
        · rw [e]
          rcases tri k k' with h | h | h
          · exact absurd h c2
          · exact absurd h c
          · exact h
        · exact h1 x e

theorem find_insert {k : K} {v : V} {t : List (K × V)} (hs : Sorted t) (j : K) :
    find (insert k v t) j = if j = k then some v else find t j := by
  induction t with
  | nil =>
    unfold insert; rw [find_cons]
    by_cases c : k = j
    · rw [if_pos c, if_pos c.symm]
    · rw [if_neg c, if_neg (fun e => c e.symm)]
  | cons y t ih =>
    obtain ⟨k', v'⟩ := y
    obtain ⟨h1, h2⟩ := List.pairwise_cons.1 hs
    unfold insert
    by_cases c : k = k'
    · rw [if_pos c, find_cons, find_cons]; subst c
      by_cases c2 : k = j
      · simp [c2]
      · simp only; rw [if_neg c2, if_neg (fun e => c2 e.symm), if_neg c2]
    · rw [if_neg c]
      by_cases c2 : k < k'
      · rw [if_pos c2, find_cons]
        by_cases c3 : k = j
        · simp [c3]
        · simp only; rw [if_neg c3, if_neg (fun e => c3 e.symm)]
      · rw [if_neg c2, find_cons, find_cons, ih h2]
        by_cases c3 : k' = j
        · simp only; rw [if_pos c3, if_neg (fun e => c (e.symm.trans c3.symm)), if_pos c3]
        · simp only; rw [if_neg c3, if_neg c3]

theorem filter_sorted {t : List (K × V)} (hs : Sorted t) (p) : Sorted (t.filter p) := List.Pairwise.filter p hs

theorem find_erase {t : List (K × V)} (k j : K) :
    find (t.filter fun x => x.1 ≠ k) j = if j = k then none else find t j := by
  induction t with
  | nil => rw [List.filter_nil, find_nil]; split <;> rfl
  | cons x t ih =>
    by_cases c : x.1 = k
    · rw [List.filter_cons_of_neg (by simp [c]), ih, find_cons]
      by_cases c2 : j = k
      · rw [if_pos c2, if_pos c2]
      · rw [if_neg c2, if_neg c2, if_neg (fun e => c2 (e.symm.trans c))]
    · rw [List.filter_cons_of_pos (by simp [c]), find_cons, find_cons, ih]
      by_cases c2 : j = k
      · rw [if_pos c2, if_neg (fun e => c (e.trans c2)), if_pos c2]
      · rw [if_neg c2, if_neg c2]

/-! ### Splitting at an element -/

theorem sorted_split {A B : List (K × V)} {x : K × V} (hs : Sorted (A ++ x :: B)) :
    (∀ a ∈ A, a.1 < x.1) ∧ (∀ b ∈ B, x.1 < b.1) ∧ Sorted (A ++ B) := by
  obtain ⟨h1, h2, h3⟩ := List.pairwise_append.1 hs
  obtain ⟨h4, h5⟩ := List.pairwise_cons.1 h2
  exact ⟨fun a ha => h3 a ha x List.mem_cons_self, h4,
    List.pairwise_append.2 ⟨h1, h5, fun a ha b hb => h3 a ha b (List.mem_cons_of_mem _ hb)⟩⟩

theorem find_split {A B : List (K × V)} {x : K × V} (hs : Sorted (A ++ x :: B)) :
    find (A ++ x :: B) x.1 = some x.2 := mem_find hs (by simp)

theorem nextIt_split {A B : List (K × V)} {x : K × V} (hs : Sorted (A ++ x :: B)) :
    nextIt (A ++ x :: B) (some x.1) = some (minIt B) := by
  obtain ⟨h1, h2, _⟩ := sorted_split hs
  unfold nextIt
  simp only
  rw [find_split hs]
  simp only [Option.isSome_some, if_true]
  have e : (A ++ x :: B).find? (fun y => decide (x.1 < y.1)) = B.head? := by
    rw [List.find?_append]
    have : A.find? (fun y => decide (x.1 < y.1)) = none := by
      rw [List.find?_eq_none]
      intro a ha
      simp only [decide_eq_true_eq]
      exact lt_asymm (h1 a ha)
    rw [this, Option.none_or, List.find?_cons_of_neg (by simp [irrefl])]
    cases B with
    | nil => rfl
    | cons b B => rw [List.find?_cons_of_pos (by simp [h2 b List.mem_cons_self])]; rfl
  rw [e]
  rfl

theorem erase_split {A B : List (K × V)} {x : K × V} (hs : Sorted (A ++ x :: B)) :
    (A ++ x :: B).filter (fun y => y.1 ≠ x.1) = A ++ B := by
  obtain ⟨h1, h2, _⟩ := sorted_split hs
  rw [List.filter_append, List.filter_cons_of_neg (by simp)]
  congr 1
  · exact List.filter_eq_self.2 fun a ha => by simp [lt_ne (h1 a ha)]
  · exact List.filter_eq_self.2 fun a ha => by simp [lt_ne' (h2 a ha)]

/-! ### What holds of the map between operations -/

structure Inv (m : Omap K V) : Prop where
  sorted : Sorted m.tree
  ver : m.cacheVer ≤ m.version
  cache : m.cacheVer = m.version → m.cache <+: m.tree ∨ m.tree.length < m.cache.length

theorem inv_new : Inv ({} : Omap K V) := ⟨List.Pairwise.nil, Nat.le_refl _, fun _ => Or.inl (List.prefix_refl _)⟩

theorem Inv.valid {m : Omap K V} (h : Inv m) (hc : m.cache.length = m.tree.length) (hv : m.cacheVer = m.version) :
    m.cache = m.tree := by
  rcases h.cache hv with h1 | h1
  · exact h1.eq_of_length hc
  · omega

theorem inv_simple {m : Omap K V} (h : Inv m) (s : Simple K V) : Inv (simple m s) := by
  cases s with
  | set k v => exact ⟨insert_sorted h.sorted, Nat.zero_le _, fun e => by simp [simple, set] at e⟩
  | del k =>
    simp only [simple, del]
    cases find m.tree k with
    | none => exact h
    | some _ => exact ⟨filter_sorted h.sorted _, Nat.zero_le _, fun e => by simp at e⟩
  | deleteAll => exact ⟨List.Pairwise.nil, Nat.zero_le _, fun e => by simp [simple, deleteAll] at e⟩
  | cached =>
    simp only [simple, cached]
    split
    · exact h
    · exact ⟨h.sorted, Nat.le_refl _, fun _ => Or.inl (List.prefix_refl _)⟩

theorem Inv.simples {m : Omap K V} (h : Inv m) (s : List (Simple K V)) : Inv (s.foldl simple m) := by
  induction s generalizing m with
  | nil => exact h
  | cons x s ih => exact ih (inv_simple h x)

/-- An operation changes the version or leaves tree alone. -/
theorem simple_version (m : Omap K V) (s : Simple K V) :
    m.version ≤ (simple m s).version ∧ ((simple m s).version = m.version → (simple m s).tree = m.tree) := by
  cases s with
  | set k v => exact ⟨Nat.le_succ _, fun e => by simp [simple, set] at e⟩
  | del k =>
    simp only [simple, del]
    cases find m.tree k with
    | none => exact ⟨Nat.le_refl _, fun _ => rfl⟩
    | some _ => exact ⟨Nat.le_succ _, fun e => by simp at e⟩
  | deleteAll => exact ⟨Nat.le_succ _, fun e => by simp [simple, deleteAll] at e⟩
  | cached => simp only [simple, cached]; split <;> exact ⟨Nat.le_refl _, fun _ => rfl⟩

/-- What is known of a cache that is being filled up to `it`. -/
def Filling (t c : List (K × V)) (it : Option K) : Prop :=
  (∃ B, t = c ++ B ∧ it = minIt B) ∨ c = t ∨ t.length < c.length

def FillOK (m : Omap K V) (it : Option K) (vers : Nat) (good : Bool) : Prop :=
  vers ≤ m.version ∧ (good = false → vers < m.version) ∧
  (good = true → m.version = vers → m.cacheVer = vers ∧ Filling m.tree m.cache it)

def IterOK (m : Omap K V) : Iter K V → Prop
  | .fill it vers good => FillOK m it vers good
  | _ => True

theorem fill_simple {m : Omap K V} {it vers good} (h : FillOK m it vers good) (s : Simple K V) :
    FillOK (simple m s) it vers good := by
  obtain ⟨h1, h2, h3⟩ := h
  obtain ⟨v1, v2⟩ := simple_version m s
  refine ⟨by omega, fun e => by have := h2 e; omega, fun e hv => ?_⟩
  have hv' : m.version = vers := by omega
  obtain ⟨h4, h5⟩ := h3 e hv'
  have ht := v2 (by omega)
  cases s with
  | set k v => simp [simple, set] at hv; omega
  | deleteAll => simp [simple, deleteAll] at hv; omega
  | del k =>
    simp only [simple, del] at hv ⊢
    cases hf : find m.tree k with
    | none => exact ⟨h4, h5⟩
    | some _ => rw [hf] at hv; simp only at hv; omega
  | cached =>
    simp only [simple, cached]
    split
    · exact ⟨h4, h5⟩
    · exact ⟨hv', Or.inr (Or.inl rfl)⟩

theorem IterOK.simples {m : Omap K V} {it : Iter K V} (h : IterOK m it) (s : List (Simple K V)) :
    IterOK (s.foldl simple m) it := by
  cases it with
  | fill it vers good =>
    induction s generalizing m with
    | nil => exact h
    | cons x s ih => exact ih (fill_simple h x)
  | _ => trivial

theorem Filling.inv {t c : List (K × V)} {it} (h : Filling t c it) : c <+: t ∨ t.length < c.length := by
  rcases h with ⟨B, h, _⟩ | h | h
  · exact Or.inl ⟨B, h.symm⟩
  · exact Or.inl (h ▸ List.prefix_refl _)
  · exact Or.inr h

theorem minIt_cons (x : K × V) (t : List (K × V)) : minIt (x :: t) = some x.1 := rfl

theorem fillHead_ok {m : Omap K V} {it vers good} {m' it' out} (hi : Inv m) (h : FillOK m it vers good)
    (hg : good = true → m.version = vers) (hh : fillHead m it vers good = some (m', it', out)) : Inv m' ∧ IterOK m' it' := by
  unfold fillHead at hh
  cases it with
  | none => cases hh; exact ⟨hi, trivial⟩
  | some k =>
    simp only at hh
    cases hf : find m.tree k with
    | none => rw [hf] at hh; cases hh
    | some v =>
      rw [hf] at hh
      simp only at hh
      cases hn : nextIt m.tree (some k) with
      | none => rw [hn] at hh; cases hh
      | some nx =>
        rw [hn] at hh
        simp only [Option.map_some, Option.some.injEq, Prod.mk.injEq] at hh
        obtain ⟨rfl, rfl, _⟩ := hh
        obtain ⟨h1, h2, h3⟩ := h
        cases good with
        | false =>
          simp only [Bool.false_eq_true, if_false]
          exact ⟨hi, h1, h2, fun e => by cases e⟩
        | true =>
          simp only [if_true]
          have key : m.version = vers → m.cacheVer = vers ∧ Filling m.tree (m.cache ++ [(k, v)]) nx := by
            intro hv
            obtain ⟨h4, h5⟩ := h3 rfl hv
            refine ⟨h4, ?_⟩
            rcases h5 with ⟨B, e1, e2⟩ | e | e
            · cases B with
              | nil => cases e2
              | cons b B =>
                rw [minIt_cons] at e2
                cases e2
                have hs := hi.sorted
                rw [e1] at hs
                have hv2 : v = b.2 := by
                  rw [e1, find_split hs] at hf
                  cases hf; rfl
                have hn2 : nx = minIt B := by
                  rw [e1, nextIt_split hs] at hn
                  cases hn; rfl
                refine Or.inl ⟨B, ?_, hn2⟩
                rw [e1, hv2]; simp
            · right; right; rw [e]; simp
            · right; right; simp; omega
          refine ⟨⟨hi.sorted, hi.ver, ?_⟩, h1, (fun e => by cases e), fun _ hv => key hv⟩
          intro _
          exact (key (hg rfl)).2.inv

theorem cachedHead_ok {m : Omap K V} {rest i next vers} {m' it' out} (hi : Inv m)
    (hh : cachedHead m rest i next vers = some (m', it', out)) : Inv m' ∧ IterOK m' it' := by
  unfold cachedHead at hh
  cases rest with
  | nil => cases hh; exact ⟨hi, trivial⟩
  | cons x rest =>
    simp only at hh
    cases hn : nextIt m.tree next with
    | none => rw [hn] at hh; cases hh
    | some nx => rw [hn] at hh; cases hh; exact ⟨hi, trivial⟩

theorem slowHead_ok {m : Omap K V} {next} {m' it' out} (hi : Inv m)
    (hh : slowHead m next = some (m', it', out)) : Inv m' ∧ IterOK m' it' := by
  unfold slowHead at hh
  cases next with
  | none => cases hh; exact ⟨hi, trivial⟩
  | some k =>
    simp only at hh
    cases hf : find m.tree k with
    | none => rw [hf] at hh; cases hh
    | some v =>
      rw [hf] at hh
      simp only at hh
      cases hn : nextIt m.tree (some k) with
      | none => rw [hn] at hh; cases hh
      | some nx => rw [hn] at hh; cases hh; exact ⟨hi, trivial⟩

theorem start_ok {m : Omap K V} {m' it' out} (hi : Inv m) (hh : start m = some (m', it', out)) :
    Inv m' ∧ IterOK m' it' := by
  unfold start at hh
  split at hh
  · exact cachedHead_ok hi hh
  · refine fillHead_ok ?_ ?_ (fun _ => rfl) hh
    · exact ⟨hi.sorted, Nat.le_refl _, fun _ => Or.inl (List.nil_prefix)⟩
    · exact ⟨Nat.le_refl _, (fun e => by cases e), fun _ _ => ⟨rfl, Or.inl ⟨m.tree, rfl, rfl⟩⟩⟩

theorem resume_ok {m : Omap K V} {it : Iter K V} {m' it' out} (hi : Inv m) (ho : IterOK m it)
    (hh : resume m it = some (m', it', out)) : Inv m' ∧ IterOK m' it' := by
  cases it with
  | done => cases hh; exact ⟨hi, trivial⟩
  | cached rest i next vers =>
    simp only [resume] at hh
    split at hh
    · exact cachedHead_ok hi hh
    · split at hh
      · cases hh; exact ⟨hi, trivial⟩
      · exact slowHead_ok hi hh
  | slow next => exact slowHead_ok hi hh
  | fill it vers good =>
    simp only [resume] at hh
    obtain ⟨h1, h2, h3⟩ := ho
    split at hh
    · rename_i hv
      refine fillHead_ok ?_ ?_ (fun e => by cases e) hh
      · exact ⟨hi.sorted, Nat.zero_le _, fun e => by simp only at e; omega⟩
      · exact ⟨h1, fun _ => by simp only; omega, fun e => by cases e⟩
    · rename_i hv
      exact fillHead_ok hi ⟨h1, h2, h3⟩ (fun _ => by omega) hh

theorem loopFrom_ok {body : Body K V} {fuel n : Nat} {p : Piece K V}
    (hp : ∀ m it out, p = some (m, it, out) → Inv m ∧ IterOK m it) {r}
    (h : loopFrom body fuel n p = some r) : Inv r.1 := by
  induction fuel generalizing n p r with
  | zero =>
    match p, h with
    | some (m, it, none), h => cases h; exact (hp _ _ _ rfl).1
  | succ fuel ih =>
    match p, h with
    | some (m, it, none), h => cases h; exact (hp _ _ _ rfl).1
    | some (m, it, some x), h =>
      obtain ⟨h1, h2⟩ := hp _ _ _ rfl
      simp only [loopFrom] at h
      by_cases c : (body n x.1 x.2).2 = true
      · rw [if_pos c] at h
        cases hl : loopFrom body fuel (n + 1) (resume ((body n x.1 x.2).1.foldl simple m) it) with
        | none => rw [hl] at h; cases h
        | some q =>
          rw [hl] at h
          cases h
          refine ih (r := q) ?_ hl
          intro m' it' out hr
          exact resume_ok (h1.simples _) (h2.simples _) hr
      · rw [if_neg c] at h
        cases h
        exact h1.simples _

theorem run_ok {m : Omap K V} {ops : List (Op K V)} {r} (hi : Inv m) (h : run m ops = some r) : Inv r.1 := by
  induction ops generalizing m r with
  | nil => cases h; exact hi
  | cons o ops ih =>
    cases o with
    | simple s =>
      simp only [run] at h
      cases hr : run (simple m s) ops with
      | none => rw [hr] at h; cases h
      | some q => rw [hr] at h; cases h; exact ih (r := q) (inv_simple hi s) hr
    | loop body fuel =>
      simp only [run] at h
      cases hl : loop body fuel m with
      | none => rw [hl] at h; cases h
      | some l =>
        rw [hl] at h
        simp only [Option.bind_some] at h
        cases hr : run l.1 ops with
        | none => rw [hr] at h; cases h
        | some q =>
          rw [hr] at h; cases h
          exact ih (r := q) (loopFrom_ok (fun _ _ _ hs => start_ok hi hs) hl) hr

/-! ### Lookups -/

theorem simple_get {m : Omap K V} (hi : Inv m) (s : Simple K V) : get2 (simple m s) = spec (get2 m) s := by
  funext j
  cases s with
  | set k v => exact find_insert hi.sorted j
  | del k =>
    simp only [simple, del, get2, spec]
    cases hf : find m.tree k with
    | some _ => exact find_erase k j
    | none =>
      by_cases c : j = k
      · subst c; rw [if_pos rfl]; exact hf
      · rw [if_neg c]
  | deleteAll => rfl
  | cached => simp only [simple, cached]; split <;> rfl

theorem simples_get {m : Omap K V} (hi : Inv m) (s : List (Simple K V)) :
    get2 (s.foldl simple m) = s.foldl spec (get2 m) := by
  induction s generalizing m with
  | nil => rfl
  | cons x s ih => simp only [List.foldl_cons]; rw [ih (inv_simple hi x), simple_get hi]

theorem fillHead_tree {m : Omap K V} {it vers good} {m' it' out}
    (hh : fillHead m it vers good = some (m', it', out)) : m'.tree = m.tree := by
  unfold fillHead at hh
  cases it with
  | none => cases hh; rfl
  | some k =>
    simp only at hh
    cases hf : find m.tree k with
    | none => rw [hf] at hh; cases hh
    | some v =>
      rw [hf] at hh
      simp only at hh
      cases hn : nextIt m.tree (some k) with
      | none => rw [hn] at hh; cases hh
      | some nx => rw [hn] at hh; cases hh; cases good <;> rfl

theorem cachedHead_tree {m : Omap K V} {rest i next vers} {m' it' out}
    (hh : cachedHead m rest i next vers = some (m', it', out)) : m'.tree = m.tree := by
  unfold cachedHead at hh
  cases rest with
  | nil => cases hh; rfl
  | cons x rest =>
    simp only at hh
    cases hn : nextIt m.tree next with
    | none => rw [hn] at hh; cases hh
    | some nx => rw [hn] at hh; cases hh; rfl

theorem slowHead_tree {m : Omap K V} {next} {m' it' out}
    (hh : slowHead m next = some (m', it', out)) : m'.tree = m.tree := by
  unfold slowHead at hh
  cases next with
  | none => cases hh; rfl
  | some k =>
    simp only at hh
    cases hf : find m.tree k with
    | none => rw [hf] at hh; cases hh
    | some v =>
      rw [hf] at hh
      simp only at hh
      cases hn : nextIt m.tree (some k) with
      | none => rw [hn] at hh; cases hh
      | some nx => rw [hn] at hh; cases hh; rfl

theorem start_tree {m : Omap K V} {m' it' out} (hh : start m = some (m', it', out)) : m'.tree = m.tree := by
  unfold start at hh
  split at hh
  · exact cachedHead_tree hh
  · (have h9 := fillHead_tree hh; exact h9)

theorem resume_tree {m : Omap K V} {it : Iter K V} {m' it' out} (hh : resume m it = some (m', it', out)) :
    m'.tree = m.tree := by
  cases it with
  | done => cases hh; rfl
  | cached rest i next vers =>
    simp only [resume] at hh
    split at hh
    · exact cachedHead_tree hh
    · split at hh
      · cases hh; rfl
      · exact slowHead_tree hh
  | slow next => exact slowHead_tree hh
  | fill it vers good =>
    simp only [resume] at hh
    split at hh
    · (have h9 := fillHead_tree hh; exact h9)
    · (have h9 := fillHead_tree hh; exact h9)

theorem loopFrom_get {body : Body K V} {fuel n : Nat} {p : Piece K V} {f : K → Option V}
    (hp : ∀ m it out, p = some (m, it, out) → Inv m ∧ IterOK m it ∧ get2 m = f) {r}
    (h : loopFrom body fuel n p = some r) : get2 r.1 = r.2.2.foldl spec f := by
  induction fuel generalizing n p r f with
  | zero =>
    match p, h with
    | some (m, it, none), h => cases h; exact (hp _ _ _ rfl).2.2
  | succ fuel ih =>
    match p, h with
    | some (m, it, none), h => cases h; exact (hp _ _ _ rfl).2.2
    | some (m, it, some x), h =>
      obtain ⟨h1, h2, h3⟩ := hp _ _ _ rfl
      simp only [loopFrom] at h
      by_cases c : (body n x.1 x.2).2 = true
      · rw [if_pos c] at h
        cases hl : loopFrom body fuel (n + 1) (resume ((body n x.1 x.2).1.foldl simple m) it) with
        | none => rw [hl] at h; cases h
        | some q =>
          rw [hl] at h
          cases h
          simp only [List.foldl_append]
          refine ih (r := q) ?_ hl
          intro m' it' out hr
          obtain ⟨g1, g2⟩ := resume_ok (h1.simples _) (h2.simples _) hr
          refine ⟨g1, g2, ?_⟩
          rw [← h3, ← simples_get h1]
          unfold get2
          rw [resume_tree hr]
      · rw [if_neg c] at h
        cases h
        rw [simples_get h1, h3]

theorem run_get {m : Omap K V} {ops : List (Op K V)} {r} (hi : Inv m) (h : run m ops = some r) :
    get2 r.1 = r.2.foldl spec (get2 m) := by
  induction ops generalizing m r with
  | nil => cases h; rfl
  | cons o ops ih =>
    cases o with
    | simple s =>
      simp only [run] at h
      cases hr : run (simple m s) ops with
      | none => rw [hr] at h; cases h
      | some q => rw [hr] at h; cases h; simp only [List.foldl_cons]; rw [ih (r := q) (inv_simple hi s) hr, simple_get hi]
    | loop body fuel =>
      simp only [run] at h
      cases hl : loop body fuel m with
      | none => rw [hl] at h; cases h
      | some l =>
        rw [hl] at h
        simp only [Option.bind_some] at h
        cases hr : run l.1 ops with
        | none => rw [hr] at h; cases h
        | some q =>
          rw [hr] at h; cases h
          simp only [List.foldl_append]
          rw [ih (r := q) (loopFrom_ok (fun _ _ _ hs => start_ok hi hs) hl) hr]
          congr 1
          refine loopFrom_get (fun m' it' out hs => ?_) hl
          obtain ⟨g1, g2⟩ := start_ok hi hs
          exact ⟨g1, g2, by unfold get2; rw [start_tree hs]⟩

/-! ### Loops that delete the element visited, or nothing -/

/-- The element visited is deleted or not. -/
theorem deleting_step {p : Nat → Bool} {n : Nat} {m : Omap K V} {A B : List (K × V)} {x : K × V}
    (hs : Sorted (A ++ x :: B)) (ht : m.tree = A ++ x :: B) :
    ∃ A', (((deleting p n x.1 x.2).1).foldl simple m).tree = A' ++ B ∧ Sorted (A' ++ B) ∧
      (if p n then A' = A ∧ (((deleting p n x.1 x.2).1).foldl simple m).version = m.version + 1
       else A' = A ++ [x] ∧ ((deleting p n x.1 x.2).1).foldl simple m = m) := by
  unfold deleting
  cases hp : p n with
  | false =>
    refine ⟨A ++ [x], ?_, ?_, ?_⟩
    · simp [ht]
    · simpa using hs
    · simp
  | true =>
    refine ⟨A, ?_, (sorted_split hs).2.2, ?_⟩
    · simp only [if_true, List.foldl_cons, List.foldl_nil, simple, del]
      rw [ht, find_split hs]
      exact erase_split hs
    · simp only [if_true, List.foldl_cons, List.foldl_nil, simple, del]
      rw [ht, find_split hs]
      exact ⟨trivial, rfl⟩

theorem slow_loop {p : Nat → Bool} {fuel n : Nat} {m : Omap K V} {A B : List (K × V)}
    (hs : Sorted (A ++ B)) (ht : m.tree = A ++ B) (hf : B.length ≤ fuel) :
    ∃ m' ops, loopFrom (deleting p) fuel n (slowHead m (minIt B)) = some (m', B, ops) ∧
      m'.tree = A ++ kept p n B := by
  induction B generalizing fuel n m A with
  | nil =>
    refine ⟨m, [], ?_, ?_⟩
    · cases fuel <;> rfl
    · simpa [kept] using ht
  | cons x B ih =>
    cases fuel with
    | zero => simp at hf
    | succ fuel =>
      have e : slowHead m (minIt (x :: B)) = some (m, .slow (minIt B), some x) := by
        rw [minIt_cons]; simp only [slowHead]; rw [ht, find_split hs, nextIt_split hs]; rfl
      rw [e]
      obtain ⟨A', h1, h2, h3⟩ := deleting_step (p := p) (n := n) hs ht
      obtain ⟨m', ops, h4, h5⟩ := ih (n := n + 1) (fuel := fuel) h2 h1 (by simp at hf; omega)
      refine ⟨m', (deleting p n x.1 x.2).1 ++ ops, ?_, ?_⟩
      · simp only [loopFrom]
        rw [if_pos (by rfl)]
        simp only [resume]
        rw [h4]; rfl
      · rw [h5]
        simp only [kept]
        cases hp : p n <;> rw [hp] at h3 <;> simp at h3 <;> simp [h3.1]

theorem fill_loop {p : Nat → Bool} {fuel n : Nat} {m : Omap K V} {A B : List (K × V)} {vers : Nat} {good : Bool}
    (hs : Sorted (A ++ B)) (ht : m.tree = A ++ B) (hf : B.length ≤ fuel) :
    ∃ m' ops, loopFrom (deleting p) fuel n (fillHead m (minIt B) vers good) = some (m', B, ops) ∧
      m'.tree = A ++ kept p n B := by
  induction B generalizing fuel n m A good with
  | nil =>
    refine ⟨m, [], ?_, ?_⟩
    · cases fuel <;> rfl
    · simpa [kept] using ht
  | cons x B ih =>
    cases fuel with
    | zero => simp at hf
    | succ fuel =>
      obtain ⟨m1, e, ht1⟩ : ∃ m1, fillHead m (minIt (x :: B)) vers good = some (m1, .fill (minIt B) vers good, some x) ∧
          m1.tree = m.tree := by
        refine ⟨if good then { m with cache := m.cache ++ [x] } else m, ?_, by cases good <;> rfl⟩
        rw [minIt_cons]; simp only [fillHead]; rw [ht, find_split hs, nextIt_split hs]; rfl
      rw [e]
      obtain ⟨A', h1, h2, h3⟩ := deleting_step (p := p) (n := n) hs (ht1.trans ht)
      have key : ∃ m' ops, loopFrom (deleting p) fuel (n + 1)
          (resume (((deleting p n x.1 x.2).1).foldl simple m1) (.fill (minIt B) vers good)) = some (m', B, ops) ∧
          m'.tree = A' ++ kept p (n + 1) B := by
        simp only [resume]
        by_cases c : (((deleting p n x.1 x.2).1).foldl simple m1).version ≠ vers
        · rw [if_pos c]; exact ih h2 h1 (by simp at hf; omega)
        · rw [if_neg c]; exact ih h2 h1 (by simp at hf; omega)
      obtain ⟨m', ops, h4, h5⟩ := key
      refine ⟨m', (deleting p n x.1 x.2).1 ++ ops, ?_, ?_⟩
      · simp only [loopFrom]
        rw [if_pos (by rfl), h4]; rfl
      · rw [h5]
        simp only [kept]
        cases hp : p n <;> rw [hp] at h3 <;> simp at h3 <;> simp [h3.1]

/-- The loop over the cache: while nothing is deleted it goes on; at the first deletion it goes
over to the tree, or ends there if it takes the element for the last. -/
theorem cached_loop {p : Nat → Bool} {fuel n : Nat} {m : Omap K V} {A B : List (K × V)}
    (hs : Sorted (A ++ B)) (ht : m.tree = A ++ B) (hf : B.length ≤ fuel) (hA : A.length = n)
    (hno : ∀ j, j < n → p j = false) :
    (∀ (_ : ∀ j, n ≤ j → j + 2 = n + B.length → p j = true → ∃ i, i < j ∧ p i = true),
      ∃ m' ops, loopFrom (deleting p) fuel n (cachedHead m B n (minIt B) m.version) = some (m', B, ops) ∧
        m'.tree = A ++ kept p n B) ∧
    (∀ j, n ≤ j → j + 2 = n + B.length → p j = true → (∀ i, i < j → p i = false) →
      ∃ m' ops, loopFrom (deleting p) fuel n (cachedHead m B n (minIt B) m.version) = some (m', B.dropLast, ops)) := by
  induction B generalizing fuel n m A with
  | nil =>
    refine ⟨fun _ => ⟨m, [], ?_, ?_⟩, fun j h1 h2 => by simp at h2; omega⟩
    · cases fuel <;> rfl
    · simpa [kept] using ht
  | cons x B ih =>
    cases fuel with
    | zero => simp at hf
    | succ fuel =>
      simp only [List.length_cons] at hf
      have e : cachedHead m (x :: B) n (minIt (x :: B)) m.version = some (m, .cached B n (minIt B) m.version, some x) := by
        rw [minIt_cons]; simp only [cachedHead]; rw [ht, nextIt_split hs]; rfl
      rw [e]
      obtain ⟨A', h1, h2, h3⟩ := deleting_step (p := p) (n := n) hs ht
      simp only [loopFrom]
      rw [if_pos (by rfl)]
      cases hp : p n with
      | false =>
        rw [hp] at h3
        simp only [Bool.false_eq_true, if_false] at h3
        obtain ⟨h3, h4⟩ := h3
        have hr : resume (((deleting p n x.1 x.2).1).foldl simple m) (.cached B n (minIt B) m.version) =
            cachedHead m B (n + 1) (minIt B) m.version := by
          rw [h4]; simp only [resume]; rw [if_pos trivial]
        rw [hr]
        have ih' := ih (fuel := fuel) (n := n + 1) (m := m) (A := A ++ [x]) (by simpa using hs) (by simpa using ht)
          (by omega) (by simp [hA]) (by intro j hj; by_cases c : j = n; (· rw [c]; exact hp); (· exact hno j (by omega)))
        refine ⟨fun hyp => ?_, fun j hj1 hj2 hj3 hj4 => ?_⟩
        · obtain ⟨m', ops, g1, g2⟩ := ih'.1 (fun j h1 h2 h3 => hyp j (by omega) (by simp; omega) h3)
          refine ⟨m', (deleting p n x.1 x.2).1 ++ ops, ?_, ?_⟩
          · rw [g1]; rfl
          · rw [g2]; simp [kept, hp]
        · have hne : j ≠ n := fun e => by rw [e] at hj3; rw [hp] at hj3; cases hj3
          simp only [List.length_cons] at hj2
          obtain ⟨m', ops, g1⟩ := ih'.2 j (by omega) (by omega) hj3 hj4
          refine ⟨m', (deleting p n x.1 x.2).1 ++ ops, ?_⟩
          rw [g1]
          cases B with
          | nil => simp at hj2; omega
          | cons y B => rfl
      | true =>
        rw [hp] at h3
        simp only [if_true] at h3
        obtain ⟨h3, h4⟩ := h3
        have hr : resume (((deleting p n x.1 x.2).1).foldl simple m) (.cached B n (minIt B) m.version) =
            if A'.length + B.length ≤ n + 1 then some (((deleting p n x.1 x.2).1).foldl simple m, .done, none)
            else slowHead (((deleting p n x.1 x.2).1).foldl simple m) (minIt B) := by
          simp only [resume]; rw [if_neg (by omega), h1, List.length_append]
        rw [hr, h3, hA]
        refine ⟨fun hyp => ?_, fun j hj1 hj2 hj3 hj4 => ?_⟩
        · by_cases c : n + B.length ≤ n + 1
          · rw [if_pos c]
            cases B with
            | nil =>
              refine ⟨((deleting p n x.1 x.2).1).foldl simple m, (deleting p n x.1 x.2).1, ?_, ?_⟩
              · cases fuel <;> simp [loopFrom]
              · rw [h1, h3]; simp [kept, hp]
            | cons y B =>
              cases B with
              | nil =>
                obtain ⟨i, hi1, hi2⟩ := hyp n (Nat.le_refl _) (by simp) hp
                rw [hno i hi1] at hi2; cases hi2
              | cons z B => simp at c
          · rw [if_neg c]
            obtain ⟨m', ops, g1, g2⟩ := slow_loop (p := p) (n := n + 1) (fuel := fuel) h2 h1 (by omega)
            refine ⟨m', (deleting p n x.1 x.2).1 ++ ops, ?_, ?_⟩
            · rw [g1]; rfl
            · rw [g2, h3]; simp [kept, hp]
        · have hjn : j = n := by
            rcases Nat.lt_or_ge n j with c | c
            · have := hj4 n c; rw [hp] at this; cases this
            · omega
          simp only [List.length_cons] at hj2
          have hB : B.length = 1 := by omega
          rw [if_pos (by omega)]
          match B, hB with
          | [y], _ =>
            refine ⟨((deleting p n x.1 x.2).1).foldl simple m, (deleting p n x.1 x.2).1, ?_⟩
            cases fuel <;> simp [loopFrom]

end Verif.Omap
