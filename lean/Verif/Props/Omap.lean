import Verif.Proofs.Omap
/- C34, C35: the ordered map. -/
namespace Verif.Omap
variable {K V : Type} [KeyOrder K] [DecidableEq K]

/-! ## C34 -/

/-- Lookups answer like a finite map, after any program. -/
theorem C34_lookup (ops : List (Op K V)) (m : Omap K V) (done : List (Simple K V))
    (h : run {} ops = some (m, done)) (k : K) : get2 m k = finiteMap done k := by
  have := run_get inv_new h
  rw [this]; rfl

/-- Set says whether the key is new, Delkey whether it was there. -/
theorem C34_answers (m : Omap K V) (k : K) (v : V) :
    ((set m k v).2 = true ↔ get2 m k = none) ∧ ((del m k).2 = true ↔ ∃ v, get2 m k = some v) := by
  refine ⟨by simp [set, get2], ?_⟩
  unfold del get2
  cases find m.tree k <;> simp

theorem inv_lists {m : Omap K V} (h : Inv m) : Lists (get2 m) m.tree := ⟨h.sorted, fun _ _ => find_iff h.sorted⟩

/-- C34, partial: iterating over a map visits each of its keys exactly once in ascending order with
its value, and changes no lookup. Missing: maps that were iterated by a loop inside another loop
(`C34_nested_counterexample`). -/
theorem C34_iteration_partial (m : Omap K V) (h : Reached m) (fuel : Nat) (hf : m.tree.length ≤ fuel) :
    ∃ m' visited, loop (fun _ _ _ => ([], true)) fuel m = some (m', visited, []) ∧
      Lists (get2 m) visited ∧ get2 m' = get2 m := by
  obtain ⟨ops, done, hr⟩ := h
  have hi : Inv m := run_ok inv_new hr
  have key : ∃ m' ops, loop (deleting fun _ => false) fuel m = some (m', m.tree, ops) ∧
      m'.tree = kept (fun _ => false) 0 m.tree := by
    unfold loop start
    split
    · rename_i hc
      rw [hi.valid hc.1 hc.2]
      exact (cached_loop (A := []) hi.sorted rfl hf rfl (by intros; rfl)).1 (by intro j _ _ h; cases h)
    · exact fill_loop (A := []) (n := 0) hi.sorted rfl hf
  obtain ⟨m', ops', h1, h2⟩ := key
  have e : (deleting (fun _ => false) : Body K V) = fun _ _ _ => ([], true) := rfl
  rw [e] at h1
  have hk : ∀ (n : Nat) (l : List (K × V)), kept (fun _ => false) n l = l := by
    intro n l
    induction l generalizing n with
    | nil => rfl
    | cons x l ih => simp [kept, ih]
  have h3 : ∀ fuel n (p : Piece K V) r, loopFrom (fun _ _ _ => ([], true)) fuel n p = some r → r.2.2 = [] := by
    intro fuel
    induction fuel with
    | zero =>
      intro n p r hp
      match p, hp with
      | some (m, it, none), hp => cases hp; rfl
    | succ fuel ih =>
      intro n p r hp
      match p, hp with
      | some (m, it, none), hp => cases hp; rfl
      | some (m, it, some x), hp =>
        simp only [loopFrom, if_true, List.foldl_nil] at hp
        cases hl : loopFrom (fun _ _ _ => ([], true)) fuel (n + 1) (resume m it) with
        | none => rw [hl] at hp; cases hp
        | some q => rw [hl] at hp; cases hp; simpa using ih _ _ _ hl
  have h4 := h3 _ _ _ _ h1
  simp only at h4
  subst h4
  refine ⟨m', m.tree, h1, inv_lists hi, ?_⟩
  unfold get2
  rw [h2, hk]

/-- C34, partial: the same for the slice handed out by Cached. -/
theorem C34_cached_partial (m : Omap K V) (h : Reached m) : Lists (get2 m) (cached m).2 := by
  obtain ⟨ops, done, hr⟩ := h
  have hi : Inv m := run_ok inv_new hr
  unfold cached
  split
  · rename_i hc
    simp only
    rw [hi.valid hc.1 hc.2]; exact inv_lists hi
  · exact inv_lists hi

/-- Three keys set out of order, one of them deleted in a loop that stops early, one set again. -/
def sampleOps : List (Op Nat Nat) :=
  [.simple (.set 3 30), .simple (.set 1 10), .simple (.set 2 20), .simple (.set 4 40),
   .loop (fun n k _ => if n = 1 then ([.del k], false) else ([], true)) 9, .simple (.set 3 31)]

def sampleMap : Omap Nat Nat := ((run {} sampleOps).getD ({}, [])).1

theorem sample_reached : Reached sampleMap := ⟨sampleOps, ((run {} sampleOps).getD ({}, [])).2, rfl⟩
example : sampleMap.tree = [(1, 10), (3, 31), (4, 40)] := by decide
example : ∃ m' visited, loop (fun _ _ _ => ([], true)) 3 sampleMap = some (m', visited, []) ∧
    Lists (get2 sampleMap) visited ∧ get2 m' = get2 sampleMap :=
  C34_iteration_partial sampleMap sample_reached 3 (by decide)

/-- The map with keys 0, 1, 2, not yet iterated. -/
def three : Omap Nat Nat := [.set 0 0, .set 1 1, .set 2 2].foldl simple {}

/-- A loop A over three keys; at its first element a loop B visits two and stops; A goes on to its
second element and stops. -/
def nested : Omap Nat Nat :=
  let a := (start three).getD ({}, .done, none)
  let b := (start a.1).getD ({}, .done, none)
  let b := (resume b.1 b.2.1).getD ({}, .done, none)
  let a := (resume b.1 a.2.1).getD ({}, .done, none)
  a.1

/-- C34 fails for loops inside loops: after two nested loops that stop early, with no change to the
map, an iteration visits key 1 twice and key 2 never. -/
theorem C34_nested_counterexample :
    (loop (fun _ _ _ => ([], true)) 9 nested).map (·.2.1) = some [(0, 0), (1, 1), (1, 1)] ∧
    get2 nested 2 = some 2 := by decide

/-! ## C35 -/

/-- C35 for a map whose iteration cache is not valid (the first iteration after a change): the loop
visits every element, whichever of them its body deletes, and what is left are the others. -/
theorem C35_uncached_partial (m : Omap K V) (h : Reached m) (hc : ¬ (m.cache.length = m.tree.length ∧ m.cacheVer = m.version))
    (p : Nat → Bool) (fuel : Nat) (hf : m.tree.length ≤ fuel) :
    ∃ m' visited ops, loop (deleting p) fuel m = some (m', visited, ops) ∧ Lists (get2 m) visited ∧
      m'.tree = kept p 0 visited := by
  obtain ⟨ops, done, hr⟩ := h
  have hi : Inv m := run_ok inv_new hr
  obtain ⟨m', ops', h1, h2⟩ := fill_loop (p := p) (n := 0) (fuel := fuel) (A := [])
    (m := { m with cache := [], cacheVer := m.version }) (B := m.tree) (vers := m.version) (good := true) hi.sorted rfl hf
  refine ⟨m', m.tree, ops', ?_, inv_lists hi, h2⟩
  unfold loop start
  rw [if_neg hc]
  exact h1

/-- C35 for any map, provided the first element deleted is not the last but one. Missing: that
case, on a map whose iteration cache is valid (`C35_last_but_one`). -/
theorem C35_cached_partial (m : Omap K V) (h : Reached m) (p : Nat → Bool) (fuel : Nat) (hf : m.tree.length ≤ fuel)
    (hp : ∀ j, j + 2 = m.tree.length → p j = true → ∃ i, i < j ∧ p i = true) :
    ∃ m' visited ops, loop (deleting p) fuel m = some (m', visited, ops) ∧ Lists (get2 m) visited ∧
      m'.tree = kept p 0 visited := by
  by_cases hc : m.cache.length = m.tree.length ∧ m.cacheVer = m.version
  · obtain ⟨ops, done, hr⟩ := h
    have hi : Inv m := run_ok inv_new hr
    obtain ⟨m', ops', h1, h2⟩ := (cached_loop (p := p) (n := 0) (fuel := fuel) (A := []) (m := m) (B := m.tree)
      hi.sorted rfl hf rfl (by intro j hj; omega)).1 (by intro j _ h1; exact hp j (by omega))
    refine ⟨m', m.tree, ops', ?_, inv_lists hi, h2⟩
    unfold loop start
    rw [if_pos hc, hi.valid hc.1 hc.2]
    exact h1
  · exact C35_uncached_partial m h hc p fuel hf

/-- C35 fails in exactly the case left out: on a map with a valid iteration cache, if the first
element deleted is the last but one, the last element is not visited. -/
theorem C35_last_but_one (m : Omap K V) (h : Reached m) (hc : m.cache.length = m.tree.length ∧ m.cacheVer = m.version)
    (p : Nat → Bool) (fuel : Nat) (hf : m.tree.length ≤ fuel) (j : Nat) (hj : j + 2 = m.tree.length)
    (hp : p j = true) (hfirst : ∀ i, i < j → p i = false) :
    ∃ m' visited ops last, loop (deleting p) fuel m = some (m', visited, ops) ∧
      Lists (get2 m) (visited ++ [last]) := by
  obtain ⟨ops, done, hr⟩ := h
  have hi : Inv m := run_ok inv_new hr
  obtain ⟨m', ops', h1⟩ := (cached_loop (p := p) (n := 0) (fuel := fuel) (A := []) (m := m) (B := m.tree)
    hi.sorted rfl hf rfl (by intro j hj; omega)).2 j (Nat.zero_le _) (by omega) hp hfirst
  have hne : m.tree ≠ [] := by intro e; rw [e] at hj; simp at hj
  refine ⟨m', m.tree.dropLast, ops', m.tree.getLast hne, ?_, ?_⟩
  · unfold loop start
    rw [if_pos hc, hi.valid hc.1 hc.2]
    exact h1
  · rw [List.dropLast_concat_getLast]; exact inv_lists hi

/-- The map of three keys after one iteration: the cache is valid. -/
def threeIterated : Omap Nat Nat := ((loop (fun _ _ _ => ([], true)) 3 three).getD ({}, [], [])).1

def threeOps : List (Op Nat Nat) :=
  [.simple (.set 0 0), .simple (.set 1 1), .simple (.set 2 2), .loop (fun _ _ _ => ([], true)) 3]
theorem threeIterated_reached : Reached threeIterated := ⟨threeOps, ((run {} threeOps).getD ({}, [])).2, rfl⟩
theorem three_reached : Reached three := ⟨threeOps.take 3, ((run {} (threeOps.take 3)).getD ({}, [])).2, rfl⟩

/-- Deleting the second of three keys: the third is not visited. -/
theorem C35_counterexample :
    (loop (deleting fun n => n == 1) 9 threeIterated).map (·.2.1) = some [(0, 0), (1, 1)] ∧
    get2 threeIterated 2 = some 2 := by decide

example : ∃ m' visited ops, loop (deleting fun n => n == 1) 9 three = some (m', visited, ops) ∧
    Lists (get2 three) visited ∧ m'.tree = kept (fun n => n == 1) 0 visited :=
  C35_uncached_partial three three_reached (by decide) _ 9 (by decide)
example : ∃ m' visited ops, loop (deleting fun n => n == 0 || n == 1) 9 threeIterated = some (m', visited, ops) ∧
    Lists (get2 threeIterated) visited ∧ m'.tree = kept (fun n => n == 0 || n == 1) 0 visited :=
  C35_cached_partial threeIterated threeIterated_reached _ 9 (by decide)
    (by intro j hj _; exact ⟨0, by have : threeIterated.tree.length = 3 := by decide
                                   omega, rfl⟩)
example : ∃ m' visited ops last, loop (deleting fun n => n == 1) 9 threeIterated = some (m', visited, ops) ∧
    Lists (get2 threeIterated) (visited ++ [last]) :=
  C35_last_but_one threeIterated threeIterated_reached (by decide) _ 9 (by decide) 1 (by decide) (by decide) (by decide)

end Verif.Omap
