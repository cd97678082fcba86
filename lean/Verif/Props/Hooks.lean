import Verif.Proofs.Hooks
import Verif.Props.Omap
import Verif.Props.Art

/-!
# C68: what the hooks save, they load

Together with C66, which has the encoding of the fields the hooks fill.
-/

namespace Verif.Hooks

open Omap

variable {K V : Type} [KeyOrder K] [DecidableEq K]

/-! ### Membership -/

/-- C68, membership lists: save a list of members and load it again: the same
names in the same order with the same details, if each detail is under its own
name. -/
theorem C68_members_come_back (name : V → K) (m : Omap K V) (h : Reached m)
    (hname : ∀ k d, get2 m k = some d → name d = k) :
    (cached (membersLoad name (membersSave m).2)).2 = (cached m).2 ∧
    get2 (membersLoad name (membersSave m).2) = get2 m := by
  have hi := reached_inv h
  have e : membersLoad name (membersSave m).2 = entriesLoad m.tree := by
    unfold membersLoad membersSave entriesLoad
    rw [cached_list hi, List.foldl_map]
    have : ∀ (l : List (K × V)) (a : Omap K V), (∀ x ∈ l, name x.2 = x.1) →
        l.foldl (fun m x => (set m (name x.2) x.2).1) a = l.foldl (fun m x => (set m x.1 x.2).1) a := by
      intro l
      induction l with
      | nil => intros; rfl
      | cons x l ih =>
        intro a hl
        simp only [List.foldl_cons]
        rw [hl x (by simp)]
        exact ih _ fun y hy => hl y (by simp [hy])
    exact this _ _ fun x hx => hname x.1 x.2 (mem_find hi.sorted hx)
  obtain ⟨h1, h2⟩ := entriesLoad_perm hi.sorted (List.Perm.refl m.tree)
  rw [e]
  refine ⟨by rw [cached_list h1, cached_list hi, h2], ?_⟩
  funext k
  unfold get2
  rw [h2]

/-- A membership of two, with each detail a pair of its name and a port. -/
example : ∃ m : Omap Nat (Nat × Nat), Reached m ∧ (∀ k d, get2 m k = some d → d.1 = k) ∧
    (cached m).2 = [(3, (3, 80)), (5, (5, 90))] := by
  refine ⟨_, ⟨[.simple (.set 5 (5, 90)), .simple (.set 3 (3, 80))], _, rfl⟩, ?_, by decide⟩
  intro k d h
  have := find_some_mem h
  simp [simple, Omap.set, Omap.insert] at this
  rcases this with ⟨rfl, rfl⟩ | ⟨rfl, rfl⟩ <;> rfl

/-- Without that condition, C68 fails: a detail that is under another name moves
to its own name and replaces the one there. -/
theorem C68_misfiled_member_lost_counterexample :
    ∃ m : Omap Nat (Nat × Nat), Reached m ∧ get2 m 3 = some (3, 80) ∧ get2 m 5 = some (3, 90) ∧
      (cached (membersLoad (·.1) (membersSave m).2)).2 = [(3, (3, 90))] :=
  ⟨_, ⟨[.simple (.set 5 (3, 90)), .simple (.set 3 (3, 80))], _, rfl⟩, by decide, by decide, by decide⟩

/-! ### Sessions and clusters -/

/-- C68, the session table and external clusters: save and load, whatever order
Go visits the decoded map in: the same keys in the same order, the same values. -/
theorem C68_entries_come_back (m : Omap K V) (h : Reached m) (serz : List (K × V))
    (hp : serz.Perm (entriesSave m).2) :
    (cached (entriesLoad serz)).2 = (cached m).2 ∧ get2 (entriesLoad serz) = get2 m := by
  have hi := reached_inv h
  unfold entriesSave at hp
  rw [cached_list hi] at hp
  obtain ⟨h1, h2⟩ := entriesLoad_perm hi.sorted hp
  refine ⟨by rw [cached_list h1, cached_list hi, h2], ?_⟩
  funext k
  unfold get2
  rw [h2]

example : ∃ m : Omap Nat Nat, Reached m ∧ [(9, 1), (4, 2)].Perm (entriesSave m).2 :=
  ⟨_, ⟨[.simple (.set 9 1), .simple (.set 4 2)], _, rfl⟩, by decide⟩

/-- C68, the session table's index by ticket: after loading, a ticket is found
by its ID if and only if it is in the saved table, given that IDs differ. -/
theorem C68_ticket_index_rebuilt {I : Type} [DecidableEq I] (id : V → I) (m : Omap K V) (h : Reached m)
    (hid : ∀ k k' v v', get2 m k = some v → get2 m k' = some v' → id v = id v' → k = k')
    (serz : List (K × V)) (hp : serz.Perm (entriesSave m).2) (i : I) (v : V) :
    ticketIndex id serz i = some v ↔ id v = i ∧ ∃ k, get2 m k = some v := by
  have hi := reached_inv h
  unfold entriesSave at hp
  rw [cached_list hi] at hp
  have hn : (serz.map fun x => id x.2).Nodup := by
    refine (hp.map _).nodup_iff.2 ?_
    rw [List.Nodup, List.pairwise_map]
    refine List.Pairwise.imp_of_mem ?_ hi.sorted
    intro a b ha hb hlt he
    have := hid a.1 b.1 a.2 b.2 (mem_find hi.sorted ha) (mem_find hi.sorted hb) he
    exact lt_ne hlt this
  unfold ticketIndex
  rw [ticketIndex_find id serz _ hn i v]
  simp only [reduceCtorEq, and_false, or_false]
  constructor
  · rintro ⟨k, hk, he⟩
    exact ⟨he, k, mem_find hi.sorted (hp.mem_iff.1 hk)⟩
  · rintro ⟨he, k, hk⟩
    exact ⟨k, hp.mem_iff.2 (find_some_mem hk), he⟩

/-- Tickets with a serial number each; the ID is the serial number and 100. -/
example : ∃ m : Omap Nat Nat, Reached m ∧
    (∀ k k' v v', get2 m k = some v → get2 m k' = some v' → v + 100 = v' + 100 → k = k') ∧
    [(9, 1), (4, 2)].Perm (entriesSave m).2 := by
  refine ⟨_, ⟨[.simple (.set 9 1), .simple (.set 4 2)], _, rfl⟩, ?_, by decide⟩
  intro k k' v v' h1 h2 he
  have e1 := find_some_mem h1
  have e2 := find_some_mem h2
  simp [simple, Omap.set, Omap.insert] at e1 e2
  omega

/-! ### Tables -/

omit [KeyOrder K] in
/-- C68, the tables of the key-value store: save and load into a fresh store, in
whatever order Go visits the map: each table under its name, and no others. -/
theorem C68_tables_come_back (m : K → Option V) (pairs : List (K × V))
    (hn : (pairs.map (·.1)).Nodup) (hm : ∀ k v, (k, v) ∈ pairs ↔ m k = some v) :
    storeLoad (fun _ => none) (storeSave pairs).1 (storeSave pairs).2 = some m := by
  obtain ⟨m', h1, h2⟩ := storeLoad_pairs pairs (fun _ => none) hn
  rw [h1]
  congr 1
  funext k
  cases hk : m k with
  | some v => exact (h2 k v).2 (Or.inl ((hm k v).2 hk))
  | none =>
    cases hk' : m' k with
    | none => rfl
    | some v =>
      rcases (h2 k v).1 hk' with h | ⟨-, h⟩
      · rw [(hm k v).1 h] at hk; cases hk
      · cases h

example : ∃ (m : Nat → Option Nat) (pairs : List (Nat × Nat)), (pairs.map (·.1)).Nodup ∧
    pairs.length = 2 ∧ ∀ k v, (k, v) ∈ pairs ↔ m k = some v := by
  refine ⟨fun k => if k = 7 then some 1 else if k = 2 then some 4 else none, [(7, 1), (2, 4)], by decide, rfl, ?_⟩
  intro k v
  simp only [List.mem_cons, Prod.mk.injEq, List.not_mem_nil, or_false]
  by_cases h1 : k = 7
  · subst h1; simp; exact eq_comm
  · by_cases h2 : k = 2
    · subst h2; simp; exact eq_comm
    · simp [h1, h2]

/-- Into a store that is not fresh: a table that was not saved is still there,
though it is not in what was saved. -/
theorem C68_tables_merge_counterexample :
    (storeLoad (fun k : Nat => if k = 1 then some 10 else none) (storeSave [(2, 20)]).1 (storeSave [(2, 20)]).2).map
      (fun m => (m 1, m 2)) = some (some 10, some 20) := by decide

/-! ### The tree -/

open Art (Separate ZeroExt contents)

/-- C68, the tree of a table: after any inserts and removals as in C36, saving
does not panic and gives the keys in ascending order with their values; loading
that into a new tree does not panic, and the new tree is one that inserts have
made, with the same map as its contents: by C36, it answers every call like the
saved one.  Partial because C36 is: keys that others extend by a zero byte. -/
theorem C68_tree_comes_back_partial (ops : List (Art.Op V)) (h : Separate ops) :
    ∃ t leaves t' ops', Art.run ops = some t ∧ treeSave t = some leaves ∧ Art.Lists leaves (contents ops) ∧
      treeLoad {} leaves = some t' ∧ Art.run ops' = some t' ∧ Separate ops' ∧
      contents ops' = contents ops ∧ t'.size = t.size := by
  obtain ⟨t, l, h1, h2, h3⟩ := Art.C36_full_iteration_partial ops h
  obtain ⟨t0, g1, g2, -⟩ := Art.C36_tree_is_the_map_partial ops h
  rw [h1] at g1
  cases g1
  have hd := (h3 (t.size + 1) (by omega)).1
  have hirr : ∀ k : Art.Key, ¬ k < k := fun k => List.lt_irrefl k
  have hn : (l.map (·.1)).Nodup := by
    rw [List.Nodup, List.pairwise_map]
    refine h2.1.imp ?_
    intro a b hlt he
    rw [he] at hlt
    exact hirr _ hlt
  have hlen : l.length = t.size := by
    obtain ⟨ks, k1, k2, k3⟩ := g2
    rw [← k3, ← List.length_map (f := (·.1)) (as := l)]
    refine List.Perm.length_eq ((List.perm_ext_iff_of_nodup hn k1).2 fun a => ?_)
    rw [k2 a, List.mem_map]
    constructor
    · rintro ⟨⟨k, v⟩, hm, rfl⟩
      rw [(h2.2 k v).1 hm]; simp
    · intro ha
      cases hv : contents ops a with
      | none => exact absurd hv ha
      | some v => exact ⟨(a, v), (h2.2 a v).2 hv, rfl⟩
  have hsep : Separate ((l.map fun e => Art.Op.insert e.1 e.2).reverse) := by
    refine inserts_separate l hn fun a ha b hb hab => ?_
    refine contents_apart ops h a.1 b.1 hab ?_ ?_
    · rw [(h2.2 a.1 a.2).1 ha]; simp
    · rw [(h2.2 b.1 b.2).1 hb]; simp
  have hcon : contents ((l.map fun e => Art.Op.insert e.1 e.2).reverse) = contents ops := by
    funext k
    cases hk : contents ops k with
    | some v => exact (inserts_contents l hn k v).2 ((h2.2 k v).2 hk)
    | none =>
      cases hk' : contents ((l.map fun e => Art.Op.insert e.1 e.2).reverse) k with
      | none => rfl
      | some v =>
        rw [(h2.2 k v).1 ((inserts_contents l hn k v).1 hk')] at hk
        cases hk
  obtain ⟨t', e1, e2, -⟩ := Art.C36_tree_is_the_map_partial _ hsep
  refine ⟨t, l, t', _, h1, ?_, h2, ?_, e1, hsep, hcon, ?_⟩
  · simp only [treeSave, hd, hlen, if_true]
  · rw [treeLoad_run l [] {} rfl, List.append_nil, e1]
  · rw [hcon] at e2
    obtain ⟨ks, k1, k2, k3⟩ := g2
    obtain ⟨ks', k1', k2', k3'⟩ := e2
    rw [← k3, ← k3']
    exact List.Perm.length_eq ((List.perm_ext_iff_of_nodup k1' k1).2 fun a => by rw [k2 a, k2' a])

/-- The tree of C36's sample, saved and loaded. -/
example : ((Art.run Art.sample).bind treeSave).isSome = true ∧
    (((Art.run Art.sample).bind treeSave).bind (treeLoad {})).map (fun t => t.drain 9 (t.iter [] [])) =
      some [([], 1), ([117, 50], 4), ([122, 101], 5)] := by decide +kernel

/-- The full C68 for trees fails: a tree that holds a key and its extension by a
zero byte panics when it is saved or loaded. -/
theorem C68_zero_byte_tree_counterexample :
    let ops : List (Art.Op Nat) := [.insert [97] 4, .insert [100] 3, .insert [97, 0, 99] 2, .insert [97, 0, 98] 1]
    (Art.run ops).isSome = true ∧ ((Art.run ops).bind treeSave).bind (treeLoad {}) = none := ⟨rfl, rfl⟩

/-! ### The error of a ticket -/

/-- C68, the error of a ticket: a new ticket's error text arrives, and no error
arrives as none, provided the text is not empty. -/
theorem C68_ticket_error_text_arrives_partial (e : Option (List UInt8)) (he : e ≠ some []) :
    (TicketErr.transfer { err := e }).err = e := by
  cases e with
  | none => rfl
  | some x =>
    have : x ≠ [] := fun h => he (by rw [h])
    simp [TicketErr.transfer, TicketErr.preSave, TicketErr.postLoad, this]

example : some [110, 111] ≠ some ([] : List UInt8) := by decide

/-- An error with an empty text is lost. -/
theorem C68_empty_error_lost_counterexample : (TicketErr.transfer { err := some [] }).err = none := by decide

/-- A ticket that arrived with an error and whose error is then taken back
arrives with the old error at the next process: `Errs` is never cleared. -/
theorem C68_old_error_returns_counterexample :
    (TicketErr.transfer { (TicketErr.transfer { err := some [110, 111] }) with err := none }).err =
      some [110, 111] := by decide

end Verif.Hooks
