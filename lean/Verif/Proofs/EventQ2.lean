import Verif.Proofs.EventQ
/-
The order within a slice does not depend on numbers or on the order of submission: C130.
-/
namespace Verif.EventQ

/-- An event without its number. -/
def erase (e : Ev) : Ev := { e with sn := 0 }

/-- Alike in all the fields that the comparisons have in common. -/
def Alike (a b : Ev) : Prop :=
  a.tm = b.tm ∧ a.kind = b.kind ∧ a.origin.isSome = b.origin.isSome ∧ chomp a.bestName = chomp b.bestName ∧
  a.target.map chomp = b.target.map chomp ∧ a.whence = b.whence ∧ a.originCli = b.originCli

theorem cmpStr_eq : ∀ {a b : List Nat}, cmpStr a b = .eq → a = b
  | [], [], _ => rfl
  | [], _ :: _, h => nomatch h
  | _ :: _, [], h => nomatch h
  | x :: a, y :: b, h => by
    have h' : (cmpNat x y).then (cmpStr a b) = .eq := h
    rw [cmpNat_eq.1 (then_eq h').1, cmpStr_eq (then_eq h').2]

theorem cmpNil_eq {a b : Option (List Nat)} (h : cmpNil a b = .eq) : a.isSome = b.isSome := by
  cases a <;> cases b <;> first | rfl | cases h

theorem alike_of_cmp {a b : Ev} (ha : a.tm ≠ none) (hb : b.tm ≠ none) (h1 : cmpTm a b = .eq) (h2 : cmpWhat a b = .eq) :
    Alike a b := by
  have hk := what_kind h2
  rw [cmpWhat_eqK] at h2
  unfold cmpWhatK at h2
  obtain ⟨_, h2⟩ := then_eq h2
  obtain ⟨k1, h2⟩ := then_eq h2
  obtain ⟨k2, h2⟩ := then_eq h2
  obtain ⟨k3, h2⟩ := then_eq h2
  obtain ⟨k4, h2⟩ := then_eq h2
  obtain ⟨k5, k6⟩ := then_eq h2
  refine ⟨?_, hk, cmpNil_eq k1, cmpStr_eq k2, ?_, cmpStr_eq k5, ?_⟩
  · unfold cmpTm at h1
    have := cmpNat_eq.1 h1
    cases e1 : a.tm with
    | none => exact absurd e1 ha
    | some x => cases e2 : b.tm with
      | none => exact absurd e2 hb
      | some y => rw [e1, e2] at this; rw [show x = y from this]
  · have := cmpNil_eq k3
    have k4' := cmpStr_eq k4
    cases e1 : a.target with
    | none => cases e2 : b.target with
      | none => rfl
      | some t => rw [e1, e2] at this; cases this
    | some s => cases e2 : b.target with
      | none => rw [e1, e2] at this; cases this
      | some t =>
        rw [e1, e2] at k4'
        show some (chomp s) = some (chomp t)
        rw [show chomp s = chomp t from k4']
  · have := cmpNat_eq.1 k6
    cases e1 : a.originCli <;> cases e2 : b.originCli <;> rw [e1, e2] at this <;> first | rfl | cases this

/-! Insertion -/

theorem mem_of_add {cmp : Ev → Ev → Ordering} {e x : Ev} : ∀ {q : List Ev}, x ∈ add cmp e q → x = e ∨ x ∈ q
  | [], h => .inl (by simpa [add] using h)
  | f :: q, h => by
    unfold add at h
    cases hc : cmp e f <;> rw [hc] at h
    · exact List.mem_cons.1 h
    · exact .inr h
    · rcases List.mem_cons.1 h with rfl | h
      · exact .inr List.mem_cons_self
      · exact (mem_of_add h).imp id (List.mem_cons_of_mem _)

theorem add_perm {cmp : Ev → Ev → Ordering} {e : Ev} : ∀ {q : List Ev}, (∀ f ∈ q, cmp e f ≠ .eq) → (add cmp e q).Perm (e :: q)
  | [], _ => List.Perm.refl _
  | f :: q, h => by
    unfold add
    cases hc : cmp e f
    · exact List.Perm.refl _
    · exact absurd hc (h f List.mem_cons_self)
    · exact ((add_perm (fun g hg => h g (List.mem_cons_of_mem _ hg))).cons f).trans (List.Perm.swap e f q)

/-- No two that compare equal. -/
def Apart (c : Ev → Ev → Ordering) (l : List Ev) : Prop := l.Pairwise (fun a b => c a b ≠ .eq)

theorem Apart.perm {c : Ev → Ev → Ordering} (hs : ∀ a b, c b a = (c a b).swap) {l l' : List Ev} (h : Apart c l) (p : l.Perm l') :
    Apart c l' := by
  refine (p.pairwise_iff ?_).1 h
  intro a b hab e
  rw [hs, ] at e
  revert hab e
  cases c a b <;> simp [Ordering.swap]

theorem fold_perm {cmp : Ev → Ev → Ordering} (hs : ∀ a b, cmp b a = (cmp a b).swap) (es : List Ev) : ∀ q : List Ev,
    Apart cmp (es ++ q) → (es.foldl (fun q e => add cmp e q) q).Perm (es ++ q) := by
  induction es with
  | nil => intro q _; exact List.Perm.refl _
  | cons e es ih =>
    intro q h
    have h' := List.pairwise_cons.1 h
    have p1 : (add cmp e q).Perm (e :: q) := add_perm (fun f hf => h'.1 f (List.mem_append_right _ hf))
    have p2 : (es ++ add cmp e q).Perm (e :: (es ++ q)) :=
      (List.Perm.append_left es p1).trans List.perm_middle
    exact (ih _ (Apart.perm hs h p2.symm)).trans p2

theorem fill_perm {cmp : Ev → Ev → Ordering} (hs : ∀ a b, cmp b a = (cmp a b).swap) {es : List Ev} (h : Apart cmp es) :
    (fill cmp es).Perm es := by
  have := fold_perm hs es [] (by rw [List.append_nil]; exact h)
  rwa [List.append_nil] at this

theorem good_sorted_add {c : Ev → Ev → Ordering} (G : Good c) {e : Ev} : ∀ {q : List Ev}, (∀ f ∈ q, c e f ≠ .eq) → Sorted c q →
    Sorted c (add c e q)
  | [], _, _ => List.pairwise_singleton _ _
  | f :: q, h, hq => by
    have hq' := List.pairwise_cons.1 hq
    unfold add
    cases hc : c e f
    · refine List.pairwise_cons.2 ⟨?_, hq⟩
      intro x hx
      rcases List.mem_cons.1 hx with rfl | hx
      · exact hc
      · exact G.trans e f x hc (hq'.1 x hx)
    · exact hq
    · refine List.pairwise_cons.2 ⟨?_, good_sorted_add G (fun g hg => h g (List.mem_cons_of_mem _ hg)) hq'.2⟩
      intro x hx
      rcases mem_of_add hx with rfl | hx
      · rw [G.swap x f, hc]; rfl
      · exact hq'.1 x hx

theorem fold_sorted {c : Ev → Ev → Ordering} (G : Good c) (es : List Ev) : ∀ q : List Ev,
    Apart c (es ++ q) → Sorted c q → Sorted c (es.foldl (fun q e => add c e q) q) := by
  induction es with
  | nil => intro q _ hq; exact hq
  | cons e es ih =>
    intro q h hq
    have h' := List.pairwise_cons.1 h
    have hf : ∀ f ∈ q, c e f ≠ .eq := fun f hf => h'.1 f (List.mem_append_right _ hf)
    have p2 : (es ++ add c e q).Perm (e :: (es ++ q)) := (List.Perm.append_left es (add_perm hf)).trans List.perm_middle
    exact ih _ (Apart.perm G.swap h p2.symm) (good_sorted_add G hf hq)

theorem sorted_unique {c : Ev → Ev → Ordering} (G : Good c) : ∀ {l l' : List Ev}, l.Perm l' → Sorted c l → Sorted c l' → l = l'
  | [], l', p, _, _ => (List.nil_perm.1 p).symm
  | a :: l, [], p, _, _ => absurd (List.perm_nil.1 p) (by simp)
  | a :: l, b :: l', p, h, h' => by
    have ha := List.pairwise_cons.1 h
    have hb := List.pairwise_cons.1 h'
    have e : a = b := by
      have m1 : a ∈ b :: l' := p.mem_iff.1 List.mem_cons_self
      have m2 : b ∈ a :: l := p.mem_iff.2 List.mem_cons_self
      rcases List.mem_cons.1 m1 with e | m1
      · exact e
      · rcases List.mem_cons.1 m2 with e | m2
        · exact e.symm
        · have k1 := ha.1 b m2
          have k2 := hb.1 a m1
          rw [G.swap a b, k1] at k2
          cases k2
    subst e
    rw [sorted_unique G (p.cons_inv) ha.2 hb.2]

theorem fill_unique {c : Ev → Ev → Ordering} (G : Good c) {es es' : List Ev} (p : es.Perm es') (h : Apart c es) :
    fill c es = fill c es' := by
  have h' := Apart.perm G.swap h p
  refine sorted_unique G ((fill_perm G.swap h).trans (p.trans (fill_perm G.swap h').symm)) ?_ ?_
  · exact fold_sorted G es [] (by rw [List.append_nil]; exact h) List.Pairwise.nil
  · exact fold_sorted G es' [] (by rw [List.append_nil]; exact h') List.Pairwise.nil

/-! Without the numbers -/

theorem add_erase {cmp c : Ev → Ev → Ordering} (he : ∀ a b, c (erase a) (erase b) = c a b) {e : Ev} :
    ∀ {q : List Ev}, (∀ f ∈ q, cmp e f = c e f) → (add cmp e q).map erase = add c (erase e) (q.map erase)
  | [], _ => rfl
  | f :: q, h => by
    have ih := add_erase he (e := e) (q := q) (fun g hg => h g (List.mem_cons_of_mem _ hg))
    show _ = add c (erase e) (erase f :: q.map erase)
    unfold add
    rw [h f List.mem_cons_self, he]
    cases c e f
    · rfl
    · rfl
    · show erase f :: (add cmp e q).map erase = _
      rw [ih]

theorem fold_erase {cmp c : Ev → Ev → Ordering} (he : ∀ a b, c (erase a) (erase b) = c a b) (es : List Ev) : ∀ q : List Ev,
    (∀ a ∈ es, ∀ f ∈ q, cmp a f = c a f) → es.Pairwise (fun a b => cmp b a = c b a) →
    (es.foldl (fun q e => add cmp e q) q).map erase = (es.map erase).foldl (fun q e => add c e q) (q.map erase) := by
  induction es with
  | nil => intro q _ _; rfl
  | cons e es ih =>
    intro q h1 h2
    have h2' := List.pairwise_cons.1 h2
    show (es.foldl _ (add cmp e q)).map erase = (es.map erase).foldl _ (add c (erase e) (q.map erase))
    rw [ih (add cmp e q) ?_ h2'.2, add_erase he (h1 e List.mem_cons_self)]
    intro a ha f hf
    rcases mem_of_add hf with rfl | hf
    · exact h2'.1 a ha
    · exact h1 a (List.mem_cons_of_mem _ ha) f hf

/-- Numbers differ. -/
def DistinctSn (l : List Ev) : Prop := l.Pairwise (fun a b => a.sn ≠ b.sn)

theorem Keyed.cmp_of_ne {cmp c : Ev → Ev → Ordering} (K : Keyed cmp c) {a b : Ev} (h1 : a.sn ≠ b.sn) (h2 : c a b ≠ .eq) :
    cmp a b = c a b := by
  rw [K.eq, if_neg h1]
  cases h : c a b
  · rfl
  · exact absurd h h2
  · rfl

theorem fill_erase {cmp c : Ev → Ev → Ordering} (K : Keyed cmp c) (he : ∀ a b, c (erase a) (erase b) = c a b) {es : List Ev}
    (hs : DistinctSn es) (ha : Apart c es) : (fill cmp es).map erase = fill c (es.map erase) := by
  refine fold_erase he es [] (fun a _ f hf => by cases hf) ?_
  refine List.Pairwise.imp₂ ?_ hs ha
  intro a b h1 h2
  refine K.cmp_of_ne (Ne.symm h1) ?_
  intro e
  rw [K.good.swap a b] at e
  revert h2 e
  cases c a b <;> simp [Ordering.swap]

theorem master_erase (a b : Ev) : keyMaster (erase a) (erase b) = keyMaster a b := rfl
theorem slice_erase (a b : Ev) : keySlice (erase a) (erase b) = keySlice a b := rfl
theorem release_erase (a b : Ev) : keyRelease (erase a) (erase b) = keyRelease a b := rfl

theorem map_apart {c : Ev → Ev → Ordering} (he : ∀ a b, c (erase a) (erase b) = c a b) {l : List Ev} :
    Apart c (l.map erase) ↔ Apart c l := by
  unfold Apart
  rw [List.pairwise_map]
  simp only [he]

/-- No two alike, and all have a time. -/
def Fair (l : List Ev) : Prop := l.Pairwise (fun a b => ¬ (cmpTm a b = .eq ∧ cmpWhat a b = .eq))

theorem number_erase (rng : Nat → Nat) (l : List Ev) : ∀ k, (number rng k l).map erase = number rng k (l.map erase) := by
  induction l with
  | nil => intro k; rfl
  | cons e l ih =>
    intro k
    show _ :: (number rng (k + 1) l).map erase = _
    rw [ih]
    rfl

theorem number_mem {rng : Nat → Nat} {l : List Ev} {x : Ev} : ∀ {k}, x ∈ number rng k l → ∃ e ∈ l, ∃ r, x = { e with pseudorandom := r } := by
  induction l with
  | nil => intro k h; cases h
  | cons e l ih =>
    intro k h
    rcases List.mem_cons.1 h with rfl | h
    · exact ⟨e, List.mem_cons_self, _, rfl⟩
    · obtain ⟨f, hf, r, e'⟩ := ih h
      exact ⟨f, List.mem_cons_of_mem _ hf, r, e'⟩

theorem number_pairwise {R : Ev → Ev → Prop} (hR : ∀ a b r r', R a b → R { a with pseudorandom := r } { b with pseudorandom := r' })
    (rng : Nat → Nat) (l : List Ev) : ∀ k, l.Pairwise R → (number rng k l).Pairwise R := by
  induction l with
  | nil => intro k h; exact List.Pairwise.nil
  | cons e l ih =>
    intro k h
    have h' := List.pairwise_cons.1 h
    refine List.pairwise_cons.2 ⟨?_, ih _ h'.2⟩
    intro x hx
    obtain ⟨f, hf, r, rfl⟩ := number_mem hx
    exact hR _ _ _ _ (h'.1 f hf)

theorem Fair.apart_slice {l : List Ev} (h : Fair l) : Apart keySlice l :=
  h.imp (fun {_ _} h e => h ⟨(then_eq (then_eq e).2).2, (then_eq (then_eq e).2).1⟩)

theorem Fair.apart_master {l : List Ev} (h : Fair l) : Apart keyMaster l :=
  h.imp (fun {_ _} h e => h ⟨(then_eq e).1, (then_eq e).2⟩)

theorem Fair.apart_release {l : List Ev} (h : Fair l) : Apart keyRelease l :=
  h.imp (fun {_ _} h e => h ⟨(then_eq (then_eq (then_eq e).2).2).1, (then_eq (then_eq e).2).1⟩)

theorem shuffle_erase (rng : Nat → Nat) {l : List Ev} (hs : DistinctSn l) (hf : Fair l) :
    (fill cmpSlice (number rng 0 l)).map erase = fill keySlice (number rng 0 (l.map erase)) := by
  rw [← number_erase]
  refine fill_erase keyed_slice slice_erase ?_ ?_
  · exact number_pairwise (fun a b r r' h => h) rng l 0 hs
  · exact Fair.apart_slice (number_pairwise (fun a b r r' h => h) rng l 0 hf)

theorem distinct_apart {cmp c : Ev → Ev → Ordering} (K : Keyed cmp c) {l : List Ev} (h : DistinctSn l) : Apart cmp l :=
  h.imp (fun {_ _} h e => h ((K.eq_iff _ _).1 e))

theorem fair_perm {l l' : List Ev} (p : l.Perm l') (h : Fair l) : Fair l' := by
  refine (p.pairwise_iff ?_).1 h
  rintro a b hab ⟨e1, e2⟩
  refine hab ⟨?_, ?_⟩
  · rw [good_tm.swap b a, e1]; rfl
  · rw [good_what.swap b a, e2]; rfl

theorem distinct_perm {l l' : List Ev} (p : l.Perm l') (h : DistinctSn l) : DistinctSn l' :=
  (p.pairwise_iff (fun {_ _} h => Ne.symm h)).1 h

theorem submit_fold : ∀ {es q m : List Ev}, submit es q = some m →
    m = es.foldl (fun q e => add cmpMaster e q) q ∧ ∀ e ∈ es, e.tm ≠ none
  | [], q, m, h => by cases h; exact ⟨rfl, fun e he => by cases he⟩
  | e :: es, q, m, h => by
    simp only [submit, Option.bind_eq_some_iff, add2meq, Option.ite_none_left_eq_some] at h
    obtain ⟨q', ⟨hn, hq'⟩, h⟩ := h
    cases hq'
    obtain ⟨h1, h2⟩ := submit_fold h
    refine ⟨h1, ?_⟩
    intro f hf
    rcases List.mem_cons.1 hf with rfl | hf
    · exact hn
    · exact h2 f hf

theorem fair_of_not_alike {es : List Ev} (ht : ∀ e ∈ es, e.tm ≠ none) (h : es.Pairwise (fun a b => ¬ Alike a b)) : Fair es := by
  induction es with
  | nil => exact List.Pairwise.nil
  | cons e es ih =>
    have h' := List.pairwise_cons.1 h
    refine List.pairwise_cons.2 ⟨?_, ih (fun f hf => ht f (List.mem_cons_of_mem _ hf)) h'.2⟩
    intro f hf hc
    exact h'.1 f hf (alike_of_cmp (ht e List.mem_cons_self) (ht f (List.mem_cons_of_mem _ hf)) hc.1 hc.2)

theorem fair_erase {l : List Ev} : Fair (l.map erase) ↔ Fair l := by
  unfold Fair
  rw [List.pairwise_map]
  exact Iff.rfl

theorem slice_same (rng : Nat → Nat) (now : Nat) {es es' : List Ev} (p : (es.map erase).Perm (es'.map erase))
    (hs : DistinctSn es) (hs' : DistinctSn es') (hf : Fair es) :
    (slice rng now (fill cmpMaster es)).map erase = (slice rng now (fill cmpMaster es')).map erase := by
  have hf' : Fair es' := fair_erase.1 (fair_perm p (fair_erase.2 hf))
  have key : (fill cmpMaster es).map erase = (fill cmpMaster es').map erase := by
    rw [fill_erase keyed_master master_erase hs hf.apart_master, fill_erase keyed_master master_erase hs' hf'.apart_master]
    exact fill_unique keyed_master.good p ((map_apart master_erase).2 hf.apart_master)
  have one : ∀ {l : List Ev}, DistinctSn l → Fair l → (slice rng now (fill cmpMaster l)).map erase =
      fill keySlice (number rng 0 (((fill cmpMaster l).map erase).takeWhile (fun e => decide (e.tm.getD 0 ≤ now)))) := by
    intro l h1 h2
    have pm := fill_perm keyed_master.swap (distinct_apart keyed_master h1)
    have sub := List.takeWhile_sublist (l := fill cmpMaster l) (fun e : Ev => decide (e.tm.getD 0 ≤ now))
    unfold slice
    rw [shuffle_erase rng ((distinct_perm pm.symm h1).sublist sub) ((fair_perm pm.symm h2).sublist sub), List.takeWhile_map]
    rfl
  rw [one hs hf, one hs' hf', key]

theorem release_same (rng : Nat → Nat) {es es' : List Ev} (p : (es.map erase).Perm (es'.map erase))
    (hs : DistinctSn es) (hs' : DistinctSn es') (hf : Fair es) :
    (release rng (fill cmpRelease es)).map erase = (release rng (fill cmpRelease es')).map erase := by
  have hf' : Fair es' := fair_erase.1 (fair_perm p (fair_erase.2 hf))
  have key : (fill cmpRelease es).map erase = (fill cmpRelease es').map erase := by
    rw [fill_erase keyed_release release_erase hs hf.apart_release, fill_erase keyed_release release_erase hs' hf'.apart_release]
    exact fill_unique keyed_release.good p ((map_apart release_erase).2 hf.apart_release)
  have one : ∀ {l : List Ev}, DistinctSn l → Fair l → (release rng (fill cmpRelease l)).map erase =
      fill keySlice (number rng 0 ((fill cmpRelease l).map erase)) := by
    intro l h1 h2
    have pm := fill_perm keyed_release.swap (distinct_apart keyed_release h1)
    exact shuffle_erase rng (distinct_perm pm.symm h1) (fair_perm pm.symm h2)
  rw [one hs hf, one hs' hf', key]

end Verif.EventQ
