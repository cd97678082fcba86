import Verif.Spec.RandLock
/- Proofs about the locking of random generators. -/
namespace Verif.RandLock

/-- A call that takes the mutex once. -/
def Once (p : List Act) : Prop := ∃ k, p = .lock :: (List.replicate k .use ++ [.unlock])

/-- A call that takes it and then tries to take it again. -/
def Twice (p : List Act) : Prop := ∃ post, p = .lock :: .lock :: post

/-- Made of such. -/
def Closed (as : List Act) : Prop := ∃ ps : List (List Act), as = ps.flatten ∧ ∀ p ∈ ps, Once p ∨ Twice p

/-- Inside a call that has the mutex. -/
def Open (as : List Act) : Prop :=
  (∃ k cs, as = List.replicate k .use ++ .unlock :: cs ∧ Closed cs) ∨ ∃ post, as = .lock :: post

theorem once_locked (k : Nat) : Once (locked (List.replicate k .use)) := ⟨k, rfl⟩

theorem Closed.nil : Closed [] := ⟨[], rfl, by simp⟩

theorem Closed.append {a b : List Act} : Closed a → Closed b → Closed (a ++ b)
  | ⟨p, hp, h⟩, ⟨q, hq, h2⟩ => ⟨p ++ q, by rw [hp, hq, List.flatten_append], by
      intro x hx
      rcases List.mem_append.1 hx with hx | hx
      · exact h x hx
      · exact h2 x hx⟩

theorem Closed.of_once {p : List Act} (h : Once p) : Closed p := ⟨[p], by simp, by simpa using Or.inl h⟩
theorem Closed.of_twice {p : List Act} (h : Twice p) : Closed p := ⟨[p], by simp, by simpa using Or.inr h⟩

theorem Closed.flatMap {C : Type} {f : C → List Act} (h : ∀ c, Closed (f c)) : ∀ l : List C, Closed (l.flatMap f)
  | [] => Closed.nil
  | c :: l => by rw [List.flatMap_cons]; exact (h c).append (Closed.flatMap h l)

theorem Closed.replicate {p : List Act} (h : Closed p) : ∀ n, Closed (List.replicate n p).flatten
  | 0 => Closed.nil
  | n + 1 => by rw [List.replicate_succ, List.flatten_cons]; exact h.append (Closed.replicate h n)

/-- What comes next outside a call takes the mutex. -/
theorem Closed.cases {as : List Act} (h : Closed as) :
    as = [] ∨ ∃ t, as = .lock :: t ∧ Open t := by
  obtain ⟨ps, rfl, hp⟩ := h
  cases ps with
  | nil => exact .inl rfl
  | cons p ps =>
    refine .inr ?_
    have hc : Closed ps.flatten := ⟨ps, rfl, fun x hx => hp x (List.mem_cons_of_mem _ hx)⟩
    rcases hp p List.mem_cons_self with ⟨k, rfl⟩ | ⟨post, rfl⟩
    · exact ⟨_, rfl, .inl ⟨k, ps.flatten, by simp, hc⟩⟩
    · exact ⟨_, rfl, .inr ⟨_, rfl⟩⟩

/-- Whoever has the mutex is inside a call, all others are not. -/
def Inv (s : State) : Prop :=
  (∀ i, s.holder = some i → i < s.rem.length) ∧
  ∀ (i : Nat) as, s.rem[i]? = some as → if s.holder = some i then Open as else Closed as

theorem Inv.init {C : Type} {acts : C → List Act} (h : ∀ c, Closed (acts c)) (progs : List (List C)) :
    Inv (init acts progs) := by
  refine ⟨fun i hi => (nomatch hi), fun i as hi => ?_⟩
  rw [if_neg (by intro h; exact nomatch h)]
  simp only [RandLock.init, List.getElem?_map, Option.map_eq_some_iff] at hi
  obtain ⟨p, _, rfl⟩ := hi
  exact Closed.flatMap h p

/-- The possible steps. -/
theorem step_cases {s s' : State} {i : Nat} (h : step s i = some s') :
    ∃ a as, s.rem[i]? = some (a :: as) ∧ s'.rem = s.rem.set i as ∧
      ((a = .lock ∧ s.holder = none ∧ s'.holder = some i) ∨ (a = .unlock ∧ s.holder ≠ none ∧ s'.holder = none) ∨
        (a = .use ∧ s'.holder = s.holder)) := by
  unfold step at h
  split at h
  · rename_i as ha
    split at h
    · rename_i hh; cases h; exact ⟨_, as, ha, rfl, .inl ⟨rfl, hh, rfl⟩⟩
    · exact nomatch h
  · rename_i as ha
    split at h
    · exact nomatch h
    · rename_i hh; cases h; exact ⟨_, as, ha, rfl, .inr (.inl ⟨rfl, hh, rfl⟩)⟩
  · rename_i as ha
    cases h; exact ⟨_, as, ha, rfl, .inr (.inr ⟨rfl, rfl⟩)⟩
  · exact nomatch h
  · exact nomatch h

theorem get_set {l : List (List Act)} {i j : Nat} {as x : List Act} (h : (l.set i as)[j]? = some x) :
    (j = i ∧ x = as) ∨ (j ≠ i ∧ l[j]? = some x) := by
  by_cases hj : j = i
  · subst hj
    rw [List.getElem?_set] at h
    simp only [if_true] at h
    split at h
    · exact .inl ⟨rfl, (Option.some.inj h).symm⟩
    · exact nomatch h
  · rw [List.getElem?_set_ne (fun e => hj e.symm)] at h
    exact .inr ⟨hj, h⟩

theorem open_not_nil {as : List Act} : Open as → as ≠ []
  | .inl ⟨k, cs, h, _⟩ => by rw [h]; simp
  | .inr ⟨_, h⟩ => by rw [h]; simp

/-- What the holder does next. -/
theorem open_cons {a : Act} {as : List Act} (h : Open (a :: as)) :
    (a = .use ∧ Open as) ∨ (a = .unlock ∧ Closed as) ∨ a = .lock := by
  rcases h with ⟨k, cs, e, hc⟩ | ⟨post, e⟩
  · cases k with
    | zero => simp only [List.replicate_zero, List.nil_append, List.cons.injEq] at e; exact .inr (.inl ⟨e.1, e.2 ▸ hc⟩)
    | succ k =>
      rw [List.replicate_succ, List.cons_append, List.cons.injEq] at e
      exact .inl ⟨e.1, .inl ⟨k, cs, e.2, hc⟩⟩
  · exact .inr (.inr (List.cons.inj e).1)

/-- What anyone else does next. -/
theorem closed_cons {a : Act} {as : List Act} (h : Closed (a :: as)) : a = .lock ∧ Open as := by
  rcases h.cases with h | ⟨t, e, ho⟩
  · exact nomatch h
  · have := List.cons.inj e
    exact ⟨this.1, this.2 ▸ ho⟩

theorem Inv.step {s s' : State} {i : Nat} (hi : Inv s) (h : step s i = some s') : Inv s' := by
  obtain ⟨a, as, ha, hrem, hc⟩ := step_cases h
  have hlt : i < s.rem.length := (List.getElem?_eq_some_iff.1 ha).1
  have h0 := hi.2 i _ ha
  rcases hc with ⟨rfl, hn, hh⟩ | ⟨rfl, hn, hh⟩ | ⟨rfl, hh⟩
  · rw [if_neg (by rw [hn]; intro h; exact nomatch h)] at h0
    refine ⟨fun j hj => ?_, fun j x hx => ?_⟩
    · rw [hh] at hj; cases hj; rw [hrem, List.length_set]; exact hlt
    · rw [hrem] at hx
      rcases get_set hx with ⟨rfl, rfl⟩ | ⟨hne, hx⟩
      · rw [if_pos hh]; exact (closed_cons h0).2
      · rw [hh, if_neg (by intro e; exact hne (Option.some.inj e).symm)]
        have := hi.2 j x hx
        rwa [if_neg (by rw [hn]; intro h; exact nomatch h)] at this
  · have hold : s.holder = some i := by
      by_cases e : s.holder = some i
      · exact e
      · rw [if_neg e] at h0; exact nomatch (closed_cons h0).1
    rw [if_pos hold] at h0
    refine ⟨fun j hj => by rw [hh] at hj; exact (nomatch hj), fun j x hx => ?_⟩
    rw [hrem] at hx
    rw [hh, if_neg (by intro h; exact nomatch h)]
    rcases get_set hx with ⟨rfl, rfl⟩ | ⟨hne, hx⟩
    · rcases open_cons h0 with ⟨e, _⟩ | ⟨_, e⟩ | e
      · exact nomatch e
      · exact e
      · exact nomatch e
    · have := hi.2 j x hx
      rwa [if_neg (by rw [hold]; intro e; exact hne (Option.some.inj e).symm)] at this
  · have hold : s.holder = some i := by
      by_cases e : s.holder = some i
      · exact e
      · rw [if_neg e] at h0; exact nomatch (closed_cons h0).1
    rw [if_pos hold] at h0
    refine ⟨fun j hj => by rw [hh] at hj; rw [hrem, List.length_set]; exact hi.1 j hj, fun j x hx => ?_⟩
    rw [hrem] at hx
    rw [hh]
    rcases get_set hx with ⟨rfl, rfl⟩ | ⟨hne, hx⟩
    · rw [if_pos hold]
      rcases open_cons h0 with ⟨_, e⟩ | ⟨e, _⟩ | e
      · exact e
      · exact nomatch e
      · exact nomatch e
    · exact hi.2 j x hx

theorem run_induct {P : State → Prop} (hs : ∀ s s' i, P s → step s i = some s' → P s') :
    ∀ (sched : List Nat) (s s' : State), P s → run s sched = some s' → P s'
  | [], s, s', hp, h => by cases h; exact hp
  | i :: is, s, s', hp, h => by
    unfold run at h
    split at h
    · rename_i t ht; exact run_induct hs is t s' (hs _ _ _ hp ht) h
    · exact nomatch h

theorem Inv.run {s s' : State} (hi : Inv s) (sched : List Nat) (h : run s sched = some s') : Inv s' :=
  run_induct (P := Inv) (fun _ _ _ a b => a.step b) sched s s' hi h

/-! ### All calls take the mutex once -/

def Closed1 (as : List Act) : Prop := ∃ ps : List (List Act), as = ps.flatten ∧ ∀ p ∈ ps, Once p

/-- No one tries to take the mutex again: no goroutine has two locks without an unlock between. -/
def NoTwice : List Act → Prop
  | .lock :: .lock :: _ => False
  | _ :: as => NoTwice as
  | [] => True

theorem NoTwice.tail {a : Act} {as : List Act} (h : NoTwice (a :: as)) : NoTwice as := by
  cases a with
  | lock =>
    cases as with
    | nil => trivial
    | cons b bs => cases b <;> simp_all [NoTwice]
  | unlock => exact h
  | use => exact h

theorem noTwice_uses (k : Nat) (cs : List Act) (h : NoTwice cs) :
    NoTwice (List.replicate k .use ++ .unlock :: cs) := by
  induction k with
  | zero => exact h
  | succ k ih => rw [List.replicate_succ]; exact ih

theorem Once.noTwice {p cs : List Act} (hp : Once p) (h : NoTwice cs) : NoTwice (p ++ cs) := by
  obtain ⟨k, rfl⟩ := hp
  have h2 := noTwice_uses k cs h
  rw [List.cons_append, List.append_assoc]
  cases k with
  | zero => exact h2
  | succ k => rw [List.replicate_succ] at h2 ⊢; exact h2

theorem Closed1.noTwice {as : List Act} : Closed1 as → NoTwice as := by
  rintro ⟨ps, rfl, h⟩
  induction ps with
  | nil => trivial
  | cons p ps ih =>
    rw [List.flatten_cons]
    exact (h p List.mem_cons_self).noTwice (ih fun x hx => h x (List.mem_cons_of_mem _ hx))

theorem Closed1.nil : Closed1 [] := ⟨[], rfl, by simp⟩

theorem Closed1.append {a b : List Act} : Closed1 a → Closed1 b → Closed1 (a ++ b)
  | ⟨p, hp, h⟩, ⟨q, hq, h2⟩ => ⟨p ++ q, by rw [hp, hq, List.flatten_append], by
      intro x hx
      rcases List.mem_append.1 hx with hx | hx
      · exact h x hx
      · exact h2 x hx⟩

theorem Closed1.of_once {p : List Act} (h : Once p) : Closed1 p := ⟨[p], by simp, by simpa using h⟩

theorem Closed1.flatMap {C : Type} {f : C → List Act} : ∀ l : List C, (∀ c ∈ l, Closed1 (f c)) → Closed1 (l.flatMap f)
  | [], _ => Closed1.nil
  | c :: l, h => by
    rw [List.flatMap_cons]
    exact (h c List.mem_cons_self).append (Closed1.flatMap l fun x hx => h x (List.mem_cons_of_mem _ hx))

theorem Closed1.replicate {p : List Act} (h : Closed1 p) : ∀ n, Closed1 (List.replicate n p).flatten
  | 0 => Closed1.nil
  | n + 1 => by rw [List.replicate_succ, List.flatten_cons]; exact h.append (Closed1.replicate h n)

/-- Whoever has the mutex does not try to take it next. -/
def Inv1 (s : State) : Prop :=
  Inv s ∧ (∀ as ∈ s.rem, NoTwice as) ∧ ∀ (i : Nat) as, s.holder = some i → s.rem[i]? ≠ some (.lock :: as)

theorem Inv1.step {s s' : State} {i : Nat} (hi : Inv1 s) (h : RandLock.step s i = some s') : Inv1 s' := by
  refine ⟨hi.1.step h, ?_⟩
  obtain ⟨a, as, ha, hrem, hc⟩ := step_cases h
  have hmem : a :: as ∈ s.rem := List.mem_of_getElem? ha
  have hnt := hi.2.1 _ hmem
  refine ⟨fun x hx => ?_, fun j x hj hx => ?_⟩
  · rw [hrem] at hx
    rcases List.mem_or_eq_of_mem_set hx with hx | rfl
    · exact hi.2.1 x hx
    · exact hnt.tail
  · rw [hrem] at hx
    rcases get_set hx with ⟨rfl, rfl⟩ | ⟨hne, hx⟩
    · rcases hc with ⟨rfl, hn, hh⟩ | ⟨rfl, hn, hh⟩ | ⟨rfl, hh⟩
      · exact hnt
      · rw [hh] at hj; exact nomatch hj
      · rw [hh] at hj
        have h0 := hi.1.2 j _ ha
        rw [if_pos hj] at h0
        rcases h0 with ⟨k, cs, e, hcl⟩ | ⟨post, e⟩
        · cases k with
          | zero => exact nomatch (List.cons.inj e).1
          | succ k =>
            rw [List.replicate_succ, List.cons_append, List.cons.injEq] at e
            cases k with
            | zero => exact nomatch (List.cons.inj e.2).1
            | succ k => rw [List.replicate_succ, List.cons_append] at e; exact nomatch (List.cons.inj e.2).1
        · exact nomatch (List.cons.inj e).1
    · rcases hc with ⟨rfl, hn, hh⟩ | ⟨rfl, hn, hh⟩ | ⟨rfl, hh⟩
      · rw [hh] at hj; exact hne (Option.some.inj hj).symm
      · rw [hh] at hj; exact nomatch hj
      · rw [hh] at hj; exact hi.2.2 j x hj hx

/-- Someone can go on. -/
theorem Inv1.goes_on {s : State} (hi : Inv1 s) : Done s ∨ ∃ i, RandLock.step s i ≠ none := by
  cases hh : s.holder with
  | some i =>
    refine .inr ⟨i, ?_⟩
    have hlt := hi.1.1 i hh
    have hg : s.rem[i]? = some s.rem[i] := List.getElem?_eq_getElem hlt
    have h0 := hi.1.2 i _ hg
    rw [if_pos hh] at h0
    have hl := hi.2.2 i
    revert hg h0 hl
    generalize s.rem[i] = as
    intro hg h0 hl
    unfold RandLock.step
    rw [hg]
    cases as with
    | nil => exact absurd rfl (open_not_nil h0)
    | cons a as =>
      cases a with
      | lock => exact absurd hg (hl as hh)
      | unlock => simp [hh]
      | use => simp
  | none =>
    by_cases hd : ∀ as ∈ s.rem, as = []
    · exact .inl hd
    · refine .inr ?_
      simp only [Classical.not_forall] at hd
      obtain ⟨as, hm, hne⟩ := hd
      obtain ⟨i, hlt, hg⟩ := List.getElem_of_mem hm
      have hg2 : s.rem[i]? = some as := by rw [List.getElem?_eq_getElem hlt, hg]
      have h0 := hi.1.2 i _ hg2
      rw [if_neg (by rw [hh]; intro h; exact nomatch h)] at h0
      rcases h0.cases with h | ⟨t, rfl, _⟩
      · exact absurd h hne
      · refine ⟨i, ?_⟩
        unfold RandLock.step
        rw [hg2]
        simp [hh]

/-- What is left to do. -/
def left (s : State) : Nat := (s.rem.map List.length).sum

theorem sum_set : ∀ (l : List (List Act)) (i : Nat) (a : Act) (as : List Act), l[i]? = some (a :: as) →
    (l.map List.length).sum = ((l.set i as).map List.length).sum + 1
  | [], i, a, as, h => by simp at h
  | x :: l, 0, a, as, h => by simp at h; subst h; simp; omega
  | x :: l, i + 1, a, as, h => by
    have := sum_set l i a as (by simpa using h)
    simp only [List.set_cons_succ, List.map_cons, List.sum_cons]
    omega

theorem left_step {s s' : State} {i : Nat} (h : step s i = some s') : left s = left s' + 1 := by
  obtain ⟨a, as, ha, hrem, _⟩ := step_cases h
  unfold left
  rw [hrem]
  exact sum_set _ _ _ _ ha

theorem left_run : ∀ (sched : List Nat) (s s' : State), run s sched = some s' → left s = left s' + sched.length
  | [], s, s', h => by cases h; rfl
  | i :: is, s, s', h => by
    unfold run at h
    split at h
    · rename_i t ht
      have h1 := left_step ht
      have h2 := left_run is t s' h
      simp only [List.length_cons]
      omega
    · exact nomatch h

theorem left_done {s : State} (h : Done s) : left s = 0 := by
  have : ∀ l : List (List Act), (∀ as ∈ l, as = []) → (l.map List.length).sum = 0 := by
    intro l
    induction l with
    | nil => intro _; rfl
    | cons a l ih =>
      intro h
      rw [List.map_cons, List.sum_cons, ih fun x hx => h x (List.mem_cons_of_mem _ hx), h a List.mem_cons_self]
      rfl
  exact this s.rem h

theorem Inv.alone {s : State} (hi : Inv s) {i : Nat} (h : Using s i) : s.holder = some i := by
  obtain ⟨as, ha⟩ := h
  have h0 := hi.2 i _ ha
  by_cases e : s.holder = some i
  · exact e
  · rw [if_neg e] at h0; exact nomatch (closed_cons h0).1

theorem Closed1.closed {as : List Act} : Closed1 as → Closed as
  | ⟨ps, h, hp⟩ => ⟨ps, h, fun p hm => .inl (hp p hm)⟩

theorem shareable {C : Type} {acts : C → List Act} (hc : ∀ c, Closed (acts c)) (progs : List (List C))
    (h : ∀ p ∈ progs, ∀ c ∈ p, Closed1 (acts c)) : Shareable acts progs := by
  have h0 : Inv1 (RandLock.init acts progs) := by
    refine ⟨Inv.init hc progs, fun as hm => ?_, fun i as hi => nomatch hi⟩
    obtain ⟨p, hp, rfl⟩ := List.mem_map.1 hm
    exact (Closed1.flatMap p (h p hp)).noTwice
  have hr : ∀ sched s, RandLock.run (RandLock.init acts progs) sched = some s → Inv1 s := fun sched s hs =>
    run_induct (P := Inv1) (fun _ _ _ a b => a.step b) sched _ s h0 hs
  have hl : left (RandLock.init acts progs) = (progs.map fun p => (p.flatMap acts).length).sum := by
    unfold left RandLock.init
    rw [List.map_map]
    rfl
  refine ⟨fun sched s hs => (hr sched s hs).goes_on, fun sched s hs => ?_, fun sched s hs i j a b => ?_⟩
  · have := left_run sched _ s hs
    rw [← hl]
    refine ⟨by omega, fun hn => ?_⟩
    rcases (hr sched s hs).goes_on with hd | ⟨i, hi⟩
    · rw [left_done hd] at this; omega
    · exact absurd (hn i) hi
  · have h1 := (hr sched s hs).1.alone a
    have h2 := (hr sched s hs).1.alone b
    rw [h1] at h2
    exact Option.some.inj h2

/-! ### A call that takes it twice -/

/-- Goroutine i is stuck with the mutex. -/
def Stuck (s : State) (i : Nat) : Prop := s.holder = some i ∧ ∃ as, s.rem[i]? = some (.lock :: as)

/-- The mutex stays taken, and whoever still needs it will need it. -/
theorem Stuck.step {s s' : State} {i j : Nat} (hi : Inv s) (h : Stuck s i) (hs : RandLock.step s j = some s') : False := by
  obtain ⟨hh, as, ha⟩ := h
  obtain ⟨a, bs, hb, hrem, hc⟩ := step_cases hs
  by_cases e : j = i
  · subst e
    rw [ha] at hb
    cases hb
    rcases hc with ⟨_, hn, _⟩ | ⟨e, _⟩ | ⟨e, _⟩
    · rw [hh] at hn; exact nomatch hn
    · exact nomatch e
    · exact nomatch e
  · have h0 := hi.2 j _ hb
    rw [if_neg (by rw [hh]; intro x; exact e (Option.some.inj x).symm)] at h0
    have := (closed_cons h0).1
    subst this
    rcases hc with ⟨_, hn, _⟩ | ⟨e, _⟩ | ⟨e, _⟩
    · rw [hh] at hn; exact nomatch hn
    · exact nomatch e
    · exact nomatch e

/-- A goroutine with such a call to make. -/
def Pending (s : State) (i : Nat) : Prop :=
  (∃ pre post, s.rem[i]? = some (pre ++ .lock :: .lock :: post)) ∨ Stuck s i

theorem Pending.step {s s' : State} {i j : Nat} (hi : Inv s) (h : Pending s i) (hs : RandLock.step s j = some s') :
    Pending s' i := by
  rcases h with ⟨pre, post, hp⟩ | h
  · obtain ⟨a, bs, hb, hrem, hc⟩ := step_cases hs
    by_cases e : j = i
    · subst e
      rw [hp] at hb
      have hlt : j < s.rem.length := (List.getElem?_eq_some_iff.1 hp).1
      have hb := Option.some.inj hb
      have hg : s'.rem[j]? = some bs := by rw [hrem, List.getElem?_set_self hlt]
      cases pre with
      | nil =>
        rw [List.nil_append, List.cons.injEq] at hb
        obtain ⟨rfl, rfl⟩ := hb
        refine .inr ⟨?_, _, hg⟩
        rcases hc with ⟨_, _, hh⟩ | ⟨e, _⟩ | ⟨e, _⟩
        · exact hh
        · exact nomatch e
        · exact nomatch e
      | cons x pre =>
        rw [List.cons_append, List.cons.injEq] at hb
        exact .inl ⟨pre, post, by rw [hg, hb.2]⟩
    · exact .inl ⟨pre, post, by rw [hrem, List.getElem?_set_ne e, hp]⟩
  · exact (h.step hi hs).elim

theorem Pending.not_returned {s : State} {i : Nat} (h : Pending s i) : ¬ Returned s i := by
  unfold Returned
  intro e
  rcases h with ⟨pre, post, hp⟩ | ⟨_, as, ha⟩
  · rw [e] at hp; exact absurd (Option.some.inj hp).symm (by simp)
  · rw [e] at ha; exact nomatch ha

theorem never_returns {C : Type} {acts : C → List Act} (hc : ∀ c, Closed (acts c)) (progs : List (List C)) (i : Nat)
    (p : List C) (c : C) (hp : progs[i]? = some p) (hm : c ∈ p) (h2 : ∃ pre post, acts c = pre ++ .lock :: .lock :: post)
    (sched : List Nat) (s : State) (hs : RandLock.run (RandLock.init acts progs) sched = some s) : ¬ Returned s i := by
  have h0 : Pending (RandLock.init acts progs) i := by
    obtain ⟨l, r, rfl⟩ := List.append_of_mem hm
    obtain ⟨pre, post, he⟩ := h2
    refine .inl ⟨l.flatMap acts ++ pre, post ++ r.flatMap acts, ?_⟩
    simp only [RandLock.init, List.getElem?_map, hp, Option.map_some, List.flatMap_append, List.flatMap_cons, he,
      List.append_assoc, List.cons_append]
  exact (run_induct (P := fun s => Inv s ∧ Pending s i) (fun _ _ _ a b => ⟨a.1.step b, a.2.step a.1 b⟩) sched _ s
    ⟨Inv.init hc progs, h0⟩ hs).2.not_returned

theorem once_use : Once (locked [.use]) := once_locked 1

theorem closed_acts (c : Call) : Closed (acts c) := by
  cases c with
  | read => exact .of_once once_use
  | uint64 => exact .of_once once_use
  | reseed => exact .of_once once_use
  | newCallID => exact .of_once once_use
  | rand15B => exact .of_twice ⟨_, rfl⟩
  | nonNeg => exact .of_twice ⟨_, rfl⟩
  | positive k => exact .of_twice ⟨_, rfl⟩
  | int64 => exact .of_twice ⟨_, rfl⟩
  | bool => exact .of_twice ⟨_, rfl⟩
  | range k => exact .of_once (once_locked _)
  | posOrNegSmall k => exact .of_once (once_locked _)
  | posOrNegLarge k => exact .of_once (once_locked _)
  | posOrNegMax k => exact Closed.replicate (.of_twice ⟨_, rfl⟩) _

theorem closed_tube (c : TubeCall) : Closed (tubeActs c) := by
  cases c with
  | nonNeg => exact .of_once once_use
  | positive k => exact .of_twice ⟨_, rfl⟩
  | int64 => exact .of_once once_use
  | bool => exact .of_once once_use
  | range k => exact .of_once (once_locked _)
  | posOrNegSmall k => exact .of_once (once_locked _)
  | posOrNegLarge k => exact .of_once (once_locked _)
  | posOrNegMax k => exact Closed.replicate (.of_once once_use) _
  | float64prob k => exact .of_once (once_locked _)

end Verif.RandLock
