import Verif.Proofs.SessTable
/-
The session table refines the ledger.
-/
namespace Verif.SessTable

/-- The node knows what is in the ledger. -/
def Shows (s : Node) (L : Ledger) : Prop := s.lhlc = L.clock ∧ ∀ id, s.known id = L.known id

theorem known_none {s : Node} {id : Nat} : s.known id = none ↔ s.table id = none := by
  unfold Node.known
  cases s.table id <;> simp

theorem refresh_spec {l : List Action} {s : Node} (I : Inv l s) {id p : Nat} (hp : s.table id = some p) (t : Nat) :
    Inv l (refresh s p t) ∧ (refresh s p t).lhlc = s.lhlc ∧
    ∀ j, (refresh s p t).known j = if j = id then (s.known id).map (fun r => { r with ends := t + r.dur }) else s.known j := by
  obtain ⟨i1, i2, i3, i4⟩ := I.tab id p hp
  have hh : ∀ q, q ≠ p → (refresh s p t).heap q = s.heap q := fun q hq => upd_ne _ _ hq
  have hhp : (refresh s p t).heap p = { (s.heap p) with endx := t + (s.heap p).dur } := upd_same _ _ _
  have hid : ∀ q, ((refresh s p t).heap q).id = (s.heap q).id ∧ ((refresh s p t).heap q).client = (s.heap q).client ∧
      ((refresh s p t).heap q).t0 = (s.heap q).t0 := by
    intro q
    by_cases hq : q = p
    · rw [hq, hhp]; exact ⟨rfl, rfl, rfl⟩
    · rw [hh q hq]; exact ⟨rfl, rfl, rfl⟩
  have hdel := mem_treeDel I.uniq i2 I.treeLt
  have hadd := treeAdd_spec (h := (refresh s p t).heap) (p := p) (l := treeDel s.heap p s.tree) (by
    intro q hq e
    rw [(hid q).1, (hid p).1] at e
    exact ((hdel q).1 hq).2 (I.uniq q p (I.treeLt q ((hdel q).1 hq).1) i2 e)) (by
    refine sorted_congr ?_ (sorted_treeDel I.sorted)
    intro q hq
    exact hh q ((hdel q).1 hq).2)
  have hmem : ∀ q, q ∈ (refresh s p t).tree ↔ q ∈ s.tree := by
    intro q
    refine (hadd.1 q).trans ?_
    rw [hdel]
    constructor
    · rintro (rfl | h)
      · exact i3
      · exact h.1
    · intro h
      by_cases hq : q = p
      · exact .inl hq
      · exact .inr ⟨h, hq⟩
  refine ⟨⟨?_, ?_, ?_, ?_, hadd.2, ?_⟩, rfl, ?_⟩
  · intro a b ha hb e
    rw [(hid a).1, (hid b).1] at e
    exact I.uniq a b ha hb e
  · intro a ha
    rw [(hid a).1, (hid a).2.1, (hid a).2.2]
    exact I.made a ha
  · intro j q hq
    rw [(hid q).1, (hid q).2.1, hmem]
    exact I.tab j q hq
  · intro q hq
    rw [(hid q).1]
    exact I.tree q ((hmem q).1 hq)
  · intro n q hq
    rw [(hid q).2.1]
    exact I.name n q hq
  · intro j
    unfold Node.known
    show (s.table j).map _ = _
    by_cases hj : j = id
    · subst hj
      rw [if_pos rfl, hp]
      simp only [Option.map_some, hhp]
    · rw [if_neg hj]
      cases hs : s.table j with
      | none => rfl
      | some q =>
        have hq : q ≠ p := fun e => hj (by rw [← (I.tab j q hs).1, e, i1])
        simp only [Option.map_some, hh q hq]

/-- Removing a session from table and tree; the name may go too. -/
theorem remove_spec {l : List Action} {s : Node} (I : Inv l s) {id p : Nat} (hp : s.table id = some p) (b : Nat → Option Nat)
    (hb : b = s.byName ∨ b = forgetName s.heap s.byName (s.heap p).client id) :
    Inv l { s with table := upd s.table id none, tree := treeDel s.heap p s.tree, byName := b } ∧
    ∀ j, Node.known { s with table := upd s.table id none, tree := treeDel s.heap p s.tree, byName := b } j =
      if j = id then none else s.known j := by
  obtain ⟨i1, i2, i3, i4⟩ := I.tab id p hp
  have hdel := mem_treeDel I.uniq i2 I.treeLt
  have hb1 : ∀ n q, b n = some q → s.byName n = some q := by
    rcases hb with rfl | rfl
    · exact fun _ _ h => h
    · exact fun n q h => ((forgetName_iff _ _ _ _ _ _).1 h).1
  have hb2 : ∀ n q, s.byName n = some q → (s.heap q).id ≠ id → b n = some q := by
    rcases hb with rfl | rfl
    · exact fun _ _ h _ => h
    · exact fun n q h hq => (forgetName_iff _ _ _ _ _ _).2 ⟨h, fun _ => hq⟩
  refine ⟨⟨I.uniq, I.made, ?_, ?_, sorted_treeDel I.sorted, fun n q hq => I.name n q (hb1 n q hq)⟩, ?_⟩
  · intro j q hq
    replace hq : upd s.table id none j = some q := hq
    by_cases hj : j = id
    · rw [hj, upd_same] at hq; cases hq
    · rw [upd_ne _ _ hj] at hq
      obtain ⟨j1, j2, j3, j4⟩ := I.tab j q hq
      refine ⟨j1, j2, (hdel q).2 ⟨j3, ?_⟩, hb2 _ _ j4 (by rw [j1]; exact hj)⟩
      rintro rfl
      exact hj (j1.symm.trans i1)
  · intro q hq
    replace hq := (hdel q).1 hq
    show upd s.table id none (s.heap q).id = some q
    rw [upd_ne]
    · exact I.tree q hq.1
    · intro e
      exact hq.2 (I.uniq q p (I.treeLt q hq.1) i2 (e.trans i1.symm))
  · intro j
    unfold Node.known
    show (upd s.table id none j).map _ = _
    by_cases hj : j = id
    · rw [if_pos hj, hj, upd_same]; rfl
    · rw [if_neg hj, upd_ne _ _ hj]

theorem applyEnd_spec {l : List Action} {s : Node} (I : Inv l s) (id : Nat) : Inv l (applyEnd s id) ∧ (applyEnd s id).lhlc = s.lhlc ∧
    ∀ j, (applyEnd s id).known j = if j = id then none else s.known j := by
  unfold applyEnd
  cases hp : s.table id with
  | none =>
    refine ⟨I, rfl, fun j => ?_⟩
    by_cases hj : j = id
    · rw [if_pos hj, hj]; exact known_none.2 hp
    · rw [if_neg hj]
  | some p =>
    have := remove_spec I hp _ (.inr rfl)
    exact ⟨this.1, rfl, this.2⟩

theorem check_spec {l : List Action} {s : Node} (I : Inv l s) (id now : Nat) : Inv l (check s id now) ∧ (check s id now).lhlc = s.lhlc ∧
    ∀ j, (check s id now).known j = if j = id then (s.known id).filter (fun r => decide (now < r.ends)) else s.known j := by
  unfold check
  cases hp : s.table id with
  | none =>
    refine ⟨I, rfl, fun j => ?_⟩
    by_cases hj : j = id
    · rw [if_pos hj, hj, known_none.2 hp]; rfl
    · rw [if_neg hj]
  | some p =>
    show Inv l (if (s.heap p).endx ≤ now then _ else s) ∧ _
    by_cases he : (s.heap p).endx ≤ now
    · simp only [if_pos he]
      have := remove_spec I hp s.byName (.inl rfl)
      refine ⟨this.1, trivial, fun j => ?_⟩
      rw [this.2]
      by_cases hj : j = id
      · rw [if_pos hj, if_pos hj]
        simp [Node.known, hp, Option.filter, Nat.not_lt.2 he]
      · rw [if_neg hj, if_neg hj]
    · simp only [if_neg he]
      refine ⟨I, trivial, fun j => ?_⟩
      by_cases hj : j = id
      · rw [if_pos hj, hj]
        simp [Node.known, hp, Option.filter, Nat.lt_of_not_le he]
      · rw [if_neg hj]

/-- A new entry in all three, before anyone has to make room. -/
theorem applyNew_spec {l : List Action} {s : Node} (I : Inv l s) {id client t0 dur hlc : Nat} (hn : s.table id = none)
    (hid : ∀ i c t, Made l i c t → i ≠ id) (ht : ∀ i t, Made l i client t → t < t0) :
    Inv (l ++ [.new id client t0 dur hlc]) (applyNew s id client t0 dur) ∧ (applyNew s id client t0 dur).lhlc = s.lhlc ∧
    ∀ j, (applyNew s id client t0 dur).known j =
      if j = id then some ⟨client, dur, t0 + dur⟩ else (s.known j).filter (fun r => decide (r.client ≠ client)) := by
  have hh : ∀ q, q < s.next → upd s.heap s.next ⟨id, client, t0, dur, t0 + dur⟩ q = s.heap q :=
    fun q hq => upd_ne _ _ (Nat.ne_of_lt hq)
  have hhp : upd s.heap s.next ⟨id, client, t0, dur, t0 + dur⟩ s.next = ⟨id, client, t0, dur, t0 + dur⟩ := upd_same _ _ _
  have hidq : ∀ q, q < s.next → (s.heap q).id ≠ id := fun q hq => hid _ _ _ (I.made q hq)
  have hU : Uniq (upd s.heap s.next ⟨id, client, t0, dur, t0 + dur⟩) (s.next + 1) := by
    intro a b ha hb e
    by_cases ea : a = s.next <;> by_cases eb : b = s.next
    · rw [ea, eb]
    · rw [ea, hhp, hh b (by omega)] at e
      exact absurd e.symm (hidq b (by omega))
    · rw [eb, hhp, hh a (by omega)] at e
      exact absurd e (hidq a (by omega))
    · rw [hh a (by omega), hh b (by omega)] at e
      exact I.uniq a b (by omega) (by omega) e
  have hM : ∀ p, p < s.next + 1 → Made (l ++ [.new id client t0 dur hlc])
      (upd s.heap s.next ⟨id, client, t0, dur, t0 + dur⟩ p).id (upd s.heap s.next ⟨id, client, t0, dur, t0 + dur⟩ p).client
      (upd s.heap s.next ⟨id, client, t0, dur, t0 + dur⟩ p).t0 := by
    intro p hp
    by_cases e : p = s.next
    · rw [e, hhp]; exact ⟨dur, hlc, by simp⟩
    · rw [hh p (by omega)]
      exact (I.made p (by omega)).mono (fun a ha => List.mem_append_left _ ha)
  have hadd := treeAdd_spec (h := upd s.heap s.next ⟨id, client, t0, dur, t0 + dur⟩) (p := s.next) (l := s.tree) (by
    intro q hq
    rw [hhp, hh q (I.treeLt q hq)]
    exact hidq q (I.treeLt q hq)) (sorted_congr (fun q hq => hh q (I.treeLt q hq)) I.sorted)
  have hlt : ∀ q ∈ treeAdd (upd s.heap s.next ⟨id, client, t0, dur, t0 + dur⟩) s.next s.tree, q < s.next + 1 := by
    intro q hq
    rcases (hadd.1 q).1 hq with e | hq
    · omega
    · have := I.treeLt q hq; omega
  unfold applyNew
  rw [hn]
  simp only [updateNames, List.foldl_cons, List.foldl_nil, nameOne, hhp]
  cases hb : s.byName client with
  | none =>
    simp only [List.foldl_nil]
    refine ⟨⟨hU, hM, ?_, ?_, hadd.2, ?_⟩, trivial, ?_⟩
    · intro j q hq
      replace hq : upd s.table id (some s.next) j = some q := hq
      by_cases hj : j = id
      · rw [hj, upd_same] at hq
        cases hq
        simp only [hhp]
        exact ⟨hj.symm, Nat.lt_succ_self _, (hadd.1 _).2 (.inl rfl), upd_same _ _ _⟩
      · rw [upd_ne _ _ hj] at hq
        obtain ⟨j1, j2, j3, j4⟩ := I.tab j q hq
        simp only [hh q j2]
        refine ⟨j1, Nat.lt_succ_of_lt j2, (hadd.1 _).2 (.inr j3), ?_⟩
        rw [upd_ne _ _ (fun e => by rw [e, hb] at j4; cases j4)]
        exact j4
    · intro q hq
      rcases (hadd.1 q).1 hq with rfl | hq
      · simp only [hhp]; exact upd_same _ _ _
      · simp only [hh q (I.treeLt q hq)]
        rw [upd_ne _ _ (hidq q (I.treeLt q hq))]
        exact I.tree q hq
    · intro n q hq
      replace hq : upd s.byName client (some s.next) n = some q := hq
      by_cases en : n = client
      · rw [en, upd_same] at hq; cases hq
        simp only [hhp]
        exact ⟨en.symm, Nat.lt_succ_self _⟩
      · rw [upd_ne _ _ en] at hq
        have := I.name n q hq
        simp only [hh q this.2]
        exact ⟨this.1, Nat.lt_succ_of_lt this.2⟩
    · intro j
      unfold Node.known
      show (upd s.table id (some s.next) j).map _ = _
      by_cases hj : j = id
      · rw [if_pos hj, hj, upd_same]; simp only [Option.map_some, hhp]
      · rw [if_neg hj, upd_ne _ _ hj]
        cases hs : s.table j with
        | none => rfl
        | some q =>
          obtain ⟨j1, j2, j3, j4⟩ := I.tab j q hs
          have hc : (s.heap q).client ≠ client := fun e => by rw [e, hb] at j4; cases j4
          simp [hh q j2, Option.filter, hc]
  | some q0 =>
    have hq0 := I.name client q0 hb
    have hne : q0 ≠ s.next := Nat.ne_of_lt hq0.2
    have ht0 : ¬ t0 ≤ (s.heap q0).t0 := by
      have := ht (s.heap q0).id (s.heap q0).t0 (by have := I.made q0 hq0.2; rwa [hq0.1] at this)
      omega
    simp only [hh q0 hq0.2, if_neg hne, if_neg ht0, List.nil_append, List.foldl_cons, List.foldl_nil, dropOne]
    have hdel := mem_treeDel hU (show q0 < s.next + 1 by omega) hlt
    have alive : ∀ j q, s.table j = some q → (s.heap q).client = client → q = q0 := by
      intro j q hq hc
      have := (I.tab j q hq).2.2.2
      rw [hc, hb] at this
      cases this; rfl
    refine ⟨⟨hU, hM, ?_, ?_, sorted_treeDel hadd.2, ?_⟩, trivial, ?_⟩
    · intro j q hq
      replace hq : upd (upd s.table id (some s.next)) (s.heap q0).id none j = some q := hq
      by_cases hj0 : j = (s.heap q0).id
      · rw [hj0, upd_same] at hq; cases hq
      · rw [upd_ne _ _ hj0] at hq
        by_cases hj : j = id
        · rw [hj, upd_same] at hq
          cases hq
          simp only [hhp]
          exact ⟨hj.symm, Nat.lt_succ_self _, (hdel _).2 ⟨(hadd.1 _).2 (.inl rfl), Ne.symm hne⟩, upd_same _ _ _⟩
        · rw [upd_ne _ _ hj] at hq
          obtain ⟨j1, j2, j3, j4⟩ := I.tab j q hq
          have hqq : q ≠ q0 := fun e => hj0 (by rw [← j1, e])
          simp only [hh q j2]
          refine ⟨j1, Nat.lt_succ_of_lt j2, (hdel _).2 ⟨(hadd.1 _).2 (.inr j3), hqq⟩, ?_⟩
          rw [upd_ne _ _ (fun e => hqq (alive j q hq e))]
          exact j4
    · intro q hq
      obtain ⟨hq, hqq⟩ := (hdel q).1 hq
      show upd (upd s.table id (some s.next)) (s.heap q0).id none _ = some q
      rcases (hadd.1 q).1 hq with rfl | hq
      · simp only [hhp]
        rw [upd_ne _ _ (Ne.symm (hidq q0 hq0.2)), upd_same]
      · have hlt' := I.treeLt q hq
        simp only [hh q hlt']
        rw [upd_ne _ _ (fun e => hqq (I.uniq q q0 hlt' hq0.2 e)), upd_ne _ _ (hidq q hlt')]
        exact I.tree q hq
    · intro n q hq
      replace hq : upd s.byName client (some s.next) n = some q := hq
      by_cases en : n = client
      · rw [en, upd_same] at hq; cases hq
        simp only [hhp]
        exact ⟨en.symm, Nat.lt_succ_self _⟩
      · rw [upd_ne _ _ en] at hq
        have := I.name n q hq
        simp only [hh q this.2]
        exact ⟨this.1, Nat.lt_succ_of_lt this.2⟩
    · intro j
      unfold Node.known
      show (upd (upd s.table id (some s.next)) (s.heap q0).id none j).map _ = _
      by_cases hj : j = id
      · rw [if_pos hj, hj, upd_ne _ _ (Ne.symm (hidq q0 hq0.2)), upd_same]; simp only [Option.map_some, hhp]
      · rw [if_neg hj]
        by_cases hj0 : j = (s.heap q0).id
        · rw [hj0, upd_same]
          cases hs : s.table (s.heap q0).id with
          | none => rfl
          | some q =>
            obtain ⟨j1, j2, j3, j4⟩ := I.tab _ q hs
            have : q = q0 := I.uniq q q0 j2 hq0.2 j1
            subst this
            simp [Option.filter, hq0.1]
        · rw [upd_ne _ _ hj0, upd_ne _ _ hj]
          cases hs : s.table j with
          | none => rfl
          | some q =>
            obtain ⟨j1, j2, j3, j4⟩ := I.tab j q hs
            have hc : (s.heap q).client ≠ client := fun e => hj0 (by rw [← j1, alive j q hs e])
            simp [hh q j2, Option.filter, hc]

/-! Runs -/

theorem orderly_snoc {l : List Action} {id client t0 dur hlc : Nat} {r : List Action} (h : Orderly (l ++ .new id client t0 dur hlc :: r)) :
    (∀ i c t, Made l i c t → i ≠ id) ∧ (∀ i t, Made l i client t → t < t0) := by
  induction l with
  | nil =>
    constructor
    · rintro i c t ⟨_, _, h⟩; cases h
    · rintro i t ⟨_, _, h⟩; cases h
  | cons a l ih =>
    have h' := ih h.2
    have hm : Made (l ++ .new id client t0 dur hlc :: r) id client t0 := ⟨dur, hlc, by simp⟩
    constructor
    · rintro i c t ⟨d, x, hx⟩
      rcases List.mem_cons.1 hx with e | hx
      · subst e
        exact Ne.symm (h.1 id client t0 hm).1
      · exact h'.1 i c t ⟨d, x, hx⟩
    · rintro i t ⟨d, x, hx⟩
      rcases List.mem_cons.1 hx with e | hx
      · subst e
        exact (h.1 id client t0 hm).2 rfl
      · exact h'.2 i t ⟨d, x, hx⟩

theorem shows_strike {l : List Action} {s : Node} {L : Ledger} (I : Inv l s) (h : Shows s L) :
    Inv l (gc s) ∧ Shows (gc s) L.strike := by
  obtain ⟨g1, g2, g3⟩ := gc_spec I
  refine ⟨g1, g2.trans h.1, ?_⟩
  intro id
  rw [g3, h.2, h.1]
  rfl

theorem shows_at {s : Node} {L : Ledger} (h : Shows s L) (t : Nat) : Shows (reach s t) (L.at_ t) :=
  ⟨by show max s.lhlc t = max L.clock t; rw [h.1], h.2⟩

theorem step_refines {l r : List Action} {s : Node} {L : Ledger} (a : Action) (ha : a.plain = true) (ho : Orderly (l ++ a :: r))
    (I : Inv l s) (h : Shows s L) : Inv (l ++ [a]) (step s a) ∧ Shows (step s a) (L.step a) := by
  have hl : ∀ b ∈ l, b ∈ l ++ [a] := fun b hb => List.mem_append_left _ hb
  cases a with
  | new id client t0 dur hlc =>
    have ho' := orderly_snoc ho
    have hn : s.table id = none := by
      cases hs : s.table id with
      | none => rfl
      | some p =>
        obtain ⟨i1, i2, _, _⟩ := I.tab id p hs
        exact absurd i1 (ho'.1 _ _ _ (I.made p i2))
    have hk : L.known id = none := by rw [← h.2]; exact known_none.2 hn
    obtain ⟨n1, n2, n3⟩ := applyNew_spec (dur := dur) (hlc := hlc) (I.reach hlc) (s := reach s hlc) hn ho'.1 ho'.2
    simp only [step, Ledger.step, hk, Option.isSome_none, Bool.false_eq_true, if_false]
    refine shows_strike n1 ⟨n2.trans (shows_at h hlc).1, ?_⟩
    intro j
    rw [n3]
    show (if j = id then _ else ((reach s hlc).known j).filter _) = if j = id then _ else (L.known j).filter _
    rw [show (reach s hlc).known j = L.known j from h.2 j]
  | close id hlc =>
    obtain ⟨n1, n2, n3⟩ := applyEnd_spec (I.reach hlc) id
    refine shows_strike (n1.mono hl) ⟨n2.trans (shows_at h hlc).1, ?_⟩
    intro j
    rw [n3]
    show (if j = id then none else (reach s hlc).known j) = if j = id then none else L.known j
    rw [show (reach s hlc).known j = L.known j from h.2 j]
  | use id tm hlc =>
    simp only [step, Ledger.step]
    cases hs : s.table id with
    | none =>
      have hk : L.known id = none := by rw [← h.2]; exact known_none.2 hs
      simp only [hk, Option.isSome_none, Bool.false_eq_true, if_false]
      exact ⟨(I.reach hlc).mono hl, shows_at h hlc⟩
    | some p =>
      have hk : (L.known id).isSome = true := by rw [← h.2]; simp [Node.known, hs]
      simp only [hk, if_true]
      obtain ⟨n1, n2, n3⟩ := refresh_spec (I.reach hlc) (s := reach s hlc) hs tm
      refine shows_strike (n1.mono hl) ⟨n2.trans (shows_at h hlc).1, ?_⟩
      intro j
      rw [n3]
      show (if j = id then ((reach s hlc).known id).map _ else (reach s hlc).known j) = if j = id then (L.known id).map _ else L.known j
      rw [show (reach s hlc).known j = L.known j from h.2 j, show (reach s hlc).known id = L.known id from h.2 id]
  | other hlc => exact shows_strike ((I.reach hlc).mono hl) (shows_at h hlc)
  | read id now =>
    simp only [step, Ledger.step]
    cases hs : s.table id with
    | none =>
      have hk : L.known id = none := by rw [← h.2]; exact known_none.2 hs
      refine ⟨I.mono hl, h.1, ?_⟩
      intro j
      show s.known j = if j = id then (L.known id).map _ else L.known j
      by_cases hj : j = id
      · rw [if_pos hj, hk, hj]; exact known_none.2 hs
      · rw [if_neg hj]; exact h.2 j
    | some p =>
      obtain ⟨n1, n2, n3⟩ := refresh_spec I hs now
      refine ⟨n1.mono hl, n2.trans h.1, ?_⟩
      intro j
      rw [n3, h.2, h.2]
      rfl
  | check id now =>
    obtain ⟨n1, n2, n3⟩ := check_spec I id now
    simp only [step, Ledger.step]
    refine ⟨n1.mono hl, ?_, ?_⟩
    · rw [n2, h.1]
      cases L.known id with
      | none => rfl
      | some r => simp only; split <;> rfl
    · intro j
      rw [n3, h.2, h.2]
      cases hk : L.known id with
      | none =>
        simp only
        by_cases hj : j = id
        · rw [if_pos hj, hj, hk]; rfl
        · rw [if_neg hj]
      | some r =>
        simp only
        by_cases he : r.ends ≤ now
        · rw [if_pos he]
          show _ = if j = id then none else L.known j
          by_cases hj : j = id
          · rw [if_pos hj, if_pos hj]; simp [Option.filter, Nat.not_lt.2 he]
          · rw [if_neg hj, if_neg hj]
        · rw [if_neg he]
          by_cases hj : j = id
          · rw [if_pos hj, hj, hk]; simp [Option.filter, Nat.lt_of_not_le he]
          · rw [if_neg hj]
  | tick => exact shows_strike (I.mono hl) h
  | snapshot _ => cases ha
  | restart => cases ha

theorem inv_init : Inv [] {} where
  uniq := fun p q hp => absurd hp (Nat.not_lt_zero _)
  made := fun p hp => absurd hp (Nat.not_lt_zero _)
  tab := fun id p h => by cases h
  tree := fun p h => by cases h
  sorted := List.Pairwise.nil
  name := fun n p h => by cases h

theorem run_refines_from (r : List Action) : ∀ (l : List Action) (s : Node) (L : Ledger), (∀ a ∈ r, a.plain = true) → Orderly (l ++ r) →
    Inv l s → Shows s L → Inv (l ++ r) (run s r) ∧ Shows (run s r) (L.run r) := by
  induction r with
  | nil => intro l s L _ _ I h; rw [List.append_nil]; exact ⟨I, h⟩
  | cons a r ih =>
    intro l s L hp ho I h
    obtain ⟨I', h'⟩ := step_refines a (hp a List.mem_cons_self) ho I h
    have e : l ++ a :: r = (l ++ [a]) ++ r := by simp
    rw [e] at ho ⊢
    exact ih _ _ _ (fun b hb => hp b (List.mem_cons_of_mem _ hb)) ho I' h'

theorem run_refines {r : List Action} (hp : ∀ a ∈ r, a.plain = true) (ho : Orderly r) :
    Inv r (run {} r) ∧ Shows (run {} r) (Ledger.run {} r) :=
  run_refines_from r [] {} {} hp ho inv_init ⟨rfl, fun _ => rfl⟩

end Verif.SessTable
