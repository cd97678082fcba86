import Verif.Proofs.Prune
/-
More lemmas for C128 and C129: when requests are sent, what the periodic check closes, and the age of duplicates.
-/
namespace Verif.Prune

theorem pruneDown_open {u : Sys} {x : Bool} {g k : Cid} {z : Bool} {c : Cid}
    (h : (pruneDown u x g k).open_ z c = true) : u.open_ z c = true := by
  unfold pruneDown at h
  dsimp only at h
  split at h
  · split at h <;> exact h
  · split at h
    · exact h
    · split at h
      · replace h : (u.shut x g).open_ z c = true := h
        rw [shut_open] at h
        split at h
        · cases h
        · exact h
      · exact h

theorem pruneDown_sent {u : Sys} {x : Bool} {g k : Cid} {y : Bool} {p : Pkt} (h : p ∈ (pruneDown u x g k).sent y) :
    p ∈ u.sent y ∨ (y = !x ∧ p.victim = g ∧ p.keeper = k ∧ (p.on = g ∨ p.on = k) ∧ u.open_ x g = true ∧ u.open_ x k = true) := by
  unfold pruneDown at h
  dsimp only at h
  split at h
  · split at h <;> exact .inl h
  · next hg =>
    split at h
    · exact .inl h
    · next hk =>
      split at h
      · exact .inl h
      · replace h : p ∈ upd u.sent (!x) _ y := h
        have og : u.open_ x g = true := by simpa using hg
        have ok : u.open_ x k = true := by simpa using hk
        rw [upd_apply] at h
        split at h
        · next e =>
          rcases List.mem_cons.1 h with rfl | h
          · exact .inr ⟨e, rfl, rfl, .inl rfl, og, ok⟩
          · rcases List.mem_cons.1 h with rfl | h
            · exact .inr ⟨e, rfl, rfl, .inr rfl, og, ok⟩
            · subst e; exact .inl h
        · exact .inl h

/-- A request is due: the sender knows both circuits as duplicates, the victim for ten seconds. -/
structure Due (s : Sys) (x : Bool) (now : Nat) (p : Pkt) : Prop where
  client : s.replicas = false
  victim : p.victim ∈ (s.side x).dups
  old : (s.side x).seen p.victim + 10 ≤ now
  keeper : p.keeper ∈ (s.side x).dups
  lowest : ∀ c ∈ (s.side x).dups, p.keeper ≤ c
  other : p.keeper < p.victim
  on : p.on = p.victim ∨ p.on = p.keeper
  openV : s.open_ x p.victim = true
  openK : s.open_ x p.keeper = true

theorem check_sent {s : Sys} {x : Bool} {now : Nat} {y : Bool} {p : Pkt} (h : p ∈ (check s x now).sent y) :
    p ∈ s.sent y ∨ (y = !x ∧ Due s x now p) := by
  refine (check_ind (fun u => (∀ z c, u.open_ z c = true → s.open_ z c = true) ∧
    ∀ p, p ∈ u.sent y → p ∈ s.sent y ∨ (y = !x ∧ Due s x now p)) s x now ⟨fun _ _ h => h, fun _ h => .inl h⟩ ?_).2 p h
  intro u k g hr hl hg hu
  refine ⟨fun z c hz => hu.1 z c (pruneDown_open hz), ?_⟩
  intro q hq
  rcases pruneDown_sent hq with hq | ⟨e, rfl, rfl, hon, o1, o2⟩
  · exact hu.2 q hq
  · have hlt := goner_gt hl hg
    rw [mem_goners] at hg
    exact .inr ⟨e, hr, hg.1, hg.2.2, (least_spec hl).1, (least_spec hl).2, hlt, hon, hu.1 _ _ o1, hu.1 _ _ o2⟩

theorem shuts_sent (l : List Cid) (s : Sys) (x : Bool) : (l.foldl (fun s c => s.shut x c) s).sent = s.sent := by
  induction l generalizing s with
  | nil => rfl
  | cons c l ih => rw [List.foldl_cons, ih]; rfl

theorem shuts_side (l : List Cid) (s : Sys) (x : Bool) : (l.foldl (fun s c => s.shut x c) s).side = s.side := by
  induction l generalizing s with
  | nil => rfl
  | cons c l ih => rw [List.foldl_cons, ih]; rfl

theorem shuts_wire (l : List Cid) (s : Sys) (x : Bool) : (l.foldl (fun s c => s.shut x c) s).wire = s.wire := by
  induction l generalizing s with
  | nil => rfl
  | cons c l ih => rw [List.foldl_cons, ih]; rfl

theorem shuts_replicas (l : List Cid) (s : Sys) (x : Bool) : (l.foldl (fun s c => s.shut x c) s).replicas = s.replicas := by
  induction l generalizing s with
  | nil => rfl
  | cons c l ih => rw [List.foldl_cons, ih]; rfl

theorem shuts_open (l : List Cid) (s : Sys) (x : Bool) (y : Bool) (d : Cid) :
    (l.foldl (fun s c => s.shut x c) s).open_ y d = if y = x ∧ d ∈ l then false else s.open_ y d := by
  induction l generalizing s with
  | nil => simp
  | cons c l ih =>
    rw [List.foldl_cons, ih, shut_open]
    by_cases e : y = x
    · by_cases e1 : d ∈ l
      · simp [e, e1]
      · by_cases e2 : d = c
        · simp [e, e2]
        · simp [e, e1, e2]
    · simp [e]

theorem handle_sent {s t : Sys} {x : Bool} {p : Pkt} (h : handle s x p = some t) : t.sent = s.sent := by
  rcases handle_cases h with rfl | ⟨_, _, _, rfl | ⟨_, rfl⟩⟩ <;> rfl

theorem step_sent {s t : Sys} {a : Action} (h : step s a = some t) {y : Bool} {p : Pkt} (hp : p ∈ t.sent y) :
    p ∈ s.sent y ∨ ∃ now, (a = .check (!y) now ∨ a = .tick (!y) now) ∧ Due s (!y) now p := by
  cases a with
  | create c =>
    simp only [step, Option.ite_none_left_eq_some] at h
    obtain ⟨_, h⟩ := h
    cases h
    exact .inl hp
  | arrive x c now =>
    simp only [step] at h
    split at h
    · cases h; exact .inl hp
    · cases h
  | check x now =>
    simp only [step, Option.some.injEq] at h
    subst h
    rcases check_sent hp with h | ⟨rfl, h⟩
    · exact .inl h
    · exact .inr ⟨now, .inl (by simp), by simpa using h⟩
  | tick x now =>
    simp only [step, Option.some.injEq] at h
    subst h
    rw [tick, shuts_sent] at hp
    rcases check_sent hp with h | ⟨rfl, h⟩
    · exact .inl h
    · exact .inr ⟨now, .inr (by simp), by simpa using h⟩
  | deliver x k =>
    simp only [step] at h
    split at h
    · cases h
    · rw [handle_sent h] at hp
      exact .inl hp
  | hear x c =>
    simp only [step] at h
    split at h
    · cases h; exact .inl hp
    · cases h
  | gone x c =>
    simp only [step] at h
    split at h
    · cases h; exact .inl hp
    · cases h
  | peerLeft x =>
    simp only [step, Option.ite_none_left_eq_some] at h
    obtain ⟨_, h⟩ := h
    split at h <;> cases h <;> exact .inl hp
  | lost x c =>
    simp only [step] at h
    split at h
    · cases h; exact .inl hp
    · cases h

/-! The age of duplicates -/

def Older (n m : Side) : Prop := ∀ c ∈ m.dups, c ∈ n.dups ∧ m.seen c = n.seen c

theorem Older.refl (n : Side) : Older n n := fun _ h => ⟨h, rfl⟩

theorem older_cleanup (n : Side) (c : Cid) : Older n (cleanup n c).1 := by
  intro d hd
  unfold cleanup at hd ⊢
  dsimp only at hd ⊢
  split at hd
  · next e => rw [if_pos e]; exact ⟨(List.mem_filter.1 hd).1, rfl⟩
  · next e => rw [if_neg e]; exact ⟨(List.mem_filter.1 hd).1, rfl⟩

theorem older_setSide {s : Sys} {x : Bool} {n : Side} (h : Older (s.side x) n) (y : Bool) :
    Older (s.side y) ((s.setSide x n).side y) := by
  show Older _ (upd s.side x n y)
  rw [upd_apply]
  split
  · next e => subst e; exact h
  · exact Older.refl _

theorem older_upd {f : Bool → Side} {x : Bool} {n : Side} (h : Older (f x) n) (y : Bool) : Older (f y) (upd f x n y) := by
  rw [upd_apply]
  split
  · next e => subst e; exact h
  · exact Older.refl _

theorem older_pruneDown (s : Sys) (x : Bool) (g k : Cid) (y : Bool) : Older (s.side y) ((pruneDown s x g k).side y) := by
  unfold pruneDown
  dsimp only
  split
  · split
    · exact older_setSide (n := { (cleanup (s.side x) g).1 with cur := none }) (older_cleanup (s.side x) g) y
    · exact Older.refl _
  · split
    · exact Older.refl _
    · split
      · exact older_setSide (s := s.shut x g) (n := { s.side x with cur := none }) (Older.refl (s.side x)) y
      · show Older _ (upd s.side x _ y); exact older_upd (f := s.side) (by intro c hc; exact ⟨hc, rfl⟩) y

theorem older_check (s : Sys) (x : Bool) (now : Nat) (y : Bool) : Older (s.side y) ((check s x now).side y) :=
  check_ind (fun u => Older (s.side y) (u.side y)) s x now (Older.refl _) (fun u k g _ _ _ hu c hc => by
    obtain ⟨h1, h2⟩ := older_pruneDown u x g k y c hc
    exact ⟨(hu c h1).1, h2.trans (hu c h1).2⟩)

theorem step_older {s t : Sys} {a : Action} (h : step s a = some t) (y : Bool)
    (ha : ∀ c now, a ≠ .arrive y c now) : Older (s.side y) (t.side y) := by
  cases a with
  | create c =>
    simp only [step, Option.ite_none_left_eq_some] at h
    obtain ⟨_, h⟩ := h
    cases h
    exact Older.refl _
  | arrive x c now =>
    simp only [step] at h
    split at h
    · cases h
      show Older _ (upd s.side x _ y)
      rw [upd_apply, if_neg (fun e => ha c now (by rw [e]))]
      exact Older.refl _
    · cases h
  | check x now =>
    simp only [step, Option.some.injEq] at h
    subst h
    exact older_check s x now y
  | tick x now =>
    simp only [step, Option.some.injEq] at h
    subst h
    rw [tick, shuts_side]
    exact older_check s x now y
  | deliver x k =>
    simp only [step] at h
    split at h
    · cases h
    · next p hp =>
      rcases handle_cases h with rfl | ⟨_, _, _, rfl | ⟨_, rfl⟩⟩
      · exact Older.refl _
      · show Older _ (upd s.side x _ y); exact older_upd (f := s.side) (by intro c hc; exact ⟨hc, rfl⟩) y
      · refine older_setSide (s := Sys.shut { s with wire := _, got := _ } x p.victim) (x := x) (n := _) ?_ y
        exact fun c hc => ⟨hc, rfl⟩
  | hear x c =>
    simp only [step] at h
    split at h
    · cases h; exact Older.refl _
    · cases h
  | gone x c =>
    simp only [step] at h
    split at h
    · cases h
      refine older_setSide (s := s) (x := x) (n := _) ?_ y
      exact fun d hd => older_cleanup (s.side x) c d hd
    · cases h
  | peerLeft x =>
    simp only [step, Option.ite_none_left_eq_some] at h
    obtain ⟨_, h⟩ := h
    split at h <;> cases h
    · show Older _ (upd s.side x _ y); exact older_upd (f := s.side) (by intro c hc; exact ⟨hc, rfl⟩) y
    · show Older _ (upd s.side x _ y); exact older_upd (f := s.side) (by intro c hc; exact ⟨hc, rfl⟩) y
  | lost x c =>
    simp only [step] at h
    split at h
    · cases h; exact Older.refl _
    · cases h

theorem run_snoc (s : Sys) (l : List Action) (a : Action) : run s (l ++ [a]) = (run s l).bind (fun t => step t a) := by
  induction l generalizing s with
  | nil => simp [run]
  | cons b l ih =>
    show ((step s b).bind fun t => run t (l ++ [a])) = _
    cases h : step s b with
    | none => simp [run, h]
    | some u => simp [run, h, ih]

theorem snoc_ind {α : Type} {P : List α → Prop} (h0 : P []) (h1 : ∀ l a, P l → P (l ++ [a])) (l : List α) : P l := by
  have : ∀ m : List α, P m.reverse := by
    intro m
    induction m with
    | nil => exact h0
    | cons a m ih => rw [List.reverse_cons]; exact h1 _ a ih
  have h := this l.reverse
  rwa [List.reverse_reverse] at h

/-- Every duplicate has been one since a circuit came while another was known. -/
theorem dup_since (r : Bool) (l : List Action) : ∀ s, run { replicas := r } l = some s → ∀ x, ∀ c ∈ (s.side x).dups,
    ∃ l1 l2 d u now p, l = l1 ++ .arrive x d now :: l2 ∧ run { replicas := r } l1 = some u ∧
      (u.side x).prior = some p ∧ (c = d ∨ c = p) ∧ (s.side x).seen c = now := by
  induction l using snoc_ind with
  | h0 => intro s hs x c hc; cases hs; cases hc
  | h1 l a ih =>
    intro t ht x c hc
    rw [run_snoc, Option.bind_eq_some_iff] at ht
    obtain ⟨s, hs, ht⟩ := ht
    have old : c ∈ (s.side x).dups → (t.side x).seen c = (s.side x).seen c →
        ∃ l1 l2 d u now p, l ++ [a] = l1 ++ .arrive x d now :: l2 ∧ run { replicas := r } l1 = some u ∧
        (u.side x).prior = some p ∧ (c = d ∨ c = p) ∧ (t.side x).seen c = now := by
      intro h1 h2
      obtain ⟨l1, l2, d, u, now, p, e, hu, hp, hd, hn⟩ := ih s hs x c h1
      exact ⟨l1, l2 ++ [a], d, u, now, p, by rw [e]; simp, hu, hp, hd, h2.trans hn⟩
    by_cases ha : ∃ d now, a = .arrive x d now
    · obtain ⟨d, now, rfl⟩ := ha
      simp only [step] at ht
      split at ht
      · cases ht
        replace hc : c ∈ (upd s.side x _ x).dups := hc
        have hseen : ((s.setSide x (arrive (s.side x) d now)).side x) = arrive (s.side x) d now := upd_same _ _ _
        rw [upd_same] at hc
        rw [hseen] at old ⊢
        have new : (∃ p, (s.side x).prior = some p ∧ (c = d ∨ c = p)) → (arrive (s.side x) d now).seen c = now →
            ∃ l1 l2 d' u now' p, l ++ [.arrive x d now] = l1 ++ .arrive x d' now' :: l2 ∧ run { replicas := r } l1 = some u ∧
            (u.side x).prior = some p ∧ (c = d' ∨ c = p) ∧ (arrive (s.side x) d now).seen c = now' := by
          rintro ⟨p, h1, h2⟩ h3
          exact ⟨l, [], d, s, now, p, rfl, hs, h1, h2, h3⟩
        generalize s.side x = n at hc old new
        unfold arrive at hc old new ⊢
        cases hp : n.prior with
        | none =>
          rw [hp] at hc old new
          exact old hc rfl
        | some p =>
          rw [hp] at hc old new
          dsimp only at hc old new ⊢
          by_cases e : c = d
          · exact new ⟨p, rfl, .inl e⟩ (by rw [e, upd_same])
          · rcases List.mem_cons.1 hc with h | h
            · exact absurd h e
            · by_cases e2 : p ∈ n.dups
              · rw [if_pos e2] at h
                exact old h (by rw [upd_apply, if_neg e, if_pos e2])
              · rw [if_neg e2] at h
                rcases List.mem_cons.1 h with h | h
                · exact new ⟨p, rfl, .inr h⟩ (by rw [upd_apply, if_neg e, if_neg e2, h, upd_same])
                · have e3 : c ≠ p := fun e3 => e2 (e3 ▸ h)
                  exact old h (by rw [upd_apply, if_neg e, if_neg e2, upd_apply, if_neg e3])
      · cases ht
    · obtain ⟨h1, h2⟩ := step_older ht x (fun d now e => ha ⟨d, now, e⟩) c hc
      exact old h1 h2

/-! Replicas whose tables agree -/

/-- Both nodes send on circuit `c`, it is open, and no request is under way. -/
structure Agreed (c : Cid) (s : Sys) : Prop where
  repl : s.replicas = true
  wire : ∀ x, s.wire x = []
  cur : ∀ x, (s.side x).cur = some c
  live : ∀ x, s.open_ x c = true

theorem check_replicas {s : Sys} (h : s.replicas = true) (x : Bool) (now : Nat) : check s x now = s := by
  unfold check
  dsimp only
  rw [if_pos (.inr (.inr (.inr h)))]

theorem Agreed.setSide {c : Cid} {s : Sys} (h : Agreed c s) (x : Bool) {n : Side} (hn : n.cur = some c) :
    Agreed c (s.setSide x n) := by
  refine ⟨h.repl, h.wire, ?_, h.live⟩
  intro y
  show (upd s.side x n y).cur = _
  rw [upd_apply]
  split
  · exact hn
  · exact h.cur y

theorem cleanup_cur (n : Side) (c : Cid) : (cleanup n c).1.cur = n.cur := by
  unfold cleanup
  dsimp only
  split <;> rfl

def Action.calm : Action → Bool
  | .arrive _ _ _ => false
  | .peerLeft _ => false
  | .lost _ _ => false
  | _ => true

theorem Agreed.step {c : Cid} {s t : Sys} (h : Agreed c s) {a : Action} (ha : a.calm = true) (he : step s a = some t) :
    Agreed c t := by
  cases a with
  | create d =>
    simp only [Prune.step, Option.ite_none_left_eq_some] at he
    obtain ⟨_, he⟩ := he
    cases he
    exact ⟨h.repl, h.wire, h.cur, h.live⟩
  | arrive x d now => cases ha
  | check x now =>
    simp only [Prune.step, Option.some.injEq] at he
    subst he
    rw [check_replicas h.repl]
    exact h
  | tick x now =>
    simp only [Prune.step, Option.some.injEq] at he
    subst he
    rw [tick, check_replicas h.repl]
    refine ⟨by rw [shuts_replicas]; exact h.repl, by rw [shuts_wire]; exact h.wire, by rw [shuts_side]; exact h.cur, ?_⟩
    intro y
    rw [shuts_open, if_neg]
    · exact h.live y
    · rintro ⟨_, hm⟩
      have := (List.mem_filter.1 hm).2
      rw [h.cur x] at this
      simp at this
  | deliver x k =>
    simp only [Prune.step] at he
    rw [h.wire x] at he
    cases he
  | hear x d =>
    simp only [Prune.step] at he
    split at he
    · next hd =>
      cases he
      refine ⟨h.repl, h.wire, h.cur, ?_⟩
      intro y
      rw [shut_open, if_neg]
      · exact h.live y
      · rintro ⟨_, rfl⟩
        rw [h.live] at hd
        cases hd.2
    · cases he
  | gone x d =>
    simp only [Prune.step] at he
    split at he
    · cases he
      exact h.setSide x (by show (Prune.cleanup (s.side x) d).1.cur = _; rw [cleanup_cur]; exact h.cur x)
    · cases he
  | peerLeft x => cases ha
  | lost x d => cases ha

theorem Agreed.run {c : Cid} {s t : Sys} (h : Agreed c s) {l : List Action} (hl : ∀ a ∈ l, a.calm = true)
    (he : run s l = some t) : Agreed c t := by
  induction l generalizing s with
  | nil => cases he; exact h
  | cons a l ih =>
    simp only [Prune.run, Option.bind_eq_some_iff] at he
    obtain ⟨u, hu, he⟩ := he
    exact ih (h.step (hl a List.mem_cons_self) hu) (fun b hb => hl b (List.mem_cons_of_mem _ hb)) he

end Verif.Prune
