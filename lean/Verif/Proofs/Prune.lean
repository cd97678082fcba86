import Verif.Model.Prune
/-
Invariants for the pruning of circuits, C128 and C129.
-/
namespace Verif.Prune

@[simp] theorem upd_same {α β : Type} [DecidableEq α] (f : α → β) (a : α) (b : β) : upd f a b a = b := by simp [upd]
theorem upd_apply {α β : Type} [DecidableEq α] (f : α → β) (a : α) (b : β) (x : α) :
    upd f a b x = if x = a then b else f x := rfl

theorem least_spec {l : List Cid} {k : Cid} (h : least l = some k) : k ∈ l ∧ ∀ c ∈ l, k ≤ c := by
  induction l generalizing k with
  | nil => cases h
  | cons c l ih =>
    unfold least at h
    cases hl : least l with
    | none =>
      rw [hl] at h
      cases h
      have : l = [] := by
        cases l with
        | nil => rfl
        | cons a l' =>
          exfalso
          unfold least at hl
          cases h' : least l' <;> rw [h'] at hl <;> cases hl
      subst this
      simp
    | some d =>
      rw [hl] at h
      obtain ⟨h1, h2⟩ := ih hl
      simp only [Option.some.injEq] at h
      by_cases e : c < d
      · rw [if_pos e] at h
        subst h
        refine ⟨List.mem_cons_self, ?_⟩
        intro y hy
        rcases List.mem_cons.1 hy with rfl | hy
        · exact Nat.le_refl _
        · exact Nat.le_of_lt (Nat.lt_of_lt_of_le e (h2 y hy))
      · rw [if_neg e] at h
        subst h
        refine ⟨List.mem_cons_of_mem _ h1, ?_⟩
        intro y hy
        rcases List.mem_cons.1 hy with rfl | hy
        · exact Nat.le_of_not_lt e
        · exact h2 y hy

theorem mem_goners {n : Side} {k now g : Nat} : g ∈ goners n k now ↔ g ∈ n.dups ∧ g ≠ k ∧ n.seen g + 10 ≤ now := by
  simp [goners]

/-! The smallest circuit -/

structure SideInv (made : List Cid) (n : Side) : Prop where
  dups : ∀ c ∈ n.dups, c ∈ made
  prior : ∀ c, n.prior = some c → c ∈ made
  audit : ∀ c ∈ n.audit, c ∈ n.came
  came : ∀ c ∈ n.came, c ∈ made
  reg : ∀ c ∈ n.came, c ∉ n.audit → ∃ k ∈ made, k < c

structure Inv (s : Sys) : Prop where
  side : ∀ x, SideInv s.made (s.side x)
  pkt : ∀ x, ∀ p ∈ s.wire x, p.keeper ∈ s.made ∧ p.keeper < p.victim
  shut : ∀ x c, s.open_ x c = false → ∃ k ∈ s.made, k < c

theorem SideInv.mono {made : List Cid} {n : Side} (h : SideInv made n) (c : Cid) : SideInv (c :: made) n :=
  ⟨fun d hd => List.mem_cons_of_mem _ (h.dups d hd), fun d hd => List.mem_cons_of_mem _ (h.prior d hd), h.audit,
   fun d hd => List.mem_cons_of_mem _ (h.came d hd),
   fun d hd hn => (h.reg d hd hn).elim fun k hk => ⟨k, List.mem_cons_of_mem _ hk.1, hk.2⟩⟩

theorem Inv.setSide {s : Sys} (h : Inv s) (x : Bool) {n : Side} (hn : SideInv s.made n) : Inv (s.setSide x n) where
  side := by
    intro y
    show SideInv s.made (upd s.side x n y)
    rw [upd_apply]
    split
    · exact hn
    · exact h.side y
  pkt := h.pkt
  shut := h.shut

theorem shut_open (s : Sys) (x : Bool) (c : Cid) (y : Bool) (d : Cid) :
    (s.shut x c).open_ y d = if y = x ∧ d = c then false else s.open_ y d := by
  show upd s.open_ x (upd (s.open_ x) c false) y d = _
  rw [upd_apply]
  by_cases e : y = x
  · subst e
    simp only [if_true, true_and]
    rw [upd_apply]
  · simp [e]

theorem Inv.shutC {s : Sys} (h : Inv s) (x : Bool) {c : Cid} (hc : ∃ k ∈ s.made, k < c) : Inv (s.shut x c) where
  side := h.side
  pkt := h.pkt
  shut := by
    intro y d hd
    rw [shut_open] at hd
    split at hd
    · next e => rw [e.2]; exact hc
    · exact h.shut y d hd

theorem SideInv.arrive {made : List Cid} {n : Side} (h : SideInv made n) {c : Cid} (hc : c ∈ made) (now : Nat) :
    SideInv made (arrive n c now) := by
  unfold Prune.arrive
  have hreg : ∀ d ∈ c :: n.came, d ∉ c :: n.audit → ∃ k ∈ made, k < d := by
    intro d hd hn
    rcases List.mem_cons.1 hd with rfl | hd
    · exact absurd List.mem_cons_self hn
    · exact h.reg d hd (fun e => hn (List.mem_cons_of_mem _ e))
  have haud : ∀ d ∈ c :: n.audit, d ∈ c :: n.came := by
    intro d hd
    rcases List.mem_cons.1 hd with rfl | hd
    · exact List.mem_cons_self
    · exact List.mem_cons_of_mem _ (h.audit d hd)
  have hcame : ∀ d ∈ c :: n.came, d ∈ made := by
    intro d hd
    rcases List.mem_cons.1 hd with rfl | hd
    · exact hc
    · exact h.came d hd
  cases hp : n.prior with
  | none => exact ⟨h.dups, fun d hd => by cases hd; exact hc, haud, hcame, hreg⟩
  | some p =>
    refine ⟨?_, fun d hd => h.prior d (hp.trans hd), haud, hcame, hreg⟩
    intro d hd
    rcases List.mem_cons.1 hd with rfl | hd
    · exact hc
    · replace hd : d ∈ (if p ∈ n.dups then n.dups else p :: n.dups) := hd
      split at hd
      · exact h.dups d hd
      · rcases List.mem_cons.1 hd with rfl | hd
        · exact h.prior _ hp
        · exact h.dups d hd

theorem SideInv.cleanup {made : List Cid} {n : Side} (h : SideInv made n) {c : Cid} (hc : ∃ k ∈ made, k < c) :
    SideInv made (cleanup n c).1 := by
  have hd : ∀ d ∈ n.dups.filter (· ≠ c), d ∈ made := fun d hd => h.dups d (List.mem_filter.1 hd).1
  have ha : ∀ d ∈ n.audit.filter (· ≠ c), d ∈ n.came := fun d hd => h.audit d (List.mem_filter.1 hd).1
  have hr : ∀ d ∈ n.came, d ∉ n.audit.filter (· ≠ c) → ∃ k ∈ made, k < d := by
    intro d hd hn
    by_cases e : d = c
    · rw [e]; exact hc
    · exact h.reg d hd (fun e' => hn (List.mem_filter.2 ⟨e', by simp [e]⟩))
  unfold Prune.cleanup
  dsimp only
  split
  · exact ⟨hd, fun d hd => (nomatch hd), ha, h.came, hr⟩
  · exact ⟨hd, h.prior, ha, h.came, hr⟩

theorem SideInv.noCur {made : List Cid} {n : Side} (h : SideInv made n) (o : Option Cid) :
    SideInv made { n with cur := o } := ⟨h.dups, h.prior, h.audit, h.came, h.reg⟩

theorem pruneDown_made (s : Sys) (x : Bool) (g k : Cid) : (pruneDown s x g k).made = s.made := by
  unfold pruneDown
  dsimp only
  split
  · split <;> rfl
  · split
    · rfl
    · split <;> rfl

theorem Inv.pruneDown {s : Sys} (h : Inv s) (x : Bool) {g k : Cid} (hk : k ∈ s.made) (hlt : k < g) :
    Inv (pruneDown s x g k) := by
  unfold Prune.pruneDown
  dsimp only
  split
  · split
    · exact h.setSide x (((h.side x).cleanup ⟨k, hk, hlt⟩).noCur none)
    · exact h
  · split
    · exact h
    · split
      · exact (h.shutC x ⟨k, hk, hlt⟩).setSide x ((h.side x).noCur none)
      · have hn : SideInv s.made { s.side x with count := upd (s.side x).count g ((s.side x).count g + 1) } :=
          ⟨(h.side x).dups, (h.side x).prior, (h.side x).audit, (h.side x).came, (h.side x).reg⟩
        have h' := h.setSide x hn
        refine ⟨h'.side, ?_, h'.shut⟩
        intro y p hp
        replace hp : p ∈ upd s.wire (!x) _ y := hp
        rw [upd_apply] at hp
        split at hp
        · next e =>
          rcases List.mem_cons.1 hp with rfl | hp
          · exact ⟨hk, hlt⟩
          · rcases List.mem_cons.1 hp with rfl | hp
            · exact ⟨hk, hlt⟩
            · exact h.pkt _ p hp
        · exact h.pkt y p hp

theorem check_ind (P : Sys → Prop) (s : Sys) (x : Bool) (now : Nat) (h : P s)
    (hs : ∀ u k g, s.replicas = false → least (s.side x).dups = some k → g ∈ goners (s.side x) k now → P u →
      P (pruneDown u x g k)) : P (check s x now) := by
  unfold check
  dsimp only
  split
  · exact h
  · next hc =>
    have hr : s.replicas = false := by
      cases hr : s.replicas with
      | false => rfl
      | true => exact absurd (.inr (.inr (.inr hr))) hc
    clear hc
    split
    · exact h
    · next keeper hl =>
      have hg := fun u g => hs u keeper g hr hl
      clear hs hl hr
      generalize goners (s.side x) keeper now = l at hg
      induction l generalizing s with
      | nil => exact h
      | cons g l ih =>
        rw [List.foldl_cons]
        exact ih _ (hg s g List.mem_cons_self h) (fun u g' hg' hu => hg u g' (List.mem_cons_of_mem _ hg') hu)

theorem goner_gt {n : Side} {k g now : Nat} (hl : least n.dups = some k) (hg : g ∈ goners n k now) : k < g := by
  rw [mem_goners] at hg
  exact Nat.lt_of_le_of_ne ((least_spec hl).2 g hg.1) (Ne.symm hg.2.1)

theorem Inv.check {s : Sys} (h : Inv s) (x : Bool) (now : Nat) : Inv (check s x now) := by
  refine (check_ind (fun u => Inv u ∧ u.made = s.made) s x now ⟨h, rfl⟩ ?_).1
  intro u k g _ hl hg hu
  have hk : k ∈ u.made := by rw [hu.2]; exact (h.side x).dups _ (least_spec hl).1
  exact ⟨hu.1.pruneDown x hk (goner_gt hl hg), by rw [pruneDown_made, hu.2]⟩

/-- What a request that arrives does: the end of the victim is closed only with the nonce recorded at the other circuit. -/
theorem handle_cases {s t : Sys} {x : Bool} {p : Pkt} (he : handle s x p = some t) :
    t = s ∨
    (p.keeper ∈ (s.side x).audit ∧ p.victim ∈ (s.side x).audit ∧ (p.on = p.victim ∨ p.on = p.keeper) ∧
      let n := s.side x
      let n1 : Side := { n with nonces := upd n.nonces p.on (p.nonce :: n.nonces p.on) }
      let other := if p.on = p.victim then p.keeper else p.victim
      (t = s.setSide x n1 ∨
       (p.nonce ∈ n1.nonces other ∧
        t = (s.shut x p.victim).setSide x
          { n1 with prior := some p.keeper, audit := n.audit.filter (· ≠ p.victim), cur := some p.keeper, curDups := false }))) := by
  unfold handle at he
  dsimp only at he
  split at he
  · cases he; exact .inl rfl
  · next h1 =>
    split at he
    · cases he
    · next h2 =>
      right
      have h3 : p.on = p.victim ∨ p.on = p.keeper := by
        by_cases e : p.on = p.victim
        · exact .inl e
        · by_cases e' : p.on = p.keeper
          · exact .inr e'
          · exact absurd ⟨e, e'⟩ h2
      have h4 : p.keeper ∈ (s.side x).audit ∧ p.victim ∈ (s.side x).audit :=
        ⟨Decidable.byContradiction fun e => h1 (.inl e), Decidable.byContradiction fun e => h1 (.inr e)⟩
      refine ⟨h4.1, h4.2, h3, ?_⟩
      by_cases hn : p.nonce ∈ upd (s.side x).nonces p.on (p.nonce :: (s.side x).nonces p.on)
          (if p.on = p.victim then p.keeper else p.victim)
      · rw [if_pos hn] at he
        cases he
        exact .inr ⟨hn, rfl⟩
      · rw [if_neg hn] at he
        cases he
        exact .inl rfl

theorem Inv.handle {s t : Sys} (h : Inv s) (x : Bool) {p : Pkt} (hk : p.keeper ∈ s.made) (hlt : p.keeper < p.victim)
    (he : handle s x p = some t) : Inv t := by
  rcases handle_cases he with rfl | ⟨_, _, _, rfl | ⟨_, rfl⟩⟩
  · exact h
  · exact h.setSide x ⟨(h.side x).dups, (h.side x).prior, (h.side x).audit, (h.side x).came, (h.side x).reg⟩
  · refine (h.shutC x ⟨_, hk, hlt⟩).setSide x ⟨(h.side x).dups, ?_, ?_, (h.side x).came, ?_⟩
    · intro c hc; cases hc; exact hk
    · intro c hc; exact (h.side x).audit c (List.mem_filter.1 hc).1
    · intro c hc hn
      by_cases e : c = p.victim
      · rw [e]; exact ⟨_, hk, hlt⟩
      · exact (h.side x).reg c hc (fun e' => hn (List.mem_filter.2 ⟨e', by simp [e]⟩))

/-- The actions but for the second loop of the periodic check, notices of peers that have left, and losses. -/
def Action.gentle : Action → Bool
  | .tick _ _ => false
  | .peerLeft _ => false
  | .lost _ _ => false
  | _ => true

theorem Inv.step {s t : Sys} (h : Inv s) {a : Action} (ha : a.gentle = true) (he : step s a = some t) : Inv t := by
  cases a with
  | create c =>
    simp only [Prune.step, Option.ite_none_left_eq_some] at he
    obtain ⟨hc, he⟩ := he
    cases he
    exact ⟨fun x => (h.side x).mono c, fun x p hp => ⟨List.mem_cons_of_mem _ (h.pkt x p hp).1, (h.pkt x p hp).2⟩,
      fun x d hd => (h.shut x d hd).elim fun k hk => ⟨k, List.mem_cons_of_mem _ hk.1, hk.2⟩⟩
  | arrive x c now =>
    simp only [Prune.step] at he
    split at he
    · next hc => cases he; exact h.setSide x ((h.side x).arrive hc.1 now)
    · cases he
  | check x now =>
    simp only [Prune.step, Option.some.injEq] at he
    subst he
    exact h.check x now
  | tick x now => cases ha
  | deliver x k =>
    simp only [Prune.step] at he
    split at he
    · cases he
    · next p hp =>
      have hm : p ∈ s.wire x := List.mem_of_getElem? hp
      refine Inv.handle (s := { s with wire := upd s.wire x ((s.wire x).eraseIdx k), got := upd s.got x (p :: s.got x) })
        ⟨h.side, ?_, h.shut⟩ x (h.pkt x p hm).1 (h.pkt x p hm).2 he
      intro y q hq
      replace hq : q ∈ upd s.wire x _ y := hq
      rw [upd_apply] at hq
      split at hq
      · next e => subst e; exact h.pkt _ q (List.mem_of_mem_eraseIdx hq)
      · exact h.pkt y q hq
  | hear x c =>
    simp only [Prune.step] at he
    split at he
    · next hc => cases he; exact h.shutC x (h.shut _ c hc.2)
    · cases he
  | gone x c =>
    simp only [Prune.step] at he
    split at he
    · next hc =>
      cases he
      have h' := (h.side x).cleanup (h.shut x c hc.2.2)
      exact h.setSide x ⟨h'.dups, h'.prior, h'.audit, h'.came, h'.reg⟩
    · cases he
  | peerLeft x => cases ha
  | lost x c => cases ha

theorem inv_init (r : Bool) : Inv { replicas := r } where
  side := fun x => ⟨fun c hc => (by cases hc), fun c hc => (by cases hc), fun c hc => (by cases hc),
    fun c hc => (by cases hc), fun c hc => (by cases hc)⟩
  pkt := fun x p hp => by cases hp
  shut := fun x c hc => by cases hc

theorem Inv.run {s t : Sys} (h : Inv s) {l : List Action} (hl : ∀ a ∈ l, a.gentle = true) (he : run s l = some t) : Inv t := by
  induction l generalizing s with
  | nil => cases he; exact h
  | cons a l ih =>
    simp only [Prune.run, Option.bind_eq_some_iff] at he
    obtain ⟨u, hu, he⟩ := he
    exact ih (h.step (hl a List.mem_cons_self) hu) (fun b hb => hl b (List.mem_cons_of_mem _ hb)) he

theorem exists_least {l : List Cid} (hl : l ≠ []) : ∃ k ∈ l, ∀ c ∈ l, k ≤ c := by
  cases h : least l with
  | some k => exact ⟨k, least_spec h⟩
  | none =>
    exfalso
    cases l with
    | nil => exact hl rfl
    | cons c l =>
      unfold least at h
      cases h' : least l <;> rw [h'] at h <;> cases h

/-! Evidence -/

structure EInv (s : Sys) : Prop where
  low : ∀ x, ∀ p ∈ s.sent x, p.nonce < s.fresh ∧ p.keeper < p.victim
  uniq : ∀ x y, ∀ p ∈ s.sent x, ∀ q ∈ s.sent y, p.nonce = q.nonce → p.victim = q.victim ∧ p.keeper = q.keeper
  wire : ∀ x, ∀ p ∈ s.wire x, p ∈ s.sent x
  got : ∀ x, ∀ p ∈ s.got x, p ∈ s.sent x
  non : ∀ x c n, n ∈ (s.side x).nonces c → ∃ p ∈ s.got x, p.on = c ∧ p.nonce = n

theorem EInv.setSide {s : Sys} (h : EInv s) (x : Bool) {n : Side}
    (hn : ∀ c m, m ∈ n.nonces c → ∃ p ∈ s.got x, p.on = c ∧ p.nonce = m) : EInv (s.setSide x n) where
  low := h.low
  uniq := h.uniq
  wire := h.wire
  got := h.got
  non := by
    intro y c m hm
    replace hm : m ∈ (upd s.side x n y).nonces c := hm
    rw [upd_apply] at hm
    split at hm
    · next e => subst e; exact hn c m hm
    · exact h.non y c m hm

theorem EInv.shutC {s : Sys} (h : EInv s) (x : Bool) (c : Cid) : EInv (s.shut x c) :=
  ⟨h.low, h.uniq, h.wire, h.got, h.non⟩

theorem cleanup_nonces (n : Side) (c : Cid) : (cleanup n c).1.nonces = n.nonces := by
  unfold cleanup
  dsimp only
  split <;> rfl

theorem arrive_nonces (n : Side) (c : Cid) (now : Nat) : (arrive n c now).nonces = n.nonces := by
  unfold arrive
  split <;> rfl

theorem EInv.pruneDown {s : Sys} (h : EInv s) (x : Bool) {g k : Cid} (hlt : k < g) : EInv (pruneDown s x g k) := by
  unfold Prune.pruneDown
  dsimp only
  split
  · split
    · refine h.setSide x ?_
      intro c m hm
      replace hm : m ∈ (Prune.cleanup (s.side x) g).1.nonces c := hm
      rw [cleanup_nonces] at hm
      exact h.non x c m hm
    · exact h
  · split
    · exact h
    · split
      · exact (h.shutC x g).setSide x (h.non x)
      · have h' := h.setSide (n := { s.side x with count := upd (s.side x).count g ((s.side x).count g + 1) }) x (h.non x)
        have key : ∀ y p, p ∈ upd s.sent (!x) (⟨g, g, k, s.fresh⟩ :: ⟨k, g, k, s.fresh⟩ :: s.sent (!x)) y →
            (p.victim = g ∧ p.keeper = k ∧ p.nonce = s.fresh) ∨ p ∈ s.sent y := by
          intro y p hp
          rw [upd_apply] at hp
          split at hp
          · next e =>
            rcases List.mem_cons.1 hp with rfl | hp
            · exact .inl ⟨rfl, rfl, rfl⟩
            · rcases List.mem_cons.1 hp with rfl | hp
              · exact .inl ⟨rfl, rfl, rfl⟩
              · subst e; exact .inr hp
          · exact .inr hp
        have keep : ∀ y p, p ∈ s.sent y → p ∈ upd s.sent (!x) (⟨g, g, k, s.fresh⟩ :: ⟨k, g, k, s.fresh⟩ :: s.sent (!x)) y := by
          intro y p hp
          rw [upd_apply]
          split
          · next e => subst e; exact List.mem_cons_of_mem _ (List.mem_cons_of_mem _ hp)
          · exact hp
        refine ⟨?_, ?_, ?_, fun y p hp => keep y p (h.got y p hp), h'.non⟩
        · intro y p hp
          rcases key y p hp with ⟨e1, e2, e3⟩ | hp
          · rw [e1, e2, e3]; exact ⟨Nat.lt_succ_self _, hlt⟩
          · exact ⟨Nat.lt_succ_of_lt (h.low y p hp).1, (h.low y p hp).2⟩
        · intro y z p hp q hq hpq
          rcases key y p hp with ⟨e1, e2, e3⟩ | hp <;> rcases key z q hq with ⟨f1, f2, f3⟩ | hq
          · exact ⟨e1.trans f1.symm, e2.trans f2.symm⟩
          · have := (h.low z q hq).1; omega
          · have := (h.low y p hp).1; omega
          · exact h.uniq y z p hp q hq hpq
        · intro y p hp
          show p ∈ upd s.sent (!x) _ y
          replace hp : p ∈ upd s.wire (!x) _ y := hp
          rw [upd_apply] at hp ⊢
          split at hp
          · next e =>
            rw [if_pos e]
            rcases List.mem_cons.1 hp with rfl | hp
            · exact List.mem_cons_self
            · rcases List.mem_cons.1 hp with rfl | hp
              · exact List.mem_cons_of_mem _ List.mem_cons_self
              · exact List.mem_cons_of_mem _ (List.mem_cons_of_mem _ (h.wire _ p hp))
          · next e => rw [if_neg e]; exact h.wire y p hp

theorem EInv.check {s : Sys} (h : EInv s) (x : Bool) (now : Nat) : EInv (check s x now) :=
  check_ind EInv s x now h (fun _ _ _ _ hl hg hu => hu.pruneDown x (goner_gt hl hg))

theorem EInv.tick {s : Sys} (h : EInv s) (x : Bool) (now : Nat) : EInv (tick s x now) := by
  unfold Prune.tick
  generalize (List.filter _ _ : List Cid) = l
  have h' := h.check x now
  generalize Prune.check s x now = t at h'
  clear h
  induction l generalizing t with
  | nil => exact h'
  | cons c l ih => rw [List.foldl_cons]; exact ih _ (h'.shutC x c)

theorem handle_non {s : Sys} (h : EInv s) {x : Bool} {p : Pkt} (hp : p ∈ s.got x) :
    ∀ c m, m ∈ (upd (s.side x).nonces p.on (p.nonce :: (s.side x).nonces p.on)) c → ∃ q ∈ s.got x, q.on = c ∧ q.nonce = m := by
  intro c m hm
  rw [upd_apply] at hm
  split at hm
  · next e =>
    rcases List.mem_cons.1 hm with rfl | hm
    · exact ⟨p, hp, e.symm, rfl⟩
    · subst e; exact h.non x _ m hm
  · exact h.non x c m hm

theorem EInv.handle {s t : Sys} (h : EInv s) {x : Bool} {p : Pkt} (hp : p ∈ s.got x) (he : handle s x p = some t) :
    EInv t := by
  rcases handle_cases he with rfl | ⟨_, _, _, rfl | ⟨_, rfl⟩⟩
  · exact h
  · exact h.setSide x (handle_non h hp)
  · exact (h.shutC x _).setSide x (handle_non h hp)

theorem EInv.receive {s : Sys} (h : EInv s) {x : Bool} {k : Nat} {p : Pkt} (hp : (s.wire x)[k]? = some p) :
    EInv { s with wire := upd s.wire x ((s.wire x).eraseIdx k), got := upd s.got x (p :: s.got x) } where
  low := h.low
  uniq := h.uniq
  wire := by
    intro y q hq
    replace hq : q ∈ upd s.wire x _ y := hq
    rw [upd_apply] at hq
    split at hq
    · next e => subst e; exact h.wire _ q (List.mem_of_mem_eraseIdx hq)
    · exact h.wire y q hq
  got := by
    intro y q hq
    replace hq : q ∈ upd s.got x _ y := hq
    rw [upd_apply] at hq
    split at hq
    · next e =>
      subst e
      rcases List.mem_cons.1 hq with rfl | hq
      · exact h.wire _ _ (List.mem_of_getElem? hp)
      · exact h.got _ q hq
    · exact h.got y q hq
  non := by
    intro y c n hn
    obtain ⟨q, hq, e⟩ := h.non y c n hn
    refine ⟨q, ?_, e⟩
    show q ∈ upd s.got x _ y
    rw [upd_apply]
    split
    · next e' => subst e'; exact List.mem_cons_of_mem _ hq
    · exact hq

theorem EInv.step {s t : Sys} (h : EInv s) {a : Action} (he : step s a = some t) : EInv t := by
  cases a with
  | create c =>
    simp only [Prune.step, Option.ite_none_left_eq_some] at he
    obtain ⟨hc, he⟩ := he
    cases he
    exact ⟨h.low, h.uniq, h.wire, h.got, h.non⟩
  | arrive x c now =>
    simp only [Prune.step] at he
    split at he
    · cases he; exact h.setSide x (by rw [arrive_nonces]; exact h.non x)
    · cases he
  | check x now => simp only [Prune.step, Option.some.injEq] at he; subst he; exact h.check x now
  | tick x now => simp only [Prune.step, Option.some.injEq] at he; subst he; exact h.tick x now
  | deliver x k =>
    simp only [Prune.step] at he
    split at he
    · cases he
    · next p hp =>
      refine EInv.handle (h.receive hp) ?_ he
      show p ∈ upd s.got x _ x
      rw [upd_same]
      exact List.mem_cons_self
  | hear x c =>
    simp only [Prune.step] at he
    split at he
    · cases he; exact h.shutC x c
    · cases he
  | gone x c =>
    simp only [Prune.step] at he
    split at he
    · cases he
      refine h.setSide x ?_
      intro d m hm
      replace hm : m ∈ (Prune.cleanup (s.side x) c).1.nonces d := hm
      rw [cleanup_nonces] at hm
      exact h.non x d m hm
    · cases he
  | peerLeft x =>
    simp only [Prune.step, Option.ite_none_left_eq_some] at he
    obtain ⟨_, he⟩ := he
    split at he <;> cases he
    · exact h.setSide x (h.non x)
    · exact (h.shutC x _).setSide x (h.non x)
  | lost x c =>
    simp only [Prune.step] at he
    split at he
    · cases he; exact h.shutC x c
    · cases he

theorem einv_init (r : Bool) : EInv { replicas := r } :=
  ⟨fun x p hp => (by cases hp), fun x y p hp => (by cases hp), fun x p hp => (by cases hp), fun x p hp => (by cases hp),
   fun x c n hn => (by cases hn)⟩

theorem EInv.run {s t : Sys} (h : EInv s) {l : List Action} (he : run s l = some t) : EInv t := by
  induction l generalizing s with
  | nil => cases he; exact h
  | cons a l ih =>
    simp only [Prune.run, Option.bind_eq_some_iff] at he
    obtain ⟨u, hu, he⟩ := he
    exact ih (h.step hu) he

end Verif.Prune
