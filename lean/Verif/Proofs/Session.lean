import Verif.Spec.Session
namespace Verif.Session
variable {S α ρ : Type}

/-- In a log: a session's requests come after its creation, which happens once. -/
structure Ordered (L : List (Entry α)) : Prop where
  after : ∀ (i sid serial m : Nat) (b : Bool) (x : α), L[i]? = some (.op sid serial m b x) → sid ≠ 0 →
    ∃ j < i, L[j]? = some (.newSess sid)
  once : ∀ (i j sid : Nat), L[i]? = some (.newSess sid) → L[j]? = some (.newSess sid) → i = j

/-- No request that writes is in the log twice. -/
def NoDup (L : List (Entry α)) : Prop :=
  ∀ (i j sid serial m m' : Nat) (x x' : α), sid ≠ 0 → L[i]? = some (.op sid serial m false x) →
    L[j]? = some (.op sid serial m' false x') → i = j

theorem getElem?_prefix {L L' : List (Entry α)} (h : L <+: L') {i : Nat} {e : Entry α} (hi : L[i]? = some e) : L'[i]? = some e := by
  obtain ⟨r, rfl⟩ := h
  rw [List.getElem?_append_left]
  · exact hi
  · exact (List.getElem?_eq_some_iff.1 hi).1

theorem Ordered.prefix {L L' : List (Entry α)} (h : L <+: L') (g : Ordered L') : Ordered L where
  after := by
    intro i sid serial m b x hi hs
    obtain ⟨j, hj, h1⟩ := g.after i sid serial m b x (getElem?_prefix h hi) hs
    refine ⟨j, hj, ?_⟩
    obtain ⟨r, rfl⟩ := h
    have := (List.getElem?_eq_some_iff.1 hi).1
    rwa [List.getElem?_append_left (by omega)] at h1
  once := fun i j sid h1 h2 => g.once i j sid (getElem?_prefix h h1) (getElem?_prefix h h2)

theorem NoDup.prefix {L L' : List (Entry α)} (h : L <+: L') (g : NoDup L') : NoDup L :=
  fun i j sid serial m m' x x' hs h1 h2 =>
    g i j sid serial m m' x x' hs (getElem?_prefix h h1) (getElem?_prefix h h2)

theorem snoc_cases {L : List (Entry α)} {e e' : Entry α} {i : Nat} (h : (L ++ [e])[i]? = some e') :
    L[i]? = some e' ∨ (i = L.length ∧ e' = e) := by
  rcases Nat.lt_or_ge i L.length with c | c
  · rw [List.getElem?_append_left c] at h; exact Or.inl h
  · rw [List.getElem?_append_right c] at h
    by_cases e : i - L.length = 0
    · rw [e] at h; simp at h; exact Or.inr ⟨by omega, h.symm⟩
    · rw [List.getElem?_eq_none (by simp; omega)] at h; cases h

theorem snoc_left {L : List (Entry α)} {e e' : Entry α} {i : Nat} (h : L[i]? = some e') :
    (L ++ [e])[i]? = some e' := getElem?_prefix (List.prefix_append _ _) h

theorem Ordered.snoc_other {L : List (Entry α)} (g : Ordered L) {e : Entry α}
    (h1 : ∀ sid serial m b x, e ≠ .op sid serial m b x) (h2 : ∀ sid, e ≠ .newSess sid) : Ordered (L ++ [e]) where
  after := by
    intro i sid serial m b x hi hs
    rcases snoc_cases hi with h | h
    · obtain ⟨j, hj, h3⟩ := g.after i sid serial m b x h hs
      exact ⟨j, hj, snoc_left h3⟩
    · exact absurd h.2.symm (h1 _ _ _ _ _)
  once := by
    intro i j sid hi hj
    rcases snoc_cases hi with h | h
    · rcases snoc_cases hj with h' | h'
      · exact g.once i j sid h h'
      · exact absurd h'.2.symm (h2 _)
    · exact absurd h.2.symm (h2 _)

theorem Ordered.snoc_op {L : List (Entry α)} (g : Ordered L) {sid serial m b x}
    (h : sid ≠ 0 → .newSess sid ∈ L) : Ordered (L ++ [.op sid serial m b x]) where
  after := by
    intro i sid' serial' m' b' x' hi hs
    rcases snoc_cases hi with h1 | h1
    · obtain ⟨j, hj, h3⟩ := g.after i sid' serial' m' b' x' h1 hs
      exact ⟨j, hj, snoc_left h3⟩
    · cases h1.2
      obtain ⟨j, hj⟩ := List.getElem?_of_mem (h hs)
      have := (List.getElem?_eq_some_iff.1 hj).1
      exact ⟨j, by omega, snoc_left hj⟩
  once := by
    intro i j sid' hi hj
    rcases snoc_cases hi with h1 | h1
    · rcases snoc_cases hj with h' | h'
      · exact g.once i j sid' h1 h'
      · cases h'.2
    · cases h1.2

theorem Ordered.snoc_new {L : List (Entry α)} (g : Ordered L) {sid} (h : .newSess sid ∉ L) :
    Ordered (L ++ [.newSess sid]) where
  after := by
    intro i sid' serial' m' b' x' hi hs
    rcases snoc_cases hi with h1 | h1
    · obtain ⟨j, hj, h3⟩ := g.after i sid' serial' m' b' x' h1 hs
      exact ⟨j, hj, snoc_left h3⟩
    · cases h1.2
  once := by
    intro i j sid' hi hj
    rcases snoc_cases hi with h1 | h1
    · rcases snoc_cases hj with h' | h'
      · exact g.once i j sid' h1 h'
      · cases h'.2; exact absurd (List.mem_of_getElem? h1) h
    · rcases snoc_cases hj with h' | h'
      · cases h1.2; exact absurd (List.mem_of_getElem? h') h
      · omega

theorem NoDup.snoc_other {L : List (Entry α)} (g : NoDup L) {e : Entry α}
    (h1 : ∀ sid serial m b x, e ≠ .op sid serial m b x) : NoDup (L ++ [e]) := by
  intro i j sid serial m m' x x' hs hi hj
  rcases snoc_cases hi with h | h
  · rcases snoc_cases hj with h' | h'
    · exact g i j sid serial m m' x x' hs h h'
    · exact absurd h'.2.symm (h1 _ _ _ _ _)
  · exact absurd h.2.symm (h1 _ _ _ _ _)

theorem NoDup.snoc_op {L : List (Entry α)} (g : NoDup L) {sid serial m b x}
    (h : b = false → sid ≠ 0 → ∀ m' x', .op sid serial m' false x' ∉ L) :
    NoDup (L ++ [.op sid serial m b x]) := by
  intro i j sid' serial' m1 m2 x1 x2 hs hi hj
  rcases snoc_cases hi with h1 | h1
  · rcases snoc_cases hj with h' | h'
    · exact g i j sid' serial' m1 m2 x1 x2 hs h1 h'
    · cases h'.2; exact absurd (List.mem_of_getElem? h1) (h rfl hs _ _)
  · rcases snoc_cases hj with h' | h'
    · cases h1.2; exact absurd (List.mem_of_getElem? h') (h rfl hs _ _)
    · omega

/-! ### What a node knows -/

theorem storeAfter_snoc (f : S → α → S × ρ) (s : S) (log : List (Entry α)) (e : Entry α) :
    storeAfter f s (log ++ [e]) = storeAfter f (storeAfter f s log) [e] := by
  induction log generalizing s with
  | nil => rfl
  | cons y log ih => cases y <;> simp only [List.cons_append, storeAfter] <;> exact ih _

theorem cleanup_max (e : Sess ρ) (b : Nat) : (cleanup e b).maxApplied = e.maxApplied := by
  unfold cleanup; split <;> rfl

theorem cleanup_mem {e : Sess ρ} {b : Nat} {x : Nat × ρ} (h : x ∈ (cleanup e b).cache) : x ∈ e.cache := by
  unfold cleanup at h
  split at h
  · exact h
  · exact (List.mem_filter.1 h).1

theorem remember_max (e : Sess ρ) (serial m : Nat) (r : ρ) :
    e.maxApplied ≤ (remember e serial m r).maxApplied ∧ serial ≤ (remember e serial m r).maxApplied := by
  unfold remember setCache
  simp only
  split
  · rw [cleanup_max]; simp only; omega
  · simp only; omega

theorem remember_mem {e : Sess ρ} {serial m : Nat} {r : ρ} {x} (h : x ∈ (remember e serial m r).cache) :
    x = (serial, r) ∨ x ∈ e.cache := by
  unfold remember at h
  simp only at h
  have h2 : x ∈ (setCache e serial r).cache := by
    split at h
    · have h3 := cleanup_mem h; exact h3
    · exact h
  unfold setCache at h2
  rcases List.mem_cons.1 h2 with e | e
  · exact Or.inl e
  · exact Or.inr (List.mem_filter.1 e).1

/-- What holds of a session entry kept by a node that applied `log`. -/
structure Knows (f : S → α → S × ρ) (s0 : S) (log : List (Entry α)) (sid : Nat) (e : Sess ρ) : Prop where
  created : .newSess sid ∈ log
  high : ∀ serial m b x, .op sid serial m b x ∈ log → serial ≤ e.maxApplied
  cached : ∀ serial r, (serial, r) ∈ e.cache → ∃ (i m : Nat) (b : Bool) (x : α),
    log[i]? = some (.op sid serial m b x) ∧ r = (f (storeAfter f s0 (log.take i)) x).2

theorem Knows.snoc {f : S → α → S × ρ} {s0 : S} {log sid} {e : Sess ρ} (k : Knows f s0 log sid e) {y : Entry α}
    (h : ∀ serial m b x, y ≠ .op sid serial m b x) : Knows f s0 (log ++ [y]) sid e where
  created := List.mem_append_left _ k.created
  high := by
    intro serial m b x hm
    rcases List.mem_append.1 hm with h1 | h1
    · exact k.high serial m b x h1
    · simp at h1; exact absurd h1.symm (h _ _ _ _)
  cached := by
    intro serial r hr
    obtain ⟨i, m, b, x, h1, h2⟩ := k.cached serial r hr
    refine ⟨i, m, b, x, snoc_left h1, ?_⟩
    rw [h2, List.take_append_of_le_length]
    exact Nat.le_of_lt (List.getElem?_eq_some_iff.1 h1).1

theorem setSess_same (n : Node S ρ) (sid : Nat) (e) : (setSess n sid e).sess sid = e := by simp [setSess]
theorem setSess_other (n : Node S ρ) {sid s : Nat} (e) (h : s ≠ sid) : (setSess n sid e).sess s = n.sess s := by
  simp [setSess, h]

theorem replay_knows {f : S → α → S × ρ} {s0 : S} {log : List (Entry α)} {n : Node S ρ}
    (h : Replay f s0 log n) : Ordered log →
    n.store = storeAfter f s0 log ∧ ∀ sid e, sid ≠ 0 → n.sess sid = some e → Knows f s0 log sid e := by
  induction h with
  | start => intro _; exact ⟨rfl, fun sid e _ h => by cases h⟩
  | @apply log n y _ ih =>
    intro ho
    obtain ⟨hs, hk⟩ := ih (ho.prefix (List.prefix_append _ _))
    refine ⟨?_, ?_⟩
    · rw [storeAfter_snoc, ← hs]
      cases y with
      | noop => rfl
      | newSess sid => simp only [applyEntry]; cases n.sess sid <;> rfl
      | endSess sid => rfl
      | op sid serial m b x =>
        simp only [applyEntry]
        split
        · rfl
        · cases n.sess sid <;> rfl
    · intro sid e hne he
      cases y with
      | noop => exact (hk sid e hne he).snoc (by intros; simp)
      | newSess sid' =>
        simp only [applyEntry] at he
        cases hn : n.sess sid' with
        | some e' => rw [hn] at he; exact (hk sid e hne he).snoc (by intros; simp)
        | none =>
          rw [hn] at he
          simp only at he
          by_cases c : sid = sid'
          · subst c
            rw [setSess_same] at he
            cases he
            refine ⟨by simp, ?_, fun _ _ h => by cases h⟩
            intro serial m b x hm
            exfalso
            rcases List.mem_append.1 hm with h1 | h1
            · obtain ⟨i, hi⟩ := List.getElem?_of_mem h1
              obtain ⟨j, hj, h2⟩ := ho.after i sid serial m b x (snoc_left hi) hne
              have h3 := ho.once j log.length sid h2 (by simp)
              have := (List.getElem?_eq_some_iff.1 hi).1
              omega
            · simp at h1
          · rw [setSess_other _ _ c] at he
            exact (hk sid e hne he).snoc (by intros; simp)
      | endSess sid' =>
        simp only [applyEntry] at he
        by_cases c : sid = sid'
        · subst c; rw [setSess_same] at he; cases he
        · rw [setSess_other _ _ c] at he; exact (hk sid e hne he).snoc (by intros; simp)
      | op sid' serial' m' b' x' =>
        simp only [applyEntry] at he
        by_cases c0 : sid' = 0
        · rw [if_pos c0] at he
          refine (hk sid e hne he).snoc ?_
          intro serial m b x heq
          cases heq
          exact hne c0
        · rw [if_neg c0] at he
          by_cases c : sid = sid'
          · subst c
            cases hn : n.sess sid with
            | none => rw [hn] at he; simp only at he; rw [hn] at he; cases he
            | some e0 =>
              rw [hn] at he
              simp only at he
              rw [setSess_same] at he
              cases he
              have k := hk sid e0 hne hn
              refine ⟨List.mem_append_left _ k.created, ?_, ?_⟩
              · intro serial m b x hm
                have hmx := remember_max e0 serial' m' (f n.store x').2
                rcases List.mem_append.1 hm with h1 | h1
                · exact Nat.le_trans (k.high serial m b x h1) hmx.1
                · simp at h1; rw [h1.1]; exact hmx.2
              · intro serial r hr
                rcases remember_mem hr with h1 | h1
                · cases h1
                  refine ⟨log.length, m', b', x', by simp, ?_⟩
                  rw [hs]; simp
                · obtain ⟨i, m, b, x, h2, h3⟩ := k.cached serial r h1
                  refine ⟨i, m, b, x, snoc_left h2, ?_⟩
                  rw [h3, List.take_append_of_le_length]
                  exact Nat.le_of_lt (List.getElem?_eq_some_iff.1 h2).1
          · have : n.sess sid = some e := by
              cases hn : n.sess sid' with
              | none => rw [hn] at he; exact he
              | some e0 => rw [hn] at he; simp only at he; rw [setSess_other _ _ c] at he; exact he
            refine (hk sid e hne this).snoc ?_
            intro serial m b x heq
            cases heq
            exact c rfl
  | @expire log n sid' _ ih =>
    intro ho
    obtain ⟨hs, hk⟩ := ih ho
    refine ⟨hs, fun sid e hne he => ?_⟩
    by_cases c : sid = sid'
    · subst c; rw [setSess_same] at he; cases he
    · rw [setSess_other _ _ c] at he; exact hk sid e hne he
  | @clean log n e0 sid' below _ hn ih =>
    intro ho
    obtain ⟨hs, hk⟩ := ih ho
    refine ⟨hs, fun sid e hne he => ?_⟩
    by_cases c : sid = sid'
    · subst c; rw [setSess_same] at he; cases he
      have k := hk sid e0 hne hn
      exact ⟨k.created, fun a b c d h => by rw [cleanup_max]; exact k.high a b c d h,
        fun a b h => k.cached a b (cleanup_mem h)⟩
    · rw [setSess_other _ _ c] at he; exact hk sid e hne he
  | @note log n e0 sid' serial _ hn ih =>
    intro ho
    obtain ⟨hs, hk⟩ := ih ho
    refine ⟨hs, fun sid e hne he => ?_⟩
    by_cases c : sid = sid'
    · subst c; rw [setSess_same] at he; cases he
      have k := hk sid e0 hne hn
      exact ⟨k.created, k.high, k.cached⟩
    · rw [setSess_other _ _ c] at he; exact hk sid e hne he

theorem submit_accepted {n : Node S ρ} {a over} {t : Req α} (h : (submit n a over t).2 = .accepted)
    (hs : t.sid ≠ 0) : ∃ e, n.sess t.sid = some e ∧ (t.read = false → e.maxApplied < t.serial) := by
  unfold submit at h
  rw [if_neg hs] at h
  cases hn : n.sess t.sid with
  | none => rw [hn] at h; cases h
  | some e =>
    rw [hn] at h
    simp only at h
    refine ⟨e, rfl, fun hr => ?_⟩
    split at h
    · cases h
    · split at h
      · cases h
      · cases hl : e.cache.lookup t.serial with
        | some r => rw [hl] at h; cases h
        | none =>
          rw [hl] at h
          simp only at h
          split at h
          · cases h
          · rename_i hh
            rcases Nat.lt_or_ge e.maxApplied t.serial with c | c
            · exact c
            · exact absurd ⟨by simp [hr], c⟩ hh

theorem lookup_mem {e : List (Nat × ρ)} {k : Nat} {r : ρ} (h : e.lookup k = some r) : (k, r) ∈ e := by
  induction e with
  | nil => cases h
  | cons y e ih =>
    obtain ⟨k', r'⟩ := y
    rw [List.lookup_cons] at h
    cases c : (k == k') with
    | true => rw [c] at h; simp at h; simp at c; subst c; subst h; exact List.mem_cons_self
    | false => rw [c] at h; exact List.mem_cons_of_mem _ (ih h)

theorem submit_answered {n : Node S ρ} {a over} {t : Req α} {r : ρ} (h : (submit n a over t).2 = .answered r) :
    t.sid ≠ 0 ∧ ∃ e, n.sess t.sid = some e ∧ (t.serial, r) ∈ e.cache := by
  unfold submit at h
  by_cases hs : t.sid = 0
  · rw [if_pos hs] at h; cases h
  · rw [if_neg hs] at h
    refine ⟨hs, ?_⟩
    cases hn : n.sess t.sid with
    | none => rw [hn] at h; cases h
    | some e =>
      rw [hn] at h
      simp only at h
      refine ⟨e, rfl, ?_⟩
      split at h
      · cases h
      · split at h
        · cases h
        · cases hl : e.cache.lookup t.serial with
          | some r' => rw [hl] at h; cases h; exact lookup_mem hl
          | none =>
            rw [hl] at h
            simp only at h
            split at h <;> cases h

/-- What a leader does on a request leaves it in a state it could have come to anyway. -/
theorem submit_replay {f : S → α → S × ρ} {s0 : S} {log : List (Entry α)} {n : Node S ρ} {a over} {t : Req α}
    (h : Replay f s0 log n) : Replay f s0 log (submit n a over t).1 := by
  unfold submit
  split
  · exact h
  · cases hn : n.sess t.sid with
    | none => exact h
    | some e =>
      simp only
      split
      · exact h
      · split
        · exact h.expire _
        · cases hl : e.cache.lookup t.serial with
          | some r => exact h.clean _ _ hn
          | none =>
            simp only
            split
            · exact h.clean _ _ hn
            · have h1 := h.note t.sid t.serial hn
              have h2 := h1.clean t.sid t.minWait (setSess_same _ _ _)
              have : setSess (setSess n t.sid (some { e with highest := max e.highest t.serial })) t.sid
                  (some (cleanup { e with highest := max e.highest t.serial } t.minWait)) =
                setSess n t.sid (some (cleanup { e with highest := max e.highest t.serial } t.minWait)) := by
                unfold setSess
                congr 1
                funext s
                by_cases c : s = t.sid <;> simp [c]
              rw [← this]; exact h2

/-! ### Runs -/

structure Inv (noRetry : Bool) (c : Cluster α) : Prop where
  ord : Ordered (c.committed ++ c.pending)
  ords : ∀ σ ∈ c.rivals, Ordered (c.committed ++ σ)
  dup : noRetry = true → NoDup (c.committed ++ c.pending)
  dups : noRetry = true → ∀ σ ∈ c.rivals, NoDup (c.committed ++ σ)

theorem append_prefix {A σ τ : List (Entry α)} (h : σ <+: τ) : A ++ σ <+: A ++ τ := by
  obtain ⟨r, rfl⟩ := h
  exact ⟨r, by simp⟩

theorem accept_ord {f : S → α → S × ρ} {s0 : S} {C σ : List (Entry α)} (ho : Ordered (C ++ σ)) {a n over}
    {t : Req α} (hr : Replay f s0 (C.take a) n) (hs : (submit n a over t).2 = .accepted) :
    Ordered ((C ++ σ) ++ [t.entry]) := by
  refine ho.snoc_op fun hne => ?_
  obtain ⟨e, he, _⟩ := submit_accepted hs hne
  have hp : C.take a <+: C ++ σ := (List.take_prefix _ _).trans (List.prefix_append _ _)
  have k := (replay_knows hr (ho.prefix hp)).2 t.sid e hne he
  exact hp.subset k.created

theorem accept_dup {f : S → α → S × ρ} {s0 : S} {C σ : List (Entry α)} (ho : Ordered (C ++ σ))
    (hd : NoDup (C ++ σ)) {a n over} {t : Req α} (ha : a ≤ C.length) (hr : Replay f s0 (C.take a) n)
    (hs : (submit n a over t).2 = .accepted)
    (hno : t.sid ≠ 0 → t.read = false → ∀ m x, .op t.sid t.serial m false x ∉ (C ++ σ).drop a) : NoDup ((C ++ σ) ++ [t.entry]) := by
  refine hd.snoc_op fun hb hne m' x' hm => ?_
  obtain ⟨e, he, hlt⟩ := submit_accepted hs hne
  have hp : C.take a <+: C ++ σ := (List.take_prefix _ _).trans (List.prefix_append _ _)
  have k := (replay_knows hr (ho.prefix hp)).2 t.sid e hne he
  rw [← List.take_append_drop a (C ++ σ)] at hm
  rcases List.mem_append.1 hm with h | h
  · rw [List.take_append_of_le_length ha] at h
    have := k.high _ _ _ _ h
    have := hlt hb
    omega
  · exact hno hne hb _ _ h

theorem step_inv {f : S → α → S × ρ} {s0 : S} {noRetry : Bool} {c c' : Cluster α} (h : Step f s0 noRetry c c')
    (g : Inv noRetry c) : Inv noRetry c' := by
  have allr : ∀ {P : List (Entry α) → Prop} {τ}, P τ → (∀ σ ∈ c.rivals, P σ) → ∀ σ ∈ τ :: c.rivals, P σ := by
    intro P τ h1 h2 σ hσ
    rcases List.mem_cons.1 hσ with e | e
    · rw [e]; exact h1
    · exact h2 σ e
  cases h with
  | @elect σ hσ =>
    have ho : Ordered (c.committed ++ σ) := by
      rcases hσ with h | h
      · exact g.ords σ h
      · exact g.ord.prefix (append_prefix h)
    have hd : noRetry = true → NoDup (c.committed ++ σ) := by
      intro e
      rcases hσ with h | h
      · exact g.dups e σ h
      · exact (g.dup e).prefix (append_prefix h)
    constructor
    · rw [← List.append_assoc]; exact ho.snoc_other (by intros; simp) (by intros; simp)
    · exact allr g.ord g.ords
    · intro e; rw [← List.append_assoc]; exact (hd e).snoc_other (by intros; simp)
    · intro e; exact allr (g.dup e) (g.dups e)
  | commit k hk _ =>
    have e1 : (c.committed ++ c.pending.take k) ++ c.pending.drop k = c.committed ++ c.pending := by
      rw [List.append_assoc, List.take_append_drop]
    exact ⟨by rw [e1]; exact g.ord, fun σ h => (by cases h), fun e => (by rw [e1]; exact g.dup e), fun _ σ h => (by cases h)⟩
  | newSession sid _ h _ =>
    exact ⟨by rw [← List.append_assoc]; exact g.ord.snoc_new h, g.ords,
      fun e => by rw [← List.append_assoc]; exact (g.dup e).snoc_other (by intros; simp), g.dups⟩
  | endSession sid _ =>
    exact ⟨by rw [← List.append_assoc]; exact g.ord.snoc_other (by intros; simp) (by intros; simp), g.ords,
      fun e => by rw [← List.append_assoc]; exact (g.dup e).snoc_other (by intros; simp), g.dups⟩
  | accept _ ha hr hs hno =>
    exact ⟨by rw [← List.append_assoc]; exact accept_ord g.ord hr hs, g.ords,
      fun e => by rw [← List.append_assoc]; exact accept_dup g.ord (g.dup e) ha hr hs (hno e), g.dups⟩
  | @rivalAccepts σ _ _ _ _ hσ ha hr hs hno =>
    exact ⟨g.ord, allr (by rw [← List.append_assoc]; exact accept_ord (g.ords σ hσ) hr hs) g.ords, g.dup,
      fun e => allr (by rw [← List.append_assoc]; exact accept_dup (g.ords σ hσ) (g.dups e σ hσ) ha hr hs (hno e)) (g.dups e)⟩
  | @rivalNewSession σ sid hσ h _ =>
    exact ⟨g.ord, allr (by rw [← List.append_assoc]; exact (g.ords σ hσ).snoc_new h) g.ords, g.dup,
      fun e => allr (by rw [← List.append_assoc]; exact (g.dups e σ hσ).snoc_other (by intros; simp)) (g.dups e)⟩
  | @rivalEndSession σ sid hσ =>
    exact ⟨g.ord, allr (by rw [← List.append_assoc]; exact (g.ords σ hσ).snoc_other (by intros; simp) (by intros; simp)) g.ords, g.dup,
      fun e => allr (by rw [← List.append_assoc]; exact (g.dups e σ hσ).snoc_other (by intros; simp)) (g.dups e)⟩

theorem run_inv {f : S → α → S × ρ} {s0 : S} {noRetry : Bool} {c : Cluster α} (h : Run f s0 noRetry c) :
    Inv noRetry c := by
  induction h with
  | start => exact ⟨⟨by intros; simp at *, by intros; simp at *⟩, by intros; simp at *, fun _ => by intro i; intros; simp at *, by intros; simp at *⟩
  | step _ hs ih => exact step_inv hs ih

theorem steps_run {f : S → α → S × ρ} {s0 : S} {noRetry : Bool} {c c' : Cluster α} (h : Run f s0 noRetry c)
    (hs : Steps f s0 noRetry c c') : Run f s0 noRetry c' := by
  induction hs with
  | refl => exact h
  | step _ h2 ih => exact (ih).step h2

theorem steps_prefix {f : S → α → S × ρ} {s0 : S} {noRetry : Bool} {c c' : Cluster α}
    (hs : Steps f s0 noRetry c c') : c.committed <+: c'.committed := by
  induction hs with
  | refl => exact List.prefix_refl _
  | step _ h2 ih =>
    cases h2 with
    | commit k _ _ => exact ih.trans (List.prefix_append _ _)
    | _ => exact ih

theorem answer_source {f : S → α → S × ρ} {s0 : S} {noRetry : Bool} {c : Cluster α} (h : Run f s0 noRetry c)
    {a over n} {t : Req α} {r : ρ} (hn : Replay f s0 (c.committed.take a) n)
    (hs : (submit n a over t).2 = .answered r) : t.sid ≠ 0 ∧
    ∃ (i m : Nat) (b : Bool) (x : α), i < a ∧ c.committed[i]? = some (.op t.sid t.serial m b x) ∧
      r = (f (storeAfter f s0 (c.committed.take i)) x).2 := by
  obtain ⟨hne, e, he, hm⟩ := submit_answered hs
  have hp : c.committed.take a <+: c.committed := List.take_prefix _ _
  have k := (replay_knows hn ((run_inv h).ord.prefix (hp.trans (List.prefix_append _ _)))).2 t.sid e hne he
  obtain ⟨i, m, b, x, h1, h2⟩ := k.cached _ _ hm
  have hi : i < a := by
    have := (List.getElem?_eq_some_iff.1 h1).1
    rw [List.length_take] at this
    omega
  rw [List.take_take, Nat.min_eq_left (Nat.le_of_lt hi)] at h2
  exact ⟨hne, i, m, b, x, hi, getElem?_prefix hp h1, h2⟩

/-! ### Answers are kept -/

/-- The session is there and remembers the answer. -/
def Remembers (sid serial : Nat) (r : ρ) (n : Node S ρ) : Prop :=
  ∃ e, n.sess sid = some e ∧ e.cache.lookup serial = some r

theorem lookup_filter {p : Nat × ρ → Bool} {k : Nat} (hp : ∀ r, p (k, r) = true) (l : List (Nat × ρ)) :
    (l.filter p).lookup k = l.lookup k := by
  induction l with
  | nil => rfl
  | cons x l ih =>
    obtain ⟨a, b⟩ := x
    rw [List.filter_cons]
    by_cases h : k = a
    · subst h
      rw [if_pos (hp b), List.lookup_cons, List.lookup_cons]
      simp
    · have hk : (k == a) = false := by simpa using h
      split
      · rw [List.lookup_cons, List.lookup_cons, hk, ih]
      · rw [List.lookup_cons, hk, ih]

theorem lookup_cleanup {e : Sess ρ} {below k : Nat} (h : below ≤ k) :
    (cleanup e below).cache.lookup k = e.cache.lookup k := by
  unfold cleanup
  split
  · rfl
  · exact lookup_filter (fun r => by simp; omega) _

theorem lookup_setCache_ne {e : Sess ρ} {s k : Nat} {r : ρ} (h : s ≠ k) :
    (setCache e s r).cache.lookup k = e.cache.lookup k := by
  unfold setCache
  have hk : (k == s) = false := by simpa using fun e => h e.symm
  simp only [List.lookup_cons, hk]
  exact lookup_filter (fun r => by simp; omega) _

theorem lookup_remember_ne {e : Sess ρ} {s k m : Nat} {r : ρ} (h : s ≠ k) (hm : m ≤ k) :
    (remember e s m r).cache.lookup k = e.cache.lookup k := by
  unfold remember
  simp only
  split
  · rw [lookup_cleanup hm]
    exact lookup_setCache_ne h
  · exact lookup_setCache_ne h

theorem lookup_remember {e : Sess ρ} {k m : Nat} {r : ρ} (hm : m ≤ k) :
    (remember e k m r).cache.lookup k = some r := by
  have : (setCache e k r).cache.lookup k = some r := by simp [setCache]
  unfold remember
  simp only
  split
  · rw [lookup_cleanup hm]
    exact this
  · exact this

theorem Remembers.run {f : S → α → S × ρ} {sid serial : Nat} {r : ρ} {n : Node S ρ}
    (h : Remembers sid serial r n) {v : Event α} (hv : v.Leaves sid serial) :
    Remembers sid serial r (v.run f n) := by
  obtain ⟨e, he, hr⟩ := h
  cases v with
  | apply x =>
    cases x with
    | noop => exact ⟨e, he, hr⟩
    | newSess s =>
      simp only [Event.run, applyEntry]
      split
      · exact ⟨e, he, hr⟩
      · next hn =>
        refine ⟨e, ?_, hr⟩
        have : sid ≠ s := by rintro rfl; rw [hn] at he; cases he
        simp [setSess, this, he]
    | endSess s =>
      simp only [Event.Leaves] at hv
      refine ⟨e, ?_, hr⟩
      simp [Event.run, applyEntry, setSess, he, Ne.symm hv]
    | op s k m b x =>
      simp only [Event.Leaves] at hv
      simp only [Event.run, applyEntry]
      split
      · exact ⟨e, he, hr⟩
      · cases hs : n.sess s with
        | none => exact ⟨e, he, hr⟩
        | some e' =>
          by_cases hsid : s = sid
          · subst hsid
            rw [he] at hs
            cases hs
            exact ⟨_, by simp [setSess]; rfl, by rw [lookup_remember_ne (hv rfl).1 (hv rfl).2]; exact hr⟩
          · exact ⟨e, by simp [setSess, Ne.symm hsid, he], hr⟩
  | request a over t =>
    simp only [Event.Leaves] at hv
    simp only [Event.run, submit]
    split
    · exact ⟨e, he, hr⟩
    · cases hs : n.sess t.sid with
      | none => exact ⟨e, he, hr⟩
      | some e' =>
        dsimp only
        split
        · exact ⟨e, he, hr⟩
        · by_cases hsid : t.sid = sid
          · obtain ⟨ho, hm⟩ := hv hsid
            rw [hsid, he] at hs
            cases hs
            rw [ho]
            simp only [Bool.false_eq_true, if_false]
            split
            · exact ⟨_, by simp [setSess, hsid]; rfl, by rw [lookup_cleanup hm]; exact hr⟩
            · split
              · exact ⟨_, by simp [setSess, hsid]; rfl, by rw [lookup_cleanup hm]; exact hr⟩
              · exact ⟨_, by simp [setSess, hsid]; rfl, by rw [lookup_cleanup hm]; exact hr⟩
          · have hne : sid ≠ t.sid := Ne.symm hsid
            split
            · exact ⟨e, by simp [setSess, hne, he], hr⟩
            · split
              · exact ⟨e, by simp [setSess, hne, he], hr⟩
              · split <;> exact ⟨e, by simp [setSess, hne, he], hr⟩

end Verif.Session
