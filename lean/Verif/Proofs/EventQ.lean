import Verif.Model.EventQ
/-
Order of events in the simulated network: C130, C131.
-/
namespace Verif.EventQ

/-- A comparison by keys. -/
structure Good {α : Type} (c : α → α → Ordering) : Prop where
  swap : ∀ a b, c b a = (c a b).swap
  cong : ∀ a b d, c a b = .eq → c a d = c b d
  trans : ∀ a b d, c a b = .lt → c b d = .lt → c a d = .lt

theorem Good.on {α β : Type} {c : β → β → Ordering} (h : Good c) (f : α → β) : Good (fun a b => c (f a) (f b)) :=
  ⟨fun a b => h.swap _ _, fun a b d => h.cong _ _ _, fun a b d => h.trans _ _ _⟩

theorem Good.cong' {α : Type} {c : α → α → Ordering} (h : Good c) {a b : α} (e : c a b = .eq) (d : α) : c d a = c d b := by
  have h1 : c d a = (c a d).swap := h.swap a d
  have h2 : c d b = (c b d).swap := h.swap b d
  rw [h1, h2, h.cong a b d e]

theorem Good.thenBy {α : Type} {c d : α → α → Ordering} (hc : Good c) (hd : Good d) :
    Good (fun a b => (c a b).then (d a b)) where
  swap := by
    intro a b
    show (c b a).then (d b a) = ((c a b).then (d a b)).swap
    rw [hc.swap a b, hd.swap a b]
    cases c a b <;> rfl
  cong := by
    intro a b e h
    replace h : (c a b).then (d a b) = .eq := h
    show (c a e).then (d a e) = (c b e).then (d b e)
    cases h1 : c a b <;> rw [h1] at h
    · cases h
    · rw [hc.cong a b e h1, hd.cong a b e h]
    · cases h
  trans := by
    intro a b e h1 h2
    replace h1 : (c a b).then (d a b) = .lt := h1
    replace h2 : (c b e).then (d b e) = .lt := h2
    show (c a e).then (d a e) = .lt
    cases k1 : c a b <;> rw [k1] at h1
    · cases k2 : c b e <;> rw [k2] at h2
      · rw [hc.trans a b e k1 k2]; rfl
      · rw [← hc.cong' k2 a, k1]; rfl
      · cases h2
    · rw [hc.cong a b e k1]
      cases k2 : c b e <;> rw [k2] at h2
      · rfl
      · exact hd.trans a b e h1 h2
      · cases h2
    · cases h1

theorem cmpNat_eq {a b : Nat} : cmpNat a b = .eq ↔ a = b := by
  unfold cmpNat
  split
  · constructor
    · intro h; cases h
    · intro h; omega
  · split
    · constructor
      · intro h; cases h
      · intro h; omega
    · constructor
      · intro _; omega
      · intro _; rfl

theorem cmpNat_lt {a b : Nat} : cmpNat a b = .lt ↔ a < b := by
  unfold cmpNat
  split
  · next h => simp [h]
  · next h =>
    split
    · constructor
      · intro h; cases h
      · intro h; omega
    · constructor
      · intro h; cases h
      · intro h; omega

theorem cmpNat_gt {a b : Nat} : cmpNat a b = .gt ↔ b < a := by
  unfold cmpNat
  split
  · constructor
    · intro h; cases h
    · intro h; omega
  · split
    · next h => simp [h]
    · constructor
      · intro h; cases h
      · intro h; omega

theorem good_nat : Good cmpNat where
  swap := by
    intro a b
    rcases Nat.lt_trichotomy a b with h | h | h
    · rw [cmpNat_lt.2 h, cmpNat_gt.2 h]; rfl
    · rw [cmpNat_eq.2 h, cmpNat_eq.2 h.symm]; rfl
    · rw [cmpNat_gt.2 h, cmpNat_lt.2 h]; rfl
  cong := by
    intro a b d h
    rw [cmpNat_eq.1 h]
  trans := by
    intro a b d h1 h2
    rw [cmpNat_lt] at *
    omega

theorem good_str : Good cmpStr where
  swap := by
    intro a
    induction a with
    | nil => intro b; cases b <;> rfl
    | cons x a ih =>
      intro b
      cases b with
      | nil => rfl
      | cons y b =>
        show (cmpNat y x).then (cmpStr b a) = ((cmpNat x y).then (cmpStr a b)).swap
        rw [good_nat.swap x y, ih b]
        cases cmpNat x y <;> rfl
  cong := by
    intro a
    induction a with
    | nil => intro b d h; cases b with
      | nil => rfl
      | cons y b => cases h
    | cons x a ih =>
      intro b d h
      cases b with
      | nil => cases h
      | cons y b =>
        replace h : (cmpNat x y).then (cmpStr a b) = .eq := h
        cases h1 : cmpNat x y <;> rw [h1] at h
        · cases h
        · cases d with
          | nil => rfl
          | cons z d =>
            show (cmpNat x z).then (cmpStr a d) = (cmpNat y z).then (cmpStr b d)
            rw [cmpNat_eq.1 h1, ih b d h]
        · cases h
  trans := by
    intro a
    induction a with
    | nil =>
      intro b d h1 h2
      cases d with
      | nil => cases b <;> cases h2
      | cons z d => rfl
    | cons x a ih =>
      intro b d h1 h2
      cases b with
      | nil => cases h1
      | cons y b =>
        cases d with
        | nil => cases h2
        | cons z d =>
          replace h1 : (cmpNat x y).then (cmpStr a b) = .lt := h1
          replace h2 : (cmpNat y z).then (cmpStr b d) = .lt := h2
          show (cmpNat x z).then (cmpStr a d) = .lt
          cases k1 : cmpNat x y <;> rw [k1] at h1
          · cases k2 : cmpNat y z <;> rw [k2] at h2
            · rw [good_nat.trans _ _ _ k1 k2]; rfl
            · rw [← cmpNat_eq.1 k2, k1]; rfl
            · cases h2
          · rw [cmpNat_eq.1 k1]
            cases k2 : cmpNat y z <;> rw [k2] at h2
            · rfl
            · exact ih b d h1 h2
            · cases h2
          · cases h1

theorem good_nil : Good cmpNil where
  swap := by intro a b; cases a <;> cases b <;> rfl
  cong := by intro a b d h; cases a <;> cases b <;> cases d <;> first | rfl | cases h
  trans := by intro a b d h1 h2; cases a <;> cases b <;> cases d <;> first | rfl | (cases h1; done) | (cases h2; done)

theorem then_congr {c x y : Ordering} (h : c = .eq → x = y) : c.then x = c.then y := by
  cases c
  · rfl
  · exact h rfl
  · rfl

theorem then_eq {c x : Ordering} (h : c.then x = .eq) : c = .eq ∧ x = .eq := by
  cases c
  · cases h
  · exact ⟨rfl, h⟩
  · cases h

/-- The same by keys alone. -/
def cmpWhatK (a b : Ev) : Ordering :=
  (cmpNat a.kind.priority b.kind.priority).then <|
  (cmpNil a.origin b.origin).then <|
  (cmpStr (chomp a.bestName) (chomp b.bestName)).then <|
  (cmpNil a.target b.target).then <|
  (cmpStr (chomp (a.target.getD [])) (chomp (b.target.getD []))).then <|
  (cmpStr a.whence b.whence).then <|
  cmpNat (if a.originCli then 0 else 1) (if b.originCli then 0 else 1)

theorem cmpWhat_eqK : cmpWhat = cmpWhatK := by
  funext a b
  unfold cmpWhat cmpWhatK
  refine then_congr fun _ => then_congr fun _ => then_congr fun _ => ?_
  have hcli : cmpCli a.originCli b.originCli = cmpNat (if a.originCli then 0 else 1) (if b.originCli then 0 else 1) := by
    cases a.originCli <;> cases b.originCli <;> rfl
  rw [hcli]
  refine then_congr fun h => ?_
  cases ha : a.target <;> cases hb : b.target <;> rw [ha, hb] at h <;> first | rfl | cases h

theorem good_what : Good cmpWhat := by
  rw [cmpWhat_eqK]
  exact (good_nat.on (fun e : Ev => e.kind.priority)).thenBy <|
    (good_nil.on (fun e : Ev => e.origin)).thenBy <|
    (good_str.on (fun e : Ev => chomp e.bestName)).thenBy <|
    (good_nil.on (fun e : Ev => e.target)).thenBy <|
    (good_str.on (fun e : Ev => chomp (e.target.getD []))).thenBy <|
    (good_str.on (fun e : Ev => e.whence)).thenBy
    (good_nat.on (fun e : Ev => if e.originCli then 0 else 1))

theorem good_tm : Good cmpTm := good_nat.on (fun e : Ev => e.tm.getD 0)

theorem cmpDispatch_eqK : cmpDispatch = fun a b => cmpNat a.dispatchTm b.dispatchTm := by
  funext a b
  unfold cmpDispatch
  by_cases ha : a.dispatchTm = 0 <;> by_cases hb : b.dispatchTm = 0
  · simp [ha, hb]; rfl
  · simp only [ha, hb, decide_true, decide_false]
    exact (cmpNat_lt.2 (by omega)).symm
  · simp only [ha, hb, decide_true, decide_false]
    exact (cmpNat_gt.2 (by omega)).symm
  · simp [ha, hb]

theorem good_dispatch : Good cmpDispatch := by
  rw [cmpDispatch_eqK]
  exact good_nat.on (fun e : Ev => e.dispatchTm)

theorem priority_inj {a b : Kind} (h : a.priority = b.priority) : a = b := by
  cases a <;> cases b <;> first | rfl | (revert h; decide)

theorem what_kind {a b : Ev} (h : cmpWhat a b = .eq) : a.kind = b.kind := by
  unfold cmpWhat at h
  exact priority_inj (cmpNat_eq.1 (then_eq h).1)

/-- A comparison of pq.go: the same number first, then keys, the number last. -/
structure Keyed (cmp c : Ev → Ev → Ordering) : Prop where
  good : Good c
  eq : ∀ a b, cmp a b = if a.sn = b.sn then .eq else (c a b).then (cmpNat a.sn b.sn)
  what : ∀ a b, c a b = .eq → cmpWhat a b = .eq

def keyArrival (a b : Ev) : Ordering :=
  (cmpNat a.arrivalTm b.arrivalTm).then <| (cmpWhat a b).then <| (cmpTm a b).then <| cmpDispatch a b
def keyInit (a b : Ev) : Ordering := (cmpNat a.initTm b.initTm).then <| cmpWhat a b
def keyComplete (a b : Ev) : Ordering := (cmpNat a.completeTm b.completeTm).then <| cmpWhat a b
def keyMaster (a b : Ev) : Ordering := (cmpTm a b).then <| cmpWhat a b
def keySlice (a b : Ev) : Ordering := (cmpNat a.pseudorandom b.pseudorandom).then <| (cmpWhat a b).then <| cmpTm a b
def keyRelease (a b : Ev) : Ordering :=
  (cmpNat a.issueBatch b.issueBatch).then <| (cmpWhat a b).then <| (cmpTm a b).then <|
  (cmpNat (if a.kind = .timer then a.timerDur else 0) (if b.kind = .timer then b.timerDur else 0)).then <|
  (cmpNat (if a.kind = .timer then a.initTm else 0) (if b.kind = .timer then b.initTm else 0)).then <|
  cmpDispatch a b

theorem then_assoc (a b c : Ordering) : (a.then b).then c = a.then (b.then c) := by cases a <;> rfl

theorem keyed_arrival : Keyed cmpArrival keyArrival where
  good := (good_nat.on (fun e : Ev => e.arrivalTm)).thenBy <| good_what.thenBy <| good_tm.thenBy good_dispatch
  eq := by intro a b; unfold cmpArrival keyArrival; simp only [then_assoc]
  what := by intro a b h; unfold keyArrival at h; exact (then_eq (then_eq h).2).1

theorem keyed_init : Keyed cmpInit keyInit where
  good := (good_nat.on (fun e : Ev => e.initTm)).thenBy good_what
  eq := by intro a b; unfold cmpInit keyInit; simp only [then_assoc]
  what := by intro a b h; unfold keyInit at h; exact (then_eq h).2

theorem keyed_complete : Keyed cmpComplete keyComplete where
  good := (good_nat.on (fun e : Ev => e.completeTm)).thenBy good_what
  eq := by intro a b; unfold cmpComplete keyComplete; simp only [then_assoc]
  what := by intro a b h; unfold keyComplete at h; exact (then_eq h).2

theorem keyed_master : Keyed cmpMaster keyMaster where
  good := good_tm.thenBy good_what
  eq := by intro a b; unfold cmpMaster keyMaster; simp only [then_assoc]
  what := by intro a b h; unfold keyMaster at h; exact (then_eq h).2

theorem keyed_slice : Keyed cmpSlice keySlice where
  good := (good_nat.on (fun e : Ev => e.pseudorandom)).thenBy <| good_what.thenBy good_tm
  eq := by intro a b; unfold cmpSlice keySlice; simp only [then_assoc]
  what := by intro a b h; unfold keySlice at h; exact (then_eq (then_eq h).2).1

theorem keyed_release : Keyed cmpRelease keyRelease where
  good := (good_nat.on (fun e : Ev => e.issueBatch)).thenBy <| good_what.thenBy <| good_tm.thenBy <|
    (good_nat.on (fun e : Ev => if e.kind = .timer then e.timerDur else 0)).thenBy <|
    (good_nat.on (fun e : Ev => if e.kind = .timer then e.initTm else 0)).thenBy good_dispatch
  eq := by
    intro a b
    unfold cmpRelease keyRelease
    simp only [then_assoc]
    split
    · rfl
    · refine then_congr fun _ => then_congr fun hw => then_congr fun _ => ?_
      have hk := what_kind hw
      by_cases ht : b.kind = .timer
      · rw [if_pos ⟨hk.trans ht, ht⟩, if_pos (hk.trans ht), if_pos ht, if_pos (hk.trans ht), if_pos ht, then_assoc]
      · rw [if_neg (fun h => ht h.2), if_neg (fun h => ht (hk.symm.trans h)), if_neg ht,
          if_neg (fun h => ht (hk.symm.trans h)), if_neg ht]
        rfl
  what := by intro a b h; unfold keyRelease at h; exact (then_eq (then_eq h).2).1

namespace Keyed
variable {cmp c : Ev → Ev → Ordering} (K : Keyed cmp c)
include K

theorem goodFull : Good (fun a b => (c a b).then (cmpNat a.sn b.sn)) := K.good.thenBy (good_nat.on (fun e : Ev => e.sn))

theorem swap (a b : Ev) : cmp b a = (cmp a b).swap := by
  rw [K.eq, K.eq]
  by_cases h : a.sn = b.sn
  · rw [if_pos h, if_pos h.symm]; rfl
  · rw [if_neg h, if_neg (Ne.symm h)]
    exact K.goodFull.swap a b

theorem eq_iff (a b : Ev) : cmp a b = .eq ↔ a.sn = b.sn := by
  rw [K.eq]
  by_cases h : a.sn = b.sn
  · simp [h]
  · rw [if_neg h]
    constructor
    · intro e; exact cmpNat_eq.1 (then_eq e).2
    · intro e; exact absurd e h

theorem gt_iff (a b : Ev) : cmp a b = .gt ↔ cmp b a = .lt := by
  rw [K.swap a b]
  cases cmp a b <;> simp [Ordering.swap]

theorem trans {a b d : Ev} (h : a.sn = d.sn → a = d) (h1 : cmp a b = .lt) (h2 : cmp b d = .lt) : cmp a d = .lt := by
  by_cases e : a.sn = d.sn
  · have := h e
    subst this
    rw [K.swap b a, h2] at h1
    cases h1
  · have n1 : a.sn ≠ b.sn := fun e' => by rw [(K.eq_iff a b).2 e'] at h1; cases h1
    have n2 : b.sn ≠ d.sn := fun e' => by rw [(K.eq_iff b d).2 e'] at h2; cases h2
    rw [K.eq, if_neg n1] at h1
    rw [K.eq, if_neg n2] at h2
    rw [K.eq, if_neg e]
    exact K.goodFull.trans a b d h1 h2

end Keyed

/-! Queues -/

def Sorted (cmp : Ev → Ev → Ordering) (q : List Ev) : Prop := q.Pairwise (fun a b => cmp a b = .lt)

/-- Numbers tell events of `l` apart. -/
def Numbered (l : List Ev) : Prop := ∀ a ∈ l, ∀ b ∈ l, a.sn = b.sn → a = b

section
variable {cmp c : Ev → Ev → Ordering} (K : Keyed cmp c)
include K

theorem mem_add {e : Ev} {q : List Ev} (hu : Numbered (e :: q)) (x : Ev) : x ∈ add cmp e q ↔ x = e ∨ x ∈ q := by
  induction q with
  | nil => simp [add]
  | cons f q ih =>
    have ih' := ih (fun a ha b hb => hu a (by
        rcases List.mem_cons.1 ha with rfl | h
        · exact List.mem_cons_self
        · exact List.mem_cons_of_mem _ (List.mem_cons_of_mem _ h)) b (by
        rcases List.mem_cons.1 hb with rfl | h
        · exact List.mem_cons_self
        · exact List.mem_cons_of_mem _ (List.mem_cons_of_mem _ h)))
    unfold add
    cases h : cmp e f with
    | lt => simp
    | eq =>
      have : e = f := hu e List.mem_cons_self f (by simp) ((K.eq_iff e f).1 h)
      subst this
      simp
    | gt => simp only [List.mem_cons, ih']; constructor <;> (rintro (h | h | h) <;> simp [h])

theorem sorted_add {e : Ev} {q : List Ev} (hu : Numbered (e :: q)) (hq : Sorted cmp q) : Sorted cmp (add cmp e q) := by
  induction q with
  | nil => exact List.pairwise_singleton _ _
  | cons f q ih =>
    have hu' : Numbered (e :: q) := fun a ha b hb => hu a (by
        rcases List.mem_cons.1 ha with rfl | h
        · exact List.mem_cons_self
        · exact List.mem_cons_of_mem _ (List.mem_cons_of_mem _ h)) b (by
        rcases List.mem_cons.1 hb with rfl | h
        · exact List.mem_cons_self
        · exact List.mem_cons_of_mem _ (List.mem_cons_of_mem _ h))
    have hq' := List.pairwise_cons.1 hq
    unfold add
    cases h : cmp e f with
    | lt =>
      refine List.pairwise_cons.2 ⟨?_, hq⟩
      intro x hx
      rcases List.mem_cons.1 hx with rfl | hx
      · exact h
      · exact K.trans (hu e List.mem_cons_self x (by simp [hx])) h (hq'.1 x hx)
    | eq => exact hq
    | gt =>
      refine List.pairwise_cons.2 ⟨?_, ih hu' hq'.2⟩
      intro x hx
      rcases (mem_add K hu' x).1 hx with rfl | hx
      · exact (K.gt_iff _ _).1 h
      · exact hq'.1 x hx

theorem del_spec {e : Ev} {q : List Ev} (hu : Numbered (e :: q)) (hq : Sorted cmp q) :
    ((del cmp e q).2 = true ↔ e ∈ q) ∧ (∀ x, x ∈ (del cmp e q).1 ↔ x ∈ q ∧ x ≠ e) ∧ (del cmp e q).1.Sublist q := by
  induction q with
  | nil => simp [del]
  | cons f q ih =>
    have hu' : Numbered (e :: q) := fun a ha b hb => hu a (by
        rcases List.mem_cons.1 ha with rfl | h
        · exact List.mem_cons_self
        · exact List.mem_cons_of_mem _ (List.mem_cons_of_mem _ h)) b (by
        rcases List.mem_cons.1 hb with rfl | h
        · exact List.mem_cons_self
        · exact List.mem_cons_of_mem _ (List.mem_cons_of_mem _ h))
    have hq' := List.pairwise_cons.1 hq
    have irr : ∀ x, cmp x x ≠ .lt := by
      intro x hx
      rw [(K.eq_iff x x).2 rfl] at hx
      cases hx
    unfold del
    cases h : cmp e f with
    | lt =>
      have hne : e ∉ f :: q := by
        intro he
        rcases List.mem_cons.1 he with rfl | he
        · exact irr _ h
        · have := hq'.1 e he
          rw [K.swap e f, h] at this
          cases this
      refine ⟨by simpa using hne, ?_, List.Sublist.refl _⟩
      intro x
      constructor
      · intro hx; exact ⟨hx, fun e' => hne (e' ▸ hx)⟩
      · exact fun hx => hx.1
    | eq =>
      have e1 : e = f := hu e List.mem_cons_self f (by simp) ((K.eq_iff e f).1 h)
      subst e1
      refine ⟨by simp, ?_, List.sublist_cons_self _ _⟩
      intro x
      constructor
      · intro hx
        refine ⟨List.mem_cons_of_mem _ hx, ?_⟩
        rintro rfl
        exact irr _ (hq'.1 _ hx)
      · rintro ⟨hx, hne⟩
        rcases List.mem_cons.1 hx with rfl | hx
        · exact absurd rfl hne
        · exact hx
    | gt =>
      have hne : e ≠ f := by
        rintro rfl
        rw [(K.eq_iff e e).2 rfl] at h
        cases h
      obtain ⟨h1, h2, h3⟩ := ih hu' hq'.2
      refine ⟨by simp [h1, hne], ?_, h3.cons_cons f⟩
      intro x
      simp only [List.mem_cons, h2]
      constructor
      · rintro (rfl | ⟨h, h'⟩)
        · exact ⟨.inl rfl, Ne.symm hne⟩
        · exact ⟨.inr h, h'⟩
      · rintro ⟨rfl | h, h'⟩
        · exact .inl rfl
        · exact .inr ⟨h, h'⟩

end

end Verif.EventQ
