import Verif.Proofs.DirSyncPrune
/-
A sync with any listing that does not lead out of the target.
-/
namespace Verif.DirSync

theorem Open.off {a b : FS} {p : Path} (ho : Open a [] p) (h : Off p a b) : Open b [] p := by
  intro q hq hpre hne t m
  rw [List.nil_append, h q hne]
  simpa using ho q hq hpre hne t m

theorem del_off (a : FS) (p : Path) : Off p a (del a p) := by
  intro q hq; rw [get_del, if_neg hq]

theorem set_off (a : FS) (p : Path) (e : Entry) : Off p a (set a p e) := by
  intro q hq; rw [get_set, if_neg hq]

theorem Off.refl (p : Path) (a : FS) : Off p a a := fun _ _ => rfl

theorem Off.trans {p : Path} {a b c : FS} (h1 : Off p a b) (h2 : Off p b c) : Off p a c :=
  fun q hq => (h2 q hq).trans (h1 q hq)

/-- MkdirAll of a path no beginning of which is a link. -/
theorem mkdirGo_open {cs : List Name} : ∀ {fs fs' : FS} {cur : Path},
    (∀ c ∈ cur ++ cs, Proper c) → Open fs [] (cur ++ cs) → mkdirGo fs cur cs = some fs' →
    ∀ p, get fs' p = get fs p ∨
      (get fs p = none ∧ get fs' p = some (.dir 0o700) ∧ p ≠ [] ∧ p <+: cur ++ cs) := by
  induction cs with
  | nil =>
    intro fs fs' cur _ _ h p
    rw [mkdirGo] at h
    simp only [Option.some.injEq] at h
    subst h
    exact Or.inl rfl
  | cons c cs ih =>
    intro fs fs' cur hp ho h
    have happ : cur ++ c :: cs = (cur ++ [c]) ++ cs := by simp
    have hp1 : ∀ x ∈ cur ++ [c], Proper x := by
      intro x hx
      apply hp
      rw [happ]
      exact List.mem_append_left _ hx
    have ho1 : Open fs [] (cur ++ [c]) := by
      intro q hq hpre hne
      refine ho q hq (hpre.trans (by rw [happ]; exact List.prefix_append ..)) ?_
      rintro rfl
      have := hpre.length_le
      simp only [List.length_append, List.length_cons, List.length_nil] at this
      have h0 : cs = [] := List.length_eq_zero_iff.1 (by omega)
      subst h0
      exact hne rfl
    rw [happ] at hp ho ⊢
    rw [mkdirGo] at h
    cases es : stat fs (cur ++ [c]) with
    | some x =>
      rw [es] at h
      cases x with
      | dir m => exact ih hp ho h
      | file _ _ _ => exact nomatch h
      | link _ _ => exact nomatch h
    | none =>
      rw [es] at h
      dsimp only at h
      rcases namei_open (follow := false) hp1 ho1 (Or.inl rfl) with hn | hn
      · rw [hn] at h
        dsimp only at h
        by_cases hg : get fs (cur ++ [c]) = none
        · rw [if_pos hg] at h
          have ho2 : Open (set fs (cur ++ [c]) (.dir 0o700)) [] (cur ++ [c] ++ cs) := by
            intro q hq hpre hne t m
            rw [get_set]
            by_cases hq' : [] ++ q = cur ++ [c]
            · rw [if_pos hq']; simp
            · rw [if_neg hq']; exact ho q hq hpre hne t m
          intro p
          rcases ih hp ho2 h p with h1 | ⟨h1, h2⟩
          · rw [get_set] at h1
            by_cases hpc : p = cur ++ [c]
            · right
              rw [if_pos hpc] at h1
              subst hpc
              exact ⟨hg, h1, by simp, List.prefix_append ..⟩
            · left; rw [if_neg hpc] at h1; exact h1
          · rw [get_set] at h1
            by_cases hpc : p = cur ++ [c]
            · rw [if_pos hpc] at h1; exact nomatch h1
            · rw [if_neg hpc] at h1; exact Or.inr ⟨h1, h2⟩
        · rw [if_neg hg] at h; exact nomatch h
      · rw [hn] at h; exact nomatch h

theorem hasBelow_of {a : FS} {p s : Path} (hs : s ≠ []) (h : get a (p ++ s) ≠ none) :
    hasBelow a p = true := by
  obtain ⟨e, he⟩ := Option.ne_none_iff_exists'.1 h
  unfold hasBelow
  rw [List.any_eq_true]
  refine ⟨_, mem_of_get he, ?_⟩
  simp [hs]

theorem remove_open {a : FS} {p : Path} (hp : ∀ c ∈ p, Proper c) (ho : Open a [] p) :
    remove a p = a ∨ (remove a p = del a p ∧ ¬ (Dir a p ∧ hasBelow a p = true)) := by
  unfold remove
  rcases namei_open (follow := false) hp ho (Or.inl rfl) with hn | hn
  · rw [hn]
    dsimp only
    cases e : get a p with
    | none => right; exact ⟨rfl, by rintro ⟨⟨m, hm⟩, _⟩; rw [e] at hm; exact nomatch hm⟩
    | some x =>
      cases x with
      | dir m =>
        dsimp only
        by_cases hb : hasBelow a p = true
        · left; rw [if_pos hb]
        · right; rw [if_neg hb]; exact ⟨rfl, fun h => hb h.2⟩
      | file _ _ _ => right; exact ⟨rfl, by rintro ⟨⟨m, hm⟩, _⟩; rw [e] at hm; exact nomatch hm⟩
      | link _ _ => right; exact ⟨rfl, by rintro ⟨⟨m, hm⟩, _⟩; rw [e] at hm; exact nomatch hm⟩
  · rw [hn]; exact Or.inl rfl

theorem lutimes_open {a : FS} {p : Path} {mt : Nat} (hp : ∀ c ∈ p, Proper c) (ho : Open a [] p) :
    lutimes a p mt = a ∨ ∃ tg m, get a p = some (.link tg m) ∧
      lutimes a p mt = set a p (.link tg (micro mt)) := by
  unfold lutimes
  rcases namei_open (follow := false) hp ho (Or.inl rfl) with hn | hn
  · rw [hn]
    dsimp only
    cases e : get a p with
    | none => exact Or.inl rfl
    | some x =>
      cases x with
      | dir _ => exact Or.inl rfl
      | file _ _ _ => exact Or.inl rfl
      | link tg m => exact Or.inr ⟨tg, m, rfl, rfl⟩
  · rw [hn]; exact Or.inl rfl

theorem takeLink_open {a b : FS} {p : Path} {tg : List Char} {mt : Nat} (hp : ∀ c ∈ p, Proper c)
    (ho : Open a [] p) (h : takeLink a p tg mt = some b) :
    Off p a b ∧ get b p ≠ none ∧ ¬ (Dir a p ∧ hasBelow a p = true) := by
  have hw : ∀ b, writeLink a p tg mt = some b →
      Off p a b ∧ get b p ≠ none ∧ ¬ (Dir a p ∧ hasBelow a p = true) := by
    intro b h
    unfold writeLink at h
    have h1 : Off p a (remove a p) := by
      rcases remove_open hp ho with h | ⟨h, _⟩ <;> rw [h]
      · exact Off.refl p a
      · exact del_off a p
    have h2 : get (remove a p) p = none → ¬ (Dir a p ∧ hasBelow a p = true) := by
      intro hn
      rcases remove_open hp ho with h | ⟨_, h⟩
      · rw [h] at hn
        rintro ⟨⟨m, hm⟩, _⟩
        rw [hn] at hm
        exact nomatch hm
      · exact h
    have ho1 := ho.off h1
    generalize remove a p = a1 at h h1 h2 ho1
    unfold symlink at h
    rcases namei_open (follow := false) hp ho1 (Or.inl rfl) with hn | hn
    · rw [hn] at h
      dsimp only at h
      by_cases hc : p ≠ [] ∧ get a1 p = none
      · rw [if_pos hc] at h
        simp only [Option.map_some, Option.some.injEq] at h
        have h3 : Off p a (set a1 p (.link tg mt)) := h1.trans (set_off _ _ _)
        have h4 : get (set a1 p (.link tg mt)) p ≠ none := by rw [get_set, if_pos rfl]; simp
        rcases lutimes_open (mt := mt) hp (ho.off h3) with h5 | ⟨t', m', _, h5⟩
        · rw [h5] at h; subst h; exact ⟨h3, h4, h2 hc.2⟩
        · rw [h5] at h
          subst h
          exact ⟨h3.trans (set_off _ _ _), by rw [get_set, if_pos rfl]; simp, h2 hc.2⟩
      · rw [if_neg hc] at h; exact nomatch h
    · rw [hn] at h; exact nomatch h
  unfold takeLink at h
  rcases namei_open (follow := false) hp ho (Or.inl rfl) with hn | hn
  · unfold lstat at h
    rw [hn] at h
    cases hpe : p with
    | nil =>
      rw [hpe] at h
      dsimp only at h
      rw [← hpe] at h ⊢
      exact hw b h
    | cons c cs =>
      rw [hpe] at h
      dsimp only at h
      rw [← hpe] at h ⊢
      cases e : get a p with
      | none => rw [e] at h; exact hw b h
      | some x =>
        rw [e] at h
        cases x with
        | dir _ => exact hw b h
        | file _ _ _ => exact hw b h
        | link t' m' =>
          have hnd : ¬ (Dir a p ∧ hasBelow a p = true) := by
            rintro ⟨⟨m, hm⟩, _⟩; rw [e] at hm; exact nomatch hm
          dsimp only at h
          by_cases h1 : t' ≠ tg
          · rw [if_pos h1] at h; exact hw b h
          · rw [if_neg h1] at h
            by_cases h2 : m' ≠ mt
            · rw [if_pos h2] at h
              simp only [Option.some.injEq] at h
              subst h
              rcases lutimes_open (mt := mt) hp ho with h5 | ⟨t', m', _, h5⟩
              · rw [h5]; exact ⟨Off.refl _ _, by rw [e]; simp, hnd⟩
              · rw [h5]; exact ⟨set_off _ _ _, by rw [get_set, if_pos rfl]; simp, hnd⟩
            · rw [if_neg h2] at h
              simp only [Option.some.injEq] at h
              subst h
              exact ⟨Off.refl _ _, by rw [e]; simp, hnd⟩
  · unfold lstat at h
    rw [hn] at h
    exact hw b h

theorem chmod_open {a b : FS} {p : Path} {m : Nat} (hp : ∀ c ∈ p, Proper c) (ho : Open a [] p)
    (hl : ∀ t m, get a p ≠ some (.link t m)) (h : chmod a p m = some b) :
    Off p a b ∧ (Dir a p → Dir b p) ∧ (∀ t m, get b p ≠ some (.link t m)) ∧ get b p ≠ none := by
  unfold chmod at h
  rcases namei_open (follow := true) hp ho (Or.inr hl) with hn | hn
  · rw [hn] at h
    dsimp only at h
    cases e : get a p with
    | none => rw [e] at h; exact nomatch h
    | some x =>
      rw [e] at h
      cases x with
      | dir m0 =>
        simp only [Option.some.injEq] at h
        subst h
        refine ⟨set_off _ _ _, fun _ => ⟨m, ?_⟩, ?_, ?_⟩
        · rw [get_set, if_pos rfl]
        · intro t m; rw [get_set, if_pos rfl]; simp
        · rw [get_set, if_pos rfl]; simp
      | file d m0 t0 =>
        simp only [Option.some.injEq] at h
        subst h
        refine ⟨set_off _ _ _, ?_, ?_, ?_⟩
        · rintro ⟨m', hm'⟩; rw [e] at hm'; exact nomatch hm'
        · intro t m; rw [get_set, if_pos rfl]; simp
        · rw [get_set, if_pos rfl]; simp
      | link _ _ => exact nomatch h
  · rw [hn] at h; exact nomatch h

theorem transfer_open {rq : Req} {a b : FS} {x : Rec} (hp : ∀ c ∈ rq.root ++ x.path, Proper c)
    (hx : ∀ c ∈ x.path, Proper c) (ho : Open a [] (rq.root ++ x.path))
    (hl : x.kind.follows = true → ∀ t m, get a (rq.root ++ x.path) ≠ some (.link t m))
    (h : transfer rq a x = some b) :
    b = a ∨ ∃ d m mt, b = set a (rq.root ++ x.path) (.file d m mt) := by
  unfold transfer at h
  rw [join_proper hx] at h
  cases hk : x.kind with
  | leaf _ => rw [hk] at h; simp only [Option.some.injEq] at h; exact Or.inl h.symm
  | mid _ => rw [hk] at h; simp only [Option.some.injEq] at h; exact Or.inl h.symm
  | link _ _ => rw [hk] at h; simp only [Option.some.injEq] at h; exact Or.inl h.symm
  | file d m mt =>
    rw [hk] at h hl
    dsimp only at h
    have key : (match namei a (decide (d = [])) (rq.root ++ x.path) with
      | some q => if q = [] then none else some (set a q (.file d (newMode rq.par d m) mt))
      | none => none) = some b →
        b = a ∨ ∃ d m mt, b = set a (rq.root ++ x.path) (.file d m mt) := by
      intro h
      have := namei_open (fs := a) (follow := decide (d = [])) hp ho (by
        cases d with
        | nil => exact Or.inr (hl rfl)
        | cons _ _ => left; simp)
      rcases this with hn | hn
      · rw [hn] at h
        dsimp only at h
        split at h
        · exact nomatch h
        · simp only [Option.some.injEq] at h
          exact Or.inr ⟨_, _, _, h.symm⟩
      · rw [hn] at h; exact nomatch h
    cases es : stat a (rq.root ++ x.path) with
    | none => rw [es] at h; exact key h
    | some y =>
      rw [es] at h
      cases y with
      | dir _ => exact nomatch h
      | link _ _ => exact nomatch h
      | file d' _ _ =>
        cases d' with
        | nil => exact key h
        | cons _ _ => exact nomatch h

variable {rq : Req} {fs : FS} {l : List Rec}

/-- While the listing is read. -/
structure Kept (fs : FS) (t : Path) (l : List Rec) (fsx : FS) : Prop where
  out : ∀ p, ¬ t <+: p → get fsx p = get fs p
  links : ∀ r tg m, get fsx (t ++ r) = some (.link tg m) → LinkAt fs t l r
  full : ∀ x ∈ l, (∃ tg m, x.kind = .link tg m) → ∀ s, s ≠ [] → get fs (t ++ (x.path ++ s)) ≠ none →
    Dir fsx (t ++ x.path) ∧ get fsx (t ++ (x.path ++ s)) ≠ none

theorem prefix_out {t q : Path} (hpre : q <+: t) (hne : q ≠ t) : ¬ t <+: q := by
  intro h
  have h1 := h.length_le
  have h2 := hpre.length_le
  exact hne (hpre.eq_of_length (by omega))

theorem tame_open (ht : Tame fs rq.root l) {fsx : FS}
    (hout : ∀ p, ¬ rq.root <+: p → get fsx p = get fs p)
    (hlinks : ∀ r tg m, get fsx (rq.root ++ r) = some (.link tg m) → LinkAt fs rq.root l r)
    {x : Rec} (hx : x ∈ l) : Open fsx [] (rq.root ++ x.path) := by
  intro q hq hpre hne t m
  rw [List.nil_append]
  rcases prefix_append_cases hpre with ⟨h1, h2⟩ | ⟨q', rfl, h1⟩
  · rw [hout q (prefix_out h1 h2)]
    obtain ⟨m', hm'⟩ := ht.above q hq h1 h2
    rw [hm']; simp
  · intro hlk
    have := (ht.noLinks x hx q' h1 (hlinks q' t m hlk)).1
    exact hne (by rw [this])

theorem tame_names (ht : Tame fs rq.root l) {x : Rec} (hx : x ∈ l) :
    ∀ c ∈ rq.root ++ x.path, Proper c := by
  intro c hc
  rcases List.mem_append.1 hc with hc | hc
  · exact ht.topNames c hc
  · exact ht.names x hx c hc

theorem Kept.off (ht : Tame fs rq.root l) {a b : FS} (h : Kept fs rq.root l a) {r : Path}
    (ho : Off (rq.root ++ r) a b)
    (h1 : ∀ tg m, get b (rq.root ++ r) = some (.link tg m) → LinkAt fs rq.root l r)
    (h2 : Dir a (rq.root ++ r) → hasBelow a (rq.root ++ r) = true → Dir b (rq.root ++ r))
    (h3 : get b (rq.root ++ r) ≠ none ∨ ∃ x ∈ l, x.path = r ∧ ∃ tg m, x.kind = .link tg m) :
    Kept fs rq.root l b := by
  constructor
  · intro p hp
    rw [ho p, h.out p hp]
    rintro rfl
    exact hp (List.prefix_append ..)
  · intro r' tg m hr'
    by_cases e : r' = r
    · subst e; exact h1 tg m hr'
    · rw [ho _ (by simpa using e)] at hr'
      exact h.links r' tg m hr'
  · intro x hx hk s hs hg
    obtain ⟨k1, k2⟩ := h.full x hx hk s hs hg
    constructor
    · by_cases e : x.path = r
      · rw [e] at k1 k2 ⊢
        rw [← List.append_assoc] at k2
        exact h2 k1 (hasBelow_of hs k2)
      · unfold Dir
        rw [ho _ (by simpa using e)]
        exact k1
    · by_cases e : x.path ++ s = r
      · rcases h3 with h3 | ⟨y, hy, hyp, hyk⟩
        · rw [e]; exact h3
        · have := (ht.noLinks y hy x.path (by rw [hyp, ← e]; exact List.prefix_append ..)
            (Or.inr ⟨x, hx, rfl, hk⟩)).1
          rw [hyp, ← e] at this
          simp at this
          exact absurd this hs
      · rw [ho _ (by simpa using e)]
        exact k2

theorem take_tame (ht : Tame fs rq.root l) {s : St} {x : Rec} (hx : x ∈ l)
    (h : Kept fs rq.root l s.fs) :
    Kept fs rq.root l (take rq s x).fs ∧ ∀ y ∈ (take rq s x).upd, y ∈ s.upd ∨ y = x := by
  have hop := tame_open ht h.out h.links hx
  have hn := tame_names ht hx
  have hj := join_proper (t := rq.root) (ht.names x hx)
  unfold take
  split
  · exact ⟨h, fun y hy => Or.inl hy⟩
  · rw [hj]
    cases hk : x.kind with
    | leaf m =>
      dsimp only
      split
      · exact ⟨h, fun y hy => Or.inl hy⟩
      · cases e : mkdirAll s.fs (rq.root ++ x.path) with
        | none => exact ⟨h, fun y hy => Or.inl hy⟩
        | some b =>
          dsimp only
          refine ⟨?_, fun y hy => Or.inl hy⟩
          have := mkdirGo_open (cur := []) hn hop e
          simp only [List.nil_append] at this
          constructor
          · intro p hp
            rcases this p with h1 | ⟨h1, h2, h3, h4⟩
            · rw [h1, h.out p hp]
            · rcases prefix_append_cases h4 with ⟨h5, _⟩ | ⟨q', rfl, _⟩
              · have hne : p ≠ rq.root := by rintro rfl; exact hp List.prefix_rfl
                obtain ⟨m', hm'⟩ := ht.above p h3 h5 hne
                rw [h.out p hp, hm'] at h1
                exact nomatch h1
              · exact absurd (List.prefix_append ..) hp
          · intro r tg m' hr
            rcases this (rq.root ++ r) with h1 | ⟨_, h1, _⟩
            · rw [h1] at hr; exact h.links r tg m' hr
            · rw [h1] at hr; exact nomatch hr
          · intro y hy hyk q hq hg
            obtain ⟨⟨m', k1⟩, k2⟩ := h.full y hy hyk q hq hg
            constructor
            · rcases this (rq.root ++ y.path) with h1 | ⟨_, h1, _⟩
              · exact ⟨m', by rw [h1, k1]⟩
              · exact ⟨_, h1⟩
            · rcases this (rq.root ++ (y.path ++ q)) with h1 | ⟨_, h1, _⟩
              · rw [h1]; exact k2
              · rw [h1]; simp
    | mid m =>
      dsimp only
      cases e : chmod s.fs (rq.root ++ x.path) m with
      | none => exact ⟨h, fun y hy => Or.inl hy⟩
      | some b =>
        refine ⟨?_, fun y hy => Or.inl hy⟩
        have hl : ∀ t m, get s.fs (rq.root ++ x.path) ≠ some (.link t m) := by
          intro t m' hlk
          have := (ht.noLinks x hx x.path List.prefix_rfl (h.links _ _ _ hlk)).2
          rw [hk] at this
          exact nomatch this
        obtain ⟨k1, k2, k3, k4⟩ := chmod_open hn hop hl e
        exact h.off ht k1 (fun tg m' hr => absurd hr (k3 tg m')) (fun hd _ => k2 hd) (Or.inl k4)
    | link tg mt =>
      dsimp only
      have hlk : ∃ y ∈ l, y.path = x.path ∧ ∃ tg m, y.kind = .link tg m := ⟨x, hx, rfl, tg, mt, hk⟩
      cases e : takeLink s.fs (rq.root ++ x.path) tg mt with
      | none =>
        dsimp only
        refine ⟨?_, fun y hy => Or.inl hy⟩
        rcases remove_open hn hop with h1 | ⟨h1, h2⟩
        · rw [h1]; exact h
        · rw [h1]
          exact h.off ht (del_off _ _) (fun _ _ _ => Or.inr hlk) (fun a b => absurd ⟨a, b⟩ h2) (Or.inr hlk)
      | some b =>
        dsimp only
        refine ⟨?_, fun y hy => Or.inl hy⟩
        obtain ⟨k1, k2, k3⟩ := takeLink_open hn hop e
        exact h.off ht k1 (fun _ _ _ => Or.inr hlk) (fun a b => absurd ⟨a, b⟩ k3) (Or.inl k2)
    | file d m mt =>
      dsimp only
      split
      · refine ⟨h, fun y hy => ?_⟩
        simpa using hy
      · exact ⟨h, fun y hy => Or.inl hy⟩

theorem takes_tame (ht : Tame fs rq.root l) {l' : List Rec} : ∀ {s : St}, (∀ x ∈ l', x ∈ l) →
    (∀ y ∈ s.upd, y ∈ l) → Kept fs rq.root l s.fs →
    Kept fs rq.root l (l'.foldl (take rq) s).fs ∧ ∀ y ∈ (l'.foldl (take rq) s).upd, y ∈ l := by
  induction l' with
  | nil => intro s _ hu h; exact ⟨h, hu⟩
  | cons x l' ih =>
    intro s hsub hu h
    rw [List.foldl_cons]
    have hx := hsub x (List.mem_cons_self ..)
    obtain ⟨h1, h2⟩ := take_tame ht hx h
    refine ih (fun y hy => hsub y (List.mem_cons_of_mem _ hy)) ?_ h1
    intro y hy
    rcases h2 y hy with h3 | rfl
    · exact hu y h3
    · exact hx

/-- During the requests and deletions. -/
structure Kept2 (fs : FS) (t : Path) (l : List Rec) (fsx : FS) : Prop where
  out : ∀ p, ¬ t <+: p → get fsx p = get fs p
  links : ∀ r tg m, get fsx (t ++ r) = some (.link tg m) → LinkAt fs t l r
  clear : ∀ r s, s ≠ [] → get fs (t ++ (r ++ s)) ≠ none → ∀ tg m, get fsx (t ++ r) ≠ some (.link tg m)

theorem Kept.second (ht : Tame fs rq.root l) {a : FS} (h : Kept fs rq.root l a) :
    Kept2 fs rq.root l a := by
  refine ⟨h.out, h.links, ?_⟩
  intro r s hs hg tg m hlk
  rcases h.links r tg m hlk with ⟨tg', m', h1⟩ | ⟨x, hx, rfl, hk⟩
  · obtain ⟨m2, h2⟩ := ht.taker.dir_of_longer hg hs
    rw [h1] at h2
    exact nomatch h2
  · obtain ⟨⟨m2, h2⟩, _⟩ := h.full x hx hk s hs hg
    rw [hlk] at h2
    exact nomatch h2

theorem updates_tame (ht : Tame fs rq.root l) {skip : Rec → Bool} {l' : List Rec} :
    ∀ {u : Up}, (∀ x ∈ l', x ∈ l) → Kept2 fs rq.root l u.fs →
      Kept2 fs rq.root l (l'.foldl (update rq skip) u).fs := by
  induction l' with
  | nil => intro u _ h; exact h
  | cons x l' ih =>
    intro u hsub h
    rw [List.foldl_cons]
    have hx := hsub x (List.mem_cons_self ..)
    refine ih (fun y hy => hsub y (List.mem_cons_of_mem _ hy)) ?_
    unfold update
    split
    · exact h
    · cases e : transfer rq u.fs x with
      | none => exact h
      | some b =>
        dsimp only
        rcases transfer_open (tame_names ht hx) (ht.names x hx) (tame_open ht h.out h.links hx) (by
          intro hf t m hlk
          have := (ht.noLinks x hx x.path List.prefix_rfl (h.links _ _ _ hlk)).2
          rw [hf] at this
          exact nomatch this) e with rfl | ⟨d, m, mt, rfl⟩
        · exact h
        · constructor
          · intro p hp
            rw [get_set, if_neg, h.out p hp]
            rintro rfl
            exact hp (List.prefix_append ..)
          · intro r tg m' hr
            rw [get_set] at hr
            split at hr
            · exact nomatch hr
            · exact h.links r tg m' hr
          · intro r s hs hg tg m'
            rw [get_set]
            split
            · simp
            · exact h.clear r s hs hg tg m'

theorem prunes_tame (ht : Tame fs rq.root l) {listed : List (List Name)} {cs : List (Path × Bool)} :
    ∀ {a : FS}, (∀ c ∈ cs, get fs (rq.root ++ c.1) ≠ none) → Kept2 fs rq.root l a →
      Kept2 fs rq.root l (cs.foldl (prune rq listed) a) := by
  induction cs with
  | nil => intro a _ h; exact h
  | cons c cs ih =>
    intro a hc h
    rw [List.foldl_cons]
    refine ih (fun y hy => hc y (List.mem_cons_of_mem _ hy)) ?_
    have hg := hc c (List.mem_cons_self ..)
    have hnm := ht.taker.names c.1 hg
    have hn : ∀ n ∈ rq.root ++ c.1, Proper n := by
      intro n hn
      rcases List.mem_append.1 hn with hn | hn
      · exact ht.topNames n hn
      · exact hnm n hn
    have hop : Open a [] (rq.root ++ c.1) := by
      intro q hq hpre hne t m
      rw [List.nil_append]
      rcases prefix_append_cases hpre with ⟨h1, h2⟩ | ⟨q', rfl, ⟨s, hs⟩⟩
      · rw [h.out q (prefix_out h1 h2)]
        obtain ⟨m', hm'⟩ := ht.above q hq h1 h2
        rw [hm']; simp
      · refine h.clear q' s ?_ (by rw [hs]; exact hg) t m
        rintro rfl
        exact hne (by rw [← hs]; simp)
    have shrink : ∀ b, (∀ p, get b p = get a p ∨ (get b p = none ∧ rq.root ++ c.1 <+: p)) →
        Kept2 fs rq.root l b := by
      intro b hb
      constructor
      · intro p hp
        rcases hb p with h1 | ⟨_, h1⟩
        · rw [h1, h.out p hp]
        · exact absurd ((List.prefix_append ..).trans h1) hp
      · intro r tg m hr
        rcases hb (rq.root ++ r) with h1 | ⟨h1, _⟩
        · rw [h1] at hr; exact h.links r tg m hr
        · rw [h1] at hr; exact nomatch hr
      · intro r s hs hg tg m
        rcases hb (rq.root ++ r) with h1 | ⟨h1, _⟩
        · rw [h1]; exact h.clear r s hs hg tg m
        · rw [h1]; simp
    unfold prune
    rw [join_proper hnm]
    split
    · exact h
    · split
      · apply shrink
        intro p
        unfold removeAll
        rcases namei_open (follow := false) hn hop (Or.inl rfl) with h1 | h1
        · rw [h1]
          dsimp only
          split
          · exact Or.inl rfl
          · rw [get_delBelow]
            by_cases hp : rq.root ++ c.1 <+: p
            · right; rw [if_pos hp]; exact ⟨rfl, hp⟩
            · left; rw [if_neg hp]
        · rw [h1]; exact Or.inl rfl
      · apply shrink
        intro p
        rcases remove_open hn hop with h1 | ⟨h1, _⟩
        · rw [h1]; exact Or.inl rfl
        · rw [h1, get_del]
          by_cases hp : p = rq.root ++ c.1
          · right; rw [if_pos hp]; exact ⟨rfl, hp ▸ List.prefix_rfl⟩
          · left; rw [if_neg hp]

theorem run_tame (ht : Tame fs rq.root l) {sch : Sched} (hsch : sch.Fair) {p : Path}
    (hp : ¬ rq.root <+: p) : get (run rq sch fs l).fs p = get fs p := by
  have h0 : Kept fs rq.root l fs := by
    refine ⟨fun p _ => rfl, fun r tg m hr => Or.inl ⟨tg, m, hr⟩, ?_⟩
    intro x hx hk s hs hg
    exact ⟨ht.taker.dir_of_longer hg hs, hg⟩
  obtain ⟨h1, h2⟩ := takes_tame ht (l' := l) (s := { fs := fs }) (fun x hx => hx) (by simp) h0
  unfold run
  dsimp only
  split
  · exact h1.out p hp
  · have h3 := updates_tame ht (skip := sch.skip)
      (l' := sch.ordU (l.foldl (take rq) { fs := fs }).upd)
      (u := { fs := (l.foldl (take rq) { fs := fs }).fs })
      (fun x hx => h2 x ((hsch.1 _).mem_iff.1 hx)) (h1.second ht)
    refine (prunes_tame ht ?_ h3).out p hp
    intro c hc
    obtain ⟨e, he, _⟩ := (catalog_mem ht.taker ht.top ht.topNames ht.above ht.here c.1 c.2).1
      ((hsch.2 _).mem_iff.1 hc)
    rw [he]; simp

end Verif.DirSync
