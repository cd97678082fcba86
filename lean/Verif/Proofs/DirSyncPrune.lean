import Verif.Proofs.DirSyncTake
/-
The deletions, and the whole run put together.
-/
namespace Verif.DirSync

variable {rq : Req} {fs gfs : FS} {g : Path}

theorem catalog_mem {t : Path} (taker : Tree fs t) (top : t ≠ []) (topNames : ∀ c ∈ t, Proper c)
    (hup : ∀ q, q ≠ [] → q <+: t → q ≠ t → Dir fs q) (here : get fs t = none ∨ Dir fs t) :
    ∀ r d, (r, d) ∈ catalog fs t ↔ ∃ e, get fs (t ++ r) = some e ∧ e.isDir = d := by
  intro r d
  unfold catalog
  rw [lstat_dirs top topNames hup]
  rcases here with h | ⟨m, h⟩
  · rw [h]
    constructor
    · intro h'; exact nomatch h'
    · rintro ⟨e, he, _⟩
      have : Dir fs t := by
        by_cases hr : r = []
        · subst hr
          rw [List.append_nil, h] at he
          exact nomatch he
        · have := taker.dir_of_longer (r := []) (s := r) (by rw [List.nil_append, he]; simp) hr
          simpa using this
      obtain ⟨m, hm⟩ := this
      rw [h] at hm
      exact nomatch hm
  · rw [h, namei_dirs topNames hup (Or.inl rfl)]
    dsimp only
    rw [List.mem_map]
    constructor
    · rintro ⟨x, hx, he⟩
      obtain ⟨hx1, hx2⟩ := List.mem_filter.1 hx
      obtain ⟨s, hs⟩ := List.isPrefixOf_iff_prefix.1 hx2
      have h3 := get_of_mem taker.keys hx1
      rw [← hs] at h3 he
      simp only [Prod.mk.injEq, List.drop_left] at he
      obtain ⟨rfl, rfl⟩ := he
      exact ⟨x.2, h3, rfl⟩
    · rintro ⟨e, he, rfl⟩
      refine ⟨(t ++ r, e), List.mem_filter.2 ⟨mem_of_get he, ?_⟩, by simp⟩
      exact List.isPrefixOf_iff_prefix.2 (List.prefix_append _ r)

theorem catalog_eq (hf : Fits fs rq.root gfs g) :
    ∀ r d, (r, d) ∈ catalog fs rq.root ↔ ∃ e, get fs (rq.root ++ r) = some e ∧ e.isDir = d :=
  catalog_mem hf.taker hf.top hf.topNames hf.above hf.here

/-- The state before the deletions: the giver's directories are there, and what the giver does
not have is as before. -/
structure Base (rq : Req) (fs gfs : FS) (g : Path) (fs3 : FS) : Prop where
  ready : Ready rq gfs g fs3
  rest : ∀ r, get gfs (g ++ r) = none → get fs3 (rq.root ++ r) = get fs (rq.root ++ r)

theorem Base.dir (hf : Fits fs rq.root gfs g) {fs3 : FS} (h : Base rq fs gfs g fs3) {r : Path}
    (hd : Dir fs (rq.root ++ r)) : Dir fs3 (rq.root ++ r) := by
  cases e : get gfs (g ++ r) with
  | none => unfold Dir; rw [h.rest r e]; exact hd
  | some x =>
    cases x with
    | dir m => exact h.ready.dirs r ⟨m, e⟩
    | file d m mt =>
      obtain ⟨m', hm'⟩ := hd
      rcases hf.files r d m mt e with h1 | ⟨_, _, _, h1⟩ <;> rw [hm'] at h1 <;> exact nomatch h1
    | link tg m => exact absurd hd (hf.links r tg m e)

theorem Base.parents (hf : Fits fs rq.root gfs g) {fs3 : FS} (h : Base rq fs gfs g fs3)
    (r : Path) (c : Name) (hc : get fs3 (rq.root ++ (r ++ [c])) ≠ none) :
    Dir fs3 (rq.root ++ r) := by
  by_cases e : get gfs (g ++ (r ++ [c])) = none
  · rw [h.rest _ e] at hc
    exact h.dir hf (hf.taker.parents r c hc)
  · exact h.ready.dirs r (hf.giver.parents r c e)

/-- What is left while deleting. -/
structure Left (rq : Req) (gfs : FS) (g : Path) (fs3 fsx : FS) : Prop where
  sub : ∀ p, get fsx p = get fs3 p ∨
    (get fsx p = none ∧ ∃ r, p = rq.root ++ r ∧ get gfs (g ++ r) = none)
  parents : ∀ r c, get fsx (rq.root ++ (r ++ [c])) ≠ none → Dir fsx (rq.root ++ r)

theorem Left.dir_of_longer {fs3 fsx : FS} (h : Left rq gfs g fs3 fsx) {s : List Name} :
    ∀ {r : Path}, get fsx (rq.root ++ (r ++ s)) ≠ none → s ≠ [] → Dir fsx (rq.root ++ r) := by
  induction s with
  | nil => intro _ _ h; exact absurd rfl h
  | cons c s ih =>
    intro r hg _
    have hg' : get fsx (rq.root ++ ((r ++ [c]) ++ s)) ≠ none := by simpa using hg
    by_cases e : s = []
    · subst e; exact h.parents r c (by simpa using hg)
    · obtain ⟨m, hm⟩ := ih hg' e
      exact h.parents r c (by rw [hm]; simp)

theorem Left.above (h3 : Ready rq gfs g fs3) {fsx : FS} (h : Left rq gfs g fs3 fsx) :
    ∀ q, q ≠ [] → q <+: rq.root → q ≠ rq.root → Dir fsx q := by
  intro q hq hpre hne
  rcases h.sub q with h1 | ⟨_, r, rfl, _⟩
  · unfold Dir; rw [h1]; exact h3.above q hq hpre hne
  · obtain ⟨s, hs⟩ := hpre
    have : r = [] := by
      have := congrArg List.length hs
      simp only [List.length_append] at this
      exact List.length_eq_zero_iff.1 (by omega)
    subst this
    exact absurd (by simp) hne

theorem prune_step (hf : Fits fs rq.root gfs g) {fs3 fsx : FS} (h3 : Base rq fs gfs g fs3)
    (h : Left rq gfs g fs3 fsx) {r : Path} {e : Entry} (hr : r ≠ []) (he : get fs (rq.root ++ r) = some e)
    (hg : get gfs (g ++ r) = none) :
    let fs' := if e.isDir then removeAll fsx (rq.root ++ r) else remove fsx (rq.root ++ r)
    Left rq gfs g fs3 fs' ∧ get fs' (rq.root ++ r) = none ∧
      ∀ p, get fs' p = get fsx p ∨ get fs' p = none := by
  have hnames : ∀ c ∈ rq.root ++ r, Proper c := by
    intro c hc
    rcases List.mem_append.1 hc with hc | hc
    · exact hf.topNames c hc
    · exact hf.taker.names r (by rw [he]; simp) c hc
  have hbelow : ∀ s, get gfs (g ++ (r ++ s)) = none := by
    intro s
    by_cases hs : s = []
    · subst hs; simpa using hg
    · apply Classical.byContradiction
      intro hne
      obtain ⟨m, hm⟩ := hf.giver.dir_of_longer hne hs
      rw [hm] at hg
      exact nomatch hg
  have hopen : Open fsx [] (rq.root ++ r) := by
    intro q hq hpre hne t m
    rw [List.nil_append]
    rcases prefix_append_cases hpre with ⟨h1, h2⟩ | ⟨q', rfl, h1⟩
    · obtain ⟨m', hm'⟩ := h.above h3.ready q hq h1 h2
      rw [hm']; simp
    · have hd : Dir fs (rq.root ++ q') :=
        hf.taker.dir_above h1 (by rintro rfl; exact hne rfl) (by rw [he]; simp)
      obtain ⟨m', hm'⟩ := h3.dir hf hd
      rcases h.sub (rq.root ++ q') with h2 | ⟨h2, _⟩
      · rw [h2, hm']; simp
      · rw [h2]; simp
  have hcur : get fsx (rq.root ++ r) = some e ∨ get fsx (rq.root ++ r) = none := by
    rcases h.sub (rq.root ++ r) with h1 | ⟨h1, _⟩
    · left; rw [h1, h3.rest r hg, he]
    · exact Or.inr h1
  have hno : namei fsx false (rq.root ++ r) = none → get fsx (rq.root ++ r) = none := by
    intro hn
    apply Classical.byContradiction
    intro hne
    have := namei_dirs (fs := fsx) (follow := false) hnames (by
      intro q hq hpre hqne
      rcases prefix_append_cases hpre with ⟨h1, h2⟩ | ⟨q', rfl, ⟨s, rfl⟩⟩
      · exact h.above h3.ready q hq h1 h2
      · refine h.dir_of_longer hne ?_
        rintro rfl
        exact hqne (by simp)) (Or.inl rfl)
    rw [hn] at this
    exact nomatch this
  have hdel : Left rq gfs g fs3 (delBelow fsx (rq.root ++ r)) := by
    constructor
    · intro p
      rw [get_delBelow]
      by_cases hp : rq.root ++ r <+: p
      · right
        rw [if_pos hp]
        obtain ⟨s, rfl⟩ := hp
        exact ⟨rfl, r ++ s, by simp, hbelow s⟩
      · rw [if_neg hp]; exact h.sub p
    · intro r' c hc
      rw [get_delBelow] at hc
      by_cases hp : rq.root ++ r <+: rq.root ++ (r' ++ [c])
      · rw [if_pos hp] at hc; exact absurd rfl hc
      · rw [if_neg hp] at hc
        unfold Dir
        rw [get_delBelow, if_neg]
        · exact h.parents r' c hc
        · intro hp'
          apply hp
          refine hp'.trans ?_
          rw [← List.append_assoc]
          exact List.prefix_append ..
  intro fs'
  rcases namei_open (fs := fsx) (follow := false) hnames hopen (Or.inl rfl) with hn | hn
  · by_cases hd : e.isDir = true
    · have : fs' = delBelow fsx (rq.root ++ r) := by
        show (if e.isDir then _ else _) = _
        rw [if_pos hd]
        unfold removeAll
        rw [hn]
        dsimp only
        rw [if_neg (root_ne hf r)]
      rw [this]
      refine ⟨hdel, ?_, ?_⟩
      · rw [get_delBelow, if_pos List.prefix_rfl]
      · intro p
        rw [get_delBelow]
        by_cases hp : rq.root ++ r <+: p
        · right; rw [if_pos hp]
        · left; rw [if_neg hp]
    · have hnd : ∀ m, get fsx (rq.root ++ r) ≠ some (.dir m) := by
        intro m hm
        rcases hcur with h1 | h1
        · rw [h1] at hm
          simp only [Option.some.injEq] at hm
          subst hm
          exact hd rfl
        · rw [h1] at hm; exact nomatch hm
      have : fs' = del fsx (rq.root ++ r) := by
        show (if e.isDir then _ else _) = _
        rw [if_neg hd]
        unfold remove
        rw [hn]
        dsimp only
        cases e1 : get fsx (rq.root ++ r) with
        | none => rfl
        | some x =>
          cases x with
          | dir m => exact absurd e1 (hnd m)
          | file _ _ _ => rfl
          | link _ _ => rfl
      rw [this]
      refine ⟨⟨?_, ?_⟩, ?_, ?_⟩
      · intro p
        rw [get_del]
        by_cases hp : p = rq.root ++ r
        · right; rw [if_pos hp]; exact ⟨rfl, r, hp, hg⟩
        · rw [if_neg hp]; exact h.sub p
      · intro r' c hc
        rw [get_del] at hc
        by_cases hp : rq.root ++ (r' ++ [c]) = rq.root ++ r
        · rw [if_pos hp] at hc; exact absurd rfl hc
        · rw [if_neg hp] at hc
          have h5 := h.parents r' c hc
          obtain ⟨m, hm⟩ := h5
          refine ⟨m, ?_⟩
          rw [get_del, if_neg]
          · exact hm
          · intro he'
            rw [he'] at hm
            exact hnd m hm
      · rw [get_del, if_pos rfl]
      · intro p
        rw [get_del]
        by_cases hp : p = rq.root ++ r
        · right; rw [if_pos hp]
        · left; rw [if_neg hp]
  · have : fs' = fsx := by
      show (if e.isDir then _ else _) = _
      unfold removeAll remove
      rw [hn]
      simp
    rw [this]
    exact ⟨h, hno hn, fun p => Or.inl rfl⟩

theorem prune_phase (hf : Fits fs rq.root gfs g) (hdry : rq.dry = false) {listed : List (List Name)}
    (hlist : ∀ r, r ∈ listed ↔ get gfs (g ++ r) ≠ none) {fs3 : FS} (h3 : Base rq fs gfs g fs3)
    {l : List (Path × Bool)} : ∀ {fsx : FS},
      (∀ c ∈ l, ∃ e, get fs (rq.root ++ c.1) = some e ∧ e.isDir = c.2) → Left rq gfs g fs3 fsx →
      Left rq gfs g fs3 (l.foldl (prune rq listed) fsx) ∧
      (∀ c ∈ l, get gfs (g ++ c.1) = none → get (l.foldl (prune rq listed) fsx) (rq.root ++ c.1) = none) ∧
      (∀ p, get (l.foldl (prune rq listed) fsx) p = get fsx p ∨
        get (l.foldl (prune rq listed) fsx) p = none) := by
  induction l with
  | nil => intro fsx _ h; exact ⟨h, by simp, fun p => Or.inl rfl⟩
  | cons c l ih =>
    intro fsx hc h
    rw [List.foldl_cons]
    obtain ⟨e, he, hd⟩ := hc c (List.mem_cons_self ..)
    have hgiv : get gfs (g ++ ([] : Path)) ≠ none := by
      obtain ⟨m, hm⟩ := hf.giverDir
      rw [List.append_nil, hm]; simp
    have key : Left rq gfs g fs3 (prune rq listed fsx c) ∧
        (get gfs (g ++ c.1) = none → get (prune rq listed fsx c) (rq.root ++ c.1) = none) ∧
        (∀ p, get (prune rq listed fsx c) p = get fsx p ∨ get (prune rq listed fsx c) p = none) := by
      by_cases hg : get gfs (g ++ c.1) = none
      · have hne : c.1 ≠ [] := by
          intro h0; rw [h0] at hg; exact hgiv hg
        have := prune_step hf h3 h hne he hg
        have hp : prune rq listed fsx c =
            if e.isDir then removeAll fsx (rq.root ++ c.1) else remove fsx (rq.root ++ c.1) := by
          unfold prune
          rw [if_neg]
          · rw [join_proper (hf.taker.names c.1 (by rw [he]; simp)), hd]
          · rintro (h1 | h1 | h1)
            · exact hne h1
            · exact (hlist c.1).1 h1 hg
            · rw [hdry] at h1; exact nomatch h1
        rw [hp]
        exact ⟨this.1, fun _ => this.2.1, this.2.2⟩
      · have hp : prune rq listed fsx c = fsx := by
          unfold prune
          rw [if_pos (Or.inr (Or.inl ((hlist c.1).2 hg)))]
        rw [hp]
        exact ⟨h, fun h1 => absurd h1 hg, fun p => Or.inl rfl⟩
    obtain ⟨k1, k2, k3⟩ := ih (fun y hy => hc y (List.mem_cons_of_mem _ hy)) key.1
    refine ⟨k1, ?_, ?_⟩
    · intro y hy hg
      rcases List.mem_cons.1 hy with rfl | hy
      · rcases k3 (rq.root ++ y.1) with h1 | h1
        · rw [h1]; exact key.2.1 hg
        · exact h1
      · exact k2 y hy hg
    · intro p
      rcases k3 p with h1 | h1
      · rw [h1]; exact key.2.2 p
      · exact Or.inr h1

theorem prune_dry (hdry : rq.dry = true) {listed : List (List Name)} {l : List (Path × Bool)}
    {fsx : FS} : l.foldl (prune rq listed) fsx = fsx := by
  induction l with
  | nil => rfl
  | cons c l ih =>
    rw [List.foldl_cons]
    have : prune rq listed fsx c = fsx := by
      unfold prune
      rw [if_pos (Or.inr (Or.inr hdry))]
    rw [this, ih]

/-- What a sync leaves at the taker. -/
structure Result (rq : Req) (fs gfs : FS) (g : Path) (o : Out) : Prop where
  ok : o.ok = true
  outside : ∀ p, ¬ rq.root <+: p → get o.fs p = get fs p
  gone : rq.dry = false → ∀ r, get gfs (g ++ r) = none → get o.fs (rq.root ++ r) = none
  kept : rq.dry = true → ∀ r, get gfs (g ++ r) = none →
    get o.fs (rq.root ++ r) = get fs (rq.root ++ r)
  leafDir : ∀ r m, get gfs (g ++ r) = some (.dir m) → (∀ c, ¬ Dir gfs (g ++ (r ++ [c]))) →
    get o.fs (rq.root ++ r) = some ((get fs (rq.root ++ r)).getD (.dir 0o700))
  midDir : ∀ r m c, get gfs (g ++ r) = some (.dir m) → Dir gfs (g ++ (r ++ [c])) →
    get o.fs (rq.root ++ r) = some (.dir m)
  link : ∀ r tg mt, get gfs (g ++ r) = some (.link tg mt) →
    get o.fs (rq.root ++ r) = some (linkEff (get fs (rq.root ++ r)) tg mt)
  fileKept : ∀ r d m mt, get gfs (g ++ r) = some (.file d m mt) →
    (needs (get fs (rq.root ++ r)) d mt = false ∨ ¬ Fresh (get fs (rq.root ++ r))) →
    get o.fs (rq.root ++ r) = get fs (rq.root ++ r)
  fileAny : ∀ r d m mt, get gfs (g ++ r) = some (.file d m mt) →
    get o.fs (rq.root ++ r) = get fs (rq.root ++ r) ∨
    get o.fs (rq.root ++ r) = some (.file d (newMode rq.par d m) mt)
  fileNew : (∀ r d m mt, get gfs (g ++ r) = some (.file d m mt) →
      needs (get fs (rq.root ++ r)) d mt = true → Fresh (get fs (rq.root ++ r))) →
    ∀ r d m mt, get gfs (g ++ r) = some (.file d m mt) → needs (get fs (rq.root ++ r)) d mt = true →
    get o.fs (rq.root ++ r) = some (.file d (newMode rq.par d m) mt)
  asked : ∀ x ∈ o.asked, ∃ d m mt, x.kind = .file d m mt ∧
    get gfs (g ++ x.path) = some (.file d m mt) ∧ needs (get fs (rq.root ++ x.path)) d mt = true
  asks : ∀ r d m mt, get gfs (g ++ r) = some (.file d m mt) →
    needs (get fs (rq.root ++ r)) d mt = true → ⟨r, .file d m mt⟩ ∈ o.asked

theorem run_result (hf : Fits fs rq.root gfs g) {sch : Sched} (hsch : sch.Fair) {l : List Rec}
    (hl : Listing gfs g l) : Result rq fs gfs g (run rq sch fs l) := by
  have hlist := fun r => listed_iff hf.giver.keys hl (r := r)
  obtain ⟨a, b, rfl, ha, hb⟩ := hl
  -- directories
  obtain ⟨a1, a2, a3⟩ := leaf_phase (rq := rq) hf (l := a) (done := []) (s := { fs := fs }) rfl
    ⟨(by rintro p ⟨r, hr, _⟩; exact nomatch hr), fun p _ => rfl⟩
    (fun x hx => leaf_mem hf.giver.keys (ha.mem_iff.1 hx))
  rw [List.nil_append] at a3
  generalize hs1 : a.foldl (take rq) { fs := fs } = s1 at a1 a2 a3
  dsimp only at a2
  have dirsA : ∀ r, Dir gfs (g ++ r) →
      get s1.fs (rq.root ++ r) = some ((get fs (rq.root ++ r)).getD (.dir 0o700)) := by
    intro r hr
    obtain ⟨r', h1, h2, h3⟩ := exists_leaf hf.giver.keys hr
    obtain ⟨x, hx, hxp⟩ := leaf_of_dir hf.giver.keys h2 h3
    have hmem : ∃ r ∈ a.map (·.path), ∃ q, rq.root ++ r' = rq.root ++ q ∧ q <+: r :=
      ⟨r', hxp ▸ List.mem_map_of_mem (ha.mem_iff.2 hx), r', rfl, List.prefix_rfl⟩
    have hmem' : ∃ y ∈ a.map (·.path), ∃ q, rq.root ++ r = rq.root ++ q ∧ q <+: y :=
      ⟨r', hxp ▸ List.mem_map_of_mem (ha.mem_iff.2 hx), r, rfl, h1⟩
    cases e : get fs (rq.root ++ r) with
    | none => rw [a3.1 _ hmem' e]; rfl
    | some y => rw [a3.2 _ (fun _ => by rw [e]; simp), e]; rfl
  have restA : ∀ p, (∀ r, p = rq.root ++ r → ¬ Dir gfs (g ++ r)) → get s1.fs p = get fs p := by
    intro p hp
    apply a3.2
    rintro ⟨r, hr, q, rfl, hq⟩ hg
    obtain ⟨x, hx, rfl⟩ := List.mem_map.1 hr
    exact hp q rfl (hf.giver.dir_prefix hq (leaf_mem hf.giver.keys (ha.mem_iff.1 hx)).2)
  have readyA : Ready rq gfs g s1.fs := by
    constructor
    · intro q hq hpre hne
      rcases a3.cases q with h | ⟨_, h⟩
      · unfold Dir; rw [h]; exact hf.above q hq hpre hne
      · exact ⟨_, h⟩
    · intro r hr
      rcases hf.dirs r hr with h | ⟨m, h⟩
      · exact ⟨_, by rw [dirsA r hr, h]; rfl⟩
      · exact ⟨m, by rw [dirsA r hr, h]; rfl⟩
  -- the other entries
  have tb : ∀ x ∈ b, Told gfs g x := fun x hx => (other_mem hf.giver.keys).1 (hb.mem_iff.1 hx)
  have nb : (b.map (·.path)).Nodup := (hb.map (·.path)).nodup_iff.2 (others_nodup hf.giver.keys)
  have notDirA : ∀ r, ¬ Dir gfs (g ++ r) → get s1.fs (rq.root ++ r) = get fs (rq.root ++ r) := by
    intro r hr
    apply restA
    intro r' h'
    have : r' = r := by simpa using h'.symm
    rw [this]; exact hr
  have lb : ∀ x ∈ b, ∀ tg mt, x.kind = .link tg mt → ¬ Dir s1.fs (rq.root ++ x.path) := by
    intro x hx tg mt hk
    have ht := tb x hx
    cases ht with
    | mid _ _ => exact nomatch hk
    | file _ => exact nomatch hk
    | @link r tg' mt' h1 =>
      dsimp only
      have : ¬ Dir gfs (g ++ r) := by rintro ⟨m, hm⟩; rw [hm] at h1; exact nomatch h1
      unfold Dir
      rw [notDirA r this]
      exact hf.links r tg' mt' h1
  obtain ⟨b1, b2, b3, b4, b5⟩ := other_phase (rq := rq) hf (l := b) a1 readyA tb nb lb
  generalize hs2 : b.foldl (take rq) s1 = s2 at b1 b2 b3 b4 b5
  have hfold : (a ++ b).foldl (take rq) { fs := fs } = s2 := by
    rw [List.foldl_append, hs1, hs2]
  rw [a2, List.nil_append] at b4
  -- the requests
  have updFile : ∀ x ∈ s2.upd, FileRec gfs g x ∧ x ∈ b ∧ asks x.kind (get fs (rq.root ++ x.path)) = true := by
    intro x hx
    rw [b4] at hx
    obtain ⟨hx1, hx2⟩ := List.mem_filter.1 hx
    have ht := tb x hx1
    cases ht with
    | mid _ _ => simp [asks] at hx2
    | link _ => simp [asks] at hx2
    | @file r d m mt h1 =>
      have : ¬ Dir gfs (g ++ r) := by rintro ⟨m, hm⟩; rw [hm] at h1; exact nomatch h1
      rw [notDirA r this] at hx2
      exact ⟨⟨d, m, mt, rfl, h1⟩, hx1, hx2⟩
  have fileB : ∀ r d m mt, get gfs (g ++ r) = some (.file d m mt) →
      (⟨r, .file d m mt⟩ : Rec) ∈ b ∧ get s2.fs (rq.root ++ r) = get fs (rq.root ++ r) := by
    intro r d m mt h1
    have hb1 : (⟨r, .file d m mt⟩ : Rec) ∈ b := hb.mem_iff.2 ((other_mem hf.giver.keys).2 (.file h1))
    refine ⟨hb1, ?_⟩
    have := b3 _ hb1
    dsimp only [eff] at this
    rw [this]
    apply notDirA
    rintro ⟨m, hm⟩; rw [hm] at h1; exact nomatch h1
  have hperm := hsch.1 s2.upd
  have uFile : ∀ x ∈ sch.ordU s2.upd, FileRec gfs g x :=
    fun x hx => (updFile x (hperm.mem_iff.1 hx)).1
  have uNodup : ((sch.ordU s2.upd).map (·.path)).Nodup := by
    refine (hperm.map (·.path)).nodup_iff.2 ?_
    rw [b4]
    exact nb.sublist (List.filter_sublist.map _)
  have uCur : ∀ x ∈ sch.ordU s2.upd, get s2.fs (rq.root ++ x.path) = get fs (rq.root ++ x.path) := by
    intro x hx
    obtain ⟨d, m, mt, _, h2⟩ := uFile x hx
    exact (fileB x.path d m mt h2).2
  have uFilish : ∀ x ∈ sch.ordU s2.upd, Filish (get s2.fs (rq.root ++ x.path)) := by
    intro x hx
    rw [uCur x hx]
    obtain ⟨d, m, mt, _, h2⟩ := uFile x hx
    exact hf.files x.path d m mt h2
  obtain ⟨c1, c2, c3⟩ := update_phase (rq := rq) hf (skip := sch.skip) (l := sch.ordU s2.upd)
    (u := { fs := s2.fs }) b5 uFile uNodup uFilish
  generalize hu : (sch.ordU s2.upd).foldl (update rq sch.skip) { fs := s2.fs } = u at c1 c2 c3
  dsimp only at c1 c2 c3
  -- entries after the requests
  have offU : ∀ p, (∀ r d m mt, get gfs (g ++ r) = some (.file d m mt) → p ≠ rq.root ++ r) →
      get u.fs p = get s2.fs p := by
    intro p hp
    apply c1
    intro x hx
    obtain ⟨d, m, mt, _, h2⟩ := uFile x hx
    exact hp x.path d m mt h2
  have same3 : ∀ p, (∀ r, p = rq.root ++ r → get gfs (g ++ r) = none) → get u.fs p = get fs p := by
    intro p hp
    rw [offU p, b2 p, restA p]
    · rintro r rfl ⟨m, hm⟩
      rw [hp r rfl] at hm
      exact nomatch hm
    · rintro x hx rfl
      exact (tb x hx).ne_none (hp x.path rfl)
    · rintro r d m mt h1 rfl
      rw [hp r rfl] at h1
      exact nomatch h1
  have base : Base rq fs gfs g u.fs := by
    constructor
    · constructor
      · intro q hq hpre hne
        unfold Dir
        rw [same3 q]
        · exact hf.above q hq hpre hne
        · rintro r rfl
          obtain ⟨s, hs⟩ := hpre
          have : r = [] := by
            have := congrArg List.length hs
            simp only [List.length_append] at this
            exact List.length_eq_zero_iff.1 (by omega)
          subst this
          exact absurd (by simp) hne
      · intro r hr
        unfold Dir
        rw [offU]
        · exact b5.dirs r hr
        · intro r' d m mt h1 h2
          have : r' = r := by simpa using h2.symm
          subst this
          obtain ⟨m', hm'⟩ := hr
          rw [hm'] at h1
          exact nomatch h1
    · intro r hr
      apply same3
      intro r' h'
      have : r' = r := by simpa using h'.symm
      rw [this]; exact hr
  have leftU : Left rq gfs g u.fs u.fs := ⟨fun p => Or.inl rfl, base.parents hf⟩
  -- the deletions
  have catm : ∀ c ∈ sch.ordD (catalog fs rq.root),
      ∃ e, get fs (rq.root ++ c.1) = some e ∧ e.isDir = c.2 :=
    fun c hc => (catalog_eq hf c.1 c.2).1 ((hsch.2 _).mem_iff.1 hc)
  have hrun : run rq sch fs (a ++ b) =
      { fs := (sch.ordD (catalog fs rq.root)).foldl (prune rq ((a ++ b).map (·.path))) u.fs
        ok := true, asked := s2.upd } := by
    unfold run
    dsimp only
    rw [hfold, if_neg (by rw [b1]; simp), hu]
  generalize hend : (sch.ordD (catalog fs rq.root)).foldl (prune rq ((a ++ b).map (·.path))) u.fs = fsE
    at hrun
  have endSub : ∀ p, get fsE p = get u.fs p ∨
      (get fsE p = none ∧ ∃ r, p = rq.root ++ r ∧ get gfs (g ++ r) = none) := by
    intro p
    cases hdry : rq.dry with
    | true => rw [← hend, prune_dry hdry]; exact Or.inl rfl
    | false =>
      rw [← hend]
      exact (prune_phase hf hdry hlist base catm leftU).1.sub p
  have endIn : ∀ r, get gfs (g ++ r) ≠ none → get fsE (rq.root ++ r) = get u.fs (rq.root ++ r) := by
    intro r hr
    rcases endSub (rq.root ++ r) with h | ⟨_, r', h1, h2⟩
    · exact h
    · have : r = r' := by simpa using h1
      subst this
      exact absurd h2 hr
  have uDir : ∀ r, Dir gfs (g ++ r) → get u.fs (rq.root ++ r) = get s2.fs (rq.root ++ r) := by
    intro r hr
    apply offU
    intro r' d m mt h1 h2
    have : r' = r := by simpa using h2.symm
    subst this
    obtain ⟨m', hm'⟩ := hr
    rw [hm'] at h1
    exact nomatch h1
  rw [hrun]
  constructor
  · rfl
  · intro p hp
    have hout : ∀ r, p ≠ rq.root ++ r := by rintro r rfl; exact hp (List.prefix_append _ r)
    rcases endSub p with h | ⟨_, r, h1, _⟩
    · dsimp only; rw [h, same3 p (fun r h => absurd h (hout r))]
    · exact absurd h1 (hout r)
  · intro hdry r hr
    dsimp only
    by_cases h0 : get fs (rq.root ++ r) = none
    · rcases endSub (rq.root ++ r) with h | ⟨h, _⟩
      · rw [h, base.rest r hr, h0]
      · exact h
    · obtain ⟨e, he⟩ := Option.ne_none_iff_exists'.1 h0
      have hc : (r, e.isDir) ∈ sch.ordD (catalog fs rq.root) :=
        (hsch.2 _).mem_iff.2 ((catalog_eq hf r e.isDir).2 ⟨e, he, rfl⟩)
      have := (prune_phase hf hdry hlist base catm leftU).2.1 _ hc hr
      rw [hend] at this
      exact this
  · intro hdry r hr
    dsimp only
    rw [← hend, prune_dry hdry, base.rest r hr]
  · intro r m hr hns
    have hd : Dir gfs (g ++ r) := ⟨m, hr⟩
    dsimp only
    rw [endIn r (by rw [hr]; simp), uDir r hd, b2, dirsA r hd]
    intro x hx hxp
    have hxp : r = x.path := by simpa using hxp
    have ht := tb x hx
    cases ht with
    | @mid r' m' h1 hs' =>
      dsimp only at hxp
      subst hxp
      obtain ⟨c, hc⟩ := (hasSub_iff hf.giver.keys).1 hs'
      exact hns c hc
    | file h1 => dsimp only at hxp; subst hxp; rw [hr] at h1; exact nomatch h1
    | link h1 => dsimp only at hxp; subst hxp; rw [hr] at h1; exact nomatch h1
  · intro r m c hr hc
    have hd : Dir gfs (g ++ r) := ⟨m, hr⟩
    have hx : (⟨r, .mid m⟩ : Rec) ∈ b :=
      hb.mem_iff.2 ((other_mem hf.giver.keys).2 (.mid hr ((hasSub_iff hf.giver.keys).2 ⟨c, hc⟩)))
    dsimp only
    rw [endIn r (by rw [hr]; simp), uDir r hd]
    exact b3 _ hx
  · intro r tg mt hr
    have hx : (⟨r, .link tg mt⟩ : Rec) ∈ b :=
      hb.mem_iff.2 ((other_mem hf.giver.keys).2 (.link hr))
    have hnd : ¬ Dir gfs (g ++ r) := by rintro ⟨m, hm⟩; rw [hm] at hr; exact nomatch hr
    dsimp only
    rw [endIn r (by rw [hr]; simp), offU]
    · rw [b3 _ hx]
      dsimp only [eff]
      rw [notDirA r hnd]
    · intro r' d m mt h1 h2
      have : r' = r := by simpa using h2.symm
      subst this
      rw [hr] at h1
      exact nomatch h1
  · intro r d m mt hr hk
    obtain ⟨h1, h2⟩ := fileB r d m mt hr
    dsimp only
    rw [endIn r (by rw [hr]; simp)]
    by_cases hin : ∃ x ∈ sch.ordU s2.upd, x.path = r
    · obtain ⟨x, hx, hxp⟩ := hin
      subst hxp
      rcases c2 x hx with h3 | ⟨h3, _⟩
      · rw [h3, h2]
      · rw [h2] at h3
        rcases hk with hk | hk
        · obtain ⟨⟨d', m', mt', hk', hg'⟩, _, hask⟩ := updFile x (hperm.mem_iff.1 hx)
          rw [hr] at hg'
          simp only [Option.some.injEq, Entry.file.injEq] at hg'
          obtain ⟨rfl, rfl, rfl⟩ := hg'
          rw [hk'] at hask
          dsimp only [asks] at hask
          rw [hk] at hask
          exact nomatch hask
        · exact absurd h3 hk
    · rw [c1, h2]
      intro x hx hxp
      exact hin ⟨x, hx, by simpa using hxp.symm⟩
  · intro r d m mt hr
    obtain ⟨h1, h2⟩ := fileB r d m mt hr
    dsimp only
    rw [endIn r (by rw [hr]; simp)]
    by_cases hin : ∃ x ∈ sch.ordU s2.upd, x.path = r
    · obtain ⟨x, hx, hxp⟩ := hin
      subst hxp
      rcases c2 x hx with h3 | ⟨_, h3⟩
      · left; rw [h3, h2]
      · right
        obtain ⟨d', m', mt', hk', hg'⟩ := uFile x hx
        rw [hr] at hg'
        simp only [Option.some.injEq, Entry.file.injEq] at hg'
        obtain ⟨rfl, rfl, rfl⟩ := hg'
        rw [h3, hk']
        rfl
    · left
      rw [c1, h2]
      intro x hx hxp
      exact hin ⟨x, hx, by simpa using hxp.symm⟩
  · intro hall r d m mt hr hneed
    obtain ⟨h1, h2⟩ := fileB r d m mt hr
    dsimp only
    rw [endIn r (by rw [hr]; simp)]
    have hup : (⟨r, .file d m mt⟩ : Rec) ∈ sch.ordU s2.upd := by
      refine hperm.mem_iff.2 ?_
      rw [b4]
      refine List.mem_filter.2 ⟨h1, ?_⟩
      dsimp only [asks]
      rw [notDirA r (by rintro ⟨m, hm⟩; rw [hm] at hr; exact nomatch hr)]
      exact hneed
    refine c3 rfl ?_ _ hup
    intro x hx
    rw [uCur x hx]
    obtain ⟨⟨d', m', mt', hk', hg'⟩, _, hask⟩ := updFile x (hperm.mem_iff.1 hx)
    rw [hk'] at hask
    exact hall x.path d' m' mt' hg' hask
  · intro x hx
    obtain ⟨⟨d, m, mt, h1, h2⟩, _, h3⟩ := updFile x hx
    rw [h1] at h3
    exact ⟨d, m, mt, h1, h2, h3⟩
  · intro r d m mt hr hneed
    dsimp only
    rw [b4]
    refine List.mem_filter.2 ⟨(fileB r d m mt hr).1, ?_⟩
    dsimp only [asks]
    rw [notDirA r (by rintro ⟨m, hm⟩; rw [hm] at hr; exact nomatch hr)]
    exact hneed

end Verif.DirSync
