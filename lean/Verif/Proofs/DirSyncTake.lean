import Verif.Proofs.DirSyncScan
/-
The taker's run over an honest listing, in its four phases: directories, other entries,
requested files, deletions.
-/
namespace Verif.DirSync

variable {rq : Req} {fs gfs : FS} {g : Path}

/-! ### Directories without subdirectories -/

/-- The directories made so far: those at or above the paths `done`. -/
def Made (fs : FS) (t : Path) (done : List Path) (fs' : FS) : Prop :=
  (∀ p, (∃ r ∈ done, ∃ q, p = t ++ q ∧ q <+: r) → get fs p = none → get fs' p = some (.dir 0o700)) ∧
  (∀ p, ((∃ r ∈ done, ∃ q, p = t ++ q ∧ q <+: r) → get fs p ≠ none) → get fs' p = get fs p)

theorem Made.cases {t : Path} {done : List Path} {fs' : FS} (h : Made fs t done fs') (p : Path) :
    get fs' p = get fs p ∨ (get fs p = none ∧ get fs' p = some (.dir 0o700)) := by
  by_cases hp : (∃ r ∈ done, ∃ q, p = t ++ q ∧ q <+: r) ∧ get fs p = none
  · exact Or.inr ⟨hp.2, h.1 p hp.1 hp.2⟩
  · exact Or.inl (h.2 p (fun h1 h2 => hp ⟨h1, h2⟩))

theorem names_of (hf : Fits fs rq.root gfs g) {r : Path} (h : get gfs (g ++ r) ≠ none) :
    (∀ c ∈ r, Proper c) ∧ (∀ c ∈ rq.root ++ r, Proper c) := by
  refine ⟨hf.giver.names r h, ?_⟩
  intro c hc
  rcases List.mem_append.1 hc with hc | hc
  · exact hf.topNames c hc
  · exact hf.giver.names r h c hc

theorem take_leaf (hf : Fits fs rq.root gfs g) {done : List Path} {s : St} {x : Rec}
    (hs : s.failed = false) (hm : Made fs rq.root done s.fs) (hx : x.isLeaf = true)
    (hd : Dir gfs (g ++ x.path)) :
    (take rq s x).failed = false ∧ (take rq s x).upd = s.upd ∧
      Made fs rq.root (done ++ [x.path]) (take rq s x).fs := by
  obtain ⟨path, kind⟩ := x
  cases kind with
  | mid m => simp [Rec.isLeaf] at hx
  | file d m t => simp [Rec.isLeaf] at hx
  | link t m => simp [Rec.isLeaf] at hx
  | leaf mode =>
    dsimp only at hd
    have hne : get gfs (g ++ path) ≠ none := by obtain ⟨m, hm⟩ := hd; rw [hm]; simp
    obtain ⟨hn1, hn2⟩ := names_of hf hne
    have hok : ∀ q, q ≠ [] → q <+: rq.root ++ path → get s.fs q = none ∨ Dir s.fs q := by
      intro q hq hpre
      have h0 : get fs q = none ∨ Dir fs q := by
        rcases prefix_append_cases hpre with ⟨h1, h2⟩ | ⟨q', rfl, h1⟩
        · exact Or.inr (hf.above q hq h1 h2)
        · exact hf.dirs q' (hf.giver.dir_prefix h1 hd)
      rcases hm.cases q with h1 | ⟨_, h1⟩
      · unfold Dir; rw [h1]; exact h0
      · exact Or.inr ⟨_, h1⟩
    obtain ⟨fs', h1, h2⟩ := mkdirGo_dirs (fs := s.fs) (cur := []) (cs := rq.root ++ path)
      (by simpa using hn2)
      (by intro q hq hpre; exact absurd (List.prefix_nil.1 hpre) hq)
      (by simpa using hok)
    have htake : take rq s ⟨path, .leaf mode⟩ = { s with fs := fs' } := by
      unfold take
      rw [if_neg (by simp [hs])]
      dsimp only
      rw [if_neg (by rw [hf.noDots path hd]; simp), join_proper hn1]
      unfold mkdirAll
      rw [h1]
    rw [htake]
    refine ⟨hs, rfl, ?_, ?_⟩
    · intro p hp hg
      dsimp only
      rw [h2]
      by_cases hg' : get s.fs p = none
      · rw [if_pos]
        refine ⟨?_, hg'⟩
        obtain ⟨r, hr, q, rfl, hq⟩ := hp
        rcases List.mem_append.1 hr with hr | hr
        · rw [hm.1 _ ⟨r, hr, q, rfl, hq⟩ hg] at hg'
          exact nomatch hg'
        · rw [List.mem_singleton] at hr
          subst hr
          refine ⟨rq.root ++ q, ?_, (List.prefix_append_right_inj _).2 hq, by simp⟩
          intro e
          exact hf.top (List.append_eq_nil_iff.1 e).1
      · rw [if_neg (fun h => hg' h.2)]
        rcases hm.cases p with h3 | ⟨_, h3⟩
        · exact absurd (h3.trans hg) hg'
        · exact h3
    · intro p hp
      dsimp only
      rw [h2, if_neg]
      · apply hm.2
        intro ⟨r, hr, h3⟩
        exact hp ⟨r, List.mem_append_left _ hr, h3⟩
      · rintro ⟨⟨q, hq, hpre, hpq⟩, hg⟩
        rw [List.nil_append] at hpq
        subst hpq
        have hg0 : get fs p = none := by
          rcases hm.cases p with h3 | ⟨h3, _⟩
          · rw [← h3]; exact hg
          · exact h3
        rcases prefix_append_cases hpre with ⟨h3, h4⟩ | ⟨q', rfl, h3⟩
        · obtain ⟨m, hm'⟩ := hf.above p hq h3 h4
          rw [hm'] at hg0
          exact nomatch hg0
        · exact hp ⟨path, by simp, q', rfl, h3⟩ hg0

theorem leaf_phase (hf : Fits fs rq.root gfs g) {l : List Rec} :
    ∀ {done : List Path} {s : St}, s.failed = false → Made fs rq.root done s.fs →
      (∀ x ∈ l, x.isLeaf = true ∧ Dir gfs (g ++ x.path)) →
      (l.foldl (take rq) s).failed = false ∧ (l.foldl (take rq) s).upd = s.upd ∧
      Made fs rq.root (done ++ l.map (·.path)) (l.foldl (take rq) s).fs := by
  induction l with
  | nil => intro done s hs hm _; simpa using ⟨hs, hm⟩
  | cons x l ih =>
    intro done s hs hm hl
    have hx := hl x (List.mem_cons_self ..)
    obtain ⟨h1, h2, h3⟩ := take_leaf hf hs hm hx.1 hx.2
    obtain ⟨h4, h5, h6⟩ := ih h1 h3 (fun y hy => hl y (List.mem_cons_of_mem _ hy))
    refine ⟨h4, ?_, ?_⟩
    · rw [List.foldl_cons, h5, h2]
    · simpa using h6

/-! ### Files, links and directories with subdirectories -/

/-- The directories of the giver's tree and those above the target are there. -/
structure Ready (rq : Req) (gfs : FS) (g : Path) (fs : FS) : Prop where
  above : ∀ q, q ≠ [] → q <+: rq.root → q ≠ rq.root → Dir fs q
  dirs : ∀ r, Dir gfs (g ++ r) → Dir fs (rq.root ++ r)

theorem Ready.up (hf : Fits fs rq.root gfs g) {fs' : FS} (h : Ready rq gfs g fs') {r : Path}
    (hr : get gfs (g ++ r) ≠ none) :
    ∀ q, q ≠ [] → q <+: rq.root ++ r → q ≠ rq.root ++ r → Dir fs' q := by
  intro q hq hpre hne
  rcases prefix_append_cases hpre with ⟨h1, h2⟩ | ⟨q', rfl, h1⟩
  · exact h.above q hq h1 h2
  · apply h.dirs
    apply hf.giver.dir_above h1 _ hr
    rintro rfl
    exact hne rfl

theorem root_ne (hf : Fits fs rq.root gfs g) (r : Path) : rq.root ++ r ≠ [] :=
  fun e => hf.top (List.append_eq_nil_iff.1 e).1

/-- The link left by `takeOneFile`, by what was there before. -/
def linkEff (c : Option Entry) (target : List Char) (mtime : Nat) : Entry :=
  match c with
  | some (.link t m) => if t = target ∧ m = mtime then .link target m else .link target (micro mtime)
  | _ => .link target (micro mtime)

/-- The entry at its own path after one entry of the listing is handled. -/
def eff (k : Kind) (c : Option Entry) : Option Entry :=
  match k with
  | .mid m => some (.dir m)
  | .link tg mt => some (linkEff c tg mt)
  | _ => c

/-- The file is asked for. -/
def asks (k : Kind) (c : Option Entry) : Bool :=
  match k with
  | .file d _ mt => needs c d mt
  | _ => false

/-- Two file systems are the same except at one path. -/
def Off (p : Path) (a b : FS) : Prop := ∀ q, q ≠ p → get b q = get a q

theorem Ready.keep {fs' fs'' : FS} {r : Path} (h : Ready rq gfs g fs')
    (ho : Off (rq.root ++ r) fs' fs'') (hr : Dir gfs (g ++ r) → Dir fs'' (rq.root ++ r)) :
    Ready rq gfs g fs'' := by
  constructor
  · intro q hq hpre hne
    unfold Dir
    rw [ho q]
    · exact h.above q hq hpre hne
    · rintro rfl
      obtain ⟨s, hs⟩ := hpre
      have : r = [] := by
        have := congrArg List.length hs
        simp only [List.length_append] at this
        exact List.length_eq_zero_iff.1 (by omega)
      subst this
      exact hne (by simp)
  · intro r' hr'
    by_cases e : r' = r
    · subst e; exact hr hr'
    · unfold Dir
      rw [ho _ (by simpa using e)]
      exact h.dirs r' hr'

theorem lutimes_off {fs' : FS} {p : Path} {t : List Char} {m mt : Nat} (hn : namei fs' false p = some p)
    (hg : get fs' p = some (.link t m)) :
    lutimes fs' p mt = set fs' p (.link t (micro mt)) := by
  unfold lutimes
  rw [hn]
  dsimp only
  rw [hg]

theorem writeLink_off {fs' : FS} {p : Path} {tg : List Char} {mt : Nat} (hne : p ≠ [])
    (hp : ∀ c ∈ p, Proper c) (ho : ∀ q, q ≠ [] → q <+: p → q ≠ p → Dir fs' q) (hd : ¬ Dir fs' p) :
    ∃ fs'', writeLink fs' p tg mt = some fs'' ∧ Off p fs' fs'' ∧
      get fs'' p = some (.link tg (micro mt)) := by
  have hrem : remove fs' p = del fs' p := by
    unfold remove
    rw [namei_dirs hp ho (Or.inl rfl)]
    dsimp only
    cases e : get fs' p with
    | none => rfl
    | some x =>
      cases x with
      | dir m => exact absurd ⟨m, e⟩ hd
      | file _ _ _ => rfl
      | link _ _ => rfl
  have ho1 : ∀ q, q ≠ [] → q <+: p → q ≠ p → Dir (del fs' p) q := by
    intro q hq hpre hqp
    unfold Dir
    rw [get_del, if_neg hqp]
    exact ho q hq hpre hqp
  have hsym : symlink (del fs' p) p tg mt = some (set (del fs' p) p (.link tg mt)) := by
    unfold symlink
    rw [namei_dirs hp ho1 (Or.inl rfl)]
    dsimp only
    rw [if_pos ⟨hne, by rw [get_del, if_pos rfl]⟩]
  have ho2 : ∀ q, q ≠ [] → q <+: p → q ≠ p → Dir (set (del fs' p) p (.link tg mt)) q := by
    intro q hq hpre hqp
    unfold Dir
    rw [get_set, if_neg hqp]
    exact ho1 q hq hpre hqp
  refine ⟨_, by unfold writeLink; rw [hrem, hsym]; rfl, ?_, ?_⟩
  · dsimp only
    rw [lutimes_off (namei_dirs hp ho2 (Or.inl rfl)) (by rw [get_set, if_pos rfl])]
    intro q hq
    rw [get_set, if_neg hq, get_set, if_neg hq, get_del, if_neg hq]
  · dsimp only
    rw [lutimes_off (namei_dirs hp ho2 (Or.inl rfl)) (by rw [get_set, if_pos rfl])]
    rw [get_set, if_pos rfl]

theorem takeLink_off {fs' : FS} {p : Path} {tg : List Char} {mt : Nat} (hne : p ≠ [])
    (hp : ∀ c ∈ p, Proper c) (ho : ∀ q, q ≠ [] → q <+: p → q ≠ p → Dir fs' q) (hd : ¬ Dir fs' p) :
    ∃ fs'', takeLink fs' p tg mt = some fs'' ∧ Off p fs' fs'' ∧
      get fs'' p = some (linkEff (get fs' p) tg mt) := by
  unfold takeLink
  rw [lstat_dirs hne hp ho]
  obtain ⟨w, hw1, hw2, hw3⟩ := writeLink_off (tg := tg) (mt := mt) hne hp ho hd
  cases e : get fs' p with
  | none => exact ⟨w, hw1, hw2, hw3⟩
  | some x =>
    cases x with
    | dir m => exact absurd ⟨m, e⟩ hd
    | file _ _ _ => exact ⟨w, hw1, hw2, hw3⟩
    | link t m =>
      dsimp only
      by_cases ht : t = tg
      · subst ht
        rw [if_neg (fun h => h rfl)]
        by_cases hm : m = mt
        · subst hm
          rw [if_neg (fun h => h rfl)]
          refine ⟨fs', rfl, fun q _ => rfl, ?_⟩
          simp [linkEff, e]
        · rw [if_pos hm]
          refine ⟨_, rfl, ?_, ?_⟩
          · rw [lutimes_off (namei_dirs hp ho (Or.inl rfl)) e]
            intro q hq
            rw [get_set, if_neg hq]
          · rw [lutimes_off (namei_dirs hp ho (Or.inl rfl)) e, get_set, if_pos rfl]
            simp [linkEff, hm]
      · rw [if_pos ht]
        refine ⟨w, hw1, hw2, ?_⟩
        rw [hw3]
        simp [linkEff, ht]

/-- One file, link or directory of the listing changes only its own path. -/
theorem take_other (hf : Fits fs rq.root gfs g) {s : St} {x : Rec} (hs : s.failed = false)
    (hr : Ready rq gfs g s.fs) (hx : Told gfs g x)
    (hl : ∀ tg mt, x.kind = .link tg mt → ¬ Dir s.fs (rq.root ++ x.path)) :
    (take rq s x).failed = false ∧ Off (rq.root ++ x.path) s.fs (take rq s x).fs ∧
    get (take rq s x).fs (rq.root ++ x.path) = eff x.kind (get s.fs (rq.root ++ x.path)) ∧
    (take rq s x).upd = s.upd ++ (if asks x.kind (get s.fs (rq.root ++ x.path)) then [x] else []) ∧
    Ready rq gfs g (take rq s x).fs := by
  have hne := hx.ne_none
  obtain ⟨hn1, hn2⟩ := names_of hf hne
  have hup := hr.up hf hne
  have hroot := root_ne hf x.path
  cases hx with
  | @mid r m h1 hsub =>
    dsimp only at *
    have hdir := hr.dirs r ⟨m, h1⟩
    have hc : chmod s.fs (rq.root ++ r) m = some (set s.fs (rq.root ++ r) (.dir m)) := by
      obtain ⟨m', hm'⟩ := hdir
      unfold chmod
      rw [namei_dirs hn2 hup (Or.inr (by intro t m; rw [hm']; simp))]
      dsimp only
      rw [hm']
    have htake : take rq s ⟨r, .mid m⟩ = { s with fs := set s.fs (rq.root ++ r) (.dir m) } := by
      unfold take
      rw [if_neg (by simp [hs])]
      dsimp only
      rw [join_proper hn1, hc]
    rw [htake]
    have hoff : Off (rq.root ++ r) s.fs (set s.fs (rq.root ++ r) (.dir m)) := by
      intro q hq; rw [get_set, if_neg hq]
    refine ⟨hs, hoff, ?_, by simp [asks], ?_⟩
    · dsimp only; rw [get_set, if_pos rfl]; rfl
    · exact hr.keep hoff (fun _ => ⟨m, by rw [get_set, if_pos rfl]⟩)
  | @file r d m mt h1 =>
    dsimp only at *
    have hst := lstat_dirs hroot hn2 hup
    have htake : take rq s ⟨r, .file d m mt⟩ =
        if needs (get s.fs (rq.root ++ r)) d mt then { s with upd := s.upd ++ [⟨r, .file d m mt⟩] } else s := by
      unfold take
      rw [if_neg (by simp [hs])]
      dsimp only
      rw [join_proper hn1, hst]
    rw [htake]
    by_cases hnd : needs (get s.fs (rq.root ++ r)) d mt = true
    · rw [if_pos hnd]
      exact ⟨hs, fun q _ => rfl, rfl, by simp [asks, hnd], hr⟩
    · rw [if_neg hnd]
      exact ⟨hs, fun q _ => rfl, rfl, by simp [asks, hnd], hr⟩
  | @link r tg mt h1 =>
    dsimp only at *
    obtain ⟨fs'', h2, h3, h4⟩ := takeLink_off (tg := tg) (mt := mt) hroot hn2 hup (hl tg mt rfl)
    have htake : take rq s ⟨r, .link tg mt⟩ = { s with fs := fs'' } := by
      unfold take
      rw [if_neg (by simp [hs])]
      dsimp only
      rw [join_proper hn1, h2]
    rw [htake]
    refine ⟨hs, h3, h4, by simp [asks], ?_⟩
    refine hr.keep h3 ?_
    rintro ⟨m, hm⟩
    rw [hm] at h1
    exact nomatch h1

theorem other_phase (hf : Fits fs rq.root gfs g) {l : List Rec} :
    ∀ {s : St}, s.failed = false → Ready rq gfs g s.fs → (∀ x ∈ l, Told gfs g x) →
      (l.map (·.path)).Nodup →
      (∀ x ∈ l, ∀ tg mt, x.kind = .link tg mt → ¬ Dir s.fs (rq.root ++ x.path)) →
      (l.foldl (take rq) s).failed = false ∧
      (∀ p, (∀ x ∈ l, p ≠ rq.root ++ x.path) → get (l.foldl (take rq) s).fs p = get s.fs p) ∧
      (∀ x ∈ l, get (l.foldl (take rq) s).fs (rq.root ++ x.path) =
        eff x.kind (get s.fs (rq.root ++ x.path))) ∧
      (l.foldl (take rq) s).upd =
        s.upd ++ l.filter (fun x => asks x.kind (get s.fs (rq.root ++ x.path))) ∧
      Ready rq gfs g (l.foldl (take rq) s).fs := by
  induction l with
  | nil => intro s hs hr _ _ _; simpa using ⟨hs, hr⟩
  | cons x l ih =>
    intro s hs hr ht hn hl
    rw [List.map_cons, List.nodup_cons] at hn
    obtain ⟨h1, h2, h3, h4, h5⟩ := take_other hf hs hr (ht x (List.mem_cons_self ..))
      (hl x (List.mem_cons_self ..))
    have hoff : ∀ y ∈ l, rq.root ++ y.path ≠ rq.root ++ x.path := by
      intro y hy e
      have : y.path = x.path := by simpa using e
      exact hn.1 (this ▸ List.mem_map_of_mem hy)
    obtain ⟨k1, k2, k3, k4, k5⟩ := ih h1 h5 (fun y hy => ht y (List.mem_cons_of_mem _ hy)) hn.2
      (by
        intro y hy tg mt hk
        unfold Dir
        rw [h2 _ (hoff y hy)]
        exact hl y (List.mem_cons_of_mem _ hy) tg mt hk)
    rw [List.foldl_cons]
    refine ⟨k1, ?_, ?_, ?_, k5⟩
    · intro p hp
      rw [k2 p (fun y hy => hp y (List.mem_cons_of_mem _ hy)), h2 p (hp x (List.mem_cons_self ..))]
    · intro y hy
      rcases List.mem_cons.1 hy with rfl | hy
      · rw [k2 _ (fun z hz => (hoff z hz).symm), h3]
      · rw [k3 y hy, h2 _ (hoff y hy)]
    · rw [k4, h4, List.filter_cons, List.append_assoc]
      congr 1
      have : l.filter (fun y => asks y.kind (get (take rq s x).fs (rq.root ++ y.path))) =
          l.filter (fun y => asks y.kind (get s.fs (rq.root ++ y.path))) := by
        apply List.filter_congr
        intro y hy
        rw [h2 _ (hoff y hy)]
      rw [this]
      split <;> simp

/-! ### Requested files -/

/-- Absent, or an empty file: what the requests can deal with. -/
def Fresh (c : Option Entry) : Prop := c = none ∨ ∃ m mt, c = some (.file [] m mt)

/-- The entry a request makes. -/
def fresh (rq : Req) (k : Kind) : Option Entry :=
  match k with
  | .file d m mt => some (.file d (newMode rq.par d m) mt)
  | _ => none

/-- Absent or a file. -/
def Filish (c : Option Entry) : Prop := c = none ∨ ∃ d m mt, c = some (.file d m mt)

theorem transfer_off (hf : Fits fs rq.root gfs g) {fs' : FS} {x : Rec} (hr : Ready rq gfs g fs')
    {d : List UInt8} {m mt : Nat} (hk : x.kind = .file d m mt)
    (hg : get gfs (g ++ x.path) = some (.file d m mt))
    (hc : Filish (get fs' (rq.root ++ x.path))) :
    (¬ Fresh (get fs' (rq.root ++ x.path)) ∧ transfer rq fs' x = none) ∨
    (Fresh (get fs' (rq.root ++ x.path)) ∧ ∃ fs'', transfer rq fs' x = some fs'' ∧
      Off (rq.root ++ x.path) fs' fs'' ∧ get fs'' (rq.root ++ x.path) = fresh rq x.kind) := by
  have hne : get gfs (g ++ x.path) ≠ none := by rw [hg]; simp
  obtain ⟨hn1, hn2⟩ := names_of hf hne
  have hup := hr.up hf hne
  have hroot := root_ne hf x.path
  have hnl : ∀ t m, get fs' (rq.root ++ x.path) ≠ some (.link t m) := by
    intro t m
    rcases hc with h | ⟨_, _, _, h⟩ <;> rw [h] <;> simp
  have hwrite : (match namei fs' (d = []) (rq.root ++ x.path) with
      | some q => if q = [] then none else some (set fs' q (.file d (newMode rq.par d m) mt))
      | none => none) = some (set fs' (rq.root ++ x.path) (.file d (newMode rq.par d m) mt)) := by
    rw [namei_dirs hn2 hup (Or.inr hnl)]
    dsimp only
    rw [if_neg hroot]
  unfold transfer
  rw [hk]
  dsimp only
  rw [join_proper hn1, stat_dirs hroot hn2 hup hnl]
  have hset : Off (rq.root ++ x.path) fs' (set fs' (rq.root ++ x.path) (.file d (newMode rq.par d m) mt)) := by
    intro q hq; rw [get_set, if_neg hq]
  rcases hc with h | ⟨d0, m0, mt0, h⟩
  · right
    rw [h]
    refine ⟨Or.inl rfl, _, hwrite, hset, ?_⟩
    rw [get_set, if_pos rfl]
    rfl
  · cases d0 with
    | nil =>
      right
      rw [h]
      refine ⟨Or.inr ⟨m0, mt0, rfl⟩, _, hwrite, hset, ?_⟩
      rw [get_set, if_pos rfl]
      rfl
    | cons b d0 =>
      left
      rw [h]
      refine ⟨?_, rfl⟩
      rintro (h' | ⟨_, _, h'⟩)
      · exact nomatch h'
      · simp at h'

/-- A listed file with what the giver has there. -/
def FileRec (gfs : FS) (g : Path) (x : Rec) : Prop :=
  ∃ d m mt, x.kind = .file d m mt ∧ get gfs (g ++ x.path) = some (.file d m mt)

theorem update_off (hf : Fits fs rq.root gfs g) {skip : Rec → Bool} {u : Up} {x : Rec}
    (hr : Ready rq gfs g u.fs) (hx : FileRec gfs g x) (hc : Filish (get u.fs (rq.root ++ x.path))) :
    Off (rq.root ++ x.path) u.fs (update rq skip u x).fs ∧
    (get (update rq skip u x).fs (rq.root ++ x.path) = get u.fs (rq.root ++ x.path) ∨
      (Fresh (get u.fs (rq.root ++ x.path)) ∧
        get (update rq skip u x).fs (rq.root ++ x.path) = fresh rq x.kind)) ∧
    (u.panicked = false → Fresh (get u.fs (rq.root ++ x.path)) →
      (update rq skip u x).panicked = false ∧
      get (update rq skip u x).fs (rq.root ++ x.path) = fresh rq x.kind) ∧
    Ready rq gfs g (update rq skip u x).fs := by
  obtain ⟨d, m, mt, hk, hg⟩ := hx
  have hready : ∀ fs'', Off (rq.root ++ x.path) u.fs fs'' → Ready rq gfs g fs'' := by
    intro fs'' ho
    refine hr.keep ho ?_
    rintro ⟨m', hm'⟩
    rw [hm'] at hg
    exact nomatch hg
  unfold update
  by_cases hp : (u.panicked && skip x) = true
  · rw [if_pos hp]
    refine ⟨fun q _ => rfl, Or.inl rfl, ?_, hr⟩
    intro h
    rw [h] at hp
    simp at hp
  · rw [if_neg hp]
    rcases transfer_off hf hr hk hg hc with ⟨h1, h2⟩ | ⟨h1, fs'', h2, h3, h4⟩
    · rw [h2]
      exact ⟨fun q _ => rfl, Or.inl rfl, fun _ h => absurd h h1, hr⟩
    · rw [h2]
      exact ⟨h3, Or.inr ⟨h1, h4⟩, fun h _ => ⟨h, h4⟩, hready _ h3⟩

theorem update_phase (hf : Fits fs rq.root gfs g) {skip : Rec → Bool} {l : List Rec} :
    ∀ {u : Up}, Ready rq gfs g u.fs → (∀ x ∈ l, FileRec gfs g x) → (l.map (·.path)).Nodup →
      (∀ x ∈ l, Filish (get u.fs (rq.root ++ x.path))) →
      (∀ p, (∀ x ∈ l, p ≠ rq.root ++ x.path) →
        get (l.foldl (update rq skip) u).fs p = get u.fs p) ∧
      (∀ x ∈ l, get (l.foldl (update rq skip) u).fs (rq.root ++ x.path) =
          get u.fs (rq.root ++ x.path) ∨
        (Fresh (get u.fs (rq.root ++ x.path)) ∧
          get (l.foldl (update rq skip) u).fs (rq.root ++ x.path) = fresh rq x.kind)) ∧
      (u.panicked = false → (∀ x ∈ l, Fresh (get u.fs (rq.root ++ x.path))) →
        ∀ x ∈ l, get (l.foldl (update rq skip) u).fs (rq.root ++ x.path) = fresh rq x.kind) := by
  induction l with
  | nil => intro u _ _ _ _; simp
  | cons x l ih =>
    intro u hr hx hn hc
    rw [List.map_cons, List.nodup_cons] at hn
    obtain ⟨h1, h2, h3, h4⟩ := update_off hf (skip := skip) hr (hx x (List.mem_cons_self ..))
      (hc x (List.mem_cons_self ..))
    have hoff : ∀ y ∈ l, rq.root ++ y.path ≠ rq.root ++ x.path := by
      intro y hy e
      have : y.path = x.path := by simpa using e
      exact hn.1 (this ▸ List.mem_map_of_mem hy)
    obtain ⟨k1, k2, k3⟩ := ih h4 (fun y hy => hx y (List.mem_cons_of_mem _ hy)) hn.2
      (by
        intro y hy
        rw [h1 _ (hoff y hy)]
        exact hc y (List.mem_cons_of_mem _ hy))
    rw [List.foldl_cons]
    refine ⟨?_, ?_, ?_⟩
    · intro p hp
      rw [k1 p (fun y hy => hp y (List.mem_cons_of_mem _ hy)), h1 p (hp x (List.mem_cons_self ..))]
    · intro y hy
      rcases List.mem_cons.1 hy with rfl | hy
      · rw [k1 _ (fun z hz => (hoff z hz).symm)]
        exact h2
      · have := k2 y hy
        rw [h1 _ (hoff y hy)] at this
        exact this
    · intro hp hfr y hy
      obtain ⟨h5, h6⟩ := h3 hp (hfr x (List.mem_cons_self ..))
      rcases List.mem_cons.1 hy with rfl | hy
      · rw [k1 _ (fun z hz => (hoff z hz).symm)]
        exact h6
      · refine k3 h5 ?_ y hy
        intro z hz
        rw [h1 _ (hoff z hz)]
        exact hfr z (List.mem_cons_of_mem _ hz)

end Verif.DirSync
