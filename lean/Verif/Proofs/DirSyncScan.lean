import Verif.Proofs.DirSync
/-
The listing of the giver against its tree.
-/
namespace Verif.DirSync

theorem prefix_append_cases {q t r : Path} (h : q <+: t ++ r) :
    (q <+: t ∧ q ≠ t) ∨ ∃ q', q = t ++ q' ∧ q' <+: r := by
  rcases List.prefix_or_prefix_of_prefix h (List.prefix_append t r) with h1 | h1
  · by_cases e : q = t
    · right; exact ⟨[], by simp [e], List.nil_prefix⟩
    · exact Or.inl ⟨h1, e⟩
  · obtain ⟨q', rfl⟩ := h1
    right
    exact ⟨q', rfl, (List.prefix_append_right_inj t).1 h⟩

/-- Every proper beginning of an existing path is a directory. -/
theorem Tree.dir_of_longer {fs : FS} {t : Path} (h : Tree fs t) {s : List Name} :
    ∀ {r : Path}, get fs (t ++ (r ++ s)) ≠ none → s ≠ [] → Dir fs (t ++ r) := by
  induction s with
  | nil => intro _ _ h; exact absurd rfl h
  | cons c s ih =>
    intro r hg _
    have hg' : get fs (t ++ ((r ++ [c]) ++ s)) ≠ none := by simpa using hg
    by_cases e : s = []
    · subst e; exact h.parents r c (by simpa using hg)
    · obtain ⟨m, hm⟩ := ih hg' e
      exact h.parents r c (by rw [hm]; simp)

theorem Tree.dir_prefix {fs : FS} {t : Path} (h : Tree fs t) {q r : Path} (hq : q <+: r)
    (hd : Dir fs (t ++ r)) : Dir fs (t ++ q) := by
  obtain ⟨s, rfl⟩ := hq
  by_cases e : s = []
  · simpa [e] using hd
  · obtain ⟨m, hm⟩ := hd
    exact h.dir_of_longer (by rw [hm]; simp) e

theorem Tree.dir_above {fs : FS} {t : Path} (h : Tree fs t) {q r : Path} (hq : q <+: r)
    (hne : q ≠ r) (hd : get fs (t ++ r) ≠ none) : Dir fs (t ++ q) := by
  obtain ⟨s, rfl⟩ := hq
  have e : s ≠ [] := by rintro rfl; simp at hne
  exact h.dir_of_longer hd e

theorem mem_below {fs : FS} {t : Path} (h : (fs.map (·.1)).Nodup) {r : Path} {e : Entry} :
    (r, e) ∈ below fs t ↔ get fs (t ++ r) = some e := by
  unfold below
  rw [List.mem_map]
  constructor
  · rintro ⟨x, hx, he⟩
    obtain ⟨hx1, hx2⟩ := List.mem_filter.1 hx
    obtain ⟨s, hs⟩ := List.isPrefixOf_iff_prefix.1 hx2
    have h3 := get_of_mem h hx1
    rw [← hs] at h3 he
    simp only [Prod.mk.injEq, List.drop_left] at he
    obtain ⟨rfl, rfl⟩ := he
    exact h3
  · intro hg
    refine ⟨(t ++ r, e), List.mem_filter.2 ⟨mem_of_get hg, ?_⟩, by simp⟩
    exact List.isPrefixOf_iff_prefix.2 (List.prefix_append t r)

theorem below_nodup {fs : FS} {t : Path} (h : (fs.map (·.1)).Nodup) :
    ((below fs t).map (·.1)).Nodup := by
  unfold below
  rw [List.map_map]
  unfold List.Nodup at h ⊢
  rw [List.pairwise_map] at h ⊢
  refine (h.filter (fun x => t.isPrefixOf x.1)).imp_of_mem ?_
  intro a b ha hb hab he
  apply hab
  obtain ⟨s, hs⟩ := List.isPrefixOf_iff_prefix.1 (List.mem_filter.1 ha).2
  obtain ⟨s', hs'⟩ := List.isPrefixOf_iff_prefix.1 (List.mem_filter.1 hb).2
  dsimp only [Function.comp] at he
  rw [← hs, ← hs', List.drop_left, List.drop_left] at he
  rw [← hs, ← hs', he]

theorem hasSub_iff {fs : FS} {t : Path} (h : (fs.map (·.1)).Nodup) {r : Path} :
    hasSub (below fs t) r = true ↔ ∃ c, Dir fs (t ++ (r ++ [c])) := by
  unfold hasSub
  rw [List.any_eq_true]
  constructor
  · rintro ⟨⟨x, e⟩, hx, hc⟩
    simp only [Bool.and_eq_true, beq_iff_eq] at hc
    obtain ⟨h1, h2, h3⟩ := hc
    obtain ⟨s, rfl⟩ := List.isPrefixOf_iff_prefix.1 h2
    have : s.length = 1 := by simp only [List.length_append] at h3; omega
    obtain ⟨c, rfl⟩ := List.length_eq_one_iff.1 this
    refine ⟨c, ?_⟩
    rw [mem_below h] at hx
    cases e with
    | dir m => exact ⟨m, hx⟩
    | file d m t => simp [Entry.isDir] at h1
    | link t m => simp [Entry.isDir] at h1
  · rintro ⟨c, m, hm⟩
    refine ⟨(r ++ [c], .dir m), (mem_below h).2 hm, ?_⟩
    simp [Entry.isDir]

theorem recOf_path (es : List (Path × Entry)) (x : Path × Entry) : (recOf es x).path = x.1 := by
  unfold recOf
  split
  · split <;> rfl
  · rfl
  · rfl

/-- Every directory has one without subdirectories at or below it. -/
theorem exists_leaf {fs : FS} {t : Path} (h : (fs.map (·.1)).Nodup) {r : Path}
    (hd : Dir fs (t ++ r)) :
    ∃ r', r <+: r' ∧ Dir fs (t ++ r') ∧ hasSub (below fs t) r' = false := by
  have hb : ∃ N, ∀ x ∈ below fs t, x.1.length ≤ N := by
    generalize below fs t = l
    induction l with
    | nil => exact ⟨0, by simp⟩
    | cons y l ih =>
      obtain ⟨N, hN⟩ := ih
      refine ⟨max N y.1.length, ?_⟩
      intro x hx
      rcases List.mem_cons.1 hx with rfl | hx
      · omega
      · have := hN x hx; omega
  obtain ⟨N, hN⟩ := hb
  generalize hk : N - r.length = k
  induction k generalizing r with
  | zero =>
    refine ⟨r, List.prefix_rfl, hd, ?_⟩
    cases e : hasSub (below fs t) r with
    | false => rfl
    | true =>
      obtain ⟨c, m, hm⟩ := (hasSub_iff h).1 e
      have := hN _ ((mem_below h).2 hm)
      simp only [List.length_append, List.length_singleton] at this
      omega
  | succ k ih =>
    cases e : hasSub (below fs t) r with
    | false => exact ⟨r, List.prefix_rfl, hd, e⟩
    | true =>
      obtain ⟨c, hc⟩ := (hasSub_iff h).1 e
      obtain ⟨r', h1, h2, h3⟩ := ih hc (by simp only [List.length_append, List.length_singleton]; omega)
      exact ⟨r', (List.prefix_append r [c]).trans h1, h2, h3⟩

theorem leaf_mem {gfs : FS} {g : Path} (h : (gfs.map (·.1)).Nodup) {x : Rec}
    (hx : x ∈ leaves gfs g) : x.isLeaf = true ∧ Dir gfs (g ++ x.path) := by
  unfold leaves at hx
  obtain ⟨h1, h2⟩ := List.mem_filter.1 hx
  refine ⟨h2, ?_⟩
  obtain ⟨⟨r, e⟩, hy, rfl⟩ := List.mem_map.1 h1
  rw [recOf_path]
  rw [mem_below h] at hy
  cases e with
  | dir m => exact ⟨m, hy⟩
  | file d m t => simp [recOf, Rec.isLeaf] at h2
  | link t m => simp [recOf, Rec.isLeaf] at h2

theorem leaf_of_dir {gfs : FS} {g : Path} (h : (gfs.map (·.1)).Nodup) {r : Path}
    (hd : Dir gfs (g ++ r)) (hs : hasSub (below gfs g) r = false) :
    ∃ x ∈ leaves gfs g, x.path = r := by
  obtain ⟨m, hm⟩ := hd
  refine ⟨recOf (below gfs g) (r, .dir m), ?_, recOf_path _ _⟩
  refine List.mem_filter.2 ⟨List.mem_map_of_mem ((mem_below h).2 hm), ?_⟩
  simp [recOf, hs, Rec.isLeaf]

/-- What a listed file, link or directory with subdirectories says about the giver's tree. -/
inductive Told (gfs : FS) (g : Path) : Rec → Prop
  | mid {r m} (h : get gfs (g ++ r) = some (.dir m)) (hs : hasSub (below gfs g) r = true) :
      Told gfs g ⟨r, .mid m⟩
  | file {r d m mt} (h : get gfs (g ++ r) = some (.file d m mt)) : Told gfs g ⟨r, .file d m mt⟩
  | link {r tg mt} (h : get gfs (g ++ r) = some (.link tg mt)) : Told gfs g ⟨r, .link tg mt⟩

theorem other_mem {gfs : FS} {g : Path} (h : (gfs.map (·.1)).Nodup) {x : Rec} :
    x ∈ others gfs g ↔ Told gfs g x := by
  unfold others
  rw [List.mem_filter, List.mem_map]
  constructor
  · rintro ⟨⟨⟨r, e⟩, hy, rfl⟩, h2⟩
    rw [mem_below h] at hy
    cases e with
    | dir m =>
      cases hs : hasSub (below gfs g) r with
      | false => simp [recOf, hs, Rec.isLeaf] at h2
      | true => simp only [recOf, hs, if_true]; exact .mid hy hs
    | file d m t => exact .file hy
    | link t m => exact .link hy
  · intro hx
    cases hx with
    | @mid r m h1 hs => exact ⟨⟨_, (mem_below h).2 h1, by simp [recOf, hs]⟩, by simp [Rec.isLeaf]⟩
    | file h1 => exact ⟨⟨_, (mem_below h).2 h1, by simp [recOf]⟩, by simp [Rec.isLeaf]⟩
    | link h1 => exact ⟨⟨_, (mem_below h).2 h1, by simp [recOf]⟩, by simp [Rec.isLeaf]⟩

theorem Told.ne_none {gfs : FS} {g : Path} {x : Rec} (h : Told gfs g x) :
    get gfs (g ++ x.path) ≠ none := by
  cases h with
  | mid h _ => dsimp only; rw [h]; simp
  | file h => dsimp only; rw [h]; simp
  | link h => dsimp only; rw [h]; simp

theorem others_nodup {gfs : FS} {g : Path} (h : (gfs.map (·.1)).Nodup) :
    ((others gfs g).map (·.path)).Nodup := by
  have h1 := below_nodup (t := g) h
  unfold others
  unfold List.Nodup at h1 ⊢
  rw [List.pairwise_map] at h1 ⊢
  apply List.Pairwise.filter
  rw [List.pairwise_map]
  refine h1.imp ?_
  intro a b hab
  rw [recOf_path, recOf_path]
  exact hab

/-- The listed paths are those of the giver's tree. -/
theorem listed_iff {gfs : FS} {g : Path} (h : (gfs.map (·.1)).Nodup) {l : List Rec}
    (hl : Listing gfs g l) {r : Path} : r ∈ l.map (·.path) ↔ get gfs (g ++ r) ≠ none := by
  obtain ⟨a, b, rfl, ha, hb⟩ := hl
  rw [List.mem_map]
  constructor
  · rintro ⟨x, hx, rfl⟩
    rcases List.mem_append.1 hx with hx | hx
    · obtain ⟨m, hm⟩ := (leaf_mem h (ha.mem_iff.1 hx)).2
      rw [hm]; simp
    · exact ((other_mem h).1 (hb.mem_iff.1 hx)).ne_none
  · intro hg
    cases e : get gfs (g ++ r) with
    | none => exact absurd e hg
    | some x =>
      cases x with
      | dir m =>
        cases hs : hasSub (below gfs g) r with
        | false =>
          obtain ⟨x, hx, hp⟩ := leaf_of_dir h ⟨m, e⟩ hs
          exact ⟨x, List.mem_append_left _ (ha.mem_iff.2 hx), hp⟩
        | true =>
          exact ⟨_, List.mem_append_right _ (hb.mem_iff.2 ((other_mem h).2 (.mid e hs))), rfl⟩
      | file d m t => exact ⟨_, List.mem_append_right _ (hb.mem_iff.2 ((other_mem h).2 (.file e))), rfl⟩
      | link t m => exact ⟨_, List.mem_append_right _ (hb.mem_iff.2 ((other_mem h).2 (.link e))), rfl⟩

end Verif.DirSync
