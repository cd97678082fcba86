import Verif.Spec.DirSync
/-
Lemmas on the file system of Model/DirSync.lean: entries after the operations, and the path
walk where no links are in the way.
-/
namespace Verif.DirSync

theorem get_nil (p : Path) : get [] p = none := rfl

theorem get_cons (x : Path × Entry) (fs : FS) (p : Path) :
    get (x :: fs) p = if x.1 = p then some x.2 else get fs p := by
  unfold get
  rw [List.find?_cons]
  by_cases h : x.1 = p <;> simp [h]

theorem get_filter (f : Path → Bool) (fs : FS) (p : Path) :
    get (fs.filter (fun x => f x.1)) p = if f p then get fs p else none := by
  induction fs with
  | nil => simp [get_nil]
  | cons x fs ih =>
    rw [List.filter_cons]
    by_cases hx : f x.1 = true
    · rw [if_pos hx, get_cons, get_cons, ih]
      by_cases h : x.1 = p
      · subst h; simp [hx]
      · simp [h]
    · rw [if_neg hx, ih, get_cons]
      by_cases h : x.1 = p
      · subst h; simp [hx]
      · simp [h]

theorem get_del (fs : FS) (p q : Path) : get (del fs p) q = if q = p then none else get fs q := by
  have := get_filter (fun x => decide (x ≠ p)) fs q
  unfold del
  rw [this]
  by_cases h : q = p <;> simp [h]

theorem get_set (fs : FS) (p q : Path) (e : Entry) :
    get (set fs p e) q = if q = p then some e else get fs q := by
  unfold set
  rw [get_cons, get_del]
  by_cases h : q = p
  · simp [h]
  · rw [if_neg h, if_neg (fun h' => h h'.symm), if_neg h]

theorem get_delBelow (fs : FS) (p q : Path) :
    get (delBelow fs p) q = if p <+: q then none else get fs q := by
  have := get_filter (fun x => !p.isPrefixOf x) fs q
  unfold delBelow
  rw [this]
  by_cases h : p <+: q
  · rw [if_pos h]; simp [List.isPrefixOf_iff_prefix.2 h]
  · have h' : p.isPrefixOf q = false := by
      cases e : p.isPrefixOf q with
      | false => rfl
      | true => exact absurd (List.isPrefixOf_iff_prefix.1 e) h
    rw [if_neg h]; simp [h']

theorem mem_of_get {fs : FS} {p : Path} {e : Entry} (h : get fs p = some e) : (p, e) ∈ fs := by
  induction fs with
  | nil => simp [get_nil] at h
  | cons x fs ih =>
    rw [get_cons] at h
    by_cases hx : x.1 = p
    · rw [if_pos hx] at h
      obtain ⟨a, b⟩ := x
      simp only [Option.some.injEq] at h hx
      subst h; subst hx; simp
    · rw [if_neg hx] at h
      exact List.mem_cons_of_mem _ (ih h)

theorem get_ne_of_mem {fs : FS} {x : Path × Entry} (h : x ∈ fs) : get fs x.1 ≠ none := by
  induction fs with
  | nil => simp at h
  | cons y fs ih =>
    rw [get_cons]
    by_cases hx : y.1 = x.1
    · simp [hx]
    · rw [if_neg hx]
      rcases List.mem_cons.1 h with h | h
      · exact absurd (by rw [h]) hx
      · exact ih h

theorem get_of_mem {fs : FS} (hn : (fs.map (·.1)).Nodup) {x : Path × Entry} (h : x ∈ fs) :
    get fs x.1 = some x.2 := by
  induction fs with
  | nil => simp at h
  | cons y fs ih =>
    rw [List.map_cons, List.nodup_cons] at hn
    rw [get_cons]
    rcases List.mem_cons.1 h with h | h
    · subst h; simp
    · rw [if_neg, ih hn.2 h]
      intro e
      exact hn.1 (e ▸ List.mem_map_of_mem h)

/-- No link among the proper beginnings of a path. -/
def Open (fs : FS) (cur : Path) (cs : List Name) : Prop :=
  ∀ q, q ≠ [] → q <+: cs → q ≠ cs → ∀ t m, get fs (cur ++ q) ≠ some (.link t m)

theorem go_open {fs : FS} {k} {follow : Bool} {cs : List Name} :
    ∀ {cur : Path}, (∀ c ∈ cs, Proper c) → Open fs cur cs →
      (follow = false ∨ ∀ t m, get fs (cur ++ cs) ≠ some (.link t m)) →
      go fs k follow cur cs = some (cur ++ cs) ∨ go fs k follow cur cs = none := by
  induction cs with
  | nil => intro cur _ _ _; left; simp [go]
  | cons c cs ih =>
    intro cur hp ho hf
    have hc := hp c (List.mem_cons_self ..)
    have hcs : ∀ c ∈ cs, Proper c := fun x hx => hp x (List.mem_cons_of_mem _ hx)
    rw [go, if_neg (fun h => h.elim hc.1 hc.2.1), if_neg hc.2.2]
    have happ : cur ++ c :: cs = (cur ++ [c]) ++ cs := by simp
    cases e : get fs (cur ++ [c]) with
    | none =>
      dsimp only
      by_cases h : cs = []
      · subst h; left; simp
      · right; rw [if_neg h]
    | some x =>
      cases x with
      | dir m =>
        dsimp only
        rw [happ]
        refine ih hcs ?_ ?_
        · intro q hq hpre hne t m'
          have := ho (c :: q) (by simp) (by simpa using hpre) (by simpa using hne) t m'
          simpa using this
        · rcases hf with hf | hf
          · exact Or.inl hf
          · right; intro t m'; rw [← happ]; exact hf t m'
      | file d m t =>
        dsimp only
        by_cases h : cs = []
        · subst h; left; simp
        · right; rw [if_neg h]
      | link t m =>
        dsimp only
        by_cases h : cs = []
        · subst h
          rcases hf with hf | hf
          · left; rw [if_pos ⟨rfl, hf⟩]
          · exact absurd e (hf t m)
        · exact absurd e (ho [c] (by simp) (by simp) (by simpa using fun h' => h h') t m)

theorem go_dirs {fs : FS} {k} {follow : Bool} {cs : List Name} :
    ∀ {cur : Path}, (∀ c ∈ cs, Proper c) →
      (∀ q, q ≠ [] → q <+: cs → q ≠ cs → Dir fs (cur ++ q)) →
      (follow = false ∨ ∀ t m, get fs (cur ++ cs) ≠ some (.link t m)) →
      go fs k follow cur cs = some (cur ++ cs) := by
  induction cs with
  | nil => intro cur _ _ _; simp [go]
  | cons c cs ih =>
    intro cur hp ho hf
    have hc := hp c (List.mem_cons_self ..)
    have hcs : ∀ c ∈ cs, Proper c := fun x hx => hp x (List.mem_cons_of_mem _ hx)
    rw [go, if_neg (fun h => h.elim hc.1 hc.2.1), if_neg hc.2.2]
    have happ : cur ++ c :: cs = (cur ++ [c]) ++ cs := by simp
    by_cases h : cs = []
    · subst h
      cases e : get fs (cur ++ [c]) with
      | none => simp
      | some x =>
        cases x with
        | dir m => simp [go]
        | file d m t => simp
        | link t m =>
          rcases hf with hf | hf
          · dsimp only; rw [if_pos ⟨rfl, hf⟩]
          · exact absurd e (hf t m)
    · obtain ⟨m, e⟩ := ho [c] (by simp) (by simp) (by simpa using fun h' => h h')
      rw [e]
      dsimp only
      rw [happ]
      refine ih hcs ?_ ?_
      · intro q hq hpre hne
        have := ho (c :: q) (by simp) (by simpa using hpre) (by simpa using hne)
        simpa using this
      · rcases hf with hf | hf
        · exact Or.inl hf
        · right; intro t m'; rw [← happ]; exact hf t m'

theorem namei_open {fs : FS} {follow : Bool} {p : Path} (hp : ∀ c ∈ p, Proper c)
    (ho : Open fs [] p) (hf : follow = false ∨ ∀ t m, get fs p ≠ some (.link t m)) :
    namei fs follow p = some p ∨ namei fs follow p = none := by
  have := go_open (fs := fs) (k := walk fs follow 39) (follow := follow) (cur := []) hp ho (by simpa using hf)
  simpa [namei, walk] using this

theorem namei_dirs {fs : FS} {follow : Bool} {p : Path} (hp : ∀ c ∈ p, Proper c)
    (ho : ∀ q, q ≠ [] → q <+: p → q ≠ p → Dir fs q)
    (hf : follow = false ∨ ∀ t m, get fs p ≠ some (.link t m)) :
    namei fs follow p = some p := by
  have := go_dirs (fs := fs) (k := walk fs follow 39) (follow := follow) (cur := []) hp
    (by simpa using ho) (by simpa using hf)
  simpa [namei, walk] using this

theorem lstat_dirs {fs : FS} {p : Path} (hne : p ≠ []) (hp : ∀ c ∈ p, Proper c)
    (ho : ∀ q, q ≠ [] → q <+: p → q ≠ p → Dir fs q) : lstat fs p = get fs p := by
  unfold lstat
  rw [namei_dirs hp ho (Or.inl rfl)]
  cases p with
  | nil => exact absurd rfl hne
  | cons c p => rfl

theorem stat_dirs {fs : FS} {p : Path} (hne : p ≠ []) (hp : ∀ c ∈ p, Proper c)
    (ho : ∀ q, q ≠ [] → q <+: p → q ≠ p → Dir fs q)
    (hf : ∀ t m, get fs p ≠ some (.link t m)) : stat fs p = get fs p := by
  unfold stat
  rw [namei_dirs hp ho (Or.inr hf)]
  cases p with
  | nil => exact absurd rfl hne
  | cons c p => rfl

theorem join_proper {t : Path} {r : List Name} (h : ∀ c ∈ r, Proper c) : join t r = t ++ r := by
  unfold join
  induction r generalizing t with
  | nil => simp
  | cons c r ih =>
    have hc := h c (List.mem_cons_self ..)
    rw [List.foldl_cons, if_neg (fun h => h.elim hc.1 hc.2.1), if_neg hc.2.2,
      ih (fun x hx => h x (List.mem_cons_of_mem _ hx))]
    simp

open Classical in
/-- MkdirAll where every beginning of the path is a directory or absent. -/
theorem mkdirGo_dirs {cs : List Name} : ∀ {fs : FS} {cur : Path},
    (∀ c ∈ cur ++ cs, Proper c) →
    (∀ q, q ≠ [] → q <+: cur → Dir fs q) →
    (∀ q, q ≠ [] → q <+: cs → get fs (cur ++ q) = none ∨ Dir fs (cur ++ q)) →
    ∃ fs', mkdirGo fs cur cs = some fs' ∧
      ∀ p, get fs' p = if (∃ q, q ≠ [] ∧ q <+: cs ∧ p = cur ++ q) ∧ get fs p = none
        then some (.dir 0o700) else get fs p := by
  induction cs with
  | nil =>
    intro fs cur _ _ _
    refine ⟨fs, rfl, fun p => ?_⟩
    rw [if_neg]
    rintro ⟨⟨q, hq, hpre, _⟩, _⟩
    exact hq (List.prefix_nil.1 hpre)
  | cons c cs ih =>
    intro fs cur hp hcur hcs
    have happ : cur ++ c :: cs = (cur ++ [c]) ++ cs := by simp
    have hp1 : ∀ x ∈ cur ++ [c], Proper x := by
      intro x hx
      apply hp
      rw [happ]
      exact List.mem_append_left _ hx
    have hup : ∀ q, q ≠ [] → q <+: cur ++ [c] → q ≠ cur ++ [c] → Dir fs q := by
      intro q hq hpre hne
      rcases List.prefix_concat_iff.1 hpre with h | h
      · exact absurd h hne
      · exact hcur q hq h
    have hne : cur ++ [c] ≠ [] := by simp
    rw [mkdirGo]
    rcases hcs [c] (by simp) (by simp) with e | ⟨m, e⟩
    · have hnl : ∀ t m, get fs (cur ++ [c]) ≠ some (.link t m) := by intro t m; rw [e]; simp
      rw [stat_dirs hne hp1 hup hnl, e]
      dsimp only
      rw [namei_dirs hp1 hup (Or.inl rfl)]
      dsimp only
      rw [if_pos e]
      obtain ⟨fs', h1, h2⟩ := ih (fs := set fs (cur ++ [c]) (.dir 0o700)) (cur := cur ++ [c])
        (by rw [← happ]; exact hp)
        (by
          intro q hq hpre
          by_cases h : q = cur ++ [c]
          · exact ⟨_, by rw [get_set, if_pos h]⟩
          · obtain ⟨m, hm⟩ := hup q hq hpre h
            exact ⟨m, by rw [get_set, if_neg h]; exact hm⟩)
        (by
          intro q hq hpre
          have hn : cur ++ [c] ++ q ≠ cur ++ [c] := by simpa using hq
          unfold Dir
          rw [get_set, if_neg hn]
          simpa [Dir] using hcs (c :: q) (by simp) (by simpa using hpre))
      refine ⟨fs', h1, fun p => ?_⟩
      rw [h2, get_set]
      by_cases hpc : p = cur ++ [c]
      · subst hpc
        rw [if_neg, if_pos rfl, if_pos]
        · exact ⟨⟨[c], by simp, by simp, rfl⟩, e⟩
        · simp
      · simp only [if_neg hpc]
        congr 1
        apply propext
        constructor
        · rintro ⟨⟨q, hq, hpre, rfl⟩, hg⟩
          exact ⟨⟨c :: q, by simp, by simpa using hpre, by simp⟩, hg⟩
        · rintro ⟨⟨q, hq, hpre, rfl⟩, hg⟩
          refine ⟨?_, hg⟩
          cases q with
          | nil => exact absurd rfl hq
          | cons c' q =>
            rw [List.cons_prefix_cons] at hpre
            obtain ⟨rfl, hpre⟩ := hpre
            refine ⟨q, ?_, hpre, by simp⟩
            rintro rfl
            exact hpc rfl
    · have hnl : ∀ t m, get fs (cur ++ [c]) ≠ some (.link t m) := by intro t m; rw [e]; simp
      rw [stat_dirs hne hp1 hup hnl, e]
      dsimp only
      obtain ⟨fs', h1, h2⟩ := ih (fs := fs) (cur := cur ++ [c])
        (by rw [← happ]; exact hp)
        (by
          intro q hq hpre
          by_cases h : q = cur ++ [c]
          · exact ⟨_, h ▸ e⟩
          · exact hup q hq hpre h)
        (by
          intro q hq hpre
          simpa [Dir] using hcs (c :: q) (by simp) (by simpa using hpre))
      refine ⟨fs', h1, fun p => ?_⟩
      rw [h2]
      by_cases hpc : p = cur ++ [c]
      · subst hpc
        rw [if_neg, if_neg]
        · rw [e]; simp
        · rw [e]; simp
      · congr 1
        apply propext
        constructor
        · rintro ⟨⟨q, hq, hpre, rfl⟩, hg⟩
          exact ⟨⟨c :: q, by simp, by simpa using hpre, by simp⟩, hg⟩
        · rintro ⟨⟨q, hq, hpre, rfl⟩, hg⟩
          refine ⟨?_, hg⟩
          cases q with
          | nil => exact absurd rfl hq
          | cons c' q =>
            rw [List.cons_prefix_cons] at hpre
            obtain ⟨rfl, hpre⟩ := hpre
            refine ⟨q, ?_, hpre, by simp⟩
            rintro rfl
            exact hpc rfl

end Verif.DirSync
