import Verif.Proofs.DirSyncTame
import Verif.Proofs.DirSyncTwice
/-
C96 to C100: directory sync.
-/
namespace Verif.DirSync

/- Cases the theorems are shown on. -/
namespace Case

instance (fs : FS) (p : Path) : Decidable (Dir fs p) :=
  match e : get fs p with
  | some (.dir m) => isTrue ⟨m, e⟩
  | some (.file _ _ _) => isFalse (by rintro ⟨m, h⟩; rw [e] at h; exact nomatch h)
  | some (.link _ _) => isFalse (by rintro ⟨m, h⟩; rw [e] at h; exact nomatch h)
  | none => isFalse (by rintro ⟨m, h⟩; rw [e] at h; exact nomatch h)

theorem forall_get {fs : FS} {root : Path} {P : Path → Entry → Prop}
    (h : ∀ x ∈ fs, root.isPrefixOf x.1 = true → P (x.1.drop root.length) x.2) :
    ∀ r e, get fs (root ++ r) = some e → P r e := by
  intro r e he
  have := h _ (mem_of_get he) (List.isPrefixOf_iff_prefix.2 (List.prefix_append ..))
  simpa using this

theorem tree {fs : FS} {root : Path} (h1 : (fs.map (·.1)).Nodup)
    (h2 : ∀ x ∈ fs, root.isPrefixOf x.1 = true → ∀ c ∈ x.1.drop root.length, Proper c)
    (h3 : ∀ x ∈ fs, root.isPrefixOf x.1 = true → x.1.drop root.length ≠ [] →
      Dir fs (root ++ (x.1.drop root.length).dropLast)) : Tree fs root := by
  refine ⟨h1, ?_, ?_⟩
  · intro r hr
    obtain ⟨e, he⟩ := Option.ne_none_iff_exists'.1 hr
    exact forall_get (P := fun r _ => ∀ c ∈ r, Proper c) h2 r e he
  · intro r c hr
    obtain ⟨e, he⟩ := Option.ne_none_iff_exists'.1 hr
    have := forall_get (P := fun r _ => r ≠ [] → Dir fs (root ++ r.dropLast)) h3 _ e he (by simp)
    simpa using this

/-- What the taker has in the place of one entry of the giver. -/
def place (fs : FS) (n : Name) (r : Path) (e : Entry) : Bool :=
  match e, get fs ([n] ++ r) with
  | .dir _, none => !startsDotdot r
  | .dir _, some (.dir _) => !startsDotdot r
  | .dir _, _ => false
  | .link _ _, some (.dir _) => false
  | .link _ _, _ => true
  | .file _ _ _, none => true
  | .file _ _ _, some (.file _ _ _) => true
  | .file _ _ _, _ => false

/-- The two trees fit, checked on the entries. -/
theorem fits {fs gfs : FS} {n : Name} {g : Path} (h1 : Tree fs [n]) (h2 : Tree gfs g) (h3 : Dir gfs g)
    (h4 : Proper n) (h5 : get fs [n] = none ∨ Dir fs [n])
    (h6 : ∀ x ∈ gfs, g.isPrefixOf x.1 = true → place fs n (x.1.drop g.length) x.2 = true) :
    Fits fs [n] gfs g := by
  have key := forall_get (fs := gfs) (root := g) (P := fun r y => place fs n r y = true) h6
  refine ⟨h1, h2, h3, by simp, by simpa using h4, ?_, h5, ?_, ?_, ?_, ?_⟩
  · intro q hq hpre hne
    rcases List.prefix_cons_iff.1 hpre with h | ⟨t, rfl, ht⟩
    · exact absurd h hq
    · rw [List.prefix_nil.1 ht] at hne; exact absurd rfl hne
  · rintro r ⟨m, hm⟩
    have := key r _ hm
    unfold place at this
    split at this <;> simp_all
  · rintro r ⟨m, hm⟩
    have := key r _ hm
    unfold place at this
    unfold Dir
    split at this <;> simp_all
  · rintro r tg m h ⟨m', hm'⟩
    have := key r _ h
    unfold place at this
    rw [hm'] at this
    exact nomatch this
  · intro r d m mt h
    have := key r _ h
    unfold place at this
    split at this <;> simp_all

def t : Name := ['t']
def g : Name := ['g']
def a : Name := ['a']
def b : Name := ['b']
def f : Name := ['f']
def l : Name := ['l']
def o : Name := ['o']

/-- The giver: directories a and a/b, a file a/f and a link l. -/
def gfs : FS := [([g], .dir 0o755), ([g, a], .dir 0o750), ([g, a, b], .dir 0o711),
  ([g, a, f], .file [1, 2, 3] 0o644 5000000007), ([g, l], .link ['a', '/', 'f'] 1234567)]

/-- The taker: an empty file a/f, a file o the giver does not have; and o outside. -/
def fs : FS := [([t], .dir 0o755), ([t, a], .dir 0o700), ([t, a, f], .file [] 0o600 17),
  ([t, o], .file [9] 0o600 1), ([o], .dir 0o755), ([o, f], .file [7] 0o600 1)]

def list : List Rec := [⟨[a, b], .leaf 0o711⟩, ⟨[a, f], .file [1, 2, 3] 0o644 5000000007⟩,
  ⟨[l], .link ['a', '/', 'f'] 1234567⟩, ⟨[a], .mid 0o750⟩, ⟨[], .mid 0o755⟩]

def rq : Req := { root := [t], dry := false, par := true }

/-- Requests and deletions in reverse, nothing requested after a panic. -/
def sch : Sched := { ordU := List.reverse, skip := fun _ => true, ordD := List.reverse }

theorem fair : sch.Fair := ⟨fun l => List.reverse_perm l, fun l => List.reverse_perm l⟩

theorem listing : Listing gfs [g] list :=
  ⟨list.take 1, list.drop 1, rfl, by decide, by decide⟩

theorem giver : Tree gfs [g] := tree (by decide) (by decide) (by decide)

theorem fit : Fits fs [t] gfs [g] :=
  fits (tree (by decide) (by decide) (by decide)) giver (by decide) (by decide) (by decide) (by decide)

end Case

/-- What a file that both sides have must be like for the sync to bring it up to date. -/
def Current (fs : FS) (t : Path) (gfs : FS) (g : Path) : Prop :=
  ∀ r d m mt d0 m0 mt0, get gfs (g ++ r) = some (.file d m mt) →
    get fs (t ++ r) = some (.file d0 m0 mt0) → d0 = [] ∨ (d0 = d ∧ second mt0 = second mt)

theorem Current.fresh {fs gfs : FS} {t g : Path} (hf : Fits fs t gfs g) (h : Current fs t gfs g) :
    ∀ r d m mt, get gfs (g ++ r) = some (.file d m mt) →
      needs (get fs (t ++ r)) d mt = true → Fresh (get fs (t ++ r)) := by
  intro r d m mt hg hn
  rcases hf.files r d m mt hg with h1 | ⟨d0, m0, mt0, h1⟩
  · exact Or.inl h1
  · rcases h r d m mt d0 m0 mt0 hg h1 with rfl | ⟨rfl, h2⟩
    · exact Or.inr ⟨m0, mt0, h1⟩
    · rw [h1] at hn
      simp [needs, h2] at hn

/-- C96, in part: the sync reports success and copies the tree, when every file the taker already
has is empty or has the giver's contents and, to the second, its time. Missing: files that
changed (never updated, `C96_changed_file_counterexample`), and entries of another kind in the
same place at the taker. -/
theorem C96_copies_partial {rq : Req} {fs gfs : FS} {g : Path} (hf : Fits fs rq.root gfs g)
    {sch : Sched} (hsch : sch.Fair) {l : List Rec} (hl : Listing gfs g l) (hdry : rq.dry = false)
    (hcur : Current fs rq.root gfs g) :
    (run rq sch fs l).ok = true ∧
    ∀ r, Same (get (run rq sch fs l).fs (rq.root ++ r)) (get gfs (g ++ r)) := by
  have hr := run_result (rq := rq) hf hsch hl
  refine ⟨hr.ok, fun r => ?_⟩
  cases e : get gfs (g ++ r) with
  | none => rw [hr.gone hdry r e]; trivial
  | some y =>
    cases y with
    | dir m =>
      by_cases hs : ∃ c, Dir gfs (g ++ (r ++ [c]))
      · obtain ⟨c, hc⟩ := hs
        rw [hr.midDir r m c e hc]; trivial
      · rw [hr.leafDir r m e (fun c hc => hs ⟨c, hc⟩)]
        rcases hf.dirs r ⟨m, e⟩ with h | ⟨m', h⟩ <;> rw [h] <;> trivial
    | link tg mt =>
      rw [hr.link r tg mt e]
      rcases linkEff_cases (get fs (rq.root ++ r)) tg mt with h | h <;> rw [h] <;> rfl
    | file d m mt =>
      cases hn : needs (get fs (rq.root ++ r)) d mt with
      | true => rw [hr.fileNew (hcur.fresh hf) r d m mt e hn]; rfl
      | false =>
        rw [hr.fileKept r d m mt e (Or.inl hn)]
        rcases hf.files r d m mt e with h1 | ⟨d0, m0, mt0, h1⟩
        · rw [h1] at hn; exact nomatch hn
        · rw [h1]
          rw [h1] at hn
          simp only [needs, Bool.or_eq_false_iff, bne_eq_false_iff_eq] at hn
          rcases hcur r d m mt d0 m0 mt0 e h1 with rfl | ⟨rfl, _⟩
          · exact (List.length_eq_zero_iff.1 hn.2.symm).symm
          · rfl

example : (∀ r, Same (get (run Case.rq Case.sch Case.fs Case.list).fs ([Case.t] ++ r))
      (get Case.gfs ([Case.g] ++ r))) ∧
    get (run Case.rq Case.sch Case.fs Case.list).fs [Case.t, Case.a, Case.f] =
      some (.file [1, 2, 3] 0o644 5000000007) ∧
    get (run Case.rq Case.sch Case.fs Case.list).fs [Case.t, Case.o] = none := by
  refine ⟨(C96_copies_partial (rq := Case.rq) Case.fit Case.fair Case.listing rfl ?_).2,
    by decide +kernel, by decide +kernel⟩
  intro r d m mt d0 m0 mt0 _ h
  have := Case.forall_get (fs := Case.fs) (root := [Case.t])
    (P := fun r e => r = [Case.a, Case.f] ∧ e = .file [] 0o600 17 ∨ r = [Case.o] ∨ e.isDir = true)
    (by decide) r _ h
  rcases this with ⟨_, h1⟩ | rfl | h1
  · simp only [Entry.file.injEq] at h1
    exact Or.inl h1.1
  · rename_i hg
    rw [show get Case.gfs ([Case.g] ++ [Case.o]) = none by decide] at hg
    exact nomatch hg
  · exact nomatch h1

/-- C96 fails for every file the taker already has, if it is not empty: whatever the giver has
there, the sync reports success and leaves the taker's file, contents and all. -/
theorem C96_changed_file_counterexample {rq : Req} {fs gfs : FS} {g : Path}
    (hf : Fits fs rq.root gfs g) {sch : Sched} (hsch : sch.Fair) {l : List Rec}
    (hl : Listing gfs g l) {r : Path} {d d0 : List UInt8} {m mt m0 mt0 : Nat}
    (hg : get gfs (g ++ r) = some (.file d m mt))
    (h0 : get fs (rq.root ++ r) = some (.file d0 m0 mt0)) (hne : d0 ≠ []) :
    (run rq sch fs l).ok = true ∧
    get (run rq sch fs l).fs (rq.root ++ r) = some (.file d0 m0 mt0) := by
  have hr := run_result (rq := rq) hf hsch hl
  refine ⟨hr.ok, ?_⟩
  rw [hr.fileKept r d m mt hg (Or.inr ?_), h0]
  rw [h0]
  rintro (h | ⟨_, _, h⟩)
  · exact nomatch h
  · simp only [Option.some.injEq, Entry.file.injEq] at h
    exact hne h.1

namespace Case

/-- The giver's f has changed; the taker has an older one. -/
def gfs2 : FS := [([g], .dir 0o755), ([g, f], .file [1, 2, 3] 0o644 9000000000),
  ([g, a], .file [1] 0o600 9000000000)]

def fs2 : FS := [([t], .dir 0o755), ([t, f], .file [4, 5] 0o600 2000000000)]

def list2 : List Rec := [⟨[], .leaf 0o755⟩, ⟨[f], .file [1, 2, 3] 0o644 9000000000⟩,
  ⟨[a], .file [1] 0o600 9000000000⟩]

theorem listing2 : Listing gfs2 [g] list2 :=
  ⟨list2.take 1, list2.drop 1, rfl, by decide, by decide⟩

theorem fit2 : Fits fs2 [t] gfs2 [g] :=
  fits (tree (by decide) (by decide) (by decide)) (tree (by decide) (by decide) (by decide))
    (by decide) (by decide) (by decide) (by decide)

end Case

example : ¬ Same (get (run Case.rq Case.sch Case.fs2 Case.list2).fs ([Case.t] ++ [Case.f]))
    (get Case.gfs2 ([Case.g] ++ [Case.f])) := by
  have := (C96_changed_file_counterexample (rq := Case.rq) Case.fit2 Case.fair Case.listing2
    (r := [Case.f]) (d := [1, 2, 3]) (d0 := [4, 5]) (m := 0o644) (mt := 9000000000) (m0 := 0o600)
    (mt0 := 2000000000) (by decide) (by decide) (by decide)).2
  rw [show Case.rq.root = [Case.t] from rfl] at this
  rw [this, show get Case.gfs2 ([Case.g] ++ [Case.f]) = some (.file [1, 2, 3] 0o644 9000000000) by decide]
  intro h
  have h' : ([4, 5] : List UInt8) = [1, 2, 3] := h
  exact absurd h' (by decide)

/-- In that case a new file is lost as well, if its request comes after the panic. -/
theorem C96_lost_file_counterexample :
    (run Case.rq { Case.sch with ordU := id } Case.fs2 Case.list2).ok = true ∧
    get (run Case.rq { Case.sch with ordU := id } Case.fs2 Case.list2).fs [Case.t, Case.a] = none ∧
    get Case.gfs2 [Case.g, Case.a] ≠ none := by
  decide +kernel

/-- C96 fails also where the taker has a directory and the giver a file: the directory stays,
and the sync reports success. -/
theorem C96_directory_for_file_counterexample :
    let gfs : FS := [([Case.g], .dir 0o755), ([Case.g, Case.f], .file [1] 0o644 9000000000)]
    let fs : FS := [([Case.t], .dir 0o755), ([Case.t, Case.f], .dir 0o755)]
    let l : List Rec := [⟨[], .leaf 0o755⟩, ⟨[Case.f], .file [1] 0o644 9000000000⟩]
    Listing gfs [Case.g] l ∧ Tree gfs [Case.g] ∧ Tree fs [Case.t] ∧
    (run Case.rq Case.sch fs l).ok = true ∧
    get (run Case.rq Case.sch fs l).fs [Case.t, Case.f] = some (.dir 0o755) := by
  intro gfs fs l
  refine ⟨⟨l.take 1, l.drop 1, rfl, by decide, by decide⟩, Case.tree (by decide) (by decide) (by decide),
    Case.tree (by decide) (by decide) (by decide), by decide +kernel, by decide +kernel⟩

/-- C97, in part: a directory with subdirectories gets the giver's bits; a file the taker does not
have, or has empty and of another time or size, gets the giver's bits and time, if it is not
empty or the giver does not chunk in parallel, and if its bits are not all clear. Missing: see
the counterexamples. -/
theorem C97_modes_partial {rq : Req} {fs gfs : FS} {g : Path} (hf : Fits fs rq.root gfs g)
    {sch : Sched} (hsch : sch.Fair) {l : List Rec} (hl : Listing gfs g l)
    (hcur : Current fs rq.root gfs g) :
    (∀ r m c, get gfs (g ++ r) = some (.dir m) → Dir gfs (g ++ (r ++ [c])) →
      get (run rq sch fs l).fs (rq.root ++ r) = some (.dir m)) ∧
    (∀ r d m mt, get gfs (g ++ r) = some (.file d m mt) → (d ≠ [] ∨ rq.par = false) → m ≠ 0 →
      (get fs (rq.root ++ r) = none ∨ ∃ m0 mt0, get fs (rq.root ++ r) = some (.file [] m0 mt0) ∧
        (d ≠ [] ∨ second mt0 ≠ second mt)) →
      get (run rq sch fs l).fs (rq.root ++ r) = some (.file d m mt)) := by
  have hr := run_result (rq := rq) hf hsch hl
  refine ⟨hr.midDir, ?_⟩
  intro r d m mt hg hd hm h0
  have hmode : newMode rq.par d m = m := by
    unfold newMode
    rw [if_neg]
    rintro (h | ⟨h1, h2⟩)
    · exact hm h
    · rcases hd with hd | hd
      · exact hd h1
      · rw [h2] at hd; exact nomatch hd
  have := hr.fileNew (hcur.fresh hf) r d m mt hg ?_
  · rw [hmode] at this; exact this
  · rcases h0 with h | ⟨m0, mt0, h, h1⟩
    · rw [h]; rfl
    · rw [h]
      rcases h1 with h1 | h1
      · have : d.length ≠ 0 := fun h => h1 (List.length_eq_zero_iff.1 h)
        simp only [needs, Bool.or_eq_true, bne_iff_ne]
        exact Or.inr (fun h => this h.symm)
      · simp [needs, h1]

example : get (run Case.rq Case.sch Case.fs Case.list).fs [Case.t, Case.a] = some (.dir 0o750) ∧
    get (run Case.rq Case.sch Case.fs Case.list).fs [Case.t, Case.a, Case.f] =
      some (.file [1, 2, 3] 0o644 5000000007) := by
  decide +kernel

/-- C97 fails for every directory without subdirectories: it keeps the taker's bits, or has 0700
when it is new; the giver's bits `m` do not matter. -/
theorem C97_leaf_directory_counterexample {rq : Req} {fs gfs : FS} {g : Path}
    (hf : Fits fs rq.root gfs g) {sch : Sched} (hsch : sch.Fair) {l : List Rec}
    (hl : Listing gfs g l) {r : Path} {m : Nat} (hg : get gfs (g ++ r) = some (.dir m))
    (hleaf : ∀ c, ¬ Dir gfs (g ++ (r ++ [c]))) :
    (run rq sch fs l).ok = true ∧
    (get fs (rq.root ++ r) = none →
      get (run rq sch fs l).fs (rq.root ++ r) = some (.dir 0o700)) ∧
    (∀ m0, get fs (rq.root ++ r) = some (.dir m0) →
      get (run rq sch fs l).fs (rq.root ++ r) = some (.dir m0)) := by
  have hr := run_result (rq := rq) hf hsch hl
  have := hr.leafDir r m hg hleaf
  refine ⟨hr.ok, ?_, ?_⟩
  · intro h; rw [this, h]; rfl
  · intro m0 h; rw [this, h]; rfl

example : get (run Case.rq Case.sch Case.fs Case.list).fs [Case.t, Case.a, Case.b] = some (.dir 0o700) ∧
    get Case.gfs [Case.g, Case.a, Case.b] = some (.dir 0o711) := by
  decide +kernel

/-- C97 fails for every empty file that is new, when the giver chunks in parallel: its bits are
0600, or it is not made at all (after a panic). -/
theorem C97_empty_file_counterexample {rq : Req} {fs gfs : FS} {g : Path}
    (hf : Fits fs rq.root gfs g) {sch : Sched} (hsch : sch.Fair) {l : List Rec}
    (hl : Listing gfs g l) (hpar : rq.par = true) {r : Path} {m mt : Nat}
    (hg : get gfs (g ++ r) = some (.file [] m mt)) (h0 : get fs (rq.root ++ r) = none) :
    (run rq sch fs l).ok = true ∧
    (get (run rq sch fs l).fs (rq.root ++ r) = none ∨
      get (run rq sch fs l).fs (rq.root ++ r) = some (.file [] 0o600 mt)) := by
  have hr := run_result (rq := rq) hf hsch hl
  refine ⟨hr.ok, ?_⟩
  rcases hr.fileAny r [] m mt hg with h | h
  · left; rw [h, h0]
  · right; rw [h]; simp [newMode, hpar]

/-- C97 fails for every file the taker has with the giver's size and, to the second, time: its
bits stay (and its contents, if they differ: C96). -/
theorem C97_bits_only_counterexample {rq : Req} {fs gfs : FS} {g : Path}
    (hf : Fits fs rq.root gfs g) {sch : Sched} (hsch : sch.Fair) {l : List Rec}
    (hl : Listing gfs g l) {r : Path} {d d0 : List UInt8} {m mt m0 mt0 : Nat}
    (hg : get gfs (g ++ r) = some (.file d m mt))
    (h0 : get fs (rq.root ++ r) = some (.file d0 m0 mt0)) (hlen : d0.length = d.length)
    (hsec : second mt0 = second mt) :
    (run rq sch fs l).ok = true ∧
    get (run rq sch fs l).fs (rq.root ++ r) = some (.file d0 m0 mt0) ∧
    ∀ x ∈ (run rq sch fs l).asked, x.path ≠ r := by
  have hr := run_result (rq := rq) hf hsch hl
  have hn : needs (get fs (rq.root ++ r)) d mt = false := by
    rw [h0]; simp [needs, hlen, hsec]
  refine ⟨hr.ok, ?_, ?_⟩
  · rw [hr.fileKept r d m mt hg (Or.inl hn), h0]
  · rintro x hx rfl
    obtain ⟨d', m', mt', _, h1, h2⟩ := hr.asked x hx
    rw [hg] at h1
    simp only [Option.some.injEq, Entry.file.injEq] at h1
    obtain ⟨rfl, rfl, rfl⟩ := h1
    rw [hn] at h2
    exact nomatch h2

namespace Case

/-- The giver has an empty file a; f differs from the taker's in its bits and contents only. -/
def gfs3 : FS := [([g], .dir 0o755), ([g, f], .file [1, 2, 3] 0o755 9000000001),
  ([g, a], .file [] 0o644 9000000000)]

def fs3 : FS := [([t], .dir 0o755), ([t, f], .file [1, 2, 4] 0o600 9999999999)]

def list3 : List Rec := [⟨[], .leaf 0o755⟩, ⟨[f], .file [1, 2, 3] 0o755 9000000001⟩,
  ⟨[a], .file [] 0o644 9000000000⟩]

theorem listing3 : Listing gfs3 [g] list3 :=
  ⟨list3.take 1, list3.drop 1, rfl, by decide, by decide⟩

theorem fit3 : Fits fs3 [t] gfs3 [g] :=
  fits (tree (by decide) (by decide) (by decide)) (tree (by decide) (by decide) (by decide))
    (by decide) (by decide) (by decide) (by decide)

end Case

example := C97_empty_file_counterexample (rq := Case.rq) Case.fit3 Case.fair Case.listing3 rfl
  (r := [Case.a]) (m := 0o644) (mt := 9000000000) (by decide) (by decide)

example := C97_bits_only_counterexample (rq := Case.rq) Case.fit3 Case.fair Case.listing3
  (r := [Case.f]) (d := [1, 2, 3]) (d0 := [1, 2, 4]) (m := 0o755) (m0 := 0o600) (mt := 9000000001)
  (mt0 := 9999999999) (by decide) (by decide) rfl (by decide)

/-- C98 fails in general: when the taker has nothing the giver does not list, a dry run does
exactly what the real one does. -/
theorem C98_dry_run_counterexample (root : Path) (par : Bool) (sch : Sched) (hsch : sch.Fair)
    (fs : FS) (l : List Rec) (h : ∀ c ∈ catalog fs root, c.1 = [] ∨ c.1 ∈ l.map (·.path)) :
    run { root := root, dry := true, par := par } sch fs l =
      run { root := root, dry := false, par := par } sch fs l := by
  have hstop : ∀ (rq : Req) (cs : List (Path × Bool)) (a : FS),
      (∀ c ∈ cs, c.1 = [] ∨ c.1 ∈ l.map (·.path)) →
      cs.foldl (prune rq (l.map (·.path))) a = a := by
    intro rq cs
    induction cs with
    | nil => intro a _; rfl
    | cons c cs ih =>
      intro a hc
      rw [List.foldl_cons]
      have : prune rq (l.map (·.path)) a c = a := by
        unfold prune
        rw [if_pos]
        rcases hc c (List.mem_cons_self ..) with h | h
        · exact Or.inl h
        · exact Or.inr (Or.inl h)
      rw [this]
      exact ih a (fun y hy => hc y (List.mem_cons_of_mem _ hy))
  have hc : ∀ c ∈ sch.ordD (catalog fs root), c.1 = [] ∨ c.1 ∈ l.map (·.path) :=
    fun c hc => h c ((hsch.2 _).mem_iff.1 hc)
  unfold run
  simp only [hstop _ _ _ hc]
  rfl

/-- So a dry run into an absent directory makes the whole tree. -/
example : get (run { Case.rq with dry := true } Case.sch [] Case.list).fs [Case.t, Case.a, Case.f] =
      some (.file [1, 2, 3] 0o644 5000000007) ∧
    get (run { Case.rq with dry := true } Case.sch [] Case.list).fs [Case.t, Case.l] =
      some (.link ['a', '/', 'f'] 1234000) := by
  decide +kernel

/-- C98, in part: a dry run leaves every path the giver does not have, in the target or
outside. -/
theorem C98_dry_run_partial {rq : Req} {fs gfs : FS} {g : Path} (hf : Fits fs rq.root gfs g)
    {sch : Sched} (hsch : sch.Fair) {l : List Rec} (hl : Listing gfs g l) (hdry : rq.dry = true) :
    ∀ p, (∀ r, p = rq.root ++ r → get gfs (g ++ r) = none) →
      get (run rq sch fs l).fs p = get fs p := by
  have hr := run_result (rq := rq) hf hsch hl
  intro p hp
  by_cases h : rq.root <+: p
  · obtain ⟨r, rfl⟩ := h
    exact hr.kept hdry r (hp r rfl)
  · exact hr.outside p h

example : get (run { Case.rq with dry := true } Case.sch Case.fs Case.list).fs [Case.t, Case.o] =
    some (.file [9] 0o600 1) := by
  rw [C98_dry_run_partial (rq := { Case.rq with dry := true }) Case.fit Case.fair Case.listing rfl]
  · decide
  · intro r hr
    have : r = [Case.o] := by
      have : [Case.t] ++ [Case.o] = [Case.t] ++ r := hr
      simpa using this.symm
    subst this
    decide

/-- C99, in part: for every listing with proper names that lists nothing below a link, and no
empty file or directory with subdirectories in the place of a link, nothing outside the target
changes, whether the sync succeeds or fails. Missing: see the counterexamples. -/
theorem C99_confined_partial {rq : Req} {fs : FS} {l : List Rec} (ht : Tame fs rq.root l)
    {sch : Sched} (hsch : sch.Fair) :
    ∀ p, ¬ rq.root <+: p → get (run rq sch fs l).fs p = get fs p :=
  fun _ hp => run_tame ht hsch hp

namespace Case

/-- A listing no directory has: a file below a file, a link in the place of a directory that is
not empty, and one path as link and file. -/
def odd : List Rec := [⟨[f, b], .leaf 0o755⟩, ⟨[f], .file [1] 0o644 3⟩, ⟨[o], .link ['/', 'o'] 4⟩,
  ⟨[o], .file [2] 0o644 5⟩, ⟨[a], .link ['/'] 4⟩]

theorem odd_linkAt {q : Path} (h : LinkAt fs [t] odd q) : q = [o] ∨ q = [a] := by
  rcases h with ⟨tg, m, h⟩ | ⟨x, hx, rfl, tg, m, hk⟩
  · have := forall_get (fs := fs) (root := [t]) (P := fun _ e => e.isLink = false) (by decide) q _ h
    exact nomatch this
  · have h2 : ∀ x ∈ odd, (match x.kind with | .link _ _ => true | _ => false) = true →
        x.path = [o] ∨ x.path = [a] := by decide
    exact h2 x hx (by rw [hk])

theorem odd_tame : Tame fs [t] odd := by
  refine ⟨fit.taker, fit.top, fit.topNames, fit.above, fit.here, by decide, ?_⟩
  intro x hx q hq hl
  rcases odd_linkAt hl with rfl | rfl
  · have : ∀ x ∈ odd, [o].isPrefixOf x.path = true → [o] = x.path ∧ x.kind.follows = false := by decide
    exact this x hx (List.isPrefixOf_iff_prefix.2 hq)
  · have : ∀ x ∈ odd, [a].isPrefixOf x.path = true → [a] = x.path ∧ x.kind.follows = false := by decide
    exact this x hx (List.isPrefixOf_iff_prefix.2 hq)

end Case

example : get (run Case.rq Case.sch Case.fs Case.odd).fs [Case.o, Case.f] = some (.file [7] 0o600 1) := by
  rw [C99_confined_partial (rq := Case.rq) Case.odd_tame Case.fair _ (by decide)]
  decide

/-- C99 fails for listed paths with `..`: only directories are checked for it. -/
theorem C99_dotdot_counterexample :
    let l : List Rec := [⟨[], .leaf 0o755⟩, ⟨[dotdot, Case.a], .file [1] 0o755 3⟩]
    (run Case.rq Case.sch Case.fs l).ok = true ∧
    get Case.fs [Case.a] = none ∧
    get (run Case.rq Case.sch Case.fs l).fs [Case.a] = some (.file [1] 0o755 3) := by
  decide +kernel

/-- C99 fails with an honest giver, where the taker has a link to a directory in the place of a
directory of the giver: the files are made in the directory the link leads to. -/
theorem C99_taker_link_counterexample :
    let fs : FS := [([Case.t], .dir 0o755), ([Case.t, Case.l], .link ['/', 'o'] 1), ([Case.o], .dir 0o755)]
    let gfs : FS := [([Case.g], .dir 0o755), ([Case.g, Case.l], .dir 0o755),
      ([Case.g, Case.l, Case.f], .file [1] 0o644 3)]
    let l : List Rec := [⟨[Case.l], .leaf 0o755⟩, ⟨[Case.l, Case.f], .file [1] 0o644 3⟩, ⟨[], .mid 0o755⟩]
    Listing gfs [Case.g] l ∧ Tree gfs [Case.g] ∧ Tree fs [Case.t] ∧
    (run Case.rq Case.sch fs l).ok = true ∧
    get fs [Case.o, Case.f] = none ∧
    get (run Case.rq Case.sch fs l).fs [Case.o, Case.f] = some (.file [1] 0o644 3) := by
  intro fs gfs l
  refine ⟨⟨l.take 1, l.drop 1, rfl, by decide, by decide⟩, Case.tree (by decide) (by decide) (by decide),
    Case.tree (by decide) (by decide) (by decide), by decide +kernel, by decide +kernel, by decide +kernel⟩

/-- C99 fails with an honest giver, where the taker has a link that leads to nothing in the place
of an empty file of the giver: the file is made where the link leads. -/
theorem C99_dangling_link_counterexample :
    let fs : FS := [([Case.t], .dir 0o755), ([Case.t, Case.l], .link ['/', 'o', '/', 'f'] 1), ([Case.o], .dir 0o755)]
    let gfs : FS := [([Case.g], .dir 0o755), ([Case.g, Case.l], .file [] 0o644 3000000000)]
    let l : List Rec := [⟨[], .leaf 0o755⟩, ⟨[Case.l], .file [] 0o644 3000000000⟩]
    Listing gfs [Case.g] l ∧ Tree gfs [Case.g] ∧ Tree fs [Case.t] ∧
    (run Case.rq Case.sch fs l).ok = true ∧
    get fs [Case.o, Case.f] = none ∧
    get (run Case.rq Case.sch fs l).fs [Case.o, Case.f] = some (.file [] 0o600 3000000000) := by
  intro fs gfs l
  refine ⟨⟨l.take 1, l.drop 1, rfl, by decide, by decide⟩, Case.tree (by decide) (by decide) (by decide),
    Case.tree (by decide) (by decide) (by decide), by decide +kernel, by decide +kernel, by decide +kernel⟩

/-- C99 fails with a dishonest giver that lists a link and a file below it, whatever the taker
has: also in an empty target. -/
theorem C99_sent_link_counterexample :
    let fs : FS := [([Case.t], .dir 0o755), ([Case.o], .dir 0o755)]
    let l : List Rec := [⟨[Case.l], .link ['.', '.', '/', 'o'] 1⟩, ⟨[Case.l, Case.f], .file [1] 0o755 3⟩]
    (run Case.rq Case.sch fs l).ok = true ∧
    get fs [Case.o, Case.f] = none ∧
    get (run Case.rq Case.sch fs l).fs [Case.o, Case.f] = some (.file [1] 0o755 3) := by
  decide +kernel

/-- A directory listed with `..` is refused, and the refusal is reported. -/
example :
    let fs : FS := [([Case.t], .dir 0o755)]
    let l : List Rec := [⟨[dotdot, Case.a], .leaf 0o755⟩, ⟨[Case.f], .file [1] 0o755 3⟩]
    (run Case.rq Case.sch fs l).ok = false ∧ get (run Case.rq Case.sch fs l).fs [Case.a] = none ∧
    get (run Case.rq Case.sch fs l).fs [Case.t, Case.f] = none := by
  decide +kernel

/-- The taker's tree is the giver's, and files have the giver's time to the second. -/
structure Copied (fs : FS) (t : Path) (gfs : FS) (g : Path) : Prop where
  same : ∀ r, Same (get fs (t ++ r)) (get gfs (g ++ r))
  times : ∀ r d m mt d0 m0 mt0, get gfs (g ++ r) = some (.file d m mt) →
    get fs (t ++ r) = some (.file d0 m0 mt0) → second mt0 = second mt

/-- C100, in part: a sync into a target that holds the giver's tree, with file times the same to
the second, reports success, asks for no file, leaves every file with its bits and time, and
every directory and link (the target of it) there, and everything outside the target. Missing:
files with the giver's contents and another time are asked for in every sync
(`C100_touched_file_counterexample`). -/
theorem C100_nothing_to_do_partial {rq : Req} {fs gfs : FS} {g : Path} (taker : Tree fs rq.root)
    (giver : Tree gfs g) (giverDir : Dir gfs g) (top : rq.root ≠ [])
    (topNames : ∀ c ∈ rq.root, Proper c)
    (above : ∀ q, q ≠ [] → q <+: rq.root → q ≠ rq.root → Dir fs q)
    (noDots : ∀ r, Dir gfs (g ++ r) → startsDotdot r = false)
    (hc : Copied fs rq.root gfs g)
    {sch : Sched} (hsch : sch.Fair) {l : List Rec} (hl : Listing gfs g l) :
    (run rq sch fs l).ok = true ∧ (run rq sch fs l).asked = [] ∧
    (∀ p, ¬ rq.root <+: p → get (run rq sch fs l).fs p = get fs p) ∧
    (∀ r, Same (get (run rq sch fs l).fs (rq.root ++ r)) (get fs (rq.root ++ r))) ∧
    (∀ r d m mt, get fs (rq.root ++ r) = some (.file d m mt) →
      get (run rq sch fs l).fs (rq.root ++ r) = some (.file d m mt)) := by
  have hdir : ∀ r, Dir gfs (g ++ r) → Dir fs (rq.root ++ r) := by
    rintro r ⟨m, hm⟩
    have := hc.same r
    rw [hm] at this
    cases e : get fs (rq.root ++ r) with
    | none => rw [e] at this; exact this.elim
    | some y =>
      rw [e] at this
      cases y with
      | dir m' => exact ⟨m', e⟩
      | file _ _ _ => exact this.elim
      | link _ _ => exact this.elim
  have hfile : ∀ r d m mt, get gfs (g ++ r) = some (.file d m mt) →
      ∃ m0 mt0, get fs (rq.root ++ r) = some (.file d m0 mt0) := by
    intro r d m mt hm
    have := hc.same r
    rw [hm] at this
    cases e : get fs (rq.root ++ r) with
    | none => rw [e] at this; exact this.elim
    | some y =>
      rw [e] at this
      cases y with
      | dir _ => exact this.elim
      | file d' m' mt' =>
        have h : d' = d := this
        subst h
        exact ⟨m', mt', rfl⟩
      | link _ _ => exact this.elim
  have hlink : ∀ r tg m, get gfs (g ++ r) = some (.link tg m) →
      ∃ m0, get fs (rq.root ++ r) = some (.link tg m0) := by
    intro r tg m hm
    have := hc.same r
    rw [hm] at this
    cases e : get fs (rq.root ++ r) with
    | none => rw [e] at this; exact this.elim
    | some y =>
      rw [e] at this
      cases y with
      | dir _ => exact this.elim
      | file _ _ _ => exact this.elim
      | link tg' m' =>
        have h : tg' = tg := this
        subst h
        exact ⟨m', rfl⟩
  have hnone : ∀ r, get gfs (g ++ r) = none → get fs (rq.root ++ r) = none := by
    intro r hm
    have := hc.same r
    rw [hm] at this
    cases e : get fs (rq.root ++ r) with
    | none => rfl
    | some y => rw [e] at this; cases y <;> exact this.elim
  have hf : Fits fs rq.root gfs g := by
    refine ⟨taker, giver, giverDir, top, topNames, above, Or.inr ?_, noDots,
      fun r h => Or.inr (hdir r h), ?_, ?_⟩
    · have := hdir [] (by rw [List.append_nil]; exact giverDir)
      rwa [List.append_nil] at this
    · rintro r tg m h ⟨m', hm'⟩
      obtain ⟨m0, h0⟩ := hlink r tg m h
      rw [hm'] at h0
      exact nomatch h0
    · intro r d m mt h
      obtain ⟨m0, mt0, h0⟩ := hfile r d m mt h
      exact Or.inr ⟨_, _, _, h0⟩
  have hn : ∀ r d m mt, get gfs (g ++ r) = some (.file d m mt) →
      needs (get fs (rq.root ++ r)) d mt = false := by
    intro r d m mt h
    obtain ⟨m0, mt0, h0⟩ := hfile r d m mt h
    rw [h0]
    simp [needs, hc.times r d m mt d m0 mt0 h h0]
  have hr := run_result (rq := rq) hf hsch hl
  have hfk : ∀ r d m mt, get gfs (g ++ r) = some (.file d m mt) →
      get (run rq sch fs l).fs (rq.root ++ r) = get fs (rq.root ++ r) :=
    fun r d m mt h => hr.fileKept r d m mt h (Or.inl (hn r d m mt h))
  have hnk : ∀ r, get gfs (g ++ r) = none →
      get (run rq sch fs l).fs (rq.root ++ r) = none := by
    intro r h
    cases hd : rq.dry with
    | true => rw [hr.kept hd r h, hnone r h]
    | false => exact hr.gone hd r h
  refine ⟨hr.ok, ?_, hr.outside, ?_, ?_⟩
  · apply List.eq_nil_iff_forall_not_mem.2
    intro x hx
    obtain ⟨d, m, mt, _, h1, h2⟩ := hr.asked x hx
    rw [hn _ d m mt h1] at h2
    exact nomatch h2
  · intro r
    cases e : get gfs (g ++ r) with
    | none => rw [hnk r e, hnone r e]; trivial
    | some y =>
      cases y with
      | dir m =>
        obtain ⟨m', hm'⟩ := hdir r ⟨m, e⟩
        rw [hm']
        by_cases hs : ∃ c, Dir gfs (g ++ (r ++ [c]))
        · obtain ⟨c, hc⟩ := hs
          rw [hr.midDir r m c e hc]; trivial
        · rw [hr.leafDir r m e (fun c hc => hs ⟨c, hc⟩), hm']; trivial
      | link tg mt =>
        obtain ⟨m0, h0⟩ := hlink r tg mt e
        rw [hr.link r tg mt e]
        rcases linkEff_cases (get fs (rq.root ++ r)) tg mt with h | h <;> rw [h, h0] <;> rfl
      | file d m mt =>
        obtain ⟨m0, mt0, h0⟩ := hfile r d m mt e
        rw [hfk r d m mt e, h0]; rfl
  · intro r d m mt h
    cases e : get gfs (g ++ r) with
    | none => rw [hnone r e] at h; exact nomatch h
    | some y =>
      cases y with
      | dir m' =>
        obtain ⟨m0, h0⟩ := hdir r ⟨m', e⟩
        rw [h] at h0
        exact nomatch h0
      | link tg mt' =>
        obtain ⟨m0, h0⟩ := hlink r tg mt' e
        rw [h] at h0
        exact nomatch h0
      | file d' m' mt' => rw [hfk r d' m' mt' e, h]

example : Copied (run Case.rq Case.sch Case.fs Case.list).fs [Case.t] Case.gfs [Case.g] := by
  have hcur : Current Case.fs [Case.t] Case.gfs [Case.g] := by
    intro r d m mt d0 m0 mt0 hg h
    have := Case.forall_get (fs := Case.fs) (root := [Case.t])
      (P := fun r e => e = .file [] 0o600 17 ∨ r = [Case.o] ∨ e.isDir = true) (by decide) r _ h
    rcases this with h1 | rfl | h1
    · simp only [Entry.file.injEq] at h1
      exact Or.inl h1.1
    · rw [show get Case.gfs ([Case.g] ++ [Case.o]) = none by decide] at hg
      exact nomatch hg
    · exact nomatch h1
  refine ⟨(C96_copies_partial (rq := Case.rq) Case.fit Case.fair Case.listing rfl hcur).2, ?_⟩
  intro r d m mt d0 m0 mt0 hg h
  have := Case.forall_get (fs := Case.gfs) (root := [Case.g])
    (P := fun r e => r = [Case.a, Case.f] ∧ e = .file [1, 2, 3] 0o644 5000000007 ∨ e.isDir = true ∨
      e.isLink = true) (by decide) r _ hg
  rcases this with ⟨rfl, h1⟩ | h1 | h1
  · rw [show get (run Case.rq Case.sch Case.fs Case.list).fs ([Case.t] ++ [Case.a, Case.f]) =
      some (.file [1, 2, 3] 0o644 5000000007) by decide +kernel] at h
    simp only [Option.some.injEq, Entry.file.injEq] at h h1
    rw [← h.2.2, ← h1.2.2]
  · exact nomatch h1
  · exact nomatch h1

/-- C100, in part, for two syncs one after the other, the first from a state where every file
the taker has is empty or has the giver's contents and time: the second asks for nothing and
leaves every entry, bits and times included. -/
theorem C100_twice_partial {rq : Req} {fs gfs : FS} {g : Path} (hf : Fits fs rq.root gfs g)
    {sch sch' : Sched} (hsch : sch.Fair) (hsch' : sch'.Fair) {l l' : List Rec}
    (hl : Listing gfs g l) (hl' : Listing gfs g l') (hcur : Current fs rq.root gfs g) :
    (run rq sch' (run rq sch fs l).fs l').ok = true ∧
    (run rq sch' (run rq sch fs l).fs l').asked = [] ∧
    ∀ p, get (run rq sch' (run rq sch fs l).fs l').fs p = get (run rq sch fs l).fs p := by
  have h1 := run_result (rq := rq) hf hsch hl
  have hf1 := h1.fits hf (run_keys hf.taker.keys)
  generalize run rq sch fs l = o at h1 hf1 ⊢
  have h2 := run_result (rq := rq) hf1 hsch' hl'
  have hn : ∀ r d m mt, get gfs (g ++ r) = some (.file d m mt) →
      needs (get o.fs (rq.root ++ r)) d mt = false := by
    intro r d m mt hg
    cases hn : needs (get fs (rq.root ++ r)) d mt with
    | true => rw [h1.fileNew (hcur.fresh hf) r d m mt hg hn]; simp [needs]
    | false => rw [h1.fileKept r d m mt hg (Or.inl hn)]; exact hn
  refine ⟨h2.ok, ?_, ?_⟩
  · apply List.eq_nil_iff_forall_not_mem.2
    intro x hx
    obtain ⟨d, m, mt, _, k1, k2⟩ := h2.asked x hx
    rw [hn _ d m mt k1] at k2
    exact nomatch k2
  · intro p
    by_cases hp : rq.root <+: p
    · obtain ⟨r, rfl⟩ := hp
      cases e : get gfs (g ++ r) with
      | none =>
        cases hd : rq.dry with
        | true => exact h2.kept hd r e
        | false => rw [h2.gone hd r e, h1.gone hd r e]
      | some y =>
        cases y with
        | dir m =>
          by_cases hs : ∃ c, Dir gfs (g ++ (r ++ [c]))
          · obtain ⟨c, hc⟩ := hs
            rw [h2.midDir r m c e hc, h1.midDir r m c e hc]
          · rw [h2.leafDir r m e (fun c hc => hs ⟨c, hc⟩), h1.leafDir r m e (fun c hc => hs ⟨c, hc⟩)]
            rfl
        | link tg mt =>
          rw [h2.link r tg mt e, h1.link r tg mt e, linkEff_twice]
        | file d m mt => exact h2.fileKept r d m mt e (Or.inl (hn r d m mt e))
    · exact h2.outside p hp

example : (run Case.rq Case.sch (run Case.rq Case.sch Case.fs Case.list).fs Case.list).asked = [] ∧
    (run Case.rq Case.sch Case.fs Case.list).asked ≠ [] := by
  decide +kernel

/-- C100 fails for every file the taker has with the giver's contents and another time: it is
asked for in this sync, and in the next, and keeps its time. -/
theorem C100_touched_file_counterexample {rq : Req} {fs gfs : FS} {g : Path}
    (hf : Fits fs rq.root gfs g) {sch : Sched} (hsch : sch.Fair) {l : List Rec}
    (hl : Listing gfs g l) {r : Path} {d : List UInt8} {m mt m0 mt0 : Nat}
    (hg : get gfs (g ++ r) = some (.file d m mt))
    (h0 : get fs (rq.root ++ r) = some (.file d m0 mt0)) (hne : d ≠ [])
    (hsec : second mt0 ≠ second mt) :
    ⟨r, .file d m mt⟩ ∈ (run rq sch fs l).asked ∧
    get (run rq sch fs l).fs (rq.root ++ r) = some (.file d m0 mt0) ∧
    Fits (run rq sch fs l).fs rq.root gfs g := by
  have hr := run_result (rq := rq) hf hsch hl
  refine ⟨hr.asks r d m mt hg (by rw [h0]; simp [needs, hsec]),
    (C96_changed_file_counterexample hf hsch hl hg h0 hne).2, hr.fits hf (run_keys hf.taker.keys)⟩

/-- The giver's f was touched. -/
example := C100_touched_file_counterexample (rq := Case.rq) (sch := Case.sch)
  (gfs := [([Case.g], .dir 0o755), ([Case.g, Case.f], .file [1] 0o644 9000000000)])
  (fs := [([Case.t], .dir 0o755), ([Case.t, Case.f], .file [1] 0o644 8000000000)])
  (g := [Case.g]) (l := [⟨[], .leaf 0o755⟩, ⟨[Case.f], .file [1] 0o644 9000000000⟩])
  (Case.fits (Case.tree (by decide) (by decide) (by decide))
    (Case.tree (by decide) (by decide) (by decide)) (by decide) (by decide) (by decide) (by decide))
  Case.fair ⟨[⟨[], .leaf 0o755⟩], [⟨[Case.f], .file [1] 0o644 9000000000⟩], rfl, by decide, by decide⟩
  (r := [Case.f]) (d := [1]) (m := 0o644) (mt := 9000000000) (m0 := 0o644) (mt0 := 8000000000)
  (by decide) (by decide) (by decide) (by decide)

end Verif.DirSync
