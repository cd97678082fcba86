import Verif.Proofs.DirSyncPrune
/-
A second sync: the state left by a sync meets the conditions of the next.
-/
namespace Verif.DirSync

/-- Every path is there once. -/
def Keys (fs : FS) : Prop := (fs.map (·.1)).Nodup

theorem Keys.filter {fs : FS} (h : Keys fs) (f : Path × Entry → Bool) : Keys (fs.filter f) := by
  unfold Keys at *
  exact h.sublist (List.filter_sublist.map _)

theorem Keys.del {fs : FS} (h : Keys fs) (p : Path) : Keys (del fs p) := h.filter _

theorem Keys.delBelow {fs : FS} (h : Keys fs) (p : Path) : Keys (delBelow fs p) := h.filter _

theorem Keys.set {fs : FS} (h : Keys fs) (p : Path) (e : Entry) : Keys (set fs p e) := by
  have := h.del p
  unfold Keys DirSync.set at *
  rw [List.map_cons, List.nodup_cons]
  refine ⟨?_, this⟩
  intro hm
  obtain ⟨x, hx, hxp⟩ := List.mem_map.1 hm
  have := (List.mem_filter.1 hx).2
  simp at this
  exact this hxp

theorem Keys.mkdirGo {cs : List Name} : ∀ {fs fs' : FS} {cur : Path}, Keys fs →
    mkdirGo fs cur cs = some fs' → Keys fs' := by
  induction cs with
  | nil => intro fs fs' cur h e; rw [DirSync.mkdirGo] at e; simp only [Option.some.injEq] at e; exact e ▸ h
  | cons c cs ih =>
    intro fs fs' cur h e
    rw [DirSync.mkdirGo] at e
    split at e
    · exact ih h e
    · exact nomatch e
    · split at e
      · split at e
        · exact ih (h.set _ _) e
        · exact nomatch e
      · exact nomatch e

theorem Keys.chmod {fs fs' : FS} {p : Path} {m : Nat} (h : Keys fs) (e : chmod fs p m = some fs') :
    Keys fs' := by
  unfold DirSync.chmod at e
  split at e
  · split at e
    · simp only [Option.some.injEq] at e; exact e ▸ h.set _ _
    · simp only [Option.some.injEq] at e; exact e ▸ h.set _ _
    · exact nomatch e
  · exact nomatch e

theorem Keys.remove {fs : FS} (h : Keys fs) (p : Path) : Keys (remove fs p) := by
  unfold DirSync.remove
  split
  · split
    · split
      · exact h
      · exact h.del _
    · exact h.del _
  · exact h

theorem Keys.removeAll {fs : FS} (h : Keys fs) (p : Path) : Keys (removeAll fs p) := by
  unfold DirSync.removeAll
  split
  · split
    · exact h
    · exact h.delBelow _
  · exact h

theorem Keys.lutimes {fs : FS} (h : Keys fs) (p : Path) (m : Nat) : Keys (lutimes fs p m) := by
  unfold DirSync.lutimes
  split
  · split
    · exact h.set _ _
    · exact h
  · exact h

theorem Keys.symlink {fs fs' : FS} {p : Path} {t : List Char} {m : Nat} (h : Keys fs)
    (e : symlink fs p t m = some fs') : Keys fs' := by
  unfold DirSync.symlink at e
  split at e
  · split at e
    · simp only [Option.some.injEq] at e; exact e ▸ h.set _ _
    · exact nomatch e
  · exact nomatch e

theorem Keys.writeLink {fs fs' : FS} {p : Path} {t : List Char} {m : Nat} (h : Keys fs)
    (e : writeLink fs p t m = some fs') : Keys fs' := by
  unfold DirSync.writeLink at e
  cases e1 : DirSync.symlink (DirSync.remove fs p) p t m with
  | none => rw [e1] at e; exact nomatch e
  | some b =>
    rw [e1] at e
    simp only [Option.map_some, Option.some.injEq] at e
    exact e ▸ ((h.remove p).symlink e1).lutimes _ _

theorem Keys.takeLink {fs fs' : FS} {p : Path} {t : List Char} {m : Nat} (h : Keys fs)
    (e : takeLink fs p t m = some fs') : Keys fs' := by
  unfold DirSync.takeLink at e
  split at e
  · split at e
    · exact h.writeLink e
    · split at e
      · simp only [Option.some.injEq] at e; exact e ▸ h.lutimes _ _
      · simp only [Option.some.injEq] at e; exact e ▸ h
  · exact h.writeLink e

theorem Keys.take {rq : Req} {s : St} {x : Rec} (h : Keys s.fs) : Keys (take rq s x).fs := by
  unfold DirSync.take
  split
  · exact h
  · split
    · split
      · exact h
      · split
        · rename_i e; exact h.mkdirGo e
        · exact h
    · split
      · rename_i e; exact h.chmod e
      · exact h
    · split
      · rename_i e; exact h.takeLink e
      · exact h.remove _
    · split
      · exact h
      · exact h

theorem Keys.transfer {rq : Req} {fs fs' : FS} {x : Rec} (h : Keys fs)
    (e : transfer rq fs x = some fs') : Keys fs' := by
  unfold DirSync.transfer at e
  split at e
  · split at e
    · exact nomatch e
    · exact nomatch e
    · exact nomatch e
    · split at e
      · split at e
        · exact nomatch e
        · simp only [Option.some.injEq] at e; exact e ▸ h.set _ _
      · exact nomatch e
  · simp only [Option.some.injEq] at e; exact e ▸ h

theorem Keys.update {rq : Req} {skip : Rec → Bool} {u : Up} {x : Rec} (h : Keys u.fs) :
    Keys (update rq skip u x).fs := by
  unfold DirSync.update
  split
  · exact h
  · split
    · rename_i e; exact h.transfer e
    · exact h

theorem Keys.prune {rq : Req} {listed : List (List Name)} {fs : FS} {c : Path × Bool} (h : Keys fs) :
    Keys (prune rq listed fs c) := by
  unfold DirSync.prune
  split
  · exact h
  · split
    · exact h.removeAll _
    · exact h.remove _

theorem foldl_inv {α β : Type} {P : α → Prop} {f : α → β → α} {l : List β}
    (hf : ∀ a b, P a → P (f a b)) : ∀ {a : α}, P a → P (l.foldl f a) := by
  induction l with
  | nil => intro a h; exact h
  | cons b l ih => intro a h; exact ih (hf a b h)

theorem run_keys {rq : Req} {sch : Sched} {fs : FS} {l : List Rec} (h : Keys fs) :
    Keys (run rq sch fs l).fs := by
  have h1 : Keys (l.foldl (DirSync.take rq) { fs := fs }).fs :=
    foldl_inv (P := fun s : St => Keys s.fs) (fun a b ha => ha.take) h
  unfold run
  dsimp only
  split
  · exact h1
  · refine foldl_inv (P := Keys) (fun a b ha => ha.prune) ?_
    exact foldl_inv (P := fun u : Up => Keys u.fs) (fun a b ha => ha.update) h1

variable {rq : Req} {fs gfs : FS} {g : Path}

/-- The taker's state after a sync is again one a sync can start from. -/
theorem Result.fits (hf : Fits fs rq.root gfs g) {o : Out} (hr : Result rq fs gfs g o)
    (hk : Keys o.fs) : Fits o.fs rq.root gfs g := by
  have hdir : ∀ r, Dir gfs (g ++ r) → Dir o.fs (rq.root ++ r) := by
    rintro r ⟨m, hm⟩
    by_cases hs : ∃ c, Dir gfs (g ++ (r ++ [c]))
    · obtain ⟨c, hc⟩ := hs
      exact ⟨m, hr.midDir r m c hm hc⟩
    · have h1 := hr.leafDir r m hm (fun c hc => hs ⟨c, hc⟩)
      rcases hf.dirs r ⟨m, hm⟩ with h | ⟨m', h⟩
      · rw [h] at h1; exact ⟨_, h1⟩
      · rw [h] at h1; exact ⟨_, h1⟩
  have hnone : ∀ r, get gfs (g ++ r) = none → get o.fs (rq.root ++ r) ≠ none →
      get o.fs (rq.root ++ r) = get fs (rq.root ++ r) ∧ rq.dry = true := by
    intro r h1 h2
    cases hd : rq.dry with
    | true => exact ⟨hr.kept hd r h1, rfl⟩
    | false => exact absurd (hr.gone hd r h1) h2
  constructor
  · constructor
    · exact hk
    · intro r h
      by_cases hg : get gfs (g ++ r) = none
      · rw [(hnone r hg h).1] at h
        exact hf.taker.names r h
      · exact hf.giver.names r hg
    · intro r c h
      by_cases hg : get gfs (g ++ (r ++ [c])) = none
      · obtain ⟨h1, hdry⟩ := hnone _ hg h
        rw [h1] at h
        obtain ⟨m, hm⟩ := hf.taker.parents r c h
        cases e : get gfs (g ++ r) with
        | none => exact ⟨m, by rw [hr.kept hdry r e]; exact hm⟩
        | some x =>
          cases x with
          | dir m' => exact hdir r ⟨m', e⟩
          | file d m' mt =>
            rcases hf.files r d m' mt e with h2 | ⟨_, _, _, h2⟩ <;> rw [hm] at h2 <;> exact nomatch h2
          | link tg m' => exact absurd ⟨m, hm⟩ (hf.links r tg m' e)
      · exact hdir r (hf.giver.parents r c hg)
  · exact hf.giver
  · exact hf.giverDir
  · exact hf.top
  · exact hf.topNames
  · intro q hq hpre hne
    unfold Dir
    rw [hr.outside q]
    · exact hf.above q hq hpre hne
    · intro h
      have h1 := h.length_le
      have h2 := hpre.length_le
      exact hne (hpre.eq_of_length (by omega))
  · right
    have := hdir [] (by rw [List.append_nil]; exact hf.giverDir)
    rwa [List.append_nil] at this
  · exact hf.noDots
  · intro r h; exact Or.inr (hdir r h)
  · intro r tg m h
    rintro ⟨m', hm'⟩
    have := hr.link r tg m h
    rw [hm'] at this
    simp only [Option.some.injEq] at this
    unfold linkEff at this
    split at this
    · split at this <;> exact nomatch this
    · exact nomatch this
  · intro r d m mt h
    rcases hr.fileAny r d m mt h with h1 | h1
    · rw [h1]; exact hf.files r d m mt h
    · exact Or.inr ⟨_, _, _, h1⟩

theorem linkEff_cases (c : Option Entry) (tg : List Char) (mt : Nat) :
    linkEff c tg mt = .link tg mt ∨ linkEff c tg mt = .link tg (micro mt) := by
  unfold linkEff
  split
  · split
    · rename_i h; left; rw [h.2]
    · exact Or.inr rfl
  · exact Or.inr rfl

theorem linkEff_twice (c : Option Entry) (tg : List Char) (mt : Nat) :
    linkEff (some (linkEff c tg mt)) tg mt = linkEff c tg mt := by
  rcases linkEff_cases c tg mt with h | h <;> rw [h]
  · simp [linkEff]
  · by_cases h2 : micro mt = mt <;> simp [linkEff, h2]

end Verif.DirSync
