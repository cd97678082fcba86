import Verif.Proofs.CzarKeep
/-
What a ping is answered with (C92); what a member that accepts an answer was told (C95).
-/
namespace Verif.Czar
open Verif.KV (Key Store Leaf Ticket lookup put erase leafOf doCAS Sorted)

theorem lookup_isSome_of_mem {β : Type} {m : List (Key × β)} {x : Key × β} (h : x ∈ m) : lookup m x.1 ≠ none := by
  induction m with
  | nil => cases h
  | cons y m ih =>
    obtain ⟨k, v⟩ := y
    simp only [lookup]
    split
    · simp
    · rename_i e
      rcases List.mem_cons.1 h with rfl | h
      · exact absurd rfl e
      · exact ih h

theorem detailsChanged_false {a b : Det} (h : detailsChanged a b = false) : { a with pid := b.pid } = b := by
  unfold detailsChanged at h
  simp at h
  obtain ⟨⟨⟨⟨h1, h2⟩, h3⟩, h4⟩, h5⟩ := h
  cases a; cases b
  simp_all

theorem silentNames_nil {c : Cfg} {me : Key} {m : Mem} {now : Int}
    (h : ∀ x ∈ m.members.peers, x.1 ≠ me → 0 < x.2.until_ ∧ now ≤ x.2.until_ + c.drift) :
    silentNames c me m now = [] := by
  cases e : silentNames c me m now with
  | nil => rfl
  | cons n ns =>
    exfalso
    obtain ⟨p, hp, hsil⟩ := mem_silentNames (e ▸ List.mem_cons_self : n ∈ silentNames c me m now)
    have h1 := silent_true hsil
    have := h _ hp h1.1
    simp only at this
    omega

theorem touch_heard {c : Cfg} {me : Key} {m : Mem} {d : Det} {now : Int} :
    lookup (touch c me m d now).heard d.name = some now := by
  unfold touch
  simp only
  by_cases e : d.name = me
  · rw [e, KV.lookup_put_same]
  · rw [KV.lookup_put_other _ _ e, KV.lookup_put_same]

theorem answer_has_caller {c : Cfg} {me : Key} {m : Mem} {d : Det} {now now2 : Int} {m' us v}
    (h : handlePing c me m d now now2 = some (m', us, some v)) (hs : Sorted m.members.peers)
    (hdur : 0 ≤ c.memDur) (hnow : 0 < now)
    (hlive : ∀ x ∈ m.members.peers, 0 < x.2.until_ ∧ (x.1 ≠ d.name → now ≤ x.2.until_ + c.drift)) :
    ∃ p, lookup v.2.peers d.name = some p ∧ p.until_ = now + c.memDur ∧ p.dur = c.memDur ∧
      { p.det with pid := d.pid } = d := by
  have hgone : silentNames c me (touch c me m d now) now = [] := by
    cases e : silentNames c me (touch c me m d now) now with
    | nil => rfl
    | cons n ns =>
      exfalso
      obtain ⟨p, hp, hsil⟩ := mem_silentNames (e ▸ List.mem_cons_self : n ∈ silentNames c me (touch c me m d now) now)
      have hp' : (n, p) = (d.name, { ((lookup m.members.peers d.name).getD {}) with until_ := now + c.memDur, dur := c.memDur }) ∨
          (n, p) ∈ m.members.peers := by
        unfold touch at hp
        simp only at hp
        split at hp
        · exact Or.inr hp
        · exact KV.mem_put hp
      have hpos : 0 < p.until_ := by
        rcases hp' with e | e
        · cases e; simp only; omega
        · exact (hlive _ e).1
      by_cases en : n = d.name
      · subst en
        unfold silent at hsil
        split at hsil
        · cases hsil
        · simp only [touch_heard] at hsil
          simp at hsil
          omega
      · have h1 := silent_true hsil
        rcases hp' with e | e
        · cases e; exact en rfl
        · have := (hlive _ e).2 en
          simp only at this
          omega
  unfold handlePing at h
  split at h
  · cases h
  split at h
  · cases h
  simp only [hgone] at h
  split at h
  · rename_i hc
    cases h
    have hf := hc.2
    have : ∃ p, lookup m.members.peers d.name = some p ∧ detailsChanged p.det d = false := by
      unfold isNew at hf
      split at hf
      · cases hf
      · rename_i p hp; exact ⟨p, hp, hf⟩
    obtain ⟨p, hp, hd⟩ := this
    refine ⟨Plus.clone { p with until_ := now + c.memDur, dur := c.memDur }, ?_, rfl, rfl, ?_⟩
    · simp only [lookup_clone]
      unfold touch
      simp only [hf]
      rw [if_neg (by simp), KV.lookup_put_same, hp]
      rfl
    · exact detailsChanged_false hd
  · rw [Option.map_eq_some_iff] at h
    obtain ⟨q, hq, e⟩ := h
    cases e
    obtain ⟨m2, us2⟩ := q
    rw [if_pos trivial] at hq
    obtain ⟨-, -, h3, -⟩ := setVers_some hq
    simp only at h3 ⊢
    rw [h3]
    simp only
    rw [lookup_clone, lookup_clone]
    unfold withCaller
    simp only
    rw [KV.lookup_put_same]
    exact ⟨_, rfl, rfl, rfl, rfl⟩

theorem answer_lacks_caller {c : Cfg} {me : Key} {m : Mem} {d : Det} {now now2 : Int} {m' us v} {x : Key × Plus} {h0 : Int}
    (h : handlePing c me m d now now2 = some (m', us, some v)) (hnew : lookup m.members.peers d.name = none)
    (hx : x ∈ m.members.peers) (hme : x.1 ≠ me) (hh : lookup m.heard x.1 = some h0) (h1 : c.memDur < now - h0)
    (h2 : x.2.until_ + c.drift < now) : lookup v.2.peers d.name = none := by
  have hn : isNew m d = true := by unfold isNew; rw [hnew]
  have hxd : x.1 ≠ d.name := by
    intro e
    have := lookup_isSome_of_mem hx
    rw [e] at this
    exact this hnew
  have hpe : (touch c me m d now).members.peers = m.members.peers := by
    unfold touch; simp only [hn]; rfl
  have hgone : x.1 ∈ silentNames c me (touch c me m d now) now := by
    unfold silentNames
    refine List.mem_map.2 ⟨x, List.mem_filter.2 ⟨by rw [hpe]; exact hx, ?_⟩, rfl⟩
    unfold silent
    rw [if_neg hme]
    have : lookup (touch c me m d now).heard x.1 = some h0 := by
      unfold touch
      simp only
      rw [KV.lookup_put_other _ _ hme, KV.lookup_put_other _ _ hxd, hh]
    rw [this]
    simp
    exact Or.inr ⟨h1, h2⟩
  have hne : silentNames c me (touch c me m d now) now ≠ [] := by
    intro e; rw [e] at hgone; cases hgone
  unfold handlePing at h
  split at h
  · cases h
  split at h
  · cases h
  simp only at h
  split at h
  · rename_i e; exact absurd e.1 hne
  · rw [Option.map_eq_some_iff] at h
    obtain ⟨q, hq, e⟩ := h
    cases e
    obtain ⟨m2, us2⟩ := q
    obtain ⟨-, -, h3, -⟩ := setVers_some hq
    simp only at h3 ⊢
    rw [h3]
    simp only
    rw [lookup_clone, lookup_clone, withoutNames_lookup, hpe, hnew]
    split <;> rfl

theorem answer_no_dur {c : Cfg} {me : Key} {m : Mem} {d : Det} {now now2 : Int} {m' us v}
    (h : handlePing c me m d now now2 = some (m', us, some v)) : v.2.leaseDur = 0 := by
  rcases handlePing_cases h with h1 | h1 | h1 <;> rfl

theorem SortedAll.reach {c s} (hs : Sane c) (h : Reach c s) : SortedAll s := (Kept.reach hs h).1

/-! ### C95 -/

theorem hashOf_told {v w : View} (h : told v = told w) : hashOf v.2 v.1 = hashOf w.2 w.1 := by
  unfold told at h
  simp only [Prod.mk.injEq] at h
  obtain ⟨⟨h1, h2⟩, h3, h4, h5⟩ := h
  unfold hashOf
  have e : ∀ l : List (Key × Plus), (l.flatMap fun x => x.1 ++ x.2.det.peerID) =
      (l.map fun x => (x.1, x.2.det.peerID)).flatMap fun y => y.1 ++ y.2 := by
    intro l; rw [List.flatMap_map]
  rw [e, e, h1, h2, h3, h4, h5]

theorem accepted {c : Cfg} {d : Det} {m : Mem} {v : View} {now now2 : Int} (h : Accepts c d m v now now2) :
    (onReply c d m v now now2).1.vers = v.1 ∧ (onReply c d m v now now2).1.hash = some (hashOf v.2 v.1) := by
  obtain ⟨h1, h2, h3⟩ := h
  have key : ∀ m0 : Mem, m0.vers = m.vers → ∃ us m', setVers m0 v.1 v.2 true now2 = some (m', us) ∧ m'.vers = v.1 ∧
      m'.hash = some (hashOf v.2 v.1) := by
    intro m0 e
    unfold setVers
    rw [if_neg (by omega), if_neg (by rw [e]; exact fun h => versionCompare_lt.1 h h1)]
    exact ⟨_, _, rfl, rfl, rfl⟩
  unfold onReply
  split
  · obtain ⟨us, m', e, a, b⟩ := key { m with conn := true } rfl
    simp only [e]
    exact ⟨a, b⟩
  · rename_i hc
    have hc : m.conn = true := by simpa using hc
    obtain ⟨h4, h5⟩ := h3 hc
    split
    · rename_i e; exact absurd e h4
    · rw [if_neg (by omega)]
      obtain ⟨us, m', e, a, b⟩ := key m rfl
      simp only [e]
      exact ⟨a, b⟩

theorem run_append {c : Cfg} : ∀ {xs ys : List (Nat × Nat × Act)} {s s1 : Sys}, run c s xs = some s1 →
    run c s (xs ++ ys) = run c s1 ys
  | [], ys, s, s1, h => by cases h; rfl
  | x :: xs, ys, s, s1, h => by
    rw [List.cons_append]
    simp only [run] at h ⊢
    cases e : step c s x with
    | none => rw [e] at h; cases h
    | some s2 => rw [e] at h; exact run_append h

theorem reach_step {c : Cfg} {s s' : Sys} {x} (h : Reach c s) (he : step c s x = some s') : Reach c s' := by
  obtain ⟨xs, hx⟩ := h
  refine ⟨xs ++ [x], ?_⟩
  rw [run_append hx]
  unfold run
  rw [he]
  rfl

theorem served_step {c : Cfg} {s s' : Sys} {t t2 j k i : Nat} {d : Det} {v : View}
    (h : step c s (t, t2, .serve j k) = some s') (hp : s.pings[k]? = some (i, d))
    (hv : s'.served = s.served ++ [(j, t, v)]) :
    ∃ m' us, handlePing c (c.det j).name (s.mem j) d (c.clk j t) (c.clk j t2) = some (m', us, some v) := by
  obtain ⟨-, -, s1, h1, rfl⟩ := step_inv h
  unfold event at h1
  simp only [hp] at h1
  split at h1
  · split at h1
    · cases h1
      simp [Sys.put] at hv
    · rename_i m' us r hq
      cases h1
      simp only [List.append_cancel_left_eq] at hv
      cases r with
      | none => simp at hv
      | some w =>
        simp at hv
        subst hv
        exact ⟨m', us, hq⟩
  · cases h1

end Verif.Czar
