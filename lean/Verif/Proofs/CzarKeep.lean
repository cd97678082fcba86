import Verif.Proofs.CzarTake
/-
Members stay in the czar's list while their leases run (C93); what a ping is answered with (C92).
-/
namespace Verif.Czar
open Verif.KV (Key Store Leaf Ticket lookup put erase leafOf doCAS Sorted)

/-! ### Lists are sorted -/

theorem sorted_filter {β : Type} {m : List (Key × β)} {f : Key × β → Bool} (h : Sorted m) : Sorted (m.filter f) :=
  List.Pairwise.sublist List.filter_sublist h

theorem sorted_map {β γ : Type} {m : List (Key × β)} {f : β → γ} (h : Sorted m) : Sorted (m.map fun x => (x.1, f x.2)) := by
  unfold Sorted at *
  rw [List.pairwise_map]
  exact h

theorem sorted_clone {l : RList} (h : Sorted l.peers) : Sorted l.clone.peers := sorted_map h

structure SortedAll (s : Sys) : Prop where
  mem : ∀ i, Sorted (s.mem i).members.peers
  reqs : ∀ q ∈ s.reqs, Sorted q.list.peers
  cur : Sorted s.cur.peers
  ans : ∀ x ∈ s.ans, Sorted x.2.2.peers
  rep : ∀ x ∈ s.replies, Sorted x.2.2.peers

theorem SortedAll.put {s s' : Sys} {i m'} (h : SortedAll s) (hm : s'.mem = upd s.mem i m') (h1 : Sorted m'.members.peers)
    (hr : ∀ q ∈ s'.reqs, q ∈ s.reqs ∨ Sorted q.list.peers) (hc : s'.cur = s.cur) (ha : s'.ans = s.ans)
    (hp : ∀ x ∈ s'.replies, x ∈ s.replies ∨ Sorted x.2.2.peers) : SortedAll s' := by
  refine ⟨?_, ?_, by rw [hc]; exact h.cur, by rw [ha]; exact h.ans, ?_⟩
  · intro j
    rw [hm]
    unfold upd
    split
    · exact h1
    · exact h.mem j
  · intro q hq
    rcases hr q hq with e | e
    · exact h.reqs q e
    · exact e
  · intro x hx
    rcases hp x hx with e | e
    · exact h.rep x e
    · exact e

theorem setVers_sorted {m : Mem} {v l u now m' us} (h : setVers m v l u now = some (m', us)) (hl : Sorted l.peers) :
    Sorted m'.members.peers := by
  obtain ⟨-, -, h3, -⟩ := setVers_some h
  rw [h3]; exact sorted_clone hl

theorem touch_sorted {c : Cfg} {me : Key} {m : Mem} {d : Det} {now : Int} (h : Sorted m.members.peers) :
    Sorted (touch c me m d now).members.peers := by
  unfold touch
  simp only
  split
  · exact h
  · exact KV.sorted_put h

theorem withoutNames_sorted {m : Mem} {ks : List Key} (h : Sorted m.members.peers) : Sorted (withoutNames m ks).peers :=
  sorted_filter (sorted_clone h)

theorem handlePing_sorted {c : Cfg} {me : Key} {m : Mem} {d : Det} {now now2 : Int} {m' us r}
    (h : handlePing c me m d now now2 = some (m', us, r)) (hm : Sorted m.members.peers) :
    Sorted m'.members.peers ∧ ∀ v, r = some v → Sorted v.2.peers := by
  unfold handlePing at h
  split at h
  · cases h; exact ⟨hm, (fun v e => nomatch e)⟩
  split at h
  · cases h; exact ⟨hm, (fun v e => nomatch e)⟩
  simp only at h
  split at h
  · cases h
    refine ⟨touch_sorted hm, ?_⟩
    intro v e; cases e
    exact sorted_clone (touch_sorted hm)
  · rw [Option.map_eq_some_iff] at h
    obtain ⟨q, hq, e⟩ := h
    cases e
    obtain ⟨m2, us2⟩ := q
    have : Sorted m2.members.peers := by
      refine setVers_sorted hq ?_
      split
      · exact KV.sorted_put (sorted_clone hm)
      · exact withoutNames_sorted (touch_sorted hm)
    refine ⟨this, ?_⟩
    intro v e; cases e
    exact sorted_clone this

theorem bidList_sorted {d : Det} {m : Mem} (h : Sorted m.members.peers) : Sorted (bidList d m).peers :=
  KV.sorted_erase (KV.sorted_erase (sorted_clone h))

theorem onBid_sorted {c : Cfg} {d : Det} {m : Mem} {a : Ticket} {bid cur : RList} {now now2 : Int}
    (h1 : Sorted m.members.peers) (h2 : Sorted bid.peers) (h3 : Sorted cur.peers) :
    Sorted (onBid c d m a bid cur now now2).1.members.peers := by
  unfold onBid
  split
  · split
    · exact h1
    · split
      · exact h1
      · rename_i hv
        exact setVers_sorted hv h2
  · exact h1
  · split
    · exact h1
    · split
      · exact h1
      · rename_i hv
        exact setVers_sorted hv h3

theorem onReply_sorted {c : Cfg} {d : Det} {m : Mem} {v : View} {now now2 : Int}
    (h1 : Sorted m.members.peers) (h2 : Sorted v.2.peers) : Sorted (onReply c d m v now now2).1.members.peers := by
  cases hr : onReply c d m v now now2 with
  | mk m' rest =>
  obtain ⟨us, ls⟩ := rest
  rcases onReply_cases hr with ⟨-, e, -⟩ | ⟨-, -, e, -⟩
  · rw [e]; exact h1
  · rw [e]; exact sorted_clone h2

theorem SortedAll.event {c s s' t t2 act} (h : SortedAll s) (he : Czar.event c s t t2 act = some s') : SortedAll s' := by
  cases act with
  | bid i =>
    unfold Czar.event at he
    simp only at he
    split at he
    · cases he
      refine h.put rfl (h.mem i) ?_ rfl rfl (fun x hx => Or.inl hx)
      intro q hq
      rcases List.mem_append.1 hq with e | e
      · exact Or.inl e
      · simp at e; subst e; exact Or.inr (bidList_sorted (h.mem i))
    · cases he
  | renew i =>
    unfold Czar.event at he
    simp only at he
    split at he
    · cases he
      have hs : Sorted (renewing (c.det i) (s.mem i)).members.peers := KV.sorted_erase (h.mem i)
      refine h.put rfl hs ?_ rfl rfl (fun x hx => Or.inl hx)
      intro q hq
      rcases List.mem_append.1 hq with e | e
      · exact Or.inl e
      · simp at e; subst e; exact Or.inr hs
    · cases he
  | apply k n r =>
    unfold Czar.event at he
    simp only at he
    split at he
    · cases he
    rename_i q hk
    split at he
    · rw [Option.map_eq_some_iff] at he
      obtain ⟨R, -, e⟩ := he
      cases e
      refine ⟨h.mem, h.reqs, ?_, ?_, h.rep⟩
      · simp only
        split
        · exact h.reqs q (List.mem_of_getElem? hk)
        · exact h.cur
      · intro x hx
        rcases List.mem_append.1 hx with e | e
        · exact h.ans x e
        · simp at e; subst e; exact h.cur
    · cases he
  | giveUp i =>
    unfold Czar.event at he
    simp only at he
    repeat' split at he
    all_goals first
      | (cases he; done)
      | (cases he; exact h.put rfl (h.mem i) (fun q hq => Or.inl hq) rfl rfl (fun x hx => Or.inl hx))
  | answer i =>
    unfold Czar.event at he
    simp only at he
    split at he
    · cases he
    unfold onAnswer at he
    simp only at he
    split at he
    · rename_i k hb
      split at he
      rotate_left
      · cases he
      rename_i a cur q ha hq
      cases he
      refine h.put rfl ?_ (fun q hq => Or.inl hq) rfl rfl (fun x hx => Or.inl hx)
      rw [settle_members]
      exact onBid_sorted (h.mem i) (h.reqs q (List.mem_of_getElem? hq)) (h.ans _ (find_mem ha))
    · rename_i k hb
      split at he
      rotate_left
      · cases he
      rename_i a cur ha
      cases he
      refine h.put rfl ?_ (fun q hq => Or.inl hq) rfl rfl (fun x hx => Or.inl hx)
      rw [settle_members]
      unfold onRenew
      repeat' split
      all_goals exact h.mem i
    · cases he
  | ping i addr =>
    unfold Czar.event at he
    simp only at he
    repeat' split at he
    all_goals first
      | (cases he; done)
      | (cases he; exact h.put rfl (h.mem i) (fun q hq => Or.inl hq) rfl rfl (fun x hx => Or.inl hx))
  | pingFail i =>
    unfold Czar.event at he
    simp only at he
    repeat' split at he
    all_goals first
      | (cases he; done)
      | (cases he; exact h.put rfl (h.mem i) (fun q hq => Or.inl hq) rfl rfl (fun x hx => Or.inl hx))
  | lapse i =>
    unfold Czar.event at he
    simp only at he
    repeat' split at he
    all_goals first
      | (cases he; done)
      | (cases he; exact h.put rfl (h.mem i) (fun q hq => Or.inl hq) rfl rfl (fun x hx => Or.inl hx))
  | serve j k =>
    unfold Czar.event at he
    simp only at he
    split at he
    · cases he
    split at he
    rotate_left
    · cases he
    split at he
    · cases he
      exact h.put rfl (h.mem j) (fun q hq => Or.inl hq) rfl rfl (fun x hx => Or.inl hx)
    · rename_i m' us r hh
      cases he
      obtain ⟨a1, a2⟩ := handlePing_sorted hh (h.mem j)
      refine h.put rfl (by rw [settle_members]; exact a1) (fun q hq => Or.inl hq) rfl rfl ?_
      intro x hx
      rcases List.mem_append.1 hx with e | e
      · exact Or.inl e
      · obtain ⟨w, hw, e⟩ := List.mem_map.1 e
        cases e
        exact Or.inr (a2 w (by simpa using hw))
  | reply i =>
    unfold Czar.event at he
    simp only at he
    split at he
    rotate_left
    · cases he
    split at he
    · cases he
    rename_i v hv
    split at he
    · cases he
    cases he
    exact h.put rfl (onReply_sorted (h.mem i) (h.rep _ (find_mem hv))) (fun q hq => Or.inl hq) rfl rfl
      (fun x hx => Or.inl hx)
  | expire j =>
    unfold Czar.event at he
    simp only at he
    split at he
    rotate_left
    · cases he
    split at he
    · cases he
      exact h.put rfl (by rw [settle_members]; exact h.mem j) (fun q hq => Or.inl hq) rfl rfl (fun x hx => Or.inl hx)
    · generalize silentNames c (c.det j).name (s.mem j) (c.clk j t) = gone at he
      cases hv : setVers (forget (s.mem j) gone) { (s.mem j).vers with within := (s.mem j).vers.within + 1 }
          (withoutNames (s.mem j) gone) true (c.clk j t2) with
      | none =>
        rw [hv] at he
        cases he
        exact h.put rfl (by rw [settle_members]; exact h.mem j) (fun q hq => Or.inl hq) rfl rfl (fun x hx => Or.inl hx)
      | some r =>
        obtain ⟨m', us⟩ := r
        rw [hv] at he
        cases he
        exact h.put rfl (by rw [settle_members]; exact setVers_sorted hv (withoutNames_sorted (h.mem j)))
          (fun q hq => Or.inl hq) rfl rfl (fun x hx => Or.inl hx)

theorem SortedAll.step {c s s' x} (h : SortedAll s) (he : Czar.step c s x = some s') : SortedAll s' := by
  obtain ⟨-, -, s1, h1, rfl⟩ := step_inv he
  have := h.event h1
  exact ⟨this.mem, this.reqs, this.cur, this.ans, this.rep⟩

theorem SortedAll.init : SortedAll {} :=
  ⟨fun _ => .nil, (fun q h => nomatch h), .nil, (fun q h => nomatch h), (fun q h => nomatch h)⟩

/-! ### Kept -/

theorem not_silent {c : Cfg} {me : Key} {m : Mem} {now : Int} {n : Key} {p : Plus} {u : Int}
    (hs : Sorted m.members.peers) (hl : lookup m.members.peers n = some p) (hu : u ≤ p.until_) (h0 : 0 < u)
    (hn : now ≤ u + c.drift) : n ∉ silentNames c me m now := by
  intro h
  obtain ⟨p', hp', hsil⟩ := mem_silentNames h
  have := KV.lookup_of_mem hs hp'
  rw [hl] at this
  cases this
  have := (silent_true hsil).2
  omega

theorem ping_keeps {c : Cfg} {me : Key} {m : Mem} {d : Det} {now now2 : Int} {m' us r} {n : Key} {p : Plus} {u : Int}
    (h : handlePing c me m d now now2 = some (m', us, r)) (hs : Sorted m.members.peers)
    (hl : lookup m.members.peers n = some p) (hu : u ≤ p.until_) (h0 : 0 < u) (hn : now ≤ u + c.drift)
    (hm : u ≤ now + c.memDur) : ∃ p', lookup m'.members.peers n = some p' ∧ u ≤ p'.until_ := by
  have ht : ∃ p', lookup (touch c me m d now).members.peers n = some p' ∧ u ≤ p'.until_ := by
    unfold touch
    simp only
    split
    · exact ⟨p, hl, hu⟩
    · by_cases e : n = d.name
      · subst e
        rw [KV.lookup_put_same]
        exact ⟨_, rfl, hm⟩
      · rw [KV.lookup_put_other _ _ e]
        exact ⟨p, hl, hu⟩
  unfold handlePing at h
  split at h
  · cases h; exact ⟨p, hl, hu⟩
  split at h
  · cases h; exact ⟨p, hl, hu⟩
  simp only at h
  split at h
  · cases h; exact ht
  · rw [Option.map_eq_some_iff] at h
    obtain ⟨q, hq, e⟩ := h
    cases e
    obtain ⟨m2, us2⟩ := q
    obtain ⟨-, -, h3, -⟩ := setVers_some hq
    simp only at h3 ⊢
    rw [h3]
    simp only
    rw [lookup_clone]
    split
    · unfold withCaller
      simp only
      by_cases e : n = d.name
      · subst e
        rw [KV.lookup_put_same]
        exact ⟨_, rfl, hm⟩
      · rw [KV.lookup_put_other _ _ e, lookup_clone, hl]
        exact ⟨_, rfl, hu⟩
    · obtain ⟨p', h5, h6⟩ := ht
      rw [withoutNames_lookup, if_neg (not_silent (touch_sorted hs) h5 h6 h0 hn), h5]
      exact ⟨_, rfl, h6⟩

theorem step_keeps {c s s' x j n p} {u : Int} (hI : Inv c s) (hs : SortedAll s)
    (he : Czar.step c s x = some s') (ho : ((s.mem j).vers.epoch, j) ∈ s.owner)
    (hep : (s'.mem j).vers.epoch = (s.mem j).vers.epoch)
    (hl : lookup (s.mem j).members.peers n = some p) (hu : u ≤ p.until_) (h0 : 0 < u)
    (hn : c.clk j x.1 ≤ u + c.drift) (hm : u ≤ c.clk j x.1 + c.memDur) :
    ∃ p', lookup (s'.mem j).members.peers n = some p' ∧ u ≤ p'.until_ := by
  obtain ⟨ht, ht2, s1, h1, rfl⟩ := step_inv he
  obtain ⟨t, t2, act⟩ := x
  simp only at h1 ht ht2 hn hm hep ⊢
  have hcz := (hI.mem j).own ho
  have hnm : n ≠ (c.det j).name := by
    intro e; subst e
    rw [hcz.2.2] at hl; cases hl
  have put : ∀ i m' us, s1.mem = (s.put i m' us).mem → (i = j → m'.vers.epoch = (s.mem j).vers.epoch →
      ∃ p', lookup m'.members.peers n = some p' ∧ u ≤ p'.until_) →
      ∃ p', lookup (s1.mem j).members.peers n = some p' ∧ u ≤ p'.until_ := by
    intro i m' us e hk
    rw [e] at hep ⊢
    unfold Sys.put upd at hep ⊢
    simp only at hep ⊢
    split
    · rename_i e; rw [if_pos e] at hep; exact hk e.symm hep
    · exact ⟨p, hl, hu⟩
  have same : ∀ i m' us, s1.mem = (s.put i m' us).mem → m'.members = (s.mem i).members →
      ∃ p', lookup (s1.mem j).members.peers n = some p' ∧ u ≤ p'.until_ := by
    intro i m' us e hk
    exact put i m' us e (fun e _ => by subst e; rw [hk]; exact ⟨p, hl, hu⟩)
  cases act with
  | bid i =>
    unfold event at h1
    simp only at h1
    split at h1
    · cases h1; exact same i { s.mem i with busy := _ } [] rfl rfl
    · cases h1
  | renew i =>
    unfold event at h1
    simp only at h1
    split at h1
    · cases h1
      refine put i { renewing (c.det i) (s.mem i) with busy := _ } [] rfl ?_
      intro e _
      subst e
      refine ⟨p, ?_, hu⟩
      show lookup (erase (c.det i).name (s.mem i).members.peers) n = some p
      rw [KV.lookup_erase_other _ hnm]; exact hl
    · cases h1
  | apply k n' r =>
    unfold event at h1
    simp only at h1
    split at h1
    · cases h1
    split at h1
    · rw [Option.map_eq_some_iff] at h1
      obtain ⟨R, -, e⟩ := h1
      cases e
      exact ⟨p, hl, hu⟩
    · cases h1
  | giveUp i =>
    unfold event at h1
    simp only at h1
    split at h1
    · split at h1
      · cases h1
      · cases h1; exact same i { s.mem i with busy := none } [] rfl rfl
    · split at h1
      · cases h1
      · cases h1; exact same i { s.mem i with busy := none, state := .unknown } [] rfl rfl
    · cases h1
  | ping i addr =>
    unfold event at h1
    simp only at h1
    split at h1
    · split at h1
      · cases h1; exact same i { s.mem i with state := .unknown } [] rfl rfl
      split at h1
      · cases h1; exact same i { s.mem i with dead := true } [] rfl rfl
      · cases h1; exact same i { s.mem i with busy := _ } [] rfl rfl
    · cases h1
  | pingFail i =>
    unfold event at h1
    simp only at h1
    split at h1
    · cases h1; exact same i { s.mem i with busy := none, conn := false, state := .unknown } [] rfl rfl
    · cases h1
  | lapse i =>
    unfold event at h1
    simp only at h1
    split at h1
    · cases h1; exact same i { s.mem i with state := .unknown } [] rfl rfl
    · cases h1
  | answer i =>
    unfold event at h1
    simp only at h1
    split at h1
    · cases h1
    unfold onAnswer at h1
    simp only at h1
    split at h1
    · rename_i k hb
      split at h1
      rotate_left
      · cases h1
      rename_i a cur q ha hq
      cases h1
      refine put i _ [] rfl ?_
      rw [settle_members, settle_vers]
      intro e hep2
      subst e
      obtain ⟨q', hq', -, -, hql, -, -⟩ := (hI.mem i).cas k hb
      rw [hq] at hq'; cases hq'
      obtain ⟨q', hq', l, hl', hae, hend, hok⟩ := hI.ans k a cur (find_mem ha)
      rw [hq] at hq'; cases hq'
      have hbid : ∃ p', lookup q.list.clone.peers n = some p' ∧ u ≤ p'.until_ := by
        rw [hql, lookup_clone]
        simp only [bidList]
        have e1 : (s.mem i).members.clone.czarName = (c.det i).name := hcz.1
        rw [e1, KV.lookup_erase_other _ hnm, KV.lookup_erase_other _ hnm, lookup_clone, hl]
        exact ⟨_, rfl, hu⟩
      rcases hok with ⟨herr, -⟩ | ⟨er, herr, hne, -, p', how, hcz'⟩
      · revert hep2
        unfold onBid
        rw [herr]
        simp only
        split
        · intro _; exact ⟨p, hl, hu⟩
        · split
          · intro _; exact ⟨p, hl, hu⟩
          · rename_i hv
            intro _
            obtain ⟨-, -, h3, -⟩ := setVers_some hv
            rw [h3]; exact hbid
      · have key : ∀ R : Mem × List View × List View,
            R = (if cur.czarName = (c.det i).name ∧ a.endTm ≠ 0 then
                (({ s.mem i with busy := none, dead := true } : Mem), ([] : List View), ([] : List View))
              else
                match setVers { s.mem i with busy := none, state := .notCzar } (versOf { s.mem i with busy := none } a false)
                    { cur with leaseDur := c.memDur } false (c.clk i t2) with
                | none => ({ s.mem i with busy := none, state := .notCzar }, [], [])
                | some (m', us) => (m', us, [(m'.vers, m'.members)])) →
            R.1.vers.epoch = (s.mem i).vers.epoch → ∃ p', lookup R.1.members.peers n = some p' ∧ u ≤ p'.until_ := by
          intro R hR
          rw [hR]
          split
          · intro _; exact ⟨p, hl, hu⟩
          · rename_i hno
            split
            · intro _; exact ⟨p, hl, hu⟩
            · rename_i hv
              intro e
              obtain ⟨-, -, h3, -⟩ := setVers_some hv
              rw [h3] at e
              exfalso
              have e : a.epoch = (s.mem i).vers.epoch := e
              have := hI.key.one _ _ _ how (e ▸ ho)
              subst this
              exact hno ⟨hcz'.1, by omega⟩
        refine key _ ?_ hep2
        unfold onBid
        rw [herr]
        cases er with
        | keyNotFound => exact absurd rfl hne
        | _ => rfl
    · rename_i k hb
      split at h1
      rotate_left
      · cases h1
      rename_i a cur ha
      cases h1
      refine same i (settle (onRenew { s.mem i with busy := none } a).1 (c.clk i t2)) [] rfl ?_
      rw [settle_members]
      unfold onRenew
      repeat' split
      all_goals rfl
    · cases h1
  | serve j' k =>
    unfold event at h1
    simp only at h1
    split at h1
    · cases h1
    rename_i i d hp
    split at h1
    rotate_left
    · cases h1
    split at h1
    · cases h1; exact same j' { s.mem j' with dead := true } [] rfl rfl
    · rename_i m' us r hh
      cases h1
      refine put j' _ us rfl ?_
      intro e _
      subst e
      rw [settle_members]
      exact ping_keeps hh (hs.mem j') hl hu h0 hn hm
  | reply i =>
    unfold event at h1
    simp only at h1
    split at h1
    rotate_left
    · cases h1
    rename_i k hb
    split at h1
    · cases h1
    rename_i v hv
    split at h1
    · cases h1
    cases h1
    obtain ⟨j', i', d', hp', hne, ho', -⟩ := hI.rep k v (find_mem hv)
    refine put i _ [] rfl ?_
    intro e hep2
    subst e
    obtain ⟨d, hp, -⟩ := (hI.mem i).ping k hb
    rw [hp] at hp'; cases hp'
    cases hr : onReply c (c.det i) { s.mem i with busy := none } v (c.clk i t) (c.clk i t2) with
    | mk m' rest =>
    obtain ⟨us, ls⟩ := rest
    rw [hr] at hep2
    simp only at hep2 ⊢
    rcases onReply_cases hr with ⟨-, e, -⟩ | ⟨-, e2, e, -⟩
    · rw [e]; exact ⟨p, hl, hu⟩
    · exfalso
      rw [e2] at hep2
      exact hne (hI.key.one _ _ _ ho (hep2 ▸ ho'))
  | expire j' =>
    unfold event at h1
    simp only at h1
    split at h1
    rotate_left
    · cases h1
    split at h1
    · cases h1
      exact same j' (settle (s.mem j') (c.clk j' t2)) [] rfl (by rw [settle_members])
    · cases hv : setVers (forget (s.mem j') (silentNames c (c.det j').name (s.mem j') (c.clk j' t)))
          { (s.mem j').vers with within := (s.mem j').vers.within + 1 }
          (withoutNames (s.mem j') (silentNames c (c.det j').name (s.mem j') (c.clk j' t))) true (c.clk j' t2) with
      | none =>
        rw [hv] at h1
        cases h1
        exact same j' (settle (forget (s.mem j') _) (c.clk j' t2)) [] rfl (by rw [settle_members]; rfl)
      | some r =>
        obtain ⟨m', us⟩ := r
        rw [hv] at h1
        cases h1
        refine put j' _ us rfl ?_
        intro e _
        subst e
        rw [settle_members]
        obtain ⟨-, -, h3, -⟩ := setVers_some hv
        rw [h3]
        simp only [Option.getD_some]
        rw [lookup_clone, withoutNames_lookup, if_neg (not_silent (hs.mem j') hl hu h0 hn), hl]
        exact ⟨_, rfl, hu⟩

/-- A lease in an answered view: as long as the czar's term goes on, and a little longer than the
lease (or than its duration from the time of the answer), the member is in the czar's list. -/
structure Kept (c : Cfg) (s : Sys) (x : Nat × Nat × View) : Prop where
  time : x.2.1 ≤ s.now
  own : (x.2.2.1.epoch, x.1) ∈ s.owner
  le : x.2.2.1.epoch ≤ (s.mem x.1).vers.epoch
  keep : x.2.2.1.epoch = (s.mem x.1).vers.epoch → ∀ n p, lookup x.2.2.2.peers n = some p → ∀ u : Int,
    u ≤ p.until_ → u ≤ c.clk x.1 x.2.1 + c.memDur → 0 < u → c.clk x.1 s.now ≤ u + c.drift →
    ∃ p', lookup (s.mem x.1).members.peers n = some p' ∧ u ≤ p'.until_

theorem Inv.owner_step {c s s' x} (he : Czar.step c s x = some s') : ∀ y ∈ s.owner, y ∈ s'.owner := by
  obtain ⟨-, -, s1, h1, rfl⟩ := step_inv he
  generalize x.2.2 = act at h1
  intro y hy
  show y ∈ s1.owner
  cases act with
  | apply k n r =>
    unfold event at h1
    simp only at h1
    split at h1
    · cases h1
    split at h1
    · rw [Option.map_eq_some_iff] at h1
      obtain ⟨R, -, e⟩ := h1
      cases e
      simp only
      split
      · exact List.mem_append_left _ hy
      · exact hy
    · cases h1
  | answer i =>
    unfold event onAnswer at h1
    simp only at h1
    repeat' split at h1
    all_goals first
      | (cases h1; done)
      | (cases h1; exact hy)
  | _ =>
    unfold event at h1
    simp only at h1
    repeat' split at h1
    all_goals first
      | (cases h1; done)
      | (cases h1; exact hy)

theorem Moved.epoch {m m' us qs} (h : Moved m m' us qs) : m.vers.epoch ≤ m'.vers.epoch := by
  have := h.le; unfold verLe at this; omega

/-- Views answered by one czar in one term: members stay while their leases run. -/
def KeptIn (c : Cfg) (x y : Nat × Nat × View) : Prop :=
  x.1 = y.1 → x.2.2.1.epoch = y.2.2.1.epoch → ∀ n p, lookup x.2.2.2.peers n = some p → ∀ u : Int,
    u ≤ p.until_ → u ≤ c.clk x.1 x.2.1 + c.memDur → 0 < u → c.clk x.1 y.2.1 ≤ u + c.drift →
    ∃ p', lookup y.2.2.2.peers n = some p' ∧ u ≤ p'.until_

theorem Kept.reach {c s} (hs : Sane c) (h : Reach c s) :
    SortedAll s ∧ (∀ x ∈ s.served, Kept c s x) ∧ s.served.Pairwise (KeptIn c) := by
  refine reach_ind hs (P := fun s => SortedAll s ∧ (∀ x ∈ s.served, Kept c s x) ∧ s.served.Pairwise (KeptIn c))
    ⟨.init, (fun x h => nomatch h), .nil⟩ ?_ h
  intro s s' x hi hi' he ⟨hso, hk, hpw⟩
  obtain ⟨i, us, qs, sv, ho⟩ := step_out' hi he
  obtain ⟨ht, ht2, s1, -, e1⟩ := step_inv he
  have hn : s'.now = x.2.1 := by rw [e1]
  have hep : ∀ j, (s.mem j).vers.epoch ≤ (s'.mem j).vers.epoch := by
    intro j
    by_cases e : j = i
    · subst e; exact ho.moved.epoch
    · rw [ho.others j e]; exact Nat.le_refl _
  -- what an old answer says of the list after this step
  have old : ∀ y ∈ s.served, y.2.2.1.epoch = (s'.mem y.1).vers.epoch → ∀ n p, lookup y.2.2.2.peers n = some p → ∀ u : Int,
      u ≤ p.until_ → u ≤ c.clk y.1 y.2.1 + c.memDur → 0 < u → c.clk y.1 x.1 ≤ u + c.drift →
      ∃ p', lookup (s'.mem y.1).members.peers n = some p' ∧ u ≤ p'.until_ := by
    intro y hy e n p hl u h1 h2 h3 h4
    have K := hk y hy
    have e0 : y.2.2.1.epoch = (s.mem y.1).vers.epoch := by
      have := K.le; have := hep y.1; omega
    have hc := hs.mono y.1 _ _ ht
    have hc2 := hs.mono y.1 _ _ (Nat.le_trans K.time ht)
    obtain ⟨p', a1, a2⟩ := K.keep e0 n p hl u h1 h2 h3 (by omega)
    exact step_keeps hi hso he (e0 ▸ K.own) (by omega) a1 a2 h3 h4 (by omega)
  have kept : ∀ y ∈ s.served, Kept c s' y := by
    intro y hy
    have K := hk y hy
    refine ⟨by rw [hn]; have := K.time; omega, Inv.owner_step he _ K.own, Nat.le_trans K.le (hep _), ?_⟩
    intro e n p hl u h1 h2 h3 h4
    rw [hn] at h4
    have := hs.mono y.1 _ _ ht2
    exact old y hy e n p hl u h1 h2 h3 (by omega)
  refine ⟨hso.step he, ?_, ?_⟩
  · intro y hy
    rw [ho.served] at hy
    rcases List.mem_append.1 hy with hy | hy
    · exact kept y hy
    · rcases ho.ans with e | ⟨e, a1, a2, a3, a4⟩ <;> rw [e] at hy <;> simp at hy
      subst hy
      refine ⟨by rw [hn]; exact ht2, by rw [a4]; exact a1, Nat.le_refl _, ?_⟩
      intro _ n p hl u h1 h2 h3 h4
      simp only at hl ⊢
      rw [lookup_clone] at hl
      cases hl' : lookup (s'.mem i).members.peers n with
      | none => rw [hl'] at hl; cases hl
      | some p' => rw [hl'] at hl; cases hl; exact ⟨p', rfl, h1⟩
  · rw [ho.served, List.pairwise_append]
    refine ⟨hpw, ?_, ?_⟩
    · rcases ho.ans with e | ⟨e, -⟩ <;> rw [e] <;> simp
    · intro y hy w hw
      rcases ho.ans with e | ⟨e, a1, a2, a3, a4⟩ <;> rw [e] at hw <;> simp at hw
      subst hw
      intro e1 e2 n p hl u h1 h2 h3 h4
      simp only at e1 e2 h4
      obtain ⟨p', b1, b2⟩ := old y hy (by rw [e1]; exact e2) n p hl u h1 h2 h3 h4
      simp only
      rw [e1] at b1
      rw [lookup_clone, b1]
      exact ⟨_, rfl, b2⟩

end Verif.Czar
