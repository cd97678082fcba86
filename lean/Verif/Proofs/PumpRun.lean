import Verif.Proofs.Pump
/-
Runs of the pump: ids only grow, the invariant along runs, order of delivery in every run, what the
pump tells the remote, and the shutdown flags.
-/
namespace Verif.Pump

open Verif.Frag

theorem map_set_same {α β} {g : α → β} {l : List α} {c : Nat} {k k' : α} (hk : l[c]? = some k)
    (hg : g k' = g k) : (l.set c k').map g = l.map g := by
  rw [List.map_set, hg]
  apply List.ext_getElem?
  intro i
  rw [List.getElem?_set]
  split
  · rename_i hi; subst hi
    obtain ⟨hlt, hce⟩ := List.getElem?_eq_some_iff.1 hk
    simp [hlt, hce]
  · rfl

/-- What closing circuits leaves alone when nothing is known of ids. -/
structure Loose (s s' : State) : Prop where
  readsIn : s'.readsIn = s.readsIn
  errorsIn : s'.errorsIn = s.errorsIn
  arrived : s'.arrived = s.arrived
  arrivedErr : s'.arrivedErr = s.arrivedErr
  phase : s'.phase = s.phase
  stop : s'.stop = s.stop
  self : s'.self = s.self
  autoPeers : s'.autoPeers = s.autoPeers
  rows : s'.ckts.map (fun k => (k.id, k.delivered, k.deliveredErr)) =
    s.ckts.map (fun k => (k.id, k.delivered, k.deliveredErr))
  look : ∀ id c, lookup s'.m id = some c → lookup s.m id = some c

theorem Loose.refl (s : State) : Loose s s := ⟨rfl, rfl, rfl, rfl, rfl, rfl, rfl, rfl, rfl,
  fun _ _ h => h⟩

theorem Loose.trans {a b c : State} (h1 : Loose a b) (h2 : Loose b c) : Loose a c :=
  ⟨h2.readsIn.trans h1.readsIn, h2.errorsIn.trans h1.errorsIn, h2.arrived.trans h1.arrived,
    h2.arrivedErr.trans h1.arrivedErr, h2.phase.trans h1.phase, h2.stop.trans h1.stop,
    h2.self.trans h1.self, h2.autoPeers.trans h1.autoPeers, h2.rows.trans h1.rows,
    fun id d h => h1.look id d (h2.look id d h)⟩

theorem loose_cleanup (s : State) (c : Nat) (b : Bool) : Loose s (cleanup s c b) := by
  unfold cleanup
  split
  · exact Loose.refl s
  · rename_i k hk
    split
    · exact Loose.refl s
    · rename_i hn
      refine ⟨rfl, rfl, rfl, rfl, rfl, ?_, rfl, rfl, map_set_same hk rfl, ?_⟩
      · have : s.m.isEmpty = false := by
          cases hm : s.m with
          | nil => rw [hm] at hn; simp [lookup] at hn
          | cons _ _ => rfl
        simp [this]
      · intro id d hd
        by_cases h : id = k.id
        · subst h; rw [lookup_erase_self] at hd; cases hd
        · rw [lookup_erase_ne _ h] at hd; exact hd

theorem loose_cleanups (s : State) (cs : List Nat) : Loose s (cleanups s cs) := by
  induction cs generalizing s with
  | nil => exact Loose.refl s
  | cons c cs ih => exact (loose_cleanup s c true).trans (ih _)

theorem Loose.ids {s s' : State} (h : Loose s s') : s'.ckts.map Ckt.id = s.ckts.map Ckt.id := by
  have := congrArg (List.map (·.1)) h.rows
  simpa [List.map_map, Function.comp_def] using this

theorem exit_ids (s : State) : (exitPump s).ckts.map Ckt.id = s.ckts.map Ckt.id := by
  have h := (loose_cleanups s (s.m.map (fun e => e.2))).ids
  exact h

theorem finish_ids (s : State) (late : List Nat) :
    (finish s late).ckts.map Ckt.id = s.ckts.map Ckt.id :=
  (loose_cleanups { s with phase := .idle } late).ids

theorem onRead_ids (s : State) (msg : Message) :
    (onRead s msg).ckts.map Ckt.id = s.ckts.map Ckt.id := by
  unfold onRead
  split
  · exact exit_ids _
  · dsimp only
    split
    · split <;> rfl
    · split
      · rw [(loose_cleanup _ _ _).ids]; split <;> rfl
      · split <;> rfl

/-- Circuits are never forgotten. -/
theorem ids_step {s s' : State} {a : Action} (h : step s a = some s') :
    s.ckts.map Ckt.id <+: s'.ckts.map Ckt.id := by
  have same : ∀ {t : State}, t.ckts.map Ckt.id = s.ckts.map Ckt.id →
      s.ckts.map Ckt.id <+: t.ckts.map Ckt.id := fun h => h ▸ List.prefix_refl _
  cases a with
  | tell info =>
    simp only [step] at h
    have hs : s' = tellPump s info := by split at h <;> cases h <;> rfl
    subst hs
    exact ⟨[info.circuitID], by simp [tellPump, newCkt, Ckt.id]⟩
  | arrive msg =>
    simp only [step] at h
    repeat' split at h
    all_goals cases h
    all_goals exact same rfl
  | drop msg =>
    simp only [step] at h
    repeat' split at h
    all_goals cases h
    all_goals exact same rfl
  | reqClose c reason =>
    simp only [step] at h
    split at h
    · cases h
    · rename_i k hk
      split at h
      · cases h; exact same rfl
      · cases h; exact same (map_set_same hk rfl)
  | handClose c =>
    simp only [step] at h
    split at h
    · cases h
    · split at h
      · split at h
        · cases h; exact same (loose_cleanup s c true).ids
        · cases h; exact same rfl
        · cases h
      · cases h
  | takeRead =>
    simp only [step] at h
    split at h
    · cases h; exact same (onRead_ids _ _)
    · cases h
  | takeErr =>
    simp only [step] at h
    split at h
    · split at h <;> cases h <;> exact same rfl
    · cases h
  | put =>
    simp only [step] at h
    split at h
    · split at h
      · cases h
      · rename_i k hk
        split at h
        · cases h; exact same ((finish_ids _ _).trans (map_set_same hk rfl))
        · cases h
    · cases h
  | putErr =>
    simp only [step] at h
    split at h
    · split at h
      · cases h
      · rename_i k hk
        split at h
        · cases h; exact same (map_set_same hk rfl)
        · cases h
    · cases h
  | timeout2 =>
    simp only [step] at h
    split at h
    · cases h; exact same ((finish_ids _ _).trans (loose_cleanup _ _ _).ids)
    · cases h
  | timeout5 =>
    simp only [step] at h
    split at h
    · split at h
      · cases h
      · cases h; exact same (finish_ids _ _)
    · cases h
  | seeHalt =>
    simp only [step] at h
    split at h
    · split at h
      · cases h
      · split at h
        · cases h; exact same ((finish_ids _ _).trans (loose_cleanup _ _ _).ids)
        · cases h
    · split at h
      · cases h
      · split at h
        · cases h; exact same (loose_cleanup _ _ _).ids
        · cases h
    · cases h
  | reqStop => simp only [step] at h; cases h; exact same rfl
  | exit =>
    simp only [step] at h
    split at h
    · split at h
      · cases h; exact same (exit_ids _)
      · cases h; exact same ((exit_ids _).trans (finish_ids _ _))
      · cases h; exact same (exit_ids _)
      · cases h
    · cases h
  | read c =>
    simp only [step] at h
    split at h
    · cases h
    · rename_i k hk
      split at h
      · cases h
      · cases h; exact same (map_set_same hk rfl)
  | readErr c =>
    simp only [step] at h
    split at h
    · cases h
    · rename_i k hk
      split at h
      · cases h
      · cases h; exact same (map_set_same hk rfl)
  | addRemote key peerID => simp only [step] at h; cases h; exact same rfl

theorem ids_run {s s' : State} {as : List Action} (h : run s as = some s') :
    s.ckts.map Ckt.id <+: s'.ckts.map Ckt.id := by
  induction as generalizing s with
  | nil => cases h; exact List.prefix_refl _
  | cons a as ih =>
    simp only [run, Option.bind_eq_some_iff] at h
    obtain ⟨s1, h1, h2⟩ := h
    exact (ids_step h1).trans (ih h2)

theorem UniqueIds.of_prefix {s s' : State} (h : s.ckts.map Ckt.id <+: s'.ckts.map Ckt.id)
    (hu : UniqueIds s') : UniqueIds s := List.Nodup.sublist h.sublist hu

theorem inv_fresh {s : State} (h : Fresh s) : Inv s ∧ InvR s := by
  obtain ⟨h1, h2, h3, h4, h5, _, h7, h8, _⟩ := h
  refine ⟨⟨?_, by simp [PhOk, h5], ⟨[], by simp [h4, h8], fun c e he => ?_⟩⟩,
    ⟨[], by simp [h3, h7], fun c e he => ?_⟩⟩
  · rw [h2]
    refine ⟨by simp [view, h1], fun _ _ h => by simp [lookup] at h,
      fun _ _ h => by simp [view, h1] at h, by simp, by simp [view, h1]⟩
  · simp [tbl, h1] at he
  · simp [tbl, h1] at he

theorem inv_run {s s' : State} {as : List Action} (hi : Inv s) (h : run s as = some s')
    (hu : UniqueIds s') : Inv s' ∧ (as.all keeps = true → InvR s → InvR s') := by
  induction as generalizing s with
  | nil => cases h; exact ⟨hi, fun _ h => h⟩
  | cons a as ih =>
    simp only [run, Option.bind_eq_some_iff] at h
    obtain ⟨s1, h1, h2⟩ := h
    have hs := inv_step hi (hu.of_prefix (ids_run h2)) h1
    have hr := ih hs.1 h2
    refine ⟨hr.1, fun hk hR => ?_⟩
    simp only [List.all_cons, Bool.and_eq_true] at hk
    exact hr.2 hk.2 (hs.2 hk.1 hR)

/-! ### Order of delivery in every run -/

/-- The invariant of every run, whatever the ids and the timers. -/
structure SInv (s : State) : Prop where
  mem : ∀ id c, lookup s.m id = some c → ∃ k, s.ckts[c]? = some k ∧ k.id = id
  ph : ∀ d f l, s.phase = .reads d f l → d < s.ckts.length
  sub : Sub sentTo s.arrived s.readsIn (tbl rowR s) (handR s)

theorem rows_get {s s' : State} (h : s'.ckts.map (fun k => (k.id, k.delivered, k.deliveredErr)) =
    s.ckts.map (fun k => (k.id, k.delivered, k.deliveredErr))) {c : Nat} {k' : Ckt}
    (hk : s'.ckts[c]? = some k') :
    ∃ k, s.ckts[c]? = some k ∧ k'.id = k.id ∧ k'.delivered = k.delivered ∧
      k'.deliveredErr = k.deliveredErr := by
  have h1 := congrArg (·[c]?) h
  simp only [List.getElem?_map, hk, Option.map_some] at h1
  obtain ⟨k, hk, he⟩ := Option.map_eq_some_iff.1 h1.symm
  simp only [Prod.mk.injEq] at he
  exact ⟨k, hk, he.1.symm, he.2.1.symm, he.2.2.symm⟩

theorem sub_rows {s s' : State} {arr q : List Message} {h h' : Nat → List Fragment}
    (hr : s'.ckts.map (fun k => (k.id, k.delivered, k.deliveredErr)) =
      s.ckts.map (fun k => (k.id, k.delivered, k.deliveredErr)))
    (hs : Sub sentTo arr q (tbl rowR s) h) (hh : ∀ c, (h' c).Sublist (h c)) :
    Sub sentTo arr q (tbl rowR s') h' := by
  refine hs.change (fun c e' he' => ?_)
  obtain ⟨k', hk', rfl⟩ := tbl_some he'
  obtain ⟨k, hk, h1, h2, _⟩ := rows_get hr hk'
  refine ⟨rowR k, by simp [tbl, hk], h1, ?_⟩
  change (k'.delivered ++ _).Sublist _
  rw [h2]
  exact (List.Sublist.refl _).append (hh c)

/-- A step that only changes flags, or ends a delivery without delivering. -/
theorem SInv.loose {s s' : State} (hi : SInv s)
    (hr : s'.ckts.map (fun k => (k.id, k.delivered, k.deliveredErr)) =
      s.ckts.map (fun k => (k.id, k.delivered, k.deliveredErr)))
    (hl : ∀ id c, lookup s'.m id = some c → lookup s.m id = some c)
    (hp : (∀ c, (handR s' c).Sublist (handR s c)))
    (hph : ∀ d f l, s'.phase = .reads d f l → ∃ f' l', s.phase = .reads d f' l')
    (ha : s'.arrived = s.arrived) (hq : s'.readsIn = s.readsIn) : SInv s' := by
  refine ⟨fun id c hc => ?_, fun d f l hd => ?_, ?_⟩
  · obtain ⟨k, hk, hid⟩ := hi.mem id c (hl id c hc)
    have h1 := congrArg (·[c]?) hr
    simp only [List.getElem?_map, hk, Option.map_some] at h1
    obtain ⟨k', hk', he⟩ := Option.map_eq_some_iff.1 h1
    simp only [Prod.mk.injEq] at he
    exact ⟨k', hk', he.1.trans hid⟩
  · obtain ⟨f', l', h1⟩ := hph d f l hd
    have h2 := hi.ph d f' l' h1
    have := congrArg List.length hr
    simp only [List.length_map] at this
    omega
  · rw [ha, hq]
    exact sub_rows hr hi.sub hp

theorem no_hand {s : State} (h : ∀ d f l, s.phase ≠ .reads d f l) (c : Nat) : handR s c = [] := by
  unfold handR
  split
  · rename_i d f l hd; exact absurd hd (h d f l)
  · rfl

theorem SInv.finish {s : State} (hi : SInv s) (late : List Nat) : SInv (finish s late) := by
  have h := loose_cleanups { s with phase := .idle } late
  have hph : (Pump.finish s late).phase = .idle := h.phase
  refine hi.loose h.rows h.look (fun c => ?_) (fun d f l hd => ?_) h.arrived h.readsIn
  · rw [no_hand (by rw [hph]; intros; exact nofun)]; exact List.nil_sublist _
  · rw [hph] at hd; cases hd

theorem SInv.exit {s : State} (hi : SInv s) : SInv (exitPump s) := by
  have h := loose_cleanups s (s.m.map (·.2))
  refine hi.loose h.rows (fun _ _ h => by simp [exitPump, lookup] at h) (fun c => ?_)
    (fun d f l hd => nomatch hd) h.arrived h.readsIn
  rw [no_hand (s := exitPump s) (fun _ _ _ hd => nomatch hd)]
  exact List.nil_sublist _

theorem SInv.cleanup {s : State} (hi : SInv s) (c : Nat) (b : Bool) : SInv (cleanup s c b) := by
  have h := loose_cleanup s c b
  refine hi.loose h.rows h.look (fun d => ?_) (fun d f l hd => ⟨f, l, h.phase ▸ hd⟩) h.arrived
    h.readsIn
  simp only [handR, h.phase]
  exact List.Sublist.refl _

theorem SInv.onRead {s : State} {msg : Message} {rest : List Message} (hi : SInv s)
    (hp : s.phase = .idle) (hq : s.readsIn = msg :: rest) :
    SInv (onRead { s with readsIn := rest } msg) := by
  -- the state with the message taken and nothing in hand
  have h0 : SInv { s with readsIn := rest } := by
    refine ⟨hi.mem, hi.ph, ?_⟩
    have := hi.sub
    rw [hq] at this
    have h1 : handR s = fun _ => [] := handR_idle hp
    rw [h1] at this
    have h2 : handR { s with readsIn := rest } = fun _ => [] := handR_idle hp
    rw [h2]
    exact this.take carries_sentTo (fun _ _ _ => List.nil_sublist _)
  unfold Pump.onRead
  split
  · exact SInv.exit (h0.loose (s' := { s with readsIn := rest, remotes := _ }) rfl
      (fun _ _ h => h) (fun _ => List.Sublist.refl _) (fun d f l h => ⟨f, l, h⟩) rfl rfl)
  · dsimp only
    generalize hs1 : (if msg.typ = callPeerFromIsShutdown ∧ msg.fromPeerID ≠ s.self then
        { s with readsIn := rest, remotes := erase s.remotes msg.fromPeerID }
        else { s with readsIn := rest }) = s1
    have h1 : SInv s1 := by
      rw [← hs1]
      split
      · exact h0.loose (s' := { s with readsIn := rest, remotes := _ }) rfl
          (fun _ _ h => h) (fun _ => List.Sublist.refl _) (fun d f l h => ⟨f, l, h⟩) rfl rfl
      · exact h0
    have hck : s1.ckts = s.ckts := by rw [← hs1]; split <;> rfl
    have hm : s1.m = s.m := by rw [← hs1]; split <;> rfl
    have hri : s1.readsIn = rest := by rw [← hs1]; split <;> rfl
    have hra : s1.arrived = s.arrived := by rw [← hs1]; split <;> rfl
    clear hs1
    split
    · exact h1
    · rename_i d hn
      split
      · exact h1.cleanup d false
      · rename_i hend
        obtain ⟨k, hk, hkid⟩ := h1.mem _ _ hn
        refine ⟨h1.mem, fun d' f l hd => ?_, ?_⟩
        · cases hd
          exact (List.getElem?_eq_some_iff.1 hk).1
        · change Sub sentTo s1.arrived s1.readsIn _ _
          rw [hri, hra]
          have hsub := hi.sub
          rw [hq, handR_idle hp] at hsub
          refine Sub.change (hsub.take (hand := fun c => if d = c then [convertMessageToFragment msg]
            else []) carries_sentTo (fun c e hce => ?_)) (fun c e hce => ⟨e, by
              simpa [tbl, hck] using hce, rfl, by simp [handR]⟩)
          split
          · rename_i hdc; subst hdc
            obtain ⟨k', hk', rfl⟩ := tbl_some hce
            rw [← hck, hk] at hk'; cases hk'
            change List.Sublist _ (sentTo k.id [msg])
            rw [hkid, sentTo_eq hend]
            exact List.Sublist.refl _
          · exact List.nil_sublist _

theorem sinv_step {s s' : State} {a : Action} (hi : SInv s) (h : step s a = some s') : SInv s' := by
  have flags : ∀ {t : State}, t.ckts.map (fun k => (k.id, k.delivered, k.deliveredErr)) =
      s.ckts.map (fun k => (k.id, k.delivered, k.deliveredErr)) → t.m = s.m → t.phase = s.phase →
      t.arrived = s.arrived → t.readsIn = s.readsIn → SInv t := by
    intro t h1 h2 h3 h4 h5
    refine hi.loose h1 (fun id c hc => by rw [← h2]; exact hc) (fun c => ?_)
      (fun d f l hd => ⟨f, l, by rw [← h3]; exact hd⟩) h4 h5
    simp only [handR, h3]
    exact List.Sublist.refl _
  cases a with
  | tell info =>
    simp only [step] at h
    have hs : s' = tellPump s info := by split at h <;> cases h <;> rfl
    subst hs
    refine ⟨fun id c hc => ?_, fun d f l hd => ?_, ?_⟩
    · simp only [tellPump] at hc
      by_cases hid : id = info.circuitID
      · subst hid
        rw [lookup_insert_self] at hc; cases hc
        exact ⟨newCkt s info, by simp [tellPump], rfl⟩
      · rw [lookup_insert_ne _ _ hid] at hc
        obtain ⟨k, hk, h1⟩ := hi.mem _ _ hc
        exact ⟨k, by
          simp only [tellPump]
          rw [List.getElem?_append_left (List.getElem?_eq_some_iff.1 hk).1]; exact hk, h1⟩
    · have := hi.ph d f l hd
      simp only [tellPump, List.length_append]; omega
    · refine Sub.tell (tbl' := tbl rowR (tellPump s info)) hi.sub (c0 := s.ckts.length)
        (e0 := rowR (newCkt s info)) rfl ?_ ?_
      · unfold handR
        split
        · rename_i d f l hd
          have := hi.ph d f l hd
          rw [if_neg (by omega)]
        · rfl
      · intro c e hce
        obtain ⟨k, hk, rfl⟩ := tbl_some hce
        simp only [tellPump] at hk
        by_cases hlt : c < s.ckts.length
        · rw [List.getElem?_append_left hlt] at hk
          exact .inl (by simp [tbl, hk])
        · rw [List.getElem?_append_right (by omega)] at hk
          cases h2 : c - s.ckts.length with
          | zero => rw [h2] at hk; simp at hk; subst hk; exact .inr ⟨by omega, rfl⟩
          | succ i => rw [h2] at hk; simp at hk
  | arrive msg =>
    simp only [step] at h
    split at h
    · cases h
    · split at h
      · split at h
        · cases h; exact flags rfl rfl rfl rfl rfl
        · cases h
      · split at h
        · cases h; exact ⟨hi.mem, hi.ph, hi.sub.arrive msg⟩
        · cases h
  | drop msg =>
    simp only [step] at h
    split at h
    · cases h
    · split at h
      · cases h
      · split at h
        · cases h
        · cases h; exact ⟨hi.mem, hi.ph, hi.sub.drop msg⟩
  | reqClose c reason =>
    simp only [step] at h
    split at h
    · cases h
    · rename_i k hk
      split at h
      · cases h; exact hi
      · cases h; exact flags (map_set_same hk rfl) rfl rfl rfl rfl
  | handClose c =>
    simp only [step] at h
    split at h
    · cases h
    · split at h
      · split at h
        · cases h; exact hi.cleanup c true
        · rename_i d f late hp
          cases h
          refine hi.loose rfl (fun _ _ h => h) (fun c => ?_) (fun d' f' l' hd => ?_) rfl rfl
          · simp only [handR, hp]; exact List.Sublist.refl _
          · cases hd; exact ⟨f, late, hp⟩
        · cases h
      · cases h
  | takeRead =>
    simp only [step] at h
    split at h
    · rename_i msg rest hp hq
      cases h
      exact hi.onRead hp hq
    · cases h
  | takeErr =>
    simp only [step] at h
    split at h
    · rename_i msg rest hp hq
      split at h
      · cases h; exact flags rfl rfl rfl rfl rfl
      · cases h
        refine hi.loose rfl (fun _ _ h => h) (fun c => ?_) (fun d' f' l' hd => nomatch hd) rfl rfl
        simp only [handR]; exact List.nil_sublist _
    · cases h
  | put =>
    simp only [step] at h
    split at h
    · rename_i c f late hp
      split at h
      · cases h
      · rename_i k hk
        split at h
        · cases h
          have h1 := loose_cleanups { s with
            ckts := s.ckts.set c { k with reads := k.reads ++ [f] }, phase := .idle } late
          refine ⟨fun id d hd => ?_, fun d f' l hd => ?_, ?_⟩
          · obtain ⟨k1, hk1, hid⟩ := hi.mem id d (h1.look id d hd)
            have e1 := congrArg (·[d]?) h1.ids
            simp only [List.getElem?_map, get_set hk] at e1
            by_cases hcd : c = d
            · subst hcd
              rw [hk] at hk1; cases hk1
              simp only [if_pos] at e1
              obtain ⟨k', hk', he⟩ := Option.map_eq_some_iff.1 e1
              exact ⟨k', hk', he.trans hid⟩
            · simp only [if_neg hcd, hk1] at e1
              obtain ⟨k', hk', he⟩ := Option.map_eq_some_iff.1 e1
              exact ⟨k', hk', he.trans hid⟩
          · have : (finish { s with
              ckts := s.ckts.set c { k with reads := k.reads ++ [f] } } late).phase = .idle := h1.phase
            rw [this] at hd; cases hd
          · have hph : (finish { s with
              ckts := s.ckts.set c { k with reads := k.reads ++ [f] } } late).phase = .idle := h1.phase
            have ha : (finish { s with
              ckts := s.ckts.set c { k with reads := k.reads ++ [f] } } late).arrived = s.arrived :=
              h1.arrived
            have hq : (finish { s with
              ckts := s.ckts.set c { k with reads := k.reads ++ [f] } } late).readsIn = s.readsIn :=
              h1.readsIn
            rw [ha, hq, handR_idle hph]
            refine sub_rows (h := fun _ => []) h1.rows ?_ (fun _ => List.Sublist.refl _)
            refine hi.sub.change (fun d e' he' => ?_)
            obtain ⟨k', hk', rfl⟩ := tbl_some he'
            simp only [get_set hk] at hk'
            split at hk'
            · rename_i hcd; subst hcd
              cases hk'
              refine ⟨rowR k, by simp [tbl, hk], rfl, ?_⟩
              simp [rowR, Ckt.delivered, handR, hp]
            · refine ⟨rowR k', by simp [tbl, hk'], rfl, ?_⟩
              rw [List.append_nil]
              exact List.sublist_append_left _ _
        · cases h
    · cases h
  | putErr =>
    simp only [step] at h
    split at h
    · rename_i c f hp
      split at h
      · cases h
      · rename_i k hk
        split at h
        · cases h
          have hids : (s.ckts.set c { k with errors := k.errors ++ [f] }).map Ckt.id =
              s.ckts.map Ckt.id := map_set_same hk rfl
          refine ⟨fun id d hd => ?_, (fun d f' l hd => (by cases hd)), ?_⟩
          · obtain ⟨k1, hk1, hid⟩ := hi.mem id d hd
            have e1 := congrArg (·[d]?) hids
            simp only [List.getElem?_map, hk1] at e1
            obtain ⟨k', hk', he⟩ := Option.map_eq_some_iff.1 e1
            exact ⟨k', hk', he.trans hid⟩
          · rw [show handR { s with
                ckts := s.ckts.set c { k with errors := k.errors ++ [f] }, phase := .idle } =
                fun _ => [] from handR_idle rfl]
            refine hi.sub.change (fun d e' he' => ?_)
            obtain ⟨k', hk', rfl⟩ := tbl_some he'
            simp only [get_set hk] at hk'
            split at hk'
            · rename_i hcd; subst hcd
              cases hk'
              refine ⟨rowR k, by simp [tbl, hk], rfl, ?_⟩
              rw [List.append_nil]
              exact List.sublist_append_left _ _
            · refine ⟨rowR k', by simp [tbl, hk'], rfl, ?_⟩
              rw [List.append_nil]
              exact List.sublist_append_left _ _
        · cases h
    · cases h
  | timeout2 =>
    simp only [step] at h
    split at h
    · cases h; exact (hi.cleanup _ _).finish _
    · cases h
  | timeout5 =>
    simp only [step] at h
    split at h
    · split at h
      · cases h
      · cases h; exact hi.finish _
    · cases h
  | seeHalt =>
    simp only [step] at h
    split at h
    · split at h
      · cases h
      · split at h
        · cases h; exact (hi.cleanup _ _).finish _
        · cases h
    · rename_i c f hp
      split at h
      · cases h
      · split at h
        · cases h
          refine (hi.cleanup c true).loose rfl (fun _ _ h => h) (fun c => ?_)
            (fun d' f' l' hd => nomatch hd) rfl rfl
          rw [handR_idle rfl]; exact List.nil_sublist _
        · cases h
    · cases h
  | reqStop => simp only [step] at h; cases h; exact flags rfl rfl rfl rfl rfl
  | exit =>
    simp only [step] at h
    split at h
    · split at h
      · cases h; exact hi.exit
      · cases h; exact (hi.finish _).exit
      · cases h; exact hi.exit
      · cases h
    · cases h
  | read c =>
    simp only [step] at h
    split at h
    · cases h
    · rename_i k hk
      split at h
      · cases h
      · rename_i f rest hrd
        cases h
        exact flags (map_set_same hk (by simp [Ckt.id, Ckt.delivered, Ckt.deliveredErr, hrd])) rfl rfl
          rfl rfl
  | readErr c =>
    simp only [step] at h
    split at h
    · cases h
    · rename_i k hk
      split at h
      · cases h
      · rename_i f rest hrd
        cases h
        exact flags (map_set_same hk (by simp [Ckt.id, Ckt.delivered, Ckt.deliveredErr, hrd])) rfl rfl
          rfl rfl
  | addRemote key peerID => simp only [step] at h; cases h; exact flags rfl rfl rfl rfl rfl

theorem sinv_run {s s' : State} {as : List Action} (hi : SInv s) (h : run s as = some s') :
    SInv s' := by
  induction as generalizing s with
  | nil => cases h; exact hi
  | cons a as ih =>
    simp only [run, Option.bind_eq_some_iff] at h
    obtain ⟨s1, h1, h2⟩ := h
    exact ih (sinv_step hi h1) h2

theorem sinv_fresh {s : State} (h : Fresh s) : SInv s := by
  obtain ⟨h1, h2, h3, h4, h5, _, h7, h8, _⟩ := h
  exact ⟨fun _ _ h => by simp [h2, lookup] at h, fun d f l h => by simp [h5] at h,
    ⟨[], by simp [h3, h7], fun c e he => by simp [tbl, h1] at he⟩⟩

end Verif.Pump
