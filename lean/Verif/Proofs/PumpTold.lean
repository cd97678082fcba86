import Verif.Proofs.PumpRun
/-
What the pump tells the remote about a circuit, that closing is final, and when the pump stops.
-/
namespace Verif.Pump

open Verif.Frag

/-! ### Closing is final -/

/-- Closed circuits stay closed and get nothing more. -/
def Final (s s' : State) : Prop :=
  ∀ (c : Nat) k, s.ckts[c]? = some k → k.canc = true →
    ∃ k', s'.ckts[c]? = some k' ∧ k'.canc = true ∧ k'.delivered = k.delivered ∧
      k'.deliveredErr = k.deliveredErr

theorem Final.trans {a b c : State} (h1 : Final a b) (h2 : Final b c) : Final a c := by
  intro d k hk hc
  obtain ⟨k1, hk1, hc1, e1, e2⟩ := h1 d k hk hc
  obtain ⟨k2, hk2, hc2, e3, e4⟩ := h2 d k1 hk1 hc1
  exact ⟨k2, hk2, hc2, e3.trans e1, e4.trans e2⟩

theorem Final.same {s s' : State} (h : s'.ckts = s.ckts) : Final s s' := by
  intro c k hk hc
  exact ⟨k, by rw [h]; exact hk, hc, rfl, rfl⟩

theorem Shut.final {s s' : State} (h : Shut s s') : Final s s' := by
  intro c k hk hc
  have hlt : c < s'.ckts.length := by rw [h.len]; exact (List.getElem?_eq_some_iff.1 hk).1
  obtain ⟨k0, hk0, h1⟩ := h.ckt c _ (List.getElem?_eq_getElem hlt)
  rw [hk] at hk0; cases hk0
  refine ⟨_, List.getElem?_eq_getElem hlt, ?_⟩
  rcases h1 with h1 | ⟨h1, _⟩
  · rw [h1]; exact ⟨hc, rfl, rfl⟩
  · rw [hc] at h1; cases h1

/-- A change of one circuit that is open, or that keeps what was delivered on it. -/
theorem Final.set {s s' : State} {c : Nat} {k k' : Ckt} (hk : s.ckts[c]? = some k)
    (hs : s'.ckts = s.ckts.set c k')
    (h : k.canc = false ∨ (k'.canc = k.canc ∧ k'.delivered = k.delivered ∧
      k'.deliveredErr = k.deliveredErr)) : Final s s' := by
  intro d k1 hk1 hc
  rw [hs]
  by_cases hcd : c = d
  · subst hcd
    rw [hk] at hk1; cases hk1
    rcases h with h | ⟨h1, h2⟩
    · rw [h] at hc; cases hc
    · exact ⟨k', by rw [get_set hk]; simp, h1.trans hc, h2⟩
  · exact ⟨k1, by rw [get_set hk, if_neg hcd]; exact hk1, hc, rfl, rfl⟩

theorem exit_final {s : State} (h : VI (view s) s.m) : Final s (exitPump s) := by
  obtain ⟨_, _, _, h1, h2⟩ := exit_props h
  exact h1.final.trans (Final.same h2)

theorem finish_final {s : State} (h : VI (view s) s.m) (late : List Nat) :
    Final s (finish s late) :=
  (Final.same (s' := { s with phase := .idle }) rfl).trans (finish_shut late h).final

theorem onRead_final {s : State} {msg : Message} (h : VI (view s) s.m) :
    Final s (onRead s msg) := by
  unfold onRead
  split
  · exact (Final.same (s' := { s with remotes := erase s.remotes msg.fromPeerID }) rfl).trans
      (exit_final (s := { s with remotes := erase s.remotes msg.fromPeerID }) h)
  · dsimp only
    generalize hs1 : (if msg.typ = callPeerFromIsShutdown ∧ msg.fromPeerID ≠ s.self then
        { s with remotes := erase s.remotes msg.fromPeerID } else s) = s1
    have hck : s1.ckts = s.ckts := by rw [← hs1]; split <;> rfl
    have hm : s1.m = s.m := by rw [← hs1]; split <;> rfl
    have h1 : VI (view s1) s1.m := by simp only [view, hck, hm]; exact h
    have h0 : Final s s1 := Final.same hck
    split
    · exact h0
    · split
      · exact h0.trans (shut_cleanup _ _ h1).final
      · exact h0.trans (Final.same rfl)

theorem final_step {s s' : State} {a : Action} (hi : Inv s) (h : step s a = some s') :
    Final s s' := by
  cases a with
  | tell info =>
    simp only [step] at h
    have hs : s' = tellPump s info := by split at h <;> cases h <;> rfl
    subst hs
    intro c k hk hc
    refine ⟨k, ?_, hc, rfl, rfl⟩
    simp only [tellPump]
    rw [List.getElem?_append_left (List.getElem?_eq_some_iff.1 hk).1]; exact hk
  | arrive msg =>
    simp only [step] at h
    repeat' split at h
    all_goals cases h
    all_goals exact Final.same rfl
  | drop msg =>
    simp only [step] at h
    repeat' split at h
    all_goals cases h
    all_goals exact Final.same rfl
  | reqClose c reason =>
    simp only [step] at h
    split at h
    · cases h
    · rename_i k hk
      split at h
      · cases h; exact Final.same rfl
      · cases h; exact Final.set hk rfl (.inr ⟨rfl, rfl, rfl⟩)
  | handClose c =>
    simp only [step] at h
    split at h
    · cases h
    · split at h
      · split at h
        · cases h; exact (shut_cleanup c true hi.vi).final
        · cases h; exact Final.same rfl
        · cases h
      · cases h
  | takeRead =>
    simp only [step] at h
    split at h
    · rename_i msg rest hp hq
      cases h
      exact (Final.same (s' := { s with readsIn := rest }) rfl).trans
        (onRead_final (s := { s with readsIn := rest }) hi.vi)
    · cases h
  | takeErr =>
    simp only [step] at h
    split at h
    · split at h <;> cases h <;> exact Final.same rfl
    · cases h
  | put =>
    simp only [step] at h
    split at h
    · rename_i c f late hp
      split at h
      · cases h
      · rename_i k hk
        split at h
        · cases h
          have hopen : k.canc = false := by
            have := hi.ph
            simp only [PhOk, hp] at this
            obtain ⟨k0, hk0, hc0⟩ := this
            rw [hk] at hk0; cases hk0; exact hc0
          have h1 : Final s { s with ckts := s.ckts.set c { k with reads := k.reads ++ [f] } } :=
            Final.set hk rfl (.inl hopen)
          refine h1.trans (finish_final ?_ late)
          have : view { s with ckts := s.ckts.set c { k with reads := k.reads ++ [f] } } = view s :=
            map_set_same hk rfl
          rw [this]; exact hi.vi
        · cases h
    · cases h
  | putErr =>
    simp only [step] at h
    split at h
    · rename_i c f hp
      split at h
      · cases h
      · rename_i k hk
        split at h
        · cases h
          have hopen : k.canc = false := by
            have := hi.ph
            simp only [PhOk, hp] at this
            obtain ⟨k0, hk0, hc0⟩ := this
            rw [hk] at hk0; cases hk0; exact hc0
          exact Final.set hk rfl (.inl hopen)
        · cases h
    · cases h
  | timeout2 =>
    simp only [step] at h
    split at h
    · rename_i c f late hp
      cases h
      have h1 := shut_cleanup (s := s) c true hi.vi
      exact h1.final.trans (finish_final h1.vi _)
    · cases h
  | timeout5 =>
    simp only [step] at h
    split at h
    · split at h
      · cases h
      · cases h; exact finish_final hi.vi _
    · cases h
  | seeHalt =>
    simp only [step] at h
    split at h
    · rename_i c f late hp
      split at h
      · cases h
      · split at h
        · cases h
          have h1 := shut_cleanup (s := s) c true hi.vi
          exact h1.final.trans (finish_final h1.vi _)
        · cases h
    · rename_i c f hp
      split at h
      · cases h
      · split at h
        · cases h
          have h1 := shut_cleanup (s := s) c true hi.vi
          exact h1.final.trans (Final.same rfl)
        · cases h
    · cases h
  | reqStop => simp only [step] at h; cases h; exact Final.same rfl
  | exit =>
    simp only [step] at h
    split at h
    · split at h
      · cases h; exact exit_final hi.vi
      · cases h
        exact (finish_final hi.vi _).trans (exit_final (finish_shut _ hi.vi).vi)
      · cases h; exact exit_final hi.vi
      · cases h
    · cases h
  | read c =>
    simp only [step] at h
    split at h
    · cases h
    · rename_i k hk
      split at h
      · cases h
      · rename_i f rest hrd
        cases h
        exact Final.set hk rfl (.inr ⟨rfl, by simp [Ckt.delivered, hrd], rfl⟩)
  | readErr c =>
    simp only [step] at h
    split at h
    · cases h
    · rename_i k hk
      split at h
      · cases h
      · rename_i f rest hrd
        cases h
        exact Final.set hk rfl (.inr ⟨rfl, rfl, by simp [Ckt.deliveredErr, hrd]⟩)
  | addRemote key peerID => simp only [step] at h; cases h; exact Final.same rfl

theorem final_run {s s' : State} {as : List Action} (hi : Inv s) (h : run s as = some s')
    (hu : UniqueIds s') : Final s s' := by
  induction as generalizing s with
  | nil => cases h; exact Final.same rfl
  | cons a as ih =>
    simp only [run, Option.bind_eq_some_iff] at h
    obtain ⟨s1, h1, h2⟩ := h
    exact (final_step hi h1).trans (ih (inv_step hi (hu.of_prefix (ids_run h2)) h1).1 h2)

/-! ### What the remote is told -/

/-- What the pump has sent about one circuit. -/
structure ToldOk (out arrived : List Message) (info : Circuit) (canc : Bool) : Prop where
  opn : canc = false → out.filter (fun m => m.callID == info.circuitID) = []
  once : (out.filter (fun m => m.callID == info.circuitID)).length ≤ 1
  dest : ∀ m ∈ out.filter (fun m => m.callID == info.circuitID), m.toPeerID = info.remotePeerID
  why : canc = true → out.filter (fun m => m.callID == info.circuitID) = [] →
    ∃ m ∈ arrived, m.callID = info.circuitID ∧ m.typ = callPeerEndCircuit

/-- The circuits as the invariant below sees them. -/
def pairs (s : State) : List (Circuit × Bool) := s.ckts.map (fun k => (k.info, k.canc))

structure TI (s : State) : Prop where
  inn : ∀ m ∈ s.readsIn, m ∈ s.arrived
  told : ∀ (c : Nat) p, (pairs s)[c]? = some p → p.1.circuitID ≠ [] →
    ToldOk s.out s.arrived p.1 p.2
  fresh : ∀ id, id ≠ [] → (∀ p ∈ pairs s, p.1.circuitID ≠ id) →
    s.out.filter (fun m => m.callID == id) = []

theorem pairs_get {s : State} {c : Nat} {k : Ckt} (h : s.ckts[c]? = some k) :
    (pairs s)[c]? = some (k.info, k.canc) := by simp [pairs, h]

theorem TI.same {s s' : State} (h : TI s) (hp : pairs s' = pairs s) (ho : s'.out = s.out)
    (ha : ∀ m ∈ s.arrived, m ∈ s'.arrived) (hr : ∀ m ∈ s'.readsIn, m ∈ s'.arrived) : TI s' := by
  refine ⟨hr, fun c p hc hne => ?_, fun id hid hf => ?_⟩
  · rw [hp] at hc
    obtain ⟨h1, h2, h3, h4⟩ := h.told c p hc hne
    rw [ho]
    exact ⟨h1, h2, h3, fun h5 h6 => by obtain ⟨m, hm, h7⟩ := h4 h5 h6; exact ⟨m, ha m hm, h7⟩⟩
  · rw [ho]; rw [hp] at hf; exact h.fresh id hid hf

/-- The fragment the closing message is made of. -/
def closingFrag (k : Ckt) : Fragment :=
  { typ := callPeerEndCircuit
    serial := 1
    fromPeerName := k.info.localPeerName
    err := if k.stopReq then k.reason else []
    circuitID := k.id
    fromPeerID := k.info.localPeerID
    toPeerID := k.info.remotePeerID }

theorem closing_callID (k : Ckt) : (closing k).callID = k.id := by
  have h : (toMessage 0 1 (closingFrag k)).callID = k.id := by
    unfold toMessage; dsimp only; split <;> rfl
  change fillBlank (toMessage 0 1 (closingFrag k)).callID k.info.circuitID = k.id
  rw [h]; exact ite_self _

theorem closing_toPeerID (k : Ckt) : (closing k).toPeerID = k.info.remotePeerID := by
  have h : (toMessage 0 1 (closingFrag k)).toPeerID = k.info.remotePeerID := by
    unfold toMessage; dsimp only; split <;> rfl
  change fillBlank (toMessage 0 1 (closingFrag k)).toPeerID k.info.remotePeerID = _
  rw [h]; exact ite_self _

theorem TI.cleanup {s : State} (h : TI s) (hv : VI (view s) s.m) (c : Nat) (b : Bool)
    (hb : b = false → ∀ k, s.ckts[c]? = some k →
      ∃ m ∈ s.arrived, m.callID = k.id ∧ m.typ = callPeerEndCircuit) : TI (cleanup s c b) := by
  cases hk : s.ckts[c]? with
  | none => simp only [Pump.cleanup, hk]; exact h
  | some k =>
    cases hc : k.canc with
    | true => rw [cleanup_closed hv hk hc]; exact h
    | false =>
      rw [cleanup_open hv hk hc]
      have hpk := pairs_get hk
      have hget : ∀ (d : Nat) p, (pairs { s with
          out := if b then s.out ++ [closing k] else s.out
          ckts := s.ckts.set c k.shut
          m := erase s.m k.id })[d]? = some p →
          (d = c ∧ p = (k.info, true)) ∨ (d ≠ c ∧ (pairs s)[d]? = some p) := by
        intro d p hd
        simp only [pairs, List.getElem?_map] at hd
        rw [get_set hk] at hd
        by_cases hcd : c = d
        · rw [if_pos hcd] at hd
          simp only [Option.map_some, Option.some.injEq] at hd
          exact .inl ⟨hcd.symm, hd.symm⟩
        · rw [if_neg hcd] at hd
          exact .inr ⟨fun e => hcd e.symm, by simp only [pairs, List.getElem?_map]; exact hd⟩
      have hother : ∀ id, id ≠ k.id → (if b then s.out ++ [closing k] else s.out).filter
          (fun m => m.callID == id) = s.out.filter (fun m => m.callID == id) := by
        intro id hid
        split
        · rw [List.filter_append]
          have : ¬ k.id = id := fun e => hid e.symm
          simp [closing_callID, this]
        · rfl
      refine ⟨h.inn, fun d p hd hne => ?_, fun id hid hf => ?_⟩
      · rcases hget d p hd with ⟨rfl, rfl⟩ | ⟨hdc, hd⟩
        · have h0 := h.told _ _ hpk hne
          have h1 := h0.opn hc
          dsimp only at h1 ⊢
          cases b with
          | true =>
            have hself : (s.out ++ [closing k]).filter (fun m => m.callID == k.info.circuitID) =
                [closing k] := by
              rw [List.filter_append, h1]; simp [closing_callID, Ckt.id]
            refine ⟨(fun h => nomatch h), ?_, ?_, ?_⟩
            · simp only [if_true, hself]; simp
            · simp only [if_true, hself]
              intro m hm; rw [List.mem_singleton.1 hm]; exact closing_toPeerID k
            · simp only [if_true, hself]; intro _ h; cases h
          | false =>
            refine ⟨(fun h => nomatch h), ?_, ?_, fun _ _ => hb rfl k hk⟩
            · simp only [Bool.false_eq_true, if_false, h1]; simp
            · simp only [Bool.false_eq_true, if_false, h1]; intro m hm; cases hm
        · have hidne : p.1.circuitID ≠ k.id := by
            intro e
            have h3 : (view s)[d]? = some (k.id, p.2) := by
              simp only [pairs, List.getElem?_map] at hd
              obtain ⟨k1, hk1, rfl⟩ := Option.map_eq_some_iff.1 hd
              have := view_get hk1
              rw [show k1.id = k.id from e] at this
              exact this
            exact hdc (hv.same h3 (view_get hk))
          obtain ⟨h1, h2, h3, h4⟩ := h.told d p hd hne
          dsimp only
          refine ⟨?_, ?_, ?_, ?_⟩
          · rw [hother _ hidne]; exact h1
          · rw [hother _ hidne]; exact h2
          · rw [hother _ hidne]; exact h3
          · rw [hother _ hidne]; exact h4
      · dsimp only
        have hidk : id ≠ k.id := by
          intro e
          have : (k.info, true) ∈ pairs { s with
              out := if b then s.out ++ [closing k] else s.out
              ckts := s.ckts.set c k.shut
              m := erase s.m k.id } := by
            apply List.mem_of_getElem? (i := c)
            simp only [pairs, List.getElem?_map]
            rw [get_set hk]; simp [Ckt.shut]
          exact hf _ this e.symm
        rw [hother id hidk]
        refine h.fresh id hid (fun p hp => ?_)
        obtain ⟨d, hd⟩ := List.getElem?_of_mem hp
        by_cases hdc : d = c
        · subst hdc; rw [hpk] at hd; cases hd; exact fun e => hidk e.symm
        · refine hf p (List.mem_of_getElem? (i := d) ?_)
          simp only [pairs, List.getElem?_map] at hd ⊢
          rw [get_set hk, if_neg (fun e => hdc e.symm)]; exact hd

theorem TI.cleanups {s : State} (h : TI s) (hv : VI (view s) s.m) (cs : List Nat) :
    TI (cleanups s cs) := by
  induction cs generalizing s with
  | nil => exact h
  | cons c cs ih =>
    exact ih (h.cleanup hv c true (fun h => nomatch h)) (shut_cleanup c true hv).vi

theorem TI.finish {s : State} (h : TI s) (hv : VI (view s) s.m) (late : List Nat) :
    TI (finish s late) :=
  TI.cleanups (s := { s with phase := .idle }) (h.same rfl rfl (fun _ h => h) h.inn) hv late

theorem TI.exit {s : State} (h : TI s) (hv : VI (view s) s.m) : TI (exitPump s) := by
  have h1 := h.cleanups hv (s.m.map (·.2))
  have hn : ∀ (rs : List (Str × Str)) self id, id ≠ [] →
      (rs.map (notice self)).filter (fun m => m.callID == id) = [] := by
    intro rs self id hid
    rw [List.filter_eq_nil_iff]
    intro m hm
    obtain ⟨r, _, rfl⟩ := List.mem_map.1 hm
    simp only [notice, beq_iff_eq]
    exact fun e => hid e.symm
  refine ⟨h1.inn, fun c p hc hne => ?_, fun id hid hf => ?_⟩
  · obtain ⟨h2, h3, h4, h5⟩ := h1.told c p hc hne
    constructor
    all_goals (simp only [exitPump, List.filter_append, hn _ _ _ hne, List.append_nil]; assumption)
  · simp only [exitPump, List.filter_append, hn _ _ _ hid, List.append_nil]
    exact h1.fresh id hid hf

theorem TI.onRead {s : State} {msg : Message} (h : TI s) (hv : VI (view s) s.m)
    (hm : msg ∈ s.arrived) : TI (onRead s msg) := by
  unfold Pump.onRead
  split
  · exact TI.exit (s := { s with remotes := _ }) (h.same rfl rfl (fun _ h => h) h.inn) hv
  · dsimp only
    generalize hs1 : (if msg.typ = callPeerFromIsShutdown ∧ msg.fromPeerID ≠ s.self then
        { s with remotes := erase s.remotes msg.fromPeerID } else s) = s1
    have hck : s1.ckts = s.ckts := by rw [← hs1]; split <;> rfl
    have hm1 : s1.m = s.m := by rw [← hs1]; split <;> rfl
    have ha : s1.arrived = s.arrived := by rw [← hs1]; split <;> rfl
    have h0 : TI s1 := by
      rw [← hs1]; split
      · exact h.same rfl rfl (fun _ h => h) h.inn
      · exact h
    have h1 : VI (view s1) s1.m := by simp only [view, hck, hm1]; exact hv
    clear hs1
    split
    · exact h0
    · rename_i d hn
      split
      · rename_i hend
        refine h0.cleanup h1 d false (fun _ k hk => ⟨msg, by rw [ha]; exact hm, ?_, hend⟩)
        have h2 := h1.mem _ _ hn
        rw [view_get hk] at h2
        simp only [Option.some.injEq, Prod.mk.injEq] at h2; exact h2.1.symm
      · exact h0.same rfl rfl (fun _ h => h) h0.inn

theorem ti_step {s s' : State} {a : Action} (ht : TI s) (hi : Inv s)
    (hu : UniqueIds s') (h : step s a = some s') : TI s' := by
  have keep : ∀ {t : State}, pairs t = pairs s → t.out = s.out → t.arrived = s.arrived →
      t.readsIn = s.readsIn → TI t := by
    intro t h1 h2 h3 h4
    exact ht.same h1 h2 (by rw [h3]; exact fun _ h => h) (by rw [h3, h4]; exact ht.inn)
  cases a with
  | tell info =>
    simp only [step] at h
    have hs : s' = tellPump s info := by split at h <;> cases h <;> rfl
    subst hs
    have hpp : pairs (tellPump s info) = pairs s ++ [(info, false)] := by
      simp [pairs, tellPump, newCkt]
    have hnew : ∀ p ∈ pairs s, p.1.circuitID ≠ info.circuitID := by
      intro p hp e
      simp only [UniqueIds, tellPump, List.map_append, List.map_cons, List.map_nil] at hu
      rw [List.nodup_append] at hu
      obtain ⟨k, hk, rfl⟩ := List.mem_map.1 hp
      exact hu.2.2 k.id (List.mem_map_of_mem hk) (newCkt s info).id (by simp) e
    refine ⟨ht.inn, fun c p hc hne => ?_, fun id hid hf => ?_⟩
    · rw [hpp] at hc
      rcases List.mem_append.1 (List.mem_of_getElem? hc) with hp | hp
      · obtain ⟨d, hd⟩ := List.getElem?_of_mem hp
        exact ht.told d p hd hne
      · rw [List.mem_singleton.1 hp] at hne ⊢
        have := ht.fresh _ hne hnew
        exact ⟨fun _ => this, by change List.length _ ≤ 1; simp only [tellPump, this]; simp,
          by (simp only [tellPump, this]; intro m hm; cases hm), (fun h => nomatch h)⟩
    · exact ht.fresh id hid (fun p hp => hf p (by rw [hpp]; exact List.mem_append_left _ hp))
  | arrive msg =>
    simp only [step] at h
    split at h
    · cases h
    · split at h
      · split at h
        · cases h; exact keep rfl rfl rfl rfl
        · cases h
      · split at h
        · cases h
          refine ht.same rfl rfl (fun m hm => List.mem_append_left _ hm) (fun m hm => ?_)
          rcases List.mem_append.1 hm with hm | hm
          · exact List.mem_append_left _ (ht.inn m hm)
          · exact List.mem_append_right _ hm
        · cases h
  | drop msg =>
    simp only [step] at h
    split at h
    · cases h
    · split at h
      · cases h
      · split at h
        · cases h
        · cases h
          exact ht.same rfl rfl (fun m hm => List.mem_append_left _ hm)
            (fun m hm => List.mem_append_left _ (ht.inn m hm))
  | reqClose c reason =>
    simp only [step] at h
    split at h
    · cases h
    · rename_i k hk
      split at h
      · cases h; exact ht
      · cases h; exact keep (map_set_same hk rfl) rfl rfl rfl
  | handClose c =>
    simp only [step] at h
    split at h
    · cases h
    · split at h
      · split at h
        · cases h; exact ht.cleanup hi.vi c true (fun h => nomatch h)
        · cases h; exact keep rfl rfl rfl rfl
        · cases h
      · cases h
  | takeRead =>
    simp only [step] at h
    split at h
    · rename_i msg rest hp hq
      cases h
      have hmem : ∀ m ∈ msg :: rest, m ∈ s.arrived := by rw [← hq]; exact ht.inn
      refine TI.onRead (s := { s with readsIn := rest }) ?_ hi.vi (hmem msg (by simp))
      exact ht.same rfl rfl (fun _ h => h) (fun m hm => hmem m (List.mem_cons_of_mem _ hm))
    · cases h
  | takeErr =>
    simp only [step] at h
    split at h
    · split at h <;> cases h <;> exact keep rfl rfl rfl rfl
    · cases h
  | put =>
    simp only [step] at h
    split at h
    · rename_i c f late hp
      split at h
      · cases h
      · rename_i k hk
        split at h
        · cases h
          have hvw : view { s with ckts := s.ckts.set c { k with reads := k.reads ++ [f] } } =
            view s := map_set_same hk rfl
          refine TI.finish (keep (t := { s with
            ckts := s.ckts.set c { k with reads := k.reads ++ [f] } }) (map_set_same hk rfl) rfl rfl
            rfl) ?_ late
          rw [hvw]; exact hi.vi
        · cases h
    · cases h
  | putErr =>
    simp only [step] at h
    split at h
    · split at h
      · cases h
      · rename_i k hk
        split at h
        · cases h; exact keep (map_set_same hk rfl) rfl rfl rfl
        · cases h
    · cases h
  | timeout2 =>
    simp only [step] at h
    split at h
    · cases h
      exact TI.finish (ht.cleanup hi.vi _ true (fun h => nomatch h)) (shut_cleanup _ true hi.vi).vi _
    · cases h
  | timeout5 =>
    simp only [step] at h
    split at h
    · split at h
      · cases h
      · cases h; exact ht.finish hi.vi _
    · cases h
  | seeHalt =>
    simp only [step] at h
    split at h
    · split at h
      · cases h
      · split at h
        · cases h
          exact TI.finish (ht.cleanup hi.vi _ true (fun h => nomatch h))
            (shut_cleanup _ true hi.vi).vi _
        · cases h
    · rename_i c f hp
      split at h
      · cases h
      · split at h
        · cases h
          have h1 := ht.cleanup hi.vi c true (fun h => nomatch h)
          exact h1.same rfl rfl (fun _ h => h) h1.inn
        · cases h
    · cases h
  | reqStop => simp only [step] at h; cases h; exact keep rfl rfl rfl rfl
  | exit =>
    simp only [step] at h
    split at h
    · split at h
      · cases h; exact ht.exit hi.vi
      · cases h; exact (ht.finish hi.vi _).exit (finish_shut _ hi.vi).vi
      · cases h; exact ht.exit hi.vi
      · cases h
    · cases h
  | read c =>
    simp only [step] at h
    split at h
    · cases h
    · rename_i k hk
      split at h
      · cases h
      · cases h; exact keep (map_set_same hk rfl) rfl rfl rfl
  | readErr c =>
    simp only [step] at h
    split at h
    · cases h
    · rename_i k hk
      split at h
      · cases h
      · cases h; exact keep (map_set_same hk rfl) rfl rfl rfl
  | addRemote key peerID => simp only [step] at h; cases h; exact keep rfl rfl rfl rfl

theorem ti_run {s s' : State} {as : List Action} (ht : TI s) (hi : Inv s)
    (h : run s as = some s') (hu : UniqueIds s') : TI s' := by
  induction as generalizing s with
  | nil => cases h; exact ht
  | cons a as ih =>
    simp only [run, Option.bind_eq_some_iff] at h
    obtain ⟨s1, h1, h2⟩ := h
    have hu1 := hu.of_prefix (ids_run h2)
    exact ih (ti_step ht hi hu1 h1) (inv_step hi hu1 h1).1 h2

theorem ti_fresh {s : State} (h : Fresh s) : TI s := by
  obtain ⟨h1, h2, h3, h4, h5, h6, h7, h8, _⟩ := h
  exact ⟨by simp [h3], fun c p hc => by simp [pairs, h1] at hc, fun id _ _ => by simp [h6]⟩

/-! ### When the pump stops -/

/-- Running. -/
structure Runs (s : State) : Prop where
  stop : s.stop = false
  phase : s.phase ≠ .stopped

theorem runs_finish {s : State} (h : Runs s) (late : List Nat) : Runs (finish s late) := by
  have h1 := loose_cleanups { s with phase := .idle } late
  exact ⟨h1.stop.trans h.stop, by
    rw [show (finish s late).phase = .idle from h1.phase]; exact nofun⟩

theorem runs_cleanup {s : State} (h : Runs s) (c : Nat) (b : Bool) : Runs (cleanup s c b) := by
  have h1 := loose_cleanup s c b
  exact ⟨h1.stop.trans h.stop, by rw [h1.phase]; exact h.phase⟩

theorem runs_step {s s' : State} {a : Action} (hr : Runs s) (ha : a ≠ .reqStop)
    (hq : s.autoPeers = true → ∀ m ∈ s.readsIn, m.typ = callPeerFromIsShutdown →
      m.fromPeerID = s.self) (h : step s a = some s') : Runs s' := by
  have same : ∀ {t : State}, t.stop = s.stop →
      (t.phase = s.phase ∨ t.phase ≠ .stopped) → Runs t := by
    intro t h2 h3
    exact ⟨h2.trans hr.stop, by
      rcases h3 with h3 | h3
      · rw [h3]; exact hr.phase
      · exact h3⟩
  cases a with
  | tell info =>
    simp only [step] at h
    have hs : s' = tellPump s info := by split at h <;> cases h <;> rfl
    subst hs; exact same rfl (.inl rfl)
  | arrive msg =>
    simp only [step] at h
    repeat' split at h
    all_goals cases h
    all_goals exact same rfl (.inl rfl)
  | drop msg =>
    simp only [step] at h
    repeat' split at h
    all_goals cases h
    all_goals exact same rfl (.inl rfl)
  | reqClose c reason =>
    simp only [step] at h
    split at h
    · cases h
    · split at h
      · cases h; exact hr
      · cases h; exact same rfl (.inl rfl)
  | handClose c =>
    simp only [step] at h
    split at h
    · cases h
    · split at h
      · split at h
        · cases h; exact runs_cleanup hr c true
        · cases h; exact same rfl (.inr nofun)
        · cases h
      · cases h
  | takeRead =>
    simp only [step] at h
    split at h
    · rename_i msg rest hp hr'
      cases h
      unfold onRead
      split
      · rename_i hc
        exact absurd (hq hc.2.2.2 msg (by rw [hr']; simp) hc.1) hc.2.1
      · dsimp only
        generalize hs1 : (if msg.typ = callPeerFromIsShutdown ∧ msg.fromPeerID ≠ s.self then
            { s with readsIn := rest, remotes := erase s.remotes msg.fromPeerID }
            else { s with readsIn := rest }) = s1
        have h1 : Runs s1 := by rw [← hs1]; split <;> exact same rfl (.inl rfl)
        split
        · exact h1
        · split
          · exact runs_cleanup h1 _ _
          · exact ⟨h1.stop, nofun⟩
    · cases h
  | takeErr =>
    simp only [step] at h
    split at h
    · split at h
      · cases h; exact same rfl (.inl rfl)
      · cases h; exact same rfl (.inr nofun)
    · cases h
  | put =>
    simp only [step] at h
    split at h
    · rename_i c f late hp
      split at h
      · cases h
      · rename_i k hk
        split at h
        · cases h
          exact runs_finish (s := { s with
            ckts := s.ckts.set c { k with reads := k.reads ++ [f] } }) (same rfl (.inl rfl)) _
        · cases h
    · cases h
  | putErr =>
    simp only [step] at h
    split at h
    · split at h
      · cases h
      · split at h
        · cases h; exact same rfl (.inr nofun)
        · cases h
    · cases h
  | timeout2 =>
    simp only [step] at h
    split at h
    · cases h; exact runs_finish (runs_cleanup hr _ _) _
    · cases h
  | timeout5 =>
    simp only [step] at h
    split at h
    · split at h
      · cases h
      · cases h; exact runs_finish hr _
    · cases h
  | seeHalt =>
    simp only [step] at h
    split at h
    · split at h
      · cases h
      · split at h
        · cases h; exact runs_finish (runs_cleanup hr _ _) _
        · cases h
    · rename_i c f hp
      split at h
      · cases h
      · split at h
        · cases h
          have h1 := runs_cleanup hr c true
          exact ⟨h1.stop, nofun⟩
        · cases h
    · cases h
  | reqStop => exact absurd rfl ha
  | exit =>
    simp only [step] at h
    split at h
    · rename_i hs; rw [hr.stop] at hs; cases hs
    · cases h
  | read c =>
    simp only [step] at h
    split at h
    · cases h
    · split at h
      · cases h
      · cases h; exact same rfl (.inl rfl)
  | readErr c =>
    simp only [step] at h
    split at h
    · cases h
    · split at h
      · cases h
      · cases h; exact same rfl (.inl rfl)
  | addRemote key peerID => simp only [step] at h; cases h; exact same rfl (.inl rfl)

/-- What never changes, and what only grows. -/
structure Grow (s s' : State) : Prop where
  arrived : s.arrived <+: s'.arrived
  self : s'.self = s.self
  autoPeers : s'.autoPeers = s.autoPeers

theorem Grow.same {s s' : State} (h1 : s'.arrived = s.arrived) (h2 : s'.self = s.self)
    (h3 : s'.autoPeers = s.autoPeers) : Grow s s' := ⟨h1 ▸ List.prefix_refl _, h2, h3⟩

theorem Grow.trans {a b c : State} (h1 : Grow a b) (h2 : Grow b c) : Grow a c :=
  ⟨h1.arrived.trans h2.arrived, h2.self.trans h1.self, h2.autoPeers.trans h1.autoPeers⟩

theorem Loose.grow {s s' : State} (h : Loose s s') : Grow s s' :=
  Grow.same h.arrived h.self h.autoPeers

theorem grow_finish (s : State) (late : List Nat) : Grow s (finish s late) := by
  have h := loose_cleanups { s with phase := .idle } late
  exact Grow.same h.arrived h.self h.autoPeers

theorem grow_exit (s : State) : Grow s (exitPump s) := by
  have h := loose_cleanups s (s.m.map (fun e => e.2))
  exact Grow.same h.arrived h.self h.autoPeers

theorem grow_onRead (s : State) (msg : Message) : Grow s (onRead s msg) := by
  unfold onRead
  split
  · exact (Grow.same (s := s) (s' := { s with remotes := erase s.remotes msg.fromPeerID }) rfl rfl rfl).trans
      (grow_exit _)
  · dsimp only
    generalize hs1 : (if msg.typ = callPeerFromIsShutdown ∧ msg.fromPeerID ≠ s.self then
        { s with remotes := erase s.remotes msg.fromPeerID } else s) = s1
    have h1 : Grow s s1 := by rw [← hs1]; split <;> exact Grow.same rfl rfl rfl
    split
    · exact h1
    · split
      · exact h1.trans (loose_cleanup _ _ _).grow
      · exact h1.trans (Grow.same rfl rfl rfl)

theorem grow_step {s s' : State} {a : Action} (h : step s a = some s') : Grow s s' := by
  cases a with
  | tell info =>
    simp only [step] at h
    have hs : s' = tellPump s info := by split at h <;> cases h <;> rfl
    subst hs; exact Grow.same rfl rfl rfl
  | arrive msg =>
    simp only [step] at h
    repeat' split at h
    all_goals cases h
    · exact Grow.same rfl rfl rfl
    · exact ⟨List.prefix_append _ _, rfl, rfl⟩
  | drop msg =>
    simp only [step] at h
    repeat' split at h
    all_goals cases h
    exact ⟨List.prefix_append _ _, rfl, rfl⟩
  | handClose c =>
    simp only [step] at h
    split at h
    · cases h
    · split at h
      · split at h
        · cases h; exact (loose_cleanup s c true).grow
        · cases h; exact Grow.same rfl rfl rfl
        · cases h
      · cases h
  | takeRead =>
    simp only [step] at h
    split at h
    · rename_i msg rest hp hq
      cases h
      exact (Grow.same (s := s) (s' := { s with readsIn := rest }) rfl rfl rfl).trans (grow_onRead _ _)
    · cases h
  | put =>
    simp only [step] at h
    split at h
    · rename_i c f late hp
      split at h
      · cases h
      · rename_i k hk
        split at h
        · cases h
          exact (Grow.same (s := s) (s' := { s with
            ckts := s.ckts.set c { k with reads := k.reads ++ [f] } }) rfl rfl rfl).trans
            (grow_finish _ _)
        · cases h
    · cases h
  | timeout2 =>
    simp only [step] at h
    split at h
    · cases h; exact (loose_cleanup _ _ _).grow.trans (grow_finish _ _)
    · cases h
  | timeout5 =>
    simp only [step] at h
    split at h
    · split at h
      · cases h
      · cases h; exact grow_finish _ _
    · cases h
  | seeHalt =>
    simp only [step] at h
    split at h
    · split at h
      · cases h
      · split at h
        · cases h; exact (loose_cleanup _ _ _).grow.trans (grow_finish _ _)
        · cases h
    · rename_i c f hp
      split at h
      · cases h
      · split at h
        · cases h; exact (loose_cleanup s c true).grow.trans (Grow.same rfl rfl rfl)
        · cases h
    · cases h
  | exit =>
    simp only [step] at h
    split at h
    · split at h
      · cases h; exact grow_exit _
      · cases h; exact (grow_finish _ _).trans (grow_exit _)
      · cases h; exact grow_exit _
      · cases h
    · cases h
  | reqClose c reason | takeErr | putErr | reqStop | read c | readErr c | addRemote key peerID =>
    simp only [step] at h
    repeat' split at h
    all_goals cases h
    all_goals exact Grow.same rfl rfl rfl

theorem grow_run {s s' : State} {as : List Action} (h : run s as = some s') : Grow s s' := by
  induction as generalizing s with
  | nil => cases h; exact Grow.same rfl rfl rfl
  | cons a as ih =>
    simp only [run, Option.bind_eq_some_iff] at h
    obtain ⟨s1, h1, h2⟩ := h
    exact (grow_step h1).trans (ih h2)

theorem SInv.inn {s : State} (h : SInv s) : ∀ m ∈ s.readsIn, m ∈ s.arrived := by
  obtain ⟨used, h1, _⟩ := h.sub
  exact fun m hm => h1.subset (List.mem_append_right _ hm)

theorem runs_run {s s' : State} {as : List Action} (hi : SInv s) (hr : Runs s)
    (ha : .reqStop ∉ as) (h : run s as = some s')
    (hq : s'.autoPeers = true → ∀ m ∈ s'.arrived, m.typ = callPeerFromIsShutdown →
      m.fromPeerID = s'.self) : Runs s' := by
  induction as generalizing s with
  | nil => cases h; exact hr
  | cons a as ih =>
    have hg := grow_run h
    simp only [run, Option.bind_eq_some_iff] at h
    obtain ⟨s1, h1, h2⟩ := h
    rw [List.mem_cons, not_or] at ha
    refine ih (sinv_step hi h1) (runs_step hr (fun e => ha.1 e.symm) (fun h3 m hm ht => ?_) h1)
      ha.2 h2
    rw [← hg.self]
    exact hq (hg.autoPeers.trans h3) m (hg.arrived.subset (hi.inn m hm)) ht

/-! ### Stalls -/

/-- The pump waits at a full Errors channel, and nothing asks it to give up. -/
structure Stuck (s : State) (c : Nat) : Prop where
  ph : ∃ f, s.phase = .errs c f
  full : ∃ k, s.ckts[c]? = some k ∧ cap ≤ k.errors.length ∧ k.stopReq = false
  stop : s.stop = false

theorem stuck_step {s s' : State} {a : Action} {c : Nat} (hs : Stuck s c)
    (ha : a.frees c = false) (h : step s a = some s') :
    Stuck s' c ∧ s'.readsIn.length ≥ s.readsIn.length ∧
      s'.ckts.map (fun k => (k.delivered, k.deliveredErr)) =
        s.ckts.map (fun k => (k.delivered, k.deliveredErr)) := by
  obtain ⟨f, hp⟩ := hs.ph
  obtain ⟨k, hk, hl, hst⟩ := hs.full
  cases a with
  | tell info => simp [step, hp] at h
  | arrive msg =>
    simp only [step] at h
    repeat' split at h
    all_goals cases h
    all_goals exact ⟨⟨⟨f, hp⟩, ⟨k, hk, hl, hst⟩, hs.stop⟩, by simp, rfl⟩
  | drop msg =>
    simp only [step] at h
    repeat' split at h
    all_goals cases h
    all_goals exact ⟨⟨⟨f, hp⟩, ⟨k, hk, hl, hst⟩, hs.stop⟩, Nat.le_refl _, rfl⟩
  | reqClose d reason =>
    have hdc : d ≠ c := by simpa [Action.frees] using ha
    simp only [step] at h
    split at h
    · cases h
    · rename_i k1 hk1
      split at h
      · cases h; exact ⟨hs, Nat.le_refl _, rfl⟩
      · cases h
        exact ⟨⟨⟨f, hp⟩, ⟨k, by rw [get_set hk1, if_neg hdc]; exact hk, hl, hst⟩, hs.stop⟩,
          Nat.le_refl _, map_set_same hk1 rfl⟩
  | handClose d =>
    simp only [step, hp] at h
    repeat' split at h
    all_goals cases h
  | takeRead => simp [step, hp] at h
  | takeErr => simp [step, hp] at h
  | put => simp [step, hp] at h
  | putErr =>
    simp only [step, hp, hk] at h
    rw [if_neg (by omega)] at h; cases h
  | timeout2 => simp [step, hp] at h
  | timeout5 => simp [step, hp] at h
  | seeHalt => simp [step, hp, hk, hst] at h
  | reqStop => simp [Action.frees] at ha
  | exit => simp [step, hs.stop] at h
  | read d =>
    simp only [step] at h
    split at h
    · cases h
    · rename_i k1 hk1
      split at h
      · cases h
      · rename_i g rest hrd
        cases h
        refine ⟨⟨⟨f, hp⟩, ?_, hs.stop⟩, Nat.le_refl _,
          map_set_same hk1 (by simp [Ckt.delivered, Ckt.deliveredErr, hrd])⟩
        by_cases hdc : d = c
        · subst hdc
          rw [hk] at hk1; cases hk1
          exact ⟨{ k with reads := rest, got := k.got ++ [g] }, by rw [get_set hk, if_pos rfl], hl, hst⟩
        · exact ⟨k, by rw [get_set hk1, if_neg hdc]; exact hk, hl, hst⟩
  | readErr d =>
    have hdc : d ≠ c := by simpa [Action.frees] using ha
    simp only [step] at h
    split at h
    · cases h
    · rename_i k1 hk1
      split at h
      · cases h
      · rename_i g rest hrd
        cases h
        exact ⟨⟨⟨f, hp⟩, ⟨k, by rw [get_set hk1, if_neg hdc]; exact hk, hl, hst⟩, hs.stop⟩,
          Nat.le_refl _, map_set_same hk1 (by simp [Ckt.delivered, Ckt.deliveredErr, hrd])⟩
  | addRemote key peerID =>
    simp only [step] at h; cases h
    exact ⟨⟨⟨f, hp⟩, ⟨k, hk, hl, hst⟩, hs.stop⟩, Nat.le_refl _, rfl⟩

theorem stuck_run {s s' : State} {as : List Action} {c : Nat} (hs : Stuck s c)
    (ha : as.all (fun a => !a.frees c) = true) (h : run s as = some s') :
    Stuck s' c ∧ s'.readsIn.length ≥ s.readsIn.length ∧
      s'.ckts.map (fun k => (k.delivered, k.deliveredErr)) =
        s.ckts.map (fun k => (k.delivered, k.deliveredErr)) := by
  induction as generalizing s with
  | nil => cases h; exact ⟨hs, Nat.le_refl _, rfl⟩
  | cons a as ih =>
    simp only [run, Option.bind_eq_some_iff] at h
    obtain ⟨s1, h1, h2⟩ := h
    simp only [List.all_cons, Bool.and_eq_true, Bool.not_eq_true'] at ha
    obtain ⟨a1, a2, a3⟩ := stuck_step hs ha.1 h1
    obtain ⟨b1, b2, b3⟩ := ih a1 (by simpa using ha.2) h2
    exact ⟨b1, Nat.le_trans a2 b2, b3.trans a3⟩

/-- After the pump has returned its queues are never emptied. -/
theorem stopped_step {s s' : State} {a : Action} (hp : s.phase = .stopped)
    (h : step s a = some s') :
    s'.phase = .stopped ∧ s.errorsIn.length ≤ s'.errorsIn.length ∧
      s.readsIn.length ≤ s'.readsIn.length ∧ s'.self = s.self := by
  cases a with
  | handClose d =>
    simp only [step, hp] at h
    repeat' split at h
    all_goals cases h
  | tell _ | takeRead | takeErr | put | putErr | timeout2 | timeout5 | seeHalt | exit =>
    simp [step, hp] at h
  | arrive _ | drop _ | reqClose _ _ | reqStop | read _ | readErr _ | addRemote _ _ =>
    simp only [step] at h
    repeat' split at h
    all_goals cases h
    all_goals simp [hp]

theorem stopped_run {s s' : State} {as : List Action} (hp : s.phase = .stopped)
    (h : run s as = some s') :
    s'.phase = .stopped ∧ s.errorsIn.length ≤ s'.errorsIn.length ∧
      s.readsIn.length ≤ s'.readsIn.length ∧ s'.self = s.self := by
  induction as generalizing s with
  | nil => cases h; exact ⟨hp, Nat.le_refl _, Nat.le_refl _, rfl⟩
  | cons a as ih =>
    simp only [run, Option.bind_eq_some_iff] at h
    obtain ⟨s1, h1, h2⟩ := h
    obtain ⟨a1, a2, a3, a4⟩ := stopped_step hp h1
    obtain ⟨b1, b2, b3, b4⟩ := ih a1 h2
    exact ⟨b1, Nat.le_trans a2 b2, Nat.le_trans a3 b3, b4.trans a4⟩

end Verif.Pump
