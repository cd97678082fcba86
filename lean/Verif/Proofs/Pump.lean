import Verif.Proofs.PumpInv
/-
Invariant of the pump: C106 (no gaps), C107, C108.
-/
namespace Verif.Pump

open Verif.Frag

/-- The fragment in the pump's hand, for each circuit. -/
def handR (s : State) (c : Nat) : List Fragment :=
  match s.phase with
  | .reads d f _ => if d = c then [f] else []
  | _ => []

def handE (s : State) (c : Nat) : List Fragment :=
  match s.phase with
  | .errs d f => if d = c then [f] else []
  | _ => []

def rowR (k : Ckt) : Entry := ⟨k.id, k.canc, k.delivered, k.born⟩
def rowE (k : Ckt) : Entry := ⟨k.id, k.canc, k.deliveredErr, k.bornErr⟩

def tbl (row : Ckt → Entry) (s : State) (c : Nat) : Option Entry := (s.ckts[c]?).map row

/-- The row of a circuit agrees with it, and closing only closes. -/
structure RowOk (row : Ckt → Entry) : Prop where
  id : ∀ k, (row k).id = k.id
  canc : ∀ k, (row k).canc = k.canc
  shut : ∀ k, row k.shut = { row k with canc := true }

theorem rowOkR : RowOk rowR := ⟨fun _ => rfl, fun _ => rfl, fun _ => rfl⟩
theorem rowOkE : RowOk rowE := ⟨fun _ => rfl, fun _ => rfl, fun _ => rfl⟩

theorem tbl_some {row : Ckt → Entry} {s : State} {c : Nat} {e : Entry} (h : tbl row s c = some e) :
    ∃ k, s.ckts[c]? = some k ∧ row k = e := by
  simpa [tbl] using h

theorem flow_shut {row : Ckt → Entry} (hr : RowOk row) {f : Str → List Message → List Fragment}
    {arr q : List Message} {h h' : Nat → List Fragment} {s s' : State} (hs : Shut s s')
    (hf : Flow f arr q (tbl row s) h)
    (hh : ∀ (c : Nat) k', s'.ckts[c]? = some k' → k'.canc = false → h' c = h c) :
    Flow f arr q (tbl row s') h' := by
  refine hf.change (fun c e' he' => ?_)
  obtain ⟨k', hk', rfl⟩ := tbl_some he'
  obtain ⟨k, hk, h1⟩ := hs.ckt c k' hk'
  refine ⟨row k, by simp [tbl, hk], ?_⟩
  rcases h1 with rfl | ⟨_, rfl⟩
  · exact ⟨rfl, rfl, .inl rfl, fun hc => ⟨hc, by rw [hh c k' hk' (by rw [← hr.canc]; exact hc)]⟩⟩
  · rw [hr.shut]
    exact ⟨rfl, rfl, .inl rfl, fun hc => by cases hc⟩

theorem flow_set {row : Ckt → Entry} {f : Str → List Message → List Fragment}
    {arr q : List Message} {h h' : Nat → List Fragment} {s s' : State} {c : Nat} {k k' : Ckt}
    (hf : Flow f arr q (tbl row s) h) (hk : s.ckts[c]? = some k) (hs : s'.ckts = s.ckts.set c k')
    (hid : (row k').id = (row k).id) (hb : (row k').born = (row k).born)
    (hd : (row k').del = (row k).del ∨
      ((row k).canc = false ∧ (row k').del = (row k).del ++ h c))
    (ho : (row k').canc = false → (row k).canc = false ∧ (row k').del ++ h' c = (row k).del ++ h c)
    (hh : ∀ d, d ≠ c → h' d = h d) :
    Flow f arr q (tbl row s') h' := by
  refine hf.change (fun d e' he' => ?_)
  obtain ⟨k'', hk'', rfl⟩ := tbl_some he'
  rw [hs, List.getElem?_set] at hk''
  split at hk''
  · rename_i hcd; subst hcd
    split at hk''
    · cases hk''
      exact ⟨row k, by simp [tbl, hk], hid, hb, hd, ho⟩
    · cases hk''
  · rename_i hcd
    exact ⟨row k'', by simp [tbl, hk''], rfl, rfl, .inl rfl,
      fun hc => ⟨hc, by rw [hh d (Ne.symm hcd)]⟩⟩

theorem flow_same {row : Ckt → Entry} {f : Str → List Message → List Fragment}
    {arr q : List Message} {h h' : Nat → List Fragment} {s s' : State}
    (hf : Flow f arr q (tbl row s) h) (hs : s'.ckts = s.ckts) (hh : h' = h) :
    Flow f arr q (tbl row s') h' := by
  subst hh
  have : tbl row s' = tbl row s := by funext c; simp [tbl, hs]
  rw [this]; exact hf

/-- The circuit the pump is busy with is open; a pump that has returned has no circuits. -/
def PhOk (s : State) : Prop :=
  match s.phase with
  | .idle => True
  | .reads d _ _ => ∃ k, s.ckts[d]? = some k ∧ k.canc = false
  | .errs d _ => ∃ k, s.ckts[d]? = some k ∧ k.canc = false
  | .stopped => s.stop = true ∧ s.m = []

/-- The invariant of every run with distinct ids. -/
structure Inv (s : State) : Prop where
  vi : VI (view s) s.m
  ph : PhOk s
  errs : Flow errorsTo s.arrivedErr s.errorsIn (tbl rowE s) (handE s)

/-- In addition, as long as no fragment was discarded by a timer. -/
def InvR (s : State) : Prop := Flow sentTo s.arrived s.readsIn (tbl rowR s) (handR s)

theorem view_set {s s' : State} {c : Nat} {k k' : Ckt} (hk : s.ckts[c]? = some k)
    (hs : s'.ckts = s.ckts.set c k') (hid : k'.id = k.id) (hc : k'.canc = k.canc) :
    view s' = view s := by
  simp only [view, hs, List.map_set]
  apply List.ext_getElem?
  intro i
  rw [List.getElem?_set]
  split
  · rename_i hi; subst hi
    obtain ⟨hlt, hce⟩ := List.getElem?_eq_some_iff.1 hk
    simp [hlt, hce, hid, hc]
  · rfl

theorem get_set {l : List Ckt} {c d : Nat} {k k' : Ckt} (hk : l[c]? = some k) :
    (l.set c k')[d]? = if c = d then some k' else l[d]? := by
  rw [List.getElem?_set]
  have := (List.getElem?_eq_some_iff.1 hk).1
  by_cases h : c = d
  · subst h; simp [this]
  · simp [h]

/-- Leaving a select of the pump for the outer one, closing some circuits. -/
theorem Shut.toIdle {s s' : State} (h : Shut { s with phase := .idle } s') : PhOk s' := by
  have := h.phase
  simp only at this
  simp only [PhOk, this]

theorem handR_idle {s : State} (h : s.phase = .idle) : handR s = fun _ => [] := by
  funext c; simp [handR, h]

theorem handE_idle {s : State} (h : s.phase = .idle) : handE s = fun _ => [] := by
  funext c; simp [handE, h]

theorem handE_reads {s : State} {d f l} (h : s.phase = .reads d f l) : handE s = fun _ => [] := by
  funext c; simp [handE, h]

theorem handR_errs {s : State} {d f} (h : s.phase = .errs d f) : handR s = fun _ => [] := by
  funext c; simp [handR, h]

theorem handR_stopped {s : State} (h : s.phase = .stopped) : handR s = fun _ => [] := by
  funext c; simp [handR, h]

theorem handE_stopped {s : State} (h : s.phase = .stopped) : handE s = fun _ => [] := by
  funext c; simp [handE, h]

/-- What the exit of the pump does. -/
theorem exit_props {s : State} (h : VI (view s) s.m) :
    VI (view (exitPump s)) (exitPump s).m ∧ PhOk (exitPump s) ∧
    (∀ (c : Nat) k', (exitPump s).ckts[c]? = some k' → k'.canc = true) ∧
    Shut s (cleanups s (s.m.map (·.2))) ∧
    (exitPump s).ckts = (cleanups s (s.m.map (·.2))).ckts := by
  have h1 := shut_cleanups (s.m.map (·.2)) h
  have h2 : ∀ (c : Nat) k', (exitPump s).ckts[c]? = some k' → k'.canc = true :=
    fun c k' hk' => exit_shuts h hk'
  have h3 : (cleanups s (s.m.map (·.2))).m = [] := by
    refine h1.vi.empty (fun c id hc => ?_)
    obtain ⟨k, hk, _, hcf⟩ := view_get' hc
    rw [exit_shuts h hk] at hcf; cases hcf
  refine ⟨?_, ?_, h2, h1, rfl⟩
  · have := h1.vi
    rw [h3] at this
    exact this
  · exact ⟨rfl, rfl⟩

theorem exit_flow {row : Ckt → Entry} (hr : RowOk row) {f : Str → List Message → List Fragment}
    {arr q : List Message} {h h' : Nat → List Fragment} {s : State} (hv : VI (view s) s.m)
    (hf : Flow f arr q (tbl row s) h) : Flow f arr q (tbl row (exitPump s)) h' := by
  obtain ⟨_, _, h1, h2, h3⟩ := exit_props hv
  have := flow_shut (h' := h') hr h2 hf (fun c k' hk' hc => by
    rw [← h3] at hk'; rw [h1 c k' hk'] at hc; cases hc)
  exact flow_same this h3 rfl

theorem errorsTo_ne {id : Str} {m : Message} (h : m.callID ≠ id) : errorsTo id [m] = [] := by
  simp [errorsTo, h]

theorem errorsTo_eq (m : Message) : errorsTo m.callID [m] = [convertMessageToFragment m] := by
  simp [errorsTo]

theorem sentTo_ne {id : Str} {m : Message} (h : m.callID ≠ id) : sentTo id [m] = [] := by
  simp [sentTo, h]

theorem sentTo_end {id : Str} {m : Message} (h : m.typ = callPeerEndCircuit) :
    sentTo id [m] = [] := by
  simp [sentTo, h]

theorem sentTo_eq {m : Message} (h : m.typ ≠ callPeerEndCircuit) :
    sentTo m.callID [m] = [convertMessageToFragment m] := by
  simp [sentTo, h]

theorem VI.ne_of_none {s : State} (h : VI (view s) s.m) {id : Str} (hn : lookup s.m id = none)
    {c : Nat} {k : Ckt} (hk : s.ckts[c]? = some k) (hc : k.canc = false) : id ≠ k.id := by
  rintro rfl
  have := view_get hk
  rw [hc] at this
  rw [h.opn _ _ this] at hn; cases hn

theorem VI.eq_of_some {s : State} (h : VI (view s) s.m) {d : Nat} {c : Nat} {k : Ckt}
    (hn : lookup s.m k.id = some d) (hk : s.ckts[c]? = some k) (hc : k.canc = false) : c = d := by
  have := view_get hk
  rw [hc] at this
  rw [h.opn _ _ this] at hn; cases hn; rfl

/-- Taking a message from ReadsIn. -/
theorem onRead_inv {s : State} {msg : Message} (hp : s.phase = .idle) (hv : VI (view s) s.m)
    (he : Flow errorsTo s.arrivedErr s.errorsIn (tbl rowE s) (fun _ => [])) :
    Inv (onRead s msg) ∧
      (Flow sentTo s.arrived (msg :: s.readsIn) (tbl rowR s) (fun _ => []) →
        InvR (onRead s msg)) := by
  unfold onRead
  split
  · -- the peer shuts down
    have hx := exit_props (s := { s with remotes := erase s.remotes msg.fromPeerID }) hv
    have hrd : (exitPump { s with remotes := erase s.remotes msg.fromPeerID }).readsIn = s.readsIn :=
      hx.2.2.2.1.readsIn
    have har : (exitPump { s with remotes := erase s.remotes msg.fromPeerID }).arrived = s.arrived :=
      hx.2.2.2.1.arrived
    have hre : (exitPump { s with remotes := erase s.remotes msg.fromPeerID }).errorsIn = s.errorsIn :=
      hx.2.2.2.1.errorsIn
    have hae : (exitPump { s with remotes := erase s.remotes msg.fromPeerID }).arrivedErr =
      s.arrivedErr := hx.2.2.2.1.arrivedErr
    refine ⟨⟨hx.1, hx.2.1, ?_⟩, fun hR => ?_⟩
    · rw [hre, hae]
      exact exit_flow (h := fun _ => []) rowOkE hv he
    · unfold InvR
      rw [hrd, har]
      refine exit_flow (h := fun c => match tbl rowR s c with
        | some e => sentTo e.id [msg] | none => []) rowOkR hv ?_
      exact hR.take carries_sentTo (fun c e hce _ => by rw [hce])
  · generalize hs1 : (if msg.typ = callPeerFromIsShutdown ∧ msg.fromPeerID ≠ s.self then
        { s with remotes := erase s.remotes msg.fromPeerID } else s) = s1
    have hp1 : s1.phase = .idle := by rw [← hs1]; split <;> exact hp
    have hv1 : VI (view s1) s1.m := by rw [← hs1]; split <;> exact hv
    have hck : s1.ckts = s.ckts := by rw [← hs1]; split <;> rfl
    have hri : s1.readsIn = s.readsIn := by rw [← hs1]; split <;> rfl
    have hra : s1.arrived = s.arrived := by rw [← hs1]; split <;> rfl
    have hei : s1.errorsIn = s.errorsIn := by rw [← hs1]; split <;> rfl
    have hea : s1.arrivedErr = s.arrivedErr := by rw [← hs1]; split <;> rfl
    have he1 : Flow errorsTo s1.arrivedErr s1.errorsIn (tbl rowE s1) (fun _ => []) := by
      rw [hei, hea]; exact flow_same he hck rfl
    have hR1 : Flow sentTo s.arrived (msg :: s.readsIn) (tbl rowR s) (fun _ => []) →
        Flow sentTo s1.arrived (msg :: s1.readsIn) (tbl rowR s1) (fun _ => []) := by
      intro h; rw [hri, hra]; exact flow_same h hck rfl
    clear hs1 hck hri hra hei hea he hv hp
    dsimp only
    split
    · rename_i hn
      refine ⟨⟨hv1, by simp [PhOk, hp1], by rw [handE_idle hp1]; exact he1⟩, fun h => ?_⟩
      unfold InvR
      rw [handR_idle hp1]
      refine (hR1 h).take carries_sentTo (fun c e hce hc => ?_)
      obtain ⟨k, hk, rfl⟩ := tbl_some hce
      exact (sentTo_ne (hv1.ne_of_none hn hk hc)).symm
    · rename_i d hn
      split
      · rename_i hend
        have hsh := shut_cleanup d false hv1
        have hph : (cleanup s1 d false).phase = .idle := hsh.phase.trans hp1
        refine ⟨⟨hsh.vi, by simp [PhOk, hph], ?_⟩, fun h => ?_⟩
        · rw [handE_idle hph, hsh.errorsIn, hsh.arrivedErr]
          exact flow_shut rowOkE hsh he1 (fun _ _ _ _ => rfl)
        · unfold InvR
          rw [handR_idle hph, hsh.readsIn, hsh.arrived]
          refine flow_shut rowOkR hsh ?_ (fun _ _ _ _ => rfl)
          exact (hR1 h).take carries_sentTo (fun c e hce hc => (sentTo_end hend).symm)
      · rename_i hend
        obtain ⟨k, hk, hkid, hkc⟩ := view_get' (hv1.mem _ _ hn)
        refine ⟨⟨hv1, ⟨k, hk, hkc⟩, ?_⟩, fun h => ?_⟩
        · exact flow_same he1 rfl (handE_reads rfl)
        · unfold InvR
          refine flow_same (s := s1) (h := handR { s1 with
            phase := .reads d (convertMessageToFragment msg) [] }) ?_ rfl rfl
          refine (hR1 h).take carries_sentTo (fun c e hce hc => ?_)
          obtain ⟨k', hk', rfl⟩ := tbl_some hce
          simp only [handR]
          split
          · rename_i hdc; subst hdc
            rw [hk] at hk'; cases hk'
            change _ = sentTo k.id [msg]
            rw [hkid, sentTo_eq hend]
          · rename_i hdc
            refine (sentTo_ne (fun heq => hdc ?_)).symm
            have heq' : msg.callID = k'.id := heq
            rw [heq'] at hn
            exact (hv1.eq_of_some hn hk' hc).symm

/-- Ending a delivery select. -/
theorem finish_shut {s : State} (late : List Nat) (hv : VI (view s) s.m) :
    Shut { s with phase := .idle } (finish s late) := shut_cleanups late hv

/-- Steps of the pump and around it keep the invariant. -/
theorem inv_step {s s' : State} {a : Action} (hi : Inv s) (hu : UniqueIds s')
    (h : step s a = some s') :
    Inv s' ∧ (keeps a = true → InvR s → InvR s') := by
  obtain ⟨hv, hph, he⟩ := hi
  cases a with
  | tell info =>
    simp only [step] at h
    have hss : s' = tellPump s info ∧ (s.phase = .idle ∨ ∃ d f l, s.phase = .reads d f l) := by
      split at h
      · cases h; exact ⟨rfl, .inl ‹_›⟩
      · cases h; exact ⟨rfl, .inr ⟨_, _, _, ‹_›⟩⟩
      · cases h
    obtain ⟨rfl, hp⟩ := hss
    have hview : view (tellPump s info) = view s ++ [(info.circuitID, false)] := by
      simp [view, Ckt.id, tellPump, newCkt]
    have hlen : (view s).length = s.ckts.length := by simp [view]
    have hvi := hv.tell (id := info.circuitID) (by
      have : ((view s ++ [(info.circuitID, false)]).map (·.1)) =
          ((tellPump s info).ckts.map Ckt.id) := by
        simp [view, Ckt.id, tellPump, newCkt]
      rw [this]; exact hu)
    rw [hlen] at hvi
    have hrow : ∀ row : Ckt → Entry, ∀ c e, tbl row (tellPump s info) c = some e →
        tbl row s c = some e ∨ (c = s.ckts.length ∧ e = row (newCkt s info)) := by
      intro row c e hce
      obtain ⟨k, hk, rfl⟩ := tbl_some hce
      simp only [tellPump] at hk
      by_cases hlt : c < s.ckts.length
      · rw [List.getElem?_append_left hlt] at hk
        exact .inl (by simp [tbl, hk])
      · rw [List.getElem?_append_right (by omega)] at hk
        cases h2 : c - s.ckts.length with
        | zero => rw [h2] at hk; simp at hk; subst hk; exact .inr ⟨by omega, rfl⟩
        | succ i => rw [h2] at hk; simp at hk
    have hfree : handR s s.ckts.length = [] := by
      unfold handR
      split
      · rename_i d f l hd
        simp only [PhOk, hd] at hph
        obtain ⟨k, hk, _⟩ := hph
        have := (List.getElem?_eq_some_iff.1 hk).1
        rw [if_neg (by omega)]
      · rfl
    have hfreeE : handE s s.ckts.length = [] := by
      unfold handE
      split
      · rename_i d f hd
        simp only [PhOk, hd] at hph
        obtain ⟨k, hk, _⟩ := hph
        have := (List.getElem?_eq_some_iff.1 hk).1
        rw [if_neg (by omega)]
      · rfl
    refine ⟨⟨by rw [hview]; exact hvi, ?_, ?_⟩, fun _ hR => ?_⟩
    · rcases hp with hp | ⟨d, f, l, hp⟩
      · simp [PhOk, hp, tellPump]
      · simp only [PhOk, hp, tellPump] at hph ⊢
        obtain ⟨k, hk, hc⟩ := hph
        exact ⟨k, by rw [List.getElem?_append_left (List.getElem?_eq_some_iff.1 hk).1]; exact hk, hc⟩
    · exact he.tell carries_errorsTo (c0 := s.ckts.length) rfl rfl hfreeE (hrow rowE)
    · exact Flow.tell carries_sentTo hR (c0 := s.ckts.length) rfl rfl hfree (hrow rowR)
  | arrive msg =>
    simp only [step] at h
    split at h
    · cases h
    · split at h
      · split at h
        · cases h
          exact ⟨⟨hv, hph, he.arrive msg⟩, fun _ hR => hR⟩
        · cases h
      · split at h
        · cases h
          exact ⟨⟨hv, hph, he⟩, fun _ hR => Flow.arrive hR msg⟩
        · cases h
  | drop msg =>
    simp only [step] at h
    split at h
    · cases h
    · split at h
      · cases h
      · split at h
        · cases h
        · cases h
          exact ⟨⟨hv, hph, he⟩, fun hk => by cases hk⟩
  | reqClose c reason =>
    simp only [step] at h
    split at h
    · cases h
    · rename_i k hk
      split at h
      · cases h; exact ⟨⟨hv, hph, he⟩, fun _ hR => hR⟩
      · cases h
        have hvw : view { s with ckts := s.ckts.set c { k with stopReq := true, reason := reason } }
            = view s := view_set hk rfl rfl rfl
        refine ⟨⟨by rw [hvw]; exact hv, ?_, ?_⟩, fun _ hR => ?_⟩
        · cases hp : s.phase with
          | idle => simp [PhOk, hp]
          | stopped => simp only [PhOk, hp] at hph ⊢; exact hph
          | reads d f l =>
            simp only [PhOk, hp] at hph ⊢
            obtain ⟨k1, hk1, hc1⟩ := hph
            rw [get_set hk]
            by_cases hcd : c = d
            · subst hcd; rw [hk] at hk1; cases hk1; exact ⟨_, if_pos rfl, hc1⟩
            · exact ⟨k1, by rw [if_neg hcd]; exact hk1, hc1⟩
          | errs d f =>
            simp only [PhOk, hp] at hph ⊢
            obtain ⟨k1, hk1, hc1⟩ := hph
            rw [get_set hk]
            by_cases hcd : c = d
            · subst hcd; rw [hk] at hk1; cases hk1; exact ⟨_, if_pos rfl, hc1⟩
            · exact ⟨k1, by rw [if_neg hcd]; exact hk1, hc1⟩
        · exact flow_set he hk rfl rfl rfl (.inl rfl) (fun hc => ⟨hc, rfl⟩) (fun _ _ => rfl)
        · exact flow_set hR hk rfl rfl rfl (.inl rfl) (fun hc => ⟨hc, rfl⟩) (fun _ _ => rfl)
  | handClose c =>
    simp only [step] at h
    split at h
    · cases h
    · rename_i k hk
      split at h
      · split at h
        · rename_i hp
          cases h
          have hsh := shut_cleanup c true hv
          have hph' : (cleanup s c true).phase = .idle := hsh.phase.trans hp
          refine ⟨⟨hsh.vi, by simp [PhOk, hph'], ?_⟩, fun _ hR => ?_⟩
          · rw [hsh.errorsIn, hsh.arrivedErr]
            exact flow_shut rowOkE hsh he (fun d _ _ _ => by rw [handE_idle hph', handE_idle hp])
          · unfold InvR
            rw [hsh.readsIn, hsh.arrived]
            exact flow_shut rowOkR hsh hR (fun d _ _ _ => by rw [handR_idle hph', handR_idle hp])
        · rename_i d f late hp
          cases h
          refine ⟨⟨hv, by simpa only [PhOk, hp] using hph, ?_⟩, fun _ hR => ?_⟩
          · exact flow_same he rfl (by rw [handE_reads rfl, handE_reads hp])
          · exact flow_same hR rfl (by funext c; simp [handR, hp])
        · cases h
      · cases h
  | takeRead =>
    simp only [step] at h
    split at h
    · rename_i msg rest hp hr
      cases h
      rw [handE_idle hp] at he
      have := onRead_inv (s := { s with readsIn := rest }) (msg := msg) hp hv he
      refine ⟨this.1, fun _ hR => this.2 ?_⟩
      unfold InvR at hR
      rw [hr, handR_idle hp] at hR
      exact hR
    · cases h
  | takeErr =>
    simp only [step] at h
    split at h
    · rename_i msg rest hp hr
      rw [hr, handE_idle hp] at he
      split at h
      · rename_i hn
        cases h
        refine ⟨⟨hv, by simp [PhOk, hp], ?_⟩, fun _ hR => hR⟩
        refine flow_same (s := s) (h := fun _ => []) ?_ rfl (handE_idle hp)
        refine he.take carries_errorsTo (fun c e hce hc => ?_)
        obtain ⟨k, hk, rfl⟩ := tbl_some hce
        exact (errorsTo_ne (hv.ne_of_none hn hk hc)).symm
      · rename_i d hn
        cases h
        obtain ⟨k, hk, hkid, hkc⟩ := view_get' (hv.mem _ _ hn)
        refine ⟨⟨hv, ⟨k, hk, hkc⟩, ?_⟩, fun _ hR => ?_⟩
        · refine flow_same (s := s) (h := handE { s with
            phase := .errs d (convertMessageToFragment msg) }) ?_ rfl rfl
          refine he.take carries_errorsTo (fun c e hce hc => ?_)
          obtain ⟨k', hk', rfl⟩ := tbl_some hce
          simp only [handE]
          split
          · rename_i hdc; subst hdc
            rw [hk] at hk'; cases hk'
            change _ = errorsTo k.id [msg]
            rw [hkid, errorsTo_eq]
          · rename_i hdc
            refine (errorsTo_ne (fun heq => hdc ?_)).symm
            have heq' : msg.callID = k'.id := heq
            have hn' : lookup s.m k'.id = some d := by rw [← heq']; exact hn
            exact (hv.eq_of_some hn' hk' hc).symm
        · exact flow_same hR rfl (by rw [handR_errs rfl, handR_idle hp])
    · cases h
  | put =>
    simp only [step] at h
    split at h
    · rename_i c f late hp
      split at h
      · cases h
      · rename_i k hk
        split at h
        · cases h
          have hph2 := hph
          simp only [PhOk, hp] at hph2
          obtain ⟨k1, hk1, hc1⟩ := hph2
          rw [hk] at hk1; cases hk1
          have hvw : view { s with ckts := s.ckts.set c { k with reads := k.reads ++ [f] } }
              = view s := view_set hk rfl rfl rfl
          have hv2 : VI (view { s with ckts := s.ckts.set c { k with reads := k.reads ++ [f] } }) s.m :=
            by rw [hvw]; exact hv
          have hsh := finish_shut late hv2
          have hphi := hsh.phase
          refine ⟨⟨hsh.vi, hsh.toIdle, ?_⟩, fun _ hR => ?_⟩
          · rw [hsh.errorsIn, hsh.arrivedErr]
            refine flow_shut (h := fun _ => []) rowOkE hsh ?_ (fun d _ _ _ => by rw [handE_idle hphi])
            rw [handE_reads hp] at he
            exact flow_set (s := s) he hk rfl rfl rfl (.inl rfl) (fun hc => ⟨hc, rfl⟩) (fun _ _ => rfl)
          · unfold InvR
            rw [hsh.readsIn, hsh.arrived]
            refine flow_shut (h := fun _ => []) rowOkR hsh ?_ (fun d _ _ _ => by rw [handR_idle hphi])
            have hh : handR s c = [f] := by simp [handR, hp]
            refine flow_set (s := s) hR hk rfl rfl rfl (.inr ⟨hc1, ?_⟩) (fun _ => ⟨hc1, ?_⟩) ?_
            · simp [rowR, Ckt.delivered, hh]
            · simp [rowR, Ckt.delivered, hh]
            · intro d hd; simp [handR, hp, Ne.symm hd]
        · cases h
    · cases h
  | putErr =>
    simp only [step] at h
    split at h
    · rename_i c f hp
      split at h
      · cases h
      · rename_i k hk
        split at h
        · cases h
          simp only [PhOk, hp] at hph
          obtain ⟨k1, hk1, hc1⟩ := hph
          rw [hk] at hk1; cases hk1
          have hvw : view { s with
              ckts := s.ckts.set c { k with errors := k.errors ++ [f] }, phase := .idle }
              = view s := view_set hk rfl rfl rfl
          refine ⟨⟨by rw [hvw]; exact hv, trivial, ?_⟩, fun _ hR => ?_⟩
          · have hh : handE s c = [f] := by simp [handE, hp]
            rw [handE_idle rfl]
            refine flow_set (s := s) he hk rfl rfl rfl (.inr ⟨hc1, ?_⟩) (fun _ => ⟨hc1, ?_⟩) ?_
            · simp [rowE, Ckt.deliveredErr, hh]
            · simp [rowE, Ckt.deliveredErr, hh]
            · intro d hd; simp [handE, hp, Ne.symm hd]
          · unfold InvR at hR ⊢
            rw [handR_errs hp] at hR
            rw [handR_idle rfl]
            exact flow_set (s := s) hR hk rfl rfl rfl (.inl rfl) (fun hc => ⟨hc, rfl⟩) (fun _ _ => rfl)
        · cases h
    · cases h
  | timeout2 =>
    simp only [step] at h
    split at h
    · rename_i c f late hp
      cases h
      have h1 := shut_cleanup c true hv
      have hsh := finish_shut late h1.vi
      have hphi := hsh.phase
      refine ⟨⟨hsh.vi, hsh.toIdle, ?_⟩, fun _ hR => ?_⟩
      · rw [hsh.errorsIn, hsh.arrivedErr]
        refine flow_shut (h := fun _ => []) rowOkE hsh ?_ (fun d _ _ _ => by rw [handE_idle hphi])
        rw [handE_reads hp] at he
        have := flow_shut (h' := fun _ => []) rowOkE h1 he (fun _ _ _ _ => rfl)
        rw [← h1.errorsIn, ← h1.arrivedErr] at this
        exact flow_same this rfl rfl
      · unfold InvR
        rw [hsh.readsIn, hsh.arrived]
        refine flow_shut (h := fun _ => []) rowOkR hsh ?_ (fun d _ _ _ => by rw [handR_idle hphi])
        have := flow_shut (h' := fun _ => []) rowOkR h1 hR (fun d k' hk' hc' => by
          have hne : c ≠ d := fun hcd => by
            subst hcd
            rw [cleanup_shuts hv hk'] at hc'; cases hc'
          simp [handR, hp, hne])
        rw [← h1.readsIn, ← h1.arrived] at this
        exact flow_same this rfl rfl
    · cases h
  | timeout5 =>
    simp only [step] at h
    split at h
    · rename_i c f late hp
      split at h
      · cases h
      · cases h
        have hsh := finish_shut late hv
        have hphi := hsh.phase
        refine ⟨⟨hsh.vi, hsh.toIdle, ?_⟩, fun hk => by cases hk⟩
        rw [hsh.errorsIn, hsh.arrivedErr]
        refine flow_shut (h := fun _ => []) rowOkE hsh ?_ (fun d _ _ _ => by rw [handE_idle hphi])
        rw [handE_reads hp] at he
        exact flow_same he rfl rfl
    · cases h
  | seeHalt =>
    simp only [step] at h
    split at h
    · rename_i c f late hp
      split at h
      · cases h
      · split at h
        · cases h
          have h1 := shut_cleanup c true hv
          have hsh := finish_shut late h1.vi
          have hphi := hsh.phase
          refine ⟨⟨hsh.vi, hsh.toIdle, ?_⟩, fun _ hR => ?_⟩
          · rw [hsh.errorsIn, hsh.arrivedErr]
            refine flow_shut (h := fun _ => []) rowOkE hsh ?_ (fun d _ _ _ => by rw [handE_idle hphi])
            rw [handE_reads hp] at he
            have := flow_shut (h' := fun _ => []) rowOkE h1 he (fun _ _ _ _ => rfl)
            rw [← h1.errorsIn, ← h1.arrivedErr] at this
            exact flow_same this rfl rfl
          · unfold InvR
            rw [hsh.readsIn, hsh.arrived]
            refine flow_shut (h := fun _ => []) rowOkR hsh ?_ (fun d _ _ _ => by rw [handR_idle hphi])
            have := flow_shut (h' := fun _ => []) rowOkR h1 hR (fun d k' hk' hc' => by
              have hne : c ≠ d := fun hcd => by
                subst hcd
                rw [cleanup_shuts hv hk'] at hc'; cases hc'
              simp [handR, hp, hne])
            rw [← h1.readsIn, ← h1.arrived] at this
            exact flow_same this rfl rfl
        · cases h
    · rename_i c f hp
      split at h
      · cases h
      · split at h
        · cases h
          have h1 := shut_cleanup c true hv
          refine ⟨⟨h1.vi, trivial, ?_⟩, fun _ hR => ?_⟩
          · have := flow_shut (h' := fun _ => []) rowOkE h1 he (fun d k' hk' hc' => by
              have hne : c ≠ d := fun hcd => by
                subst hcd
                rw [cleanup_shuts hv hk'] at hc'; cases hc'
              simp [handE, hp, hne])
            rw [← h1.errorsIn, ← h1.arrivedErr] at this
            exact flow_same this rfl (handE_idle rfl)
          · unfold InvR at hR ⊢
            rw [handR_errs hp] at hR
            have := flow_shut (h' := fun _ => []) rowOkR h1 hR (fun _ _ _ _ => rfl)
            rw [← h1.readsIn, ← h1.arrived] at this
            exact flow_same this rfl (handR_idle rfl)
        · cases h
    · cases h
  | reqStop =>
    simp only [step] at h
    cases h
    refine ⟨⟨hv, ?_, he⟩, fun _ hR => hR⟩
    cases hp : s.phase with
    | idle => simp [PhOk, hp]
    | reads d f l => simpa only [PhOk, hp] using hph
    | errs d f => simpa only [PhOk, hp] using hph
    | stopped =>
      simp only [PhOk, hp] at hph ⊢
      exact ⟨trivial, hph.2⟩
  | exit =>
    simp only [step] at h
    have key : ∀ s0 : State, VI (view s0) s0.m → s0.errorsIn = s.errorsIn →
        s0.arrivedErr = s.arrivedErr → s0.readsIn = s.readsIn → s0.arrived = s.arrived →
        Shut s { s0 with phase := s.phase, stop := s.stop } →
        Inv (exitPump s0) ∧ (keeps .exit = true → InvR s → InvR (exitPump s0)) := by
      intro s0 hv0 h1 h2 h3 h4 h5
      have hx := exit_props hv0
      refine ⟨⟨hx.1, hx.2.1, ?_⟩, fun _ hR => ?_⟩
      · have e1 : (exitPump s0).errorsIn = s.errorsIn := hx.2.2.2.1.errorsIn.trans h1
        have e2 : (exitPump s0).arrivedErr = s.arrivedErr := hx.2.2.2.1.arrivedErr.trans h2
        rw [e1, e2]
        refine exit_flow (h := handE s) rowOkE hv0 ?_
        have := flow_shut (h' := handE s) rowOkE h5 he (fun _ _ _ _ => rfl)
        exact flow_same this rfl rfl
      · unfold InvR
        have e1 : (exitPump s0).readsIn = s.readsIn := hx.2.2.2.1.readsIn.trans h3
        have e2 : (exitPump s0).arrived = s.arrived := hx.2.2.2.1.arrived.trans h4
        rw [e1, e2]
        refine exit_flow (h := handR s) rowOkR hv0 ?_
        have := flow_shut (h' := handR s) rowOkR h5 hR (fun _ _ _ _ => rfl)
        exact flow_same this rfl rfl
    split at h
    · split at h
      · cases h; exact key s hv rfl rfl rfl rfl (Shut.refl hv)
      · rename_i c f late hp
        cases h
        have hsh := finish_shut late hv
        refine key _ hsh.vi hsh.errorsIn hsh.arrivedErr hsh.readsIn hsh.arrived ?_
        exact ⟨hsh.readsIn, hsh.errorsIn, hsh.arrived, hsh.arrivedErr, rfl, rfl, hsh.self,
          hsh.autoCkts, hsh.autoPeers, hsh.remotes, hsh.len, hsh.ckt, hsh.vi⟩
      · cases h; exact key s hv rfl rfl rfl rfl (Shut.refl hv)
      · cases h
    · cases h
  | read c =>
    simp only [step] at h
    split at h
    · cases h
    · rename_i k hk
      split at h
      · cases h
      · rename_i f rest hrd
        cases h
        have hvw : view { s with ckts := s.ckts.set c { k with reads := rest, got := k.got ++ [f] } }
            = view s := view_set hk rfl rfl rfl
        have hdel : ({ k with reads := rest, got := k.got ++ [f] } : Ckt).delivered = k.delivered := by
          simp [Ckt.delivered, hrd]
        refine ⟨⟨by rw [hvw]; exact hv, ?_, ?_⟩, fun _ hR => ?_⟩
        · cases hp : s.phase with
          | idle => simp [PhOk, hp]
          | stopped => simp only [PhOk, hp] at hph ⊢; exact hph
          | reads d f l =>
            simp only [PhOk, hp] at hph ⊢
            obtain ⟨k1, hk1, hc1⟩ := hph
            rw [get_set hk]
            by_cases hcd : c = d
            · subst hcd; rw [hk] at hk1; cases hk1; exact ⟨_, if_pos rfl, hc1⟩
            · exact ⟨k1, by rw [if_neg hcd]; exact hk1, hc1⟩
          | errs d f =>
            simp only [PhOk, hp] at hph ⊢
            obtain ⟨k1, hk1, hc1⟩ := hph
            rw [get_set hk]
            by_cases hcd : c = d
            · subst hcd; rw [hk] at hk1; cases hk1; exact ⟨_, if_pos rfl, hc1⟩
            · exact ⟨k1, by rw [if_neg hcd]; exact hk1, hc1⟩
        · exact flow_set he hk rfl rfl rfl (.inl rfl) (fun hc => ⟨hc, rfl⟩) (fun _ _ => rfl)
        · refine flow_set hR hk rfl rfl rfl (.inl hdel) (fun hc => ⟨hc, ?_⟩) (fun _ _ => rfl)
          change Ckt.delivered _ ++ _ = _
          rw [hdel]; rfl
  | readErr c =>
    simp only [step] at h
    split at h
    · cases h
    · rename_i k hk
      split at h
      · cases h
      · rename_i f rest hrd
        cases h
        have hvw : view { s with
            ckts := s.ckts.set c { k with errors := rest, gotErr := k.gotErr ++ [f] } }
            = view s := view_set hk rfl rfl rfl
        have hdel : ({ k with errors := rest, gotErr := k.gotErr ++ [f] } : Ckt).deliveredErr =
            k.deliveredErr := by
          simp [Ckt.deliveredErr, hrd]
        refine ⟨⟨by rw [hvw]; exact hv, ?_, ?_⟩, fun _ hR => ?_⟩
        · cases hp : s.phase with
          | idle => simp [PhOk, hp]
          | stopped => simp only [PhOk, hp] at hph ⊢; exact hph
          | reads d f l =>
            simp only [PhOk, hp] at hph ⊢
            obtain ⟨k1, hk1, hc1⟩ := hph
            rw [get_set hk]
            by_cases hcd : c = d
            · subst hcd; rw [hk] at hk1; cases hk1; exact ⟨_, if_pos rfl, hc1⟩
            · exact ⟨k1, by rw [if_neg hcd]; exact hk1, hc1⟩
          | errs d f =>
            simp only [PhOk, hp] at hph ⊢
            obtain ⟨k1, hk1, hc1⟩ := hph
            rw [get_set hk]
            by_cases hcd : c = d
            · subst hcd; rw [hk] at hk1; cases hk1; exact ⟨_, if_pos rfl, hc1⟩
            · exact ⟨k1, by rw [if_neg hcd]; exact hk1, hc1⟩
        · refine flow_set he hk rfl rfl rfl (.inl hdel) (fun hc => ⟨hc, ?_⟩) (fun _ _ => rfl)
          change Ckt.deliveredErr _ ++ _ = _
          rw [hdel]; rfl
        · exact flow_set hR hk rfl rfl rfl (.inl rfl) (fun hc => ⟨hc, rfl⟩) (fun _ _ => rfl)
  | addRemote key peerID =>
    simp only [step] at h
    cases h
    exact ⟨⟨hv, hph, he⟩, fun _ hR => hR⟩

end Verif.Pump
