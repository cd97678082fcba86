import Verif.Spec.Czar
import Verif.Proofs.KVMore
import Verif.Proofs.KVApply
/-
Helper lemmas: the functions of Model/Czar, one by one.
-/
namespace Verif.Czar
open Verif.KV (Key Store Leaf Ticket lookup put erase leafOf doCAS)

/-! ### Versions -/

theorem versionCompare_lt {a b : Vers} : versionCompare a b < 0 ↔ ¬ verLe b a := by
  unfold versionCompare verLe
  repeat' split
  all_goals first | omega | (constructor <;> intro h <;> omega)

theorem versionCompare_ge {a b : Vers} (h : ¬ versionCompare a b < 0) : verLe b a :=
  Classical.byContradiction fun e => h (versionCompare_lt.2 e)

theorem verLe_refl (a : Vers) : verLe a a := Or.inr ⟨rfl, Nat.le_refl _⟩

theorem verLe_trans {a b c : Vers} (h : verLe a b) (h' : verLe b c) : verLe a c := by
  unfold verLe at *; omega

/-! ### Lists -/

section
variable {β : Type}

theorem lookup_map {γ : Type} (f : β → γ) (m : List (Key × β)) (n : Key) :
    lookup (m.map fun x => (x.1, f x.2)) n = (lookup m n).map f := by
  induction m with
  | nil => rfl
  | cons x m ih =>
    simp only [List.map_cons, lookup]
    split
    · rfl
    · exact ih

theorem lookup_filter {m : List (Key × β)} {ks : List Key} {n : Key} :
    lookup (m.filter fun x => x.1 ∉ ks) n = if n ∈ ks then none else lookup m n := by
  induction m with
  | nil => simp [lookup]
  | cons x m ih =>
    rw [List.filter_cons]
    by_cases h : x.1 ∈ ks
    · rw [if_neg (by simpa using h), ih]
      by_cases e : n = x.1
      · subst e; simp [h]
      · simp [lookup, e]
    · rw [if_pos (by simpa using h)]
      by_cases e : n = x.1
      · subst e; simp [h, lookup]
      · simp only [lookup, e, if_false]; exact ih
end

theorem sameView.refl (a : RList) : sameView a a := ⟨rfl, rfl, fun _ => rfl⟩
theorem sameView.symm {a b : RList} (h : sameView a b) : sameView b a :=
  ⟨h.1.symm, h.2.1.symm, fun n => (h.2.2 n).symm⟩
theorem sameView.trans {a b d : RList} (h : sameView a b) (h' : sameView b d) : sameView a d :=
  ⟨h.1.trans h'.1, h.2.1.trans h'.2.1, fun n => (h.2.2 n).trans (h'.2.2 n)⟩

theorem lookup_clone (l : RList) (n : Key) : lookup l.clone.peers n = (lookup l.peers n).map Plus.clone :=
  lookup_map _ _ _

theorem clone_view (l : RList) : sameView l.clone l := by
  refine ⟨rfl, ?_, fun n => ?_⟩
  · cases h : l.czarDet <;> simp [RList.clone, h, Plus.clone]
  · rw [lookup_clone]; cases lookup l.peers n <;> rfl

theorem clone_lookup_none {l : RList} {n : Key} : lookup l.clone.peers n = none ↔ lookup l.peers n = none := by
  rw [lookup_clone]; simp

/-! ### setVers -/

theorem setVers_some {m : Mem} {v l u now m' us} (h : setVers m v l u now = some (m', us)) :
    now ≤ v.until_ ∧ verLe m.vers v ∧
    m' = { m with members := l.clone, vers := v, hash := some (hashOf l v), t0 := now } ∧
    us = if m.hash ≠ some (hashOf l v) ∧ u = true then [(v, l.clone.clone)] else [] := by
  unfold setVers at h
  split at h
  · cases h
  split at h
  · cases h
  rename_i h1 h2
  cases h
  exact ⟨by omega, versionCompare_ge h2, rfl, rfl⟩

theorem setVers_ups {m : Mem} {v l u now m' us} (h : setVers m v l u now = some (m', us)) :
    us = [] ∨ us = [(m'.vers, m'.members.clone)] := by
  obtain ⟨-, -, h1, h2⟩ := setVers_some h
  subst h1
  rw [h2]
  split
  · exact Or.inr rfl
  · exact Or.inl rfl

theorem setVers_none {m : Mem} {v l u now} (h : setVers m v l u now = none) :
    v.until_ < now ∨ ¬ verLe m.vers v := by
  unfold setVers at h
  split at h
  · exact Or.inl ‹_›
  split at h
  · exact Or.inr (versionCompare_lt.1 ‹_›)
  · cases h

/-! ### settle -/

theorem settle_eq (m : Mem) (now : Int) :
    settle m now = m ∨ (settle m now = { m with state := .unknown } ∧ m.state = .amCzar ∧ m.vers.until_ < now) := by
  unfold settle
  split
  · exact Or.inr ⟨rfl, ‹_›⟩
  · exact Or.inl rfl

theorem settle_state {m : Mem} {now : Int} (h : (settle m now).state = .amCzar) :
    m.state = .amCzar ∧ now ≤ m.vers.until_ := by
  unfold settle at h
  split at h
  · cases h
  · rename_i h1
    exact ⟨h, Int.not_lt.1 fun e => h1 ⟨h, e⟩⟩

@[simp] theorem settle_vers (m : Mem) (now : Int) : (settle m now).vers = m.vers := by
  rcases settle_eq m now with e | e
  · rw [e]
  · rw [e.1]
@[simp] theorem settle_members (m : Mem) (now : Int) : (settle m now).members = m.members := by
  rcases settle_eq m now with e | e
  · rw [e]
  · rw [e.1]
@[simp] theorem settle_hash (m : Mem) (now : Int) : (settle m now).hash = m.hash := by
  rcases settle_eq m now with e | e
  · rw [e]
  · rw [e.1]
@[simp] theorem settle_busy (m : Mem) (now : Int) : (settle m now).busy = m.busy := by
  rcases settle_eq m now with e | e
  · rw [e]
  · rw [e.1]

/-! ### expireSilentNodes -/

theorem withoutNames_lookup (m : Mem) (ks : List Key) (n : Key) :
    lookup (withoutNames m ks).peers n = if n ∈ ks then none else (lookup m.members.peers n).map Plus.clone := by
  unfold withoutNames
  simp only
  rw [lookup_filter, lookup_clone]

theorem mem_silentNames {c : Cfg} {me : Key} {m : Mem} {now : Int} {n : Key} (h : n ∈ silentNames c me m now) :
    ∃ p, (n, p) ∈ m.members.peers ∧ silent c me m now (n, p) = true := by
  unfold silentNames at h
  obtain ⟨x, hx, rfl⟩ := List.mem_map.1 h
  obtain ⟨h1, h2⟩ := List.mem_filter.1 hx
  exact ⟨x.2, h1, h2⟩

/-- Who is removed is somebody else, and has no lease, or one that is over and was not renewed. -/
theorem silent_true {c : Cfg} {me : Key} {m : Mem} {now : Int} {n : Key} {p : Plus}
    (h : silent c me m now (n, p) = true) : n ≠ me ∧ (p.until_ = 0 ∨ p.until_ + c.drift < now) := by
  unfold silent at h
  split at h
  · cases h
  · rename_i h1
    refine ⟨h1, ?_⟩
    simp only at h
    split at h <;> simp at h <;> rcases h with h | h <;> first | exact Or.inl h | exact Or.inr h.2

/-! ### handlePing -/

theorem forget_eq (m : Mem) (ks : List Key) : (forget m ks).vers = m.vers ∧ (forget m ks).members = m.members ∧
    (forget m ks).hash = m.hash ∧ (forget m ks).state = m.state ∧ (forget m ks).busy = m.busy ∧
    (forget m ks).conn = m.conn ∧ (forget m ks).dead = m.dead := ⟨rfl, rfl, rfl, rfl, rfl, rfl, rfl⟩

/-- What becomes of the czar's list and version when it makes a new version of them. -/
structure Bumped (m m' : Mem) (us : List View) : Prop where
  epoch : m'.vers.epoch = m.vers.epoch
  within : m'.vers.within = m.vers.within + 1
  until_ : m'.vers.until_ = m.vers.until_
  czar : m'.members.czarName = m.members.czarName
  det : m'.members.czarDet.map (·.det) = m.members.czarDet.map (·.det)
  state : m'.state = m.state
  busy : m'.busy = m.busy
  ups : us = [] ∨ us = [(m'.vers, m'.members.clone)]

/-- `handlePing`: refused, or lease extended in place, or a new version. -/
inductive Handled (c : Cfg) (m : Mem) (d : Det) (now now2 : Int) : Mem → List View → Option View → Prop
  | refused {m'} : m'.vers = m.vers → m'.members = m.members → m'.hash = m.hash → m'.busy = m.busy →
      m'.state ≠ .amCzar → Handled c m d now now2 m' [] none
  | extended {m'} : m.state = .amCzar → m'.state = .amCzar → now ≤ m.vers.until_ → m'.vers = m.vers →
      sameView m'.members m.members → m'.hash = m.hash → m'.busy = m.busy →
      Handled c m d now now2 m' [] (some (m'.vers, m'.members.clone))
  | bumped {m' us} : m.state = .amCzar → now ≤ m.vers.until_ → now2 ≤ m.vers.until_ → Bumped m m' us →
      (∀ n, n ≠ d.name → lookup m.members.peers n = none → lookup m'.members.peers n = none) →
      Handled c m d now now2 m' us (some (m'.vers, m'.members.clone))

theorem touch_view {c : Cfg} {me : Key} {m : Mem} {d : Det} {now : Int} :
    sameView (touch c me m d now).members m.members := by
  refine ⟨rfl, rfl, fun n => ?_⟩
  simp only [touch]
  by_cases hf : isNew m d = true
  · rw [if_pos hf]
  · rw [if_neg hf]
    by_cases hn : n = d.name
    · subst hn
      rw [KV.lookup_put_same]
      cases hl : lookup m.members.peers d.name with
      | none => unfold isNew at hf; rw [hl] at hf; simp at hf
      | some p => rfl
    · rw [KV.lookup_put_other _ _ hn]

theorem handlePing_cases {c : Cfg} {me : Key} {m : Mem} {d : Det} {now now2 : Int} {m' us r}
    (h : handlePing c me m d now now2 = some (m', us, r)) : Handled c m d now now2 m' us r := by
  unfold handlePing at h
  split at h
  · rename_i h1
    cases h
    exact .refused rfl rfl rfl rfl h1
  rename_i h1
  have h1 : m.state = .amCzar := Classical.byContradiction h1
  split at h
  · cases h
    exact .refused rfl rfl rfl rfl (by simp)
  rename_i h2
  simp only at h
  split at h
  · cases h
    exact .extended h1 h1 (by omega) rfl touch_view rfl rfl
  · rename_i h3
    generalize hg : silentNames c me (touch c me m d now) now = gone at h
    generalize hL : (if gone = [] then withCaller c m d now else withoutNames (touch c me m d now) gone) = L at h
    have hL1 : L.czarName = m.members.czarName := by rw [← hL]; split <;> rfl
    have hL2 : L.czarDet.map (·.det) = m.members.czarDet.map (·.det) := by
      rw [← hL]; split
      · exact (clone_view m.members).2.1
      · exact (clone_view (touch c me m d now).members).2.1
    have hL3 : ∀ n, n ≠ d.name → lookup m.members.peers n = none → lookup L.peers n = none := by
      intro n hn hl
      rw [← hL]; split
      · simp only [withCaller]
        rw [KV.lookup_put_other _ _ hn, clone_lookup_none, hl]
      · rw [withoutNames_lookup]
        have := (touch_view (c := c) (me := me) (m := m) (d := d) (now := now)).2.2 n
        rw [hl] at this
        cases hx : lookup (touch c me m d now).members.peers n with
        | none => simp
        | some p => rw [hx] at this; simp at this
    cases hs : setVers (forget (touch c me m d now) gone) { m.vers with within := m.vers.within + 1 } L true now2 with
    | none => rw [hs] at h; cases h
    | some q =>
      obtain ⟨m2, us2⟩ := q
      rw [hs] at h
      cases h
      obtain ⟨h4, -, h6, h7⟩ := setVers_some hs
      refine .bumped h1 (by omega) h4 ⟨?_, ?_, ?_, ?_, ?_, ?_, ?_, ?_⟩ ?_
      · rw [h6]
      · rw [h6]
      · rw [h6]
      · rw [h6]; exact hL1
      · rw [h6]
        exact (clone_view L).2.1.trans hL2
      · rw [h6]; rfl
      · rw [h6]; rfl
      · rw [h7]
        split
        · exact Or.inr (by rw [h6])
        · exact Or.inl rfl
      · intro n hn hl
        rw [h6]
        exact clone_lookup_none.2 (hL3 n hn hl)

/-! ### The czar key -/

/-- What a write of the key that took effect leaves. -/
structure Wrote (c : Cfg) (q : Req) (tm : Int) (r : Store × Ticket) (l : Leaf) : Prop where
  leaf : leafOf r.1 tableName keyName = some l
  leasor : l.leasor = (c.det q.src).name
  peer : l.leasorPeer = (c.det q.src).peerID
  endTm : l.endTm = tm + c.czDur
  err : r.2.err = none
  swapped : r.2.swapped = true
  epoch : r.2.epoch = l.epoch
  aEnd : r.2.endTm = tm + c.czDur

/-- The outcomes of a write of the czar key, by its leaf before. -/
inductive Out (c : Cfg) (kv : Store) (q : Req) (tm : Int) (r : Store × Ticket) : Option Leaf → Prop
  | missing : 0 < q.epoch → r.1 = kv → r.2.err = some .keyNotFound → r.2.swapped = false → Out c kv q tm r none
  | refused {l e} : r.1 = kv → r.2.err = some e → e ≠ .keyNotFound → r.2.swapped = false →
      r.2.epoch = l.epoch → r.2.endTm = l.endTm + c.drift → Out c kv q tm r (some l)
  | fresh {l'} : q.epoch = 0 → l'.epoch = 1 → Wrote c q tm r l' → Out c kv q tm r none
  | extend {l l'} : (q.epoch = 0 ∨ q.epoch = l.epoch) → l.leasor = (c.det q.src).name → l.endTm < tm + c.czDur →
      l'.epoch = l.epoch → Wrote c q tm r l' → Out c kv q tm r (some l)
  | take {l l'} : (q.epoch = 0 ∨ q.epoch = l.epoch) →
      (l.leasor = [] ∨ l.endTm = 0 ∨
        (l.endTm + c.drift < tm ∧ ¬ (l.leasor = (c.det q.src).name ∧ l.leasorPeer = (c.det q.src).peerID))) →
      l'.epoch = l.epoch + 1 → Wrote c q tm r l' → Out c kv q tm r (some l)

theorem cas_write {c : Cfg} {kv : Store} {q : Req} {tm : Int} {idx : Nat} {r} (hd : 0 < c.czDur)
    (he : ∀ l, leafOf kv tableName keyName = some l → q.epoch = 0 ∨ q.epoch = l.epoch)
    (he' : leafOf kv tableName keyName = none → q.epoch = 0)
    (h : KV.casWrite c.drift kv (ticketOf c q tm idx) = some r) :
    Out c kv q tm r (leafOf kv tableName keyName) := by
  have hE : (ticketOf c q tm idx).endTm = tm + c.czDur := by simp [ticketOf, KV.prepOne, hd]
  have ht : (ticketOf c q tm idx).table = tableName := rfl
  have hk : (ticketOf c q tm idx).key = keyName := rfl
  unfold KV.casWrite KV.kvstoreWrite at h
  split at h
  · cases h
  rw [ht, hk] at h
  cases hl : leafOf kv tableName keyName with
  | none =>
    rw [hl] at h
    cases h
    refine .fresh (he' hl) (l' := KV.freshLeaf (ticketOf c q tm idx)) rfl
      ⟨?_, rfl, rfl, hE, rfl, rfl, rfl, hE⟩
    simp only
    rw [KV.leafOf_setKey]; simp
  | some l =>
    rw [hl] at h
    simp only at h
    unfold KV.writeLeaf at h
    have key : ∀ (l' : Leaf) (b : Prop) [Decidable b],
        l'.leasor = (c.det q.src).name → l'.leasorPeer = (c.det q.src).peerID → l'.endTm = tm + c.czDur →
        some (some (KV.setKey (kv.getD []) tableName keyName l'),
          { (if b then
            { (ticketOf c q tm idx) with epoch := l'.epoch, writeIdx := (ticketOf c q tm idx).idx, prevVal := l.value, prevVtype := l.vtype }
          else { (ticketOf c q tm idx) with epoch := l'.epoch, writeIdx := (ticketOf c q tm idx).idx } : Ticket) with
            swapped := (if b then
            { (ticketOf c q tm idx) with epoch := l'.epoch, writeIdx := (ticketOf c q tm idx).idx, prevVal := l.value, prevVtype := l.vtype }
          else { (ticketOf c q tm idx) with epoch := l'.epoch, writeIdx := (ticketOf c q tm idx).idx } : Ticket).err.isNone }) = some r →
        Wrote c q tm r l' := by
      intro l' b _ h1 h2 h3 e
      cases e
      refine ⟨?_, h1, h2, h3, ?_, ?_, ?_, ?_⟩
      · simp only
        rw [KV.leafOf_setKey]; simp
      all_goals (simp only; split <;> first | rfl | exact hE)
    by_cases c1 : (ticketOf c q tm idx).idx ≤ l.writeIdx
    · rw [if_pos c1] at h
      cases h
      exact .refused rfl rfl (by simp) rfl rfl rfl
    rw [if_neg c1] at h
    by_cases c2 : l.leasor = [] ∨ l.endTm = 0
    · rw [if_pos c2] at h
      refine .take (he l hl) ?_ (l' := KV.freeLeaf l (ticketOf c q tm idx)) rfl (key _ _ rfl rfl hE h)
      rcases c2 with e | e
      · exact Or.inl e
      · exact Or.inr (Or.inl e)
    rw [if_neg c2] at h
    by_cases c3 : (ticketOf c q tm idx).reqDur ≠ 0 ∧ (ticketOf c q tm idx).endTm ≤ l.endTm
    · rw [if_pos c3] at h
      cases h
      exact .refused rfl rfl (by simp) rfl rfl rfl
    rw [if_neg c3] at h
    have hlt : l.endTm < tm + c.czDur := by
      rw [hE] at c3
      have : (ticketOf c q tm idx).reqDur = c.czDur := rfl
      omega
    by_cases c4 : (ticketOf c q tm idx).reqDur ≠ 0 ∧ l.leasor = (ticketOf c q tm idx).leasor ∧ l.leasorPeer = (ticketOf c q tm idx).fromID
    · rw [if_pos c4] at h
      exact .extend (he l hl) c4.2.1 hlt (l' := KV.extendLeaf l (ticketOf c q tm idx)) rfl
        (key _ _ c4.2.1 rfl hE h)
    rw [if_neg c4] at h
    by_cases c5 : l.endTm + c.drift < (ticketOf c q tm idx).tm
    · rw [if_pos c5] at h
      refine .take (he l hl) (Or.inr (Or.inr ⟨c5, fun e => c4 ⟨?_, e⟩⟩))
        (l' := KV.takeLeaf c.drift l (ticketOf c q tm idx)) rfl (key _ _ rfl rfl hE h)
      show c.czDur ≠ 0
      omega
    · rw [if_neg c5] at h
      cases h
      exact .refused rfl rfl (by simp) rfl rfl rfl

theorem cas_out {c : Cfg} {kv : Store} {q : Req} {tm : Int} {idx : Nat} {r} (hd : 0 < c.czDur)
    (h : doCAS c.drift kv (ticketOf c q tm idx) = some r) :
    Out c kv q tm r (leafOf kv tableName keyName) := by
  have ht : (ticketOf c q tm idx).table = tableName := rfl
  have hk : (ticketOf c q tm idx).key = keyName := rfl
  have ho : (ticketOf c q tm idx).oldEpoch = (q.epoch : Int) := rfl
  have hv : ¬ 0 < (ticketOf c q tm idx).oldVersion := by show ¬ (0 : Int) < 0; omega
  have hV : ¬ (ticketOf c q tm idx).oldVal ≠ [] := by show ¬ (([] : Key) ≠ []); simp
  unfold doCAS at h
  rw [ht, hk] at h
  cases hl : leafOf kv tableName keyName with
  | none =>
    rw [hl] at h
    simp only at h
    split at h
    · rename_i h1
      cases h
      refine .missing ?_ rfl rfl rfl
      rw [ho] at h1
      rcases h1 with e | e | e
      · exact absurd e hv
      · omega
      · exact absurd e hV
    · rename_i h1
      rw [← hl]
      refine cas_write hd (by rw [hl]; intro l e; cases e) (fun _ => ?_) h
      have : ¬ (0 : Int) < q.epoch := fun e => h1 (Or.inr (Or.inl (by rw [ho]; exact e)))
      omega
  | some l =>
    rw [hl] at h
    simp only at h
    split at h
    · cases h
      exact .refused rfl rfl (by simp) rfl rfl rfl
    split at h
    · rename_i h1
      split at h
      · cases h
        exact .refused rfl rfl (by simp) rfl rfl rfl
      · rename_i h2
        rw [← hl]
        refine cas_write hd (fun l' e => ?_) (by rw [hl]; intro e; cases e) h
        rw [hl] at e; cases e
        rw [ho] at h2
        omega
    · rename_i h1
      rw [← hl]
      refine cas_write hd (fun l' e => Or.inl ?_) (by rw [hl]; intro e; cases e) h
      rw [ho] at h1
      omega

end Verif.Czar
