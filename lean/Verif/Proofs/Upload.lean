import Verif.Spec.Upload
/-
The invariant behind C52.
-/
namespace Verif.Upload

theorem lookup_cons (k : Nat) (v : Option Nat) (m) (k' : Nat) :
    lookup ((k, v) :: m) k' = if k = k' then some v else lookup m k' := by
  unfold lookup
  by_cases h : k = k'
  · simp [h]
  · rw [List.find?_cons, show (k == k') = false from by simpa using h, if_neg h]

theorem lookup_erase (k k' : Nat) (m) :
    lookup (erase m k) k' = if k = k' then none else lookup m k' := by
  unfold lookup erase
  by_cases h : k = k'
  · subst h
    simp only [if_true, Option.map_eq_none_iff, List.find?_eq_none, List.mem_filter]
    simp
  · simp only [if_neg h]
    congr 1
    induction m with
    | nil => rfl
    | cons a t ih =>
      by_cases ha : a.1 = k
      · rw [List.filter_cons_of_neg (by simpa using ha), ih, List.find?_cons]
        rw [show (a.1 == k') = false from by simp [ha, h]]
      · rw [List.filter_cons_of_pos (by simpa using ha), List.find?_cons, List.find?_cons, ih]

theorem ofCall_append (u : Nat) (a b : List Part) : ofCall u (a ++ b) = ofCall u a ++ ofCall u b := by
  simp [ofCall]

theorem ofCall_same (p : Part) : ofCall p.callID [p] = [p] := by simp [ofCall]

theorem ofCall_other {u : Nat} {p : Part} (h : p.callID ≠ u) : ofCall u [p] = [] := by
  simp [ofCall, h]

theorem ofCall_id {u : Nat} {a : List Part} {p : Part} (h : p ∈ ofCall u a) : p.callID = u := by
  have := (List.mem_filter.1 h).2
  simpa using this

/-- A message the read loop is stuck on, for this channel. -/
def blk (s : Srv) (c : Nat) : List Part :=
  match s.blocked with
  | some (some c', p) => if c' = c then [p] else []
  | _ => []

def Live (k : Work) : Prop := k.st = .queued ∨ k.st = .running

structure WOk (A : List Part) (s : Srv) (k : Work) : Prop where
  req : (ofCall k.req.callID A)[0]? = some k.req
  flags : k.got = (k.got.map (·.1)).map fun p => (p, decide (p.typ = .fin))
  pre : k.got.map (·.1) <+: ofCall k.req.callID A
  ok : k.st ≠ .panicked
  queued : k.st = .queued → k.got = []
  live : Live k → ∃ c q, k.ch = some c ∧ s.chans[c]? = some q ∧
    (lookup s.active k.req.callID = some (some c) ∧
        k.got.map (·.1) ++ q ++ blk s c = ofCall k.req.callID A ∨
      lookup s.active k.req.callID = none ∧ k.st = .running ∧
        k.got.map (·.1) ++ q ++ blk s c <+: ofCall k.req.callID A)

structure Inv (O : List Nat) (A : List Part) (s : Srv) : Prop where
  works : ∀ (w : Nat) (k : Work), s.works[w]? = some k → WOk A s k
  chan : ∀ (w w' : Nat) (k k' : Work) (c : Nat), s.works[w]? = some k → s.works[w']? = some k' →
    k.ch = some c → k'.ch = some c → w = w'
  ids : ∀ (w w' : Nat) (k k' : Work), s.works[w]? = some k → s.works[w']? = some k' →
    k.req.callID = k'.req.callID → w = w'
  active : ∀ (u c : Nat), lookup s.active u = some (some c) →
    ∃ (w : Nat) (k : Work), s.works[w]? = some k ∧ k.req.callID = u ∧ k.ch = some c ∧ Live k
  has : ∀ u, ofCall u A ≠ [] → ∃ (w : Nat) (k : Work), s.works[w]? = some k ∧ k.req.callID = u
  chlt : ∀ (w : Nat) (k : Work) (c : Nat), s.works[w]? = some k → k.ch = some c → c < s.chans.length
  stuck : ∀ x p, s.blocked = some (x, p) → ∃ (c w : Nat) (k : Work), x = some c ∧
    s.works[w]? = some k ∧ k.ch = some c ∧ k.req.callID = p.callID
  others : ∀ u, lookup s.active u = some none → u ∈ O
  apart : ∀ p ∈ A, p.callID ∉ O

theorem Inv.nonempty {O A s} (i : Inv O A s) {w : Nat} {k : Work} (hk : s.works[w]? = some k) :
    ofCall k.req.callID A ≠ [] := by
  intro h
  have := (i.works w k hk).req
  rw [h] at this
  simp at this

theorem Inv.notOther {O A s} (i : Inv O A s) {w : Nat} {k : Work} (hk : s.works[w]? = some k) :
    k.req.callID ∉ O := by
  have h := (i.works w k hk).req
  have hm : k.req ∈ ofCall k.req.callID A := List.mem_of_getElem? h
  exact i.apart _ (List.mem_filter.1 hm).1

/-- The other goroutines do not notice. -/
theorem WOk.frame {A s s'} {k : Work} (h : WOk A s k)
    (h1 : ∀ c, k.ch = some c → s'.chans[c]? = s.chans[c]?)
    (h2 : lookup s'.active k.req.callID = lookup s.active k.req.callID)
    (h3 : ∀ c, k.ch = some c → blk s' c = blk s c) : WOk A s' k where
  req := h.req
  flags := h.flags
  pre := h.pre
  ok := h.ok
  queued := h.queued
  live := by
    intro hl
    obtain ⟨c, q, e1, e2, e3⟩ := h.live hl
    exact ⟨c, q, e1, by rw [h1 c e1]; exact e2, by rw [h2, h3 c e1]; exact e3⟩

/-- A step of one goroutine. -/
theorem Inv.upd {O A s} (i : Inv O A s) {w : Nat} {k k' : Work} (hw : s.works[w]? = some k)
    (hreq : k'.req = k.req) (hch : k'.ch = k.ch) {s' : Srv} (e1 : s'.works = s.works.set w k')
    (e2 : s'.chans.length = s.chans.length)
    (e3 : ∀ c, k.ch ≠ some c → s'.chans[c]? = s.chans[c]?) (e4 : s'.blocked = s.blocked)
    (e5 : ∀ u, u ≠ k.req.callID → lookup s'.active u = lookup s.active u)
    (e6 : ∀ x, lookup s'.active k.req.callID = some x → lookup s.active k.req.callID = some x)
    (e7 : ∀ c, lookup s'.active k.req.callID = some (some c) → k'.ch = some c ∧ Live k')
    (hk : WOk A s' k') : Inv O A s' := by
  have hl : w < s.works.length := (List.getElem?_eq_some_iff.1 hw).1
  have key : ∀ (w' : Nat) (x : Work), s'.works[w']? = some x ↔
      if w = w' then x = k' else s.works[w']? = some x := by
    intro w' x
    rw [e1, List.getElem?_set]
    by_cases e : w = w'
    · subst e; simp [hl, eq_comm]
    · simp [e]
  -- the same goroutine before
  have old : ∀ (w' : Nat) (x : Work), s'.works[w']? = some x →
      ∃ y, s.works[w']? = some y ∧ y.req = x.req ∧ y.ch = x.ch := by
    intro w' x hx
    have hx := (key w' x).1 hx
    by_cases e : w = w'
    · rw [if_pos e] at hx
      subst hx
      exact ⟨k, by rw [← e]; exact hw, hreq.symm, hch.symm⟩
    · rw [if_neg e] at hx
      exact ⟨x, hx, rfl, rfl⟩
  have new : ∀ (w' : Nat) (y : Work), s.works[w']? = some y →
      ∃ x, s'.works[w']? = some x ∧ x.req = y.req ∧ x.ch = y.ch := by
    intro w' y hy
    by_cases e : w = w'
    · subst e
      rw [hw] at hy
      obtain rfl := Option.some.inj hy
      exact ⟨k', (key _ _).2 (by simp), hreq, hch⟩
    · exact ⟨y, (key _ _).2 (by simp [e, hy]), rfl, rfl⟩
  exact {
    works := by
      intro w' x hx
      have hx := (key w' x).1 hx
      by_cases e : w = w'
      · rw [if_pos e] at hx
        subst hx
        exact hk
      · rw [if_neg e] at hx
        refine (i.works w' x hx).frame ?_ (e5 _ ?_) ?_
        · intro c hc
          exact e3 c fun hc' => e (i.chan w w' k x c hw hx hc' hc)
        · intro he
          exact e (i.ids w w' k x hw hx he.symm)
        · intro c _
          unfold blk
          rw [e4]
    chan := by
      intro a b x y c hx hy hcx hcy
      obtain ⟨x', hx', _, e⟩ := old a x hx
      obtain ⟨y', hy', _, e'⟩ := old b y hy
      exact i.chan a b x' y' c hx' hy' (e.trans hcx) (e'.trans hcy)
    ids := by
      intro a b x y hx hy he
      obtain ⟨x', hx', e, _⟩ := old a x hx
      obtain ⟨y', hy', e', _⟩ := old b y hy
      exact i.ids a b x' y' hx' hy' (by rw [e, e']; exact he)
    active := by
      intro u c hu
      by_cases e : u = k.req.callID
      · subst e
        obtain ⟨h1, h2⟩ := e7 c hu
        exact ⟨w, k', (key _ _).2 (by simp), by rw [hreq], h1, h2⟩
      · rw [e5 u e] at hu
        obtain ⟨w', x, hx, h1, h2, h3⟩ := i.active u c hu
        have : w ≠ w' := by
          rintro rfl
          rw [hw] at hx
          obtain rfl := Option.some.inj hx
          exact e h1.symm
        exact ⟨w', x, (key _ _).2 (by simp [this, hx]), h1, h2, h3⟩
    has := by
      intro u hu
      obtain ⟨w', y, hy, e⟩ := i.has u hu
      obtain ⟨x, hx, e', _⟩ := new w' y hy
      exact ⟨w', x, hx, by rw [e']; exact e⟩
    chlt := by
      intro w' x c hx hc
      obtain ⟨y, hy, _, e⟩ := old w' x hx
      rw [e2]
      exact i.chlt w' y c hy (e.trans hc)
    stuck := by
      intro x p hb
      rw [e4] at hb
      obtain ⟨c, w', y, h1, hy, h2, h3⟩ := i.stuck x p hb
      obtain ⟨z, hz, e, e'⟩ := new w' y hy
      exact ⟨c, w', z, h1, hz, e'.trans h2, by rw [e]; exact h3⟩
    others := by
      intro u hu
      by_cases e : u = k.req.callID
      · subst e
        exact i.others _ (e6 _ hu)
      · exact i.others u (by rw [← e5 u e]; exact hu)
    apart := i.apart }

/-- The in-flight entry is gone, the goroutine returns. -/
theorem Inv.finish {O A s} (i : Inv O A s) {w : Nat} {k k' : Work} (hw : s.works[w]? = some k)
    (hreq : k'.req = k.req) (hch : k'.ch = k.ch) {c : Nat} (hc : k.ch = some c) (q : List Part)
    (hst : k'.st = .ended) (hf : k'.got = (k'.got.map (·.1)).map fun p => (p, decide (p.typ = .fin)))
    (hp : k'.got.map (·.1) <+: ofCall k.req.callID A) :
    Inv O A { s with chans := s.chans.set c q, works := s.works.set w k',
                     active := erase s.active k.req.callID } := by
  refine i.upd hw hreq hch rfl (by simp) ?_ rfl ?_ ?_ ?_ ?_
  · intro c' hc'
    have : c ≠ c' := by rintro rfl; exact hc' hc
    dsimp only
    rw [List.getElem?_set]
    simp [this]
  · intro u hu
    dsimp only
    rw [lookup_erase, if_neg (Ne.symm hu)]
  · intro x hx
    dsimp only at hx
    rw [lookup_erase, if_pos rfl] at hx
    exact absurd hx (by simp)
  · intro x hx
    dsimp only at hx
    rw [lookup_erase, if_pos rfl] at hx
    exact absurd hx (by simp)
  · exact {
      req := by rw [hreq]; exact (i.works w k hw).req
      flags := hf
      pre := by rw [hreq]; exact hp
      ok := by rw [hst]; simp
      queued := by rw [hst]; simp
      live := by rintro (h | h) <;> rw [hst] at h <;> exact absurd h (by simp) }

theorem Stream.prefix {a b : List Part} (h : Stream b) (hp : a <+: b) : Stream a := by
  obtain ⟨t, rfl⟩ := hp
  intro i p hi
  have hl : i < a.length := (List.getElem?_eq_some_iff.1 hi).1
  obtain ⟨h1, h2, h3⟩ := h i p (by rw [List.getElem?_append_left hl]; exact hi)
  refine ⟨h1, h2, fun hf => ?_⟩
  have := h3 hf
  simp only [List.length_append] at this
  omega

theorem inv_take {O A s} (i : Inv O A s) (hS : ∀ u, Stream (ofCall u A)) {w : Nat} {k : Work}
    (hw : s.works[w]? = some k) (hr : k.st = .running) (ok : Bool) : Inv O A (s.take w k ok) := by
  have hW := i.works w k hw
  obtain ⟨c, q0, hc, hq0, hlive⟩ := hW.live (.inr hr)
  unfold Srv.take
  rw [hc]
  dsimp only
  rw [hq0]
  cases q0 with
  | nil => exact i
  | cons p q =>
    dsimp only
    have hpre : k.got.map (·.1) ++ (p :: q) ++ blk s c <+: ofCall k.req.callID A := by
      rcases hlive with ⟨_, h⟩ | ⟨_, _, h⟩
      · rw [h]; exact List.prefix_refl _
      · exact h
    have hget : (ofCall k.req.callID A)[k.got.length]? = some p := by
      obtain ⟨t, ht⟩ := hpre
      rw [← ht]
      simp
    have hno : ¬ (k.got = [] ∧ p ≠ k.req ∨ p.streamPart ≠ k.got.length ∨
        k.got ≠ [] ∧ p.callID ≠ k.req.callID) := by
      rintro (⟨h1, h2⟩ | h1 | ⟨_, h2⟩)
      · rw [h1] at hget
        have := hW.req
        simp only [List.length_nil] at hget
        rw [hget] at this
        exact h2 (Option.some.inj this)
      · exact h1 (hS _ _ _ hget).1
      · exact h2 (ofCall_id (List.mem_of_getElem? hget))
    rw [if_neg hno]
    have hp1 : (k.got ++ [(p, decide (p.typ = .fin))]).map (·.1) <+: ofCall k.req.callID A := by
      refine List.IsPrefix.trans ?_ hpre
      simp only [List.map_append, List.map_cons, List.map_nil]
      exact ⟨q ++ blk s c, by simp⟩
    have hf : k.got ++ [(p, decide (p.typ = .fin))] =
        ((k.got ++ [(p, decide (p.typ = .fin))]).map (·.1)).map
          fun p => (p, decide (p.typ = .fin)) := by
      rw [List.map_append, List.map_append, ← hW.flags]
      simp
    split
    · exact i.finish hw (k' := { k with
        ch := some c, got := k.got ++ [(p, decide (p.typ = .fin))], st := .ended })
        rfl hc.symm hc q rfl hf hp1
    · refine i.upd hw (k' := { k with
        ch := some c, got := k.got ++ [(p, decide (p.typ = .fin))] }) rfl hc.symm rfl
        (by simp) ?_ rfl (fun _ _ => rfl) (fun _ h => h) ?_ ?_
      · intro c' hc'
        have : c ≠ c' := by rintro rfl; exact hc' hc
        dsimp only
        rw [List.getElem?_set]
        simp [this]
      · intro c' hc'
        dsimp only at hc'
        rcases hlive with ⟨h, _⟩ | ⟨h, _⟩
        · rw [h] at hc'
          simp only [Option.some.injEq] at hc'
          exact ⟨by rw [← hc'], .inr hr⟩
        · rw [h] at hc'
          exact absurd hc' (by simp)
      · have hlen : c < s.chans.length := i.chlt w k c hw hc
        exact {
          req := hW.req
          flags := hf
          pre := hp1
          ok := by dsimp only; rw [hr]; simp
          queued := by intro h; dsimp only at h; rw [hr] at h; exact absurd h (by simp)
          live := by
            intro _
            refine ⟨c, q, rfl, by dsimp only; rw [List.getElem?_set]; simp [hlen], ?_⟩
            dsimp only
            have e : (k.got ++ [(p, decide (p.typ = .fin))]).map (·.1) ++ q ++ blk s c =
                k.got.map (·.1) ++ (p :: q) ++ blk s c := by simp
            rcases hlive with ⟨h, h'⟩ | ⟨h, h'', h'⟩
            · exact .inl ⟨h, e.trans h'⟩
            · exact .inr ⟨h, hr, by
                have : (k.got ++ [(p, decide (p.typ = .fin))]).map (·.1) ++ q ++ blk s c <+:
                  ofCall k.req.callID A := by rw [e]; exact h'
                exact this⟩ }

theorem blk_none {s : Srv} (h : s.blocked = none) (c : Nat) : blk s c = [] := by
  unfold blk; rw [h]

/-- More messages of other uploads. -/
theorem WOk.grow {A s} {k : Work} (h : WOk A s k) {p : Part}
    (hl : lookup s.active k.req.callID = none ∨ p.callID ≠ k.req.callID) : WOk (A ++ [p]) s k := by
  by_cases e : p.callID = k.req.callID
  · have e' : ofCall k.req.callID (A ++ [p]) = ofCall k.req.callID A ++ [p] := by
      rw [ofCall_append, ← e, ofCall_same]
    have hpre : ofCall k.req.callID A <+: ofCall k.req.callID (A ++ [p]) := by
      rw [e']; exact List.prefix_append _ _
    have hn : lookup s.active k.req.callID = none := hl.resolve_right fun h => h e
    exact {
      req := by
        rw [e', List.getElem?_append_left]
        · exact h.req
        · exact (List.getElem?_eq_some_iff.1 h.req).1
      flags := h.flags
      pre := h.pre.trans hpre
      ok := h.ok
      queued := h.queued
      live := by
        intro hlv
        obtain ⟨c, q, e1, e2, ⟨e3, _⟩ | ⟨e3, e4, e5⟩⟩ := h.live hlv
        · rw [hn] at e3; exact absurd e3 (by simp)
        · exact ⟨c, q, e1, e2, .inr ⟨e3, e4, e5.trans hpre⟩⟩ }
  · have e' : ofCall k.req.callID (A ++ [p]) = ofCall k.req.callID A := by
      rw [ofCall_append, ofCall_other e, List.append_nil]
    exact {
      req := by rw [e']; exact h.req
      flags := h.flags
      pre := by rw [e']; exact h.pre
      ok := h.ok
      queued := h.queued
      live := by
        intro hlv
        obtain ⟨c, q, e1, e2, e3⟩ := h.live hlv
        exact ⟨c, q, e1, e2, by rw [e']; exact e3⟩ }

theorem inv_begin {O A s cap} (i : Inv O A s) {p : Part} (hS : Stream (ofCall p.callID (A ++ [p])))
    (hO : p.callID ∉ O) (hb : s.blocked = none) (ht : p.typ = .begin) :
    Inv O (A ++ [p]) (s.arrive cap p) := by
  have hA : ofCall p.callID A = [] := by
    rw [ofCall_append, ofCall_same] at hS
    have := (hS (ofCall p.callID A).length p (by simp)).2.1.1 ht
    exact List.length_eq_zero_iff.1 this
  have hfresh : ∀ (w : Nat) (k : Work), s.works[w]? = some k → k.req.callID ≠ p.callID := by
    intro w k hk he
    exact i.nonempty hk (by rw [he]; exact hA)
  have hl : lookup s.active p.callID = none := by
    cases h : lookup s.active p.callID with
    | none => rfl
    | some x =>
      cases x with
      | none => exact absurd (i.others _ h) hO
      | some c =>
        obtain ⟨w, k, hk, he, _⟩ := i.active _ c h
        exact absurd he (hfresh w k hk)
  unfold Srv.arrive
  rw [if_neg (by simp [hb]), if_pos ht, hl]
  dsimp only
  have key : ∀ (w : Nat) (x : Work),
      (s.works ++ [⟨p, some s.chans.length, [], .queued⟩])[w]? = some x ↔
        s.works[w]? = some x ∨ w = s.works.length ∧ x = ⟨p, some s.chans.length, [], .queued⟩ := by
    intro w x
    rw [List.getElem?_append]
    split
    · rename_i hlt
      constructor
      · exact .inl
      · rintro (h | ⟨rfl, _⟩)
        · exact h
        · omega
    · rename_i hge
      rw [List.getElem?_eq_none (by omega : s.works.length ≤ w)]
      rcases Nat.lt_or_eq_of_le (Nat.le_of_not_lt hge) with h1 | h1
      · rw [List.getElem?_eq_none (by simp; omega)]
        simp; omega
      · subst h1; simp [eq_comm]
  exact {
    works := by
      intro w k hk
      rcases (key w k).1 hk with hk | ⟨_, rfl⟩
      · refine ((i.works w k hk).grow (.inr (Ne.symm (hfresh w k hk)))).frame ?_ ?_ ?_
        · intro c hc
          dsimp only
          rw [List.getElem?_append_left (i.chlt w k c hk hc)]
        · dsimp only
          rw [lookup_cons, if_neg (Ne.symm (hfresh w k hk))]
        · intro c _
          rfl
      · have e : ofCall p.callID (A ++ [p]) = [p] := by rw [ofCall_append, hA, ofCall_same]; rfl
        exact {
          req := by dsimp only; rw [e]; rfl
          flags := rfl
          pre := List.nil_prefix
          ok := by simp
          queued := fun _ => rfl
          live := by
            intro _
            refine ⟨s.chans.length, [p], rfl, by simp, .inl ⟨?_, ?_⟩⟩
            · dsimp only; rw [lookup_cons, if_pos rfl]
            · dsimp only; rw [blk_none (by exact hb), e]; rfl }
    chan := by
      intro a b x y c hx hy hcx hcy
      rcases (key a x).1 hx with hx | ⟨rfl, rfl⟩ <;> rcases (key b y).1 hy with hy | ⟨rfl, rfl⟩
      · exact i.chan a b x y c hx hy hcx hcy
      · have := i.chlt a x c hx hcx
        simp only [Option.some.injEq] at hcy
        omega
      · have := i.chlt b y c hy hcy
        simp only [Option.some.injEq] at hcx
        omega
      · rfl
    ids := by
      intro a b x y hx hy he
      rcases (key a x).1 hx with hx | ⟨rfl, rfl⟩ <;> rcases (key b y).1 hy with hy | ⟨rfl, rfl⟩
      · exact i.ids a b x y hx hy he
      · exact absurd he (hfresh a x hx)
      · exact absurd he.symm (hfresh b y hy)
      · rfl
    active := by
      intro u c hu
      dsimp only at hu
      rw [lookup_cons] at hu
      split at hu
      · rename_i e
        simp only [Option.some.injEq] at hu
        exact ⟨s.works.length, _, (key _ _).2 (.inr ⟨rfl, rfl⟩), e, by rw [hu], .inl rfl⟩
      · obtain ⟨w, k, hk, h1⟩ := i.active u c hu
        exact ⟨w, k, (key _ _).2 (.inl hk), h1⟩
    has := by
      intro u hu
      by_cases e : p.callID = u
      · exact ⟨s.works.length, _, (key _ _).2 (.inr ⟨rfl, rfl⟩), e⟩
      · rw [ofCall_append, ofCall_other e, List.append_nil] at hu
        obtain ⟨w, k, hk, h1⟩ := i.has u hu
        exact ⟨w, k, (key _ _).2 (.inl hk), h1⟩
    chlt := by
      intro w k c hk hc
      simp only [List.length_append, List.length_singleton]
      rcases (key w k).1 hk with hk | ⟨rfl, rfl⟩
      · have := i.chlt w k c hk hc; omega
      · simp only [Option.some.injEq] at hc; omega
    stuck := by
      intro x p' h
      exact absurd (hb.symm.trans h) (by simp)
    others := by
      intro u hu
      dsimp only at hu
      rw [lookup_cons] at hu
      split at hu
      · exact absurd hu (by simp)
      · exact i.others u hu
    apart := by
      intro p' hp'
      simp only [List.mem_append, List.mem_singleton] at hp'
      rcases hp' with hp' | rfl
      · exact i.apart p' hp'
      · exact hO }

/-- Something is appended to a channel, or waits for it. -/
theorem Inv.chans {O A A' s} (i : Inv O A s) {s' : Srv} (e1 : s'.works = s.works)
    (e2 : s'.active = s.active) (e3 : s'.chans.length = s.chans.length)
    (hw : ∀ (w : Nat) (k : Work), s.works[w]? = some k → WOk A' s' k)
    (hh : ∀ u, ofCall u A' ≠ [] → ofCall u A ≠ []) (hap : ∀ p ∈ A', p.callID ∉ O)
    (hst : ∀ x p, s'.blocked = some (x, p) → ∃ (c w : Nat) (k : Work), x = some c ∧
      s.works[w]? = some k ∧ k.ch = some c ∧ k.req.callID = p.callID) : Inv O A' s' where
  works := by rw [e1]; exact hw
  chan := by rw [e1]; exact i.chan
  ids := by rw [e1]; exact i.ids
  active := by rw [e1, e2]; exact i.active
  has := by rw [e1]; exact fun u hu => i.has u (hh u hu)
  chlt := by rw [e1, e3]; exact i.chlt
  stuck := by rw [e1]; exact hst
  others := by rw [e2]; exact i.others
  apart := hap

theorem inv_more {O A s cap} (i : Inv O A s) {p : Part} (hS : Stream (ofCall p.callID (A ++ [p])))
    (hO : p.callID ∉ O) (hb : s.blocked = none) (ht : p.typ ≠ .begin) :
    Inv O (A ++ [p]) (s.arrive cap p) := by
  have hA : ofCall p.callID A ≠ [] := by
    intro h
    rw [ofCall_append, ofCall_same, h] at hS
    exact ht ((hS 0 p rfl).2.1.2 rfl)
  have hh : ∀ u, ofCall u (A ++ [p]) ≠ [] → ofCall u A ≠ [] := by
    intro u hu
    by_cases e : p.callID = u
    · rw [← e]; exact hA
    · rw [ofCall_append, ofCall_other e, List.append_nil] at hu; exact hu
  have hap : ∀ x ∈ A ++ [p], x.callID ∉ O := by
    intro x hx
    simp only [List.mem_append, List.mem_singleton] at hx
    rcases hx with hx | rfl
    · exact i.apart x hx
    · exact hO
  have hst : ∀ x p, s.blocked = some (x, p) → ∃ (c w : Nat) (k : Work), x = some c ∧
      s.works[w]? = some k ∧ k.ch = some c ∧ k.req.callID = p.callID := by
    intro x p h; rw [hb] at h; exact absurd h (by simp)
  unfold Srv.arrive
  rw [if_neg (by simp [hb]), if_neg ht]
  split
  case h_1 hl =>
    refine i.chans rfl rfl rfl (fun w k hk => ?_) hh hap hst
    refine (i.works w k hk).grow ?_
    by_cases e : p.callID = k.req.callID
    · exact .inl (by rw [← e]; exact hl)
    · exact .inr e
  case h_2 hl => exact absurd (i.others _ hl) hO
  case h_3 c hl =>
    obtain ⟨w0, k0, hk0, hid, hc0, hlv0⟩ := i.active _ c hl
    obtain ⟨c', q, hc', hq, hx⟩ := (i.works w0 k0 hk0).live hlv0
    rw [hc0] at hc'
    obtain rfl := Option.some.inj hc'
    have hall : k0.got.map (·.1) ++ q = ofCall k0.req.callID A := by
      rcases hx with ⟨_, h⟩ | ⟨h, _⟩
      · rw [blk_none hb, List.append_nil] at h; exact h
      · rw [hid, hl] at h; exact absurd h (by simp)
    rw [hq]
    dsimp only
    have hclt := i.chlt w0 k0 c hk0 hc0
    have e0 : ofCall k0.req.callID (A ++ [p]) = k0.got.map (·.1) ++ q ++ [p] := by
      rw [ofCall_append, hall, hid, ofCall_same]
    -- the upload's own goroutine
    have own : ∀ s' : Srv, s'.active = s.active → (∃ q', s'.chans[c]? = some q' ∧
        q' ++ blk s' c = q ++ [p]) → WOk (A ++ [p]) s' k0 := by
      intro s' ea ⟨q', hq', hqb⟩
      have hW := i.works w0 k0 hk0
      exact {
        req := by
          rw [ofCall_append, List.getElem?_append_left (List.getElem?_eq_some_iff.1 hW.req).1]
          exact hW.req
        flags := hW.flags
        pre := by rw [e0]; exact ⟨q ++ [p], by simp⟩
        ok := hW.ok
        queued := hW.queued
        live := fun _ => ⟨c, q', hc0, hq', .inl ⟨by rw [ea, hid]; exact hl, by
          rw [List.append_assoc, hqb, e0, List.append_assoc]⟩⟩ }
    have rest : ∀ s' : Srv, s'.active = s.active →
        (∀ c', c' ≠ c → s'.chans[c']? = s.chans[c']? ∧ blk s' c' = blk s c') →
        ∀ (w : Nat) (k : Work), s.works[w]? = some k → w ≠ w0 → WOk (A ++ [p]) s' k := by
      intro s' ea hc' w k hk hne
      refine ((i.works w k hk).grow (.inr fun e => hne ?_)).frame ?_ (by rw [ea]) ?_
      · exact i.ids w w0 k k0 hk hk0 (by rw [hid]; exact e.symm)
      · intro c2 h2
        exact (hc' c2 (by rintro rfl; exact hne (i.chan w w0 k k0 _ hk hk0 h2 hc0))).1
      · intro c2 h2
        exact (hc' c2 (by rintro rfl; exact hne (i.chan w w0 k k0 _ hk hk0 h2 hc0))).2
    split
    · refine i.chans rfl rfl (by simp) (fun w k hk => ?_) hh hap hst
      by_cases e : w = w0
      · subst e
        rw [hk0] at hk
        obtain rfl := Option.some.inj hk
        exact own _ rfl ⟨q ++ [p], by simp [hclt], by
          rw [blk_none (by exact hb), List.append_nil]⟩
      · refine rest { s with chans := s.chans.set c (q ++ [p]) } rfl (fun c' hc' => ⟨?_, rfl⟩) w k hk e
        dsimp only
        rw [List.getElem?_set]
        simp [Ne.symm hc']
    · refine i.chans rfl rfl rfl (fun w k hk => ?_) hh hap ?_
      · by_cases e : w = w0
        · subst e
          rw [hk0] at hk
          obtain rfl := Option.some.inj hk
          exact own _ rfl ⟨q, hq, by simp [blk]⟩
        · refine rest { s with blocked := some (some c, p) } rfl (fun c' hc' => ⟨rfl, ?_⟩) w k hk e
          rw [blk_none hb]
          simp [blk, Ne.symm hc']
      · intro x p' h
        simp only [Option.some.injEq, Prod.mk.injEq] at h
        obtain ⟨rfl, rfl⟩ := h
        exact ⟨c, w0, k0, rfl, hk0, hc0, hid⟩

theorem inv_unblock {O A s cap} (i : Inv O A s) : Inv O A (s.step cap .unblock) := by
  simp only [Srv.step]
  split
  case h_2 => exact i
  case h_1 c p hb =>
  obtain ⟨c', w0, k0, hx, hk0, hc0, hid⟩ := i.stuck _ _ hb
  obtain rfl := Option.some.inj hx
  split
  case h_2 => exact i
  case h_1 q hq =>
  split
  case isFalse => exact i
  case isTrue =>
  have hclt := i.chlt w0 k0 c hk0 hc0
  refine i.chans rfl rfl (by simp) (fun w k hk => ?_) (fun _ h => h) i.apart
    (fun x p h => absurd h (by simp))
  have hW := i.works w k hk
  by_cases e : w = w0
  · subst e
    rw [hk0] at hk
    obtain rfl := Option.some.inj hk
    exact {
      req := hW.req, flags := hW.flags, pre := hW.pre, ok := hW.ok, queued := hW.queued
      live := by
        intro hlv
        obtain ⟨c2, q2, h1, h2, h3⟩ := hW.live hlv
        rw [hc0] at h1
        obtain rfl := Option.some.inj h1
        rw [hq] at h2
        obtain rfl := Option.some.inj h2
        have eb : blk s c = [p] := by simp [blk, hb]
        refine ⟨c, q ++ [p], hc0, by simp [hclt], ?_⟩
        rw [blk_none rfl, List.append_nil, ← List.append_assoc]
        rw [eb] at h3
        exact h3 }
  · refine hW.frame ?_ rfl ?_
    · intro c2 h2
      have : c ≠ c2 := by rintro rfl; exact e (i.chan w w0 k k0 _ hk hk0 h2 hc0)
      dsimp only
      rw [List.getElem?_set]
      simp [this]
    · intro c2 h2
      have : c ≠ c2 := by rintro rfl; exact e (i.chan w w0 k k0 _ hk hk0 h2 hc0)
      simp [blk, hb, this]

theorem inv_step {O A s cap} (i : Inv O A s) (op : Op)
    (hA : ∀ u, Stream (ofCall u (A ++ accepted cap s [op])))
    (hO : ∀ p ∈ accepted cap s [op], p.callID ∉ O) (hO' : ∀ id, op = .other id → id ∈ O)
    (he : ¬ EarlyCancel s op) : Inv O (A ++ accepted cap s [op]) (s.step cap op) := by
  have none_acc : accepted cap s [op] = [] → Inv O A (s.step cap op) →
      Inv O (A ++ accepted cap s [op]) (s.step cap op) := by
    intro h; rw [h, List.append_nil]; exact id
  cases op with
  | arrive p =>
    simp only [Srv.step]
    by_cases hb : s.blocked = none
    · simp only [accepted, if_pos hb, List.append_nil] at hA hO ⊢
      by_cases ht : p.typ = .begin
      · exact inv_begin i (hA _) (hO p (by simp)) hb ht
      · exact inv_more i (hA _) (hO p (by simp)) hb ht
    · have : s.arrive cap p = s := by unfold Srv.arrive; rw [if_pos hb]
      rw [this]
      simpa [accepted, hb] using i
  | unblock => exact none_acc (by simp [accepted]) (inv_unblock i)
  | start w =>
    refine none_acc (by simp [accepted]) ?_
    simp only [Srv.step]
    split
    case h_2 => exact i
    case h_1 k hk =>
    split
    case isFalse => exact i
    case isTrue hq =>
    have hW := i.works w k hk
    obtain ⟨c, q, hc, hcq, hx⟩ := hW.live (.inl hq)
    have hlk : lookup s.active k.req.callID = some (some c) ∧
        k.got.map (·.1) ++ q ++ blk s c = ofCall k.req.callID A := by
      rcases hx with h | ⟨_, h, _⟩
      · exact h
      · rw [hq] at h; exact absurd h (by simp)
    rw [hlk.1]
    dsimp only
    refine i.upd hk (k' := { k with st := .running }) rfl rfl rfl rfl (fun _ _ => rfl) rfl
      (fun _ _ => rfl) (fun _ h => h) ?_ ?_
    · intro c' hc'
      dsimp only at hc'
      rw [hlk.1] at hc'
      simp only [Option.some.injEq] at hc'
      exact ⟨by rw [← hc']; exact hc, .inr rfl⟩
    · exact {
        req := hW.req, flags := hW.flags, pre := hW.pre, ok := by simp
        queued := by intro h; exact absurd h (by simp)
        live := fun _ => ⟨c, q, hc, hcq, .inl hlk⟩ }
  | take w ok =>
    refine none_acc (by simp [accepted]) ?_
    simp only [Srv.step]
    split
    case h_2 => exact i
    case h_1 k hk =>
    split
    · rename_i hr
      refine inv_take i (fun u => (hA u).prefix ?_) hk hr ok
      rw [ofCall_append]
      exact List.prefix_append _ _
    · exact i
  | ctxDone w =>
    refine none_acc (by simp [accepted]) ?_
    simp only [Srv.step]
    split
    case h_2 => exact i
    case h_1 k hk =>
    split
    · rename_i hr
      have hW := i.works w k hk
      obtain ⟨c, q, hc, hcq, _⟩ := hW.live (.inr hr)
      have := i.finish hk (k' := { k with st := .ended }) rfl rfl hc q rfl hW.flags hW.pre
      have e : s.chans.set c q = s.chans := by
        apply List.ext_getElem?
        intro j
        rw [List.getElem?_set]
        by_cases ej : c = j
        · subst ej; rw [if_pos rfl, if_pos (i.chlt w k c hk hc), hcq]
        · simp [ej]
      rw [e] at this
      exact this
    · exact i
  | other id =>
    refine none_acc (by simp [accepted]) ?_
    simp only [Srv.step]
    split
    case h_2 => exact i
    case h_1 hl =>
    have hid := hO' id rfl
    exact {
      works := by
        intro w k hk
        refine (i.works w k hk).frame (fun _ _ => rfl) ?_ (fun _ _ => rfl)
        dsimp only
        rw [lookup_cons, if_neg]
        rintro rfl
        exact i.notOther hk hid
      chan := i.chan
      ids := i.ids
      active := by
        intro u c hu
        dsimp only at hu
        rw [lookup_cons] at hu
        split at hu
        · exact absurd hu (by simp)
        · exact i.active u c hu
      has := i.has
      chlt := i.chlt
      stuck := i.stuck
      others := by
        intro u hu
        dsimp only at hu
        rw [lookup_cons] at hu
        split at hu
        · rename_i e; exact e ▸ hid
        · exact i.others u hu
      apart := i.apart }
  | cancel id =>
    refine none_acc (by simp [accepted]) ?_
    simp only [Srv.step]
    exact {
      works := by
        intro w k hk
        have hW := i.works w k hk
        by_cases e : id = k.req.callID
        · subst e
          have hnq : k.st ≠ .queued := fun h => he ⟨w, k, hk, rfl, h⟩
          exact {
            req := hW.req, flags := hW.flags, pre := hW.pre, ok := hW.ok, queued := hW.queued
            live := by
              intro hlv
              obtain ⟨c, q, h1, h2, h3⟩ := hW.live hlv
              refine ⟨c, q, h1, h2, .inr ⟨?_, hlv.resolve_left hnq, ?_⟩⟩
              · dsimp only; rw [lookup_erase, if_pos rfl]
              · rcases h3 with ⟨_, h⟩ | ⟨_, _, h⟩
                · show k.got.map (·.1) ++ q ++ blk s c <+: _
                  rw [h]; exact List.prefix_refl _
                · exact h }
        · refine hW.frame (fun _ _ => rfl) ?_ (fun _ _ => rfl)
          dsimp only
          rw [lookup_erase, if_neg e]
      chan := i.chan
      ids := i.ids
      active := by
        intro u c hu
        dsimp only at hu
        rw [lookup_erase] at hu
        split at hu
        · exact absurd hu (by simp)
        · exact i.active u c hu
      has := i.has
      chlt := i.chlt
      stuck := i.stuck
      others := by
        intro u hu
        dsimp only at hu
        rw [lookup_erase] at hu
        split at hu
        · exact absurd hu (by simp)
        · exact i.others u hu
      apart := i.apart }

theorem accepted_cons (cap : Nat) (s : Srv) (op : Op) (ops : List Op) :
    accepted cap s (op :: ops) = accepted cap s [op] ++ accepted cap (s.step cap op) ops := by
  simp [accepted]

theorem inv_run {O cap} (ops : List Op) : ∀ {A s}, Inv O A s →
    (∀ u, Stream (ofCall u (A ++ accepted cap s ops))) →
    (∀ p ∈ accepted cap s ops, p.callID ∉ O) → (∀ id, .other id ∈ ops → id ∈ O) →
    NoEarlyCancel cap s ops → Inv O (A ++ accepted cap s ops) (s.run cap ops) := by
  induction ops with
  | nil => intro A s i _ _ _ _; simpa [accepted, Srv.run] using i
  | cons op t ih =>
    intro A s i hS hA hO hE
    rw [accepted_cons, ← List.append_assoc] at hS ⊢
    rw [accepted_cons] at hA
    refine ih (inv_step i op (fun u => (hS u).prefix ?_) ?_ ?_ hE.1) hS ?_ ?_ hE.2
    · rw [ofCall_append (b := accepted cap (s.step cap op) t)]
      exact List.prefix_append _ _
    · exact fun p hp => hA p (List.mem_append_left _ hp)
    · exact fun id h => hO id (by rw [h]; exact List.mem_cons_self)
    · exact fun p hp => hA p (List.mem_append_right _ hp)
    · exact fun id h => hO id (List.mem_cons_of_mem _ h)

theorem inv_init (O : List Nat) : Inv O [] {} where
  works := by simp
  chan := by simp
  ids := by simp
  active := by simp [lookup]
  has := by simp [ofCall]
  chlt := by simp
  stuck := by simp
  others := by simp [lookup]
  apart := by simp

/-- A goroutine of this upload that has not returned is registered. -/
def Reg (u : Nat) (s : Srv) : Prop :=
  ∀ (w : Nat) (k : Work), s.works[w]? = some k → k.req.callID = u → Live k →
    lookup s.active u ≠ none

theorem Reg.ended {O A s u} (i : Inv O A s) (r : Reg u s) {w : Nat} {k k' : Work}
    (hw : s.works[w]? = some k) (hst : k'.st = .ended) {s' : Srv}
    (e1 : s'.works = s.works.set w k') (e2 : s'.active = erase s.active k.req.callID) : Reg u s' := by
  intro w' x hx hid hl
  rw [e1, List.getElem?_set] at hx
  split at hx
  · split at hx
    · obtain rfl := Option.some.inj hx
      rcases hl with h | h <;> rw [hst] at h <;> exact absurd h (by simp)
    · exact absurd hx (by simp)
  · rename_i hne
    rw [e2, lookup_erase, if_neg]
    · exact r w' x hx hid hl
    · intro e
      exact hne (i.ids w w' k x hw hx (e.trans hid.symm))

theorem Reg.same {s u} (r : Reg u s) {w : Nat} {k k' : Work} (hw : s.works[w]? = some k)
    (hreq : k'.req = k.req) (hl : Live k) {s' : Srv}
    (e1 : s'.works = s.works.set w k') (e2 : s'.active = s.active) : Reg u s' := by
  intro w' x hx hid hl'
  rw [e2]
  rw [e1, List.getElem?_set] at hx
  split at hx
  · split at hx
    · obtain rfl := Option.some.inj hx
      exact r w k hw (by rw [← hreq]; exact hid) hl
    · exact absurd hx (by simp)
  · exact r w' x hx hid hl'

theorem reg_step {O A s cap u} (i : Inv O A s) (r : Reg u s) (op : Op) (hc : op ≠ .cancel u) :
    Reg u (s.step cap op) := by
  have consne : ∀ (id : Nat) (v : Option Nat), lookup s.active u ≠ none →
      lookup ((id, v) :: s.active) u ≠ none := by
    intro id v h
    rw [lookup_cons]
    split
    · simp
    · exact h
  cases op with
  | arrive p =>
    simp only [Srv.step, Srv.arrive]
    split
    · exact r
    · split
      · split
        · intro w x hx hid hl
          dsimp only at hx ⊢
          rw [List.getElem?_append] at hx
          split at hx
          · exact consne _ _ (r w x hx hid hl)
          · rw [List.getElem?_singleton] at hx
            split at hx
            · obtain rfl := Option.some.inj hx
              rw [lookup_cons, if_pos hid]; simp
            · exact absurd hx (by simp)
        · rename_i v hv
          intro w x hx hid hl
          dsimp only at hx ⊢
          rw [List.getElem?_append] at hx
          split at hx
          · exact r w x hx hid hl
          · rw [List.getElem?_singleton] at hx
            split at hx
            · obtain rfl := Option.some.inj hx
              dsimp only at hid
              rw [← hid, hv]; simp
            · exact absurd hx (by simp)
      · split
        · exact r
        · exact r
        · split
          · split
            · exact r
            · exact r
          · exact r
  | unblock =>
    simp only [Srv.step]
    split
    · split
      · split
        · exact r
        · exact r
      · exact r
    · exact r
  | start w =>
    simp only [Srv.step]
    split
    case h_2 => exact r
    case h_1 k hk =>
    split
    case isFalse => exact r
    case isTrue hq =>
    split
    · exact r.same hk (k' := { k with st := .running }) rfl (.inl hq) rfl rfl
    · rename_i hn
      intro w' x hx hid hl
      dsimp only at hx ⊢
      rw [List.getElem?_set] at hx
      split at hx
      · split at hx
        · obtain rfl := Option.some.inj hx
          rw [lookup_cons, if_pos hid]; simp
        · exact absurd hx (by simp)
      · exact consne _ _ (r w' x hx hid hl)
  | take w ok =>
    simp only [Srv.step]
    split
    case h_2 => exact r
    case h_1 k hk =>
    split
    case isFalse => exact r
    case isTrue hq =>
    unfold Srv.take
    split
    · exact r
    · split
      · rename_i p q _
        dsimp only
        split
        · intro w' x hx hid hl
          dsimp only at hx ⊢
          rw [List.getElem?_set] at hx
          split at hx
          · split at hx
            · obtain rfl := Option.some.inj hx
              rcases hl with h | h <;> exact absurd h (by simp)
            · exact absurd hx (by simp)
          · exact r w' x hx hid hl
        · split
          · exact r.ended i hk (k' := { k with got := k.got ++ [(p, decide (p.typ = .fin))], st := .ended })
              rfl rfl rfl
          · exact r.same hk (k' := { k with got := k.got ++ [(p, decide (p.typ = .fin))] })
              rfl (.inr hq) rfl rfl
      · exact r
  | ctxDone w =>
    simp only [Srv.step]
    split
    case h_2 => exact r
    case h_1 k hk =>
    split
    · exact r.ended i hk (k' := { k with st := .ended }) rfl rfl rfl
    · exact r
  | other id =>
    simp only [Srv.step]
    split
    · intro w x hx hid hl
      exact consne _ _ (r w x hx hid hl)
    · exact r
  | cancel id =>
    simp only [Srv.step]
    intro w x hx hid hl
    dsimp only
    rw [lookup_erase, if_neg (by rintro rfl; exact hc rfl)]
    exact r w x hx hid hl

theorem reg_run {O cap u} (ops : List Op) : ∀ {A s}, Inv O A s → Reg u s →
    (∀ u, Stream (ofCall u (A ++ accepted cap s ops))) →
    (∀ p ∈ accepted cap s ops, p.callID ∉ O) → (∀ id, .other id ∈ ops → id ∈ O) →
    NoEarlyCancel cap s ops → .cancel u ∉ ops → Reg u (s.run cap ops) := by
  induction ops with
  | nil => intro A s _ r _ _ _ _ _; exact r
  | cons op t ih =>
    intro A s i r hS hA hO hE hC
    rw [accepted_cons, ← List.append_assoc] at hS
    rw [accepted_cons] at hA
    refine ih (inv_step i op (fun u => (hS u).prefix ?_) ?_ ?_ hE.1)
      (reg_step i r op fun h => hC (by rw [h]; exact List.mem_cons_self)) hS ?_ ?_ hE.2
      (fun h => hC (List.mem_cons_of_mem _ h))
    · rw [ofCall_append (b := accepted cap (s.step cap op) t)]
      exact List.prefix_append _ _
    · exact fun p hp => hA p (List.mem_append_left _ hp)
    · exact fun id h => hO id (by rw [h]; exact List.mem_cons_self)
    · exact fun p hp => hA p (List.mem_append_right _ hp)
    · exact fun id h => hO id (List.mem_cons_of_mem _ h)

/-- A function given the end has returned. -/
def Closed (s : Srv) : Prop :=
  ∀ k ∈ s.works, (∃ x ∈ k.got, x.2 = true) → k.st = .ended ∨ k.st = .panicked

theorem closed_step {s : Srv} (cap : Nat) (h : Closed s) (op : Op) : Closed (s.step cap op) := by
  have setOk : ∀ (w : Nat) (k k' : Work), s.works[w]? = some k → k'.got = k.got →
      (k.st = .queued ∨ k.st = .running ∨ k'.st = .ended ∨ k'.st = .panicked) →
      ∀ x ∈ s.works.set w k', (∃ y ∈ x.got, y.2 = true) → x.st = .ended ∨ x.st = .panicked := by
    intro w k k' hk hg hs x hx hy
    rcases List.mem_or_eq_of_mem_set hx with hx | rfl
    · exact h x hx hy
    · rcases hs with hs | hs | hs
      · have := h k (List.mem_of_getElem? hk) (by rw [← hg]; exact hy)
        rw [hs] at this; simp at this
      · have := h k (List.mem_of_getElem? hk) (by rw [← hg]; exact hy)
        rw [hs] at this; simp at this
      · exact hs
  cases op with
  | arrive p =>
    simp only [Srv.step, Srv.arrive]
    have new : ∀ ch, ∀ x ∈ s.works ++ [⟨p, ch, [], .queued⟩], (∃ y ∈ x.got, y.2 = true) →
        x.st = .ended ∨ x.st = .panicked := by
      intro ch x hx hy
      rw [List.mem_append, List.mem_singleton] at hx
      rcases hx with hx | rfl
      · exact h x hx hy
      · simp at hy
    split
    · exact h
    · split
      · split
        · exact new _
        · exact new _
      · split
        · exact h
        · exact h
        · split
          · split
            · exact h
            · exact h
          · exact h
  | unblock =>
    simp only [Srv.step]
    repeat' split
    all_goals exact h
  | start w =>
    simp only [Srv.step]
    split
    · rename_i k hk
      split
      · rename_i hq
        split
        · exact setOk w k _ hk rfl (.inl hq)
        · exact setOk w k _ hk rfl (.inl hq)
      · exact h
    · exact h
  | take w ok =>
    simp only [Srv.step]
    split
    case h_2 => exact h
    case h_1 k hk =>
    split
    case isFalse => exact h
    case isTrue hr =>
    unfold Srv.take
    split
    · exact h
    · split
      · rename_i p q _
        dsimp only
        split
        · exact setOk w k _ hk rfl (.inr (.inl hr))
        · split
          · intro x hx hy
            rcases List.mem_or_eq_of_mem_set hx with hx | rfl
            · exact h x hx hy
            · exact .inl rfl
          · rename_i hno
            intro x hx hy
            rcases List.mem_or_eq_of_mem_set hx with hx | rfl
            · exact h x hx hy
            · exfalso
              obtain ⟨y, hy, hy2⟩ := hy
              rw [List.mem_append, List.mem_singleton] at hy
              rcases hy with hy | rfl
              · have := h k (List.mem_of_getElem? hk) ⟨y, hy, hy2⟩
                rw [hr] at this; simp at this
              · exact hno (.inr hy2)
      · exact h
  | ctxDone w =>
    simp only [Srv.step]
    split
    · rename_i k hk
      split
      · rename_i hr
        exact setOk w k _ hk rfl (.inr (.inl hr))
      · exact h
    · exact h
  | other id =>
    simp only [Srv.step]
    split
    all_goals exact h
  | cancel id => exact h

theorem closed_run (cap : Nat) (ops : List Op) : ∀ {s : Srv}, Closed s → Closed (s.run cap ops) := by
  induction ops with
  | nil => intro s h; exact h
  | cons op t ih => intro s h; exact ih (closed_step cap h op)

/-! ### The client -/

theorem run_stream (ms : List More) (hs : ∀ m ∈ ms, m.sent = true) : ∀ (u : Uploader) (i : Nat) (p : Part),
    (u.run ms)[i]? = some p → p.callID = u.callID ∧ p.streamPart = u.next + i ∧ p.typ ≠ .begin ∧
      (p.typ = .fin → i + 1 = (u.run ms).length) := by
  induction ms with
  | nil => intro u i p h; simp [Uploader.run] at h
  | cons m t ih =>
    have ih := ih fun x hx => hs x (List.mem_cons_of_mem _ hx)
    have hm := hs m List.mem_cons_self
    intro u i p h
    by_cases hd : u.done
    · have e : u.run (m :: t) = u.run t := by simp [Uploader.run, Uploader.more, hd]
      rw [e] at h ⊢
      exact ih u i p h
    · have e : u.run (m :: t) = ⟨if m.last then .fin else .more, u.callID, u.next, m.body⟩ ::
          Uploader.run { u with next := u.next + 1, done := m.last } t := by
        simp [Uploader.run, Uploader.more, hd, hm]
      rw [e] at h ⊢
      cases i with
      | zero =>
        simp only [List.getElem?_cons_zero, Option.some.injEq] at h
        subst h
        refine ⟨rfl, rfl, by dsimp only; split <;> simp, ?_⟩
        intro hf
        dsimp only at hf
        split at hf
        · rename_i hl
          have : ∀ ms : List More, ∀ u : Uploader, u.done = true → u.run ms = [] := by
            intro ms
            induction ms with
            | nil => intro u _; rfl
            | cons a b ih => intro u hu; simp [Uploader.run, Uploader.more, hu, ih]
          rw [this t _ hl]
          rfl
        · exact absurd hf (by simp)
      | succ j =>
        simp only [List.getElem?_cons_succ] at h
        obtain ⟨h1, h2, h3, h4⟩ := ih _ j p h
        refine ⟨h1, by rw [h2]; dsimp only; omega, h3, fun hf => ?_⟩
        have := h4 hf
        simp only [List.length_cons]
        omega

theorem upload_stream (callID body : Nat) (ms : List More) (hs : ∀ m ∈ ms, m.sent = true) :
    Stream (upload callID body ms) := by
  intro i p h
  unfold upload at h ⊢
  cases i with
  | zero =>
    simp only [List.getElem?_cons_zero, Option.some.injEq] at h
    subst h
    exact ⟨rfl, by simp, by simp⟩
  | succ j =>
    simp only [List.getElem?_cons_succ] at h
    obtain ⟨_, h2, h3, h4⟩ := run_stream ms hs _ j p h
    refine ⟨by rw [h2]; dsimp only; omega, by simp [h3], fun hf => ?_⟩
    have := h4 hf
    simp only [List.length_cons]
    omega

end Verif.Upload
