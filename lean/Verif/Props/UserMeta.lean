import Verif.Model.UserMeta

/-! C144: the metadata of a peer. -/

namespace Verif.UserMeta

theorem lookup_filter_ne (m : Dict) (k k' : String) :
    (m.filter fun e => e.1 ≠ k).lookup k' = if k' = k then none else m.lookup k' := by
  induction m with
  | nil => simp
  | cons e m ih =>
    obtain ⟨a, b⟩ := e
    by_cases h : a = k
    · rw [List.filter_cons_of_neg (by simp [h]), ih]
      by_cases hk : k' = k
      · simp [hk]
      · have : (k' == a) = false := by simp [h, hk]
        simp [hk, List.lookup_cons, this]
    · rw [List.filter_cons_of_pos (by simp [h]), List.lookup_cons, List.lookup_cons, ih]
      by_cases ha : k' = a
      · subst ha; simp [h]
      · have : (k' == a) = false := by simp [ha]
        simp [this]

theorem get_set (m : Dict) (k v k' : String) : get (set m k v) k' = if k' = k then some v else get m k' := by
  unfold get set
  rw [List.lookup_cons, lookup_filter_ne]
  by_cases h : k' = k
  · simp [h]
  · have : (k' == k) = false := by simp [h]
    simp [h, this]

theorem get_del (m : Dict) (k k' : String) : get (del m k) k' = if k' = k then none else get m k' :=
  lookup_filter_ne m k k'

/-- Each key once. -/
def Keys (m : Dict) : Prop := (m.map (·.1)).Nodup

theorem keys_filter {m : Dict} (h : Keys m) (p : String × String → Bool) : Keys (m.filter p) :=
  List.Nodup.sublist (List.Sublist.map _ List.filter_sublist) h

theorem keys_set {m : Dict} (h : Keys m) (k v : String) : Keys (set m k v) := by
  unfold Keys set
  rw [List.map_cons, List.nodup_cons]
  refine ⟨?_, keys_filter h _⟩
  intro hmem
  obtain ⟨e, he, hk⟩ := List.mem_map.1 hmem
  have := (List.mem_filter.1 he).2
  simp at this
  exact this hk

theorem keys_leader {m : Dict} (h : Keys m) (itoa : Int → String) (l : Leader) :
    Keys (leaderWasUpdated itoa m l) := by
  unfold leaderWasUpdated
  split
  · exact keys_filter (keys_filter (keys_filter (keys_filter h _) _) _) _
  · have h1 := keys_set h "leaderName" l.name
    have h2 : Keys (if l.url = "" then del (set m "leaderName" l.name) "leaderURL"
        else set (set m "leaderName" l.name) "leaderURL" l.url) := by
      split
      · exact keys_filter h1 _
      · exact keys_set h1 _ _
    generalize hm2 : (if l.url = "" then del (set m "leaderName" l.name) "leaderURL"
        else set (set m "leaderName" l.name) "leaderURL" l.url) = m2 at h2
    have h3 : Keys (if l.id = "" then del m2 "leaderID" else set m2 "leaderID" l.id) := by
      split
      · exact keys_filter h2 _
      · exact keys_set h2 _ _
    simp only [hm2]
    generalize hm3 : (if l.id = "" then del m2 "leaderID" else set m2 "leaderID" l.id) = m3 at h3
    split
    · exact keys_filter h3 _
    · exact keys_set h3 _ _

theorem keys_after (itoa : Int → String) (cs : List Change) : Keys (metaAfter itoa cs) := by
  have key : ∀ (cs : List Change) (m : Dict), Keys m → Keys (cs.foldl (change itoa) m) := by
    intro cs
    induction cs with
    | nil => exact fun _ h => h
    | cons c cs ih =>
      intro m h
      refine ih _ ?_
      cases c with
      | put k v => exact keys_set h k v
      | remove k => exact keys_filter h _
      | leader l => exact keys_leader h itoa l
  exact key cs [] List.nodup_nil

/-- What the leader's entry of a key is to be; none: not a key of the leader's. -/
def leaderEntry (itoa : Int → String) (l : Leader) (k : String) : Option (Option String) :=
  if k = "leaderName" then some (if l.name = "" then none else some l.name)
  else if k = "leaderURL" then some (if l.name = "" ∨ l.url = "" then none else some l.url)
  else if k = "leaderID" then some (if l.name = "" ∨ l.id = "" then none else some l.id)
  else if k = "leaderTerm" then some (if l.name = "" ∨ l.term = 0 then none else some (itoa l.term))
  else none

/-- What a change says of a key; none: nothing. -/
def says (itoa : Int → String) (k : String) : Change → Option (Option String)
  | .put k' v => if k' = k then some (some v) else none
  | .remove k' => if k' = k then some none else none
  | .leader l => leaderEntry itoa l k

theorem get_ite (c : Prop) [Decidable c] (a b : Dict) (k : String) :
    get (if c then a else b) k = if c then get a k else get b k := by
  split <;> rfl

theorem leader_get (itoa : Int → String) (m : Dict) (l : Leader) (k : String) :
    get (leaderWasUpdated itoa m l) k = (leaderEntry itoa l k).getD (get m k) := by
  unfold leaderWasUpdated leaderEntry
  simp only [get_ite, get_del, get_set]
  by_cases hn : l.name = "" <;> by_cases hu : l.url = "" <;> by_cases hi : l.id = "" <;>
    by_cases ht : l.term = 0 <;> by_cases h1 : k = "leaderName" <;> by_cases h2 : k = "leaderURL" <;>
    by_cases h3 : k = "leaderID" <;> by_cases h4 : k = "leaderTerm" <;> simp_all

theorem change_get (itoa : Int → String) (m : Dict) (c : Change) (k : String) :
    get (change itoa m c) k = (says itoa k c).getD (get m k) := by
  cases c with
  | put k' v =>
    simp only [change, says, get_set]
    by_cases h : k' = k
    · simp [h]
    · simp [h, Ne.symm h]
  | remove k' =>
    simp only [change, says, get_del]
    by_cases h : k' = k
    · simp [h]
    · simp [h, Ne.symm h]
  | leader l => exact leader_get itoa m l k

/-- The metadata of a key are what the latest change that concerns the key says; nothing if none. -/
theorem C144_metadata (itoa : Int → String) (cs : List Change) (k : String) :
    get (metaAfter itoa cs) k = ((cs.reverse.findSome? (says itoa k)).getD none) := by
  have key : ∀ (cs : List Change) (m : Dict), get (cs.foldl (change itoa) m) k =
      (cs.reverse.findSome? (says itoa k)).getD (get m k) := by
    intro cs
    induction cs with
    | nil => intro m; simp
    | cons c cs ih =>
      intro m
      rw [List.foldl_cons, ih, change_get, List.reverse_cons, List.findSome?_append]
      cases cs.reverse.findSome? (says itoa k) with
      | some x => simp
      | none => cases h : says itoa k c <;> simp [h]
  exact key cs []

theorem add_none (md args : Dict) (e : String × String) (he : e ∈ md) (hr : reserved e.1 = true) :
    addUserMeta md args = none := by
  induction md generalizing args with
  | nil => cases he
  | cons x md ih =>
    unfold addUserMeta at ih ⊢
    rw [List.foldlM_cons]
    rcases List.mem_cons.1 he with rfl | he
    · simp [addOne, hr]
    · by_cases hx : reserved x.1 = true
      · simp [addOne, hx]
      · have : addOne args x = some (set args x.1 x.2) := by simp [addOne, hx]
        rw [this]
        exact ih _ he

theorem get_cons (m : Dict) (e : String × String) (k : String) :
    get (e :: m) k = if k = e.1 then some e.2 else get m k := by
  obtain ⟨a, b⟩ := e
  unfold get
  rw [List.lookup_cons]
  by_cases h : k = a
  · simp [h]
  · have : (k == a) = false := by simp [h]
    simp [h, this]

theorem add_some (md args : Dict) (hk : Keys md) (hr : ∀ e ∈ md, reserved e.1 = false) :
    ∃ a, addUserMeta md args = some a ∧ ∀ k, get a k = (get md k).or (get args k) := by
  induction md generalizing args with
  | nil => exact ⟨args, rfl, fun k => by simp [get]⟩
  | cons x md ih =>
    obtain ⟨hx, hk⟩ := List.nodup_cons.1 hk
    obtain ⟨a, h1, h2⟩ := ih (set args x.1 x.2) hk fun e he => hr e (List.mem_cons_of_mem _ he)
    have hone : addOne args x = some (set args x.1 x.2) := by simp [addOne, hr x List.mem_cons_self]
    refine ⟨a, ?_, ?_⟩
    · unfold addUserMeta at h1 ⊢
      rw [List.foldlM_cons, hone]
      exact h1
    · intro k
      rw [h2, get_set]
      by_cases hkx : k = x.1
      · subst hkx
        have hnone : get md x.1 = none := by
          unfold get
          rw [List.lookup_eq_none_iff]
          intro p hp
          simp only [beq_eq_false_iff_ne, ne_eq, bne_iff_ne]
          intro h
          exact hx (List.mem_map.2 ⟨p, hp, h.symm⟩)
        rw [hnone, get_cons]
        simp
      · rw [get_cons]
        simp [hkx]

theorem get_mem {m : Dict} {k v : String} (h : get m k = some v) : (k, v) ∈ m := by
  unfold get at h
  induction m with
  | nil => simp at h
  | cons e m ih =>
    obtain ⟨a, b⟩ := e
    rw [List.lookup_cons] at h
    by_cases ha : k = a
    · subst ha
      simp at h
      simp [h]
    · have : (k == a) = false := by simp [ha]
      rw [this] at h
      exact List.mem_cons_of_mem _ (ih h)

theorem mem_get {m : Dict} {e : String × String} (h : e ∈ m) : ∃ v, get m e.1 = some v := by
  cases hg : get m e.1 with
  | some v => exact ⟨v, rfl⟩
  | none =>
    unfold get at hg
    rw [List.lookup_eq_none_iff] at hg
    have := hg e h
    simp at this

/-- Whatever the metadata and in whatever order they are iterated over (`md` any list with the keys
each once that holds what the changes say): as long as no key set is reserved, what is sent has for
each key the metadata's value if there is one, else the fragment's. -/
theorem C144_sent (itoa : Int → String) (cs : List Change) (frag md : Dict) (hk : Keys md)
    (hmd : ∀ k, get md k = get (metaAfter itoa cs) k)
    (hr : ∀ k, ((cs.reverse.findSome? (says itoa k)).getD none).isSome → reserved k = false) :
    ∃ a, sendArgs md frag = some a ∧
      ∀ k, get a k = (((cs.reverse.findSome? (says itoa k)).getD none).or (get frag k)) := by
  obtain ⟨a, h1, h2⟩ := add_some md frag hk fun e he => by
    obtain ⟨v, hv⟩ := mem_get he
    apply hr
    rw [← C144_metadata, ← hmd, hv]
    rfl
  exact ⟨a, h1, fun k => by rw [h2, hmd, C144_metadata]⟩

/-- A single reserved key in the metadata makes every send panic, in whatever order. -/
theorem C144_reserved (md frag : Dict) (hk : Keys md) :
    sendArgs md frag = none ↔ ∃ k v, get md k = some v ∧ reserved k = true := by
  constructor
  · intro h
    refine Classical.byContradiction fun hn => ?_
    obtain ⟨a, h1, _⟩ := add_some md frag hk fun e he => by
      obtain ⟨v, hv⟩ := mem_get he
      cases hr : reserved e.1 with
      | false => rfl
      | true => exact absurd ⟨e.1, v, hv, hr⟩ hn
    unfold sendArgs at h
    rw [h1] at h
    cases h
  · rintro ⟨k, v, hv, hr⟩
    exact add_none md frag (k, v) (get_mem hv) hr

theorem add_reserved {md args a : Dict} (hk : Keys md) (h : addUserMeta md args = some a) :
    (∀ k, reserved k = true → get a k = get args k) ∧ (∀ k v, get md k = some v → get a k = some v) ∧
    ∀ k, get a k = (get md k).or (get args k) := by
  have hr : ∀ e ∈ md, reserved e.1 = false := by
    intro e he
    cases hb : reserved e.1 with
    | false => rfl
    | true => rw [add_none md args e he hb] at h; cases h
  obtain ⟨a', h1, h2⟩ := add_some md args hk hr
  rw [h] at h1
  cases h1
  refine ⟨?_, ?_, h2⟩
  · intro k hb
    rw [h2]
    cases hg : get md k with
    | none => simp
    | some v => exact absurd (hr _ (get_mem hg)) (by simp [hb])
  · intro k v hv
    rw [h2, hv]
    rfl

/-- No metadata change the system's arguments, those of a fragment sent or of a message that opens or
acknowledges a circuit; and the metadata are in all three, with the fragment's own arguments. -/
theorem C144_system_args (o : Origin) (md frag a : Dict) (hk : Keys md) :
    (sendArgs md frag = some a → (∀ k, reserved k = true → get a k = get frag k) ∧
      ∀ k v, get md k = some v → get a k = some v) ∧
    (openArgs o md frag = some a ∨ ackArgs o md frag = some a →
      get a "#fromServiceName" = some o.fromService ∧ get a "#toServiceName" = some o.toService ∧
      get a "#toPeerServiceNameVersion" = some o.toVersion ∧ get a "#circuitName" = some o.circuitName ∧
      get a "#userString" = some o.userString ∧ get a "#fromBaseServerName" = some o.baseServerName ∧
      get a "#fromBaseServerAddr" = some o.baseServerAddr ∧ get a "#fromHostname" = some o.hostname ∧
      get a "#fromPID" = some o.pid ∧ get a "#fragRPCtoken" = get frag "#fragRPCtoken" ∧
      ∀ k, reserved k = false → get a k = (get md k).or (get frag k)) := by
  refine ⟨fun h => ⟨(add_reserved hk h).1, (add_reserved hk h).2.1⟩, ?_⟩
  have hsys : ∀ k k' : String, reserved k = false → reserved k' = true → ¬ k = k' := by
    rintro k k' h1 h2 rfl
    rw [h1] at h2
    cases h2
  have own : ∀ k, reserved k = false → ¬ k = "#fromServiceName" ∧ ¬ k = "#toServiceName" ∧
      ¬ k = "#toPeerServiceNameVersion" ∧ ¬ k = "#circuitName" ∧ ¬ k = "#userString" ∧
      ¬ k = "#fromBaseServerName" ∧ ¬ k = "#fromBaseServerAddr" ∧ ¬ k = "#fromHostname" ∧
      ¬ k = "#fromPID" := fun k h =>
    ⟨hsys k _ h (by decide), hsys k _ h (by decide), hsys k _ h (by decide), hsys k _ h (by decide),
      hsys k _ h (by decide), hsys k _ h (by decide), hsys k _ h (by decide), hsys k _ h (by decide),
      hsys k _ h (by decide)⟩
  rintro (h | h)
  · obtain ⟨g1, _, g3⟩ := add_reserved hk h
    have g4 : ∀ k, reserved k = false → get a k = (get md k).or (get frag k) := by
      intro k hr
      obtain ⟨a1, a2, a3, a4, a5, a6, a7, a8, a9⟩ := own k hr
      rw [g3]
      simp [get_set, a1, a2, a3, a4, a5, a6, a7, a8, a9]
    refine ⟨?_, ?_, ?_, ?_, ?_, ?_, ?_, ?_, ?_, ?_, g4⟩ <;> rw [g1 _ (by decide)] <;> simp [get_set]
  · obtain ⟨g1, _, g3⟩ := add_reserved hk h
    have g4 : ∀ k, reserved k = false → get a k = (get md k).or (get frag k) := by
      intro k hr
      obtain ⟨a1, a2, a3, a4, a5, a6, a7, a8, a9⟩ := own k hr
      rw [g3]
      simp [get_set, a1, a2, a3, a4, a5, a6, a7, a8, a9]
    refine ⟨?_, ?_, ?_, ?_, ?_, ?_, ?_, ?_, ?_, ?_, g4⟩ <;> rw [g1 _ (by decide)] <;> simp [get_set]

/-- An argument that the caller put on the fragment arrives as put. Partial: unless the metadata have
the key too (`C144_own_args_counterexample`). -/
theorem C144_own_args_partial (md frag f a : Dict) (k v : String) (hk : Keys md)
    (hf : setUserArg frag k v = some f) (ha : sendArgs md f = some a) (hn : get md k = none) :
    getUserArg a k = some v := by
  have hr : reserved k = false := by
    cases h : reserved k with
    | false => rfl
    | true => simp [setUserArg, h] at hf
  have hfe : f = set frag k v := by simp [setUserArg, hr] at hf; exact hf.symm
  have hne : k ≠ "" := by
    rintro rfl
    revert hr
    decide
  have hall : ∀ e ∈ md, reserved e.1 = false := by
    intro e he
    cases hb : reserved e.1 with
    | false => rfl
    | true => unfold sendArgs at ha; rw [add_none md f e he hb] at ha; cases ha
  obtain ⟨a', h1, h2⟩ := add_some md f hk hall
  unfold sendArgs at ha
  rw [ha] at h1
  cases h1
  unfold getUserArg
  rw [if_neg hne, h2, hn, hfe, get_set]
  simp

/-- Where the metadata have the key, the caller's value never arrives. -/
theorem C144_own_args_counterexample (md frag f a : Dict) (k v w : String) (hk : Keys md)
    (_hf : setUserArg frag k v = some f) (ha : sendArgs md f = some a) (hm : get md k = some w) (hw : w ≠ v) :
    get a k ≠ some v := by
  rw [(add_reserved hk ha).2.1 k w hm]
  simpa using hw

/-- The metadata name the node's leader and nothing of another one. -/
def Names (itoa : Int → String) (n : Node) : Prop :=
  get n.md "leaderName" = (if n.leader.name = "" then none else some n.leader.name) ∧
  get n.md "leaderURL" = (if n.leader.name = "" ∨ n.leader.url = "" then none else some n.leader.url) ∧
  get n.md "leaderID" = (if n.leader.name = "" ∨ n.leader.id = "" then none else some n.leader.id) ∧
  get n.md "leaderTerm" = (if n.leader.name = "" ∨ n.leader.term = 0 then none else some (itoa n.leader.term))

theorem names_updated (itoa : Int → String) (m : Dict) (l : Leader) :
    Names itoa ⟨l, leaderWasUpdated itoa m l⟩ := by
  simp [Names, leader_get, leaderEntry]

/-- After any news but a reply to an inspection, a guess, and an acknowledgement that names a leader
without a term, the metadata name the leader the node knows. Partial: not after those
(`C144_leader_counterexample`). -/
theorem C144_leader_partial (itoa : Int → String) (ns : List News) (l0 : Leader) (md : Dict)
    (h0 : Names itoa ⟨l0, md⟩)
    (hns : ∀ n ∈ ns, (∃ l, n = .learn l) ∨ (∃ a b c d, n = .steppedDown a b c d) ∨
      (∃ a b c t, n = .ack a b c (some t)) ∨ n = .ack none none none none) :
    Names itoa (ns.foldl (hear itoa) ⟨l0, md⟩) := by
  generalize hn : (⟨l0, md⟩ : Node) = n at h0
  clear hn
  induction ns generalizing n with
  | nil => exact h0
  | cons x ns ih =>
    refine ih (fun y hy => hns y (List.mem_cons_of_mem _ hy)) _ ?_
    rcases hns x List.mem_cons_self with ⟨l, rfl⟩ | ⟨a, b, c, d, rfl⟩ | ⟨a, b, c, t, rfl⟩ | rfl
    · exact names_updated itoa n.md l
    · exact names_updated itoa n.md _
    · exact names_updated itoa n.md _
    · exact h0

/-- A client that learns of a newer leader from an inspection goes on naming the old one to
everybody; likewise with an acknowledgement that has no term. -/
theorem C144_leader_counterexample (itoa : Int → String) (n : Node) (l : Leader) (h : Names itoa n)
    (hl : l.name ≠ n.leader.name) (ht : l.term > n.leader.term) :
    ¬ Names itoa (hear itoa n (.inspected true l)) ∧
    ¬ Names itoa (hear itoa n (.ack (some l.name) none none none)) ∧
    get (hear itoa n (.inspected true l)).md "leaderName" = get n.md "leaderName" := by
  have hne : (if l.name = "" then none else some l.name) ≠
      (if n.leader.name = "" then none else some n.leader.name : Option String) := by
    intro he
    by_cases h1 : l.name = "" <;> by_cases h2 : n.leader.name = "" <;> simp_all
  refine ⟨?_, ?_, ?_⟩
  · intro hx
    have e := hx.1
    simp only [hear, ht, and_self, if_true] at e
    rw [h.1] at e
    exact hne e.symm
  · intro hx
    have e := hx.1
    simp only [hear, Option.getD_some, Option.isSome_none, Bool.false_eq_true, if_false] at e
    rw [h.1] at e
    exact hne e.symm
  · simp [hear, ht]

/-- Metadata set, changed and removed, a leader that came and went, a send. -/
example : sendArgs (metaAfter toString [.put "a" "1", .leader ⟨"n1", "u", "", 3⟩, .put "b" "2", .remove "b"])
    [("#x", "y"), ("a", "0"), ("c", "4")] =
    some [("a", "1"), ("leaderName", "n1"), ("leaderURL", "u"), ("leaderTerm", "3"), ("#x", "y"), ("c", "4")] := by
  decide +kernel

example : Keys [("a", "1"), ("b", "2")] ∧ setUserArg [] "a" "5" = some [("a", "5")] ∧
    get [("a", "1"), ("b", "2")] "a" = some "1" := by
  unfold Keys; decide

example : Names toString (hear toString ⟨⟨"", "", "", 0⟩, []⟩ (.learn ⟨"n1", "u", "i", 2⟩)) ∧
    reserved "#x" = true := by
  unfold Names; decide +kernel

end Verif.UserMeta
