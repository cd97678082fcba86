import Verif.Model.Frag
/-
C55 and C56: fragment conversion and comparison.
-/
namespace Verif.Frag

/-! ### C55 -/

/-- What the sender wrote, or the circuit's value where it wrote nothing. -/
def ownOr : (own dflt : Str) → Str
  | [], dflt => dflt
  | own, _ => own

theorem fillBlank_eq (a b : Str) : fillBlank a b = ownOr a b := by
  cases a <;> simp [fillBlank, ownOr]

theorem get_set (m : ArgsMap) (k v k' : Str) :
    (m.set k v).get k' = if k = k' then some v else m.get k' := by
  unfold ArgsMap.set ArgsMap.get
  by_cases h : k = k'
  · simp [List.find?, h]
  · simp [List.find?, h, show (k == k') = false from by simpa using h]

theorem getArg_copy (a : Option ArgsMap) (k : Str) : getArg (copyArgsMap a) k = getArg a k := by
  unfold copyArgsMap getArg
  split <;> simp [ArgsMap.get]

theorem lit_ne (s : String) (k : Str) (hk : k.head? ≠ some 35) (h : (lit s).head? = some 35) :
    lit s ≠ k := by
  intro e; rw [e] at h; exact hk h

theorem convert_args (now fresh : Int) (c : Circuit) (f : Fragment) (k : Str) (hk : k.head? ≠ some 35) :
    getArg (convertFragmentToMessage now fresh c f).args k = getArg f.args k := by
  have hm : (toMessage now fresh f).args = copyArgsMap f.args := by
    unfold toMessage
    cases h : f.args <;> by_cases h' : f.err = [] <;> simp [h', copyArgsMap]
  rw [← getArg_copy f.args, ← hm]
  unfold convertFragmentToMessage
  generalize toMessage now fresh f = m0
  simp only [getArg, Option.bind_some, get_set]
  rw [if_neg (lit_ne _ _ hk (by decide)), if_neg (lit_ne _ _ hk (by decide)),
    if_neg (lit_ne _ _ hk (by decide)), if_neg (lit_ne _ _ hk (by decide)),
    if_neg (lit_ne _ _ hk (by decide)), if_neg (lit_ne _ _ hk (by decide))]
  cases m0.args <;> simp [ArgsMap.get]

/-- C55: whatever the fragment and the circuit, the fragment the receiver makes of the message
has the sender's addressing (the circuit's where the sender left it blank), operation,
subject, part number, payload and error, and the same value for every argument whose name
does not start with '#'. -/
theorem C55_fragment_round_trip (now fresh : Int) (c : Circuit) (f : Fragment) :
    let g := convertMessageToFragment (convertFragmentToMessage now fresh c f)
    (g.fragOp = f.fragOp ∧ g.fragSubject = f.fragSubject ∧ g.fragPart = f.fragPart ∧
      g.payload = f.payload ∧ g.err = f.err) ∧
    (∀ k, k.head? ≠ some '#'.val.toUInt8 → getArg g.args k = getArg f.args k) ∧
    (g.toPeerID = ownOr f.toPeerID c.remotePeerID ∧
      g.toPeerName = ownOr f.toPeerName c.remotePeerName ∧
      g.toPeerServiceName = ownOr f.toPeerServiceName c.remoteServiceName ∧
      g.toPeerServiceNameVersion = ownOr f.toPeerServiceNameVersion c.remotePeerServiceNameVersion) ∧
    (g.fromPeerID = ownOr f.fromPeerID c.localPeerID ∧
      g.fromPeerName = ownOr f.fromPeerName c.localPeerName ∧
      g.fromPeerServiceName = ownOr f.fromPeerServiceName c.localServiceName ∧
      g.fromPeerServiceNameVersion = ownOr f.fromPeerServiceNameVersion c.localPeerServiceNameVersion) ∧
    g.circuitID = ownOr f.circuitID c.circuitID ∧
    (f.serial ≠ 0 → g.serial = f.serial) ∧
    (f.typ ≠ 0 → f.err = [] → g.typ = f.typ) := by
  have hargs := convert_args now fresh c f
  simp only
  refine ⟨?_, hargs, ?_⟩
  all_goals
    simp only [convertMessageToFragment, convertFragmentToMessage, fillBlank_eq, toMessage]
    by_cases he : f.err = []
    · simp +contextual [he]
    · simp +contextual [he]

/-- C55: an argument set through SetUserArg arrives, and none set earlier is lost. -/
theorem C55_user_args_arrive (now fresh : Int) (c : Circuit) (f f' : Fragment) (k v : Str)
    (h : setUserArg f k v = some f') :
    let g := convertMessageToFragment (convertFragmentToMessage now fresh c f')
    getArg g.args k = some v ∧
    ∀ k', k' ≠ k → k'.head? ≠ some '#'.val.toUInt8 → getArg g.args k' = getArg f.args k' := by
  unfold setUserArg at h
  split at h
  · simp at h
  split at h
  · simp at h
  · next hk0 hk =>
    injection h with h
    have hg : ∀ k', getArg f'.args k' = if k = k' then some v else getArg f.args k' := by
      intro k'
      rw [← h]
      simp only [getArg, Option.bind_some, get_set]
      cases f.args <;> simp [ArgsMap.get]
    refine ⟨?_, ?_⟩
    · have := convert_args now fresh c f' k hk
      simp only [convertMessageToFragment]
      rw [this, hg]; simp
    · intro k' hne hk'
      have := convert_args now fresh c f' k' hk'
      simp only [convertMessageToFragment]
      rw [this, hg, if_neg (fun e => hne e.symm)]

/-- A circuit and a fragment with blanks, arguments and an error. -/
def exCircuit : Circuit :=
  { circuitID := lit "ckt", localPeerID := lit "L", localPeerName := lit "ln", localServiceName := lit "ls",
    localPeerServiceNameVersion := lit "1", remotePeerID := lit "R", remotePeerName := lit "rn",
    remoteServiceName := lit "rs", remotePeerServiceNameVersion := lit "2", rpbToNetAddr := lit "tcp://r",
    lpbFromNetAddr := lit "tcp://l", baseServerName := lit "b", baseServerAddr := lit "ba",
    hostname := lit "h", pid := lit "9" }

example : let f : Fragment := { toPeerID := lit "X", fragOp := 3, args := some [(lit "a", lit "1")] }
    let g := convertMessageToFragment (convertFragmentToMessage 5 6 exCircuit f)
    g.toPeerID = lit "X" ∧ g.fromPeerID = lit "L" ∧ g.fragOp = 3 ∧ g.serial = 6 ∧
      getArg g.args (lit "a") = some (lit "1") ∧ getArg g.args (lit "#fromPID") = some (lit "9") := by
  decide

example : (setUserArg {} (lit "a") (lit "1")).isSome = true ∧ setUserArg {} (lit "#a") (lit "1") = none := by decide

/-! ### C56 -/

/-- `x` before `y`, or equal and the rest decides. -/
def LexThen {α} [LT α] (x y : α) (rest : Prop) : Prop := x < y ∨ (x = y ∧ rest)

/-- The documented order: lexicographic in the compared fields, payload last. -/
def Before (a b : Fragment) : Prop :=
  LexThen a.circuitID b.circuitID <| LexThen a.fromPeerID b.fromPeerID <|
  LexThen a.toPeerID b.toPeerID <| LexThen a.serial b.serial <|
  LexThen a.toPeerServiceName b.toPeerServiceName <|
  LexThen a.fromPeerServiceName b.fromPeerServiceName <|
  LexThen a.typ b.typ <| LexThen a.fragOp b.fragOp <| LexThen a.fragPart b.fragPart <|
  LexThen a.fragSubject b.fragSubject <| LexThen a.err b.err <| a.payload < b.payload

/-- All compared fields agree. -/
def SameKey (a b : Fragment) : Prop :=
  a.circuitID = b.circuitID ∧ a.fromPeerID = b.fromPeerID ∧ a.toPeerID = b.toPeerID ∧
  a.serial = b.serial ∧ a.toPeerServiceName = b.toPeerServiceName ∧
  a.fromPeerServiceName = b.fromPeerServiceName ∧ a.typ = b.typ ∧ a.fragOp = b.fragOp ∧
  a.fragPart = b.fragPart ∧ a.fragSubject = b.fragSubject ∧ a.err = b.err ∧ a.payload = b.payload

/-- What the field comparison needs of a type's `<`. -/
class Tri (α : Type) [LT α] : Prop where
  irrefl : ∀ x : α, ¬ x < x
  trans : ∀ x y z : α, x < y → y < z → x < z
  tri : ∀ x y : α, x < y ∨ x = y ∨ y < x

instance : Tri Int := ⟨by intros; omega, by intros; omega, by intros; omega⟩
instance : Tri Str where
  irrefl x := List.lt_irrefl x
  trans x y z h1 h2 := List.lt_trans h1 h2
  tri x y := by
    rcases Classical.em (x < y) with h | h
    · exact .inl h
    · rcases Classical.em (y < x) with h' | h'
      · exact .inr (.inr h')
      · exact .inr (.inl (List.le_antisymm (List.not_lt.1 h') (List.not_lt.1 h)))

variable {α : Type} [LT α] [DecidableRel (α := α) (· < ·)] [Tri α]

theorem cmpThen_neg (x y : α) (k : Int) : cmpThen x y k = -1 ↔ LexThen x y (k = -1) := by
  unfold cmpThen LexThen
  rcases Tri.tri x y with h | h | h
  · simp [h]
  · subst h; simp [Tri.irrefl]
  · have h1 : ¬ x < y := fun h' => Tri.irrefl _ (Tri.trans _ _ _ h h')
    have h2 : x ≠ y := by rintro rfl; exact Tri.irrefl _ h
    simp [h, h1, h2]

theorem cmpThen_flip (x y : α) (k k' : Int) (h : k' = -k) : cmpThen y x k' = - cmpThen x y k := by
  unfold cmpThen
  rcases Tri.tri x y with h1 | h1 | h1
  · have h2 : ¬ y < x := fun h' => Tri.irrefl _ (Tri.trans _ _ _ h1 h')
    simp [h1, h2]
  · subst h1; simp [Tri.irrefl, h]
  · have h2 : ¬ x < y := fun h' => Tri.irrefl _ (Tri.trans _ _ _ h1 h')
    simp [h1, h2]

theorem cmpThen_zero (x y : α) (k : Int) : cmpThen x y k = 0 ↔ x = y ∧ k = 0 := by
  unfold cmpThen
  rcases Tri.tri x y with h | h | h
  · have h2 : x ≠ y := by rintro rfl; exact Tri.irrefl _ h
    simp [h, h2]
  · subst h; simp [Tri.irrefl]
  · have h1 : ¬ x < y := fun h' => Tri.irrefl _ (Tri.trans _ _ _ h h')
    have h2 : x ≠ y := by rintro rfl; exact Tri.irrefl _ h
    simp [h, h1, h2]

omit [DecidableRel (α := α) (· < ·)] in
theorem LexThen.trans' {x y z : α} {p q r : Prop} (h1 : LexThen x y p) (h2 : LexThen y z q)
    (h : p → q → r) : LexThen x z r := by
  rcases h1 with h1 | ⟨rfl, h1⟩
  · rcases h2 with h2 | ⟨rfl, h2⟩
    · exact .inl (Tri.trans _ _ _ h1 h2)
    · exact .inl h1
  · rcases h2 with h2 | ⟨rfl, h2⟩
    · exact .inl h2
    · exact .inr ⟨rfl, h h1 h2⟩

/-- C56: the comparison says -1 exactly when the first fragment precedes the second in the
lexicographic order of the compared fields (payload included). -/
theorem C56_less_is_lexicographic (a b : Fragment) : compare a b = -1 ↔ Before a b := by
  unfold compare Before
  simp only [cmpThen_neg]
  have : ((if bytesCompare a.payload b.payload < 0 then (-1 : Int)
      else if bytesCompare a.payload b.payload > 1 then 1 else 0) = -1) ↔ a.payload < b.payload := by
    unfold bytesCompare
    by_cases h : a.payload < b.payload
    · simp [h]
    · by_cases h' : b.payload < a.payload <;> simp [h, h']
  rw [this]

/-- C56: "less" is transitive. -/
theorem C56_less_transitive (a b c : Fragment) (h1 : compare a b = -1) (h2 : compare b c = -1) :
    compare a c = -1 := by
  rw [C56_less_is_lexicographic] at *
  exact h1.trans' h2 fun h1 h2 => h1.trans' h2 fun h1 h2 => h1.trans' h2 fun h1 h2 =>
    h1.trans' h2 fun h1 h2 => h1.trans' h2 fun h1 h2 => h1.trans' h2 fun h1 h2 =>
    h1.trans' h2 fun h1 h2 => h1.trans' h2 fun h1 h2 => h1.trans' h2 fun h1 h2 =>
    h1.trans' h2 fun h1 h2 => h1.trans' h2 fun h1 h2 => Tri.trans _ _ _ h1 h2

/-- C56, partial: antisymmetry and "equal only if all compared fields agree" hold among
fragments with equal payloads (missing: fragments that differ only in payload, where the
code's test `cmp > 1` never fires, see the counterexamples). -/
theorem C56_total_order_partial (a b : Fragment) (hp : a.payload = b.payload) :
    compare b a = - compare a b ∧ (compare a b = 0 ↔ SameKey a b) ∧
    (compare a b = -1 ∨ compare a b = 0 ∨ compare a b = 1) := by
  have hb : bytesCompare a.payload b.payload = 0 := by
    rw [hp]; unfold bytesCompare; simp [Tri.irrefl]
  have hb' : bytesCompare b.payload a.payload = 0 := by
    rw [hp]; unfold bytesCompare; simp [Tri.irrefl]
  refine ⟨?_, ?_, ?_⟩
  · unfold compare
    simp only [hb, hb']
    repeat' apply cmpThen_flip
    rfl
  · unfold compare SameKey
    simp only [hb, cmpThen_zero]
    simp [hp]
  · unfold compare
    simp only [hb]
    have : ∀ {β : Type} [LT β] [DecidableRel (α := β) (· < ·)] (x y : β) (k : Int),
        (k = -1 ∨ k = 0 ∨ k = 1) → (cmpThen x y k = -1 ∨ cmpThen x y k = 0 ∨ cmpThen x y k = 1) := by
      intro β _ _ x y k hk
      unfold cmpThen
      split
      · exact .inl rfl
      · split
        · exact .inr (.inr rfl)
        · exact hk
    repeat' apply this
    simp

/-- The payload bug: of two fragments that differ only in payload, the smaller compares -1
but the larger compares 0, so the comparison is not antisymmetric and reports equality of
different fragments. -/
theorem C56_payload_counterexample :
    let a : Fragment := { circuitID := lit "c", payload := [1] }
    let b : Fragment := { circuitID := lit "c", payload := [2] }
    compare a b = -1 ∧ compare b a = 0 ∧ ¬ SameKey b a := by
  refine ⟨by decide, by decide, ?_⟩
  simp [SameKey]

example : let a : Fragment := { circuitID := lit "c", serial := 1 }
    let b : Fragment := { circuitID := lit "c", serial := 2 }
    a.payload = b.payload ∧ compare a b = -1 ∧ compare b a = 1 := by decide

end Verif.Frag
