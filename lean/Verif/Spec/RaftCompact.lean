import Verif.Model.RaftCompact
/-
Conditions on executions used by C101 and C102: each names one thing the code does not
guarantee and without which nodes can apply different commands (see the counterexamples in
Props/RaftCompact.lean; the first three are those of C20).
-/
namespace Verif.RaftCompact
open Verif.Raft (Role Entry)

/-- AppendEntries messages with entries carry everything up to the end of the leader's log. -/
def FullSend (s : CSys) : CAction → Prop
  | .act (.send v beg cnt) => cnt = 0 ∨ beg - 1 + cnt = lastIdx (s.nodes v)
  | _ => True

/-- A leader takes in an acknowledgement only if it keeps no record of another process of
the node that sent it. -/
def OneRecord (s : CSys) : CAction → Prop
  | .act (.deliver v k _ _ _ _) =>
    match s.msgs[k]? with
    | some (.ack m) => (s.nodes v).role = .leader → m.term = (s.nodes v).term →
        ∀ x ∈ (s.nodes v).peers, x.1.1 = m.src.1 → x.1 = m.src
    | _ => True
  | _ => True

/-- A leader takes in an acknowledgement only if it answers a message of the term it carries. -/
def AckOfTerm (s : CSys) : CAction → Prop
  | .act (.deliver v k _ _ _ _) =>
    match s.msgs[k]? with
    | some (.ack m) => (s.nodes v).role = .leader → m.term = (s.nodes v).term → m.aeTerm = m.term
    | _ => True
  | _ => True

/-- A message of a leader that compacted further than the receiver did, to a receiver whose log
reaches past the leader's base, finds the leader's base term there. -/
def BaseMatch (s : CSys) : CAction → Prop
  | .act (.deliver v k _ _ _ _) =>
    match s.msgs[k]? with
    | some (.ae m) => (s.nodes v).base < m.base → m.base < lastIdx (s.nodes v) →
        cTermAt (s.nodes v) m.base = m.baseTerm
    | _ => True
  | _ => True

/-- A snapshot is taken in only if it covers everything the receiver has acknowledged in the
term of the snapshot (the position acknowledged is the last index, or in a rejection the largest
common index). -/
def SnapFresh (s : CSys) : CAction → Prop
  | .act (.deliver v k _ _ _ _) =>
    match s.msgs[k]? with
    | some (.snap m) => ∀ c ∈ s.msgs, ∀ a, c = .ack a → a.src.1 = v → a.term = m.term →
        a.aeTerm = m.term → (if a.rejected then a.lcp else a.lastIdx) ≤ m.kv.length + m.entries.length
    | _ => True
  | _ => True

/-- No process dies with a compacted log that has no entry past its base, nor in the midst of
installing a snapshot. -/
def KeepsLog (s : CSys) : CAction → Prop
  | .act (.crash v) => (s.nodes v).log = [] → (s.nodes v).base = 0
  | .crashMid _ _ => False
  | _ => True

/-- The entries from the first on, whether still in the log or only applied. -/
def wholeLog (n : CNode) : List Entry := n.kv.take n.base ++ n.log

/-- The entry a node holds at position `i` (from 0), in its compacted state or in its log. -/
def held (n : CNode) (i : Nat) : Option Entry := if i < n.base then n.kv[i]? else n.log[i - n.base]?

/-- `P` holds of every action of a run, in the state it is taken in. -/
def AllSteps (P : CSys → CAction → Prop) (mem : List Nat) (s : CSys) : List CAction → Prop
  | [] => True
  | a :: as => P s a ∧
    match step mem s a with
    | none => True
    | some s' => AllSteps P mem s' as

instance (s : CSys) (a : CAction) : Decidable (FullSend s a) := by
  unfold FullSend; split <;> infer_instance
instance (s : CSys) (a : CAction) : Decidable (OneRecord s a) := by
  unfold OneRecord; split <;> try infer_instance
  split <;> infer_instance
instance (s : CSys) (a : CAction) : Decidable (AckOfTerm s a) := by
  unfold AckOfTerm; split <;> try infer_instance
  split <;> infer_instance
instance (s : CSys) (a : CAction) : Decidable (BaseMatch s a) := by
  unfold BaseMatch; split <;> try infer_instance
  split <;> infer_instance
instance (s : CSys) (a : CAction) : Decidable (KeepsLog s a) := by
  unfold KeepsLog; split <;> infer_instance

/-- For one message, what `SnapFresh` asks for. -/
def coveredBy (v : Nat) (m : Snap) : CMsg → Bool
  | .ack a => !(a.src.1 == v && a.term == m.term && a.aeTerm == m.term) ||
      decide ((if a.rejected then a.lcp else a.lastIdx) ≤ m.kv.length + m.entries.length)
  | _ => true

instance (s : CSys) (a : CAction) : Decidable (SnapFresh s a) := by
  unfold SnapFresh; split <;> try infer_instance
  split <;> try infer_instance
  rename_i v k _ _ _ _ _ m _
  refine decidable_of_iff (∀ c ∈ s.msgs, coveredBy v m c = true) ?_
  refine forall₂_congr fun c _ => ?_
  cases c with
  | ack a =>
    by_cases h1 : a.src.1 = v <;> by_cases h2 : a.term = m.term <;> by_cases h3 : a.aeTerm = m.term <;>
      simp [coveredBy, h1, h2, h3]
  | _ => simp [coveredBy]

instance AllSteps.dec {P : CSys → CAction → Prop} [∀ s a, Decidable (P s a)] {mem : List Nat} :
    (s : CSys) → (as : List CAction) → Decidable (AllSteps P mem s as)
  | _, [] => isTrue trivial
  | s, a :: as =>
    match h : step mem s a with
    | none => decidable_of_iff (P s a) (by simp [AllSteps, h])
    | some s' =>
      have := AllSteps.dec (P := P) (mem := mem) s' as
      decidable_of_iff (P s a ∧ AllSteps P mem s' as) (by simp [AllSteps, h])

end Verif.RaftCompact
