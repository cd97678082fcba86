import Verif.Model.Raft
/-
Conditions on executions used by C20: each names one thing the code does not guarantee and
without which committed entries can be lost (see the counterexamples in Props/Raft.lean).
-/
namespace Verif.Raft

/-- AppendEntries messages with entries carry everything up to the end of the leader's log. -/
def FullSend (s : Sys) : Action → Prop
  | .send v beg cnt => cnt = 0 ∨ beg - 1 + cnt = (s.nodes v).log.length
  | _ => True

/-- A leader takes in an acknowledgement only if it keeps no record of another process of
the node that sent it. -/
def OneRecord (s : Sys) : Action → Prop
  | .deliver v k _ _ _ _ =>
    match s.msgs[k]? with
    | some (.ack m) => (s.nodes v).role = .leader → m.term = (s.nodes v).term →
        ∀ x ∈ (s.nodes v).peers, x.1.1 = m.src.1 → x.1 = m.src
    | _ => True
  | _ => True

/-- A leader takes in an acknowledgement only if it answers a message of the term it carries. -/
def AckOfTerm (s : Sys) : Action → Prop
  | .deliver v k _ _ _ _ =>
    match s.msgs[k]? with
    | some (.ack m) => (s.nodes v).role = .leader → m.term = (s.nodes v).term → m.aeTerm = m.term
    | _ => True
  | _ => True

/-- `P` holds of every action of a run, in the state it is taken in. -/
def AllSteps (P : Sys → Action → Prop) (mem : List Nat) (s : Sys) : List Action → Prop
  | [] => True
  | a :: as => P s a ∧
    match step mem s a with
    | none => True
    | some s' => AllSteps P mem s' as

instance (s : Sys) (a : Action) : Decidable (FullSend s a) := by
  cases a <;> unfold FullSend <;> infer_instance
instance (s : Sys) (a : Action) : Decidable (OneRecord s a) := by
  cases a <;> unfold OneRecord <;> try infer_instance
  dsimp only; split <;> infer_instance
instance (s : Sys) (a : Action) : Decidable (AckOfTerm s a) := by
  cases a <;> unfold AckOfTerm <;> try infer_instance
  dsimp only; split <;> infer_instance

instance AllSteps.dec {P : Sys → Action → Prop} [∀ s a, Decidable (P s a)] {mem : List Nat} :
    (s : Sys) → (as : List Action) → Decidable (AllSteps P mem s as)
  | _, [] => isTrue trivial
  | s, a :: as =>
    match h : step mem s a with
    | none => decidable_of_iff (P s a) (by simp [AllSteps, h])
    | some s' =>
      have := AllSteps.dec (P := P) (mem := mem) s' as
      decidable_of_iff (P s a ∧ AllSteps P mem s' as) (by simp [AllSteps, h])

end Verif.Raft
