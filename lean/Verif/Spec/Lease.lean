import Verif.Model.Lease
import Verif.Spec.Raft
/-
Conditions on clocks and executions used by C85 and C86: each names one thing the code does
not guarantee and without which a local read can be stale (see the counterexamples in
Props/Lease.lean).
-/
namespace Verif.Lease
open Verif.Raft

/-- Clocks do not run backwards. -/
def Mono (c : Cfg) : Prop := ∀ v a b, a ≤ b → c.clk v a ≤ c.clk v b

/-- While less than the minimal election time of `u` passes on the clock of `v`, the clock of `u`
advances at most `eps` more. -/
def Drift (c : Cfg) (eps : Nat) : Prop := ∀ u v a b, a ≤ b → c.clk v b < c.clk v a + c.minElec u →
  c.clk u b + c.clk v a ≤ c.clk u a + c.clk v b + eps

/-- The node has not heard from a leader for its minimal election time. -/
def Unheard (c : Cfg) (ts : TSys) (v t : Nat) : Prop :=
  ∀ x, (ts.loc v).lastLegit = some x → x + c.minElec v ≤ c.clk v t

/-- A ping is stamped at most `lag` after it is sent, on the clock of the sender. -/
def StampSoon (c : Cfg) (δ : Nat) (_ : TSys) (t : Nat) : Act → Prop
  | .send v _ _ _ lag => c.clk v (t + lag) ≤ c.clk v t + δ
  | _ => True

/-- Only voting members acknowledge. -/
def NoShadow (_ : Cfg) (_ : TSys) (_ : Nat) : Act → Prop
  | .shadow _ _ => False
  | _ => True

/-- A node restarts only when it has not heard from a leader for its minimal election time. -/
def SlowRestart (c : Cfg) (ts : TSys) (t : Nat) : Act → Prop
  | .raft (.crash v) => Unheard c ts v t
  | _ => True

/-- The answer to a vote request or to an AppendEntries that carries a later term reaches a node
only when it has not heard from a leader for its minimal election time. -/
def NoLateAnswer (c : Cfg) (ts : TSys) (t : Nat) : Act → Prop
  | .raft (.deliver v k _ _ _ _) =>
    match ts.sys.msgs[k]? with
    | some (.vote m) => (ts.sys.nodes v).term < m.term → Unheard c ts v t
    | some (.ack m) => (ts.sys.nodes v).term < m.term → Unheard c ts v t
    | _ => True
  | _ => True

/-- A condition on Raft steps, read as one on timed steps. -/
def OnRaft (P : Sys → Action → Prop) (_ : Cfg) (ts : TSys) (_ : Nat) : Act → Prop
  | .raft a => P ts.sys a
  | .send v beg cnt _ _ => P ts.sys (.send v beg cnt)
  | _ => True

/-- `P` holds of every step of a run, in the state it is taken in. -/
def AllT (P : Cfg → TSys → Nat → Act → Prop) (c : Cfg) (ts : TSys) : List (Nat × Act) → Prop
  | [] => True
  | (t, a) :: as => P c ts t a ∧
    match tstep c ts t a with
    | none => True
    | some ts' => AllT P c ts' as

instance (c : Cfg) (ts : TSys) (v t : Nat) : Decidable (Unheard c ts v t) :=
  match h : (ts.loc v).lastLegit with
  | none => isTrue fun x hx => by rw [h] at hx; cases hx
  | some y => decidable_of_iff (y + c.minElec v ≤ c.clk v t)
      ⟨fun hy x hx => by rw [h] at hx; cases hx; exact hy, fun hy => hy y h⟩
instance (c : Cfg) (δ : Nat) (ts : TSys) (t : Nat) (a : Act) : Decidable (StampSoon c δ ts t a) := by
  cases a <;> unfold StampSoon <;> infer_instance
instance (c : Cfg) (ts : TSys) (t : Nat) (a : Act) : Decidable (NoShadow c ts t a) := by
  cases a <;> unfold NoShadow <;> infer_instance
instance (c : Cfg) (ts : TSys) (t : Nat) (a : Act) : Decidable (SlowRestart c ts t a) := by
  cases a <;> unfold SlowRestart <;> try infer_instance
  rename_i a; cases a <;> dsimp only <;> infer_instance
instance (c : Cfg) (ts : TSys) (t : Nat) (a : Act) : Decidable (NoLateAnswer c ts t a) := by
  cases a <;> unfold NoLateAnswer <;> try infer_instance
  rename_i a; cases a <;> dsimp only <;> try infer_instance
  split <;> infer_instance
instance {P : Sys → Action → Prop} [∀ s a, Decidable (P s a)] (c : Cfg) (ts : TSys) (t : Nat) (a : Act) :
    Decidable (OnRaft P c ts t a) := by
  cases a <;> unfold OnRaft <;> infer_instance

instance AllT.dec {P : Cfg → TSys → Nat → Act → Prop} [∀ c ts t a, Decidable (P c ts t a)] {c : Cfg} :
    (ts : TSys) → (as : List (Nat × Act)) → Decidable (AllT P c ts as)
  | _, [] => isTrue trivial
  | ts, (t, a) :: as =>
    match h : tstep c ts t a with
    | none => decidable_of_iff (P c ts t a) (by simp [AllT, h])
    | some ts' =>
      have := AllT.dec (P := P) (c := c) ts' as
      decidable_of_iff (P c ts t a ∧ AllT P c ts' as) (by simp [AllT, h])

/-- After the run `as`, at time `t`, node `v` serves a read although an entry beyond what it has
applied is applied elsewhere. -/
def Stale (c : Cfg) (as : List (Nat × Act)) (v t hour : Nat) : Prop :=
  ∃ ts u, trun c {} as = some ts ∧ ts.now ≤ t ∧ canServe c ts v t hour false (ts.loc v).info = some u ∧
    ∃ w i e, (w, i, e) ∈ ts.sys.hist.applied ∧ (ts.sys.nodes v).applied < i

/-- The conditions of C20 on a run. -/
def Raftlike (c : Cfg) (as : List (Nat × Act)) : Prop :=
  AllT (OnRaft FullSend) c {} as ∧ AllT (OnRaft OneRecord) c {} as ∧ AllT (OnRaft AckOfTerm) c {} as

instance (c : Cfg) (as : List (Nat × Act)) : Decidable (Raftlike c as) := by
  unfold Raftlike; infer_instance

end Verif.Lease
