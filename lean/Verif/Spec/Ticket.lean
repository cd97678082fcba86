import Verif.Model.Ticket
/-
Vocabulary of the statements about client requests (C114-C118).
-/
namespace Verif.Ticket

/-- In the log of node n, at index i and with term T, stands request t. -/
def At (s : S) (n : Nid) (i T : Nat) (t : Req) : Prop :=
  0 < i ∧ ∃ e : Entry, (s.nodes n).log[i - 1]? = some e ∧ e.term = T ∧ e.what = .req t

/-- Request t has been made; its call has not returned. -/
def Waiting (s : S) (t : Req) : Prop := t < s.next ∧ (s.callers t).ans = none

/-- Whatever happens from here on: the call does not return and the request gets into no log. -/
def Forgotten (s : S) (t : Req) : Prop :=
  ∀ es : List Ev, Waiting (run s es) t ∧ ∀ n i T, ¬ At (run s es) n i T t

/-- The requests node n accepted for the log in term T, in order. -/
def acc (s : S) (n : Nid) (T : Nat) : List Req :=
  (s.accepted.filter fun x => x.1 == n && x.2.1 == T).map fun x => x.2.2

def reqOf : What → Option Req
  | .req t => some t
  | .noop _ _ => none

/-- The requests node n logged as leader of term T, in order. -/
def lg (s : S) (n : Nid) (T : Nat) : List Req :=
  (s.logged.filter fun p => p.node == n && p.term == T).filterMap fun p => reqOf p.what

end Verif.Ticket
