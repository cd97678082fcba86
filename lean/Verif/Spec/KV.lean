import Verif.Model.KV
/- Words used in the statements about the key/value store (C29-C32, C60, C61). -/
namespace Verif.KV

/-- The store after some history of operations, starting empty. -/
def Reached (drift : Int) (kv : Store) : Prop := ∃ hist ans, applyAll drift none hist = some (kv, ans)

/-- The request is a write, a compare-and-swap or a delete of this key. -/
def Touches (t : Ticket) (table key : Key) : Prop :=
  (t.op = .write ∨ t.op = .cas ∨ t.op = .deleteKey) ∧ t.table = table ∧ t.key = key

/-- The request is a write or a compare-and-swap of this key. -/
def Writes (t : Ticket) (table key : Key) : Prop :=
  (t.op = .write ∨ t.op = .cas) ∧ t.table = table ∧ t.key = key

/-- The request can take the key away: a delete, or removing, renaming or overlaying its table. -/
def Removes (t : Ticket) (table key : Key) : Prop :=
  (t.op = .deleteKey ∧ t.table = table ∧ t.key = key) ∨
  ((t.op = .deleteTable ∨ t.op = .renameTable) ∧ (t.table = table ∨ t.newTable = table))

/-- The requester does not hold the lease: another name, or (except for deletes, where only the
name counts) the same name at another peer. -/
def NotHolder (l : Leaf) (t : Ticket) : Prop :=
  t.leasor ≠ l.leasor ∨ (t.op ≠ .deleteKey ∧ t.fromID ≠ l.leasorPeer)

/-- There is a lease on the leaf. -/
def Leased (l : Leaf) : Prop := l.leasor ≠ [] ∧ l.endTm ≠ 0

/-- The lease counts at time `tm`. -/
def InForce (drift : Int) (l : Leaf) (tm : Int) : Prop := Leased l ∧ tm ≤ l.endTm + drift

/-- The lease is the requester's. -/
def Own (l : Leaf) (t : Ticket) : Prop := l.leasor = t.leasor ∧ l.leasorPeer = t.fromID

/-- The condition a compare-and-swap states about an existing key: the version if given, else
the lease epoch if given, else the old value if given. -/
def CasCond (l : Leaf) (t : Ticket) : Prop :=
  if 0 < t.oldVersion then t.oldVersion = l.version
  else if 0 < t.oldEpoch then t.oldEpoch = l.epoch
  else t.oldVal ≠ [] → l.value = t.oldVal

/-- The condition is met and no foreign lease is in force. -/
def CasMet (drift : Int) (kv : Store) (t : Ticket) : Prop :=
  match leafOf kv t.table t.key with
  | none => t.oldVersion ≤ 0 ∧ t.oldEpoch ≤ 0 ∧ t.oldVal = []
  | some l => CasCond l t ∧ ¬ (InForce drift l t.tm ∧ ¬ Own l t)

/-- A request on its way in: no answer filled in yet. -/
def Fresh (t : Ticket) : Prop := t.err = none ∧ t.swapped = false

/-- What a client that sees request `t` and its answer `a` concludes about which value is stored
under which table and key. -/
def observe (m : Key → Key → Option Key) (t a : Ticket) : Key → Key → Option Key :=
  match t.op with
  | .write | .cas =>
    if a.err = none then fun tb k => if tb = t.table ∧ k = t.key then some t.val else m tb k else m
  | .deleteKey =>
    if a.err = none then fun tb k => if tb = t.table ∧ k = t.key then none else m tb k else m
  | .deleteTable => if t.table = [] then m else fun tb k => if tb = t.table then none else m tb k
  | .renameTable =>
    if a.err = none ∧ t.newTable ≠ t.table then
      fun tb k => if tb = t.table then none else if tb = t.newTable then m t.table k else m tb k
    else m
  | _ => m

/-- The same for a history of requests and answers, from an empty store. -/
def lastWritten (hist : List (Ticket × Ticket)) : Key → Key → Option Key :=
  hist.foldl (fun m x => observe m x.1 x.2) fun _ _ => none

end Verif.KV
