import Verif.Model.Czar
/-
Vocabulary for the properties of reliable membership (C89 to C95).
-/
namespace Verif.Czar
open Verif.KV (Key Store Leaf Ticket lookup put erase leafOf)

/-- Order of versions: epoch first, then counter. -/
def verLe (a b : Vers) : Prop := a.epoch < b.epoch ∨ (a.epoch = b.epoch ∧ a.within ≤ b.within)

/-- Same czar with the same details, same members with the same details. -/
def sameView (a b : RList) : Prop :=
  a.czarName = b.czarName ∧ a.czarDet.map (·.det) = b.czarDet.map (·.det) ∧
    ∀ n, (lookup a.peers n).map (·.det) = (lookup b.peers n).map (·.det)

/-- Sane groups: distinct nonempty names, positive lease time, clocks that do not go back, stamps
after Go's zero time. -/
structure Sane (c : Cfg) : Prop where
  names : ∀ i, (c.det i).name ≠ []
  distinct : ∀ i j, (c.det i).name = (c.det j).name → i = j
  dur : 0 < c.czDur
  drift : 0 ≤ c.drift
  mono : ∀ i t t', t ≤ t' → c.clk i t ≤ c.clk i t'
  stamps : ∀ n r, 0 < c.lclk n r

/-- The clocks of the store's nodes are ahead of those of the members by the drift bound at most. -/
def Synced (c : Cfg) : Prop := ∀ n i r, c.lclk n r ≤ c.clk i r + c.drift

/-- The state `s` is reached by some execution. -/
def Reach (c : Cfg) (s : Sys) : Prop := ∃ xs, run c {} xs = some s

/-- The views delivered to member `i`, oldest first. -/
def delivered (s : Sys) (i : Nat) : List View := (s.ups.filter fun x => x.1 = i).map (·.2)

/-- The views member `i` took over from the czar key without delivering them. -/
def quietOf (s : Sys) (i : Nat) : List View := (s.quiet.filter fun x => x.1 = i).map (·.2)

/-- All views seen by anyone: delivered, or obtained by a ping. -/
def seen (s : Sys) : List View := s.ups.map (·.2) ++ s.served.map (·.2.2)

/-- What a view tells: its version, the czar, and the members, by names and peer ids. -/
def told (v : View) : (Nat × Nat) × Key × Option Key × List (Key × Key) :=
  ((v.1.epoch, v.1.within), v.2.czarName, v.2.czarDet.map (·.det.peerID),
    v.2.peers.map fun x => (x.1, x.2.det.peerID))

/-- The czar key. -/
def keyLeaf (s : Sys) : Option Leaf := leafOf s.kv tableName keyName

def keyEpoch (s : Sys) : Nat := ((keyLeaf s).map (·.epoch)).getD 0

/-- The answer `v` to a ping, arriving between `now` and `now2`, is accepted: its version is not
below the one the member has, its czar's lease is not over, and on a connection used before the
member is in the list. -/
def Accepts (c : Cfg) (d : Det) (m : Mem) (v : View) (now now2 : Int) : Prop :=
  verLe m.vers v.1 ∧ now2 ≤ v.1.until_ ∧
    (m.conn = true → lookup v.2.peers d.name ≠ none ∧ (v.1.until_ = 0 ∨ now < v.1.until_ - c.drift))

/-- The member an event belongs to; writes are applied by the store. -/
def actor : Act → Option Nat
  | .bid i => some i
  | .renew i => some i
  | .apply _ _ _ => none
  | .giveUp i => some i
  | .answer i => some i
  | .ping i _ => some i
  | .pingFail i => some i
  | .serve j _ => some j
  | .reply i => some i
  | .expire j => some j
  | .lapse j => some j

end Verif.Czar
