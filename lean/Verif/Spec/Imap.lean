import Verif.Model.Imap
/-
Specification for C39: which tickets are pending, from the history alone.
-/
namespace Verif.Imap.Spec

/-- The tickets added and not since deleted, and the current log index of every ticket. -/
structure World where
  idx : String → Nat
  pending : String → Prop

def start (idx : String → Nat) : World := ⟨idx, fun _ => False⟩

def World.step (w : World) : Op → World
  | .set id => { w with pending := fun i => i = id ∨ w.pending i }
  | .del id => { w with pending := fun i => i ≠ id ∧ w.pending i }
  | .assign id k => { w with idx := fun i => if i = id then k else w.idx i }
  | .iterate => w

/-- What the map needs from its users: a pending ticket's log index is not changed once
it is positive, and no two pending tickets share a positive log index. -/
def World.allowed (w : World) : Op → Prop
  | .set id => w.idx id > 0 → ∀ i, w.pending i → w.idx i = w.idx id → i = id
  | .assign id k => w.pending id →
      (w.idx id = 0 ∨ w.idx id = k) ∧ (k > 0 → ∀ i, w.pending i → w.idx i = k → i = id)
  | _ => True

def World.allowedAll (w : World) : List Op → Prop
  | [] => True
  | o :: os => w.allowed o ∧ (w.step o).allowedAll os

end Verif.Imap.Spec
