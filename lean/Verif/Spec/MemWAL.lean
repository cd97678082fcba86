import Verif.Model.MemWAL
import Verif.Spec.WAL
/-
Vocabulary of the statements about the memory-only log (C122). The plain log is that of Spec/WAL.
-/
namespace Verif.MemWAL

open WAL (Ent Op)
open WAL.Spec (Plain cell)

/-- Run the memory-only log and its plain counterpart side by side. -/
def runBoth (m : MWal) (p : Plain) : List Op → Option (MWal × Plain)
  | [] => some (m, p)
  | o :: os => (step m o).bind fun m' => runBoth m' (p.step m.idx.base o) os

/-- The log the calls describe, read without regard to compaction. -/
def described (p : Plain) : List Op → Plain
  | [] => p
  | o :: os => described (p.step p.start o) os

/-- The index up to which the caller has applied or installed entries, after a call. -/
def floorAfter (fl : Nat) : Op → Nat
  | .overwrite _ _ _ applied => max fl applied
  | .compact keep => max fl keep
  | .snapshot i _ => max fl i
  | _ => fl

/-- No overwrite reaches below what was applied or installed before it. -/
def KeepsApplied : (fl : Nat) → List Op → Prop
  | _, [] => True
  | fl, o :: os => (∀ keep es c a, o = .overwrite keep es c a → fl ≤ keep) ∧ KeepsApplied (floorAfter fl o) os

/-- The largest term written so far, after writing these. -/
def highest (t : Int) (es : List Ent) : Int := es.foldl (fun t e => max t e.term) t

/-- The entries are numbered from `n` and their terms do not go back, the first not below `t`. -/
def Follows : (n : Nat) → (t : Int) → List Ent → Prop
  | _, _, [] => True
  | n, t, e :: es => e.index = n ∧ t ≤ e.term ∧ Follows (n + 1) e.term es

/-- A call that fits the plain log `p`, when terms up to `t` were written so far: entries follow on, no gap, no term
goes back, nothing not there is compacted, and, with log compaction off, nothing committed is overwritten and
Compact is not called. -/
def Fits (noCompact : Bool) (p : Plain) (t : Int) : Op → Prop
  | .append e => Follows (p.last + 1) t [e]
  | .overwrite keep es commit applied =>
    keep ≤ p.last ∧ Follows (keep + 1) t es ∧ applied ≤ keep + es.length ∧
      (noCompact = true → ∀ c, commit = some c → c ≤ keep)
  | .compact keep => noCompact = false ∧ keep ≤ p.last
  | .snapshot _ st => t ≤ st
  | .reopen => False

def termAfter (t : Int) : Op → Int
  | .append e => highest t [e]
  | .overwrite _ es _ _ => highest t es
  | .snapshot _ st => max t st
  | _ => t

/-- Every call of the history fits at its time. -/
def AllFit (noCompact : Bool) : Plain → Int → List Op → Prop
  | _, _, [] => True
  | p, t, o :: os => Fits noCompact p t o ∧ AllFit noCompact (p.step p.start o) (termAfter t o) os

end Verif.MemWAL
