import Verif.Model.Rand
import Mathlib.Logic.Equiv.Defs
/-
Vocabulary of the statements about random numbers (C123, C125).
-/
namespace Verif.Rand

/-- With these words the call returns r. -/
def Gives {α : Type} (f : List Word → Out α) (ws : List Word) (r : α) : Prop := ∃ rest, f ws = .ret r rest

/-- The sequences of k words with which the call returns r. -/
def Ways {α : Type} (f : List Word → Out α) (k : Nat) (r : α) : Type := { ws : List Word // ws.length = k ∧ Gives f ws r }

/-- The call draws from S: what it returns is in S; everything in S can be returned, by one word; any two members of S
are returned by equally many sequences of words of each length. -/
structure Uniform {α : Type} (f : List Word → Out α) (S : α → Prop) : Prop where
  inside : ∀ ws r, Gives f ws r → S r
  every : ∀ r, S r → ∃ u, ∀ rest, f (u :: rest) = .ret r rest
  equal : ∀ k r r', S r → S r' → Nonempty (Ways f k r ≃ Ways f k r')

/-- A rounding to float64: it keeps the order, and integers up to 2^53, and their halves, are exact. -/
structure Rounding (rd : Rat → Rat) : Prop where
  mono : ∀ x y, x ≤ y → rd x ≤ rd y
  exact : ∀ n : Int, -2 ^ 53 ≤ n → n ≤ 2 ^ 53 → rd n = n
  half : ∀ n : Int, -2 ^ 53 ≤ n → n ≤ 2 ^ 53 → rd (n / 2) = n / 2

end Verif.Rand
