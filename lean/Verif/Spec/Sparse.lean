import Verif.Model.Sparse
/-
Vocabulary of the statements about sparse files (C119-C121).
-/
namespace Verif.Sparse

/-- What a file system guarantees: positions without data read as zeros. -/
def File.Ok (f : File) : Prop := ∀ i, i < f.size → f.data i = false → f.bytes[i]? = some 0

/-- The spans follow one another from a to b, none is empty, each is all data or all hole, neighbours differ, and
holes read as zeros. -/
def Tiles (f : File) : Nat → List Span → Nat → Prop
  | a, [], b => a = b
  | a, s :: r, b =>
    s.beg = a ∧ a < s.endx ∧ s.endx ≤ b ∧ s.pre = false ∧
    (∀ i, a ≤ i → i < s.endx → f.data i = !s.hole ∧ (s.hole = true → f.bytes[i]? = some 0)) ∧
    (∀ s', r.head? = some s' → s'.hole = !s.hole) ∧ Tiles f s.endx r b

/-- Same bytes, same holes. -/
def Same (a b : File) : Prop := a.bytes = b.bytes ∧ ∀ i, i < a.size → a.data i = b.data i

end Verif.Sparse
