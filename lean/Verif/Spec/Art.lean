import Verif.Model.Art
/-
What the radix tree is for: a map from byte strings, in byte order.
-/
namespace Verif.Art

variable {V : Type}

/-- A program's calls on a tree. -/
inductive Op (V : Type) where
  | insert (k : Key) (v : V)
  | remove (k : Key)

/-- What the calls mean: a map. -/
def contents : List (Op V) → Key → Option V
  | [], _ => none
  | .insert k v :: earlier, q => if q = k then some v else contents earlier q
  | .remove k :: earlier, q => if q = k then none else contents earlier q

/-- The second key is the first one, a zero byte, and possibly more. -/
def ZeroExt (a b : Key) : Prop := ∃ s, b = a ++ 0 :: s

/-- No key is inserted while the tree has another one that is it followed by a zero byte and
possibly more, or the other way round. (The latest call comes first.) -/
def Separate : List (Op V) → Prop
  | [] => True
  | .insert k _ :: earlier =>
    (∀ a, contents earlier a ≠ none → ¬ ZeroExt a k ∧ ¬ ZeroExt k a) ∧ Separate earlier
  | .remove _ :: earlier => Separate earlier

/-- The calls on the tree. None: one of them panics. (The latest call comes first.) -/
def run : List (Op V) → Option (Tree V)
  | [] => some {}
  | .insert k v :: earlier => (run earlier).bind fun t => (t.insert k v).map (·.1)
  | .remove k :: earlier => (run earlier).map fun t => (t.remove k).1

/-- The list has exactly the keys of the map, with their values, in ascending byte order. -/
def Lists (l : List (Key × V)) (m : Key → Option V) : Prop :=
  l.Pairwise (fun a b => a.1 < b.1) ∧ ∀ k v, (k, v) ∈ l ↔ m k = some v

/-- `q` is smaller than every key of the map because it is smaller than a byte string all the
keys begin with, and differs from it before either ends. -/
def Under (q : Key) (m : Key → Option V) : Prop :=
  ∃ p c d s, q = p ++ d :: s ∧ d < c ∧ ∀ k, m k ≠ none → (p ++ [c]) <+: k

/-- There are `i` keys before `k`. -/
def Rank (m : Key → Option V) (k : Key) (i : Nat) : Prop :=
  ∃ l : List Key, l.Nodup ∧ (∀ a, a ∈ l ↔ m a ≠ none ∧ a < k) ∧ l.length = i

/-- There are `n` keys. -/
def Count (m : Key → Option V) (n : Nat) : Prop :=
  ∃ l : List Key, l.Nodup ∧ (∀ a, a ∈ l ↔ m a ≠ none) ∧ l.length = n

/-- The keys a search is for. -/
def Wanted : SMod → Key → Key → Prop
  | .gte, q, k => ¬ k < q
  | .gt, q, k => q < k
  | .lte, q, k => ¬ q < k
  | .lt, q, k => k < q
  | .exact, q, k => k = q

/-- `k` comes after `c` on the way up, or on the way down. -/
def After (rev : Bool) (c k : Key) : Prop := if rev then k < c else c < k

/-- The answer is the first key that has the property, on the way up or down, with its value. -/
def FirstIs (m : Key → Option V) (P : Key → Prop) (rev : Bool) : Option (Key × V) → Prop
  | some (k, v) => m k = some v ∧ P k ∧ ∀ a, m a ≠ none → P a → ¬ After rev a k
  | none => ∀ a, m a ≠ none → ¬ P a

/-- The keys of the range from `a` to `b`: on the way up, `a` belongs to it and `b` does not; on
the way down `b` does and `a` does not. An empty end is no bound. -/
def InRange (rev : Bool) (a b k : Key) : Prop :=
  if rev then (b = [] ∨ ¬ b < k) ∧ (a = [] ∨ a < k) else ¬ k < a ∧ (b = [] ∨ k < b)

/-- What `Next` gives: a key and a value, or nothing. -/
def Tree.answer (t : Tree V) (it : Iter V) : Option (Key × V) :=
  if (t.next it).2 then (t.next it).1.leaf else none

/-- A program that walks a range and changes the tree as it goes. The list has its calls on the
tree, the key is the last one the iterator has given. Left out: changes between the call that
makes the iterator and the first `Next`; calls to `Next` when the tree has a single key, or holds
the empty key. -/
inductive Walk (rev : Bool) (a b : Key) : List (Op V) → Tree V → Iter V → Option Key → Prop
  | start {ops t} : run ops = some t → Walk rev a b ops t (if rev then t.revIter a b else t.iter a b) none
  | call {ops t it k op t'} : Walk rev a b ops t it (some k) → run (op :: ops) = some t' →
    Walk rev a b (op :: ops) t' it (some k)
  | next {ops t it last k v} : Walk rev a b ops t it last → contents ops [] = none → 2 ≤ t.size →
    t.answer it = some (k, v) → Walk rev a b ops t (t.next it).1 (some k)

/-- A program that changes a tree and asks for leaves by index. The iterator is the one the tree
keeps between the calls to `At`. -/
inductive Indexed : List (Op V) → Tree V → Option (Iter V) → Prop
  | start : Indexed [] {} none
  | call {ops t c op t'} : Indexed ops t c → run (op :: ops) = some t' → Indexed (op :: ops) t' c
  | at {ops t c} (i : Nat) : Indexed ops t c → Indexed ops t (t.at c i).2

end Verif.Art
