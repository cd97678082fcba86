import Verif.Model.Raft
/-
List facts about logs, common prefixes and the log update of `handleAppendEntries`.
-/
namespace Verif.Raft

theorem terms_length (L : List Entry) : (terms L).length = L.length := by simp [terms]

theorem commonPrefix_le_left : ∀ (a b : List Nat), commonPrefix a b ≤ a.length
  | [], _ => by simp [commonPrefix]
  | _ :: _, [] => by simp [commonPrefix]
  | x :: a, y :: b => by
    have := commonPrefix_le_left a b
    simp only [commonPrefix]; split <;> simp <;> omega

theorem commonPrefix_le_right : ∀ (a b : List Nat), commonPrefix a b ≤ b.length
  | [], _ => by simp [commonPrefix]
  | _ :: _, [] => by simp [commonPrefix]
  | x :: a, y :: b => by
    have := commonPrefix_le_right a b
    simp only [commonPrefix]; split <;> simp <;> omega

theorem commonPrefix_take : ∀ (a b : List Nat), a.take (commonPrefix a b) = b.take (commonPrefix a b)
  | [], _ => by simp [commonPrefix]
  | _ :: _, [] => by simp [commonPrefix]
  | x :: a, y :: b => by
    have := commonPrefix_take a b
    simp only [commonPrefix]; split
    · simp [*]
    · simp

/-- A common prefix of both is no longer than `commonPrefix`. -/
theorem prefix_le_commonPrefix : ∀ (x a b : List Nat), x <+: a → x <+: b → x.length ≤ commonPrefix a b
  | [], _, _, _, _ => by simp
  | _ :: _, [], _, h, _ => by simp at h
  | _ :: _, _ :: _, [], _, h => by simp at h
  | z :: x, p :: a, q :: b, h1, h2 => by
    rw [List.cons_prefix_cons] at h1 h2
    have := prefix_le_commonPrefix x a b h1.2 h2.2
    simp only [commonPrefix]
    rw [if_pos (h1.1.symm.trans h2.1)]
    simp; omega

theorem terms_prefix {A B : List Entry} (h : A <+: B) : terms A <+: terms B := h.map _

theorem terms_take (L : List Entry) (k : Nat) : terms (L.take k) = (terms L).take k := by
  simp [terms, List.map_take]

theorem take_prefix_of_prefix {A B : List Entry} {k : Nat} (h : A <+: B) (hk : k ≤ A.length) :
    B.take k = A.take k := by
  obtain ⟨r, rfl⟩ := h
  rw [List.take_append_of_le_length hk]

theorem prefix_iff_take {A B : List Entry} : A <+: B ↔ B.take A.length = A ∧ A.length ≤ B.length := by
  constructor
  · intro h
    exact ⟨by rw [take_prefix_of_prefix h (Nat.le_refl _), List.take_length], h.length_le⟩
  · intro ⟨h, _⟩; rw [← h]; exact List.take_prefix _ _

theorem take_prefix_take {A B : List Entry} {k : Nat} (h : A <+: B) : A.take k <+: B.take k := by
  obtain ⟨r, rfl⟩ := h
  by_cases hk : k ≤ A.length
  · rw [List.take_append_of_le_length hk]; exact List.prefix_refl _
  · rw [List.take_of_length_le (by omega), List.take_append, List.take_of_length_le (by omega)]
    exact List.prefix_append _ _

theorem prefix_of_prefix_le {A B C : List Entry} (h1 : A <+: C) (h2 : B <+: C)
    (h : A.length ≤ B.length) : A <+: B := List.prefix_of_prefix_length_le h1 h2 h

theorem termAt_eq {L : List Entry} {i : Nat} {t : Nat} (h : 0 < i) (hi : i ≤ L.length) :
    termAt L i = t ↔ (L[i - 1]'(by omega)).term = t := by
  unfold termAt
  rw [if_neg (by omega)]
  simp [terms, List.getElem?_eq_getElem (show i - 1 < L.length by omega)]

theorem termAt_beyond {L : List Entry} {i : Nat} (h : L.length < i) : termAt L i = 0 := by
  unfold termAt
  split
  · rfl
  · rw [List.getElem?_eq_none (by simp [terms]; omega)]; rfl

theorem termAt_prefix {A B : List Entry} (h : A <+: B) {i : Nat} (hi : i ≤ A.length) :
    termAt B i = termAt A i := by
  unfold termAt
  split
  · rfl
  · obtain ⟨r, rfl⟩ := h
    simp only [terms, List.map_append]
    rw [List.getElem?_append_left (by simp; omega)]

/-- A term sequence that never goes down. -/
def Mono (L : List Entry) : Prop := L.Pairwise fun a b => a.term ≤ b.term

theorem Mono.prefix {A B : List Entry} (h : Mono B) (hp : A <+: B) : Mono A :=
  List.Pairwise.sublist hp.sublist h

theorem Mono.termAt_le {L : List Entry} (h : Mono L) {i j : Nat} (hi : 0 < i) (hij : i ≤ j)
    (hj : j ≤ L.length) : termAt L i ≤ termAt L j := by
  have e1 := (termAt_eq (t := termAt L i) (by omega) (by omega)).1 rfl
  have e2 := (termAt_eq (t := termAt L j) (by omega) hj).1 rfl
  rw [← e1, ← e2]
  rcases Nat.eq_or_lt_of_le hij with h1 | h1
  · subst h1; exact Nat.le_refl _
  · exact List.pairwise_iff_getElem.1 h _ _ _ _ (by omega)

/-- What `handleAppendEntries` makes of the log, given the part `P` of the leader's log the
message was built from: unchanged, or a piece of `P` longer than the common prefix. -/
theorem updateLog_shape {log P : List Entry} {m : AE} {log' : List Entry}
    (hterms : m.terms = terms P) (hent : m.entries <+: P.drop m.prev)
    (hlcp : log.take (commonPrefix m.terms (terms log)) = P.take (commonPrefix m.terms (terms log)))
    (hgap : (terms log).isPrefixOf m.terms = false → m.prev ≤ commonPrefix m.terms (terms log))
    (h : updateLog log m ((terms log).isPrefixOf m.terms) (commonPrefix m.terms (terms log)) = some log') :
    (log' = log ∧ log <+: P) ∨
      (log' = P.take (m.prev + m.entries.length) ∧
        commonPrefix m.terms (terms log) < m.prev + m.entries.length) := by
  have hlen := hent.length_le
  simp only [List.length_drop] at hlen
  have hl1 := commonPrefix_le_left m.terms (terms log)
  have hl2 := commonPrefix_le_right m.terms (terms log)
  rw [hterms, terms_length] at hl1
  rw [terms_length] at hl2
  rw [← hterms] at hl1
  have hE : m.entries = (P.drop m.prev).take m.entries.length := by
    obtain ⟨r, hr⟩ := hent; rw [← hr]; simp
  -- gluing a piece of P on a prefix of P
  have glue : ∀ k, m.prev ≤ k → k ≤ m.prev + m.entries.length →
      P.take k ++ m.entries.drop (k - m.prev) = P.take (m.prev + m.entries.length) := by
    intro k h1 h2
    have e1 : m.entries.drop (k - m.prev) = (P.drop k).take (m.entries.length - (k - m.prev)) := by
      conv => lhs; rw [hE]
      rw [List.drop_take, List.drop_drop, show m.prev + (k - m.prev) = k by omega]
    rw [e1, show m.prev + m.entries.length = k + (m.entries.length - (k - m.prev)) by omega,
      List.take_add]
  unfold updateLog at h
  generalize hc : commonPrefix m.terms (terms log) = lcp at *
  by_cases hext : (terms log).isPrefixOf m.terms = true
  · rw [if_pos hext] at h
    have hpre : terms log <+: m.terms := List.isPrefixOf_iff_prefix.1 hext
    have : lcp = log.length := by
      have h3 := prefix_le_commonPrefix (terms log) m.terms (terms log) hpre (List.prefix_refl _)
      rw [terms_length] at h3; omega
    subst this
    rw [List.take_length] at hlcp
    have hlogP : log <+: P := by rw [hlcp]; exact List.take_prefix _ _
    split at h
    · cases h
    · split at h
      · cases h; exact Or.inl ⟨rfl, hlogP⟩
      · cases h
        right
        refine ⟨?_, by omega⟩
        have := glue log.length (by omega) (by omega)
        rw [← hlcp] at this
        exact this
  · rw [if_neg hext] at h
    have hp := hgap (eq_false_of_ne_true hext)
    split at h
    · cases h
    · cases h
      right
      refine ⟨?_, by omega⟩
      rw [hlcp]
      exact glue lcp hp (by omega)

end Verif.Raft
