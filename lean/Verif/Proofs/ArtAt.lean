import Verif.Proofs.ArtWalk
/-
Leaves by index, with the iterator kept between the calls.
-/
namespace Verif.Art

set_option linter.unusedSectionVars false
variable {V : Type}

theorem below_mem {L : List (Key × V)} {e : Key × V} (he : e ∈ L) : ¬ Below e.1 L := by
  rintro ⟨-, i, c, -, hc, hall⟩
  rw [(hall e he).1] at hc
  exact absurd hc (by grind)

/-- The iterator that is kept. -/
def CacheOk (t : Tree V) (L : List (Key × V)) : Option (Iter V) → Prop
  | none => True
  | some c => c.reverse = false ∧ c.terminate = [] ∧ ∃ k, Live t L c k

theorem at_spec {t : Tree V} {L : List (Key × V)} (ht : TreeOk t L) {c : Option (Iter V)} (hc : CacheOk t L c) (i : Nat) :
    (t.at c i).1 = L[i]? ∧ CacheOk t L (t.at c i).2 := by
  unfold Tree.at
  have hroot := ht.root
  cases hr : t.root with
  | none => rw [hr] at hroot; subst hroot; exact ⟨rfl, hc⟩
  | some r =>
    rw [hr] at hroot
    obtain ⟨hok, rfl⟩ := hroot
    dsimp only
    cases hcd : t.cached c i with
    | some x =>
      obtain ⟨lf, c'⟩ := x
      dsimp only
      cases c with
      | none => simp [Tree.cached] at hcd
      | some c =>
        unfold Tree.cached at hcd
        dsimp only at hcd
        split at hcd
        · rename_i hif
          obtain ⟨h1, h2, h3⟩ := hif
          obtain ⟨k1, k2, k, k3⟩ := hc
          cases hl : (t.next c).1.leaf with
          | none => rw [hl] at hcd; simp at hcd
          | some lf' =>
            rw [hl] at hcd
            simp at hcd
            obtain ⟨rfl, rfl⟩ := hcd
            obtain ⟨done, e, rest, -, hat⟩ := k3.same h1
            rcases next_at ht hat with ⟨g, -⟩ | ⟨f, post, g1, g2, g3, g4, g5, g6, g7⟩
            · rw [h3] at g; simp at g
            · rw [hl] at g3
              simp at g3; subst g3
              have hidx := hat.idx
              have hsp := hat.split
              rw [k1] at hidx hsp
              simp only [order, Bool.false_eq_true, if_false] at hidx hsp
              have hi : i = done.length + 1 := by omega
              refine ⟨?_, ?_⟩
              · rw [hsp, g1, hi]
                simp
              · exact ⟨by rw [g6, k1], by rw [g7, k2], lf'.1, g5.closed, g5.cursor, by rw [g5.version]; exact Nat.le_refl _,
                  fun _ => ⟨_, lf', _, rfl, g5⟩⟩
        · simp at hcd
    | none =>
      dsimp only
      rw [at_ok hok i]
      cases hli : r.leaves[i]? with
      | none => exact ⟨rfl, trivial⟩
      | some lf =>
        refine ⟨rfl, ?_⟩
        dsimp only
        split
        · rename_i hsz
          have hlen : 2 ≤ r.leaves.length := by rw [← ht.size]; omega
          have hmem : lf ∈ r.leaves := List.mem_of_getElem? hli
          obtain ⟨r1, -, r3⟩ := first_res ht false lf.1 []
          have hb := below_mem hmem
          have hstart : startIter t false lf.1 [] = t.iter lf.1 [] := by simp [startIter]
          rw [hstart] at r1 r3
          rcases r1 hb with ⟨q1, q2⟩ | ⟨q1, l1, f, l2, q2, q3, q4, q5, q6⟩
          · exact absurd ⟨klt_irrefl _, .inl rfl⟩ (q2 lf hmem)
          · obtain ⟨s1, s2, s3, s4⟩ := r3 q1 hlen f q3
            exact ⟨s3, by simpa using s4, f.1, s1⟩
        · trivial

theorem indexed_inv {ops : List (Op V)} {t : Tree V} {c : Option (Iter V)} (h : Indexed ops t c) (hs : Separate ops) :
    run ops = some t ∧ ∃ L, TreeOk t L ∧ Lists L (contents ops) ∧ CacheOk t L c := by
  induction h with
  | start => exact ⟨rfl, [], ⟨rfl, rfl⟩, ⟨.nil, by simp [contents]⟩, trivial⟩
  | @call ops t c op t' hw hr ih =>
    have hs' : Separate ops := by cases op with
      | insert k v => exact hs.2
      | remove k => exact hs
    obtain ⟨h1, L, h2, h3, h4⟩ := ih hs'
    obtain ⟨t'', g1, L', g2, g3⟩ := run_holds (op :: ops) hs
    rw [hr] at g1; simp at g1; subst g1
    refine ⟨hr, ?_⟩
    rcases run_cons_version h1 hr with hv | hv
    · refine ⟨L', g2, g3, ?_⟩
      cases c with
      | none => trivial
      | some c =>
        obtain ⟨k1, k2, k, k3⟩ := h4
        refine ⟨k1, k2, k, k3.closed, k3.cursor, by have := k3.version; omega, ?_⟩
        intro he; have := k3.version; omega
    · subst hv
      have hL : L = L' := by
        have e1 := h2.root
        have e2 := g2.root
        cases hr2 : t'.root with
        | none => rw [hr2] at e1 e2; rw [e1, e2]
        | some r => rw [hr2] at e1 e2; rw [e1.2, e2.2]
      subst hL
      exact ⟨L, g2, g3, h4⟩
  | @«at» ops t c i hw ih =>
    obtain ⟨h1, L, h2, h3, h4⟩ := ih hs
    exact ⟨h1, L, h2, h3, (at_spec h2 h4 i).2⟩

theorem index_iff {L : List (Key × V)} {m : Key → Option V} (h : Lists L m) {i : Nat} {k : Key} {v : V} :
    L[i]? = some (k, v) ↔ m k = some v ∧ Rank m k i := by
  constructor
  · intro hi
    have hlt : i < L.length := by
      rcases Nat.lt_or_ge i L.length with h | h
      · exact h
      · rw [List.getElem?_eq_none h] at hi; simp at hi
    rw [List.getElem?_eq_getElem hlt] at hi
    simp at hi
    have hsp : L = L.take i ++ (k, v) :: L.drop (i + 1) := by
      rw [← hi, List.getElem_cons_drop, List.take_append_drop]
    refine ⟨(h.2 k v).1 (List.mem_iff_getElem.2 ⟨i, hlt, hi⟩), ?_⟩
    have := rank_of h hsp
    rw [List.length_take, Nat.min_eq_left (by omega)] at this
    exact this
  · rintro ⟨h1, h2⟩
    obtain ⟨l1, l2, hsp⟩ := List.append_of_mem ((h.2 k v).2 h1)
    obtain ⟨x, x1, x2, x3⟩ := rank_of h hsp
    obtain ⟨y, y1, y2, y3⟩ := h2
    have hl : l1.length = i := by
      rw [← x3, ← y3]
      exact nodup_length x1 y1 fun a => by rw [x2, y2]
    rw [hsp, ← hl]
    simp

end Verif.Art
