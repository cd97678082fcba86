import Verif.Model.ReqChunks
/-
Lemmas about the packing and collecting of lists of chunks.
-/
namespace Verif.ReqChunks

/-- Each chunk begins where the one before ends. -/
def Contig : List Chunk → Prop
  | a :: b :: l => a.endx = b.beg ∧ Contig (b :: l)
  | _ => True

theorem total_cons (c : Chunk) (l : List Chunk) : total (c :: l) = c.size + total l := by simp [total]

theorem total_append (a b : List Chunk) : total (a ++ b) = total a + total b := by simp [total]

theorem fill_append (max : Nat) (cs : List Chunk) : ∀ h, (fill max h cs).1 ++ (fill max h cs).2 = cs := by
  induction cs with
  | nil => intro h; rfl
  | cons c cs ih =>
    intro h
    simp only [fill]
    split
    · simp [ih]
    · rfl

theorem fill_total (max : Nat) (cs : List Chunk) : ∀ h, h < max → h + total (fill max h cs).1 < max := by
  induction cs with
  | nil => intro h hh; simpa [fill, total] using hh
  | cons c cs ih =>
    intro h hh
    simp only [fill]
    split
    · next hc =>
      have := ih _ hc
      simp only [total_cons]
      omega
    · simpa [total] using hh

theorem fill_first {max : Nat} {c : Chunk} {cs : List Chunk} (h : c.size < max) : ∃ l, (fill max 0 (c :: cs)).1 = c :: l := by
  simp only [fill, Nat.zero_add, h, if_true]
  exact ⟨_, rfl⟩

theorem fill_big {max : Nat} {cs : List Chunk} : ∀ {h}, (∃ c ∈ cs, max ≤ c.size) → ∃ c ∈ (fill max h cs).2, max ≤ c.size := by
  induction cs with
  | nil => rintro h ⟨c, hc, _⟩; cases hc
  | cons d cs ih =>
    rintro h ⟨c, hc, hm⟩
    simp only [fill]
    split
    · next hd =>
      rcases List.mem_cons.1 hc with rfl | hc
      · omega
      · exact ih ⟨c, hc, hm⟩
    · exact ⟨c, hc, hm⟩

theorem contig_append {a b : List Chunk} (h : Contig (a ++ b)) : Contig b := by
  induction a with
  | nil => exact h
  | cons x a ih =>
    apply ih
    cases hab : a ++ b with
    | nil => trivial
    | cons y l =>
      rw [List.cons_append, hab] at h
      exact h.2

theorem contig_meet {a b : List Chunk} {x y : Chunk} (h : Contig (a ++ b)) (hx : a.getLast? = some x) (hy : b.head? = some y) :
    x.endx = y.beg := by
  induction a with
  | nil => cases hx
  | cons u a ih =>
    cases a with
    | nil =>
      cases b with
      | nil => cases hy
      | cons v b =>
        simp at hx hy
        subst hx hy
        exact h.1
    | cons w a => exact ih h.2 (by simpa [List.getLast?_cons_cons] using hx)

/-- The messages of a list: the last one is marked, the others are not. -/
def Marked : List Msg → Prop
  | [] => False
  | [m] => m.last = true
  | m :: l => m.last = false ∧ Marked l

/-- The numbers in the messages say how many chunks came before. -/
def Numbered : Nat → List Msg → Prop
  | _, [] => True
  | i, m :: l => m.part = i ∧ Numbered (i + m.chunks.length) l

theorem sends_spec (max : Nat) : ∀ (n rounds : Nat) (cs : List Chunk), cs.length = n → cs ≠ [] → n ≤ rounds →
    (∀ c ∈ cs, c.size < max) → ∀ i, Marked (sends max rounds i cs) ∧ Numbered i (sends max rounds i cs) ∧
      (sends max rounds i cs).flatMap Msg.chunks = cs ∧
      (∀ m ∈ sends max rounds i cs, total m.chunks < max ∧ m.chunks ≠ []) ∧ sends max rounds i cs = sends max n i cs := by
  intro n
  induction n using Nat.strongRecOn with
  | _ n ih =>
    intro rounds cs hn hne hr hs i
    cases cs with
    | nil => exact absurd rfl hne
    | cons c cs =>
      obtain ⟨rounds, rfl⟩ : ∃ r, rounds = r + 1 := ⟨rounds - 1, by simp at hn; omega⟩
      obtain ⟨k, rfl⟩ : ∃ r, n = r + 1 := ⟨n - 1, by simp at hn; omega⟩
      have hpos : 0 < max := by have := hs c List.mem_cons_self; omega
      obtain ⟨l, hl⟩ := fill_first (cs := cs) (hs c List.mem_cons_self)
      have ha := fill_append max (c :: cs) 0
      have ht := fill_total max (c :: cs) 0 hpos
      simp only [sends]
      generalize hp : fill max 0 (c :: cs) = p at *
      obtain ⟨p, q⟩ := p
      simp only at *
      subst hl
      cases q with
      | nil =>
        have e0 : ∀ r j, sends max r j [] = [] := fun r j => by cases r <;> rfl
        simp only [e0, List.isEmpty_nil]
        simp only [List.append_nil] at ha
        refine ⟨rfl, ⟨rfl, trivial⟩, by simp [ha], ?_, trivial⟩
        intro m hm
        simp only [List.mem_singleton] at hm
        subst hm
        exact ⟨by simpa using ht, by simp⟩
      | cons y q =>
        have hlen : (y :: q).length < k + 1 := by
          have := congrArg List.length ha
          simp only [List.length_append, List.length_cons] at this hn ⊢
          omega
        have hmem : ∀ c' ∈ y :: q, c'.size < max := fun c' hc' => hs c' (by rw [← ha]; exact List.mem_append_right _ hc')
        have r1 := ih _ hlen rounds (y :: q) rfl (by simp) (by omega) hmem (i + (c :: l).length)
        have r2 := ih _ hlen k (y :: q) rfl (by simp) (by omega) hmem (i + (c :: l).length)
        obtain ⟨a1, a2, a3, a4, a5⟩ := r1
        refine ⟨?_, ⟨rfl, a2⟩, ?_, ?_, ?_⟩
        · revert a1
          cases sends max rounds (i + (c :: l).length) (y :: q) with
          | nil => exact fun h => h.elim
          | cons m ms => exact fun h => ⟨rfl, h⟩
        · rw [List.flatMap_cons, a3, ha]
        · intro m hm
          rcases List.mem_cons.1 hm with rfl | hm
          · exact ⟨by simpa using ht, by simp⟩
          · exact a4 m hm
        · rw [a5, r2.2.2.2.2]

/-- A chunk that fits into no message keeps the loop going for ever. -/
theorem sends_endless (max : Nat) : ∀ (rounds i : Nat) (cs : List Chunk), (∃ c ∈ cs, max ≤ c.size) →
    (sends max rounds i cs).length = rounds ∧ ∀ m ∈ sends max rounds i cs, m.last = false := by
  intro rounds
  induction rounds with
  | zero => intro i cs _; exact ⟨rfl, fun m hm => by cases hm⟩
  | succ r ih =>
    intro i cs h
    cases cs with
    | nil => obtain ⟨c, hc, _⟩ := h; cases hc
    | cons c cs =>
      have hb := fill_big (h := 0) h
      simp only [sends]
      obtain ⟨h1, h2⟩ := ih (i + (fill max 0 (c :: cs)).1.length) _ hb
      refine ⟨by simp [h1], ?_⟩
      intro m hm
      rcases List.mem_cons.1 hm with rfl | hm
      · obtain ⟨d, hd, _⟩ := hb
        cases hq : (fill max 0 (c :: cs)).2 with
        | nil => rw [hq] at hd; cases hd
        | cons _ _ => rfl
      · exact h2 m hm

/-- Messages that are not the last are added up. -/
theorem collect_more (ms : List Msg) (h : ∀ m ∈ ms, m.last = false) : ∀ (acc : List Chunk) (l : List Ev),
    collect acc (ms.map .msg ++ l) = collect (acc ++ ms.flatMap Msg.chunks) l := by
  induction ms with
  | nil => intro acc l; simp
  | cons m ms ih =>
    intro acc l
    simp only [List.map_cons, List.cons_append, collect, h m List.mem_cons_self, Bool.false_eq_true, if_false]
    rw [ih (fun m hm => h m (List.mem_cons_of_mem _ hm))]
    simp [List.append_assoc]

theorem collect_marked : ∀ (ms : List Msg) (acc : List Chunk), Marked ms → (∀ m ∈ ms, m.chunks ≠ []) →
    Contig (acc ++ ms.flatMap Msg.chunks) → collect acc (ms.map .msg) = .goesOn (acc ++ ms.flatMap Msg.chunks) := by
  intro ms
  induction ms with
  | nil => intro acc h; exact h.elim
  | cons m ms ih =>
    intro acc h hne hc
    cases ms with
    | nil =>
      have hl : m.last = true := h
      simp only [List.map_cons, List.map_nil, collect, hl, if_true, takeLast]
      cases hg : acc.getLast? with
      | none => simp
      | some a =>
        cases hm : m.chunks with
        | nil => exact absurd hm (hne m List.mem_cons_self)
        | cons b l =>
          have : a.endx = b.beg := contig_meet hc hg (by simp [hm])
          simp [this, hm]
    | cons m' ms =>
      obtain ⟨h1, h2⟩ := h
      rw [List.map_cons]
      simp only [collect, h1, Bool.false_eq_true, if_false]
      rw [ih (acc ++ m.chunks) h2 (fun x hx => hne x (List.mem_cons_of_mem _ hx)) (by simpa [List.append_assoc] using hc)]
      simp [List.append_assoc]

theorem total_take_le (k B : Nat) (cs : List Chunk) (h : ∀ c ∈ cs, c.size ≤ B) : total (cs.take k) ≤ k * B := by
  induction cs generalizing k with
  | nil => simp [total]
  | cons c cs ih =>
    cases k with
    | zero => simp [total]
    | succ k =>
      rw [List.take_succ_cons, total_cons, Nat.succ_mul]
      have := ih k (fun c hc => h c (List.mem_cons_of_mem _ hc))
      have := h c List.mem_cons_self
      omega

end Verif.ReqChunks
