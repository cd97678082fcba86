import Verif.Model.ToDisk

/-! C146: a received file appears whole or not at all. -/

namespace Verif.ToDisk

theorem finish_path (s : State) : (finish s).1.path = s.path ∨ (finish s).2 = .ok := by
  unfold finish
  split
  · exact Or.inr rfl
  · exact Or.inl rfl

theorem copyOut_path (s : State) (p : Part) : (copyOut s p).1.path = s.path := by
  unfold copyOut
  split
  · rfl
  · split <;> rfl

theorem writeRest_path (s : State) (p : Part) :
    (writeRest s p).1.path = s.path ∨ (p.last = true ∧ (writeRest s p).2 = .ok) := by
  unfold writeRest
  split
  · exact Or.inl rfl
  · simp only
    split
    · exact Or.inl rfl
    · split
      · exact Or.inl (copyOut_path _ _)
      · split
        · rename_i hl
          rcases finish_path (copyOut { s with parts := p.num :: s.parts } p).1 with h | h
          · exact Or.inl (by rw [h, copyOut_path])
          · exact Or.inr ⟨hl, h⟩
        · exact Or.inl (copyOut_path _ _)

theorem receive_path (s : State) (p : Part) :
    (receive s p).1.path = s.path ∨ (p.last = true ∧ (receive s p).2 = .ok) := by
  unfold receive
  split
  · exact Or.inl rfl
  · unfold writeOne
    simp only
    split
    · split
      · exact Or.inl rfl
      · split
        · exact Or.inl rfl
        · split
          · exact Or.inl rfl
          · split
            · exact Or.inl rfl
            · exact writeRest_path _ p
    · exact writeRest_path _ p

theorem run_path (step : State → Part → State × Res)
    (h : ∀ s p, (step s p).1.path = s.path ∨ (p.last = true ∧ (step s p).2 = .ok)) (ps : List Part) (s : State) :
    (run step s ps).1.path = s.path ∨ ((∃ p ∈ ps, p.last = true) ∧ (run step s ps).2 = .ok) := by
  induction ps generalizing s with
  | nil => exact Or.inl rfl
  | cons p ps ih =>
    simp only [run]
    split
    · rename_i hc
      rcases ih (step s p).1 with h1 | ⟨⟨q, hq, hl⟩, h2⟩
      · rcases h s p with h3 | ⟨h3, _⟩
        · exact Or.inl (by rw [h1, h3])
        · rw [hc.2] at h3; cases h3
      · exact Or.inr ⟨⟨q, List.mem_cons_of_mem _ hq, hl⟩, h2⟩
    · rcases h s p with h3 | ⟨h3, h4⟩
      · exact Or.inl h3
      · exact Or.inr ⟨⟨p, List.mem_cons_self, h3⟩, h4⟩

/-- The upload receiver: whatever comes, the path has its former content unless the last part was
written and no error reported. -/
theorem C146_kept (s : State) (ps : List Part) :
    (run receive s ps).1.path = s.path ∨ ((∃ p ∈ ps, p.last = true) ∧ (run receive s ps).2 = .ok) :=
  run_path receive receive_path ps s

/-- All the bytes of parts, in order. -/
def allData (ps : List Part) : Bytes := (ps.map (·.data)).flatten

theorem copyOut_opened (s : State) (p : Part) (c : Bytes) (h : s.fd = .opened c) :
    ((copyOut s p).2 = true ↔ p.data = [] ∨ p.data.length ≤ p.room) ∧
    ((copyOut s p).2 = true → (copyOut s p).1 =
      { s with fd := .opened (c ++ p.data), bytesWrit := s.bytesWrit + p.data.length }) := by
  obtain ⟨a1, a2, a3, a4, a5, a6, a7⟩ := s
  simp only at h
  subst h
  unfold copyOut
  by_cases hd : p.data = []
  · simp [hd]
  · by_cases hr : p.data.length ≤ p.room <;> simp [hd, osWrite, hr]

theorem writeRest_ok (s : State) (p : Part) (c : Bytes) (h : s.fd = .opened c) :
    ((writeRest s p).2 = .ok ↔ p.num ∉ s.parts ∧ (p.num > 0 → p.sum = some true) ∧
      (p.data = [] ∨ p.data.length ≤ p.room)) ∧
    ((writeRest s p).2 = .ok → (writeRest s p).1 = { s with
      parts := p.num :: s.parts
      fd := if p.last then .closed else .opened (c ++ p.data)
      bytesWrit := s.bytesWrit + p.data.length
      path := if p.last then some (c ++ p.data) else s.path }) := by
  unfold writeRest
  by_cases h1 : p.num ∈ s.parts
  · simp [h1]
  · simp only [h1, if_false, not_false_eq_true, true_and]
    by_cases h2 : p.num > 0 ∧ p.sum ≠ some true
    · simp [h2]
    · rw [if_neg h2]
      have h2' : p.num > 0 → p.sum = some true := fun hp => Classical.byContradiction fun hs => h2 ⟨hp, hs⟩
      obtain ⟨g1, g2⟩ := copyOut_opened { s with parts := p.num :: s.parts } p c h
      cases hc : (copyOut { s with parts := p.num :: s.parts } p).2 with
      | false =>
        have : ¬ (p.data = [] ∨ p.data.length ≤ p.room) := fun hx => by
          rw [g1.2 hx] at hc; cases hc
        simp [this]
      | true =>
        have g3 := g1.1 hc
        rw [g2 hc]
        cases hl : p.last <;> simp [finish, g3] <;> exact h2'

/-- In the middle of a file: `k` parts seen, with bytes `c`. -/
structure Mid (k : Nat) (c : Bytes) (s : State) : Prop where
  seen : s.seen = k
  fd : s.fd = .opened c
  writ : s.bytesWrit = c.length
  parts : ∀ n ∈ s.parts, 0 ≤ n ∧ n < k

theorem mid_step {k : Nat} {c : Bytes} {s : State} (hk : 0 < k) (hm : Mid k c s) (p : Part) :
    ((receive s p).2 = .ok ↔ p.num = k ∧ p.sum = some true ∧ (p.data = [] ∨ p.data.length ≤ p.room)) ∧
    ((receive s p).2 = .ok → p.last = false → Mid (k + 1) (c ++ p.data) (receive s p).1) ∧
    ((receive s p).2 = .ok → p.last = true → (receive s p).1.path = some (c ++ p.data) ∧
      (receive s p).1.bytesWrit = (c ++ p.data).length) := by
  unfold receive
  by_cases hn : p.num = s.seen
  · have hnk : p.num = k := by rw [hn, hm.seen]
    have h0 : ¬ p.num = 0 := by omega
    have hw : writeOne s p = writeRest { s with seen := s.seen + 1 } p := by
      unfold writeOne
      simp only
      rw [if_neg h0]
    rw [if_neg (by simp [hn]), hw]
    obtain ⟨g1, g2⟩ := writeRest_ok { s with seen := s.seen + 1 } p c hm.fd
    have hnot : p.num ∉ s.parts := fun hx => by have := (hm.parts _ hx).2; omega
    have hpos : p.num > 0 := by omega
    refine ⟨?_, ?_, ?_⟩
    · rw [g1]
      exact ⟨fun h => ⟨hnk, h.2.1 hpos, h.2.2⟩, fun h => ⟨hnot, fun _ => h.2.1, h.2.2⟩⟩
    · intro hok hl
      rw [g2 hok]
      refine ⟨by simp [hm.seen], by simp [hl], by simp [hm.writ], ?_⟩
      intro n hx
      rcases List.mem_cons.1 hx with rfl | hx
      · omega
      · have := hm.parts n hx; omega
    · intro hok hl
      rw [g2 hok]
      simp [hl, hm.writ]
  · rw [if_pos hn]
    have : ¬ p.num = (k : Int) := by rw [← hm.seen]; exact hn
    simp [this]

/-- What the first part must be. -/
def firstGood (p : Part) : Prop :=
  p.num = 0 ∧ p.named = true ∧ p.sum ≠ some false ∧ p.creates = true ∧ (p.data = [] ∨ p.data.length ≤ p.room)

theorem first_step (old : Option Bytes) (p : Part) :
    ((receive { path := old } p).2 = .ok ↔ firstGood p) ∧
    ((receive { path := old } p).2 = .ok → p.last = false → Mid 1 p.data (receive { path := old } p).1) ∧
    ((receive { path := old } p).2 = .ok → p.last = true →
      (receive { path := old } p).1.path = some p.data ∧
      (receive { path := old } p).1.bytesWrit = p.data.length) := by
  unfold receive firstGood
  by_cases hn : p.num = 0
  · rw [if_neg (by simp [hn])]
    unfold writeOne
    simp only [hn, if_true]
    rw [if_neg (by simp)]
    by_cases h1 : p.named = false
    · simp [h1]
    · by_cases h2 : p.sum = some false
      · simp [h1, h2]
      · by_cases h3 : p.creates = false
        · simp [h1, h2, h3]
        · rw [if_neg h1, if_neg h2, if_neg h3]
          obtain ⟨g1, g2⟩ := writeRest_ok { seen := 0 + 1, parts := [], fd := .opened [], path := old } p [] rfl
          refine ⟨?_, ?_, ?_⟩
          · rw [g1]
            simp [hn, h1, h2, h3]
          · intro hok hl
            rw [g2 hok]
            refine ⟨by simp, by simp [hl], by simp, ?_⟩
            intro n hx
            rcases List.mem_cons.1 hx with rfl | hx
            · omega
            · cases hx
          · intro hok hl
            rw [g2 hok]
            simp [hl]
  · rw [if_pos (by simpa using hn)]
    simp [hn]

theorem run_one (step : State → Part → State × Res) (s : State) (p : Part) : run step s [p] = step s p := by
  simp only [run]
  split
  · rename_i h
    cases hs : step s p with
    | mk a b => rw [hs] at h; simp only at h ⊢; rw [h.1]
  · rfl

theorem run_last (step : State → Part → State × Res) (s : State) (p : Part) (ps : List Part)
    (h : ps = [] ∨ p.last = false) :
    (run step s (p :: ps)).2 = .ok → (step s p).2 = .ok ∧ run step s (p :: ps) =
      (if ps = [] then step s p else run step (step s p).1 ps) := by
  intro hok
  rcases h with rfl | h
  · rw [run_one] at hok ⊢
    exact ⟨hok, by simp⟩
  · simp only [run] at hok ⊢
    split at hok
    · rename_i hc
      refine ⟨hc.1, ?_⟩
      rw [if_pos hc]
      split
      · rename_i hps
        subst hps
        simp only [run]
        cases hs : step s p with
        | mk a b => rw [hs] at hc; simp only at hc ⊢; rw [hc.1]
      · rfl
    · rename_i hc
      exact absurd ⟨hok, h⟩ hc

theorem mid_run (init : List Part) (l : Part) (hi : ∀ p ∈ init, p.last = false) (hl : l.last = true) {k : Nat}
    (hk : 0 < k) {c : Bytes} {s : State} (hm : Mid k c s) (hok : (run receive s (init ++ [l])).2 = .ok) :
    (run receive s (init ++ [l])).1.path = some (c ++ allData (init ++ [l])) ∧
    (run receive s (init ++ [l])).1.bytesWrit = (c ++ allData (init ++ [l])).length ∧
    (∀ (i : Nat) (p : Part), (init ++ [l])[i]? = some p → p.num = ((k + i : Nat) : Int) ∧ p.sum = some true) := by
  induction init generalizing k c s with
  | nil =>
    simp only [List.nil_append] at hok ⊢
    rw [run_one] at hok ⊢
    obtain ⟨g1, _, g3⟩ := mid_step hk hm l
    obtain ⟨e1, e2⟩ := g3 hok hl
    refine ⟨by simpa [allData] using e1, by simpa [allData] using e2, ?_⟩
    intro i p hp
    cases i with
    | zero => simp at hp; subst hp; exact ⟨by simpa using (g1.1 hok).1, (g1.1 hok).2.1⟩
    | succ i => simp at hp
  | cons p init ih =>
    have hp := hi p List.mem_cons_self
    simp only [List.cons_append] at hok ⊢
    obtain ⟨e1, e2⟩ := run_last receive s p (init ++ [l]) (Or.inr hp) hok
    rw [if_neg (by simp)] at e2
    obtain ⟨g1, g2, _⟩ := mid_step hk hm p
    have hok' := hok
    rw [e2] at hok' ⊢
    obtain ⟨f1, f2, f3⟩ := ih (fun q hq => hi q (List.mem_cons_of_mem _ hq)) (by omega) (g2 e1 hp) hok'
    refine ⟨by simpa [allData] using f1, by simpa [allData] using f2, ?_⟩
    intro i q hq
    cases i with
    | zero => simp at hq; subst hq; exact ⟨by simpa using (g1.1 e1).1, (g1.1 e1).2.1⟩
    | succ i =>
      have := f3 i q (by simpa using hq)
      exact ⟨by rw [this.1]; congr 1; omega, this.2⟩

/-- The upload receiver: if no error is reported up to the last part then the file is at its path,
with exactly the bytes of all parts, which were numbered from 0, and undamaged; whatever the disk did. -/
theorem C146_whole (old : Option Bytes) (init : List Part) (l : Part) (hi : ∀ p ∈ init, p.last = false)
    (hl : l.last = true) (hok : (run receive { path := old } (init ++ [l])).2 = .ok) :
    (run receive { path := old } (init ++ [l])).1.path = some (allData (init ++ [l])) ∧
    (run receive { path := old } (init ++ [l])).1.bytesWrit = (allData (init ++ [l])).length ∧
    (∀ (i : Nat) (p : Part), (init ++ [l])[i]? = some p → p.num = i ∧ p.sum ≠ some false) := by
  cases init with
  | nil =>
    simp only [List.nil_append] at hok ⊢
    rw [run_one] at hok ⊢
    obtain ⟨g1, _, g3⟩ := first_step old l
    obtain ⟨e1, e2⟩ := g3 hok hl
    refine ⟨by simpa [allData] using e1, by simpa [allData] using e2, ?_⟩
    intro i p hp
    cases i with
    | zero => simp at hp; subst hp; exact ⟨by simpa using (g1.1 hok).1, (g1.1 hok).2.2.1⟩
    | succ i => simp at hp
  | cons p init =>
    have hp := hi p List.mem_cons_self
    simp only [List.cons_append] at hok ⊢
    obtain ⟨e1, e2⟩ := run_last receive _ p (init ++ [l]) (Or.inr hp) hok
    rw [if_neg (by simp)] at e2
    obtain ⟨g1, g2, _⟩ := first_step old p
    have hok' := hok
    rw [e2] at hok' ⊢
    obtain ⟨f1, f2, f3⟩ := mid_run init l (fun q hq => hi q (List.mem_cons_of_mem _ hq)) hl (by omega)
      (g2 e1 hp) hok'
    refine ⟨by simpa [allData] using f1, by simpa [allData] using f2, ?_⟩
    intro i q hq
    cases i with
    | zero => simp at hq; subst hq; exact ⟨by simpa using (g1.1 e1).1, (g1.1 e1).2.2.1⟩
    | succ i =>
      have := f3 i q (by simpa using hq)
      refine ⟨by rw [this.1]; congr 1; omega, by rw [this.2]; simp⟩

theorem mid_good (ps : List Part) {k : Nat} (hk : 0 < k) {c : Bytes} {s : State} (hm : Mid k c s)
    (hg : ∀ (i : Nat) (p : Part), ps[i]? = some p → p.num = ((k + i : Nat) : Int) ∧ p.sum = some true ∧ p.data.length ≤ p.room) :
    (run receive s ps).2 = .ok := by
  induction ps generalizing k c s with
  | nil => rfl
  | cons p ps ih =>
    obtain ⟨h1, h2, h3⟩ := hg 0 p (by simp)
    obtain ⟨g1, g2, _⟩ := mid_step hk hm p
    have hok := g1.2 ⟨by simpa using h1, h2, Or.inr h3⟩
    simp only [run]
    split
    · rename_i hc
      refine ih (by omega) (g2 hok hc.2) ?_
      intro i q hq
      have := hg (i + 1) q (by simpa using hq)
      exact ⟨by rw [this.1]; congr 1; omega, this.2⟩
    · exact hok

/-- And it does succeed: parts numbered from 0, with right checksums, on a disk with room. -/
theorem C146_succeeds (old : Option Bytes) (p : Part) (ps : List Part) (hf : firstGood p)
    (hg : ∀ (i : Nat) (q : Part), ps[i]? = some q → q.num = ((i + 1 : Nat) : Int) ∧ q.sum = some true ∧ q.data.length ≤ q.room) :
    (run receive { path := old } (p :: ps)).2 = .ok := by
  obtain ⟨g1, g2, _⟩ := first_step old p
  have hok := g1.2 hf
  simp only [run]
  split
  · rename_i hc
    exact mid_good ps (by omega) (g2 hok hc.2) fun i q hq => by
      have := hg i q hq
      exact ⟨by rw [this.1]; congr 1; omega, this.2⟩
  · exact hok

theorem flush_path (s : State) (room : Nat) : (flush s room).1.path = s.path := by
  unfold flush
  split
  · rfl
  · split
    · rfl
    · split <;> rfl

theorem direct_path (s : State) (room : Nat) (d : Bytes) : (direct s room d).1.path = s.path := by
  unfold direct
  split <;> rfl

theorem bufWrite_path (cap : Nat) (s : State) (room : Nat) (d : Bytes) :
    (bufWrite cap s room d).1.path = s.path := by
  unfold bufWrite
  split
  · rfl
  · split
    · rfl
    · split
      · exact direct_path _ _ _
      · simp only
        split
        · exact flush_path _ _
        · split
          · exact flush_path _ _
          · simp only [direct_path, flush_path]

theorem finishBuf_path (s : State) (room : Nat) :
    (finishBuf s room).1.path = s.path ∨ (finishBuf s room).2 = .ok := by
  unfold finishBuf
  split
  · exact Or.inl rfl
  · rcases finish_path (flush s room).1 with h | h
    · exact Or.inl (by rw [h, flush_path])
    · exact Or.inr h

theorem bufRest_path (cap : Nat) (s : State) (p : Part) :
    (bufRest cap s p).1.path = s.path ∨ (p.last = true ∧ (bufRest cap s p).2 = .ok) := by
  unfold bufRest
  split
  · exact Or.inl rfl
  · simp only
    split
    · split
      · rename_i hl
        rcases finishBuf_path { s with parts := p.num :: s.parts } p.room with h | h
        · exact Or.inl h
        · exact Or.inr ⟨hl, h⟩
      · exact Or.inl rfl
    · split
      · exact Or.inl rfl
      · split
        · exact Or.inl (bufWrite_path _ _ _ _)
        · split
          · rename_i hl
            rcases finishBuf_path { (bufWrite cap { s with parts := p.num :: s.parts } p.room p.data).1 with
                bytesWrit := s.bytesWrit + (bufWrite cap { s with parts := p.num :: s.parts } p.room p.data).2.1 }
                p.room with h | h
            · exact Or.inl (by rw [h]; exact bufWrite_path _ _ _ _)
            · exact Or.inr ⟨hl, h⟩
          · exact Or.inl (bufWrite_path _ _ _ _)

/-- The writer in jsync keeps the former content until then too. -/
theorem C146_kept_buffered (cap : Nat) (s : State) (ps : List Part) :
    (run (bufOne cap) s ps).1.path = s.path ∨
      ((∃ p ∈ ps, p.last = true) ∧ (run (bufOne cap) s ps).2 = .ok) := by
  refine run_path (bufOne cap) (fun s p => ?_) ps s
  unfold bufOne
  simp only
  split
  · split
    · exact Or.inl rfl
    · split
      · exact Or.inl rfl
      · exact bufRest_path cap _ p
  · exact bufRest_path cap _ p

theorem bufWrite_good (cap : Nat) (s : State) (room : Nat) (d c : Bytes) (hf : s.fd = .opened c)
    (hb : s.broken = false) (hl : s.buf.length ≤ cap) (hr : s.buf.length + d.length ≤ room) :
    ∃ c' b', bufWrite cap s room d = ({ s with fd := .opened c', buf := b', broken := false }, d.length, true) ∧
      c' ++ b' = c ++ s.buf ++ d ∧ b'.length ≤ cap ∧ b'.length ≤ s.buf.length + d.length := by
  obtain ⟨a1, a2, fd, buf, br, a6, a7⟩ := s
  simp only at hf hb hl hr
  subst hf hb
  unfold bufWrite
  simp only [Bool.false_eq_true, if_false]
  by_cases h1 : d.length ≤ cap - buf.length
  · rw [if_pos h1]
    exact ⟨c, buf ++ d, rfl, by simp, by rw [List.length_append]; omega, by simp⟩
  · rw [if_neg h1]
    by_cases h2 : buf = []
    · subst h2
      rw [if_pos rfl]
      simp only [List.length_nil, Nat.zero_add] at hr
      refine ⟨c ++ d, [], ?_, by simp, by simp, by simp⟩
      simp [direct, osWrite, hr]
    · rw [if_neg h2]
      have hfl : (buf ++ d.take (cap - buf.length)).length ≤ room := by
        rw [List.length_append, List.length_take]; omega
      have hfr : flush ⟨a1, a2, .opened c, buf ++ d.take (cap - buf.length), false, a6, a7⟩ room =
          (⟨a1, a2, .opened (c ++ (buf ++ d.take (cap - buf.length))), [], false, a6, a7⟩, true) := by
        unfold flush
        simp only [Bool.false_eq_true, if_false]
        rw [if_neg (by simp [h2])]
        simp only [osWrite, if_pos hfl, List.drop_length, Bool.not_true]
      simp only [hfr, Bool.true_eq_false, if_false]
      by_cases h3 : (d.drop (cap - buf.length)).length ≤ cap
      · rw [if_pos h3]
        refine ⟨_, _, rfl, ?_, h3, by simp only [List.length_drop]; omega⟩
        simp only [List.append_assoc, List.take_append_drop]
      · rw [if_neg h3]
        have hlen : (d.drop (cap - buf.length)).length ≤ room - (buf ++ d.take (cap - buf.length)).length := by
          rw [List.length_drop, List.length_append, List.length_take]; omega
        refine ⟨c ++ (buf ++ d.take (cap - buf.length)) ++ d.drop (cap - buf.length), [], ?_, ?_, by simp, by simp⟩
        · have hk : cap - buf.length + (d.drop (cap - buf.length)).length = d.length := by
            rw [List.length_drop]; omega
          simp only [direct, osWrite]
          rw [if_pos hlen]
          simp only [hk, Bool.not_true]
        · simp only [List.append_assoc, List.take_append_drop, List.append_nil]

/-- In the middle of a file, with the buffer. -/
structure BMid (cap k : Nat) (c b : Bytes) (s : State) : Prop where
  seen : s.seen = k
  fd : s.fd = .opened c
  buf : s.buf = b
  small : b.length ≤ cap
  fine : s.broken = false
  parts : ∀ n ∈ s.parts, 0 ≤ n ∧ n < k

theorem flush_good {s : State} {c b : Bytes} (room : Nat) (hf : s.fd = .opened c) (hb : s.buf = b)
    (hg : s.broken = false) :
    (flush s room).1.fd = .opened (c ++ b.take (if b.length ≤ room then b.length else room)) := by
  unfold flush
  rw [if_neg (by simp [hg]), hb]
  by_cases h : b = []
  · rw [if_pos h, hf, h]
    simp
  · rw [if_neg h, hf]
    unfold osWrite
    by_cases hr : b.length ≤ room <;> simp [hr]

theorem finishBuf_good {s : State} {c b : Bytes} (room : Nat) (hf : s.fd = .opened c) (hb : s.buf = b)
    (hg : s.broken = false) :
    (finishBuf s room).2 = .ok ∧
    (finishBuf s room).1.path = some (c ++ b.take (if b.length ≤ room then b.length else room)) := by
  have h := flush_good room hf hb hg
  unfold finishBuf
  rw [hf]
  simp only [finish, h]
  exact ⟨trivial, trivial⟩

/-- A part that is new and fits: the state after it, or the file. -/
theorem bufRest_good {cap : Nat} {c b : Bytes} {s : State} (hf : s.fd = .opened c) (hb : s.buf = b)
    (hs : b.length ≤ cap) (hg : s.broken = false) (p : Part)
    (hn : p.num ∉ s.parts) (hr : b.length + p.data.length ≤ p.room) :
    ∃ c' b', c' ++ b' = c ++ b ++ p.data ∧ b'.length ≤ cap ∧ (bufRest cap s p).2 = .ok ∧
      (p.last = false → (bufRest cap s p).1.fd = .opened c' ∧ (bufRest cap s p).1.buf = b' ∧
        (bufRest cap s p).1.broken = false ∧ (bufRest cap s p).1.parts = p.num :: s.parts ∧
        (bufRest cap s p).1.seen = s.seen) ∧
      (p.last = true → (bufRest cap s p).1.path = some (c ++ b ++ p.data)) := by
  unfold bufRest
  rw [if_neg hn]
  by_cases hd : p.data = []
  · simp only
    rw [if_pos hd]
    refine ⟨c, b, by simp [hd], hs, ?_⟩
    cases hl : p.last with
    | false => simp [hf, hb, hg]
    | true =>
      obtain ⟨e1, e2⟩ := finishBuf_good (s := { s with parts := p.num :: s.parts }) p.room hf hb hg
      rw [if_pos (by omega), List.take_length] at e2
      simp [e1, e2, hd]
  · simp only
    rw [if_neg hd, if_neg (by simp [hf])]
    obtain ⟨c', b', e1, e2, e3, e4⟩ := bufWrite_good cap { s with parts := p.num :: s.parts } p.room p.data c hf
      hg (by simp only [hb]; exact hs) (by simp only [hb]; exact hr)
    simp only [hb] at e2 e4
    refine ⟨c', b', e2, e3, ?_⟩
    simp only [e1, Bool.true_eq_false, if_false]
    cases hl : p.last with
    | false => simp
    | true =>
      obtain ⟨f1, f2⟩ := finishBuf_good (s := { s with
          parts := p.num :: s.parts, fd := .opened c', buf := b', broken := false,
          bytesWrit := s.bytesWrit + p.data.length }) (c := c') (b := b') p.room rfl rfl rfl
      rw [if_pos (by omega), List.take_length, e2] at f2
      simp [f1, f2]

theorem bmid_step {cap k : Nat} {c b : Bytes} {s : State} (hk : 0 < k) (hm : BMid cap k c b s) (p : Part)
    (hn : p.num = k) (hr : b.length + p.data.length ≤ p.room) :
    (bufOne cap s p).2 = .ok ∧
    (p.last = false → ∃ c' b', c' ++ b' = c ++ b ++ p.data ∧ BMid cap (k + 1) c' b' (bufOne cap s p).1) ∧
    (p.last = true → (bufOne cap s p).1.path = some (c ++ b ++ p.data)) := by
  have hstep : bufOne cap s p = bufRest cap { s with seen := s.seen + 1 } p := by
    unfold bufOne
    simp only
    rw [if_neg (by omega)]
  rw [hstep]
  obtain ⟨c', b', e1, e2, e3, e4, e5⟩ := bufRest_good (cap := cap) (s := { s with seen := s.seen + 1 })
    hm.fd hm.buf hm.small hm.fine p (fun hx => by have := (hm.parts _ hx).2; omega) hr
  refine ⟨e3, fun hl => ?_, e5⟩
  obtain ⟨f1, f2, f3, f4, f5⟩ := e4 hl
  refine ⟨c', b', e1, by rw [f5]; simp [hm.seen], f1, f2, e2, f3, ?_⟩
  intro n hx
  rw [f4] at hx
  rcases List.mem_cons.1 hx with rfl | hx
  · omega
  · have := hm.parts n hx; omega

theorem bfirst_step (cap : Nat) (old : Option Bytes) (p : Part) (hn : p.num = 0) (hc : p.creates = true)
    (hr : p.data.length ≤ p.room) :
    (bufOne cap { path := old } p).2 = .ok ∧
    (p.last = false → ∃ c' b', c' ++ b' = p.data ∧ BMid cap 1 c' b' (bufOne cap { path := old } p).1) ∧
    (p.last = true → (bufOne cap { path := old } p).1.path = some p.data) := by
  have hstep : bufOne cap { path := old } p =
      bufRest cap { seen := 1, parts := [], fd := .opened [], path := old } p := by
    unfold bufOne
    simp only
    rw [if_pos hn, if_neg (by simp), if_neg (by simp [hc])]
  rw [hstep]
  obtain ⟨c', b', e1, e2, e3, e4, e5⟩ := bufRest_good (cap := cap) (c := []) (b := [])
    (s := { seen := 1, parts := [], fd := .opened [], path := old }) rfl rfl (by simp) rfl p (by simp) (by simpa using hr)
  refine ⟨e3, fun hl => ?_, by simpa using e5⟩
  obtain ⟨f1, f2, f3, f4, f5⟩ := e4 hl
  refine ⟨c', b', by simpa using e1, by rw [f5], f1, f2, e2, f3, ?_⟩
  intro n hx
  rw [f4] at hx
  rcases List.mem_cons.1 hx with rfl | hx
  · omega
  · cases hx

theorem run_step (step : State → Part → State × Res) (s : State) (p : Part) (ps : List Part)
    (h1 : (step s p).2 = .ok) (h2 : p.last = false) : run step s (p :: ps) = run step (step s p).1 ps := by
  simp [run, h1, h2]

theorem bmid_run (cap : Nat) (l : Part) (hl : l.last = true) (init : List Part) (k : Nat) (c b : Bytes)
    (s : State) (hk : 0 < k) (hm : BMid cap k c b s) (hi : ∀ p ∈ init, p.last = false)
    (hn : ∀ (i : Nat) (p : Part), (init ++ [l])[i]? = some p → p.num = ((k + i : Nat) : Int))
    (hr : ∀ p ∈ init ++ [l], (c ++ b ++ allData (init ++ [l])).length ≤ p.room) :
    (run (bufOne cap) s (init ++ [l])).2 = .ok ∧
    (run (bufOne cap) s (init ++ [l])).1.path = some (c ++ b ++ allData (init ++ [l])) := by
  induction init generalizing k c b s with
  | nil =>
    simp only [List.nil_append] at hr hn ⊢
    rw [run_one]
    have hr' := hr l (by simp)
    have ha : allData [l] = l.data := by simp [allData]
    rw [ha] at hr' ⊢
    simp only [List.length_append] at hr'
    obtain ⟨e1, _, e3⟩ := bmid_step hk hm l (by simpa using hn 0 l (by simp)) (by omega)
    exact ⟨e1, e3 hl⟩
  | cons p init ih =>
    simp only [List.cons_append] at hr hn ⊢
    have ha : allData (p :: (init ++ [l])) = p.data ++ allData (init ++ [l]) := by simp [allData]
    rw [ha] at hr ⊢
    have hr' := hr p List.mem_cons_self
    simp only [List.length_append] at hr'
    have hp := hi p List.mem_cons_self
    obtain ⟨e1, e2, _⟩ := bmid_step hk hm p (by simpa using hn 0 p (by simp)) (by omega)
    obtain ⟨c', b', f1, f2⟩ := e2 hp
    rw [run_step _ _ _ _ e1 hp]
    have hcat : c ++ b ++ (p.data ++ allData (init ++ [l])) = c' ++ b' ++ allData (init ++ [l]) := by
      rw [f1]; simp only [List.append_assoc]
    rw [hcat] at hr ⊢
    refine ih (k + 1) c' b' _ (by omega) f2 (fun q hq => hi q (List.mem_cons_of_mem _ hq)) ?_
      (fun q hq => hr q (List.mem_cons_of_mem _ hq))
    intro i q hq
    have := hn (i + 1) q (by simpa using hq)
    rw [this]; congr 1; omega

/-- The writer in jsync, on a disk that has room for all, with parts numbered from 0: the file
is there with all its bytes. Partial: without room a success may be reported for a file cut short
(`C146_flush_counterexample`), and parts need not come in order (`C146_order_counterexample`). -/
theorem C146_buffered_partial (cap : Nat) (old : Option Bytes) (init : List Part) (l : Part)
    (hi : ∀ p ∈ init, p.last = false) (hl : l.last = true) (hc : ∀ p ∈ init ++ [l], p.creates = true)
    (hn : ∀ (i : Nat) (p : Part), (init ++ [l])[i]? = some p → p.num = i)
    (hr : ∀ p ∈ init ++ [l], (allData (init ++ [l])).length ≤ p.room) :
    (run (bufOne cap) { path := old } (init ++ [l])).2 = .ok ∧
    (run (bufOne cap) { path := old } (init ++ [l])).1.path = some (allData (init ++ [l])) := by
  cases init with
  | nil =>
    simp only [List.nil_append] at hr hn hc ⊢
    rw [run_one]
    have ha : allData [l] = l.data := by simp [allData]
    rw [ha] at hr ⊢
    obtain ⟨e1, _, e3⟩ := bfirst_step cap old l (by simpa using hn 0 l (by simp)) (hc l (by simp)) (hr l (by simp))
    exact ⟨e1, e3 hl⟩
  | cons p init =>
    simp only [List.cons_append] at hr hn hc ⊢
    have ha : allData (p :: (init ++ [l])) = p.data ++ allData (init ++ [l]) := by simp [allData]
    rw [ha] at hr ⊢
    have hr' := hr p List.mem_cons_self
    rw [List.length_append] at hr'
    have hp := hi p List.mem_cons_self
    obtain ⟨e1, e2, _⟩ := bfirst_step cap old p (by simpa using hn 0 p (by simp)) (hc p List.mem_cons_self) (by omega)
    obtain ⟨c', b', f1, f2⟩ := e2 hp
    rw [run_step _ _ _ _ e1 hp, ← f1]
    refine bmid_run cap l hl init 1 c' b' _ (by omega) f2 (fun q hq => hi q (List.mem_cons_of_mem _ hq)) ?_ ?_
    · intro i q hq
      have := hn (i + 1) q (by simpa using hq)
      rw [this]; congr 1; omega
    · intro q hq
      rw [f1]
      exact hr q (List.mem_cons_of_mem _ hq)

/-- The error of the last flush is dropped: when the bytes fit the buffer (a mebibyte and more) and
the disk is full, success is reported for each part, and the path gets the file cut short. -/
theorem C146_flush_counterexample (cap : Nat) (old : Option Bytes) (p : Part) (hn : p.num = 0)
    (hl : p.last = true) (hc : p.creates = true) (hcap : p.data.length ≤ cap) (hfull : p.room < p.data.length) :
    run (bufOne cap) { path := old } [p] = (bufOne cap { path := old } p) ∧
    (bufOne cap { path := old } p).2 = .ok ∧
    (bufOne cap { path := old } p).1.path = some (p.data.take p.room) ∧
    p.data.take p.room ≠ p.data := by
  have hd : p.data ≠ [] := by intro h; rw [h] at hfull; simp at hfull
  refine ⟨run_one _ _ _, ?_⟩
  have hstep : bufOne cap { path := old } p = finishBuf
      ⟨1, [0], .opened [], p.data, false, p.data.length, old⟩ p.room := by
    unfold bufOne
    simp only
    rw [if_pos hn, if_neg (by simp), if_neg (by simp [hc])]
    unfold bufRest
    simp only
    rw [if_neg (by simp), if_neg hd, if_neg (by simp)]
    simp [bufWrite, hcap, hl, hn]
  rw [hstep]
  obtain ⟨e1, e2⟩ := finishBuf_good (s :=
    ⟨1, [0], .opened [], p.data, false, p.data.length, old⟩) (c := []) (b := p.data) p.room rfl rfl rfl
  rw [if_neg (by omega)] at e2
  refine ⟨e1, by simpa using e2, ?_⟩
  intro h
  have := congrArg List.length h
  rw [List.length_take] at this
  omega

/-- A missing part, or parts in another order, go unnoticed by the writer in jsync. -/
theorem C146_order_counterexample (cap : Nat) (old : Option Bytes) (p0 p2 : Part) (h0 : p0.num = 0)
    (h2 : p2.num = 2) (hc : p0.creates = true) (hl0 : p0.last = false) (hl2 : p2.last = true)
    (hr0 : p0.data.length ≤ p0.room) (hr2 : (p0.data ++ p2.data).length ≤ p2.room) :
    (run (bufOne cap) { path := old } [p0, p2]).2 = .ok ∧
    (run (bufOne cap) { path := old } [p0, p2]).1.path = some (p0.data ++ p2.data) := by
  obtain ⟨e1, e2, _⟩ := bfirst_step cap old p0 h0 hc hr0
  obtain ⟨c, b, f1, f2⟩ := e2 hl0
  rw [run_step _ _ _ _ e1 hl0, run_one]
  generalize (bufOne cap { path := old } p0).1 = s at f2
  have hstep : bufOne cap s p2 = bufRest cap { s with seen := s.seen + 1 } p2 := by
    unfold bufOne
    simp only
    rw [if_neg (by omega)]
  rw [hstep]
  have hlen : b.length ≤ p0.data.length := by rw [← f1, List.length_append]; omega
  rw [List.length_append] at hr2
  obtain ⟨c', b', _, _, g3, _, g5⟩ := bufRest_good (cap := cap) (s := { s with seen := s.seen + 1 })
    f2.fd f2.buf f2.small f2.fine p2 (fun hx => by have := (f2.parts _ hx).2; omega) (by omega)
  exact ⟨g3, by rw [g5 hl2, f1]⟩

/-- Two parts on a disk with just enough room; the second one without. -/
example : run receive { path := some [9] } [⟨0, [1, 2], none, true, false, true, 2⟩, ⟨1, [3], some true, true, true, true, 1⟩] =
    ({ seen := 2, parts := [1, 0], fd := .closed, bytesWrit := 3, path := some [1, 2, 3] }, .ok) ∧
  (run receive { path := some [9] } [⟨0, [1, 2], none, true, false, true, 2⟩, ⟨1, [3], some true, true, true, true, 0⟩]).1.path =
    some [9] := by decide

/-- With a buffer of two bytes: the first part goes past it, the third one does not fit. -/
example : (run (bufOne 2) { path := none } [⟨0, [1, 2, 3], none, true, false, true, 9⟩, ⟨1, [4], none, true, false, true, 9⟩,
    ⟨2, [5, 6, 7, 8], none, true, true, true, 9⟩]).1.path = some [1, 2, 3, 4, 5, 6, 7, 8] := by decide

example : firstGood ⟨0, [1, 2], none, true, false, true, 2⟩ := by unfold firstGood; decide

end Verif.ToDisk
