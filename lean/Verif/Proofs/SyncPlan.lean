import Verif.Proofs.Sync
import Verif.Proofs.CDCSpans

set_option linter.unusedVariables false
set_option linter.unusedSectionVars false

namespace Verif.Sync

open Verif.CDC

variable {δ : Type} [DecidableEq δ]

theorem describes_map {hash : Bytes → δ} {f : Chunk δ → Chunk δ}
    (hf : ∀ c, (f c).beg = c.beg ∧ (f c).endx = c.endx ∧ (f c).cry = c.cry) (cs : List (Chunk δ)) :
    ∀ off bytes, Describes hash off bytes cs → Describes hash off bytes (cs.map f) := by
  induction cs with
  | nil => intro off bytes h; exact h
  | cons c cs ih =>
    intro off bytes h
    obtain ⟨h1, h2, h3, h4, h5⟩ := h
    obtain ⟨e1, e2, e3⟩ := hf c
    refine ⟨by rw [e1]; exact h1, by rw [e2]; exact h2, by rw [e2]; exact h3, ?_, ?_⟩
    · rw [e3, e2]; exact h4
    · rw [e2]; exact ih _ _ h5

theorem mapM_some {α β : Type} (f : α → Option β) (g : α → β) (l : List α)
    (h : ∀ a ∈ l, f a = some (g a)) : l.mapM f = some (l.map g) := by
  induction l with
  | nil => rfl
  | cons a l ih =>
    rw [List.mapM_cons, h a (List.mem_cons_self ..),
      ih (fun b hb => h b (List.mem_cons_of_mem _ hb))]
    rfl

/-- The chunk as it arrives: with its contents when the other side lacks them. -/
def arrives (updateme : List (Chunk δ)) (goal : Bytes) (c : Chunk δ) : Chunk δ :=
  match c.cry with
  | .digest d =>
    if hasCry updateme (.digest d) then { c with data := [] }
    else { c with data := content goal c }
  | _ => { c with data := [] }

theorem arrives_fields (updateme : List (Chunk δ)) (goal : Bytes) (c : Chunk δ) :
    (arrives updateme goal c).beg = c.beg ∧ (arrives updateme goal c).endx = c.endx ∧
      (arrives updateme goal c).cry = c.cry := by
  unfold arrives
  split
  · split <;> exact ⟨rfl, rfl, rfl⟩
  · exact ⟨rfl, rfl, rfl⟩

theorem fill_hold {updateme : List (Chunk δ)} {goal : Bytes} {c : Chunk δ} (hb : c.beg < c.endx)
    (he : c.endx ≤ goal.length) (hd : c.data = []) :
    fillChunk goal (holdChunk updateme c) = some (arrives updateme goal c) := by
  unfold holdChunk arrives
  cases hc : c.cry with
  | rle0 => simp [fillChunk, hd, hc]
  | unwrit => simp [fillChunk, hd, hc]
  | digest d =>
    dsimp only
    split
    · simp [fillChunk, hd, hc]
    · unfold fillChunk readRange content
      simp only [mark, List.isEmpty_cons, Bool.false_eq_true, if_false]
      rw [if_neg (by simp), if_pos (by omega)]
      rfl

theorem planHold_eq {updateme : List (Chunk δ)} {goal : Chunks δ}
    (h : ∀ c ∈ goal.chunks, c.data = []) :
    planHold updateme goal = some { goal with chunks := goal.chunks.map (holdChunk updateme) } := by
  unfold planHold
  rw [if_pos]
  rw [List.all_eq_true]
  intro c hc
  rw [h c hc]
  rfl

/-- A chunk that is not sent can be had from the old file. -/
theorem onDisk_arrives {hash : Bytes → δ} {goal loc : Bytes} {goalCs localCs : List (Chunk δ)}
    {orig : Option Bytes} {bufLen : Nat}
    (hg : Describes hash 0 goal goalCs) (hl : Describes hash 0 loc localCs)
    (hnc : NoCollision hash goal goalCs loc localCs)
    (horig : orig = some loc ∨ localCs = [])
    (hbuf : ∀ l ∈ localCs, Hashed l → l.endx - l.beg ≤ bufLen) :
    ∀ c ∈ goalCs, OnDisk orig bufLen (cryMap localCs) goal
      (arrives (localCs.map fun l => { l with data := [] }) goal c) := by
  intro c hc
  have hf := arrives_fields (localCs.map fun l => { l with data := [] }) goal c
  unfold OnDisk
  rw [hf.2.2]
  have hcont : content goal (arrives (localCs.map fun l => { l with data := [] }) goal c)
      = content goal c := by unfold content; rw [hf.1, hf.2.1]
  cases hcry : c.cry with
  | rle0 => simp [arrives, hcry]
  | unwrit => simp [arrives, hcry]
  | digest d =>
    dsimp only
    rw [hcont]
    by_cases hh : hasCry localCs (.digest d) = true
    · right
      obtain ⟨l, hl1, hl2, hl3⟩ := cryMap_some (hasCry_iff.1 hh)
      have hml := describes_mem localCs [] loc hl l hl1
      have hmg := describes_mem goalCs [] goal hg c hc
      rw [List.nil_append, hl2] at hml
      rw [List.nil_append, hcry] at hmg
      have heq := hnc c hc l hl1 (by rw [← hml.2.2, ← hmg.2.2])
      have ho : orig = some loc := by
        rcases horig with h | h
        · exact h
        · rw [h] at hl1; cases hl1
      refine ⟨?_, loc, l, ho, hl3, hml.1, hml.2.1, hbuf l hl1 ⟨d, hl2⟩, heq.symm⟩
      simp only [arrives, hcry, hasCry_strip, hh, if_true]
    · left
      simp only [arrives, hcry, hasCry_strip, hh, if_false, Bool.false_eq_true]

/-! ## In memory -/

theorem dataChunk_eq {blobs : Cry δ → Option (Chunk δ)} {updateme : List (Chunk δ)} {goal : Bytes}
    {c : Chunk δ} (hb : c.beg < c.endx) (he : c.endx ≤ goal.length)
    (h : Hashed c → c.data = content goal c ∨
      (c.data = [] ∧ ∃ b, blobs c.cry = some b ∧ b.data = content goal c)) :
    dataChunk blobs updateme c = some (arrives updateme goal c) := by
  have hne : content goal c ≠ [] := by
    intro h0
    have := congrArg List.length h0
    unfold content at this
    rw [List.length_drop, List.length_take] at this
    simp at this
    omega
  unfold dataChunk arrives
  cases hc : c.cry with
  | rle0 => rfl
  | unwrit => rfl
  | digest d =>
    dsimp only
    split
    · rfl
    · rcases h ⟨d, hc⟩ with h1 | ⟨h1, b, h2, h3⟩
      · rw [if_neg (by rw [h1]; simpa using hne)]
        rw [← h1, ← hc]
      · rw [if_pos (by rw [h1]; rfl)]
        rw [hc] at h2
        rw [h2]
        dsimp only
        rw [if_neg (by rw [h3]; simpa using hne), h3, ← hc]

theorem atHand_arrives {hash : Bytes → δ} {goal loc : Bytes} {goalCs localCs : List (Chunk δ)}
    (hg : Describes hash 0 goal goalCs) (hl : Describes hash 0 loc localCs)
    (hnc : NoCollision hash goal goalCs loc localCs)
    (hfull : ∀ l ∈ localCs, Hashed l → l.data = content loc l) :
    ∀ c ∈ goalCs, AtHand (cryMap localCs) goal
      (arrives (localCs.map fun l => { l with data := [] }) goal c) := by
  intro c hc
  have hf := arrives_fields (localCs.map fun l => { l with data := [] }) goal c
  rintro ⟨d, hcry⟩
  rw [hf.2.2] at hcry ⊢
  have hcont : content goal (arrives (localCs.map fun l => { l with data := [] }) goal c)
      = content goal c := by unfold content; rw [hf.1, hf.2.1]
  rw [hcont, hcry]
  by_cases hh : hasCry localCs (.digest d) = true
  · right
    obtain ⟨l, hl1, hl2, hl3⟩ := cryMap_some (hasCry_iff.1 hh)
    have hml := describes_mem localCs [] loc hl l hl1
    have hmg := describes_mem goalCs [] goal hg c hc
    rw [List.nil_append, hl2] at hml
    rw [List.nil_append, hcry] at hmg
    have heq := hnc c hc l hl1 (by rw [← hml.2.2, ← hmg.2.2])
    have hdat := hfull l hl1 ⟨d, hl2⟩
    refine ⟨?_, l, hl3, by rw [hdat, heq], ?_⟩
    · simp only [arrives, hcry, hasCry_strip, hh, if_true]
    · rw [hdat]
      unfold content
      rw [List.length_drop, List.length_take]
      omega
  · left
    simp only [arrives, hcry, hasCry_strip, hh, if_false, Bool.false_eq_true]

/-! ## The chunk lists that the chunker makes -/

theorem summarize_filled (hash : Bytes → δ) (file : Bytes) (cuts : List Cut) : ∀ prev,
    ∀ c ∈ summarize hash file true prev cuts, Hashed c → c.data = content file c := by
  induction cuts with
  | nil => intro prev c hc; cases hc
  | cons k cuts ih =>
    intro prev c hc hh
    unfold summarize at hc
    split at hc
    · rcases List.mem_cons.1 hc with rfl | hc
      · obtain ⟨d, h⟩ := hh; cases h
      · exact ih _ c hc hh
    · split at hc
      · split at hc
        · cases hc
        · rcases List.mem_cons.1 hc with rfl | hc
          · obtain ⟨d, h⟩ := hh; cases h
          · exact ih _ c hc hh
      · rcases List.mem_cons.1 hc with rfl | hc
        · rfl
        · exact ih _ c hc hh

theorem summarize_nodata (hash : Bytes → δ) (file : Bytes) (cuts : List Cut) : ∀ prev,
    ∀ c ∈ summarize hash file false prev cuts, c.data = [] := by
  induction cuts with
  | nil => intro prev c hc; cases hc
  | cons k cuts ih =>
    intro prev c hc
    unfold summarize at hc
    split at hc
    · rcases List.mem_cons.1 hc with rfl | hc
      · rfl
      · exact ih _ c hc
    · split at hc
      · split at hc
        · cases hc
        · rcases List.mem_cons.1 hc with rfl | hc
          · rfl
          · exact ih _ c hc
      · rcases List.mem_cons.1 hc with rfl | hc
        · rfl
        · exact ih _ c hc

theorem summarize_written (hash : Bytes → δ) (file : Bytes) (keep : Bool) (cuts : List Cut) : ∀ prev,
    (∀ k ∈ cuts, k.unwrit = false) → ∀ c ∈ summarize hash file keep prev cuts, c.cry ≠ .unwrit := by
  induction cuts with
  | nil => intro prev _ c hc; cases hc
  | cons k cuts ih =>
    intro prev hk c hc
    have ih := ih k.pos (fun x hx => hk x (List.mem_cons_of_mem _ hx))
    unfold summarize at hc
    rw [hk k (List.mem_cons_self ..)] at hc
    split at hc
    · rcases List.mem_cons.1 hc with rfl | hc
      · simp
      · exact ih c hc
    · rw [if_neg (by simp)] at hc
      rcases List.mem_cons.1 hc with rfl | hc
      · simp
      · exact ih c hc

/-! ## Nothing but the goal -/

theorem hashed_write (s : TakerState) (b : Bytes) :
    (s.write b).hashed.length = s.hashed.length + b.length := by
  simp [TakerState.write]

theorem hashed_wing {s s' : TakerState} {w : Option Numeric.SparseSpan} (h : s.wing w = some s') :
    s.hashed.length ≤ s'.hashed.length := by
  unfold TakerState.wing at h
  split at h
  · cases h; exact Nat.le_refl _
  · split at h
    · cases h; rw [hashed_write]; omega
    · cases h

theorem hashed_hole {s s' : TakerState} {w : Option Numeric.SparseSpan} (h : s.hole w = some s') :
    s.hashed.length ≤ s'.hashed.length := by
  unfold TakerState.hole at h
  split at h
  · cases h; exact Nat.le_refl _
  · split at h
    · cases h
    · cases h; dsimp only; rw [List.length_append]; omega

/-- What a run of zeros adds to the hash. -/
theorem hashed_zeros {s s' : TakerState} {beg endx : Nat} (hlt : beg < endx)
    {span : Option Numeric.SparseSpan} {wings : Option Numeric.Wings}
    (ha : Numeric.alignedSparseSpan beg endx = some (span, wings))
    (h : ((s.wing (wings.bind (·.pre))).bind (·.hole span)).bind (·.wing (wings.bind (·.post)))
      = some s') :
    s'.hashed.length = s.hashed.length + (endx - beg) ∧
      (endx - beg ≤ 4096 ∨ ∃ sp w, Numeric.alignedSparseSpan beg endx = some (some sp, w)) := by
  have hwing : ∀ (t t' : TakerState) (a b : Nat), t.wing (some ⟨a, b⟩) = some t' →
      t'.hashed.length = t.hashed.length + (b - a) ∧ b - a ≤ 4096 := by
    intro t t' a b ht
    unfold TakerState.wing at ht
    dsimp only at ht
    split at ht
    · next hle =>
      cases ht
      refine ⟨?_, hle⟩
      rw [hashed_write, zeros_length]
    · cases ht
  rw [Option.bind_eq_some_iff] at h
  obtain ⟨u, hu, h⟩ := h
  rw [Option.bind_eq_some_iff] at hu
  obtain ⟨t, ht, hu⟩ := hu
  rcases aligned_cases beg endx hlt with hb | ⟨a, b, w, hb, h1, h2, h3, h4, h5, h6⟩
  · rw [hb] at ha
    cases ha
    have e1 := hwing _ _ _ _ ht
    have e2 : u = t := by simp [TakerState.hole] at hu; exact hu.symm
    have e3 : s' = u := by simp [TakerState.wing] at h; exact h.symm
    rw [e3, e2]
    exact ⟨e1.1, .inl e1.2⟩
  · rw [hb] at ha
    cases ha
    refine ⟨?_, .inr ⟨_, _, hb⟩⟩
    have e1 : t.hashed.length = s.hashed.length + (a - beg) := by
      rcases h5 with ⟨e, e'⟩ | ⟨e, e'⟩
      · rw [e] at ht; simp [TakerState.wing] at ht; rw [ht]; omega
      · rw [e] at ht; exact (hwing _ _ _ _ ht).1
    have e2 : u.hashed.length = t.hashed.length + (b - a) := by
      simp only [TakerState.hole] at hu
      rw [if_neg (by omega)] at hu
      cases hu
      dsimp only
      rw [List.length_append, zeros_length]
    have e3 : s'.hashed.length = u.hashed.length + (endx - b) := by
      rcases h6 with ⟨e, e'⟩ | ⟨e, e'⟩
      · rw [e] at h; simp [TakerState.wing] at h; rw [h]; omega
      · rw [e] at h; exact (hwing _ _ _ _ h).1
    omega

theorem takerLoop_safe {orig : Option Bytes} {bufLen : Nat} {lm : Cry δ → Option (Chunk δ)}
    {size : Nat} (cs : List (Chunk δ)) : ∀ (off : Nat) (s s' : TakerState),
    Follow off cs → (∀ c ∈ cs, Faithful lm c) → s.hashed.length = off →
    (size < s.hashed.length ∨ TInv s s.hashed (size - s.hashed.length)) →
    takerLoop orig bufLen lm s cs = some s' →
    (size < s'.hashed.length ∨ TInv s' s'.hashed (size - s'.hashed.length)) := by
  induction cs with
  | nil =>
    intro off s s' _ _ _ hi h
    simp only [takerLoop, Option.some.injEq] at h
    subst h
    exact hi
  | cons c cs ih =>
    intro off s s' hfo hfa hoff hi h
    obtain ⟨h1, h2, h3⟩ := hfo
    have hf := hfa c (List.mem_cons_self ..)
    simp only [takerLoop] at h
    cases hc : takerChunk orig bufLen lm s c with
    | none => rw [hc] at h; cases h
    | some s1 =>
      rw [hc] at h
      dsimp only at h
      have key : s1.hashed.length = c.endx ∧
          (size < s1.hashed.length ∨ TInv s1 s1.hashed (size - s1.hashed.length)) := by
        have hw : ∀ b : Bytes, b.length = c.endx - c.beg → s1 = s.write b →
            s1.hashed.length = c.endx ∧
            (size < s1.hashed.length ∨ TInv s1 s1.hashed (size - s1.hashed.length)) := by
          intro b hb e
          have hlen := hashed_write s b
          rw [← e] at hlen
          refine ⟨by omega, ?_⟩
          rcases hi with hi | hi
          · left; omega
          · right
            have := hi.write b
            rw [← e] at this
            have e1 : s1.hashed = s.hashed ++ b := by rw [e]; rfl
            rw [e1] at hlen ⊢
            have e2 : size - (s.hashed ++ b).length = size - s.hashed.length - b.length := by
              rw [hlen]; omega
            rw [e2]
            exact this
        unfold takerChunk at hc
        split at hc
        · next hem =>
          have hdat : c.data = [] := by simpa using hem
          cases hcry : c.cry with
          | unwrit => exact absurd hcry hf.2.1
          | rle0 =>
            rw [hcry] at hc
            dsimp only at hc
            cases ha : Numeric.alignedSparseSpan c.beg c.endx with
            | none => rw [ha] at hc; cases hc
            | some p =>
              obtain ⟨span, wings⟩ := p
              rw [ha] at hc
              dsimp only at hc
              obtain ⟨e1, e2⟩ := hashed_zeros h2 ha hc
              refine ⟨by omega, ?_⟩
              by_cases hov : size < s1.hashed.length
              · exact .inl hov
              · right
                have hin : TInv s s.hashed (size - s.hashed.length) := by
                  rcases hi with hi | hi
                  · omega
                  · exact hi
                obtain ⟨sp', w', s2, g1, g2, g3⟩ := hin.zerosChunk (by omega : c.beg = s.hashed.length)
                  h2 (by omega) e2
                rw [ha] at g1
                cases g1
                rw [hc] at g2
                cases g2
                have e3 : s1.hashed = s.hashed ++ zeros (c.endx - c.beg) := g3.hashed
                rw [← e3] at g3
                rw [show size - s1.hashed.length = size - s.hashed.length - (c.endx - c.beg) by
                  omega]
                exact g3
          | digest d =>
            rw [hcry] at hc
            dsimp only at hc
            cases hlm : lm (.digest d) with
            | none => rw [hlm] at hc; cases hc
            | some lc =>
              rw [hlm] at hc
              dsimp only at hc
              have hlen := hf.2.2 lc hdat (by rw [hcry]; exact hlm)
              split at hc
              · cases hc
              · next b _ =>
                split at hc
                · next hb =>
                  cases hc
                  exact hw b (by omega) rfl
                · cases hc
        · split at hc
          · next hb =>
            cases hc
            exact hw c.data hb rfl
          · cases hc
      exact ih c.endx s1 s' h3 (fun x hx => hfa x (List.mem_cons_of_mem _ hx)) key.1 key.2 h

/-! ## The chunks asked for -/

theorem holdChunk_data {updateme : List (Chunk δ)} {c : Chunk δ} (hd : c.data = []) :
    (holdChunk updateme c).data ≠ [] ↔ Hashed c ∧ ∀ u ∈ updateme, u.cry ≠ c.cry := by
  unfold holdChunk Hashed
  cases hc : c.cry with
  | rle0 => simp [hd]
  | unwrit => simp [hd]
  | digest d =>
    dsimp only
    by_cases hh : hasCry updateme (.digest d) = true
    · rw [if_pos hh]
      obtain ⟨u, hu, he⟩ := hasCry_iff.1 hh
      constructor
      · intro h; exact absurd hd h
      · rintro ⟨_, h⟩; exact absurd he (h u hu)
    · rw [if_neg hh]
      constructor
      · intro _
        refine ⟨⟨d, rfl⟩, ?_⟩
        intro u hu he
        exact hh (hasCry_iff.2 ⟨u, hu, he⟩)
      · intro _; simp [mark]

theorem diffLoop_mem (k : Cry δ) : ∀ (cs : List (Chunk δ)) (A B C : List (Cry δ)),
    (cs.map (·.cry)).Nodup →
    (k ∈ (diffLoop A B C cs).1 ↔ k ∈ A ∧ k ∉ cs.map (·.cry)) ∧
    (k ∈ (diffLoop A B C cs).2.1 ↔ k ∈ B ∨ (k ∈ cs.map (·.cry) ∧ k ∉ A)) ∧
    (k ∈ (diffLoop A B C cs).2.2 ↔ k ∈ C ∨ (k ∈ cs.map (·.cry) ∧ k ∈ A)) := by
  intro cs
  induction cs with
  | nil => intro A B C _; simp [diffLoop]
  | cons c cs ih =>
    intro A B C h
    rw [List.map_cons, List.nodup_cons] at h
    rw [diffLoop, List.map_cons]
    split
    · next hm =>
      have := ih (A.filter (· ≠ c.cry)) B (C.insert c.cry) h.2
      simp only [List.mem_filter, List.mem_insert_iff] at this
      simp only [List.mem_cons]
      grind
    · next hm =>
      have := ih A (B.insert c.cry) C h.2
      simp only [List.mem_insert_iff] at this
      simp only [List.mem_cons]
      grind

end Verif.Sync
