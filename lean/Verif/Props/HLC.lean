import Verif.Proofs.HLC
/-
Properties C08 (clock never goes backwards) and C09 (happened-before).
-/
namespace Verif.HLC
open Spec

/-- C08. One clock, any number of goroutines, any interleaving of the loads and
compare-and-swaps of their retry loops, any physical readings (backward jumps
included), any starting value and any received timestamps, as long as these
leave room in the int64 (`B` bounds them; one unit per step is enough room; in
nanoseconds the range ends in the year 2262). Then the timestamps handed out are
strictly increasing in the order they are handed out, all are above the starting
value, and each is at least the physical reading it was made from.
`results` is newest first, hence the reversed comparison. -/
theorem C08_clock_never_goes_backwards (start B : Int) (loaded : Nat → Int) (l : List Step)
    (hs : -2^63 ≤ start ∧ start ≤ B)
    (hl : ∀ st ∈ l, match st with
      | .load _ => True
      | .cas _ pt .event => -2^63 ≤ pt ∧ pt + 65535 ≤ B
      | .cas _ pt (.recv m) => (-2^63 ≤ pt ∧ pt + 65535 ≤ B) ∧ -2^63 ≤ m ∧ m ≤ B)
    (hroom : B + l.length < 2^63) :
    let out := (run { clock := start, loaded := loaded, results := [] } l).results
    out.Pairwise (fun newer older => older.1 < newer.1) ∧
    (∀ t ∈ out, start < t.1) ∧ (∀ t ∈ out, t.2 ≤ t.1) := by
  have h0 : Inv start B 0 { clock := start, loaded := loaded, results := [] } := by
    refine ⟨hs.1, by simp, by simp; exact hs.2, ?_, ?_, ?_, ?_⟩ <;> simp
  have := inv_run start B l 0 _ h0 (by
    intro st hst
    have := hl st hst
    cases st with
    | load i => trivial
    | cas i pt r =>
      cases r with
      | event => exact ⟨this.1, this.2, trivial⟩
      | recv m => exact ⟨this.1.1, this.1.2, this.2.1, this.2.2⟩) (by simpa using hroom)
  exact ⟨this.sorted, this.gt, this.phys⟩

/-- C08, the receipt rule: a receipt's timestamp is above the message's and above
the local clock. -/
theorem C08_receive_exceeds_both (B j m pt : Int) (hB : B < 2^63 - 1)
    (hj : -2^63 ≤ j ∧ j ≤ B) (hm : -2^63 ≤ m ∧ m ≤ B) (hp : -2^63 ≤ pt ∧ pt + 65535 ≤ B) :
    j < receive j m pt ∧ m < receive j m pt ∧ pt ≤ receive j m pt := by
  have := receive_spec B j m pt hB hj.1 hj.2 hm.1 hm.2 hp.1 hp.2
  exact ⟨this.1, this.2.1, this.2.2.1⟩

-- Two goroutines, a lost race, a backward physical jump, counter overflow into the upper bits.
example : (run { clock := 65535, loaded := fun _ => 0, results := [] }
    [.load 0, .load 1, .cas 1 5 .event, .cas 0 7 .event, .load 0, .cas 0 (-3) (.recv 131071)]).results =
    [(131072, -3), (65536, 5)] := by decide

/-- The room condition is needed: a single received message stamped with the
largest int64 makes the clock jump to the smallest one. -/
theorem C08_overflow_goes_backwards_counterexample :
    receive 0 (2^63 - 1) 0 < 0 := by decide

/-- C09. In every distributed execution (any number of nodes, any events, any
physical clocks; messages are received after being sent), if event i happened
before event j then i's timestamp is smaller. Same room condition as C08. -/
theorem C09_happened_before_implies_smaller (evs : List Ev) (clocks : Nat → Int) (B : Int)
    (hcaus : Causal evs) (hc : ∀ n, -2^63 ≤ clocks n ∧ clocks n ≤ B)
    (hpt : ∀ e ∈ evs, -2^63 ≤ e.pt ∧ e.pt + 65535 ≤ B) (hroom : B + evs.length < 2^63)
    (i j : Nat) (hij : HappenedBefore evs i j) :
    ∃ t u, (stamp clocks [] evs)[i]? = some t ∧ (stamp clocks [] evs)[j]? = some u ∧ t < u := by
  have h0 : DInv B evs clocks [] := by
    refine ⟨fun n => (hc n).1, fun n => by simpa using (hc n).2, ?_, ?_, ?_, ?_, ?_⟩ <;> simp
  obtain ⟨_, h⟩ := stamp_inv B evs hcaus hpt hroom evs [] clocks [] rfl rfl h0
  have hlen : (stamp clocks [] evs).length = evs.length := by simp [stamp_length]
  have get : ∀ (k : Nat) (a : Ev), evs[k]? = some a → ∃ t, (stamp clocks [] evs)[k]? = some t := by
    intro k a hk
    have : k < evs.length := by
      rcases Nat.lt_or_ge k evs.length with h | h
      · exact h
      · rw [List.getElem?_eq_none h] at hk; simp at hk
    exact ⟨_, List.getElem?_eq_getElem (by omega)⟩
  induction hij with
  | sameNode ha hb hlt hn =>
    obtain ⟨t, ht⟩ := get _ _ ha
    obtain ⟨u, hu⟩ := get _ _ hb
    exact ⟨t, u, ht, hu, h.same _ _ _ _ t u ha hb ht hu hlt hn⟩
  | @message i j b hb hf =>
    obtain ⟨u, hu⟩ := get _ _ hb
    have hlt := hcaus _ _ _ hb hf
    have hjl : j < evs.length := by
      rcases Nat.lt_or_ge j evs.length with h | h
      · exact h
      · rw [List.getElem?_eq_none h] at hb; simp at hb
    have ht : (stamp clocks [] evs)[i]? = some (stamp clocks [] evs)[i] :=
      List.getElem?_eq_getElem (by omega)
    exact ⟨_, u, ht, hu, h.msg _ _ _ _ u hb hf ht hu⟩
  | trans _ _ ih1 ih2 =>
    obtain ⟨t, u, h1, h2, h3⟩ := ih1
    obtain ⟨u', v, h4, h5, h6⟩ := ih2
    rw [h2] at h4
    simp only [Option.some.injEq] at h4
    subst h4
    exact ⟨t, v, h1, h5, by omega⟩

-- Node 1's physical clock is far behind; the receipt still gets the larger stamp.
example : stamp (fun _ => 0) [] [⟨0, 100000, none⟩, ⟨1, 5, some 0⟩, ⟨1, 3, none⟩] =
    [131072, 131073, 131074] := by decide

example : HappenedBefore [⟨0, 100000, none⟩, ⟨1, 5, some 0⟩, ⟨1, 3, none⟩] 0 2 :=
  .trans (.message (j := 1) rfl rfl) (.sameNode (i := 1) rfl rfl (by decide) rfl)

end Verif.HLC
