import Verif.Spec.FindLeader

/-! Lemmas for C140. -/

namespace Verif.FindLeader

theorem put_ne_nil (k : String) (v) (l) : put k v l ≠ [] := by
  cases l with
  | nil => simp [put]
  | cons e l => unfold put; split <;> simp

theorem highest_one {l : List (String × (String × Int × Int))} (h : l ≠ []) : (highest l).length = 1 := by
  unfold highest
  split
  · rename_i hl
    have key : ∀ (l : List (String × (String × Int × Int))) (b : String × (String × Int × Int)),
        ∃ c, l.foldl higher (some b) = some c := by
      intro l
      induction l with
      | nil => exact fun b => ⟨b, rfl⟩
      | cons e l ih =>
        intro b
        rw [List.foldl_cons]
        unfold higher
        simp only
        split
        · exact ih e
        · exact ih b
    cases l with
    | nil => exact absurd rfl h
    | cons e l =>
      obtain ⟨c, hc⟩ := key l e
      rw [List.foldl_cons, show higher none e = some e from rfl, hc]
      rfl
  · cases l with
    | nil => exact absurd rfl h
    | cons e l =>
      simp only [List.length_cons] at *
      omega

theorem highest_nil : (highest []).length = 0 := rfl

/-- What an answer of the first loop that is a claim does. -/
theorem ask_claim {me : String} {s : St} {a : Answer} (h : Claims me a) (hm : a.name = me → s.notMe = false) :
    (ask me s a).name = a.name ∧ (ask me s a).url = a.url ∧ (ask me s a).really = true ∧
    (ask me s a).leaders ≠ [] ∧ (ask me s a).notMe = s.notMe := by
  obtain ⟨h1, h2, h3, h4⟩ := h
  have htell : tell me s a = ask me s a := by
    unfold ask
    by_cases hme : a.name = me
    · rw [if_pos hme, if_neg (by simp [h3 hme, h1])]
    · rw [if_neg hme, if_neg (by simpa using h2), if_neg (by simp [h4 hme])]
  rw [← htell]
  unfold tell
  rw [if_neg h1, if_neg (by simpa using h2), if_neg (by
    rintro ⟨h5, h6⟩
    rw [hm (h2 ▸ h5)] at h6
    cases h6)]
  refine ⟨h2, rfl, rfl, ?_, rfl⟩
  simp only
  split
  · exact put_ne_nil _ _ _
  · rename_i hn
    intro hl
    rw [hl] at hn
    simp [newer] at hn

/-- What one that is not does: nothing but note that the own node is not the leader. -/
theorem ask_other {me : String} {s : St} {a : Answer} (h : ¬ Claims me a) :
    ∃ b, ask me s a = { s with notMe := b } ∧ (b = true ↔ s.notMe = true ∨ DeniesMe me a) := by
  unfold ask DeniesMe
  by_cases hme : a.name = me
  · rw [if_pos hme]
    by_cases hc : a.client = true ∨ a.leader = ""
    · rw [if_pos hc]
      refine ⟨true, ?_, by simp [hme, hc]⟩
      unfold tell
      split
      · rfl
      · split
        · rfl
        · rename_i h1 h2
          rw [if_pos ⟨by simp only [ne_eq, Decidable.not_not] at h2; exact h2.trans hme, rfl⟩]
    · rw [if_neg hc]
      refine ⟨s.notMe, ?_, by simp [hc]⟩
      simp only [not_or, Bool.not_eq_true] at hc
      unfold tell
      rw [if_neg hc.2, if_pos]
      intro h2
      exact h ⟨hc.2, h2, fun _ => hc.1, fun hn => absurd hme hn⟩
  · rw [if_neg hme]
    refine ⟨s.notMe, ?_, by simp [hme]⟩
    by_cases hl : a.leader = a.name
    · rw [if_neg (by simpa using hl)]
      by_cases he : a.err = true
      · rw [if_pos he]
      · rw [if_neg he]
        unfold tell
        by_cases h0 : a.leader = ""
        · rw [if_pos h0]
        · exact absurd ⟨h0, hl, fun hm => absurd hm hme, fun _ => by simpa using he⟩ h
    · rw [if_pos hl]

/-- A claim that does not count, as the own node has denied it before. -/
theorem ask_denied {me : String} {s : St} {a : Answer} (h : Claims me a) (hm : a.name = me)
    (hs : s.notMe = true) : ask me s a = s := by
  obtain ⟨h1, h2, h3, h4⟩ := h
  unfold ask
  rw [if_pos hm, if_neg (by simp [h3 hm, h1])]
  unfold tell
  rw [if_neg h1, if_neg (by simpa using h2), if_pos ⟨h2.trans hm, hs⟩]

/-- The first loop: who is named has claimed it. -/
structure Inv (me : String) (asked : List Answer) (s : St) : Prop where
  notMe : s.notMe = true ↔ ∃ a ∈ asked, DeniesMe me a
  really : s.really = true → ∃ a ∈ asked, Claims me a ∧ a.name = s.name ∧ a.url = s.url
  leaders : s.leaders ≠ [] ↔ s.really = true
  blank : s.really = false → s.name = "" ∧ s.url = "" ∧ s.insp = none

theorem claims_not_denies {me : String} {a : Answer} (h : Claims me a) : ¬ DeniesMe me a := by
  rintro ⟨h1, h2 | h2⟩
  · rw [h.2.2.1 h1] at h2; cases h2
  · exact h.1 h2

theorem inv_ask {me : String} {asked : List Answer} {s : St} (h : Inv me asked s) (a : Answer) :
    Inv me (asked ++ [a]) (ask me s a) := by
  obtain ⟨h1, h2, h3, h4⟩ := h
  by_cases hc : Claims me a
  · have hd := claims_not_denies hc
    have hn : (s.notMe = true ↔ ∃ x ∈ asked ++ [a], DeniesMe me x) := by
      rw [h1]
      constructor
      · rintro ⟨x, hx, hx'⟩
        exact ⟨x, by simp [hx], hx'⟩
      · rintro ⟨x, hx, hx'⟩
        rcases List.mem_append.1 hx with hx | hx
        · exact ⟨x, hx, hx'⟩
        · simp only [List.mem_singleton] at hx
          subst hx
          exact absurd hx' hd
    by_cases hm : a.name = me ∧ s.notMe = true
    · rw [ask_denied hc hm.1 hm.2]
      refine ⟨hn, fun hr => ?_, h3, h4⟩
      obtain ⟨x, hx, hx'⟩ := h2 hr
      exact ⟨x, by simp [hx], hx'⟩
    · obtain ⟨e1, e2, e3, e4, e5⟩ := ask_claim (s := s) hc (fun h => by
        simpa using fun h' => hm ⟨h, h'⟩)
      refine ⟨by rw [e5]; exact hn, fun _ => ⟨a, by simp, hc, e1.symm, e2.symm⟩, by simp [e3, e4], ?_⟩
      rw [e3]
      exact fun h => nomatch h
  · obtain ⟨b, e, hb⟩ := ask_other (s := s) hc
    rw [e]
    refine ⟨?_, fun hr => ?_, h3, h4⟩
    · simp only
      rw [hb, h1]
      constructor
      · rintro (⟨x, hx, hx'⟩ | hx)
        · exact ⟨x, by simp [hx], hx'⟩
        · exact ⟨a, by simp, hx⟩
      · rintro ⟨x, hx, hx'⟩
        rcases List.mem_append.1 hx with hx | hx
        · exact .inl ⟨x, hx, hx'⟩
        · simp only [List.mem_singleton] at hx
          subst hx
          exact .inr hx'
    · obtain ⟨x, hx, hx'⟩ := h2 hr
      exact ⟨x, by simp [hx], hx'⟩

theorem inv_foldl {me : String} (l : List Answer) : ∀ {asked : List Answer} {s : St}, Inv me asked s →
    Inv me (asked ++ l) (l.foldl (ask me) s) := by
  induction l with
  | nil => intro asked s h; simpa using h
  | cons a l ih =>
    intro asked s h
    have := ih (inv_ask h a)
    rwa [List.append_assoc] at this

theorem inv_loop (me : String) (l : List Answer) : Inv me l (l.foldl (ask me) {}) := by
  have h : Inv me [] {} := ⟨by simp, (fun h => nomatch h), by simp, fun _ => ⟨rfl, rfl, rfl⟩⟩
  simpa using inv_foldl l h

/-- Answers that are no claims leave all but `notMe`. -/
theorem foldl_others {me : String} (l : List Answer) : ∀ (s : St), (∀ a ∈ l, ¬ Claims me a) →
    ∃ b, l.foldl (ask me) s = { s with notMe := b } := by
  induction l with
  | nil => exact fun s _ => ⟨s.notMe, rfl⟩
  | cons a l ih =>
    intro s h
    obtain ⟨b, e, -⟩ := ask_other (s := s) (h a (by simp))
    obtain ⟨b', e'⟩ := ih (ask me s a) (fun x hx => h x (List.mem_cons_of_mem _ hx))
    rw [List.foldl_cons, e', e]
    exact ⟨b', rfl⟩

/-- The last claim is the one that is kept. -/
theorem loop_last {me : String} (pre post : List Answer) (a : Answer) (hc : Claims me a)
    (hd : ∀ x ∈ pre ++ a :: post, ¬ DeniesMe me x ∨ a.name ≠ me) (hp : ∀ x ∈ post, ¬ Claims me x) :
    ∃ s, (pre ++ a :: post).foldl (ask me) {} = s ∧ s.name = a.name ∧ s.url = a.url ∧
      s.really = true ∧ s.leaders ≠ [] ∧ (s.name = me → s.notMe = false) := by
  refine ⟨_, rfl, ?_⟩
  have hall := inv_loop me (pre ++ a :: post)
  have hpre := inv_loop me pre
  have hm : a.name = me → (pre.foldl (ask me) {}).notMe = false := by
    intro hm
    cases hb : (pre.foldl (ask me) {}).notMe with
    | false => rfl
    | true =>
      obtain ⟨x, hx, hx'⟩ := hpre.notMe.1 hb
      rcases hd x (by simp [hx]) with h | h
      · exact absurd hx' h
      · exact absurd hm h
  obtain ⟨e1, e2, e3, e4, e5⟩ := ask_claim hc hm
  obtain ⟨b, e⟩ := foldl_others post (ask me (pre.foldl (ask me) {}) a) hp
  have hf : (pre ++ a :: post).foldl (ask me) {} =
      { ask me (pre.foldl (ask me) {}) a with notMe := b } := by
    rw [List.foldl_append, List.foldl_cons, e]
  rw [hf]
  refine ⟨e1, e2, e3, e4, ?_⟩
  intro hme
  rw [hf] at hall
  cases hb : b with
  | false => rfl
  | true =>
    obtain ⟨x, hx, hx'⟩ := hall.notMe.1 hb
    rcases hd x hx with h | h
    · exact absurd hx' h
    · exact absurd (e1.symm.trans hme) h

/-- The second loop. -/
theorem extra_names {me : String} {s : St} {x : Answer} (h : Names me x) :
    (askExtra me s x).name = x.leader ∧ (askExtra me s x).url = x.url ∧ (askExtra me s x).really = true ∧
    (askExtra me s x).leaders ≠ [] ∧ (askExtra me s x).notMe = s.notMe ∧ (askExtra me s x).insp = x.insp := by
  obtain ⟨h1, h2, h3, h4⟩ := h
  unfold askExtra
  rw [if_neg h1, if_neg (by simp [h2]), if_neg (by simp [h3]), if_neg h4]
  refine ⟨rfl, rfl, rfl, ?_, rfl, rfl⟩
  simp only
  split
  · simp
  · rename_i hn
    intro hl
    rw [hl] at hn
    simp [newer] at hn

theorem extra_other {me : String} {s : St} {x : Answer} (h : ¬ Names me x) : askExtra me s x = s := by
  unfold askExtra
  by_cases h1 : x.name = me
  · rw [if_pos h1]
  rw [if_neg h1]
  by_cases h2 : x.pending = true
  · rw [if_pos h2]
  rw [if_neg h2]
  by_cases h3 : x.err = true
  · rw [if_pos h3]
  rw [if_neg h3]
  by_cases h4 : x.leader = ""
  · rw [if_pos h4]
  exact absurd ⟨h1, by simpa using h2, by simpa using h3, h4⟩ h

theorem extras_others {me : String} (l : List Answer) (s : St) (h : ∀ x ∈ l, ¬ Names me x) :
    l.foldl (askExtra me) s = s := by
  induction l with
  | nil => rfl
  | cons a l ih =>
    rw [List.foldl_cons, extra_other (h a (by simp))]
    exact ih (fun x hx => h x (List.mem_cons_of_mem _ hx))

theorem extras_notMe {me : String} (l : List Answer) : ∀ (s : St),
    (l.foldl (askExtra me) s).notMe = s.notMe := by
  induction l with
  | nil => exact fun _ => rfl
  | cons a l ih =>
    intro s
    rw [List.foldl_cons, ih]
    by_cases h : Names me a
    · exact (extra_names h).2.2.2.2.1
    · rw [extra_other h]

/-- Either somebody of the second loop named the leader, or the loop changed nothing. -/
theorem extras_loop {me : String} (l : List Answer) : ∀ (s : St),
    (∃ x ∈ l, Names me x ∧ (l.foldl (askExtra me) s).name = x.leader ∧
      (l.foldl (askExtra me) s).url = x.url ∧ (l.foldl (askExtra me) s).really = true ∧
      (l.foldl (askExtra me) s).leaders ≠ []) ∨
    ((∀ x ∈ l, ¬ Names me x) ∧ l.foldl (askExtra me) s = s) := by
  induction l with
  | nil => exact fun s => .inr ⟨fun _ h => absurd h (by simp), rfl⟩
  | cons a l ih =>
    intro s
    rw [List.foldl_cons]
    rcases ih (askExtra me s a) with ⟨x, hx, h⟩ | ⟨h1, h2⟩
    · exact .inl ⟨x, List.mem_cons_of_mem _ hx, h⟩
    · rw [h2]
      by_cases h : Names me a
      · obtain ⟨e1, e2, e3, e4, -⟩ := extra_names (s := s) h
        exact .inl ⟨a, by simp, h, e1, e2, e3, e4⟩
      · rw [extra_other h]
        refine .inr ⟨fun x hx => ?_, rfl⟩
        rcases List.mem_cons.1 hx with rfl | hx
        · exact h
        · exact h1 x hx

theorem finish_one {me initial contact : String} {only : Bool} {addr : String → String} {s : St}
    (h : s.leaders ≠ []) :
    finish me initial contact only addr s =
      if contact ≠ "" ∧ s.name ≠ contact ∧ only = true then none
      else some (deferred me s.notMe ⟨s.url, s.name, s.insp, s.really, false⟩) := by
  unfold finish
  rw [if_pos (highest_one h)]

theorem finish_none {me initial contact : String} {only : Bool} {addr : String → String} {s : St}
    (h : s.leaders = []) :
    finish me initial contact only addr s =
      if contact = "" then
        if initial = "" then some (deferred me s.notMe ⟨s.url, s.name, s.insp, s.really, true⟩)
        else some (deferred me s.notMe ⟨addr initial, initial, s.insp, s.really, false⟩)
      else some (deferred me s.notMe ⟨addr contact, contact, s.insp, s.really, false⟩) := by
  unfold finish
  rw [h, if_neg (by decide)]

theorem deferred_really {me : String} {b : Bool} {r : Result} (h : (deferred me b r).really = true) :
    deferred me b r = r ∧ ¬ (r.name = me ∧ b = true) := by
  unfold deferred at h ⊢
  split at h
  · cases h
  · rename_i hn
    exact ⟨by rw [if_neg hn], hn⟩

end Verif.FindLeader
