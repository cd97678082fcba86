import Verif.Spec.Pump
/-
Bookkeeping for C106, apart from the pump: a queue of messages, a table of circuits with what was
delivered on each, and the fragment in the pump's hand.
-/
namespace Verif.Pump

open Verif.Frag

/-- One row of the table. -/
structure Entry where
  id : Str
  canc : Bool
  del : List Fragment
  born : Nat

/-- What a list of messages carries for an id adds up over appends. -/
structure Carries (f : Str → List Message → List Fragment) : Prop where
  nil : ∀ id, f id [] = []
  app : ∀ id a b, f id (a ++ b) = f id a ++ f id b

theorem carries_sentTo : Carries sentTo :=
  ⟨fun _ => rfl, fun id a b => by simp [sentTo, List.filter_append]⟩

theorem carries_errorsTo : Carries errorsTo :=
  ⟨fun _ => rfl, fun id a b => by simp [errorsTo, List.filter_append]⟩

/-- Nothing is missing on open circuits, and nothing out of order on closed ones. -/
def Flow (f : Str → List Message → List Fragment) (arr queue : List Message)
    (tbl : Nat → Option Entry) (hand : Nat → List Fragment) : Prop :=
  ∃ used, arr = used ++ queue ∧ ∀ c e, tbl c = some e →
    ∃ n, n ≤ e.born ∧ n ≤ used.length ∧ e.del <+: f e.id (used.drop n) ∧
      (e.canc = false → e.del ++ hand c = f e.id (used.drop n))

variable {f : Str → List Message → List Fragment} {arr queue : List Message}
  {tbl tbl' : Nat → Option Entry} {hand hand' : Nat → List Fragment}

theorem Flow.arrive (h : Flow f arr queue tbl hand) (m : Message) :
    Flow f (arr ++ [m]) (queue ++ [m]) tbl hand := by
  obtain ⟨used, h1, h2⟩ := h
  exact ⟨used, by rw [h1, List.append_assoc], h2⟩

/-- Changes that take no message from the queue: rows may be closed, and what is in hand may be
delivered. -/
theorem Flow.change (h : Flow f arr queue tbl hand)
    (hc : ∀ c e', tbl' c = some e' → ∃ e, tbl c = some e ∧ e'.id = e.id ∧ e'.born = e.born ∧
      (e'.del = e.del ∨ (e.canc = false ∧ e'.del = e.del ++ hand c)) ∧
      (e'.canc = false → e.canc = false ∧ e'.del ++ hand' c = e.del ++ hand c)) :
    Flow f arr queue tbl' hand' := by
  obtain ⟨used, h1, h2⟩ := h
  refine ⟨used, h1, fun c e' he' => ?_⟩
  obtain ⟨e, he, hid, hb, hd, ho⟩ := hc c e' he'
  obtain ⟨n, hn1, hn2, hp, heq⟩ := h2 c e he
  refine ⟨n, by rw [hb]; exact hn1, hn2, ?_, fun hf => ?_⟩
  · rw [hid]
    rcases hd with hd | ⟨hcf, hd⟩
    · rw [hd]; exact hp
    · rw [hd, heq hcf]; exact List.prefix_refl _
  · obtain ⟨h3, h4⟩ := ho hf
    rw [hid, h4]; exact heq h3

/-- The pump takes a message; with nothing in hand before, what it has in hand now for each open
circuit is what the message carries for it. -/
theorem Flow.take (hf : Carries f) {m : Message} {rest : List Message}
    (h : Flow f arr (m :: rest) tbl (fun _ => []))
    (hh : ∀ c e, tbl c = some e → e.canc = false → hand c = f e.id [m]) :
    Flow f arr rest tbl hand := by
  obtain ⟨used, h1, h2⟩ := h
  refine ⟨used ++ [m], by rw [h1]; simp, fun c e he => ?_⟩
  obtain ⟨n, hn1, hn2, hp, heq⟩ := h2 c e he
  have hdrop : (used ++ [m]).drop n = used.drop n ++ [m] := by
    rw [List.drop_append_of_le_length hn2]
  refine ⟨n, hn1, by simp; omega, ?_, fun hc => ?_⟩
  · rw [hdrop, hf.app]; exact hp.trans (List.prefix_append _ _)
  · have := heq hc
    rw [List.append_nil] at this
    rw [hdrop, hf.app, hh c e he hc, this]

/-- A new circuit. -/
theorem Flow.tell (hf : Carries f) (h : Flow f arr queue tbl hand) {c0 : Nat} {e0 : Entry}
    (hd : e0.del = []) (hb : e0.born = arr.length) (hh : hand c0 = [])
    (ht : ∀ c e, tbl' c = some e → tbl c = some e ∨ (c = c0 ∧ e = e0)) :
    Flow f arr queue tbl' hand := by
  obtain ⟨used, h1, h2⟩ := h
  refine ⟨used, h1, fun c e he => ?_⟩
  rcases ht c e he with h3 | ⟨rfl, rfl⟩
  · exact h2 c e h3
  · refine ⟨used.length, by rw [hb, h1]; simp, Nat.le_refl _, ?_, fun _ => ?_⟩
    · rw [hd]; exact List.nil_prefix
    · rw [hd, hh, List.drop_length, hf.nil]; rfl

/-- What was delivered, in order, whatever is lost in between. -/
def Sub (f : Str → List Message → List Fragment) (arr queue : List Message)
    (tbl : Nat → Option Entry) (hand : Nat → List Fragment) : Prop :=
  ∃ used, (used ++ queue).Sublist arr ∧ ∀ c e, tbl c = some e →
    (e.del ++ hand c).Sublist (f e.id used)

theorem Sub.arrive (h : Sub f arr queue tbl hand) (m : Message) :
    Sub f (arr ++ [m]) (queue ++ [m]) tbl hand := by
  obtain ⟨used, h1, h2⟩ := h
  refine ⟨used, ?_, h2⟩
  rw [← List.append_assoc]
  exact h1.append (List.Sublist.refl _)

theorem Sub.drop (h : Sub f arr queue tbl hand) (m : Message) :
    Sub f (arr ++ [m]) queue tbl hand := by
  obtain ⟨used, h1, h2⟩ := h
  exact ⟨used, h1.trans (List.sublist_append_left _ _), h2⟩

theorem Sub.change (h : Sub f arr queue tbl hand)
    (hc : ∀ c e', tbl' c = some e' → ∃ e, tbl c = some e ∧ e'.id = e.id ∧
      (e'.del ++ hand' c).Sublist (e.del ++ hand c)) :
    Sub f arr queue tbl' hand' := by
  obtain ⟨used, h1, h2⟩ := h
  refine ⟨used, h1, fun c e' he' => ?_⟩
  obtain ⟨e, he, hid, hs⟩ := hc c e' he'
  rw [hid]; exact hs.trans (h2 c e he)

theorem Sub.take (hf : Carries f) {m : Message} {rest : List Message}
    (h : Sub f arr (m :: rest) tbl (fun _ => []))
    (hh : ∀ c e, tbl c = some e → (hand c).Sublist (f e.id [m])) :
    Sub f arr rest tbl hand := by
  obtain ⟨used, h1, h2⟩ := h
  refine ⟨used ++ [m], by simpa using h1, fun c e he => ?_⟩
  have := h2 c e he
  rw [List.append_nil] at this
  rw [hf.app]; exact this.append (hh c e he)

theorem Sub.tell (h : Sub f arr queue tbl hand) {c0 : Nat} {e0 : Entry}
    (hd : e0.del = []) (hh : hand c0 = [])
    (ht : ∀ c e, tbl' c = some e → tbl c = some e ∨ (c = c0 ∧ e = e0)) :
    Sub f arr queue tbl' hand := by
  obtain ⟨used, h1, h2⟩ := h
  refine ⟨used, h1, fun c e he => ?_⟩
  rcases ht c e he with h3 | ⟨rfl, rfl⟩
  · exact h2 c e h3
  · rw [hd, hh]; exact List.nil_sublist _

end Verif.Pump
