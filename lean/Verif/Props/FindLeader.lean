import Verif.Proofs.FindLeader

/-! C140: looking for the leader. -/

namespace Verif.FindLeader

variable (me initial contact : String) (only : Bool) (addr : String → String)

/-- Whoever is returned as really the leader was named by an answer without an error: by itself, or
by a node that is not configured; and it is not the own node if that denies it. -/
theorem C140_somebody_said (answers extras : List Answer) (r : Result)
    (h : find me initial contact only addr answers extras = some r) (hr : r.really = true) :
    ((∃ a ∈ answers, Claims me a ∧ a.name = r.name ∧ a.url = r.url) ∨
      ∃ x ∈ extras, Names me x ∧ x.leader = r.name ∧ x.url = r.url) ∧
    r.name ≠ "" ∧ r.err = false ∧ (r.name = me → ∀ a ∈ answers, ¬ DeniesMe me a) ∧
    (only = true → contact ≠ "" → r.name = contact) := by
  have inv := inv_loop me answers
  have hnm := extras_notMe (me := me) extras (answers.foldl (ask me) {})
  unfold find at h
  revert h
  generalize hs : extras.foldl (askExtra me) (answers.foldl (ask me) {}) = s at *
  intro h
  have hdeny : s.notMe = true ↔ ∃ a ∈ answers, DeniesMe me a := by rw [hnm]; exact inv.notMe
  have key : s.leaders ≠ [] → ((∃ a ∈ answers, Claims me a ∧ a.name = s.name ∧ a.url = s.url) ∨
      ∃ x ∈ extras, Names me x ∧ x.leader = s.name ∧ x.url = s.url) ∧ s.name ≠ "" := by
    intro hl
    rcases extras_loop (me := me) extras (answers.foldl (ask me) {}) with ⟨x, hx, h1, h2, h3, -⟩ | ⟨-, h1⟩
    · rw [hs] at h2 h3
      exact ⟨.inr ⟨x, hx, h1, h2.symm, h3.symm⟩, by rw [h2]; exact h1.2.2.2⟩
    · rw [hs] at h1
      rw [← h1] at inv
      obtain ⟨a, ha, hc, h2, h3⟩ := inv.really (inv.leaders.1 hl)
      exact ⟨.inl ⟨a, ha, hc, h2, h3⟩, by rw [← h2, ← hc.2.1]; exact hc.1⟩
  by_cases hl : s.leaders = []
  · have hreal : s.really = false := by
      rcases extras_loop (me := me) extras (answers.foldl (ask me) {}) with ⟨x, hx, h1, h2, h3, -, h4⟩ | ⟨-, h1⟩
      · rw [hs] at h4
        exact absurd hl h4
      · rw [hs] at h1
        rw [← h1] at inv
        simpa using fun hh => inv.leaders.2 hh hl
    rw [finish_none hl] at h
    exfalso
    repeat (split at h)
    all_goals
      cases h
      have := deferred_really hr
      rw [this.1] at hr
      simp [hreal] at hr
  · rw [finish_one hl] at h
    split at h
    · cases h
    · rename_i hn
      cases h
      obtain ⟨e, hd⟩ := deferred_really hr
      rw [e]
      refine ⟨(key hl).1, (key hl).2, rfl, ?_, ?_⟩
      · intro hme a ha hda
        exact hd ⟨hme, hdeny.2 ⟨a, ha, hda⟩⟩
      · intro h1 h2
        exact Decidable.byContradiction fun h3 => hn ⟨h2, h3, h1⟩

/-- A node is returned as really the leader only if it said so itself. Partial: no other than the
configured nodes are asked (`C140_hearsay_counterexample`). -/
theorem C140_self_report_partial (answers : List Answer) (r : Result)
    (h : find me initial contact only addr answers [] = some r) (hr : r.really = true) :
    ∃ a ∈ answers, Claims me a ∧ a.name = r.name ∧ a.url = r.url := by
  rcases (C140_somebody_said me initial contact only addr answers [] r h hr).1 with h | ⟨x, hx, -⟩
  · exact h
  · cases hx

/-- If one configured node takes itself for the leader, it is returned, in whatever order the nodes
are asked; unless another one must be contacted, then the process exits. Partial: no two nodes that
take themselves for the leader (`C140_order_counterexample`), nobody else who names one. -/
theorem C140_single_leader_partial (answers extras : List Answer) (a : Answer) (ha : a ∈ answers)
    (hc : Claims me a) (hone : ∀ x ∈ answers, x ≠ a → ¬ Claims me x)
    (hself : ∀ x ∈ answers, x.name = a.name → x = a) (hx : ∀ x ∈ extras, ¬ Names me x) :
    (contact ≠ "" ∧ a.name ≠ contact ∧ only = true →
      find me initial contact only addr answers extras = none) ∧
    (¬ (contact ≠ "" ∧ a.name ≠ contact ∧ only = true) →
      ∃ i, find me initial contact only addr answers extras = some ⟨a.url, a.name, i, true, false⟩) := by
  have hlast : ∃ pre post, answers = pre ++ a :: post ∧ a ∉ post := by
    clear hone hself
    induction answers with
    | nil => cases ha
    | cons x l ih =>
      by_cases hl : a ∈ l
      · obtain ⟨pre, post, h1, h2⟩ := ih hl
        exact ⟨x :: pre, post, by rw [h1]; rfl, h2⟩
      · rcases List.mem_cons.1 ha with rfl | h
        · exact ⟨[], l, rfl, hl⟩
        · exact absurd h hl
  obtain ⟨pre, post, rfl, hpost⟩ := hlast
  obtain ⟨s, hs, h1, h2, h3, h4, h5⟩ := loop_last pre post a hc (by
    intro x hx
    by_cases hm : a.name = me
    · refine .inl (fun hd => ?_)
      have := hself x hx (hd.1.trans hm.symm)
      subst this
      exact claims_not_denies hc hd
    · exact .inr hm) (by
    intro x hx
    exact hone x (by simp [hx]) (fun h => hpost (h ▸ hx)))
  unfold find
  rw [hs, extras_others extras s hx, finish_one h4, h1, h2, h3]
  constructor
  · intro h
    rw [if_pos h]
  · intro h
    rw [if_neg h]
    refine ⟨s.insp, ?_⟩
    unfold deferred
    rw [if_neg]
    rintro ⟨g1, g2⟩
    rw [h5 (h1.trans g1)] at g2
    cases g2

/-- If nobody names a leader: the node to contact, or else the configured one, with its address, or
else an error; never said to be really the leader. Instead of the own node's name nothing, when it
denies that it is the leader. -/
theorem C140_none (answers extras : List Answer) (ha : ∀ a ∈ answers, ¬ Claims me a)
    (hx : ∀ x ∈ extras, ¬ Names me x) :
    ∃ r, find me initial contact only addr answers extras = some r ∧ r.really = false ∧ r.insp = none ∧
      (r.err = true ↔ contact = "" ∧ initial = "") ∧
      (r.err = true → r.name = "" ∧ r.url = "") ∧
      (r.err = false → ∀ n, n = (if contact = "" then initial else contact) →
        (n = me → ∀ a ∈ answers, ¬ DeniesMe me a) → r.name = n ∧ r.url = addr n) ∧
      (r.err = false → (if contact = "" then initial else contact) = me → (∃ a ∈ answers, DeniesMe me a) →
        r.name = "" ∧ r.url = "") := by
  have inv := inv_loop me answers
  unfold find
  rw [extras_others extras _ hx]
  generalize answers.foldl (ask me) {} = s at *
  have hreal : s.really = false := by
    cases h : s.really with
    | false => rfl
    | true =>
      obtain ⟨a, h1, h2, -⟩ := inv.really h
      exact absurd h2 (ha a h1)
  have hl : s.leaders = [] := by
    refine Decidable.byContradiction fun h => ?_
    rw [inv.leaders.1 h] at hreal
    cases hreal
  obtain ⟨b1, b2, b3⟩ := inv.blank hreal
  rw [finish_none hl]
  have hd := inv.notMe
  by_cases hcn : contact = ""
  · by_cases hin : initial = ""
    · rw [if_pos hcn, if_pos hin]
      refine ⟨_, rfl, ?_⟩
      rw [b1, b2, b3, hreal]
      unfold deferred
      split <;> simp [hcn, hin]
    · rw [if_pos hcn, if_neg hin]
      refine ⟨_, rfl, ?_⟩
      rw [b3, hreal]
      unfold deferred
      split
      · rename_i hq
        simp only [hcn, hin, if_true]
        simp only at hq
        refine ⟨trivial, trivial, by simp, by simp, fun _ n hn hh => ?_, fun _ _ _ => by simp⟩
        obtain ⟨a, ha1, ha2⟩ := hd.1 hq.2
        exact absurd ha2 (hh (hn.trans hq.1) a ha1)
      · rename_i hq
        simp only at hq
        simp only [hcn, hin, if_true]
        refine ⟨trivial, trivial, by simp, by simp, fun _ n hn _ => by rw [hn]; exact ⟨rfl, rfl⟩, fun _ h1 h2 => ?_⟩
        exact absurd ⟨h1, hd.2 h2⟩ hq
  · rw [if_neg hcn]
    refine ⟨_, rfl, ?_⟩
    rw [b3, hreal]
    unfold deferred
    split
    · rename_i hq
      simp only at hq
      simp only [hcn, if_false]
      refine ⟨trivial, trivial, by simp, by simp, fun _ n hn hh => ?_, fun _ _ _ => by simp⟩
      obtain ⟨a, ha1, ha2⟩ := hd.1 hq.2
      exact absurd ha2 (hh (hn.trans hq.1) a ha1)
    · rename_i hq
      simp only at hq
      simp only [hcn, if_false]
      refine ⟨trivial, trivial, by simp, by simp, fun _ n hn _ => by rw [hn]; exact ⟨rfl, rfl⟩, fun _ h1 h2 => ?_⟩
      exact absurd ⟨h1, hd.2 h2⟩ hq

/-- When two nodes take themselves for the leader, the one asked last is returned, whatever the
terms: the reduction to the highest term has no effect on what is returned. -/
theorem C140_order_counterexample (a b : Answer) (ha : Claims me a) (hb : Claims me b)
    (hne : a.name ≠ b.name) :
    (∃ i, find me initial "" only addr [a, b] [] = some ⟨b.url, b.name, i, true, false⟩) ∧
    (∃ i, find me initial "" only addr [b, a] [] = some ⟨a.url, a.name, i, true, false⟩) := by
  have key : ∀ a b : Answer, Claims me a → Claims me b →
      ∃ i, find me initial "" only addr [a, b] [] = some ⟨b.url, b.name, i, true, false⟩ := by
    intro a b ha hb
    obtain ⟨s, hs, h1, h2, h3, h4, h5⟩ := loop_last (me := me) [a] [] b hb (by
      intro x hx
      simp only [List.cons_append, List.nil_append, List.mem_cons, List.not_mem_nil, or_false] at hx
      rcases hx with rfl | rfl
      · exact .inl (claims_not_denies ha)
      · exact .inl (claims_not_denies hb)) (by simp)
    unfold find
    rw [show ([a, b] : List Answer) = [a] ++ b :: [] from rfl, hs]
    simp only [List.foldl_nil]
    rw [finish_one h4, h1, h2, h3, if_neg (by simp)]
    refine ⟨s.insp, ?_⟩
    unfold deferred
    rw [if_neg]
    rintro ⟨g1, g2⟩
    rw [h5 (h1.trans g1)] at g2
    cases g2
  exact ⟨key a b ha hb, key b a hb ha⟩

/-- The process exits although the node that must be contacted takes itself for the leader, if
another one does too and is asked later. -/
theorem C140_exit_counterexample (a b : Answer) (ha : Claims me a) (hb : Claims me b)
    (hne : a.name ≠ b.name) :
    find me initial a.name true addr [a, b] [] = none ∧
    ∃ i, find me initial a.name true addr [b, a] [] = some ⟨a.url, a.name, i, true, false⟩ := by
  have hloop : ∀ a b : Answer, Claims me a → Claims me b →
      ∃ s, [a, b].foldl (ask me) {} = s ∧ s.name = b.name ∧ s.url = b.url ∧
      s.really = true ∧ s.leaders ≠ [] ∧ (s.name = me → s.notMe = false) := by
    intro a b ha hb
    exact loop_last (me := me) [a] [] b hb (by
      intro x hx
      simp only [List.cons_append, List.nil_append, List.mem_cons, List.not_mem_nil, or_false] at hx
      rcases hx with rfl | rfl
      · exact .inl (claims_not_denies ha)
      · exact .inl (claims_not_denies hb)) (by simp)
  have ha0 : a.name ≠ "" := by rw [← ha.2.1]; exact ha.1
  constructor
  · obtain ⟨s, hs, h1, h2, h3, h4, h5⟩ := hloop a b ha hb
    unfold find
    rw [hs]
    simp only [List.foldl_nil]
    rw [finish_one h4, h1, if_pos ⟨ha0, fun h => hne h.symm, rfl⟩]
  · obtain ⟨s, hs, h1, h2, h3, h4, h5⟩ := hloop b a hb ha
    unfold find
    rw [hs]
    simp only [List.foldl_nil]
    rw [finish_one h4, h1, h2, h3, if_neg (by simp)]
    refine ⟨s.insp, ?_⟩
    unfold deferred
    rw [if_neg]
    rintro ⟨g1, g2⟩
    rw [h5 (h1.trans g1)] at g2
    cases g2

/-- What a node that is not configured says of another node is believed, over everything that
configured nodes say of themselves, whatever the terms. -/
theorem C140_hearsay_counterexample (answers extras : List Answer) (x : Answer) (hx : Names me x)
    (hme : x.leader ≠ me) :
    find me initial "" only addr answers (extras ++ [x]) = some ⟨x.url, x.leader, x.insp, true, false⟩ := by
  unfold find
  rw [List.foldl_append, List.foldl_cons, List.foldl_nil]
  obtain ⟨e1, e2, e3, e4, e5, e6⟩ :=
    extra_names (s := extras.foldl (askExtra me) (answers.foldl (ask me) {})) hx
  rw [finish_one e4, e1, e2, e3, e6, if_neg (by simp)]
  unfold deferred
  rw [if_neg (fun h => hme h.1)]

/-- A leader of term 9 and an old one of term 3; a client; a node that is not configured. -/
def exA : Answer := { name := "a", leader := "a", url := "ua", insp := some (40, 9) }
def exB : Answer := { name := "b", leader := "b", url := "ub", insp := some (12, 3) }
def exC : Answer := { name := "c", leader := "a", url := "ua" }
def exMe : Answer := { name := "me", leader := "", client := true }
def exX : Answer := { name := "x", leader := "b", url := "ub", insp := some (11, 3) }

/-- The old leader, in two ways. -/
example : find "me" "" "" false id [exMe, exA, exC, exB] [] = some ⟨"ub", "b", some (12, 3), true, false⟩ ∧
    find "me" "" "" false id [exMe, exA, exC] [exX] = some ⟨"ub", "b", some (11, 3), true, false⟩ ∧
    find "me" "" "" false id [exC, exA, exMe] [] = some ⟨"ua", "a", some (40, 9), true, false⟩ ∧
    find "me" "" "" false id [exC, exMe] [] = some ⟨"", "", none, false, true⟩ ∧
    find "me" "me" "" false id [exC, exMe] [] = some ⟨"", "", none, false, false⟩ ∧
    find "me" "c" "" false id [exC, exMe] [] = some ⟨"c", "c", none, false, false⟩ := by decide

/-- The hypotheses of the theorems above. -/
example : Claims "me" exA ∧ Claims "me" exB ∧ ¬ Claims "me" exC ∧ ¬ Claims "me" exMe ∧
    DeniesMe "me" exMe ∧ Names "me" exX ∧ exX.leader ≠ "me" ∧
    (∀ x ∈ [exC, exA, exMe], x ≠ exA → ¬ Claims "me" x) ∧
    (∀ x ∈ [exC, exA, exMe], x.name = exA.name → x = exA) := by
  refine ⟨⟨by decide, by decide, by decide, by decide⟩, ⟨by decide, by decide, by decide, by decide⟩,
    fun h => absurd h.2.1 (by decide), fun h => absurd h.1 (by decide), ⟨by decide, by decide⟩,
    ⟨by decide, by decide, by decide, by decide⟩, by decide, ?_, by decide⟩
  intro x hx hne
  simp only [List.mem_cons, List.not_mem_nil, or_false] at hx
  rcases hx with rfl | rfl | rfl
  · exact fun h => absurd h.2.1 (by decide)
  · exact absurd rfl hne
  · exact fun h => absurd h.1 (by decide)

end Verif.FindLeader
