import Verif.Proofs.ReqChunks
/-
Properties C134 and C135: a taker's list of chunks gets to the giver, also when it takes more than one message.
-/
namespace Verif.ReqChunks

/-- C134, the part that holds: every chunk fits into a message, the request with the first `K` chunks is not too large, and neither is the
whole of it if there are no more than `K`. Then a finite number of messages is sent, the same however long one waits; the giver goes on
with the whole list; no message is too large; exactly the last one is marked.
Missing: the other requests, and circuits that end in between. -/
theorem C134_whole_partial (K limit max base : Nat) (cs : List Chunk) (hc : Contig cs) (hs : ∀ c ∈ cs, c.size < max)
    (hk : base + total (cs.take K) ≤ limit) (hb : K < cs.length ∨ base + total cs ≤ limit) :
    ∃ r ms, (∀ rounds, cs.length ≤ rounds → pull K limit max base rounds cs = some (r, ms)) ∧
      giver r.first r.more (ms.map .msg) = .goesOn cs ∧ base + total r.first ≤ limit ∧ (∀ m ∈ ms, total m.chunks < max) ∧
      (ms = [] ∨ Marked ms) ∧ Numbered 0 ms := by
  by_cases h : K < cs.length
  · have hd : cs.drop K ≠ [] := by
      intro e
      have := congrArg List.length e
      simp at this
      omega
    have hsp : split K limit base cs = some ⟨cs.take K, true, cs.drop K⟩ := by
      unfold split
      rw [if_pos (Or.inl h), if_neg (by omega), if_neg (by omega)]
    have hmem : ∀ c ∈ cs.drop K, c.size < max := fun c hm => hs c (List.mem_of_mem_drop hm)
    have hlen : (cs.drop K).length ≤ cs.length := by simp
    obtain ⟨a1, a2, a3, a4, _⟩ := sends_spec max _ (cs.drop K).length (cs.drop K) rfl hd (Nat.le_refl _) hmem 0
    refine ⟨⟨cs.take K, true, cs.drop K⟩, sends max (cs.drop K).length 0 (cs.drop K), ?_, ?_, hk, fun m hm => (a4 m hm).1, Or.inr a1, a2⟩
    · intro rounds hr
      unfold pull
      rw [hsp]
      have he : (cs.drop K).isEmpty = false := by
        cases hq : cs.drop K with
        | nil => exact absurd hq hd
        | cons _ _ => rfl
      simp only [if_true, limited, he, Bool.false_eq_true, if_false, Option.map_some]
      rw [(sends_spec max _ rounds (cs.drop K) rfl hd (by omega) hmem 0).2.2.2.2]
    · show collect (cs.take K) _ = _
      have e : cs.take K ++ (sends max (cs.drop K).length 0 (cs.drop K)).flatMap Msg.chunks = cs := by
        rw [a3, List.take_append_drop]
      rw [collect_marked _ _ a1 (fun m hm => (a4 m hm).2) (by rw [e]; exact hc), e]
  · have hb' : base + total cs ≤ limit := hb.resolve_left h
    refine ⟨⟨cs, false, []⟩, [], ?_, rfl, hb', fun m hm => (nomatch hm), Or.inl rfl, trivial⟩
    intro rounds _
    unfold pull split
    rw [if_neg (by omega)]
    rfl

/-- The same with the numbers of the code, K = 5000 and 1_190_000 bytes: chunks without contents take some 90 bytes (with the usual
constants of msgp, which is not in /repo) and their hash, so that 230 is ample, and 40000 bytes are left for names. The encoded lists have at most `head` bytes besides the chunks and stay within the
1_200_000 bytes of a payload. -/
theorem C134_pull_partial (base head : Nat) (cs : List Chunk) (hc : Contig cs) (hs : ∀ c ∈ cs, c.size ≤ 230) (hb : base ≤ 40000)
    (hh : head ≤ 10000) :
    ∃ r ms, (∀ rounds, cs.length ≤ rounds → pull 5000 1190000 1190000 base rounds cs = some (r, ms)) ∧
      giver r.first r.more (ms.map .msg) = .goesOn cs ∧ base + total r.first ≤ 1200000 ∧ ∀ m ∈ ms, head + total m.chunks ≤ 1200000 := by
  have h1 := total_take_le 5000 230 cs hs
  have h2 : 5000 < cs.length ∨ base + total cs ≤ 1190000 := by
    by_cases h : 5000 < cs.length
    · exact Or.inl h
    · rw [List.take_of_length_le (by omega)] at h1
      exact Or.inr (by omega)
  obtain ⟨r, ms, a1, a2, a3, a4, _⟩ := C134_whole_partial 5000 1190000 1190000 base cs hc
    (fun c hm => by have := hs c hm; omega) (by omega) h2
  exact ⟨r, ms, a1, a2, by omega, fun m hm => by have := a4 m hm; omega⟩

/-- The other two places (taker.go:293-309 and 1077-1092), where the first message has none of the chunks. -/
theorem C134_packs_partial (max : Nat) (cs : List Chunk) (hne : cs ≠ []) (hc : Contig cs) (hs : ∀ c ∈ cs, c.size < max) :
    ∃ ms, (∀ rounds, cs.length ≤ rounds → limited max rounds cs = some ms) ∧ collect [] (ms.map .msg) = .goesOn cs ∧
      (∀ m ∈ ms, total m.chunks < max) ∧ Marked ms ∧ Numbered 0 ms := by
  obtain ⟨a1, a2, a3, a4, _⟩ := sends_spec max _ cs.length cs rfl hne (Nat.le_refl _) hs 0
  refine ⟨sends max cs.length 0 cs, ?_, ?_, fun m hm => (a4 m hm).1, a1, a2⟩
  · intro rounds hr
    have he : cs.isEmpty = false := by
      cases cs with
      | nil => exact absurd rfl hne
      | cons _ _ => rfl
    simp only [limited, he, Bool.false_eq_true, if_false]
    rw [(sends_spec max _ rounds cs rfl hne hr hs 0).2.2.2.2]
  · rw [collect_marked _ _ a1 (fun m hm => (a4 m hm).2) (by rw [a3]; exact hc), a3]
    rfl

/-- Five chunks, two in the first message, room for two in a pack. -/
def sampleChunks : List Chunk := [⟨0, 10, 1, 4⟩, ⟨10, 30, 2, 4⟩, ⟨30, 35, 3, 4⟩, ⟨35, 40, 1, 4⟩, ⟨40, 50, 4, 4⟩]

example : Contig sampleChunks ∧ (∀ c ∈ sampleChunks, c.size < 9) ∧ 3 + total (sampleChunks.take 2) ≤ 20 ∧
    (pull 2 20 9 3 5 sampleChunks).map (fun p => p.2) =
      some [⟨false, 0, [⟨30, 35, 3, 4⟩, ⟨35, 40, 1, 4⟩]⟩, ⟨true, 2, [⟨40, 50, 4, 4⟩]⟩] := by
  refine ⟨?_, by decide, by decide, by decide⟩
  simp [sampleChunks, Contig]

/-- C134 fails, first case: no more than `K` chunks in a request that is too large. The code then splits at `K` all the same, and panics. -/
theorem C134_few_chunks_counterexample (K limit max base rounds : Nat) (cs : List Chunk) (h : cs.length ≤ K)
    (hb : limit < base + total cs) : pull K limit max base rounds cs = none := by
  unfold pull split
  rw [if_pos (Or.inr hb)]
  by_cases h1 : cs.length < K
  · rw [if_pos h1]
  · rw [if_neg h1]
    by_cases h2 : base + total (cs.take K) > limit
    · rw [if_pos h2]
    · rw [if_neg h2, show cs.drop K = [] from List.drop_eq_nil_of_le h]
      rfl

/-- Second case: a chunk that is too large for a message. The loop sends messages without end, none of them the last, and the giver waits. -/
theorem C134_endless_counterexample (max : Nat) (cs : List Chunk) (h : ∃ c ∈ cs, max ≤ c.size) (rounds : Nat) :
    ∃ ms, limited max rounds cs = some ms ∧ ms.length = rounds ∧ ∃ l, collect [] (ms.map .msg) = .waiting l := by
  have he : cs.isEmpty = false := by
    cases cs with
    | nil => obtain ⟨c, hc, _⟩ := h; cases hc
    | cons _ _ => rfl
  obtain ⟨h1, h2⟩ := sends_endless max rounds 0 cs h
  refine ⟨sends max rounds 0 cs, by simp [limited, he], h1, ?_⟩
  have := collect_more _ h2 [] []
  rw [List.append_nil] at this
  exact ⟨_, this⟩

/-- Third case: the circuit ends after some of the messages. The giver goes on with the part of the list that it has, and sees no error. -/
theorem C134_cut_counterexample (first : List Chunk) (ms : List Msg) (h : ∀ m ∈ ms, m.last = false) (l : List Ev) :
    giver first true (ms.map .msg ++ .stop :: l) = .goesOn (first ++ ms.flatMap Msg.chunks) := by
  show collect first _ = _
  rw [collect_more ms h]
  rfl

/-- The third case in the sample: the first pack arrives, the second does not. -/
example : giver (sampleChunks.take 2) true [.msg ⟨false, 0, [⟨30, 35, 3, 4⟩, ⟨35, 40, 1, 4⟩]⟩, .stop] =
    .goesOn (sampleChunks.take 4) := by decide

/-! ## C135 -/

/-- C135, the part that holds: what the last message begins with must follow on what is there. For any messages, if the giver goes on after
the last one, either nothing was there before it, or the two lists meet. Missing: the same for all other messages. -/
theorem C135_last_follows_partial (acc : List Chunk) (ms : List Msg) (h : ∀ m ∈ ms, m.last = false) (m : Msg) (hm : m.last = true)
    (l : List Ev) (res : List Chunk) :
    collect acc (ms.map .msg ++ .msg m :: l) = .goesOn res ↔
      res = acc ++ ms.flatMap Msg.chunks ++ m.chunks ∧ (acc ++ ms.flatMap Msg.chunks = [] ∨
        ∃ a b, (acc ++ ms.flatMap Msg.chunks).getLast? = some a ∧ m.chunks.head? = some b ∧ a.endx = b.beg) := by
  rw [collect_more ms h]
  generalize acc ++ ms.flatMap Msg.chunks = acc
  simp only [collect, hm, if_true, takeLast]
  cases hg : acc.getLast? with
  | none =>
    have : acc = [] := List.getLast?_eq_none_iff.1 hg
    subst this
    simp [eq_comm]
  | some a =>
    have hne : acc ≠ [] := by
      intro e
      subst e
      cases hg
    cases hc : m.chunks with
    | nil => simp [hne]
    | cons b t =>
      by_cases hab : a.endx = b.beg
      · simp [hab, eq_comm]
      · simp [hab, hne]

/-- So a message that is lost just before the last one is noticed, if there is one before it. -/
theorem C135_before_last_partial (acc : List Chunk) (ms : List Msg) (h : ∀ m ∈ ms, m.last = false) (p m : Msg) (hm : m.last = true)
    (hc : Contig (acc ++ ms.flatMap Msg.chunks ++ p.chunks ++ m.chunks)) (hp : p.chunks ≠ []) (hpos : ∀ c ∈ p.chunks, c.beg < c.endx)
    (hne : acc ++ ms.flatMap Msg.chunks ≠ []) (l : List Ev) : collect acc (ms.map .msg ++ .msg m :: l) = .panic := by
  have grow : ∀ (l : List Chunk), Contig l → (∀ c ∈ l, c.beg < c.endx) → ∀ x y, l.head? = some x → l.getLast? = some y → x.beg < y.endx := by
    intro l
    induction l with
    | nil => intro _ _ x y hx; cases hx
    | cons u l ih =>
      intro h1 h2 x y hx hy
      simp only [List.head?_cons, Option.some.injEq] at hx
      subst hx
      cases l with
      | nil =>
        simp at hy
        subst hy
        exact h2 _ List.mem_cons_self
      | cons v l =>
        have := ih h1.2 (fun c hc => h2 c (List.mem_cons_of_mem _ hc)) v y rfl (by simpa [List.getLast?_cons_cons] using hy)
        have := h2 u List.mem_cons_self
        have := h1.1
        omega
  have contig_left : ∀ (a b : List Chunk), Contig (a ++ b) → Contig a := by
    intro a
    induction a with
    | nil => intro b _; trivial
    | cons u a ih =>
      intro b hab
      cases a with
      | nil => trivial
      | cons v a => exact ⟨hab.1, ih b hab.2⟩
  rw [collect_more ms h]
  generalize hA : acc ++ ms.flatMap Msg.chunks = A at *
  simp only [collect, hm, if_true, takeLast]
  cases hg : A.getLast? with
  | none => exact absurd (List.getLast?_eq_none_iff.1 hg) hne
  | some a =>
    cases hmc : m.chunks with
    | nil => rfl
    | cons b t =>
      cases hh : p.chunks.head? with
      | none => exact absurd (List.head?_eq_none_iff.1 hh) hp
      | some x =>
        cases hy : p.chunks.getLast? with
        | none => exact absurd (List.getLast?_eq_none_iff.1 hy) hp
        | some y =>
          have e1 : a.endx = x.beg := contig_meet (contig_left _ _ hc) hg hh
          rw [List.append_assoc] at hc
          have e2 : y.endx = b.beg := contig_meet (contig_append hc) hy (by rw [hmc]; rfl)
          have e3 := grow p.chunks (contig_left _ _ (contig_append hc)) hpos x y hh hy
          have : a.endx ≠ b.beg := by omega
          simp [this]

example : collect (sampleChunks.take 2) [.msg ⟨true, 2, [⟨40, 50, 4, 4⟩]⟩] = .panic := by decide

/-- C135 fails: a message that is lost earlier is not noticed, whatever was in it. -/
theorem C135_lost_earlier_counterexample (acc a c d : List Chunk) (x y : Chunk) (hc : c.getLast? = some x) (hd : d.head? = some y)
    (hxy : x.endx = y.beg) (i j k : Nat) :
    collect acc [.msg ⟨false, i, a⟩, .msg ⟨false, j, c⟩, .msg ⟨true, k, d⟩] = .goesOn (acc ++ a ++ c ++ d) := by
  cases d with
  | nil => cases hd
  | cons b t =>
    simp only [List.head?_cons, Option.some.injEq] at hd
    subst hd
    have hl : (acc ++ a ++ c).getLast? = some x := by
      rw [List.getLast?_append, hc]
      rfl
    simp only [collect, Bool.false_eq_true, if_false, if_true, takeLast, hl, hxy, ne_eq, not_true_eq_false]

/-- Nor are messages that are exchanged, or the loss of all but the last where the first message has no chunks. The numbers in the messages,
which are there "to let the reader verify they are reading properly in sync", are not looked at. -/
theorem C135_exchanged_counterexample :
    collect [] [.msg ⟨false, 1, [⟨10, 20, 2, 4⟩]⟩, .msg ⟨false, 0, [⟨0, 10, 1, 4⟩]⟩, .msg ⟨false, 2, [⟨20, 30, 3, 4⟩]⟩,
      .msg ⟨true, 3, [⟨30, 40, 4, 4⟩]⟩] = .goesOn [⟨10, 20, 2, 4⟩, ⟨0, 10, 1, 4⟩, ⟨20, 30, 3, 4⟩, ⟨30, 40, 4, 4⟩] ∧
    collect [] [.msg ⟨true, 3, [⟨30, 40, 4, 4⟩]⟩] = .goesOn [⟨30, 40, 4, 4⟩] := by
  decide

end Verif.ReqChunks
