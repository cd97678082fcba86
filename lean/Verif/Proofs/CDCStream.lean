import Verif.Proofs.CDC

set_option linter.unusedVariables false

namespace Verif.CDC

variable {δ : Type}

theorem allZero_append (p q : Bytes) : allZero (p ++ q) = (allZero p && allZero q) := by
  simp [allZero]

/-! ## Adding chunks one after the other -/

/-- Adding consecutive pieces, the first at `off`. -/
def addAll (hash : Bytes → δ) : List (Chunk δ) → Nat → List Bytes → List (Chunk δ)
  | cs, _, [] => cs
  | cs, off, p :: ps => addAll hash (addChunk hash cs p off) (off + p.length) ps

theorem joinZeros_cons (p : Bytes) (ps : List Bytes) :
    ∃ r rs, joinZeros (p :: ps) = r :: rs ∧ allZero r = allZero p := by
  simp only [joinZeros]
  cases hj : joinZeros ps with
  | nil => exact ⟨p, [], rfl, rfl⟩
  | cons q qs =>
    dsimp only
    by_cases h : allZero p = true ∧ allZero q = true
    · rw [if_pos h]
      exact ⟨_, _, rfl, by rw [allZero_append, h.1, h.2]; rfl⟩
    · rw [if_neg h]
      exact ⟨_, _, rfl, rfl⟩

theorem joinZeros_merge (p q : Bytes) (ps : List Bytes) (hp : allZero p = true)
    (hq : allZero q = true) : joinZeros (p :: q :: ps) = joinZeros ((p ++ q) :: ps) := by
  have hpq : allZero (p ++ q) = true := by rw [allZero_append, hp, hq]; rfl
  have step : ∀ (a : Bytes) (l : List Bytes), joinZeros (a :: l) =
      match joinZeros l with
      | [] => [a]
      | q :: qs => if allZero a ∧ allZero q then (a ++ q) :: qs else a :: q :: qs :=
    fun a l => rfl
  rw [step p (q :: ps), step q ps, step (p ++ q) ps]
  cases hj : joinZeros ps with
  | nil => simp [hp, hq]
  | cons r rs =>
    by_cases hr : allZero r = true
    · have hqr : allZero (q ++ r) = true := by rw [allZero_append, hq, hr]; rfl
      simp [hp, hq, hr, hpq, hqr]
    · simp [hp, hq, hr]

theorem joinZeros_split (p q : Bytes) (ps : List Bytes)
    (h : ¬ (allZero p = true ∧ allZero q = true)) :
    joinZeros (p :: q :: ps) = p :: joinZeros (q :: ps) := by
  obtain ⟨r, rs, hr, hz⟩ := joinZeros_cons q ps
  conv => lhs; unfold joinZeros
  rw [hr]
  dsimp only
  rw [if_neg (by rw [hz]; exact h)]

theorem joinZeros_flatten (ps : List Bytes) : (joinZeros ps).flatten = ps.flatten := by
  induction ps with
  | nil => rfl
  | cons p ps ih =>
    simp only [joinZeros, List.flatten_cons, ← ih]
    cases joinZeros ps with
    | nil => simp
    | cons q qs =>
      dsimp only
      split <;> simp

theorem joinZeros_pos (ps : List Bytes) (h : ∀ p ∈ ps, p ≠ []) : ∀ p ∈ joinZeros ps, p ≠ [] := by
  induction ps with
  | nil => intro p hp; cases hp
  | cons p ps ih =>
    have hp := h p (List.mem_cons_self ..)
    have ih := ih (fun q hq => h q (List.mem_cons_of_mem _ hq))
    simp only [joinZeros]
    cases hj : joinZeros ps with
    | nil => intro q hq; simp at hq; rw [hq]; exact hp
    | cons q qs =>
      rw [hj] at ih
      dsimp only
      split
      · intro r hr
        rcases List.mem_cons.1 hr with e | e
        · rw [e]; simp [hp]
        · exact ih r (List.mem_cons_of_mem _ e)
      · intro r hr
        rcases List.mem_cons.1 hr with e | e
        · rw [e]; exact hp
        · exact ih r e

/-- The chunk of one piece. -/
def chunkOf (hash : Bytes → δ) (off : Nat) (p : Bytes) : Chunk δ :=
  ⟨off, off + p.length, if allZero p then .rle0 else .digest (hash p), []⟩

theorem addAll_after (hash : Bytes → δ) (ps : List Bytes) : ∀ (cs : List (Chunk δ)) (off : Nat)
    (p : Bytes), addAll hash (cs ++ [chunkOf hash off p]) (off + p.length) ps
      = cs ++ label hash off (joinZeros (p :: ps)) := by
  induction ps with
  | nil =>
    intro cs off p
    simp [addAll, joinZeros, label, chunkOf]
  | cons q ps ih =>
    intro cs off p
    simp only [addAll]
    by_cases hq : allZero q = true
    · by_cases hp : allZero p = true
      · have e1 : addChunk hash (cs ++ [chunkOf hash off p]) q (off + p.length)
            = cs ++ [chunkOf hash off (p ++ q)] := by
          have hpq : allZero (p ++ q) = true := by rw [allZero_append, hp, hq]; rfl
          simp [addChunk, chunkOf, hp, hq, hpq, Nat.add_assoc]
        have := ih cs off (p ++ q)
        rw [List.length_append, ← Nat.add_assoc] at this
        rw [e1, this, joinZeros_merge p q ps hp hq]
      · have e1 : addChunk hash (cs ++ [chunkOf hash off p]) q (off + p.length)
            = (cs ++ [chunkOf hash off p]) ++ [chunkOf hash (off + p.length) q] := by
          simp [addChunk, chunkOf, hp, hq]
        rw [e1, ih, joinZeros_split p q ps (fun h => hp h.1)]
        simp [label, chunkOf]
    · have e1 : addChunk hash (cs ++ [chunkOf hash off p]) q (off + p.length)
          = (cs ++ [chunkOf hash off p]) ++ [chunkOf hash (off + p.length) q] := by
        simp [addChunk, chunkOf, hq]
      rw [e1, ih, joinZeros_split p q ps (fun h => hq h.2)]
      simp [label, chunkOf]

theorem addAll_nil (hash : Bytes → δ) (off : Nat) (ps : List Bytes) :
    addAll hash [] off ps = label hash off (joinZeros ps) := by
  cases ps with
  | nil => rfl
  | cons p ps =>
    have e : addChunk hash [] p off = [] ++ [chunkOf hash off p] := by
      by_cases hp : allZero p = true <;> simp [addChunk, chunkOf, hp]
    simp only [addAll]
    rw [e, addAll_after]
    rfl

theorem drain_eq (hash : Bytes → δ) {next : Bytes → Nat} (hp : Progress next) :
    ∀ d (cs : List (Chunk δ)) (off : Nat),
      drain hash next cs off d = some (addAll hash cs off (segs next d)) := by
  apply strongLen
  intro d ih cs off
  by_cases hd : d = []
  · subst hd; unfold drain; rw [segs_nil]; simp [addAll]
  · have h2 := hp d hd
    have h3 := List.length_pos_iff.2 hd
    unfold drain
    rw [if_neg (by omega), dif_pos h2, ih _ (by rw [List.length_drop]; omega), segs_cons hp hd]
    simp only [addAll, List.length_take, Nat.min_eq_left h2.2]

theorem oneByOneLoop_eq (hash : Bytes → δ) {next : Bytes → Nat} {m bufsz : Nat}
    (hp : Progress next) (hl : LocalTo m next) (hm : m ≤ bufsz) (hb : 0 < bufsz) :
    ∀ (k : Nat) (data rest : Bytes) (cs : List (Chunk δ)) (off : Nat),
      data.length + 2 * rest.length + (if data.length < m then 1 else 0) ≤ k →
      (data = [] → rest = []) →
      oneByOneLoop hash next m bufsz cs off data rest
        = some (addAll hash cs off (segs next (data ++ rest))) := by
  intro k
  induction k with
  | zero =>
    intro data rest cs off hk h0
    have e1 : data = [] := List.length_eq_zero_iff.1 (by omega)
    have e2 := h0 e1
    subst e1 e2
    unfold oneByOneLoop
    simp [segs_nil, addAll]
  | succ k ih =>
    intro data rest cs off hk h0
    by_cases hd : data = []
    · have e2 := h0 hd
      subst hd e2
      unfold oneByOneLoop
      simp [segs_nil, addAll]
    · have h3 := List.length_pos_iff.2 hd
      unfold oneByOneLoop
      rw [if_neg (by omega)]
      by_cases hge : data.length ≥ m
      · rw [if_pos hge, dif_pos (hp data hd)]
        have hpd := hp data hd
        dsimp only
        have hn : next (data ++ rest) = next data :=
          hl _ _ (by rw [List.take_append_of_le_length hge])
        have hs : segs next (data ++ rest)
            = data.take (next data) :: segs next (data.drop (next data) ++ rest) := by
          rw [segs_cons hp (by simp [hd]), hn, List.take_append_of_le_length hpd.2,
            List.drop_append_of_le_length hpd.2]
        have hlen : (data.take (next data)).length = next data := by
          rw [List.length_take, Nat.min_eq_left hpd.2]
        have hdl : (data.drop (next data)).length = data.length - next data := List.length_drop
        rw [hs]
        simp only [addAll, hlen]
        by_cases hgt : (data.drop (next data)).length > m
        · rw [if_pos hgt]
          apply ih
          · rw [if_neg (by omega)]; omega
          · intro he
            exfalso
            rw [he] at hgt
            simp only [List.length_nil] at hgt
            omega
        · rw [if_neg hgt]
          by_cases hr : rest.length = 0
          · rw [if_pos hr, drain_eq hash hp, List.length_eq_zero_iff.1 hr, List.append_nil]
          · rw [if_neg hr]
            have hlt : (data.drop (next data)).length < bufsz ∨
                (data.drop (next data)).length = bufsz := by omega
            have e3 : (data.drop (next data)
                ++ rest.take (bufsz - (data.drop (next data)).length))
                ++ rest.drop (bufsz - (data.drop (next data)).length)
                = data.drop (next data) ++ rest := by
              rw [List.append_assoc, List.take_append_drop]
            rw [← e3]
            apply ih
            · simp only [List.length_append, List.length_take, List.length_drop]
              split <;> split at hk <;> omega
            · intro he
              rw [List.append_eq_nil_iff] at he
              have h5 := congrArg List.length he.2
              have h6 := congrArg List.length he.1
              simp only [List.length_take, List.length_nil] at h5 h6
              omega
      · rw [if_neg hge]
        by_cases hr : rest.length = 0
        · rw [if_pos hr, drain_eq hash hp, List.length_eq_zero_iff.1 hr, List.append_nil]
        · rw [if_neg hr, dif_pos (by omega)]
          have e3 : (data ++ rest.take (bufsz - data.length)) ++ rest.drop (bufsz - data.length)
              = data ++ rest := by
            rw [List.append_assoc, List.take_append_drop]
          rw [← e3]
          apply ih
          · simp only [List.length_append, List.length_take, List.length_drop]
            split <;> split at hk <;> omega
          · intro he
            exfalso
            rw [List.append_eq_nil_iff] at he
            exact hd he.1

theorem oneByOne_eq (hash : Bytes → δ) {next : Bytes → Nat} {m bufsz : Nat}
    (hp : Progress next) (hl : LocalTo m next) (hm : m ≤ bufsz) (hb : 0 < bufsz) (file : Bytes) :
    oneByOne hash next m bufsz file = some (label hash 0 (joinZeros (segs next file))) := by
  unfold oneByOne
  rw [oneByOneLoop_eq hash hp hl hm hb _ _ _ _ _ (Nat.le_refl _), List.take_append_drop,
    addAll_nil]
  intro he
  have := congrArg List.length he
  rw [List.length_take, List.length_nil] at this
  apply List.drop_eq_nil_of_le
  omega

/-! ## Reading a span through a buffer -/

/-- Pushing the cuts of consecutive pieces, the first starting at `off`. -/
def pushAll : List Cut → Nat → List Bytes → List Cut
  | acc, _, [] => acc
  | acc, off, p :: ps => pushAll (pushCut acc (allZero p) (off + p.length)) (off + p.length) ps

theorem pushAll_append (ps qs : List Bytes) : ∀ acc off,
    pushAll acc off (ps ++ qs) = pushAll (pushAll acc off ps) (off + ps.flatten.length) qs := by
  induction ps with
  | nil => intro acc off; simp [pushAll]
  | cons p ps ih =>
    intro acc off
    simp only [List.cons_append, pushAll, List.flatten_cons, List.length_append]
    rw [ih, Nat.add_assoc]

theorem pushCuts_ends (ps : List Bytes) (post : Bytes) (from_ : Nat) : ∀ (pre : Bytes) acc,
    pushCuts (pre ++ ps.flatten ++ post) from_ acc pre.length (ends pre.length ps)
      = pushAll acc (from_ + pre.length) ps := by
  induction ps with
  | nil => intro pre acc; rfl
  | cons p ps ih =>
    intro pre acc
    simp only [ends, pushCuts, pushAll, List.flatten_cons]
    have h1 : List.take (pre.length + p.length) (pre ++ (p ++ ps.flatten) ++ post) = pre ++ p := by
      rw [← List.append_assoc, List.append_assoc, ← List.length_append, List.take_left']
      rfl
    rw [h1, List.drop_left' rfl]
    have := ih (pre ++ p) (pushCut acc (allZero p) (from_ + pre.length + p.length))
    rw [List.length_append] at this
    rw [← Nat.add_assoc from_] at this
    rw [← this]
    congr 1
    · simp
    · rw [Nat.add_assoc]

/-- The first pieces of the data are those of its beginning, as long as they do
not reach the end of it. -/
theorem segs_prefix {next : Bytes → Nat} (hp : Progress next) (hst : Stable next) (e : Bytes) :
    ∀ d, d ≠ [] → ∃ l, segs next d = (segs next d).dropLast ++ [l] ∧
      segs next (d ++ e) = (segs next d).dropLast ++ segs next (l ++ e) := by
  apply strongLen
  intro d ih hd
  have h2 := hp d hd
  have h3 := List.length_pos_iff.2 hd
  rw [segs_cons hp hd]
  by_cases he : d.drop (next d) = []
  · refine ⟨d, ?_, ?_⟩
    · rw [he, segs_nil, List.take_of_length_le (by
        have := congrArg List.length he
        rw [List.length_drop, List.length_nil] at this; omega)]
      rfl
    · rw [he, segs_nil]; rfl
  · have hne := segs_ne_nil hp he
    obtain ⟨l, hl1, hl2⟩ := ih (d.drop (next d)) (by rw [List.length_drop]; omega) he
    refine ⟨l, ?_, ?_⟩
    · rw [List.dropLast_cons_of_ne_nil hne, List.cons_append, ← hl1]
    · have hlt : next d < d.length := by
        have := List.length_pos_iff.2 he
        rw [List.length_drop] at this; omega
      rw [List.dropLast_cons_of_ne_nil hne, List.cons_append, ← hl2,
        segs_cons hp (by simp [hd]), hst d e hlt, List.take_append_of_le_length h2.2,
        List.drop_append_of_le_length h2.2]

theorem ends_length (ps : List Bytes) : ∀ off, (ends off ps).length = ps.length := by
  induction ps with
  | nil => intro off; rfl
  | cons p ps ih => intro off; simp [ends, ih]

theorem ends_dropLast (ps : List Bytes) : ∀ off,
    (ends off ps).dropLast = ends off ps.dropLast := by
  induction ps with
  | nil => intro off; rfl
  | cons p ps ih =>
    intro off
    cases ps with
    | nil => rfl
    | cons q qs =>
      simp only [ends, List.dropLast_cons_cons]
      have := ih (off + p.length)
      simp only [ends] at this
      rw [this]

theorem ends_getLastD (ps : List Bytes) : (ends 0 ps).getLast?.getD 0 = ps.flatten.length := by
  have := ends_last ps 0
  rw [List.getLast?_cons] at this
  simp only [Option.some.injEq, Nat.zero_add] at this
  exact this

theorem segs_head_le {next : Bytes → Nat} {m : Nat} (hp : Progress next)
    (hmax : ∀ d : Bytes, d ≠ [] → next d ≤ m) :
    ∀ d, ∀ p ∈ segs next d, p.length ≤ m := by
  apply strongLen
  intro d ih p hpm
  by_cases hd : d = []
  · subst hd; rw [segs_nil] at hpm; cases hpm
  · have h2 := hp d hd
    have h3 := List.length_pos_iff.2 hd
    rw [segs_cons hp hd] at hpm
    rcases List.mem_cons.1 hpm with h | h
    · rw [h, List.length_take]
      have := hmax d hd
      omega
    · exact ih _ (by rw [List.length_drop]; omega) p h

theorem readSpan_eq {next : Bytes → Nat} {m bufsz : Nat} (hp : Progress next)
    (hl : LocalTo m next) (hst : Stable next) (hmax : ∀ d : Bytes, d ≠ [] → next d ≤ m)
    (hm : m ≤ bufsz) (hb : 0 < bufsz) :
    ∀ rem acc off, readSpan next bufsz acc off rem = some (pushAll acc off (segs next rem)) := by
  apply strongLen
  intro rem ih acc off
  by_cases hd : rem = []
  · subst hd; unfold readSpan; rw [segs_nil]; simp [pushAll]
  · have h3 := List.length_pos_iff.2 hd
    unfold readSpan
    rw [if_neg (by omega), cutpoints_eq hp]
    dsimp only
    by_cases hle : rem.length ≤ bufsz
    · rw [if_pos hle, List.take_of_length_le hle]
      have := pushCuts_ends (segs next rem) [] off [] acc
      simp only [List.nil_append, List.append_nil, List.length_nil, Nat.add_zero] at this
      rw [segs_flatten hp] at this
      rw [this]
    · rw [if_neg hle]
      have hdne : rem.take bufsz ≠ [] := by
        intro hc
        have := congrArg List.length hc
        rw [List.length_take, List.length_nil] at this
        omega
      -- the pieces that are used
      have key : ∃ used : List Bytes, usedCuts false (ends 0 (segs next (rem.take bufsz)))
          = ends 0 used ∧ 0 < used.flatten.length ∧
          (∃ post, rem.take bufsz = used.flatten ++ post) ∧
          segs next rem = used ++ segs next (rem.drop used.flatten.length) := by
        obtain ⟨l, hl1, hl2⟩ := segs_prefix hp hst (rem.drop bufsz) _ hdne
        rw [List.take_append_drop] at hl2
        by_cases h1 : (ends 0 (segs next (rem.take bufsz))).length = 1
        · refine ⟨segs next (rem.take bufsz), ?_, ?_, ⟨[], ?_⟩, ?_⟩
          · simp only [usedCuts, h1]; simp
          · rw [segs_flatten hp, List.length_take]; omega
          · rw [segs_flatten hp, List.append_nil]
          · rw [ends_length] at h1
            have hone : segs next (rem.take bufsz) = [rem.take bufsz] := by
              obtain ⟨x, hx⟩ := List.length_eq_one_iff.1 h1
              have := segs_flatten hp (rem.take bufsz)
              rw [hx] at this ⊢
              simp at this
              rw [this]
            have hlen : (rem.take bufsz).length = bufsz := by rw [List.length_take]; omega
            have hbm : bufsz = m := by
              have := segs_head_le hp hmax (rem.take bufsz) (rem.take bufsz)
                (by rw [hone]; exact List.mem_cons_self ..)
              omega
            have hnx : next rem = bufsz := by
              have e1 : next rem = next (rem.take bufsz) :=
                hl _ _ (by rw [List.take_take, hbm, Nat.min_self])
              have e2 := segs_cons hp hdne
              rw [hone] at e2
              have e3 := congrArg List.length (List.cons.inj e2).1
              rw [List.length_take (l := rem.take bufsz)] at e3
              have := (hp _ hdne).2
              omega
            rw [segs_flatten hp, hone, hlen, segs_cons hp hd, hnx]
            rfl
        · refine ⟨(segs next (rem.take bufsz)).dropLast, ?_, ?_, ⟨l, ?_⟩, ?_⟩
          · simp only [usedCuts, h1]; simp [ends_dropLast]
          · rw [ends_length] at h1
            have hne : (segs next (rem.take bufsz)).dropLast ≠ [] := by
              intro hc
              rw [hc] at hl1
              rw [hl1] at h1
              simp at h1
            obtain ⟨x, xs, hx⟩ := List.exists_cons_of_ne_nil hne
            rw [hx]
            have hxp := segs_pos hp (rem.take bufsz) x (by
              rw [hl1, hx]; simp)
            have := List.length_pos_iff.2 hxp
            simp only [List.flatten_cons, List.length_append]
            omega
          · have := segs_flatten hp (rem.take bufsz)
            rw [hl1, List.flatten_append] at this
            simp only [List.flatten_cons, List.flatten_nil, List.append_nil] at this
            exact this.symm
          · have hfl := segs_flatten hp rem
            rw [hl2] at hfl
            rw [hl2]
            congr 2
            rw [List.flatten_append, segs_flatten hp] at hfl
            have hdr : List.drop (segs next (rem.take bufsz)).dropLast.flatten.length
                ((segs next (rem.take bufsz)).dropLast.flatten ++ (l ++ rem.drop bufsz))
                = l ++ rem.drop bufsz := List.drop_left' rfl
            rw [hfl] at hdr
            exact hdr.symm
      obtain ⟨used, hu1, hu2, ⟨post, hu3⟩, hu4⟩ := key
      rw [hu1, ends_getLastD, dif_pos hu2, ih _ (by rw [List.length_drop]; omega)]
      have hpc := pushCuts_ends used post off [] acc
      simp only [List.nil_append, List.length_nil, Nat.add_zero] at hpc
      rw [hu3, hpc]
      conv => rhs; rw [hu4, pushAll_append]

/-- The chunk list built from the cuts of one data span is the one built piece by
piece. -/
theorem summarize_pushAll (hash : Bytes → δ) (file : Bytes) (ps : List Bytes) :
    ∀ (pre p : Bytes), file = pre ++ p ++ ps.flatten →
      ∀ acc : List Cut, (∀ c ∈ acc, c.unwrit = false) →
      ∃ tail : List Cut, pushAll (acc ++ [⟨(pre ++ p).length, allZero p, false⟩])
          (pre ++ p).length ps = acc ++ tail ∧
        summarize hash file false pre.length tail
          = label hash pre.length (joinZeros (p :: ps)) := by
  induction ps with
  | nil =>
    intro pre p hf acc hacc
    refine ⟨[⟨(pre ++ p).length, allZero p, false⟩], rfl, ?_⟩
    have hs : (file.take (pre ++ p).length).drop pre.length = p := by
      rw [hf, List.flatten_nil, List.append_nil, List.take_length, List.drop_left' rfl]
    simp only [summarize, hs, joinZeros, label]
    by_cases hz : allZero p = true
    · simp [hz]
    · simp [hz]
  | cons q ps ih =>
    intro pre p hf acc hacc
    simp only [pushAll]
    by_cases hz : allZero p = true ∧ allZero q = true
    · have e1 : pushCut (acc ++ [⟨(pre ++ p).length, allZero p, false⟩]) (allZero q)
          ((pre ++ p).length + q.length)
          = acc ++ [⟨(pre ++ (p ++ q)).length, allZero (p ++ q), false⟩] := by
        simp [pushCut, hz.1, hz.2, allZero_append, Nat.add_assoc]
      have e2 : (pre ++ p).length + q.length = (pre ++ (p ++ q)).length := by
        simp [Nat.add_assoc]
      obtain ⟨tail, h1, h2⟩ := ih pre (p ++ q) (by rw [hf]; simp) acc hacc
      refine ⟨tail, ?_, ?_⟩
      · rw [e1, e2, h1]
      · rw [h2, joinZeros_merge p q ps hz.1 hz.2]
    · have e1 : pushCut (acc ++ [⟨(pre ++ p).length, allZero p, false⟩]) (allZero q)
          ((pre ++ p).length + q.length)
          = (acc ++ [⟨(pre ++ p).length, allZero p, false⟩])
            ++ [⟨((pre ++ p) ++ q).length, allZero q, false⟩] := by
        by_cases hq : allZero q = true
        · have hpz : allZero p = false := by
            cases h : allZero p with
            | true => exact absurd ⟨h, hq⟩ hz
            | false => rfl
          simp [pushCut, hpz, hq, Nat.add_assoc]
        · simp [pushCut, hq, Nat.add_assoc]
      obtain ⟨tail, h1, h2⟩ := ih (pre ++ p) q (by rw [hf]; simp)
        (acc ++ [⟨(pre ++ p).length, allZero p, false⟩]) (by
          intro c hc
          rcases List.mem_append.1 hc with h | h
          · exact hacc c h
          · simp at h; rw [h])
      refine ⟨⟨(pre ++ p).length, allZero p, false⟩ :: tail, ?_, ?_⟩
      · have e2 : (pre ++ p).length + q.length = ((pre ++ p) ++ q).length := by
          simp [Nat.add_assoc]
        rw [e1, e2, h1]
        simp
      · have hs : (file.take (pre ++ p).length).drop pre.length = p := by
          rw [hf, List.take_left' rfl, List.drop_left' rfl]
        rw [joinZeros_split p q ps hz]
        rw [List.length_append (as := pre)] at h2
        simp only [summarize, hs, label]
        rw [List.length_append (as := pre)]
        by_cases hpz : allZero p = true
        · simp [hpz, h2]
        · simp [hpz, h2]

theorem summarizeFile_dense (hash : Bytes → δ) {next : Bytes → Nat} {m bufsz : Nat}
    (hp : Progress next) (hl : LocalTo m next) (hst : Stable next)
    (hmax : ∀ d : Bytes, d ≠ [] → next d ≤ m) (hm : m ≤ bufsz) (hb : 0 < bufsz) (file : Bytes) :
    summarizeFile hash next bufsz false [.data file]
      = some (label hash 0 (joinZeros (segs next file))) := by
  unfold summarizeFile
  simp only [cutSpans, readSpan_eq hp hl hst hmax hm hb, Option.map_some, Option.some.injEq,
    List.map_cons, List.map_nil, Span.bytes, List.flatten_cons, List.flatten_nil, List.append_nil]
  cases hs : segs next file with
  | nil => rfl
  | cons p ps =>
    have hf : file = [] ++ p ++ ps.flatten := by
      have := segs_flatten hp file
      rw [hs] at this
      simpa using this.symm
    obtain ⟨tail, h1, h2⟩ := summarize_pushAll hash file ps [] p hf [] (by simp)
    simp only [List.nil_append, List.length_nil] at h1 h2
    have e1 : pushCut [] (allZero p) (0 + p.length) = [⟨p.length, allZero p, false⟩] := by
      simp [pushCut]
    simp only [pushAll]
    rw [e1, Nat.zero_add, h1, h2]

/-! ## Chunk lists describe the file -/

theorem label_describes (hash : Bytes → δ) (ps : List Bytes) (h : ∀ p ∈ ps, p ≠ []) : ∀ off,
    Describes hash off ps.flatten (label hash off ps) := by
  induction ps with
  | nil => intro off; rfl
  | cons p ps ih =>
    intro off
    have hp : 0 < p.length := List.length_pos_iff.2 (h p (List.mem_cons_self ..))
    have e1 : off + p.length - off = p.length := by omega
    simp only [label, Describes, List.flatten_cons, e1, List.take_left' rfl, List.drop_left' rfl,
      List.length_append]
    refine ⟨trivial, by omega, by omega, ?_, ih (fun q hq => h q (List.mem_cons_of_mem _ hq)) _⟩
    by_cases hz : allZero p = true
    · simp [hz]
    · simp [hz]

end Verif.CDC
