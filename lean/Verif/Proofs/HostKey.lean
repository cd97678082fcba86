import Verif.Model.HostKey
/-
Lemmas for C74: the text format of the file of known keys.
-/
namespace Verif.HostKey

/-- No white space in it. -/
def NoSpace (s : Text) : Prop := ∀ c ∈ s, isSpace c = false

theorem split_append {sep : Char} {w rest : Text} (h : sep ∉ w) :
    split sep (w ++ sep :: rest) = w :: split sep rest := by
  induction w with
  | nil => simp [split]
  | cons c w ih =>
    simp only [List.mem_cons, not_or] at h
    simp only [List.cons_append, split]
    rw [if_neg (Ne.symm h.1), ih h.2]

theorem split_single {sep : Char} {w : Text} (h : sep ∉ w) : split sep w = [w] := by
  induction w with
  | nil => rfl
  | cons c w ih =>
    simp only [List.mem_cons, not_or] at h
    simp only [split]
    rw [if_neg (Ne.symm h.1), ih h.2]

theorem split_ne_nil (sep : Char) (s : Text) : split sep s ≠ [] := by
  cases s with
  | nil => simp [split]
  | cons c cs =>
    simp only [split]
    split
    · simp
    · split <;> simp

theorem split_mem {sep : Char} {s w : Text} (h : w ∈ split sep s) : sep ∉ w ∧ ∀ c ∈ w, c ∈ s := by
  induction s generalizing w with
  | nil => simp only [split, List.mem_singleton] at h; subst h; simp
  | cons c cs ih =>
    simp only [split] at h
    by_cases hc : c = sep
    · rw [if_pos hc] at h
      rcases List.mem_cons.1 h with h | h
      · subst h; simp
      · exact ⟨(ih h).1, fun x hx => List.mem_cons_of_mem _ ((ih h).2 x hx)⟩
    · rw [if_neg hc] at h
      cases hs : split sep cs with
      | nil => exact absurd hs (split_ne_nil _ _)
      | cons v vs =>
        rw [hs] at h ih
        simp only [List.mem_cons] at h
        rcases h with h | h
        · subst h
          have := ih (w := v) (List.mem_cons_self ..)
          constructor
          · simp only [List.mem_cons, not_or]
            exact ⟨fun e => hc e.symm, this.1⟩
          · intro x hx
            rcases List.mem_cons.1 hx with rfl | hx
            · exact List.mem_cons_self ..
            · exact List.mem_cons_of_mem _ (this.2 x hx)
        · have := ih (w := w) (List.mem_cons_of_mem _ h)
          exact ⟨this.1, fun x hx => List.mem_cons_of_mem _ (this.2 x hx)⟩

/-- The rest of a word. -/
def word (s : Text) : Text := s.takeWhile fun c => !isSpace c

theorem fieldsAux_word (cur s : Text) (h : cur ≠ []) :
    ∃ tl, fieldsAux cur s = (cur.reverse ++ word s) :: tl := by
  induction s generalizing cur with
  | nil => exact ⟨[], by simp [fieldsAux, h, word]⟩
  | cons c cs ih =>
    simp only [fieldsAux, word, List.takeWhile_cons]
    cases hc : isSpace c with
    | true => exact ⟨fieldsAux [] cs, by simp [h]⟩
    | false =>
      obtain ⟨tl, e⟩ := ih (c :: cur) (by simp)
      refine ⟨tl, ?_⟩
      simp only [Bool.not_false, if_true, Bool.false_eq_true, if_false]
      rw [e]
      simp [word]

theorem fieldsAux_space (cur s : Text) (h : cur ≠ []) : fieldsAux cur (' ' :: s) = cur.reverse :: fieldsAux [] s := by
  have : isSpace ' ' = true := by decide
  simp [fieldsAux, this, h]

theorem fieldsAux_append {cur w s : Text} (h : NoSpace w) : fieldsAux cur (w ++ s) = fieldsAux (w.reverse ++ cur) s := by
  induction w generalizing cur with
  | nil => rfl
  | cons c w ih =>
    have hc : isSpace c = false := h c (List.mem_cons_self ..)
    simp only [List.cons_append, fieldsAux, hc, Bool.false_eq_true, if_false]
    rw [ih (fun x hx => h x (List.mem_cons_of_mem _ hx))]
    simp

theorem fields_mem {s : Text} : ∀ {cur : Text}, NoSpace cur → ∀ w ∈ fieldsAux cur s, NoSpace w ∧ w ≠ [] := by
  induction s with
  | nil =>
    intro cur hc w hw
    simp only [fieldsAux] at hw
    by_cases h : cur = []
    · simp [h] at hw
    · rw [if_neg h, List.mem_singleton] at hw
      subst hw
      exact ⟨fun c h => hc c (by simpa using h), by simpa using h⟩
  | cons c cs ih =>
    intro cur hc w hw
    simp only [fieldsAux] at hw
    cases hs : isSpace c with
    | true =>
      simp only [hs, if_true] at hw
      by_cases h : cur = []
      · rw [if_pos h] at hw
        exact ih (by simp [NoSpace]) w hw
      · rw [if_neg h] at hw
        rcases List.mem_cons.1 hw with rfl | hw
        · exact ⟨fun c h => hc c (by simpa using h), by simpa using h⟩
        · exact ih (by simp [NoSpace]) w hw
    | false =>
      simp only [hs, Bool.false_eq_true, if_false] at hw
      exact ih (fun x hx => by
        rcases List.mem_cons.1 hx with rfl | hx
        · exact hs
        · exact hc x hx) w hw

theorem dropWhile_append_of_neg {α} {p : α → Bool} {a b : List α} {x : α} (hx : p x = false) :
    (a ++ x :: b).dropWhile p = (a.dropWhile p) ++ x :: b := by
  induction a with
  | nil => simp [hx]
  | cons y a ih =>
    simp only [List.cons_append, List.dropWhile_cons]
    split
    · exact ih
    · rfl

/-- strings.TrimRight of white space -/
def trimRight (s : Text) : Text := (s.reverse.dropWhile isSpace).reverse

/-- Trimming a text that starts with something else than white space and has a
character in it that is none. -/
theorem trimSpace_eq {c x : Char} {a b : Text} (hc : isSpace c = false) (hx : isSpace x = false) :
    trimSpace (c :: (a ++ x :: b)) = c :: (a ++ x :: trimRight b) := by
  unfold trimSpace
  rw [List.dropWhile_cons, hc]
  simp only [Bool.false_eq_true, if_false, List.reverse_cons, List.reverse_append, List.append_assoc,
    List.cons_append, List.nil_append]
  rw [dropWhile_append_of_neg hx]
  simp [trimRight]

theorem trimRight_noSpace {s : Text} (h : NoSpace s) : trimRight s = s := by
  unfold trimRight
  cases hr : s.reverse with
  | nil => simpa using hr.symm
  | cons c r =>
    have : isSpace c = false := h c (by
      have : c ∈ s.reverse := by rw [hr]; exact List.mem_cons_self ..
      simpa using this)
    rw [List.dropWhile_cons, this]
    simp [← hr]

theorem word_noSpace {s : Text} (h : NoSpace s) : word s = s := by
  unfold word
  induction s with
  | nil => rfl
  | cons c s ih =>
    rw [List.takeWhile_cons, h c (List.mem_cons_self ..)]
    simp only [Bool.not_false, if_true]
    rw [ih fun x hx => h x (List.mem_cons_of_mem _ hx)]

/-- What reading keeps of the email addresses. -/
def cut (e : Text) : Text := (split ':' (word (trimRight e))).headD []

theorem cut_plain {e : Text} (h : NoSpace e) (hc : ':' ∉ e) : cut e = e := by
  rw [cut, trimRight_noSpace h, word_noSpace h, split_single hc]
  rfl

/-- Entries whose line reads back as an entry for the same key. -/
structure WF (k : KnownKey) : Prop where
  addr : k.addr ≠ []
  addrSpace : NoSpace k.addr
  addrHash : k.addr.head? ≠ some '#'
  pubSpace : NoSpace k.pubKey
  pubColon : ':' ∉ k.pubKey
  emails : '\n' ∉ k.emails

theorem prefix_noSpace : NoSpace prefixText := by
  unfold NoSpace
  decide

theorem readLine_text {k : KnownKey} (h : WF k) : readLine k.text = .ok (some ⟨k.addr, k.pubKey, cut k.emails⟩) := by
  obtain ⟨addr, pub, em⟩ := k
  obtain ⟨h1, h2, h3, h4, h5, h6⟩ := h
  simp only at *
  cases addr with
  | nil => exact absurd rfl h1
  | cons c a =>
    have hc : isSpace c = false := h2 c (List.mem_cons_self ..)
    have ht : trimSpace (KnownKey.text ⟨c :: a, pub, em⟩) =
        c :: (a ++ ' ' :: (prefixText ++ (pub ++ ':' :: trimRight em))) := by
      have e1 : KnownKey.text ⟨c :: a, pub, em⟩ = c :: ((a ++ ' ' :: (prefixText ++ pub)) ++ ':' :: em) := by
        simp [KnownKey.text]
      rw [e1, trimSpace_eq hc (by decide)]
      simp
    have hf : ∃ tl, fields (c :: (a ++ ' ' :: (prefixText ++ (pub ++ ':' :: trimRight em)))) =
        (c :: a) :: (prefixText ++ (pub ++ ':' :: word (trimRight em))) :: tl := by
      unfold fields
      rw [show c :: (a ++ ' ' :: (prefixText ++ (pub ++ ':' :: trimRight em))) =
        (c :: a) ++ ' ' :: (prefixText ++ (pub ++ ':' :: trimRight em)) from rfl, fieldsAux_append h2,
        fieldsAux_space _ _ (by simp)]
      rw [show prefixText ++ (pub ++ ':' :: trimRight em) = ((prefixText ++ pub) ++ [':']) ++ trimRight em by simp,
        fieldsAux_append]
      · obtain ⟨tl, e⟩ := fieldsAux_word (((prefixText ++ pub) ++ [':']).reverse ++ []) (trimRight em) (by simp)
        refine ⟨tl, ?_⟩
        rw [e]
        simp
      · intro x hx
        simp only [List.mem_append, List.mem_singleton] at hx
        rcases hx with (hx | hx) | hx
        · exact prefix_noSpace x hx
        · exact h4 x hx
        · subst hx; decide
    obtain ⟨tl, hf⟩ := hf
    have hh : c ≠ '#' := by simpa using h3
    have hp : prefixText.isPrefixOf (prefixText ++ (pub ++ ':' :: word (trimRight em))) = true := by
      rw [List.isPrefixOf_iff_prefix]
      exact List.prefix_append _ _
    unfold readLine
    simp only [ht]
    rw [if_neg hh, hf]
    simp only
    rw [if_neg (by rw [hp]; simp), List.drop_left, split_append h5]
    cases hs : split ':' (word (trimRight em)) with
    | nil => exact absurd hs (split_ne_nil _ _)
    | cons e es => simp [cut, hs]

theorem readLine_header : readLine header = .ok none := by rfl

theorem readLines_writeOut {hosts : List KnownKey} (h : ∀ k ∈ hosts, WF k) :
    readLines (split '\n' (hosts.map fun k => k.text ++ ['\n']).flatten) =
      .ok (hosts.map fun k => ⟨k.addr, k.pubKey, cut k.emails⟩) := by
  induction hosts with
  | nil => rfl
  | cons k hosts ih =>
    have hk := h k (List.mem_cons_self ..)
    have hn : '\n' ∉ k.text := by
      have hsp : isSpace '\n' = true := by decide
      unfold KnownKey.text
      simp only [List.mem_append, List.mem_cons, not_or]
      refine ⟨fun hx => ?_, by decide, fun hx => ?_, fun hx => ?_, by decide, hk.emails⟩
      · have := hk.addrSpace _ hx; rw [hsp] at this; cases this
      · have := prefix_noSpace _ hx; rw [hsp] at this; cases this
      · have := hk.pubSpace _ hx; rw [hsp] at this; cases this
    simp only [List.map_cons, List.flatten_cons, List.append_assoc, List.cons_append, List.nil_append]
    rw [split_append hn]
    simp only [readLines, readLine_text hk, ih fun x hx => h x (List.mem_cons_of_mem _ hx)]

theorem read_write {hosts : List KnownKey} (h : ∀ k ∈ hosts, WF k) :
    readKnown (writeOut hosts) = .ok (hosts.map fun k => ⟨k.addr, k.pubKey, cut k.emails⟩) := by
  have hh : '\n' ∉ header := by decide
  unfold readKnown writeOut
  rw [split_append hh]
  simp only [readLines, readLine_header]
  exact readLines_writeOut h

theorem trimSpace_head {s l : Text} {c : Char} (h : trimSpace s = c :: l) : isSpace c = false := by
  unfold trimSpace at h
  cases hd : s.dropWhile isSpace with
  | nil => rw [hd] at h; simp at h
  | cons x xs =>
    have hx : isSpace x = false := by
      have := List.head_dropWhile_not (p := isSpace) (l := s) (by rw [hd]; simp)
      simpa [hd] using this
    rw [hd, List.reverse_cons, show xs.reverse ++ [x] = xs.reverse ++ x :: [] from rfl, dropWhile_append_of_neg hx] at h
    simp only [List.reverse_append, List.reverse_cons, List.reverse_nil, List.nil_append,
      List.cons_append, List.cons.injEq] at h
    rw [← h.1]
    exact hx

/-- Entries that were read are well-formed, and free of white space and colons. -/
theorem readLine_wf {line : Text} {k : KnownKey} (h : readLine line = .ok (some k)) :
    WF k ∧ NoSpace k.emails ∧ ':' ∉ k.emails := by
  unfold readLine at h
  simp only at h
  cases ht : trimSpace line with
  | nil => rw [ht] at h; cases h
  | cons c l =>
    have hc := trimSpace_head ht
    rw [ht] at h
    simp only at h
    by_cases hh : c = '#'
    · rw [if_pos hh] at h; cases h
    · rw [if_neg hh] at h
      obtain ⟨tl, hf⟩ := fieldsAux_word [c] l (by simp)
      have hf' : fields (c :: l) = ([c].reverse ++ word l) :: tl := by
        rw [← hf]; simp [fields, fieldsAux, hc]
      have hall := fields_mem (s := c :: l) (cur := []) (by simp [NoSpace])
      rw [show fieldsAux [] (c :: l) = fields (c :: l) from rfl, hf'] at hall
      rw [hf'] at h
      cases tl with
      | nil => cases h
      | cons ident tl =>
        simp only at h
        by_cases hp : prefixText.isPrefixOf ident = false
        · rw [if_pos hp] at h; cases h
        · rw [if_neg hp] at h
          have hid := (hall ident (by simp)).1
          have hdrop : NoSpace (ident.drop prefixText.length) := fun x hx => hid x (List.mem_of_mem_drop hx)
          cases hs : split ':' (ident.drop prefixText.length) with
          | nil => rw [hs] at h; cases h
          | cons pub r =>
            rw [hs] at h
            cases r with
            | nil => cases h
            | cons em r =>
              simp only [Except.ok.injEq, Option.some.injEq] at h
              subst h
              have m1 := split_mem (s := ident.drop prefixText.length) (sep := ':') (w := pub) (by rw [hs]; simp)
              have m2 := split_mem (s := ident.drop prefixText.length) (sep := ':') (w := em) (by rw [hs]; simp)
              have hsp : isSpace '\n' = true := by decide
              have ne : NoSpace em := fun x hx => hdrop x (m2.2 x hx)
              refine ⟨⟨by simp, (hall _ (List.mem_cons_self ..)).1, by simpa using hh,
                fun x hx => hdrop x (m1.2 x hx), m1.1, fun hx => ?_⟩, ne, m2.1⟩
              have := ne _ hx
              rw [hsp] at this
              cases this

theorem readLines_wf {ls : List Text} {hosts : List KnownKey} (h : readLines ls = .ok hosts) :
    ∀ k ∈ hosts, WF k ∧ NoSpace k.emails ∧ ':' ∉ k.emails := by
  induction ls generalizing hosts with
  | nil => simp only [readLines, Except.ok.injEq] at h; subst h; simp
  | cons l ls ih =>
    simp only [readLines] at h
    cases hl : readLine l with
    | error e => rw [hl] at h; cases h
    | ok o =>
      rw [hl] at h
      cases o with
      | none => exact ih h
      | some k =>
        simp only at h
        cases hr : readLines ls with
        | error e => rw [hr] at h; cases h
        | ok ks =>
          rw [hr] at h
          simp only [Except.ok.injEq] at h
          subst h
          intro x hx
          rcases List.mem_cons.1 hx with rfl | hx
          · exact readLine_wf hl
          · exact ih hr x hx

end Verif.HostKey
