import Verif.Model.PeerURL
/-
C57: peer URLs parse back.
-/
namespace Verif.PeerURL

/-- A lower case ASCII letter. -/
def Lower (b : UInt8) : Prop := 97 ≤ b ∧ b ≤ 122
/-- An ASCII digit. -/
def Digit (b : UInt8) : Prop := 48 ≤ b ∧ b ≤ 57
/-- A byte of a scheme after the first. -/
def SchemeByte (b : UInt8) : Prop := Lower b ∨ Digit b ∨ b = ch '+' ∨ b = ch '-' ∨ b = ch '.'
/-- A byte of a DNS name or dotted quad. -/
def NameByte (b : UInt8) : Prop :=
  Lower b ∨ (65 ≤ b ∧ b ≤ 90) ∨ Digit b ∨ b = ch '-' ∨ b = ch '.' ∨ b = ch '_'
/-- A byte of an IPv6 address. -/
def V6Byte (b : UInt8) : Prop := Digit b ∨ (97 ≤ b ∧ b ≤ 102) ∨ (65 ≤ b ∧ b ≤ 70) ∨ b = ch ':' ∨ b = ch '.'
/-- A byte that may occur in a service name or id. -/
def SegByte (b : UInt8) : Prop :=
  b ≠ ch '/' ∧ b ≠ ch '%' ∧ b ≠ ch '?' ∧ b ≠ ch '#' ∧ 0x20 ≤ b ∧ b ≠ 0x7f

instance (b) : Decidable (Lower b) := inferInstanceAs (Decidable (_ ∧ _))
instance (b) : Decidable (Digit b) := inferInstanceAs (Decidable (_ ∧ _))
instance (b) : Decidable (SchemeByte b) := inferInstanceAs (Decidable (_ ∨ _))
instance (b) : Decidable (NameByte b) := inferInstanceAs (Decidable (_ ∨ _))
instance (b) : Decidable (V6Byte b) := inferInstanceAs (Decidable (_ ∨ _))
instance (b) : Decidable (SegByte b) := inferInstanceAs (Decidable (_ ∧ _))

/-- A network address as the library makes them: scheme://host:port, the host a name, an
IPv4 address, or an IPv6 address in brackets. -/
def IsNetAddr (s : Str) : Prop :=
  ∃ s0 st host port, s = (s0 :: st) ++ lit "://" ++ host ++ lit ":" ++ port ∧
    Lower s0 ∧ (∀ b ∈ st, SchemeByte b) ∧ (∀ b ∈ port, Digit b) ∧
    ((∀ b ∈ host, NameByte b) ∨ ∃ v6, host = lit "[" ++ v6 ++ lit "]" ∧ ∀ b ∈ v6, V6Byte b)

theorem cutAt_none (b : UInt8) (l : Str) (h : b ∉ l) : cutAt b l = (l, none) := by
  induction l with
  | nil => rfl
  | cons c t ih =>
    simp only [List.mem_cons, not_or] at h
    simp [cutAt, ih h.2, Ne.symm h.1]

theorem cutAt_append (b : UInt8) (l t : Str) (h : b ∉ l) : cutAt b (l ++ b :: t) = (l, some t) := by
  induction l with
  | nil => simp [cutAt]
  | cons c l ih =>
    simp only [List.mem_cons, not_or] at h
    simp [cutAt, ih h.2, Ne.symm h.1]

theorem cutLast_none (b : UInt8) (l : Str) (h : b ∉ l) : cutLast b l = none := by
  induction l with
  | nil => rfl
  | cons c t ih =>
    simp only [List.mem_cons, not_or] at h
    simp [cutLast, ih h.2, Ne.symm h.1]

theorem cutLast_append (b : UInt8) (l t : Str) (h : b ∉ t) : cutLast b (l ++ b :: t) = some (l, t) := by
  induction l with
  | nil => simp [cutLast, cutLast_none b t h]
  | cons c l ih => simp [cutLast, ih]

theorem unescape_path (l : Str) (h : ch '%' ∉ l) : unescape .path l = some l := by
  induction l with
  | nil => rfl
  | cons c t ih =>
    simp only [List.mem_cons, not_or] at h
    unfold unescape
    simp [ih h.2, Ne.symm h.1]

theorem unescape_host (l : Str) (h : ∀ b ∈ l, b ≠ ch '%' ∧ badHostByte b = false) :
    unescape .host l = some l := by
  induction l with
  | nil => rfl
  | cons c t ih =>
    have h1 := h c List.mem_cons_self
    unfold unescape
    simp [ih (fun b hb => h b (List.mem_cons_of_mem _ hb)), h1]

theorem splitSlash_none (l : Str) (h : ch '/' ∉ l) : splitSlash l = [l] := by
  induction l with
  | nil => rfl
  | cons c t ih =>
    simp only [List.mem_cons, not_or] at h
    simp [splitSlash, ih h.2, Ne.symm h.1]

theorem splitSlash_append (l t : Str) (h : ch '/' ∉ l) :
    splitSlash (l ++ ch '/' :: t) = l :: splitSlash t := by
  induction l with
  | nil => simp [splitSlash]
  | cons c l ih =>
    simp only [List.mem_cons, not_or] at h
    simp [splitSlash, ih h.2, Ne.symm h.1]

theorem forallByte {p : UInt8 → Prop} (h : ∀ i : Fin 256, p (UInt8.ofNat i.val)) (b : UInt8) : p b := by
  have := h ⟨b.toNat, b.toNat_lt⟩
  simpa using this

theorem schemeByte_model (b : UInt8) : SchemeByte b →
    (isAlpha b || (isDigit b || b = ch '+' || b = ch '-' || b = ch '.')) = true ∧ toLower b = b ∧
    b ≠ ch '#' ∧ ¬ (b < 0x20) ∧ b ≠ 0x7f ∧ b ≠ ch ':' := by
  revert b
  apply forallByte
  decide +kernel

theorem lower_model (b : UInt8) : Lower b → isAlpha b = true ∧ SchemeByte b ∧ b ≠ ch '*' := by
  revert b
  apply forallByte
  decide +kernel

/-- What a host byte must satisfy on its way through url.Parse. -/
def HostOK (b : UInt8) : Prop := b ≠ ch '%' ∧ badHostByte b = false ∧ b ≠ ch '/' ∧ b ≠ ch '?' ∧
  b ≠ ch '#' ∧ b ≠ ch '@' ∧ ¬ (b < 0x20) ∧ b ≠ 0x7f
instance (b) : Decidable (HostOK b) := inferInstanceAs (Decidable (_ ∧ _))

theorem nameByte_model (b : UInt8) : NameByte b → HostOK b ∧ b ≠ ch '[' ∧ b ≠ ch ':' := by
  revert b
  apply forallByte
  decide +kernel

theorem v6Byte_model (b : UInt8) : V6Byte b → HostOK b := by
  revert b
  apply forallByte
  decide +kernel

theorem digit_model (b : UInt8) : Digit b → HostOK b ∧ isDigit b = true ∧ b ≠ ch ']' ∧ b ≠ ch ':' := by
  revert b
  apply forallByte
  decide +kernel

theorem getSchemeAux_scan (raw l t : Str) (i : Nat) (hi : 0 < i) (h : ∀ b ∈ l, SchemeByte b) :
    getSchemeAux raw i (l ++ ch ':' :: t) = some (raw.take (i + l.length), t) := by
  induction l generalizing i with
  | nil =>
    simp only [List.nil_append, getSchemeAux]
    rw [if_neg (by decide), if_neg (by decide), if_pos trivial, if_neg (by omega)]
    simp
  | cons c l ih =>
    have hc := (schemeByte_model c (h c List.mem_cons_self)).1
    have ih' := ih (i + 1) (by omega) (fun b hb => h b (List.mem_cons_of_mem _ hb))
    simp only [List.cons_append, getSchemeAux]
    have e : i + 1 + l.length = i + (c :: l).length := by simp; omega
    rw [e] at ih'
    by_cases ha : isAlpha c = true
    · rw [if_pos ha, ih']
    · rw [if_neg ha]
      simp only [Bool.or_eq_true] at hc
      rw [if_pos (by simpa [ha] using hc), if_neg (by omega), ih']

theorem getScheme_ok (s0 : UInt8) (st t : Str) (h0 : Lower s0) (h : ∀ b ∈ st, SchemeByte b) :
    getScheme ((s0 :: st) ++ ch ':' :: t) = some (s0 :: st, t) := by
  unfold getScheme
  have := getSchemeAux_scan ((s0 :: st) ++ ch ':' :: t) st t 1 (by omega) h
  simp only [List.cons_append] at this ⊢
  rw [getSchemeAux, if_pos (lower_model s0 h0).1, this]
  congr 2
  rw [Nat.add_comm, List.take_succ_cons, List.take_left']
  rfl

theorem cutZone_none (l : Str) (h : ch '%' ∉ l) : cutZone l = none := by
  induction l with
  | nil => rfl
  | cons c t ih =>
    simp only [List.mem_cons, not_or] at h
    have : lit "%25" = [ch '%', 50, 53] := by decide
    simp [cutZone, ih h.2, this, List.isPrefixOf, h.1]

theorem parseHost_name (name port : Str) (hn : ∀ b ∈ name, NameByte b) (hp : ∀ b ∈ port, Digit b) :
    parseHost (name ++ ch ':' :: port) = some (name ++ ch ':' :: port) := by
  have hall : ∀ b ∈ name ++ ch ':' :: port, b ≠ ch '%' ∧ badHostByte b = false := by
    intro b hb
    simp only [List.mem_append, List.mem_cons] at hb
    rcases hb with hb | rfl | hb
    · exact ⟨(nameByte_model b (hn b hb)).1.1, (nameByte_model b (hn b hb)).1.2.1⟩
    · decide
    · exact ⟨(digit_model b (hp b hb)).1.1, (digit_model b (hp b hb)).1.2.1⟩
  have hport : ch ':' ∉ port := fun hb => (digit_model _ (hp _ hb)).2.2.2 rfl
  have hv : validOptionalPort (ch ':' :: port) = true := by
    simp only [validOptionalPort, decide_true, Bool.true_and, List.all_eq_true]
    exact fun b hb => (digit_model b (hp b hb)).2.1
  have hl := cutLast_append (ch ':') name port hport
  have hu := unescape_host _ hall
  cases name with
  | nil =>
    simp only [List.nil_append] at *
    unfold parseHost
    simp only [hl, hv, hu]
    simp [show ch ':' ≠ ch '[' from by decide]
  | cons c t =>
    have hc := (nameByte_model c (hn c List.mem_cons_self)).2.1
    simp only [List.cons_append] at *
    unfold parseHost
    simp only [hl, hv, hu]
    simp [hc]

theorem parseHost_v6 (v6 port : Str) (hn : ∀ b ∈ v6, V6Byte b) (hp : ∀ b ∈ port, Digit b) :
    parseHost (ch '[' :: (v6 ++ ch ']' :: ch ':' :: port)) =
      some (ch '[' :: (v6 ++ ch ']' :: ch ':' :: port)) := by
  have hall : ∀ b ∈ ch '[' :: (v6 ++ ch ']' :: ch ':' :: port), b ≠ ch '%' ∧ badHostByte b = false := by
    intro b hb
    simp only [List.mem_append, List.mem_cons] at hb
    rcases hb with rfl | hb | rfl | rfl | hb
    · decide
    · exact ⟨(v6Byte_model b (hn b hb)).1, (v6Byte_model b (hn b hb)).2.1⟩
    · decide
    · decide
    · exact ⟨(digit_model b (hp b hb)).1.1, (digit_model b (hp b hb)).1.2.1⟩
  have hport : ch ']' ∉ ch ':' :: port := by
    simp only [List.mem_cons, not_or]
    exact ⟨by decide, fun hb => (digit_model _ (hp _ hb)).2.2.1 rfl⟩
  have hv : validOptionalPort (ch ':' :: port) = true := by
    simp only [validOptionalPort, decide_true, Bool.true_and, List.all_eq_true]
    exact fun b hb => (digit_model b (hp b hb)).2.1
  have hl := cutLast_append (ch ']') (ch '[' :: v6) (ch ':' :: port) hport
  have hu := unescape_host _ hall
  have hz : cutZone (ch '[' :: v6) = none := by
    apply cutZone_none
    intro hb
    exact (hall (ch '%') (by simp only [List.mem_cons, List.mem_append] at hb ⊢; exact hb.elim .inl (fun h => .inr (.inl h)))).1 rfl
  simp only [List.cons_append] at hl
  unfold parseHost
  simp only [if_true, hl, hv, hz, hu]
  simp

/-- url.Parse on the URLs the library builds. -/
theorem urlParse_ok (na path : Str) (hna : IsNetAddr na)
    (hpath : ∀ b ∈ path, b ≠ ch '%' ∧ b ≠ ch '?' ∧ b ≠ ch '#' ∧ 0x20 ≤ b ∧ b ≠ 0x7f) :
    ∃ u, urlParse (na ++ ch '/' :: path) = .ok u ∧ u.path = ch '/' :: path ∧
      u.scheme ++ lit "://" ++ u.host = na := by
  obtain ⟨s0, st, host, port, rfl, h0, hst, hport, hhost⟩ := hna
  have e1 : lit "://" = [ch ':', ch '/', ch '/'] := by decide
  have e2 : lit ":" = [ch ':'] := by decide
  have e3 : lit "[" = [ch '['] := by decide
  have e4 : lit "]" = [ch ']'] := by decide
  have hauth : parseHost (host ++ ch ':' :: port) = some (host ++ ch ':' :: port) := by
    rcases hhost with h | ⟨v6, rfl, h⟩
    · exact parseHost_name host port h hport
    · have := parseHost_v6 v6 port h hport
      simpa [e3, e4] using this
  have hhp : ∀ b ∈ host ++ ch ':' :: port, HostOK b := by
    intro b hb
    simp only [List.mem_append, List.mem_cons] at hb
    rcases hb with hb | rfl | hb
    · rcases hhost with h | ⟨v6, rfl, h⟩
      · exact (nameByte_model b (h b hb)).1
      · simp only [e3, e4, List.mem_append, List.mem_singleton] at hb
        rcases hb with (rfl | hb) | rfl
        · decide
        · exact v6Byte_model b (h b hb)
        · decide
    · decide
    · exact (digit_model b (hport b hb)).1
  have hsc : ∀ b ∈ s0 :: st, SchemeByte b := by
    intro b hb
    rcases List.mem_cons.1 hb with rfl | hb
    · exact (lower_model b h0).2.1
    · exact hst b hb
  have hraw : (s0 :: st) ++ lit "://" ++ host ++ lit ":" ++ port ++ ch '/' :: path =
      (s0 :: st) ++ ch ':' :: ch '/' :: ch '/' :: ((host ++ ch ':' :: port) ++ ch '/' :: path) := by
    simp [e1, e2]
  have hna' : (s0 :: st) ++ lit "://" ++ host ++ lit ":" ++ port =
      (s0 :: st) ++ lit "://" ++ (host ++ ch ':' :: port) := by simp [e2]
  rw [hraw, hna']
  generalize hHP : host ++ ch ':' :: port = hp at *
  -- every byte of the whole string
  have hbytes : ∀ b ∈ (s0 :: st) ++ ch ':' :: ch '/' :: ch '/' :: (hp ++ ch '/' :: path),
      b ≠ ch '#' ∧ ¬ (b < 0x20) ∧ b ≠ 0x7f := by
    intro b hb
    rw [List.mem_append] at hb
    simp only [List.mem_cons (a := b) (l := _ :: _ :: _), List.mem_cons (a := b) (l := _ :: (_ ++ _)),
      List.mem_cons (a := b) (l := _ ++ _), List.mem_append, List.mem_cons (a := b) (l := path)] at hb
    rcases hb with hb | rfl | rfl | rfl | hb | rfl | hb
    · have := schemeByte_model b (hsc b hb); exact ⟨this.2.2.1, this.2.2.2.1, this.2.2.2.2.1⟩
    · decide
    · decide
    · decide
    · have := hhp b hb; exact ⟨this.2.2.2.2.1, this.2.2.2.2.2.2.1, this.2.2.2.2.2.2.2⟩
    · decide
    · have := hpath b hb; exact ⟨this.2.2.1, by simpa using this.2.2.2.1, this.2.2.2.2⟩
  have hcut : cutAt (ch '#') ((s0 :: st) ++ ch ':' :: ch '/' :: ch '/' :: (hp ++ ch '/' :: path)) =
      ((s0 :: st) ++ ch ':' :: ch '/' :: ch '/' :: (hp ++ ch '/' :: path), none) :=
    cutAt_none _ _ (fun h => (hbytes _ h).1 rfl)
  have hctl : ((s0 :: st) ++ ch ':' :: ch '/' :: ch '/' :: (hp ++ ch '/' :: path)).any
      (fun b => b < 0x20 || b = 0x7f) = false := by
    rw [List.any_eq_false]
    intro b hb
    have := hbytes b hb
    simp [this.2.1, this.2.2]
  have hstar : (s0 :: st) ++ ch ':' :: ch '/' :: ch '/' :: (hp ++ ch '/' :: path) ≠ lit "*" := by
    intro h
    have : lit "*" = [ch '*'] := by decide
    rw [this] at h
    exact (lower_model s0 h0).2.2 (by injection h)
  have hq : beforeQuery (ch '/' :: ch '/' :: (hp ++ ch '/' :: path)) =
      ch '/' :: ch '/' :: (hp ++ ch '/' :: path) := by
    unfold beforeQuery
    rw [cutAt_none]
    intro hb
    simp only [List.mem_append, List.mem_cons] at hb
    rcases hb with hb | hb | hb | hb | hb
    · exact absurd hb (by decide)
    · exact absurd hb (by decide)
    · exact (hhp _ hb).2.2.2.1 rfl
    · exact absurd hb (by decide)
    · exact (hpath _ hb).2.1 rfl
  have hlow : (s0 :: st).map toLower = s0 :: st := by
    have : ∀ l : Str, (∀ b ∈ l, SchemeByte b) → l.map toLower = l := by
      intro l hl
      induction l with
      | nil => rfl
      | cons c t ih =>
        simp only [List.map_cons, (schemeByte_model c (hl c List.mem_cons_self)).2.1]
        rw [ih (fun b hb => hl b (List.mem_cons_of_mem _ hb))]
    exact this _ hsc
  have hslash : cutAt (ch '/') (hp ++ ch '/' :: path) = (hp, some path) :=
    cutAt_append _ _ _ (fun h => (hhp _ h).2.2.1 rfl)
  have hau : parseAuthority hp = some hp := by
    unfold parseAuthority
    rw [cutLast_none _ _ (fun h => (hhp _ h).2.2.2.2.2.1 rfl), hauth]
  have hfp : finishPath (s0 :: st) hp (ch '/' :: path) = .ok ⟨s0 :: st, hp, ch '/' :: path⟩ := by
    unfold finishPath
    rw [unescape_path]
    intro hb
    rcases List.mem_cons.1 hb with hb | hb
    · exact absurd hb (by decide)
    · exact (hpath _ hb).1 rfl
  refine ⟨⟨s0 :: st, hp, ch '/' :: path⟩, ?_, rfl, rfl⟩
  unfold urlParse
  simp only [hcut, hctl, Option.getD_none, unescape, Option.isNone_some, Bool.false_eq_true, if_false,
    if_neg hstar, getScheme_ok s0 st _ h0 hst, hq, hlow]
  have e5 : (lit "//").isPrefixOf (ch '/' :: ch '/' :: (hp ++ ch '/' :: path)) = true := by
    have : lit "//" = [ch '/', ch '/'] := by decide
    simp [this, List.isPrefixOf]
  simp only [List.head?_cons, ne_eq, not_true_eq_false, false_and, if_false, e5, List.drop_succ_cons,
    List.drop_zero, hslash, hau, hfp]
  simp

theorem seg_path (l : Str) (h : ∀ b ∈ l, SegByte b) :
    ∀ b ∈ l, b ≠ ch '%' ∧ b ≠ ch '?' ∧ b ≠ ch '#' ∧ 0x20 ≤ b ∧ b ≠ 0x7f :=
  fun b hb => ⟨(h b hb).2.1, (h b hb).2.2.1, (h b hb).2.2.2.1, (h b hb).2.2.2.2.1, (h b hb).2.2.2.2.2⟩

/-- C57, partial: for every network address of the form scheme://host:port and all service
names and ids free of '/', '%', '?', '#' and control bytes, a circuit URL parses back to
its parts (missing: names containing '%', '?' or '#', see the counterexamples). -/
theorem C57_circuit_url_parses_back_partial (na svc peer ckt : Str) (hna : IsNetAddr na)
    (h1 : ∀ b ∈ svc, SegByte b) (h2 : ∀ b ∈ peer, SegByte b) (h3 : ∀ b ∈ ckt, SegByte b) :
    parsePeerURL (circuitURL na svc peer ckt) = .ok na svc peer ckt := by
  have e : circuitURL na svc peer ckt = na ++ ch '/' :: (svc ++ ch '/' :: (peer ++ ch '/' :: ckt)) := by
    have : lit "/" = [ch '/'] := by decide
    simp [circuitURL, this]
  obtain ⟨u, hu, hp, hn⟩ := urlParse_ok na (svc ++ ch '/' :: (peer ++ ch '/' :: ckt)) hna (by
    intro b hb
    simp only [List.mem_append, List.mem_cons] at hb
    rcases hb with hb | rfl | hb | rfl | hb
    · exact seg_path svc h1 b hb
    · decide
    · exact seg_path peer h2 b hb
    · decide
    · exact seg_path ckt h3 b hb)
  unfold parsePeerURL
  rw [e, hu]
  simp only [fromURL, hp]
  have hs := splitSlash_append [] (svc ++ ch '/' :: (peer ++ ch '/' :: ckt)) (by simp)
  rw [List.nil_append] at hs
  rw [hs, splitSlash_append svc _ (fun h => (h1 _ h).1 rfl),
    splitSlash_append peer _ (fun h => (h2 _ h).1 rfl), splitSlash_none ckt (fun h => (h3 _ h).1 rfl)]
  simp [hn]

/-- C57, partial: likewise a peer URL, which has no circuit id. -/
theorem C57_peer_url_parses_back_partial (na svc peer : Str) (hna : IsNetAddr na)
    (h1 : ∀ b ∈ svc, SegByte b) (h2 : ∀ b ∈ peer, SegByte b) :
    parsePeerURL (peerURL na svc peer) = .ok na svc peer [] := by
  have e : peerURL na svc peer = na ++ ch '/' :: (svc ++ ch '/' :: peer) := by
    have : lit "/" = [ch '/'] := by decide
    simp [peerURL, this]
  obtain ⟨u, hu, hp, hn⟩ := urlParse_ok na (svc ++ ch '/' :: peer) hna (by
    intro b hb
    simp only [List.mem_append, List.mem_cons] at hb
    rcases hb with hb | rfl | hb
    · exact seg_path svc h1 b hb
    · decide
    · exact seg_path peer h2 b hb)
  unfold parsePeerURL
  rw [e, hu]
  simp only [fromURL, hp]
  have hs := splitSlash_append [] (svc ++ ch '/' :: peer) (by simp)
  rw [List.nil_append] at hs
  rw [hs, splitSlash_append svc _ (fun h => (h1 _ h).1 rfl), splitSlash_none peer (fun h => (h2 _ h).1 rfl)]
  simp [hn]

example : IsNetAddr (lit "tcp://[::1]:8000") ∧ IsNetAddr (lit "simnet://srv_a:1") :=
  ⟨⟨ch 't', lit "cp", lit "[::1]", lit "8000", by decide, by decide, by decide, by decide,
      .inr ⟨lit "::1", by decide, by decide⟩⟩,
    ⟨ch 's', lit "imnet", lit "srv_a", lit "1", by decide, by decide, by decide, by decide,
      .inl (by decide)⟩⟩
example : ∀ b ∈ lit "tube-replica=_9", SegByte b := by decide

/-- A '?' in a service name cuts the URL off: peer and circuit id are lost silently. -/
theorem C57_question_mark_counterexample :
    parsePeerURL (circuitURL (lit "tcp://h:1") (lit "a?b") (lit "p") (lit "c")) =
      .ok (lit "tcp://h:1") (lit "a") [] [] := by decide +kernel

/-- A '#' likewise. -/
theorem C57_hash_counterexample :
    parsePeerURL (circuitURL (lit "tcp://h:1") (lit "s") (lit "p#1") (lit "c")) =
      .ok (lit "tcp://h:1") (lit "s") (lit "p") [] := by decide +kernel

/-- A percent sequence is decoded: the parts come back changed, and shifted if it is %2F. -/
theorem C57_percent_counterexample :
    parsePeerURL (circuitURL (lit "tcp://h:1") (lit "a%2Fb") (lit "p") (lit "c")) =
      .ok (lit "tcp://h:1") (lit "a") (lit "b") (lit "p") := by decide +kernel

/-- An address without scheme whose host is a name: the host is taken for a scheme and
everything else is lost, without an error. -/
theorem C57_name_without_scheme_counterexample :
    parsePeerURL (circuitURL (lit "localhost:80") (lit "s") (lit "p") (lit "c")) =
      .ok (lit "localhost://") [] [] [] := by decide +kernel

/-- Without scheme but with an IPv4 host, tcp is assumed. -/
example : parsePeerURL (circuitURL (lit "10.0.0.1:80") (lit "s") (lit "p") (lit "c")) =
    .ok (lit "tcp://10.0.0.1:80") (lit "s") (lit "p") (lit "c") := by decide +kernel

end Verif.PeerURL
