import Verif.Proofs.HostKey
/-
C74: the list of known keys.  C75: refused clients and the accept loops.
-/
namespace Verif.HostKey

/-- The file exists, can be read, and this key is in it. -/
def Listed (f : File) (pub : Text) : Prop :=
  ∃ w t hosts, f = some (w, t) ∧ readKnown t = .ok hosts ∧ ∃ k ∈ hosts, k.pubKey = pub

/-- An IP address, or anything like it, as text. -/
structure AddrOK (h : Text) : Prop where
  nonempty : h ≠ []
  noSpace : NoSpace h
  noHash : h.head? ≠ some '#'

/-- Base58 text, or anything like it. -/
structure KeyOK (p : Text) : Prop where
  noSpace : NoSpace p
  noColon : ':' ∉ p

/-- A certificate whose key encodes as such a text, and without line breaks in its
email addresses. -/
def CertOK (c : Cert) : Prop := (∀ p, c.key = some p → KeyOK p) ∧ ∀ e ∈ c.emails, '\n' ∉ e

/-- A connection attempt with such certificates from such an address. -/
def AttemptOK (a : Attempt) : Prop := (∀ c ∈ a.certs, CertOK c) ∧ ∀ h, a.host = some h → AddrOK h

/-- C74: what was written is what is read back, if no email address has white
space or a colon in it. -/
theorem C74_written_is_read_back (hosts : List KnownKey)
    (h : ∀ k ∈ hosts, AddrOK k.addr ∧ KeyOK k.pubKey ∧ NoSpace k.emails ∧ ':' ∉ k.emails) :
    readKnown (writeOut hosts) = .ok hosts := by
  have hn : ∀ k ∈ hosts, WF k := fun k hk => by
    obtain ⟨h1, h2, h3, _⟩ := h k hk
    refine ⟨h1.nonempty, h1.noSpace, h1.noHash, h2.noSpace, h2.noColon, fun hx => ?_⟩
    have := h3 _ hx
    rw [show isSpace '\n' = true by decide] at this
    cases this
  rw [read_write hn]
  congr 1
  rw [List.map_congr_left (g := id)]
  · simp
  · intro k hk
    obtain ⟨_, _, h3, h4⟩ := h k hk
    rw [cut_plain h3 h4]
    rfl

def demoHost : Text := "127.0.0.1".toList
def demoKey : Text := "9ZrrEXxvoqmj9UkgiPjHNZP41N9wuLyQTEUCg5S7VjPuJbXXL8a".toList
def demoKey2 : Text := "6v0qwCgyE6SrR7DYsuvbjih67HppzHBLPfSxnE".toList
def demoEmail : Text := "froggy@example.com".toList

theorem demoHost_ok : AddrOK demoHost := ⟨by decide, by unfold NoSpace; decide, by decide⟩
theorem demoKey_ok : KeyOK demoKey := ⟨by unfold NoSpace; decide, by decide⟩
theorem demoKey2_ok : KeyOK demoKey2 := ⟨by unfold NoSpace; decide, by decide⟩

example : ∀ k ∈ [KnownKey.mk demoHost demoKey demoEmail],
    AddrOK k.addr ∧ KeyOK k.pubKey ∧ NoSpace k.emails ∧ ':' ∉ k.emails := by
  intro k hk
  rw [List.mem_singleton] at hk
  subst hk
  exact ⟨demoHost_ok, demoKey_ok, by unfold NoSpace; decide, by decide⟩

/-- The loop in lockdown: nothing is written; accepted exactly if one of the
certificates is listed and all before it are for ed25519 keys. -/
theorem loop_lockdown (h : Text) (hosts : List KnownKey) (certs : List Cert) (bad : Bool) (hb : bad = true ∨ certs ≠ []) :
    (loop false (some h) certs hosts false bad none).2 = none ∧
    ((loop false (some h) certs hosts false bad none).1 = .accept ↔
      ∃ pre c post, certs = pre ++ c :: post ∧ (∀ x ∈ pre, x.key ≠ none) ∧
        ∃ k ∈ hosts, c.key = some k.pubKey) := by
  induction certs generalizing bad with
  | nil =>
    simp only [loop, ne_eq, not_true_eq_false, or_false] at *
    subst hb
    simp
  | cons c cs ih =>
    simp only [loop]
    cases hk : c.key with
    | none =>
      simp only [reduceCtorEq, false_iff, true_and]
      rintro ⟨pre, x, post, he, hpre, k, _, hx⟩
      cases pre with
      | nil =>
        simp only [List.nil_append, List.cons.injEq] at he
        rw [← he.1, hk] at hx
        cases hx
      | cons y pre =>
        simp only [List.cons_append, List.cons.injEq] at he
        have := hpre y (List.mem_cons_self ..)
        rw [← he.1] at this
        exact this hk
    | some pub =>
      simp only
      by_cases hf : hosts.any (fun k => k.pubKey = pub) = true
      · rw [if_pos hf]
        refine ⟨rfl, ⟨fun _ => ?_, fun _ => rfl⟩⟩
        obtain ⟨k, hk1, hk2⟩ := List.any_eq_true.1 hf
        exact ⟨[], c, cs, rfl, by simp, k, hk1, by rw [hk, of_decide_eq_true hk2]⟩
      · rw [if_neg hf]
        simp only [Bool.false_eq_true, if_false]
        obtain ⟨i1, i2⟩ := ih true (Or.inl rfl)
        refine ⟨i1, i2.trans ⟨?_, ?_⟩⟩
        · rintro ⟨pre, x, post, rfl, hpre, hx⟩
          refine ⟨c :: pre, x, post, rfl, fun y hy => ?_, hx⟩
          rcases List.mem_cons.1 hy with rfl | hy
          · rw [hk]; simp
          · exact hpre y hy
        · rintro ⟨pre, x, post, he, hpre, k, hk1, hx⟩
          cases pre with
          | nil =>
            simp only [List.nil_append, List.cons.injEq] at he
            rw [← he.1, hk] at hx
            injection hx with hx
            exfalso
            apply hf
            rw [List.any_eq_true]
            exact ⟨k, hk1, decide_eq_true hx.symm⟩
          | cons y pre =>
            simp only [List.cons_append, List.cons.injEq] at he
            exact ⟨pre, x, post, he.2, fun z hz => hpre z (List.mem_cons_of_mem _ hz), k, hk1, hx⟩

/-- C74: with a read-only file, a peer is accepted exactly if one of the
certificates it presents is for a key in the file and all it presents before that
one are for ed25519 keys; the file stays as it is. -/
theorem C74_lockdown_accepts_iff (t h : Text) (certs : List Cert) (hc : certs ≠ []) :
    (hostKeyVerifies (some (false, t)) certs (some h)).2 = some (false, t) ∧
    ((hostKeyVerifies (some (false, t)) certs (some h)).1 = .accept ↔
      ∃ pre c post pub, certs = pre ++ c :: post ∧ (∀ x ∈ pre, x.key ≠ none) ∧ c.key = some pub ∧
        Listed (some (false, t)) pub) := by
  unfold hostKeyVerifies
  simp only
  cases hr : readKnown t with
  | error e =>
    simp only [reduceCtorEq, false_iff, true_and]
    rintro ⟨_, _, _, _, _, _, _, w, t', hosts, he, hr', _⟩
    injection he with he
    injection he with _ he
    subst he
    rw [hr] at hr'
    cases hr'
  | ok hosts =>
    simp only
    rw [if_neg hc]
    obtain ⟨h1, h2⟩ := loop_lockdown h hosts certs false (Or.inr hc)
    cases hl : loop false (some h) certs hosts false false none with
    | mk v o =>
      rw [hl] at h1 h2
      simp only at h1 h2
      subst h1
      simp only [true_and]
      rw [h2]
      constructor
      · rintro ⟨pre, c, post, h3, h4, k, h5, h6⟩
        exact ⟨pre, c, post, k.pubKey, h3, h4, h6, false, t, hosts, rfl, hr, k, h5, rfl⟩
      · rintro ⟨pre, c, post, pub, h3, h4, h5, w, t', hosts', he, hr', k, h6, h7⟩
        injection he with he
        injection he with _ he
        subst he
        rw [hr] at hr'
        injection hr' with hr'
        subst hr'
        exact ⟨pre, c, post, h3, h4, k, h6, by rw [h5, h7]⟩

def demoFile : Text := writeOut [⟨demoHost, demoKey, demoEmail⟩]

example : (hostKeyVerifies (some (false, demoFile)) [⟨some demoKey2, []⟩] (some demoHost)).1 = .refuse ∧
    (hostKeyVerifies (some (false, demoFile)) [⟨some demoKey, []⟩] (some demoHost)).1 = .accept := by
  decide +kernel

/-- C74, the part about the peer's own key that holds: a peer that presents one
certificate is accepted in lockdown exactly if its key is in the file.  Missing:
peers that present several. -/
theorem C74_lockdown_own_key_partial (t h pub : Text) (emails : List Text) :
    (hostKeyVerifies (some (false, t)) [⟨some pub, emails⟩] (some h)).1 = .accept ↔
      Listed (some (false, t)) pub := by
  rw [(C74_lockdown_accepts_iff t h [⟨some pub, emails⟩] (by simp)).2]
  constructor
  · rintro ⟨pre, c, post, p, he, _, hk, hl⟩
    cases pre with
    | nil =>
      simp only [List.nil_append, List.cons.injEq] at he
      rw [← he.1] at hk
      injection hk with hk
      rw [hk]
      exact hl
    | cons y pre => simp at he
  · intro hl
    exact ⟨[], _, [], pub, rfl, by simp, rfl, hl⟩

/-- C74 fails for peers that present several: only of the first certificate (the
leaf) has the peer shown, in the TLS handshake, that it holds the private key,
but an unknown peer that appends the certificate of a known one is accepted. -/
theorem C74_appended_certificate_counterexample (t h leaf known : Text) (hl : Listed (some (false, t)) known) :
    (hostKeyVerifies (some (false, t)) [⟨some leaf, []⟩, ⟨some known, []⟩] (some h)).1 = .accept := by
  rw [(C74_lockdown_accepts_iff t h _ (by simp)).2]
  exact ⟨[⟨some leaf, []⟩], ⟨some known, []⟩, [], known, rfl, by simp, rfl, hl⟩

theorem readKnown_ok {t : Text} {hosts : List KnownKey} (h : (readKnown t).toOption = some hosts) :
    readKnown t = .ok hosts := by
  cases hr : readKnown t with
  | error e => rw [hr] at h; cases h
  | ok l => rw [hr] at h; injection h with h; rw [h]

theorem readKnown_error {t : Text} (h : (readKnown t).toOption = none) : readKnown t = .error () := by
  cases hr : readKnown t with
  | error e => rfl
  | ok l => rw [hr] at h; cases h

theorem demo_listed : Listed (some (false, demoFile)) demoKey :=
  ⟨false, demoFile, [⟨demoHost, demoKey, demoEmail⟩], rfl, readKnown_ok (by decide +kernel), _,
    List.mem_singleton_self _, rfl⟩

example : Listed (some (false, demoFile)) demoKey ∧ demoKey2 ≠ demoKey :=
  ⟨demo_listed, by decide⟩

/-- What the loop writes: the entries so far, all kept, and more, all well-formed. -/
theorem joinComma_mem {es : List Text} {c : Char} (h : c ∈ joinComma es) : c = ',' ∨ ∃ e ∈ es, c ∈ e := by
  induction es with
  | nil => simp [joinComma] at h
  | cons e es ih =>
    cases es with
    | nil => exact Or.inr ⟨e, by simp, by simpa [joinComma] using h⟩
    | cons e' es =>
      simp only [joinComma, List.mem_append, List.mem_cons] at h
      rcases h with h | h | h
      · exact Or.inr ⟨e, by simp, h⟩
      · exact Or.inl h
      · rcases ih (by simpa [joinComma] using h) with h | ⟨x, hx, hc⟩
        · exact Or.inl h
        · exact Or.inr ⟨x, List.mem_cons_of_mem _ hx, hc⟩

theorem add_spec (hosts : List KnownKey) (k : KnownKey) :
    (∀ x ∈ hosts, x ∈ add hosts k) ∧ (∀ x ∈ add hosts k, x ∈ hosts ∨ x = k) ∧
    ∃ x ∈ add hosts k, x.pubKey = k.pubKey := by
  unfold add
  by_cases h : hosts.any (fun h => h.pubKey = k.pubKey) = true
  · rw [if_pos h]
    obtain ⟨x, h1, h2⟩ := List.any_eq_true.1 h
    exact ⟨fun _ h => h, fun _ h => Or.inl h, x, h1, of_decide_eq_true h2⟩
  · rw [if_neg h]
    refine ⟨fun x hx => by simp [hx], fun x hx => by simpa using hx, k, by simp, rfl⟩

theorem loop_out {tofu : Bool} {host : Option Text} (hh : ∀ h, host = some h → AddrOK h) {certs : List Cert}
    (hc : ∀ c ∈ certs, CertOK c) {hosts : List KnownKey} (hw : ∀ k ∈ hosts, WF k) {good bad : Bool}
    {out : Option Text} (ho : out = none ∨ out = some (writeOut hosts)) :
    (loop tofu host certs hosts good bad out).2 = out ∨
    ∃ hosts', (loop tofu host certs hosts good bad out).2 = some (writeOut hosts') ∧ (∀ k ∈ hosts, k ∈ hosts') ∧
      ∀ k ∈ hosts', WF k := by
  induction certs generalizing hosts good bad out with
  | nil => exact Or.inl rfl
  | cons c cs ih =>
    simp only [loop]
    cases hk : c.key with
    | none => exact Or.inl rfl
    | some pub =>
      cases host with
      | none => exact Or.inl rfl
      | some h =>
        simp only
        by_cases hf : hosts.any (fun k => k.pubKey = pub) = true
        · rw [if_pos hf]; exact Or.inl rfl
        · rw [if_neg hf]
          cases tofu with
          | false =>
            simp only [Bool.false_eq_true, if_false]
            exact ih (fun x hx => hc x (List.mem_cons_of_mem _ hx)) hw ho
          | true =>
            simp only [if_true]
            have hcc := hc c (List.mem_cons_self ..)
            have hao := hh h rfl
            have hw' : ∀ k ∈ add hosts ⟨h, pub, joinComma c.emails⟩, WF k := by
              intro k hk'
              rcases (add_spec hosts ⟨h, pub, joinComma c.emails⟩).2.1 k hk' with h' | rfl
              · exact hw k h'
              · have hp := hcc.1 pub hk
                refine ⟨hao.nonempty, hao.noSpace, hao.noHash, hp.noSpace, hp.noColon, fun hx => ?_⟩
                rcases joinComma_mem hx with hx | ⟨e, he, hx⟩
                · cases hx
                · exact hcc.2 e he hx
            have hkeep := (add_spec hosts ⟨h, pub, joinComma c.emails⟩).1
            rcases ih (fun x hx => hc x (List.mem_cons_of_mem _ hx)) hw' (good := true) (bad := bad)
              (out := some (writeOut (add hosts ⟨h, pub, joinComma c.emails⟩))) (Or.inr rfl) with h1 | ⟨hosts', h1, h2, h3⟩
            · exact Or.inr ⟨_, h1, hkeep, hw'⟩
            · exact Or.inr ⟨hosts', h1, fun k hk' => h2 k (hkeep k hk'), h3⟩

/-- Keys survive reading and writing. -/
theorem listed_writeOut {w : Bool} {hosts : List KnownKey} (hw : ∀ k ∈ hosts, WF k) {k : KnownKey} (hk : k ∈ hosts) :
    Listed (some (w, writeOut hosts)) k.pubKey :=
  ⟨w, _, _, rfl, read_write hw, ⟨k.addr, k.pubKey, cut k.emails⟩, List.mem_map.2 ⟨k, hk, rfl⟩, rfl⟩

theorem listed_chmod {w : Bool} {f : File} {pub : Text} (h : Listed f pub) : Listed (chmod w f) pub := by
  obtain ⟨w', t, hosts, rfl, h1, h2⟩ := h
  exact ⟨w, t, hosts, rfl, h1, h2⟩

/-- C74: no connection attempt, refused, accepted or crashing, removes a key. -/
theorem C74_keys_are_never_removed (f : File) (a : Attempt) (ha : AttemptOK a) (pub : Text) (h : Listed f pub) :
    Listed (hostKeyVerifies f a.certs a.host).2 pub := by
  obtain ⟨w, t, hosts, rfl, hr, k, hk, rfl⟩ := h
  unfold hostKeyVerifies
  simp only [hr]
  by_cases hc : a.certs = []
  · rw [if_pos hc]
    exact ⟨w, t, hosts, rfl, hr, k, hk, rfl⟩
  · rw [if_neg hc]
    have hwf : ∀ k ∈ hosts, WF k := fun k hk => (readLines_wf hr k hk).1
    cases hl : loop w a.host a.certs hosts false false none with
    | mk v o =>
      have := loop_out (tofu := w) ha.2 ha.1 hwf (good := false) (bad := false) (out := none) (Or.inl rfl)
      rw [hl] at this
      simp only at this
      rcases this with rfl | ⟨hosts', rfl, h2, h3⟩
      · exact ⟨w, t, hosts, rfl, hr, k, hk, rfl⟩
      · exact listed_writeOut h3 (h2 k hk)

/-- C74: nor does any sequence of them, with the file made writable and read-only
in between. -/
theorem C74_keys_are_never_removed_by_any_sequence (f : File) (as : List Attempt) (ha : ∀ a ∈ as, AttemptOK a)
    (pub : Text) (h : Listed f pub) : Listed (attempts f as) pub := by
  induction as generalizing f with
  | nil => exact h
  | cons a as ih =>
    exact ih _ (fun x hx => ha x (List.mem_cons_of_mem _ hx))
      (C74_keys_are_never_removed _ a (ha a (List.mem_cons_self ..)) pub (listed_chmod h))

theorem loop_tofu_accepts {h : Text} {certs : List Cert} (hk : ∀ c ∈ certs, c.key ≠ none) {hosts : List KnownKey}
    {good bad : Bool} {out : Option Text} (hb : bad = false) :
    (loop true (some h) certs hosts good bad out).1 = .accept := by
  induction certs generalizing hosts good out with
  | nil => subst hb; simp [loop]
  | cons c cs ih =>
    simp only [loop]
    cases hc : c.key with
    | none => exact absurd hc (hk c (List.mem_cons_self ..))
    | some pub =>
      simp only
      by_cases hf : hosts.any (fun k => k.pubKey = pub) = true
      · rw [if_pos hf]
      · rw [if_neg hf]
        simp only [if_true]
        exact ih (fun x hx => hk x (List.mem_cons_of_mem _ hx))

/-- C74: with a readable and writable file, a peer with ed25519 certificates is
accepted, and the key of its leaf certificate is in the file from then on:
whatever attempts follow, and once the file is made read-only, the peer is still
accepted. -/
theorem C74_first_use_is_remembered (t h leaf : Text) (emails : List Text) (more : List Cert)
    (hr : ∃ hosts, readKnown t = .ok hosts) (hk : ∀ c ∈ more, c.key ≠ none)
    (ha : AttemptOK ⟨⟨some leaf, emails⟩ :: more, some h, true⟩) (as : List Attempt) (has : ∀ a ∈ as, AttemptOK a)
    (h2 : Text) (more2 : List Cert) :
    (hostKeyVerifies (some (true, t)) (⟨some leaf, emails⟩ :: more) (some h)).1 = .accept ∧
    Listed (attempts (some (true, t)) (⟨⟨some leaf, emails⟩ :: more, some h, true⟩ :: as)) leaf ∧
    (hostKeyVerifies (chmod false (attempts (some (true, t)) (⟨⟨some leaf, emails⟩ :: more, some h, true⟩ :: as)))
      (⟨some leaf, emails⟩ :: more2) (some h2)).1 = .accept := by
  obtain ⟨hosts, hr⟩ := hr
  have hwf : ∀ k ∈ hosts, WF k := fun k hk => (readLines_wf hr k hk).1
  have hacc : (hostKeyVerifies (some (true, t)) (⟨some leaf, emails⟩ :: more) (some h)).1 = .accept := by
    unfold hostKeyVerifies
    simp only [hr, reduceCtorEq, if_false]
    have := loop_tofu_accepts (h := h) (certs := ⟨some leaf, emails⟩ :: more) (fun c hc => by
      rcases List.mem_cons.1 hc with rfl | hc
      · simp
      · exact hk c hc) (hosts := hosts) (good := false) (bad := false) (out := none) rfl
    cases hl : loop true (some h) (⟨some leaf, emails⟩ :: more) hosts false false none with
    | mk v o =>
      rw [hl] at this
      cases o <;> exact this
  have hfirst : Listed (hostKeyVerifies (some (true, t)) (⟨some leaf, emails⟩ :: more) (some h)).2 leaf := by
    by_cases hf : hosts.any (fun k => k.pubKey = leaf) = true
    · obtain ⟨k, h1, h2⟩ := List.any_eq_true.1 hf
      have hl : Listed (some (true, t)) leaf := ⟨true, t, hosts, rfl, hr, k, h1, of_decide_eq_true h2⟩
      exact C74_keys_are_never_removed _ ⟨⟨some leaf, emails⟩ :: more, some h, true⟩ ha leaf hl
    · unfold hostKeyVerifies
      simp only [hr, reduceCtorEq, if_false, loop]
      rw [if_neg hf]
      simp only [if_true]
      have hcc := ha.1 ⟨some leaf, emails⟩ (List.mem_cons_self ..)
      have hao := ha.2 h rfl
      have hw' : ∀ k ∈ add hosts ⟨h, leaf, joinComma emails⟩, WF k := by
        intro k hk'
        rcases (add_spec hosts ⟨h, leaf, joinComma emails⟩).2.1 k hk' with h' | rfl
        · exact hwf k h'
        · have hp := hcc.1 leaf rfl
          refine ⟨hao.nonempty, hao.noSpace, hao.noHash, hp.noSpace, hp.noColon, fun hx => ?_⟩
          rcases joinComma_mem hx with hx | ⟨e, he, hx⟩
          · cases hx
          · exact hcc.2 e he hx
      obtain ⟨x, hx1, hx2⟩ := (add_spec hosts ⟨h, leaf, joinComma emails⟩).2.2
      rcases loop_out (tofu := true) ha.2 (fun c hc => ha.1 c (List.mem_cons_of_mem _ hc)) hw' (good := true)
        (bad := false) (Or.inr rfl) with h1 | ⟨hosts', h1, h3, h4⟩
      · cases hl : loop true (some h) more (add hosts ⟨h, leaf, joinComma emails⟩) true false
          (some (writeOut (add hosts ⟨h, leaf, joinComma emails⟩))) with
        | mk v o =>
          rw [hl] at h1
          simp only at h1
          subst h1
          have hlist := listed_writeOut (w := true) hw' hx1
          rw [show x.pubKey = leaf from hx2] at hlist
          exact hlist
      · cases hl : loop true (some h) more (add hosts ⟨h, leaf, joinComma emails⟩) true false
          (some (writeOut (add hosts ⟨h, leaf, joinComma emails⟩))) with
        | mk v o =>
          rw [hl] at h1
          simp only at h1
          subst h1
          have hlist := listed_writeOut (w := true) h4 (h3 x hx1)
          rw [show x.pubKey = leaf from hx2] at hlist
          exact hlist
  have hall : Listed (attempts (some (true, t)) (⟨⟨some leaf, emails⟩ :: more, some h, true⟩ :: as)) leaf :=
    C74_keys_are_never_removed_by_any_sequence _ as has leaf hfirst
  refine ⟨hacc, hall, ?_⟩
  obtain ⟨w, t', hosts', he, hr', k, hk', hp⟩ := hall
  rw [he]
  show (hostKeyVerifies (some (false, t')) _ _).1 = _
  rw [(C74_lockdown_accepts_iff t' h2 _ (by simp)).2]
  exact ⟨[], _, more2, leaf, rfl, by simp, rfl, false, t', hosts', rfl, hr', k, hk', hp⟩

example : (∃ hosts, readKnown [] = .ok hosts) ∧ AttemptOK ⟨[⟨some demoKey, [demoEmail]⟩], some demoHost, true⟩ := by
  refine ⟨⟨[], rfl⟩, ?_, ?_⟩
  · intro c hc
    rw [List.mem_singleton] at hc
    subst hc
    refine ⟨fun p hp => ?_, fun e he => ?_⟩
    · injection hp with hp
      subst hp
      exact demoKey_ok
    · rw [List.mem_singleton] at he
      subst he
      decide
  · intro h hh
    injection hh with hh
    subst hh
    exact demoHost_ok

/-- C74: without a file, every peer with ed25519 certificates is accepted and
nothing is remembered. -/
theorem C74_no_file (certs : List Cert) (host : Option Text) (hc : certs ≠ []) :
    (hostKeyVerifies none certs host).2 = none ∧
    ((hostKeyVerifies none certs host).1 = .accept ↔ ∀ c ∈ certs, c.key ≠ none) := by
  unfold hostKeyVerifies
  simp only
  rw [if_neg hc]
  refine ⟨rfl, ?_⟩
  clear hc
  induction certs with
  | nil => simp [loopNoFile]
  | cons c cs ih =>
    simp only [loopNoFile]
    cases hk : c.key with
    | none => simp [hk]
    | some p => simpa [hk] using ih

/-- C74 fails without the condition on email addresses: one with a line break in
it makes a file that cannot be read any more, and all peers are refused, the
known ones included; or it adds a key that nobody presented. -/
theorem C74_email_line_break_counterexample :
    (let f := (hostKeyVerifies (some (true, demoFile)) [⟨some demoKey2, ["a\nb c".toList]⟩] (some demoHost)).2
     ∀ w certs host, certs ≠ [] → (hostKeyVerifies (chmod w f) certs host).1 = .refuse) ∧
    (∃ e, Listed (hostKeyVerifies (some (true, [])) [⟨some demoKey2, [e]⟩] (some demoHost)).2 demoKey) := by
  constructor
  · intro f w certs host hc
    have hf : ∃ t, f = some (true, t) ∧ readKnown t = .error () :=
      ⟨writeOut [⟨demoHost, demoKey, demoEmail⟩, ⟨demoHost, demoKey2, "a\nb c".toList⟩], by
        show Prod.snd _ = _
        decide +kernel, readKnown_error (by decide +kernel)⟩
    obtain ⟨t, h1, h2⟩ := hf
    rw [h1]
    unfold hostKeyVerifies chmod
    simp only [h2]
  · refine ⟨'a' :: '\n' :: (KnownKey.text ⟨demoHost, demoKey, []⟩), true, _, [⟨demoHost, demoKey2, ['a']⟩,
      ⟨demoHost, demoKey, []⟩], rfl, ?_, ⟨demoHost, demoKey, []⟩, by simp, rfl⟩
    exact readKnown_ok (by decide +kernel)

/-- C74 fails for connections handled at the same time (each TLS connection has a
goroutine of its own, and nothing locks the file): both read the file, both are
accepted, and the one that writes last removes the key of the other. -/
theorem C74_race_counterexample :
    (hostKeyVerifies (some (true, [])) [⟨some demoKey, []⟩] (some demoHost)).1 = .accept ∧
    (hostKeyVerifies (some (true, [])) [⟨some demoKey2, []⟩] (some demoHost)).1 = .accept ∧
    ¬ Listed (hostKeyVerifies (some (true, [])) [⟨some demoKey2, []⟩] (some demoHost)).2 demoKey := by
  refine ⟨by decide +kernel, by decide +kernel, ?_⟩
  have h : readKnown (writeOut [⟨demoHost, demoKey2, []⟩]) = .ok [⟨demoHost, demoKey2, []⟩] :=
    readKnown_ok (by decide +kernel)
  have he : (hostKeyVerifies (some (true, [])) [⟨some demoKey2, []⟩] (some demoHost)).2 =
      some (true, writeOut [⟨demoHost, demoKey2, []⟩]) := by decide +kernel
  rw [he]
  rintro ⟨w, t, hosts, h1, h2, k, h3, h4⟩
  injection h1 with h1
  injection h1 with _ h1
  rw [← h1, h] at h2
  injection h2 with h2
  rw [← h2, List.mem_singleton] at h3
  subst h3
  exact absurd h4 (by decide)

/-- C74, against the documentation (cli.go:1124-1127, "the server will notice this
and crash"): an empty read-only file does not crash the server, it refuses all. -/
theorem C74_empty_lockdown_refuses (h : Text) (certs : List Cert) (hc : certs ≠ []) :
    (hostKeyVerifies (some (false, [])) certs (some h)).1 = .refuse := by
  unfold hostKeyVerifies
  have hr : readKnown [] = .ok [] := rfl
  simp only [hr]
  rw [if_neg hc]
  have key : ∀ (certs : List Cert) (bad : Bool), (bad = true ∨ certs ≠ []) →
      loop false (some h) certs [] false bad none = (.refuse, none) := by
    intro certs
    induction certs with
    | nil => intro bad hb; simp only [ne_eq, not_true_eq_false, or_false] at hb; subst hb; rfl
    | cons c cs ih =>
      intro bad _
      simp only [loop]
      cases c.key with
      | none => rfl
      | some p => simpa using ih true (Or.inl rfl)
  rw [key certs false (Or.inr hc)]

example : [Cert.mk (some demoKey) []] ≠ [] := by simp

/-! ### C75 -/

/-- C75, the part that holds, TLS without a limit on connections: whoever was
refused before, the next client is still taken. -/
theorem C75_refusals_do_not_stop_tls_partial (es : List SrvEv) (s : Srv)
    (h : srvRun (acceptTLS none) srvInit es = some s) (f : Fate) : ∃ s', acceptTLS none s f = some s' := by
  have key : ∀ (es : List SrvEv) (s0 s : Srv), s0.running = true → srvRun (acceptTLS none) s0 es = some s →
      s.running = true := by
    intro es
    induction es with
    | nil => intro s0 s h0 h; simp only [srvRun, Option.some.injEq] at h; subst h; exact h0
    | cons e es ih =>
      intro s0 s h0 h
      cases e with
      | attempt f =>
        simp only [srvRun] at h
        cases hs : acceptTLS none s0 f with
        | none => rw [hs] at h; cases h
        | some s1 =>
          rw [hs] at h
          refine ih s1 s ?_ h
          unfold acceptTLS at hs
          rw [if_neg (by simp [h0])] at hs
          cases f <;> simp at hs <;> subst hs <;> exact h0
      | finish =>
        simp only [srvRun] at h
        cases hs : finish s0 with
        | none => rw [hs] at h; cases h
        | some s1 =>
          rw [hs] at h
          refine ih s1 s ?_ h
          unfold finish at hs
          split at hs
          · cases hs
          · injection hs with hs; subst hs; exact h0
  have hr := key es srvInit s rfl h
  unfold acceptTLS
  rw [if_neg (by simp [hr])]
  cases f <;> exact ⟨_, rfl⟩

/-- C75, with a limit: as long as nobody was refused after the TLS handshake, the
connections held are those being served, so a client is taken whenever fewer than
the limit are being served.  Missing: the same when clients are refused. -/
theorem C75_limit_counts_served_partial (n : Nat) (es : List SrvEv) (s : Srv)
    (h : srvRun (acceptTLS (some n)) srvInit es = some s)
    (hes : ∀ e ∈ es, e ≠ .attempt .keysRefused ∧ e ≠ .attempt .pskFails) :
    s.held = s.live ∧ (s.live < n → ∀ f, ∃ s', acceptTLS (some n) s f = some s') := by
  have key : ∀ (es : List SrvEv) (s0 s : Srv), s0.running = true → s0.held = s0.live →
      (∀ e ∈ es, e ≠ .attempt .keysRefused ∧ e ≠ .attempt .pskFails) →
      srvRun (acceptTLS (some n)) s0 es = some s → s.running = true ∧ s.held = s.live := by
    intro es
    induction es with
    | nil => intro s0 s h0 h1 _ h; simp only [srvRun, Option.some.injEq] at h; subst h; exact ⟨h0, h1⟩
    | cons e es ih =>
      intro s0 s h0 h1 he h
      have he' := fun x hx => he x (List.mem_cons_of_mem _ hx)
      cases e with
      | attempt f =>
        simp only [srvRun] at h
        cases hs : acceptTLS (some n) s0 f with
        | none => rw [hs] at h; cases h
        | some s1 =>
          rw [hs] at h
          have : s1.running = true ∧ s1.held = s1.live := by
            unfold acceptTLS at hs
            rw [if_neg (by simp [h0])] at hs
            by_cases hn : n ≤ s0.held
            · rw [if_pos (by simp [hn])] at hs; cases hs
            · rw [if_neg (by simp [hn])] at hs
              have := he (.attempt f) (List.mem_cons_self ..)
              cases f with
              | tlsFails => simp at hs; subst hs; exact ⟨h0, h1⟩
              | keysRefused => exact absurd rfl this.1
              | pskFails => exact absurd rfl this.2
              | served => simp at hs; subst hs; exact ⟨h0, by simp [h1]⟩
          exact ih s1 s this.1 this.2 he' h
      | finish =>
        simp only [srvRun] at h
        cases hs : finish s0 with
        | none => rw [hs] at h; cases h
        | some s1 =>
          rw [hs] at h
          have : s1.running = true ∧ s1.held = s1.live := by
            unfold finish at hs
            split at hs
            · cases hs
            · injection hs with hs; subst hs; exact ⟨h0, by simp [h1]⟩
          exact ih s1 s this.1 this.2 he' h
  obtain ⟨h1, h2⟩ := key es srvInit s rfl rfl hes h
  refine ⟨h2, fun hn f => ?_⟩
  unfold acceptTLS
  rw [if_neg (by simp [h1]), if_neg (by simp; omega)]
  cases f <;> exact ⟨_, rfl⟩

example : srvRun (acceptTLS (some 100)) srvInit [.attempt .tlsFails, .attempt .served, .attempt .served, .finish] =
    some ⟨true, 1, 1⟩ := by decide

/-- C75 fails with a limit on connections: connections refused after the TLS
handshake are never closed, and after `n` of them, with nobody being served, no
client is ever taken again. -/
theorem C75_refused_connections_use_up_the_limit_counterexample (n : Nat) (f : Fate)
    (hf : f = .keysRefused ∨ f = .pskFails) :
    ∃ s, srvRun (acceptTLS (some n)) srvInit (List.replicate n (.attempt f)) = some s ∧ s.live = 0 ∧
      ∀ es, es ≠ [] → srvRun (acceptTLS (some n)) s es = none := by
  have key : ∀ (m k : Nat), k + m = n → srvRun (acceptTLS (some n)) ⟨true, k, 0⟩ (List.replicate m (.attempt f)) =
      some ⟨true, n, 0⟩ := by
    intro m
    induction m with
    | zero => intro k hk; simp at hk; subst hk; rfl
    | succ m ih =>
      intro k hk
      have hs : acceptTLS (some n) ⟨true, k, 0⟩ f = some ⟨true, k + 1, 0⟩ := by
        unfold acceptTLS
        rw [if_neg (by simp), if_neg (by simp; omega)]
        rcases hf with rfl | rfl <;> rfl
      simp only [List.replicate_succ, srvRun, hs]
      exact ih (k + 1) (by omega)
  refine ⟨⟨true, n, 0⟩, key n 0 (by omega), rfl, fun es hes => ?_⟩
  cases es with
  | nil => exact absurd rfl hes
  | cons e es =>
    cases e with
    | attempt g => simp [srvRun, acceptTLS]
    | finish => simp [srvRun, finish]

/-- C75 fails for QUIC: one client whose key is refused ends the accept loop; no
client is ever taken again. -/
theorem C75_one_refusal_stops_quic_counterexample :
    ∃ s, srvRun acceptQUIC srvInit [.attempt .keysRefused] = some s ∧
      ∀ f es, srvRun acceptQUIC s (.attempt f :: es) = none :=
  ⟨⟨false, 0, 0⟩, rfl, fun f es => by simp [srvRun, acceptQUIC]⟩

/-- C75, the part that holds for QUIC: if no client's key was refused, the next
client is taken.  Missing: when one was. -/
theorem C75_quic_without_refused_keys_partial (es : List SrvEv) (s : Srv)
    (h : srvRun acceptQUIC srvInit es = some s) (hes : ∀ e ∈ es, e ≠ .attempt .keysRefused) (f : Fate) :
    ∃ s', acceptQUIC s f = some s' := by
  have key : ∀ (es : List SrvEv) (s0 s : Srv), s0.running = true → (∀ e ∈ es, e ≠ .attempt .keysRefused) →
      srvRun acceptQUIC s0 es = some s → s.running = true := by
    intro es
    induction es with
    | nil => intro s0 s h0 _ h; simp only [srvRun, Option.some.injEq] at h; subst h; exact h0
    | cons e es ih =>
      intro s0 s h0 he h
      have he' := fun x hx => he x (List.mem_cons_of_mem _ hx)
      cases e with
      | attempt f =>
        simp only [srvRun] at h
        cases hs : acceptQUIC s0 f with
        | none => rw [hs] at h; cases h
        | some s1 =>
          rw [hs] at h
          refine ih s1 s ?_ he' h
          unfold acceptQUIC at hs
          rw [if_neg (by simp [h0])] at hs
          have := he (.attempt f) (List.mem_cons_self ..)
          cases f with
          | tlsFails => simp at hs; subst hs; exact h0
          | keysRefused => exact absurd rfl this
          | pskFails => simp at hs; subst hs; exact h0
          | served => simp at hs; subst hs; exact h0
      | finish =>
        simp only [srvRun] at h
        cases hs : finish s0 with
        | none => rw [hs] at h; cases h
        | some s1 =>
          rw [hs] at h
          refine ih s1 s ?_ he' h
          unfold finish at hs
          split at hs
          · cases hs
          · injection hs with hs; subst hs; exact h0
  have hr := key es srvInit s rfl hes h
  unfold acceptQUIC
  rw [if_neg (by simp [hr])]
  cases f <;> exact ⟨_, rfl⟩

example : srvRun acceptQUIC srvInit [.attempt .pskFails, .attempt .served] = some ⟨true, 1, 1⟩ := by decide

end Verif.HostKey
