import Verif.Model.ProdCfg
import Verif.Model.Lease

/-! C147: the configuration of a replica in production. -/

namespace Verif.ProdCfg

/-- A value that fits a duration. -/
def Fits (x : Int) : Prop := -(2 ^ 63) ≤ x ∧ x < 2 ^ 63

/-- What the timings of a replica have to meet. -/
structure Sane (c : Cfg) : Prop where
  hb : 5000000 ≤ c.hb
  elec : 50000000 ≤ c.minElec
  beats : 5 * c.hb ≤ c.minElec
  drift : 2 * c.drift < c.minElec
  driftMax : c.drift ≤ 60000000000
  batch : 0 ≤ c.batch ∧ c.batch ≤ 10000000000
  fault : c.noFaultTol ≤ 7200000000000

theorem wrap_id {x : Int} (h1 : -(2 ^ 63) ≤ x) (h2 : x < 2 ^ 63) : wrap x = x := by
  unfold wrap
  rw [Int.bmod_def]
  split <;> omega

theorem timing_iff (c : Cfg) (h5 : 5 * c.hb < 2 ^ 63) (hd : 0 < c.drift) :
    timingOK c = true ↔ Sane c := by
  constructor
  · intro h
    simp only [timingOK, Bool.and_eq_true, Bool.not_eq_true', decide_eq_false_iff_not,
      Bool.or_eq_false_iff] at h
    simp only [ms] at h
    obtain ⟨⟨⟨⟨⟨⟨h1, h2⟩, h3⟩, h4⟩, h6⟩, h7⟩, h8, h9⟩ := h
    rw [wrap_id (by omega) (by omega)] at h6 h7
    exact ⟨by omega, by omega, by omega, by omega, by omega, ⟨by omega, by omega⟩, by omega⟩
  · intro ⟨h1, h2, h3, h4, h6, h7, h8⟩
    simp only [timingOK, Bool.and_eq_true, Bool.not_eq_true', decide_eq_false_iff_not,
      Bool.or_eq_false_iff]
    simp only [ms]
    rw [wrap_id (by omega) (by omega), wrap_id (by omega) (by omega)]
    refine ⟨⟨⟨⟨⟨⟨?_, ?_⟩, ?_⟩, ?_⟩, ?_⟩, ?_⟩, ?_, ?_⟩ <;> omega

/-- The check changes nothing but the limit of replicas, and says no exactly when one of the
conditions listed fails. -/
theorem C147_check (c : Cfg) (rep : Bool) (c' : Cfg) :
    check c rep = some c' ↔
      c.service ≠ "" ∧ c.name ≠ "" ∧ c.cluster ≠ "" ∧ c.simNet = false ∧ c.confDir ≠ some false ∧
      (rep = true → c.dataDir ≠ some false ∧ c.noDisk = false ∧ timingOK c = true ∧ c.me ∈ c.nodes) ∧
      ∃ r l, c.rpc = some r ∧ c.noTLS = r.noTLS ∧
        (c.noTLS = false → r.clientKey ≠ "" ∧ r.serverKey ≠ "") ∧ r.simNet = false ∧ r.autoCli = true ∧
        SvcLimit.check r.limits = some l ∧ c' = { c with rpc := some { r with limits := l } } := by
  unfold check
  constructor
  · intro h
    by_cases h1 : c.service = ""
    · rw [if_pos h1] at h; cases h
    rw [if_neg h1] at h
    by_cases h2 : c.name = ""
    · rw [if_pos h2] at h; cases h
    rw [if_neg h2] at h
    by_cases h3 : c.cluster = ""
    · rw [if_pos h3] at h; cases h
    rw [if_neg h3] at h
    by_cases h4 : c.simNet = true
    · rw [if_pos h4] at h; cases h
    rw [if_neg h4] at h
    cases hr : c.rpc with
    | none => rw [hr] at h; cases h
    | some r =>
    rw [hr] at h
    dsimp only at h
    by_cases h5 : c.noTLS ≠ r.noTLS
    · rw [if_pos h5] at h; cases h
    rw [if_neg h5] at h
    by_cases h6 : (!c.noTLS && (r.clientKey = "" || r.serverKey = "")) = true
    · rw [if_pos h6] at h; cases h
    rw [if_neg h6] at h
    by_cases h7 : c.confDir = some false
    · rw [if_pos h7] at h; cases h
    rw [if_neg h7] at h
    by_cases h8 : (c.dataDir = some false && rep) = true
    · rw [if_pos h8] at h; cases h
    rw [if_neg h8] at h
    by_cases h9 : (rep && (c.noDisk || !timingOK c)) = true
    · rw [if_pos h9] at h; cases h
    rw [if_neg h9] at h
    by_cases h10 : r.simNet = true
    · rw [if_pos h10] at h; cases h
    rw [if_neg h10] at h
    by_cases h11 : (!r.autoCli) = true
    · rw [if_pos h11] at h; cases h
    rw [if_neg h11] at h
    by_cases h12 : (rep && !(c.nodes.contains c.me)) = true
    · rw [if_pos h12] at h; cases h
    rw [if_neg h12] at h
    obtain ⟨l, hl, rfl⟩ := Option.map_eq_some_iff.1 h
    refine ⟨h1, h2, h3, by simpa using h4, h7, ?_, r, l, rfl, by simpa using h5, ?_, by simpa using h10,
      by simpa using h11, hl, rfl⟩
    · intro hrep
      subst hrep
      simp only [Bool.and_true, decide_eq_true_eq, Bool.true_and, Bool.or_eq_true, Bool.not_eq_true',
        not_or, Bool.not_eq_true, Bool.not_eq_false, List.contains_iff_mem] at h8 h9 h12
      exact ⟨h8, h9.1, h9.2, h12⟩
    · intro ht
      simpa [ht] using h6
  · rintro ⟨h1, h2, h3, h4, h5, h6, r, l, hr, h7, h8, h9, h10, hl, rfl⟩
    simp only [if_neg h1, if_neg h2, if_neg h3, h4, hr, if_neg h5, h9, h10, hl, Option.map_some]
    cases rep with
    | true =>
      obtain ⟨a, b, d, e⟩ := h6 rfl
      cases ht : c.noTLS with
      | true => rw [ht] at h7; simp [← h7, a, b, d, e]
      | false => rw [ht] at h7; simp [← h7, a, b, d, e, h8 ht]
    | false =>
      cases ht : c.noTLS with
      | true => rw [ht] at h7; simp [← h7]
      | false => rw [ht] at h7; simp [← h7, h8 ht]

/-- A replica starts exactly with sane timings (after the defaults) and the other settings in order;
durations above zero are as given, others the defaults. Heartbeats whose fivefold does not fit are
excluded. -/
theorem C147_start_partial (c : Cfg) (h5 : 5 * c.hb < 2 ^ 63) (c' : Cfg) (h : start c false = some c') :
    Sane c' ∧ 0 < c'.drift ∧
    c'.hb = (if c.hb ≤ 0 then 200000000 else c.hb) ∧
    c'.minElec = (if c.minElec ≤ 0 then 1200000000 else c.minElec) ∧
    c'.drift = (if c.drift ≤ 0 then 500000000 else c.drift) ∧
    c'.batch = c.batch ∧ c'.noFaultTol = c.noFaultTol ∧ c'.noDisk = false ∧ c'.me ∈ c'.nodes := by
  obtain ⟨_, _, _, _, _, hrep, r, l, _, _, _, _, _, _, rfl⟩ := (C147_check _ _ _).1 h
  obtain ⟨_, hnd, ht, hme⟩ := hrep rfl
  have hd : 0 < (defaults c).drift := by
    simp only [defaults, ms]; split <;> omega
  have hh : 5 * (defaults c).hb < 2 ^ 63 := by
    simp only [defaults, ms]; split <;> omega
  have hs := (timing_iff _ hh hd).1 ht
  exact ⟨⟨hs.hb, hs.elec, hs.beats, hs.drift, hs.driftMax, hs.batch, hs.fault⟩, hd, rfl, rfl, rfl,
    rfl, rfl, hnd, hme⟩

/-- Sane timings are never the reason to be refused: a replica that has them starts if a client with
the same settings does, keeps its data on disk in a directory that it can write, and is listed. -/
theorem C147_accepts (c : Cfg) (h5 : 5 * c.hb < 2 ^ 63) (hs : Sane (defaults c))
    (hn : c.noDisk = false) (hw : c.dataDir ≠ some false) (hm : c.me ∈ c.nodes) :
    start c false = start c true := by
  have hd : 0 < (defaults c).drift := by
    simp only [defaults, ms]; split <;> omega
  have hh : 5 * (defaults c).hb < 2 ^ 63 := by
    simp only [defaults, ms]; split <;> omega
  have ht := (timing_iff _ hh hd).2 hs
  apply Option.ext
  intro c'
  unfold start
  rw [C147_check, C147_check]
  have : (!false = true → (defaults c).dataDir ≠ some false ∧ (defaults c).noDisk = false ∧
      timingOK (defaults c) = true ∧ (defaults c).me ∈ (defaults c).nodes) := fun _ => ⟨hw, hn, ht, hm⟩
  constructor
  · rintro ⟨a, b, d, e, f, _, g⟩
    exact ⟨a, b, d, e, f, fun x => by simp at x, g⟩
  · rintro ⟨a, b, d, e, f, _, g⟩
    exact ⟨a, b, d, e, f, this, g⟩

/-- With no timings given, the timings are sane. -/
theorem C147_defaults_sane (c : Cfg) (h1 : c.hb = 0) (h2 : c.minElec = 0) (h3 : c.drift = 0)
    (h4 : c.batch = 0) (h5 : c.noFaultTol = 0) : Sane (defaults c) := by
  constructor <;> simp [defaults, ms, h1, h2, h3, h4, h5]

/-- A replica that starts is not stopped over its timings later (`tube.go:9360`). -/
theorem C147_not_insane (c c' : Cfg) (hf : Fits c.minElec) (h : start c false = some c') :
    insane c' = false := by
  obtain ⟨_, _, _, _, _, hrep, r, l, _, _, _, _, _, _, rfl⟩ := (C147_check _ _ _).1 h
  obtain ⟨_, _, ht, _⟩ := hrep rfl
  have hd : 0 < (defaults c).drift := by
    simp only [defaults, ms]; split <;> omega
  have he : (defaults c).minElec < 2 ^ 63 := by
    unfold Fits at hf
    simp only [defaults, ms]; split <;> omega
  generalize defaults c = k at *
  simp only [timingOK, Bool.and_eq_true, Bool.not_eq_true', decide_eq_false_iff_not,
    Bool.or_eq_false_iff] at ht
  simp only [ms] at ht
  obtain ⟨⟨⟨⟨⟨⟨h1, h2⟩, h3⟩, h4⟩, h6⟩, h7⟩, h8, h9⟩ := ht
  rw [wrap_id (x := k.drift * 2) (by omega) (by omega)] at h7
  simp only [insane, Bool.or_eq_false_iff, decide_eq_false_iff_not]
  simp only [ms]
  rw [wrap_id (x := k.minElec - k.drift) (by omega) (by omega)]
  refine ⟨⟨⟨?_, ?_⟩, ?_⟩, ?_⟩
  · omega
  · omega
  · exact h6
  · omega

/-- A replica that starts has the limit of one replica for its process. -/
theorem C147_limit (c c' : Cfg) (cli : Bool) (h : start c cli = some c') :
    ∃ r r', c.rpc = some r ∧ c'.rpc = some r' ∧ SvcLimit.check r.limits = some r'.limits ∧
      r'.noTLS = c.noTLS ∧ r'.autoCli = true ∧ (c.noTLS = false → r'.clientKey ≠ "" ∧ r'.serverKey ≠ "") := by
  obtain ⟨_, _, _, _, _, _, r, l, hr, htls, hk, _, ha, hl, rfl⟩ := (C147_check _ _ _).1 h
  cases hc : c.rpc with
  | none => simp [defaults, hc] at hr
  | some r0 =>
    simp only [defaults, hc, Option.map_some, Option.some.injEq] at hr
    subst hr
    exact ⟨r0, _, rfl, rfl, hl, rfl, rfl, hk⟩

/-- The timings of a node of the lease model are those of a configuration. -/
def Agrees (L : Lease.Cfg) (v : Nat) (c : Cfg) : Prop :=
  (L.hb v : Int) = c.hb ∧ (L.minElec v : Int) = c.minElec ∧ (L.drift v : Int) = c.drift

/-- In a cluster, every answer counted keeps the read lease above zero: with sane timings that have
the same heartbeat, a lease runs for at least three heartbeats after the ping was sent, and the
panic over a short election time does not occur. -/
theorem C147_cluster_lease (c d : Cfg) (hc : Sane c) (hd : Sane d) (hh : c.hb = d.hb) (L : Lease.Cfg)
    (v w : Nat) (hv : Agrees L v c) (hw : Agrees L w d) :
    ¬ L.minElec w < 2 * L.hb v ∧ 3 * L.hb v ≤ L.minElec w - 2 * L.hb v ∧ 15000000 ≤ L.minElec w - 2 * L.hb v := by
  obtain ⟨a, b, _⟩ := hv
  obtain ⟨a', b', _⟩ := hw
  have := hc.hb
  have := hd.beats
  omega

/-- A lone node serves its reads exactly if half its election time exceeds the drift bound by more
than 5 ms; otherwise every read panics. -/
theorem C147_lone_read (c : Cfg) (hc : Sane c) (L : Lease.Cfg) (v : Nat) (hv : Agrees L v c)
    (hm : L.mem.length ≤ 1) (ts : Lease.TSys) (hr : (ts.sys.nodes v).role = .leader) (t : Nat)
    (nf : Bool) (order : List (Raft.PeerID × Lease.Info)) :
    (Lease.canServe L ts v t 3600000000000 nf order).isSome = true ↔ c.drift + 5000000 < c.minElec / 2 := by
  obtain ⟨a, b, d⟩ := hv
  unfold Lease.canServe
  rw [if_neg (by simp [hr]), if_pos hm]
  split
  · simp only [Option.isSome_none, Bool.false_eq_true, false_iff]
    omega
  · simp only [Option.isSome_some, true_iff]
    omega

/-- A configuration used below. -/
def base : Cfg :=
  ⟨"tube-replica", "conf", "cluster", false, true, some true, some true, false, 0, 0, 0, 0, 0,
    some ⟨false, "", "", false, false, ⟨[], []⟩⟩, ["n0"], "n0"⟩

/-- A configuration that starts, and with which a lone node panics at every read. -/
theorem C147_lone_read_counterexample :
    ∃ c c', start c false = some c' ∧ Sane c' ∧
      ∀ (L : Lease.Cfg) (v : Nat), Agrees L v c' → L.mem.length ≤ 1 →
        ∀ (ts : Lease.TSys), (ts.sys.nodes v).role = .leader → ∀ t nf order,
          Lease.canServe L ts v t 3600000000000 nf order = none := by
  have hs : (start { base with drift := 599000000 } false).isSome = true := by decide
  obtain ⟨c', hc'⟩ := Option.isSome_iff_exists.1 hs
  obtain ⟨h1, _, h2, h3, h4, _⟩ := C147_start_partial _ (by decide) _ hc'
  refine ⟨_, c', hc', h1, ?_⟩
  intro L v hv hm ts hr t nf order
  have := C147_lone_read c' h1 L v hv hm ts hr t nf order
  have h3' : c'.minElec = 1200000000 := h3
  have h4' : c'.drift = 599000000 := h4
  rw [h3', h4'] at this
  cases hq : Lease.canServe L ts v t 3600000000000 nf order with
  | none => rfl
  | some u => rw [hq] at this; simp at this

/-- A heartbeat of 63 years starts with the default election time of 1.2 seconds. -/
theorem C147_wrap_counterexample :
    ∃ c c', Fits c.hb ∧ start c false = some c' ∧ c'.minElec = 1200000000 ∧ c'.hb = 2000000000000000000 ∧
      insane c' = false := by
  have hs : (start { base with hb := 2000000000000000000 } false).isSome = true := by decide
  obtain ⟨c', hc'⟩ := Option.isSome_iff_exists.1 hs
  have hi := C147_not_insane _ _ (by unfold Fits; decide) hc'
  refine ⟨_, c', by unfold Fits; decide, hc', ?_, ?_, hi⟩
  all_goals
    obtain ⟨_, _, _, _, _, _, r, l, _, _, _, _, _, _, rfl⟩ := (C147_check _ _ _).1 hc'
    rfl

/-- The read lease of a cluster is shortened by two heartbeats, not by the drift bound: with the
defaults the former is less. -/
theorem C147_drift_counterexample (c : Cfg) (h1 : c.hb ≤ 0) (h3 : c.drift ≤ 0) :
    2 * (defaults c).hb < (defaults c).drift := by
  simp [defaults, ms, h1, h3]

example : (start base false).isSome = true ∧ (start base true).isSome = true ∧
    start { base with hb := 300000000 } false = none ∧
    (start { base with hb := 240000000 } false).isSome = true ∧
    start { base with drift := 600000000 } false = none ∧
    (start { base with drift := 600000000 } true).isSome = true ∧
    start { base with batch := -1 } false = none ∧ start { base with me := "n1" } false = none := by
  decide

example : Sane (defaults { base with drift := 594000000 }) ∧
    ∃ L, Agrees L 0 (defaults { base with drift := 594000000 }) ∧ L.mem.length ≤ 1 :=
  ⟨by constructor <;> decide,
    ⟨[0], fun _ => 200000000, fun _ => 594000000, fun _ => 1200000000, fun _ t => t⟩, by unfold Agrees; decide, by decide⟩

end Verif.ProdCfg
