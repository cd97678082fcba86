import Verif.Model.Persistor
import Verif.Proofs.MsgBin
/- C17: saving the Raft state is atomic. -/
namespace Verif.Persistor

open MsgBin (Bytes frame nextframe)

section
variable {S : Type} (ser : S → Bytes) (deser : Bytes → Option S)
  (serSum : Bytes → Bytes) (deserSum : Bytes → Option Bytes) (H : Bytes → Bytes)

/-- What the theorems assume of the generated marshalling code: it round-trips, and the
encodings have between 3 and 2^32 - 1 bytes. -/
structure Codec : Prop where
  state : ∀ s, deser (ser s) = some s
  stateLen : ∀ s, 3 ≤ (ser s).length ∧ (ser s).length < 2 ^ 32
  sum : ∀ b, deserSum (serSum (H b)) = some (H b)
  sumLen : ∀ b, 3 ≤ (serSum (H b)).length ∧ (serSum (H b)).length < 2 ^ 32

/-- Every history of saves and crashes. `Hist fs v`: the file system `fs` can arise, and `v` is the
state of the last save that returned, or what the last reopening after a crash gave. -/
inductive Hist : FS → Option S → Prop
  | boot {fs' : FS} {v : Option S} : reopen deser deserSum H fresh = some (v, fs') → Hist fs' v
  | saved {fs : FS} {v : Option S} (st : S) : Hist fs v → Hist (save ser serSum H fs st) (some st)
  | crashed {fs fs' fs'' : FS} {v v' : Option S} (st : S) (k : Nat) : Hist fs v →
      Crash (execSave ser serSum H fs st k) fs' → reopen deser deserSum H fs' = some (v', fs'') →
      Hist fs'' v'

/-- The state file, looked up in directory `d`, is safely on disk and means `v`. -/
def FinalOK (inodes : List Inode) (d : Dir) (v : Option S) : Prop :=
  (d 0 = none ∧ v = none) ∨
  ∃ i f, d 0 = some i ∧ inodes[i]? = some f ∧ f.clean = true ∧
    ((f.data = [] ∧ v = none) ∨ (f.data ≠ [] ∧ ∃ st, v = some st ∧ load deser deserSum H f.data = some st))

/-- Whatever directory changes survive, the state file is one of those allowed by `P`. -/
def Inv (fs : FS) (P : Option S → Prop) : Prop :=
  ∀ kept : List DirOp, kept.Sublist fs.pending →
    ∃ v, P v ∧ FinalOK deser deserSum H fs.inodes (kept.foldl DirOp.apply fs.durable) v

variable {ser deser serSum deserSum H}

theorem FinalOK.append {inodes : List Inode} {d : Dir} {v : Option S} (x : Inode)
    (h : FinalOK deser deserSum H inodes d v) : FinalOK deser deserSum H (inodes ++ [x]) d v := by
  rcases h with h | ⟨i, f, h1, h2, h3, h4⟩
  · exact .inl h
  · refine .inr ⟨i, f, h1, ?_, h3, h4⟩
    have : i < inodes.length := (List.getElem?_eq_some_iff.mp h2).1
    rw [List.getElem?_append_left this]; exact h2

theorem FinalOK.dir {inodes : List Inode} {d d' : Dir} {v : Option S} (hd : d' 0 = d 0)
    (h : FinalOK deser deserSum H inodes d v) : FinalOK deser deserSum H inodes d' v := by
  unfold FinalOK at *; rw [hd]; exact h

theorem sublist_concat {α : Type} {l k : List α} {a : α} (h : k.Sublist (l ++ [a])) :
    k.Sublist l ∨ ∃ k', k = k' ++ [a] ∧ k'.Sublist l := by
  obtain ⟨k1, k2, rfl, h1, h2⟩ := List.sublist_append_iff.mp h
  cases h2 with
  | cons _ h => cases h; left; simpa using h1
  | cons_cons _ h => cases h; right; exact ⟨k1, rfl, h1⟩

/-- The file the save writes, read back. -/
theorem load_saved (C : Codec ser deser serSum deserSum H) (st : S) :
    load deser deserSum H (frame (ser st) ++ frame (serSum (H (ser st)))) = some st := by
  unfold load
  rw [MsgBin.nextframe_frame _ _ (C.stateLen st).1 (C.stateLen st).2]
  simp only [C.state]
  rw [← List.append_nil (frame (serSum (H (ser st)))),
    MsgBin.nextframe_frame _ _ (C.sumLen _).1 (C.sumLen _).2]
  simp [C.sum]

/-- The file system after each number of calls. -/
theorem execSave_cases (fs : FS) (st : S) (k : Nat) :
    let n := fs.inodes.length
    let b1 := frame (ser st)
    let b2 := frame (serSum (H (ser st)))
    let lk := DirOp.link (n + 1) n
    let mv := DirOp.move (n + 1) 0 n
    let e := execSave ser serSum H fs st k
    (k = 0 ∧ e = fs) ∨
    (1 ≤ k ∧ k ≤ 4 ∧ ∃ x, e = ⟨fs.inodes ++ [x], fs.durable, fs.pending ++ [lk]⟩) ∨
    (k = 5 ∧ e = ⟨fs.inodes ++ [⟨b1 ++ b2, true⟩], fs.durable, fs.pending ++ [lk] ++ [mv]⟩) ∨
    (6 ≤ k ∧ e = ⟨fs.inodes ++ [⟨b1 ++ b2, true⟩],
        (fs.pending ++ [lk] ++ [mv]).foldl DirOp.apply fs.durable, []⟩) := by
  have hm : ∀ (x : Inode) (f : Inode → Inode),
      (fs.inodes ++ [x]).modify fs.inodes.length f = fs.inodes ++ [f x] := by
    intro x f
    apply List.ext_getElem?
    intro i
    rw [List.getElem?_modify]
    by_cases hi : fs.inodes.length = i
    · subst hi; simp
    · simp only [hi, if_false, id]
      by_cases h2 : i < fs.inodes.length
      · rw [List.getElem?_append_left h2, List.getElem?_append_left h2]; simp
      · rw [List.getElem?_eq_none (by simp; omega), List.getElem?_eq_none (by simp; omega)]; rfl
  match k with
  | 0 => left; exact ⟨rfl, rfl⟩
  | 1 => right; left; exact ⟨by omega, by omega, _, rfl⟩
  | 2 => right; left; exact ⟨by omega, by omega, _, by simp [execSave, saveCalls, exec1, hm]; rfl⟩
  | 3 => right; left; exact ⟨by omega, by omega, _, by simp [execSave, saveCalls, exec1, hm]; rfl⟩
  | 4 => right; left; exact ⟨by omega, by omega, _, by simp [execSave, saveCalls, exec1, hm]; rfl⟩
  | 5 => right; right; left; exact ⟨rfl, by simp [execSave, saveCalls, exec1, hm]⟩
  | k + 6 =>
    right; right; right
    exact ⟨by omega, by simp [execSave, saveCalls, exec1, hm, FS.dir]⟩

theorem inv_execSave (C : Codec ser deser serSum deserSum H) (fs : FS) (v : Option S) (st : S) (k : Nat)
    (h : Inv deser deserSum H fs (· = v)) :
    Inv deser deserSum H (execSave ser serSum H fs st k)
      (fun w => if 6 ≤ k then w = some st else if k ≤ 4 then w = v else w = v ∨ w = some st) := by
  have key : ∀ kept : List DirOp, kept.Sublist (fs.pending ++ [DirOp.link (fs.inodes.length + 1) fs.inodes.length]) →
      ∀ x, FinalOK deser deserSum H (fs.inodes ++ [x]) (kept.foldl DirOp.apply fs.durable) v := by
    intro kept hk x
    rcases sublist_concat hk with hk | ⟨k', rfl, hk'⟩
    · obtain ⟨w, rfl, hw⟩ := h kept hk
      exact hw.append x
    · obtain ⟨w, rfl, hw⟩ := h k' hk'
      refine (hw.append x).dir ?_
      simp [DirOp.apply]
  have hne : (frame (ser st) ++ frame (serSum (H (ser st)))) ≠ [] := by
    intro h0
    have := MsgBin.frame_length (ser st)
    have h1 := congrArg List.length h0
    simp at h1; simp [h1.1] at this
  have hnew : ∀ (d : Dir), d 0 = some fs.inodes.length →
      FinalOK deser deserSum H
        (fs.inodes ++ [⟨frame (ser st) ++ frame (serSum (H (ser st))), true⟩]) d (some st) := by
    intro d hd
    refine .inr ⟨_, ⟨frame (ser st) ++ frame (serSum (H (ser st))), true⟩, hd, by simp, rfl, .inr ⟨hne, st, rfl, load_saved C st⟩⟩
  rcases execSave_cases (ser := ser) (serSum := serSum) (H := H) fs st k with
    ⟨hk, e⟩ | ⟨hk1, hk4, x, e⟩ | ⟨hk, e⟩ | ⟨hk, e⟩
  · rw [e]; subst hk
    intro kept hk
    obtain ⟨w, hw, h'⟩ := h kept hk
    exact ⟨w, by simpa using hw, h'⟩
  · rw [e]
    intro kept hk
    refine ⟨v, ?_, key kept hk x⟩
    show (if 6 ≤ k then v = some st else if k ≤ 4 then v = v else v = v ∨ v = some st)
    rw [if_neg (by omega), if_pos hk4]
  · rw [e]; subst hk
    intro kept hk
    rcases sublist_concat hk with hk | ⟨k', rfl, hk'⟩
    · exact ⟨v, by simp, key kept hk _⟩
    · exact ⟨some st, by simp, hnew _ (by simp [DirOp.apply])⟩
  · rw [e]
    intro kept hk'
    simp only [List.sublist_nil] at hk'
    subst hk'
    exact ⟨some st, by simp [hk], hnew _ (by simp [DirOp.apply])⟩

/-- After any crash the file is one of those allowed, and reopening finds it. -/
theorem crash_reopen (fs fs' : FS) (P : Option S → Prop) (h : Inv deser deserSum H fs P)
    (hc : Crash fs fs') : ∃ v fs'', P v ∧ reopen deser deserSum H fs' = some (v, fs'') ∧
      Inv deser deserSum H fs'' (· = v) := by
  obtain ⟨⟨kept, hk, hd⟩, hp, hl, hi⟩ := hc
  obtain ⟨v, hv, hf⟩ := h kept hk
  rw [← hd] at hf
  have hdir : fs'.dir = fs'.durable := by simp [FS.dir, hp]
  rcases hf with ⟨h0, rfl⟩ | ⟨i, f, h1, h2, h3, h4⟩
  · refine ⟨none, _, hv, by rw [reopen, hdir, h0], ?_⟩
    intro kept' hk'
    simp only [hp, List.nil_append] at hk'
    refine ⟨none, rfl, ?_⟩
    rcases sublist_concat (l := []) hk' with hk' | ⟨k', rfl, hk2⟩
    · rw [List.sublist_nil] at hk'; subst hk'; left; exact ⟨h0, rfl⟩
    · have hk2 := List.sublist_nil.mp hk2; subst hk2
      right
      exact ⟨fs'.inodes.length, ⟨[], true⟩, by simp [DirOp.apply], by simp, rfl, .inl ⟨rfl, rfl⟩⟩
  · obtain ⟨f', h5, h6, h7⟩ := hi i f h2
    have h7 := h7 h3
    have hr : ∃ v fs'', P v ∧ reopen deser deserSum H fs' = some (v, fs'') ∧
        fs''.pending = [] ∧ fs''.durable = fs'.durable ∧ fs''.inodes[i]? = some f' ∧
        ((f.data = [] ∧ v = none) ∨ (f.data ≠ [] ∧ ∃ st, v = some st ∧ load deser deserSum H f.data = some st)) := by
      have hf' : (fs'.inodes.modify i fun x => { x with clean := true })[i]? = some f' := by
        rw [List.getElem?_modify_eq, h5]
        cases f'; simp at h6; simp [h6]
      rcases h4 with ⟨h4, rfl⟩ | ⟨h4, st, rfl, h8⟩
      · exact ⟨none, { fs' with inodes := fs'.inodes.modify i fun x => { x with clean := true } },
          hv, by simp [reopen, hdir, h1, h5, h7, h4], hp, rfl, hf', .inl ⟨h4, rfl⟩⟩
      · exact ⟨some st, { fs' with inodes := fs'.inodes.modify i fun x => { x with clean := true } },
          hv, by simp [reopen, hdir, h1, h5, h7, h4, h8], hp, rfl, hf', .inr ⟨h4, st, rfl, h8⟩⟩
    obtain ⟨v, fs'', hv, hr, hp2, hd2, hi2, hx⟩ := hr
    refine ⟨v, fs'', hv, hr, ?_⟩
    intro kept' hk'
    rw [hp2, List.sublist_nil] at hk'
    subst hk'
    refine ⟨v, rfl, .inr ⟨i, f', by simp [hd2, h1], hi2, h6, ?_⟩⟩
    rw [h7]; exact hx

theorem hist_inv (C : Codec ser deser serSum deserSum H) (fs : FS) (v : Option S)
    (h : Hist ser deser serSum deserSum H fs v) : Inv deser deserSum H fs (· = v) := by
  induction h with
  | boot hr =>
    have hinv : Inv deser deserSum H fresh (· = (none : Option S)) := by
      intro kept hk
      simp only [fresh, List.sublist_nil] at hk
      subst hk
      exact ⟨none, rfl, .inl ⟨rfl, rfl⟩⟩
    obtain ⟨v, fs'', rfl, hr', hi⟩ := crash_reopen fresh fresh _ hinv
      ⟨⟨[], List.Sublist.refl _, rfl⟩, rfl, rfl, by intro i f h; simp [fresh] at h⟩
    rw [hr] at hr'
    injection hr' with hr'
    injection hr' with h1 h2
    subst h1 h2
    exact hi
  | saved st _ ih =>
    have := inv_execSave C _ _ st 6 ih
    intro kept hk
    obtain ⟨w, hw, hf⟩ := this kept hk
    exact ⟨w, by simpa using hw, hf⟩
  | crashed st k _ hc hr ih =>
    obtain ⟨v, fs'', _, hr', hi⟩ := crash_reopen _ _ _ (inv_execSave C _ _ st k ih) hc
    rw [hr] at hr'
    injection hr' with hr'
    injection hr' with h1 h2
    subst h1 h2
    exact hi

/-- **C17** For every history of saves and crashes, and every crash after the first `k` calls of
a further save (6 calls: the save has returned): reopening does not fail, it gives the
complete previous state or the complete new one, the old one if the crash came before the
rename, and the new one if the save had returned. -/
theorem C17_save_is_atomic (C : Codec ser deser serSum deserSum H) (fs fs' : FS) (v : Option S)
    (st : S) (k : Nat) (h : Hist ser deser serSum deserSum H fs v)
    (hc : Crash (execSave ser serSum H fs st k) fs') :
    ∃ v' fs'', reopen deser deserSum H fs' = some (v', fs'') ∧ (v' = v ∨ v' = some st) ∧
      (k < 5 → v' = v) ∧ ((saveCalls ser serSum H st).length ≤ k → v' = some st) := by
  obtain ⟨w, fs'', hw, hr, _⟩ := crash_reopen _ _ _ (inv_execSave C fs v st k (hist_inv C fs v h)) hc
  refine ⟨w, fs'', hr, ?_, ?_, ?_⟩
  · split at hw
    · exact .inr hw
    · split at hw
      · exact .inl hw
      · exact hw
  · intro hk
    rw [if_neg (by omega), if_pos (by omega)] at hw
    exact hw
  · intro hk
    simp only [saveCalls, List.length_cons, List.length_nil] at hk
    rw [if_pos (by omega)] at hw
    exact hw

/-- **C17** A crash between saves loses nothing. -/
theorem C17_saved_state_is_durable (C : Codec ser deser serSum deserSum H) (fs fs' : FS) (v : Option S)
    (h : Hist ser deser serSum deserSum H fs v) (hc : Crash fs fs') :
    ∃ fs'', reopen deser deserSum H fs' = some (v, fs'') := by
  obtain ⟨w, fs'', rfl, hr, _⟩ := crash_reopen _ _ _ (hist_inv C fs v h) hc
  exact ⟨fs'', hr⟩

end

/-- A codec meeting the assumptions, with one-byte states and a one-byte sum as the hash. -/
theorem sampleCodec : Codec (S := UInt8) (fun n => [0, 1, n]) (fun b => b[2]?)
    (fun h => [1, 2, 3] ++ h) (fun b => some (b.drop 3)) (fun b => [b.foldl (· + ·) 0]) :=
  ⟨fun _ => rfl, fun _ => ⟨by simp, by simp⟩, fun _ => rfl, fun _ => ⟨by simp, by simp⟩⟩

/-- Stopping only the process is one of the crashes considered. -/
theorem crash_of_process (fs : FS) :
    Crash fs ⟨fs.inodes.map fun f => { f with clean := true }, fs.dir, []⟩ :=
  ⟨⟨fs.pending, List.Sublist.refl _, rfl⟩, rfl, by simp, by
    intro i f h
    exact ⟨{ f with clean := true }, by simp [h], rfl, fun _ => rfl⟩⟩

/-- A history with two saves, and a crash in the middle of a third where the rename survived but
the directory had not been synced: the theorem applies. -/
example : ∃ fs fs', Hist (S := UInt8) (fun n => [0, 1, n]) (fun b => b[2]?)
    (fun h => [1, 2, 3] ++ h) (fun b => some (b.drop 3)) (fun b => [b.foldl (· + ·) 0]) fs (some 8) ∧
    Crash (execSave (fun n => [0, 1, n]) (fun h => [1, 2, 3] ++ h) (fun b => [b.foldl (· + ·) 0]) fs
      (9 : UInt8) 5) fs' :=
  ⟨_, _, .saved 8 (.saved 7 (.boot rfl)), crash_of_process _⟩

end Verif.Persistor
