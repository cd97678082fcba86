import Verif.Proofs.Schemas
import Verif.Props.Wire

/-!
# C66, C67: every struct survives encoding, also between versions

`L` is the `msgp` library, of which the theorems assume `L.Sound`.  The concrete
library `msgpack` is sound (`msgpack_sound`), so nothing is assumed that cannot
be met.  `repo` and `structs` are the declarations of `/repo`.
-/

namespace Verif.Greenpack

/-! ### Values for the examples -/

/-- A header: created in 2026, two arguments, a sequence number, a call type. -/
def demoHDR : Val := .rct [
  .prim (.tim 1794787200 5), .prim (.str [97]), .prim (.str [98, 99]), .prim (.str []),
  .prim (.str []), .prim (.str []), .prim (.str []),
  .map [(.str [107], .prim (.str [1])), (.str [108], .prim (.str []))],
  .prim (.str []), .prim (.uint 18446744073709551615), .prim (.int (-7)), .prim (.str [120]),
  .prim (.int 70000), .prim (.tim zeroSec 0), .prim (.tim zeroSec 0), .prim (.int 0),
  .prim (.boo true), .prim (.str []), .prim (.str []), .prim (.str []), .prim (.str []),
  .prim (.int 0)]

/-- A message with this header and a payload. -/
def demoMessage : Val :=
  .rct [demoHDR, .prim (.bin [0xc0, 0, 255]), .prim (.str []), .prim (.boo false)]

theorem demoMessage_has : Has repo Message.ty demoMessage := by
  simp [demoMessage, demoHDR, Struct.ty, Message, HDR, Has, HasFields, HasMap, Prim.Has, Field.ty,
    zeroSec]

/-- An epoch with its tie breaker. -/
def demoEpoch : Val := .rct [.prim (.int 3), .prim (.str [116])]

theorem demoEpoch_has : Has repo EpochVers.ty demoEpoch := by
  simp [demoEpoch, Struct.ty, EpochVers, Has, HasFields, Prim.Has, Field.ty]

/-- A batch of a file and a nil pointer, the last one. -/
def demoPack : Val := .rct [
  .list [.rct [.prim (.str [97]), .prim (.int 12), .prim (.uint 0), .prim (.uint 420),
      .prim (.tim 5 0), .prim (.str []), .prim (.int 1)], .nil],
  .prim (.boo true)]

theorem repo_File : repo "File" = File := by
  have : structs.lookup "File" = some File := rfl
  simp [repo, this]

theorem demoPack_has : Has repo PackOfDirs.ty demoPack := by
  simp [demoPack, Struct.ty, PackOfDirs, Has, HasFields, HasAll, repo_File, File, Prim.Has, Field.ty]

/-! ### C66 -/

/-- C66.  Any value of any of the structs in `/repo` that have generated code,
encoded and then decoded into a fresh struct, comes back equal; bytes that follow
are left for the caller, so encodings can be put one after the other. -/
theorem C66_encoded_values_come_back (L : Lib) (hL : L.Sound) (n : String) (s : Struct)
    (hs : (n, s) ∈ structs) (v : Val) (hv : Has repo s.ty v) (rest : Bytes) :
    unmarshal L repo s s.ty.zero (marshal L repo s v ++ rest) = some (v, rest) :=
  unmarshal_marshal hL repo_proper (structs_proper hs) hv (free_zero _) rest

example : ("PackOfDirs", PackOfDirs) ∈ structs ∧ Has repo PackOfDirs.ty demoPack :=
  ⟨by simp [structs], demoPack_has⟩

/-- C66 for any other declarations: keys differ within a struct, and no struct
has more fields than slots. -/
theorem C66_any_declarations (L : Lib) (hL : L.Sound) (E : Env) (hE : E.Proper) (s : Struct)
    (hs : s.ty.Proper) (v : Val) (hv : Has E s.ty v) (rest : Bytes) :
    unmarshal L E s s.ty.zero (marshal L E s v ++ rest) = some (v, rest) :=
  unmarshal_marshal hL hE hs hv (free_zero _) rest

example : repo.Proper ∧ Message.ty.Proper := ⟨repo_proper, structs_proper (n := "Message") (by simp [structs])⟩

/-- C66 with MessagePack as the library: nothing is assumed of it. -/
theorem C66_with_msgpack (n : String) (s : Struct) (hs : (n, s) ∈ structs) (v : Val)
    (hv : Has repo s.ty v) (rest : Bytes) :
    unmarshal msgpack repo s s.ty.zero (marshal msgpack repo s v ++ rest) = some (v, rest) :=
  C66_encoded_values_come_back msgpack msgpack_sound n s hs v hv rest

-- The encoder writes the bytes that hdr_gen.go 771 and 777 have as literals.
example : msgpack.put .str (keyStr "Created_zid00_tim") =
    [0xb1, 0x43, 0x72, 0x65, 0x61, 0x74, 0x65, 0x64, 0x5f, 0x7a, 0x69, 0x64, 0x30, 0x30, 0x5f,
      0x74, 0x69, 0x6d] ∧
  msgpack.put .str (keyStr "From_zid01_str") =
    [0xae, 0x46, 0x72, 0x6f, 0x6d, 0x5f, 0x7a, 0x69, 0x64, 0x30, 0x31, 0x5f, 0x73, 0x74, 0x72] := by
  decide +kernel

/-- C66: different values have different encodings, even as prefixes: no
encoding is the beginning of another value's. -/
theorem C66_encoding_is_prefix_free (L : Lib) (hL : L.Sound) (n : String) (s : Struct)
    (hs : (n, s) ∈ structs) (v w : Val) (hv : Has repo s.ty v) (hw : Has repo s.ty w)
    (rest : Bytes) (h : marshal L repo s v ++ rest = marshal L repo s w) : v = w ∧ rest = [] := by
  have h1 := C66_encoded_values_come_back L hL n s hs v hv rest
  have h2 := C66_encoded_values_come_back L hL n s hs w hw []
  rw [List.append_nil] at h2
  rw [h, h2] at h1
  simp only [Option.some.injEq, Prod.mk.injEq] at h1
  exact ⟨h1.1.symm, h1.2.symm⟩

example : Has repo EpochVers.ty demoEpoch := demoEpoch_has

/-- C66, reused targets: for a struct without pointers (those in maps do not
count), it does not matter what the target held before. -/
theorem C66_reused_target_without_pointers (L : Lib) (hL : L.Sound) (n : String) (s : Struct)
    (hs : (n, s) ∈ structs) (hflat : flat s.ty = true) (old v : Val) (ho : Has repo s.ty old)
    (hv : Has repo s.ty v) (rest : Bytes) :
    unmarshal L repo s old (marshal L repo s v ++ rest) = some (v, rest) :=
  unmarshal_marshal hL repo_proper (structs_proper hs) hv (flat_free _ _ hflat ho) rest

-- Headers, messages, fragments and more have no pointers.
example : (["HDR", "Message", "Fragment", "EpochVers", "caboose", "verifiedHandshake", "File", "Chunk",
    "Session", "SessionTableEntry", "PeerDetail", "TermRLE", "hermes.INV"].all
      fun n => (structs.lookup n).any fun s => flat s.ty) = true := by decide +kernel

example : Has repo Message.ty demoMessage ∧ Has repo Message.ty demoMessage :=
  ⟨demoMessage_has, demoMessage_has⟩

/-- C66 does not hold for every target: one that holds a pointer keeps it, where
the encoded value has nil.  The example decodes a pack of one nil into a target
that was used before; the old file entry stays, with its fields set to zero. -/
theorem C66_reused_pointer_stays_counterexample :
    ∃ old v : Val, Has repo PackOfDirs.ty old ∧ Has repo PackOfDirs.ty v ∧
      ∃ w, unmarshal msgpack repo PackOfDirs old (marshal msgpack repo PackOfDirs v) = some (w, []) ∧
        v = .rct [.list [.nil], .prim (.boo true)] ∧
        w = .rct [.list [.rct [.prim (.str []), .prim (.int 0), .prim (.uint 0), .prim (.uint 0),
          .prim (.tim zeroSec 0), .prim (.str []), .prim (.int 0)]], .prim (.boo true)] := by
  refine ⟨demoPack, .rct [.list [.nil], .prim (.boo true)], demoPack_has, ?_, _, ?_, rfl, rfl⟩
  · simp [Struct.ty, PackOfDirs, Has, HasFields, HasAll, Prim.Has, Field.ty]
  · rfl

/-- C66, maps in foreign input: when the bytes give a key more than once, the
decoded map holds, under every key, the last value given for it. -/
theorem C66_repeated_key_last_value_wins (L : Lib) (hL : L.Sound) (k : Prim) (t : Ty) (ht : t.Proper)
    (kvs : List (PVal × Val)) (hk : HasMap repo k t kvs) (fuel : Nat)
    (hf : (encMap L repo k t kvs).length ≤ fuel) (rest : Bytes) :
    ∃ m, decMap L (dec L repo fuel) k t kvs.length [] (encMap L repo k t kvs ++ rest) = some (m, rest) ∧
      ∀ key, (m.find? fun kv => kv.1 == key) = (kvs.reverse.find? fun kv => kv.1 == key) := by
  refine ⟨_, decMap_fold hL _ k t kvs [] rest hk ?_, ?_⟩
  · intro kv hkv r
    have := encMap_length (L := L) (E := repo) (k := k) (t := t) hkv
    exact dec_enc hL repo_proper fuel t kv.2 _ r ht (hk.get kv hkv) (free_zero t) (by omega)
  · intro key
    rw [foldl_setKey_find, List.append_nil]

example : HasMap repo .str (.prim .i64) [(.str [97], .prim (.int 1)), (.str [97], .prim (.int 2))] ∧
    ([(PVal.str [97], Val.prim (.int 1)), (PVal.str [97], Val.prim (.int 2))].reverse.find?
      fun kv => kv.1 == .str [97]) = some (.str [97], .prim (.int 2)) := by
  constructor
  · simp [HasMap, Has, Prim.Has]
  · rfl

/-- C66 for `Message`: `AsGreenpack` and `MessageFromGreenpack`.  A message whose
payload is within the limit is encoded, and comes back equal, whatever follows. -/
theorem C66_message_roundtrip (L : Lib) (hL : L.Sound) (m : Val) (hm : Has repo Message.ty m) :
    (jobLen m ≤ 1309616 → ∃ b, asGreenpack L m = some b ∧
      ∀ rest, messageFromGreenpack L (b ++ rest) = some m) ∧
    (1309616 < jobLen m → asGreenpack L m = none) := by
  refine ⟨?_, ?_⟩
  · intro h
    refine ⟨marshal L repo Message m, ?_, ?_⟩
    · unfold asGreenpack
      rw [if_neg]
      simp only [Wire.maxMessage]
      omega
    · intro rest
      simp only [messageFromGreenpack]
      rw [C66_encoded_values_come_back L hL "Message" Message (by simp [structs]) m hm rest]
      rfl
  · intro h
    unfold asGreenpack
    rw [if_pos]
    simp only [Wire.maxMessage]
    omega

example : Has repo Message.ty demoMessage ∧ jobLen demoMessage ≤ 1309616 :=
  ⟨demoMessage_has, by decide⟩

/-- C66 for `HDR`: `HDR.AsGreenpack` and `HDRFromGreenpack`. -/
theorem C66_header_roundtrip (L : Lib) (hL : L.Sound) (h : Val) (hh : Has repo HDR.ty h)
    (rest : Bytes) : hdrFromGreenpack L (hdrAsGreenpack L h ++ rest) = some h := by
  simp only [hdrFromGreenpack, hdrAsGreenpack]
  rw [C66_encoded_values_come_back L hL "HDR" HDR (by simp [structs]) h hh rest]
  rfl

example : Has repo HDR.ty demoHDR := by
  have := demoMessage_has
  simp only [demoMessage, Struct.ty, Message, Has, HasFields, Field.ty] at this
  exact this.1

/-- C66 and C01 together: send messages one after the other, each encoded, maybe
compressed, and framed; cut the bytes into reads in any way; read as many frames
and decode each.  The receiver has the sent messages, in order. -/
theorem C66_messages_over_a_connection (L : Lib) (hL : L.Sound) (k : Wire.Codec)
    (hk : Wire.Spec.Lossless k) (hd : Bool) (sent : List (Val × Wire.Spec.Sent × Bytes))
    (hmsg : ∀ p ∈ sent, Has repo Message.ty p.1 ∧ asGreenpack L p.1 = some p.2.1.body)
    (hsent : ∀ p ∈ sent, Wire.sendMessage k p.2.1.ws p.2.1.lastRead p.2.1.noSys p.2.1.body = .ok p.2.2)
    (hfit : ∀ p ∈ sent, Wire.Spec.fits k p.2.1) (rest : Bytes) (c : Wire.Conn)
    (hc : Wire.Spec.stream c = (sent.map fun p => p.2.2).flatten ++ rest) :
    ∃ got c', Wire.readMany k hd sent.length c = (.ok got, c') ∧ Wire.Spec.stream c' = rest ∧
      got.map (fun g => messageFromGreenpack L g.2) = sent.map fun p => some p.1 := by
  obtain ⟨c', h1, h2⟩ := Wire.C01_framed_messages_survive_segmentation k hk hd (sent.map (·.2))
    (by intro p hp; obtain ⟨q, hq, rfl⟩ := List.mem_map.1 hp; exact hsent q hq)
    (by intro p hp; obtain ⟨q, hq, rfl⟩ := List.mem_map.1 hp; exact hfit q hq) rest c
    (by rw [hc, List.map_map]; rfl)
  rw [List.length_map] at h1
  refine ⟨_, c', h1, h2, ?_⟩
  rw [List.map_map, List.map_map]
  apply List.map_congr_left
  intro p hp
  obtain ⟨hm1, hm2⟩ := hmsg p hp
  simp only [Function.comp_apply]
  have hb : ∃ b, asGreenpack L p.1 = some b ∧ ∀ rest, messageFromGreenpack L (b ++ rest) = some p.1 := by
    rcases Nat.lt_or_ge 1309616 (jobLen p.1) with h | h
    · rw [(C66_message_roundtrip L hL p.1 hm1).2 h] at hm2; cases hm2
    · exact (C66_message_roundtrip L hL p.1 hm1).1 h
  obtain ⟨b, e1, e2⟩ := hb
  rw [hm2] at e1
  cases e1
  have := e2 []
  rwa [List.append_nil] at this

-- A message sent without compression, arriving in one read.
example : ∃ b f, asGreenpack msgpack demoMessage = some b ∧
    Wire.sendMessage Wire.demoCodec ⟨false, false, 0⟩ 0 false b = .ok f ∧
    Wire.Spec.fits Wire.demoCodec ⟨⟨false, false, 0⟩, 0, false, b⟩ ∧
    Wire.Spec.stream [⟨f, some .eof⟩] = [f].flatten ++ [] := by
  obtain ⟨f, hf⟩ := Wire.C01_usable_configurations_send Wire.demoCodec ⟨false, false, 0⟩ 0 false
    (marshal msgpack repo Message demoMessage) (Or.inl rfl)
  refine ⟨marshal msgpack repo Message demoMessage, f, rfl, hf, ?_, by simp [Wire.Spec.stream]⟩
  have : (marshal msgpack repo Message demoMessage).length ≤ 500 := by decide +kernel
  simp only [Wire.Spec.fits, Wire.demoCodec, List.length_cons]
  omega

/-! ### C67 -/

/-- C67.  Writer and reader have different declarations of a struct; fields with
the same key have the same type.  What the writer encoded, the reader decodes
into a fresh struct without error: every field both know has the writer's
value, every field the writer does not know is zero, fields the reader does not
know are passed over, and the input after the encoding is left. -/
theorem C67_versions_share_common_fields (L : Lib) (hL : L.Sound) (E : Env) (hE : E.Proper)
    (w d : Struct) (hw : w.ty.Proper) (hd : d.ty.Proper)
    (hc : ∀ f ∈ w.fields, ∀ g ∈ d.fields, f.key = g.key → f.ty = g.ty)
    (vs : List Val) (hv : Has E w.ty (.rct vs)) (rest : Bytes) :
    ∃ out, unmarshal L E d d.ty.zero (marshal L E w (.rct vs) ++ rest) = some (.rct out, rest) ∧
      out.length = d.fields.length ∧
      (∀ (i j : Nat) (f g : Field) (v : Val), w.fields[j]? = some f → vs[j]? = some v → d.fields[i]? = some g →
        f.key = g.key → out[i]? = some v) ∧
      (∀ (i : Nat) (g : Field), d.fields[i]? = some g → (∀ f ∈ w.fields, f.key ≠ g.key) → out[i]? = some g.ty.zero) := by
  have hv' : HasFields E w.fields vs := by simpa only [Struct.ty, Has] using hv
  have hz : d.ty.zero = .rct (Ty.zeros d.fields) := by simp only [Struct.ty, Ty.zero]
  have hwn := hw
  simp only [Struct.ty, Ty.Proper] at hwn
  refine ⟨d.fields.map (outVal (itemsOf L E w.fields vs)), ?_, ?_, ?_, ?_⟩
  · rw [hz]
    exact skew_items hL hE hw hd hc hv' (free_zeros _) (Or.inr rfl) rest
  · simp
  · intro i j f g v h1 h2 h3 hk
    rw [List.getElem?_map, h3, Option.map_some,
      outVal_shared hwn.1.1 hv' h1 h2 hk (hc f (List.mem_of_getElem? h1) g (List.mem_of_getElem? h3) hk)]
  · intro i g h1 h2
    rw [List.getElem?_map, h1, Option.map_some, outVal_unknown h2]

/-- The epoch struct of a later version, with a field added and one dropped. -/
def laterEpoch : Struct := ⟨2, [
  ("EpochID_zid00_i64", true, .prim .i64),
  ("Reason_zid02_slc", true, .slc (.prim .str))]⟩

example : laterEpoch.ty.Proper ∧ EpochVers.ty.Proper ∧
    (∀ f ∈ laterEpoch.fields, ∀ g ∈ EpochVers.fields, f.key = g.key → f.ty = g.ty) ∧
    Has repo laterEpoch.ty (.rct [.prim (.int 9), .list [.prim (.str [1])]]) := by
  refine ⟨properB_sound _ (by decide +kernel), properB_sound _ (by decide +kernel), ?_, ?_⟩
  · simp [laterEpoch, EpochVers, Field.key, Field.ty]
  · simp [laterEpoch, Struct.ty, Has, HasFields, HasAll, Prim.Has, Field.ty]

/-- C67, reused targets: if the reader knows every field of the writer (the
writer is the older version), then any target without pointers will do. -/
theorem C67_older_writer_reused_target (L : Lib) (hL : L.Sound) (E : Env) (hE : E.Proper)
    (w d : Struct) (hw : w.ty.Proper) (hd : d.ty.Proper)
    (hc : ∀ f ∈ w.fields, ∀ g ∈ d.fields, f.key = g.key → f.ty = g.ty)
    (hk : ∀ f ∈ w.fields, ∃ g ∈ d.fields, g.key = f.key)
    (vs old : List Val) (hv : Has E w.ty (.rct vs)) (hflat : flat d.ty = true)
    (ho : Has E d.ty (.rct old)) (rest : Bytes) :
    unmarshal L E d (.rct old) (marshal L E w (.rct vs) ++ rest) =
      unmarshal L E d d.ty.zero (marshal L E w (.rct vs) ++ rest) := by
  have hv' : HasFields E w.fields vs := by simpa only [Struct.ty, Has] using hv
  have hz : d.ty.zero = .rct (Ty.zeros d.fields) := by simp only [Struct.ty, Ty.zero]
  have hf := flat_free _ _ hflat ho
  simp only [Struct.ty, Free] at hf
  rw [hz, skew_items hL hE hw hd hc hv' (free_zeros _) (Or.inr rfl) rest,
    skew_items hL hE hw hd hc hv' hf (Or.inl (older_budget hw hd hk vs)) rest]

/-- An older epoch struct. -/
def olderEpoch : Struct := ⟨1, [("EpochID_zid00_i64", true, .prim .i64)]⟩

example : olderEpoch.ty.Proper ∧
    (∀ f ∈ olderEpoch.fields, ∀ g ∈ EpochVers.fields, f.key = g.key → f.ty = g.ty) ∧
    (∀ f ∈ olderEpoch.fields, ∃ g ∈ EpochVers.fields, g.key = f.key) ∧
    Has repo olderEpoch.ty (.rct [.prim (.int 9)]) ∧ flat EpochVers.ty = true ∧
    Has repo EpochVers.ty demoEpoch := by
  refine ⟨properB_sound _ (by decide +kernel), ?_, ?_, ?_, by decide +kernel, demoEpoch_has⟩
  · simp [olderEpoch, EpochVers, Field.key, Field.ty]
  · simp [olderEpoch, EpochVers, Field.key]
  · simp [olderEpoch, Struct.ty, Has, HasFields, Prim.Has, Field.ty]

/-- The value of a basic field of a decoded struct. -/
def basicField (i : Nat) : Option (Val × Bytes) → Option PVal
  | some (.rct vs, _) => match vs[i]? with
    | some (.prim x) => some x
    | _ => none
  | _ => none

/-- C67 does not hold for a newer writer and a reused target, even without
pointers: the decoder counts a field it does not know as if it were one of its
own, resets too few of the missing ones, and a value of an earlier message
stays.  Here the tie breaker of the earlier epoch (116) shows up in the new one,
where a fresh target has the empty string. -/
theorem C67_newer_writer_stale_field_counterexample :
    let b := marshal msgpack repo laterEpoch (.rct [.prim (.int 9), .list [.prim (.str [1])]])
    basicField 0 (unmarshal msgpack repo EpochVers demoEpoch b) = some (.int 9) ∧
    basicField 1 (unmarshal msgpack repo EpochVers demoEpoch b) = some (.str [116]) ∧
    basicField 1 (unmarshal msgpack repo EpochVers EpochVers.ty.zero b) = some (.str []) := by
  decide +kernel

end Verif.Greenpack
