import Verif.Model.Greenpack

/-!
# Lemmas about the generated encoders and decoders
-/

namespace Verif.Greenpack

mutual
/-- The bytes of one object, as the library's `Append` functions produce them:
the inputs that `msgp.Skip` must be able to pass over. -/
inductive Obj (L : Lib) : Bytes → Prop
  | nil : Obj L [nilByte]
  | prim (p : Prim) (x : PVal) : p.Has x → Obj L (L.put p x)
  | arr (n : Nat) (b : Bytes) : n < 2 ^ 32 → Objs L n b → Obj L (L.arrHdr n ++ b)
  | map (n : Nat) (b : Bytes) : n < 2 ^ 32 → Objs L (2 * n) b → Obj L (L.mapHdr n ++ b)
/-- The bytes of `n` objects. -/
inductive Objs (L : Lib) : Nat → Bytes → Prop
  | nil : Objs L 0 []
  | cons (n : Nat) (b c : Bytes) : Obj L b → Objs L n c → Objs L (n + 1) (b ++ c)
end

/-- What is assumed of the library: reading what was appended gives it back and
leaves the rest of the input; headers and basic values are not the nil byte and
not empty; `Skip` passes over one object. -/
structure Lib.Sound (L : Lib) : Prop where
  get_put : ∀ (p : Prim) (x : PVal) (r : Bytes), p.Has x → L.get p (L.put p x ++ r) = some (x, r)
  put_pos : ∀ (p : Prim) (x : PVal), p.Has x → 0 < (L.put p x).length
  put_bin : ∀ (x : PVal) (r : Bytes), Prim.bin.Has x → isNil (L.put .bin x ++ r) = false
  get_map : ∀ (n : Nat) (r : Bytes), n < 2 ^ 32 → L.getMapHdr (L.mapHdr n ++ r) = some (n, r)
  map_pos : ∀ (n : Nat), n < 2 ^ 32 → 0 < (L.mapHdr n).length
  map_nil : ∀ (n : Nat) (r : Bytes), n < 2 ^ 32 → isNil (L.mapHdr n ++ r) = false
  get_arr : ∀ (n : Nat) (r : Bytes), n < 2 ^ 32 → L.getArrHdr (L.arrHdr n ++ r) = some (n, r)
  arr_pos : ∀ (n : Nat), n < 2 ^ 32 → 0 < (L.arrHdr n).length
  skip_obj : ∀ (b r : Bytes), Obj L b → L.skip (b ++ r) = some r

/-- A list of fields is proper: keys differ and are not too long, there is a
slot for each. -/
def ProperFields (slots : Nat) (fs : List Field) : Prop :=
  (fs.map fun f => keyStr f.key).Nodup ∧ (∀ f ∈ fs, Prim.str.Has (keyStr f.key)) ∧
    fs.length ≤ slots ∧ slots < 2 ^ 32

mutual
/-- Every struct inside a type is proper. -/
def Ty.Proper : Ty → Prop
  | .prim _ => True
  | .ptr _ => True
  | .slc t => t.Proper
  | .map _ t => t.Proper
  | .rct n fs => ProperFields n fs ∧ Ty.ProperAll fs
/-- The same for the types of all fields. -/
def Ty.ProperAll : List (String × Bool × Ty) → Prop
  | [] => True
  | (_, _, t) :: fs => t.Proper ∧ Ty.ProperAll fs
end

/-- Every declared struct is proper. -/
def Env.Proper (E : Env) : Prop := ∀ n, (Ty.rct (E n).slots (E n).fields).Proper

mutual
/-- The target holds no pointer the decoder could reuse. -/
def Free : Ty → Val → Prop
  | .prim _, _ => True
  | .map _ _, _ => True
  | .ptr _, v => v = .nil
  | .slc t, .list vs => FreeAll t vs
  | .slc _, _ => True
  | .rct _ fs, .rct vs => FreeFields fs vs
  | .rct _ _, _ => False
/-- The same for all elements of a slice. -/
def FreeAll (t : Ty) : List Val → Prop
  | [] => True
  | v :: vs => Free t v ∧ FreeAll t vs
/-- The same for all fields of a struct. -/
def FreeFields : List Field → List Val → Prop
  | [], [] => True
  | f :: fs, v :: vs => Free f.ty v ∧ FreeFields fs vs
  | _, _ => False
end

/-! ### Zero values -/

mutual
theorem free_zero : ∀ t : Ty, Free t t.zero
  | .prim _ => by simp [Free]
  | .ptr _ => by simp [Free, Ty.zero]
  | .slc _ => by simp [Free, Ty.zero, FreeAll]
  | .map _ _ => by simp [Free]
  | .rct _ fs => by simp only [Ty.zero, Free]; exact free_zeros fs
theorem free_zeros : ∀ fs : List Field, FreeFields fs (Ty.zeros fs)
  | [] => by simp [FreeFields, Ty.zeros]
  | (_, _, t) :: fs => by
      simp only [FreeFields, Ty.zeros]; exact ⟨free_zero t, free_zeros fs⟩
end

theorem FreeFields.length : ∀ {fs : List Field} {vs : List Val}, FreeFields fs vs → vs.length = fs.length
  | [], [], _ => rfl
  | _ :: _, _ :: _, h => by simp only [FreeFields] at h; simp [FreeFields.length h.2]

theorem HasFields.length {E : Env} : ∀ {fs : List Field} {vs : List Val}, HasFields E fs vs →
    vs.length = fs.length
  | [], [], _ => rfl
  | _ :: _, _ :: _, h => by simp only [HasFields] at h; simp [HasFields.length h.2]

mutual
theorem reset_free (E : Env) : ∀ (t : Ty) (v : Val), Free t v → reset E t v = t.zero
  | .prim _, _, _ => by simp [reset, Ty.zero]
  | .ptr _, v, h => by simp only [Free] at h; subst h; simp [reset, Ty.zero]
  | .slc _, _, _ => by simp [reset, Ty.zero]
  | .map _ _, _, _ => by simp [reset, Ty.zero]
  | .rct _ fs, .rct vs, h => by
      simp only [Free] at h; simp only [reset, Ty.zero]; rw [reset_frees E fs vs h]
  | .rct _ _, .prim _, h => by simp [Free] at h
  | .rct _ _, .nil, h => by simp [Free] at h
  | .rct _ _, .list _, h => by simp [Free] at h
  | .rct _ _, .map _, h => by simp [Free] at h
theorem reset_frees (E : Env) : ∀ (fs : List Field) (vs : List Val), FreeFields fs vs →
    resetAll E fs vs = Ty.zeros fs
  | [], [], _ => by simp [resetAll, Ty.zeros]
  | (_, _, t) :: fs, v :: vs, h => by
      simp only [FreeFields] at h
      simp only [resetAll, Ty.zeros]
      rw [show reset E (Field.ty (_, _, t)) v = t.zero from reset_free E t v h.1,
        reset_frees E fs vs h.2]
end

/-- What is left out is the zero value. -/
theorem dropped_zero {E : Env} {f : Field} {v : Val} (hv : Has E f.ty v) (hd : dropped f v = true) :
    v = f.ty.zero := by
  obtain ⟨k, o, t⟩ := f
  simp only [dropped, Field.ty, Bool.and_eq_true] at *
  obtain ⟨-, he⟩ := hd
  cases t <;> cases v <;> simp only [isEmpty, Has, Bool.false_eq_true] at * <;> try contradiction
  · simp only [Ty.zero]; rw [eq_of_beq he]
  · simp [Ty.zero]
  · rename_i vs; cases vs
    · simp [Ty.zero]
    · simp [isEmpty] at he
  · rename_i vs; cases vs
    · simp [Ty.zero]
    · simp [isEmpty] at he

/-! ### The loop over encoded fields -/

/-- A field as written: key, bytes of the value, and the value. -/
structure Item where
  key : PVal
  bytes : Bytes
  val : Val

/-- The bytes of a list of written fields. -/
def itemBytes (L : Lib) (items : List Item) : Bytes :=
  (items.map fun it => L.put .str it.key ++ it.bytes).flatten

/-- The value of field `f` after the written fields were decoded into `o`. -/
def finalVal (items : List Item) (f : Field) (o : Val) : Val :=
  items.foldl (fun o it => if keyStr f.key = it.key then it.val else o) o

/-- Was field `f` found? -/
def finalFound (items : List Item) (f : Field) (b : Bool) : Bool :=
  items.foldl (fun b it => if keyStr f.key = it.key then true else b) b

theorem zipWith_comp {α β : Type} (g h : α → β → β) : ∀ (as : List α) (bs : List β),
    List.zipWith h as (List.zipWith g as bs) = List.zipWith (fun a b => h a (g a b)) as bs
  | [], bs => by simp
  | a :: as, [] => by simp
  | a :: as, b :: bs => by simp [zipWith_comp g h as bs]

theorem zipWith_snd {α β : Type} : ∀ (as : List α) (bs : List β), bs.length = as.length →
    List.zipWith (fun _ b => b) as bs = bs
  | [], [], _ => rfl
  | a :: as, b :: bs, h => by simp [zipWith_snd as bs (by simpa using h)]

theorem caseOf_none {fs : List Field} {k : PVal} (h : caseOf fs k = none) :
    ∀ f ∈ fs, keyStr f.key ≠ k := by
  intro f hf he
  simp only [caseOf, List.findIdx?_eq_none_iff] at h
  have := h f hf
  simp [he] at this

theorem caseOf_some {fs : List Field} {k : PVal} {i : Nat} (h : caseOf fs k = some i) :
    ∃ f, fs[i]? = some f ∧ keyStr f.key = k := by
  simp only [caseOf, List.findIdx?_eq_some_iff_getElem] at h
  obtain ⟨hi, hk, -⟩ := h
  exact ⟨fs[i], by simp [hi], by simpa using hk⟩

theorem set_eq_zipWith {β : Type} : ∀ (fs : List Field) (cur : List β) (k : PVal) (i : Nat) (v : β),
    (fs.map fun f => keyStr f.key).Nodup → cur.length = fs.length → caseOf fs k = some i →
    cur.set i v = List.zipWith (fun (f : Field) o => if keyStr f.key = k then v else o) fs cur
  | [], _, _, _, _, _, _, h => by simp [caseOf] at h
  | f :: fs, [], _, _, _, _, hl, _ => by simp at hl
  | f :: fs, c :: cur, k, i, v, hn, hl, h => by
      simp only [List.map_cons, List.nodup_cons] at hn
      simp only [List.zipWith_cons_cons]
      by_cases hk : keyStr f.key = k
      · have h0 : i = 0 := by
          simp [caseOf, List.findIdx?_cons, hk] at h; exact h.symm
        subst h0
        have hrest : List.zipWith (fun (f : Field) o => if keyStr f.key = k then v else o) fs cur = cur := by
          have : ∀ (gs : List Field) (bs : List β), (∀ g ∈ gs, keyStr g.key ≠ k) → bs.length = gs.length →
              List.zipWith (fun (f : Field) o => if keyStr f.key = k then v else o) gs bs = bs := by
            intro gs
            induction gs with
            | nil => intro bs _ hb; simp at hb; simp [hb]
            | cons g gs ih =>
              intro bs hg hb
              cases bs with
              | nil => simp
              | cons b bs =>
                simp only [List.zipWith_cons_cons]
                rw [if_neg (hg g (by simp)), ih bs (fun x hx => hg x (by simp [hx])) (by simpa using hb)]
          apply this
          · intro g hg he
            exact hn.1 (by rw [hk, ← he]; exact List.mem_map_of_mem hg)
          · simpa using hl
        simp [hk, hrest]
      · cases i with
        | zero => simp [caseOf, List.findIdx?_cons, hk] at h
        | succ i =>
          have h' : caseOf fs k = some i := by
            simpa [caseOf, List.findIdx?_cons, hk] using h
          simp only [List.set_cons_succ, if_neg hk]
          rw [set_eq_zipWith fs cur k i v hn.2 (by simpa using hl) h']

theorem zipWith_miss {β : Type} (v : β) (k : PVal) : ∀ (fs : List Field) (cur : List β),
    (∀ f ∈ fs, keyStr f.key ≠ k) → cur.length = fs.length →
    List.zipWith (fun (f : Field) o => if keyStr f.key = k then v else o) fs cur = cur
  | [], [], _, _ => rfl
  | f :: fs, c :: cur, h, hl => by
      simp only [List.zipWith_cons_cons]
      rw [if_neg (h f (by simp)), zipWith_miss v k fs cur (fun g hg => h g (by simp [hg])) (by simpa using hl)]

theorem zipWith_congr' {α β γ : Type} (g h : α → β → γ) (e : ∀ a b, g a b = h a b) (as : List α) (bs : List β) :
    List.zipWith g as bs = List.zipWith h as bs := by
  have : g = h := by funext a b; exact e a b
  rw [this]

/-- The loop over encoded fields, when each written field that the reader knows
decodes well and each it does not know can be skipped. -/
theorem decKeys_items {L : Lib} (hL : L.Sound) (d : Dec) (fs : List Field)
    (hn : (fs.map fun f => keyStr f.key).Nodup) :
    ∀ (items : List Item) (cur : List Val) (found : List Bool) (r : Bytes),
      (items.map (·.key)).Nodup → cur.length = fs.length → found.length = fs.length →
      (∀ it ∈ items, Prim.str.Has it.key) →
      (∀ it ∈ items, caseOf fs it.key = none → Obj L it.bytes) →
      (∀ it ∈ items, ∀ i, caseOf fs it.key = some i → ∀ f, fs[i]? = some f → ∀ o, cur[i]? = some o →
        ∀ r, d f.ty o (it.bytes ++ r) = some (it.val, r)) →
      decKeys L d fs items.length cur found (itemBytes L items ++ r) =
        some (List.zipWith (finalVal items) fs cur, List.zipWith (finalFound items) fs found, r)
  | [], cur, found, r, _, hc, hf, _, _, _ => by
      simp only [List.length_nil, decKeys, itemBytes, List.map_nil, List.flatten_nil, List.nil_append]
      rw [zipWith_congr' (finalVal []) (fun _ o => o) (fun _ _ => rfl),
        zipWith_congr' (finalFound []) (fun _ o => o) (fun _ _ => rfl), zipWith_snd _ _ hc, zipWith_snd _ _ hf]
  | it :: items, cur, found, r, hk, hc, hf, hstr, hskip, hdec => by
      simp only [List.map_cons, List.nodup_cons] at hk
      have hb : itemBytes L (it :: items) ++ r =
          L.put .str it.key ++ (it.bytes ++ (itemBytes L items ++ r)) := by
        simp [itemBytes, List.append_assoc]
      have hfv : ∀ (f : Field) (o : Val), finalVal (it :: items) f o =
          finalVal items f (if keyStr f.key = it.key then it.val else o) := fun _ _ => rfl
      have hff : ∀ (f : Field) (o : Bool), finalFound (it :: items) f o =
          finalFound items f (if keyStr f.key = it.key then true else o) := fun _ _ => rfl
      rw [hb, List.length_cons, decKeys, hL.get_put _ _ _ (hstr it (by simp))]
      simp only
      cases hcase : caseOf fs it.key with
      | none =>
        simp only
        rw [hL.skip_obj _ _ (hskip it (by simp) hcase)]
        simp only
        rw [decKeys_items hL d fs hn items cur found r hk.2 hc hf (fun x hx => hstr x (by simp [hx]))
          (fun x hx => hskip x (by simp [hx])) (fun x hx => hdec x (by simp [hx]))]
        rw [zipWith_congr' _ _ hfv, zipWith_congr' _ _ hff]
        have e1 := zipWith_miss it.val it.key fs cur (caseOf_none hcase) hc
        have e2 := zipWith_miss true it.key fs found (caseOf_none hcase) hf
        rw [← zipWith_comp (fun (f : Field) o => if keyStr f.key = it.key then it.val else o) (finalVal items),
          ← zipWith_comp (fun (f : Field) o => if keyStr f.key = it.key then true else o) (finalFound items),
          e1, e2]
      | some i =>
        obtain ⟨f, hfi, hfk⟩ := caseOf_some hcase
        have hlt : i < fs.length := by
          rcases Nat.lt_or_ge i fs.length with h | h
          · exact h
          · rw [List.getElem?_eq_none h] at hfi; cases hfi
        have hci : cur[i]? = some cur[i] := by simp [hc, hlt]
        simp only [hfi, hci]
        rw [hdec it (by simp) i hcase f hfi _ hci]
        simp only
        rw [decKeys_items hL d fs hn items (cur.set i it.val) (found.set i true) r hk.2 (by simpa using hc)
          (by simpa using hf) (fun x hx => hstr x (by simp [hx]))
          (fun x hx => hskip x (by simp [hx])) ?_]
        · rw [zipWith_congr' _ _ hfv, zipWith_congr' _ _ hff,
            set_eq_zipWith fs cur it.key i it.val hn hc hcase,
            set_eq_zipWith fs found it.key i true hn hf hcase, zipWith_comp, zipWith_comp]
        · intro x hx j hj g hg o ho
          have hne : j ≠ i := by
            intro hji
            subst hji
            obtain ⟨g', hg', hgk⟩ := caseOf_some hj
            rw [hfi] at hg'
            cases hg'
            exact hk.1 (by rw [← hfk, hgk]; exact List.mem_map_of_mem hx)
          rw [List.getElem?_set_ne (Ne.symm hne)] at ho
          exact hdec x (by simp [hx]) j hj g hg o ho

theorem finalVal_miss {items : List Item} {f : Field} (h : ∀ it ∈ items, keyStr f.key ≠ it.key) (o : Val) :
    finalVal items f o = o := by
  induction items generalizing o with
  | nil => rfl
  | cons it items ih =>
    have e : finalVal (it :: items) f o =
      finalVal items f (if keyStr f.key = it.key then it.val else o) := rfl
    rw [e, if_neg (h it (by simp)), ih (fun x hx => h x (by simp [hx]))]

theorem finalFound_miss {items : List Item} {f : Field} (h : ∀ it ∈ items, keyStr f.key ≠ it.key) (o : Bool) :
    finalFound items f o = o := by
  induction items generalizing o with
  | nil => rfl
  | cons it items ih =>
    have e : finalFound (it :: items) f o =
      finalFound items f (if keyStr f.key = it.key then true else o) := rfl
    rw [e, if_neg (h it (by simp)), ih (fun x hx => h x (by simp [hx]))]

theorem finalVal_hit {items : List Item} {f : Field} (hn : (items.map (·.key)).Nodup) {it : Item}
    (hit : it ∈ items) (hk : keyStr f.key = it.key) (o : Val) : finalVal items f o = it.val := by
  induction items generalizing o with
  | nil => cases hit
  | cons x items ih =>
    have e : finalVal (x :: items) f o =
      finalVal items f (if keyStr f.key = x.key then x.val else o) := rfl
    simp only [List.map_cons, List.nodup_cons] at hn
    rw [e]
    rcases List.mem_cons.1 hit with rfl | h
    · rw [if_pos hk]
      refine finalVal_miss ?_ _
      intro y hy he
      exact hn.1 (by rw [← hk, he]; exact List.mem_map_of_mem hy)
    · exact ih hn.2 h _

theorem finalFound_true {items : List Item} {f : Field} : finalFound items f true = true := by
  induction items with
  | nil => rfl
  | cons x items ih =>
    have e : finalFound (x :: items) f true =
      finalFound items f (if keyStr f.key = x.key then true else true) := rfl
    rw [e, ite_self, ih]

theorem finalFound_hit {items : List Item} {f : Field} {it : Item}
    (hit : it ∈ items) (hk : keyStr f.key = it.key) (o : Bool) : finalFound items f o = true := by
  induction items generalizing o with
  | nil => cases hit
  | cons x items ih =>
    have e : finalFound (x :: items) f o =
      finalFound items f (if keyStr f.key = x.key then true else o) := rfl
    rw [e]
    rcases List.mem_cons.1 hit with rfl | h
    · rw [if_pos hk]; exact finalFound_true
    · exact ih h _

/-! ### What the encoder writes -/

/-- The fields that are written. -/
def itemsOf (L : Lib) (E : Env) : List Field → List Val → List Item
  | f :: fs, v :: vs =>
      (if dropped f v then [] else [⟨keyStr f.key, enc L E f.ty v, v⟩]) ++ itemsOf L E fs vs
  | _, _ => []

theorem encFields_items (L : Lib) (E : Env) : ∀ (fs : List Field) (vs : List Val),
    encFields L E fs vs = itemBytes L (itemsOf L E fs vs)
  | [], [] => by simp [encFields, itemsOf, itemBytes]
  | [], _ :: _ => by simp [encFields, itemsOf, itemBytes]
  | _ :: _, [] => by simp [encFields, itemsOf, itemBytes]
  | f :: fs, v :: vs => by
      simp only [encFields, itemsOf]
      rw [encFields_items L E fs vs]
      by_cases h : dropped f v = true <;> simp [h, itemBytes]

theorem fieldsInUse_items (L : Lib) (E : Env) : ∀ (fs : List Field) (vs : List Val),
    fieldsInUse fs vs = (itemsOf L E fs vs).length
  | [], [] => by simp [fieldsInUse, itemsOf]
  | [], _ :: _ => by simp [fieldsInUse, itemsOf]
  | _ :: _, [] => by simp [fieldsInUse, itemsOf]
  | f :: fs, v :: vs => by
      simp only [fieldsInUse, itemsOf]
      rw [fieldsInUse_items L E fs vs]
      by_cases h : dropped f v = true <;> simp [h] <;> omega

theorem itemsOf_length (L : Lib) (E : Env) : ∀ (fs : List Field) (vs : List Val),
    (itemsOf L E fs vs).length ≤ fs.length
  | [], [] => by simp [itemsOf]
  | [], _ :: _ => by simp [itemsOf]
  | _ :: _, [] => by simp [itemsOf]
  | f :: fs, v :: vs => by
      simp only [itemsOf]
      have := itemsOf_length L E fs vs
      by_cases h : dropped f v = true <;> simp [h] <;> omega

/-- The written fields: which they are. -/
theorem mem_itemsOf {L : Lib} {E : Env} : ∀ {fs : List Field} {vs : List Val} {it : Item},
    it ∈ itemsOf L E fs vs → ∃ (i : Nat) (f : Field) (v : Val), fs[i]? = some f ∧ vs[i]? = some v ∧
      dropped f v = false ∧ it = ⟨keyStr f.key, enc L E f.ty v, v⟩
  | [], [], _, h => by simp [itemsOf] at h
  | [], _ :: _, _, h => by simp [itemsOf] at h
  | _ :: _, [], _, h => by simp [itemsOf] at h
  | f :: fs, v :: vs, it, h => by
      simp only [itemsOf, List.mem_append] at h
      rcases h with h | h
      · by_cases hd : dropped f v = true
        · simp [hd] at h
        · simp [hd] at h
          exact ⟨0, f, v, rfl, rfl, by simpa using hd, h⟩
      · obtain ⟨i, f', v', h1, h2, h3, h4⟩ := mem_itemsOf h
        exact ⟨i + 1, f', v', by simpa using h1, by simpa using h2, h3, h4⟩

theorem itemsOf_mem {L : Lib} {E : Env} : ∀ {fs : List Field} {vs : List Val} {i : Nat} {f : Field} {v : Val},
    fs[i]? = some f → vs[i]? = some v → dropped f v = false →
      (⟨keyStr f.key, enc L E f.ty v, v⟩ : Item) ∈ itemsOf L E fs vs
  | [], _, _, _, _, h, _, _ => by simp at h
  | _ :: _, [], _, _, _, _, h, _ => by simp at h
  | f :: fs, v :: vs, 0, f', v', h1, h2, h3 => by
      simp at h1 h2
      subst h1; subst h2
      simp [itemsOf, h3]
  | f :: fs, v :: vs, i + 1, f', v', h1, h2, h3 => by
      simp only [itemsOf, List.mem_append]
      exact Or.inr (itemsOf_mem (by simpa using h1) (by simpa using h2) h3)

theorem itemsOf_keys {L : Lib} {E : Env} : ∀ (fs : List Field) (vs : List Val),
    ((itemsOf L E fs vs).map (·.key)).Sublist (fs.map fun f => keyStr f.key)
  | [], [] => by simp [itemsOf]
  | [], _ :: _ => by simp [itemsOf]
  | _ :: _, [] => by simp [itemsOf]
  | f :: fs, v :: vs => by
      simp only [itemsOf, List.map_cons]
      have := itemsOf_keys (L := L) (E := E) fs vs
      by_cases h : dropped f v = true
      · simp only [h, if_true, List.nil_append]; exact this.cons _
      · simp only [h, List.map_append]
        exact this.cons_cons _

theorem HasFields.get {E : Env} : ∀ {fs : List Field} {vs : List Val}, HasFields E fs vs →
    ∀ {i : Nat} {f : Field} {v : Val}, fs[i]? = some f → vs[i]? = some v → Has E f.ty v
  | [], [], _, _, _, _, h, _ => by simp at h
  | f :: fs, v :: vs, h, 0, f', v', h1, h2 => by
      simp only [HasFields] at h; simp at h1 h2; subst h1; subst h2; exact h.1
  | f :: fs, v :: vs, h, i + 1, f', v', h1, h2 => by
      simp only [HasFields] at h
      exact HasFields.get h.2 (by simpa using h1) (by simpa using h2)

theorem FreeFields.get : ∀ {fs : List Field} {vs : List Val}, FreeFields fs vs →
    ∀ {i : Nat} {f : Field} {v : Val}, fs[i]? = some f → vs[i]? = some v → Free f.ty v
  | [], [], _, _, _, _, h, _ => by simp at h
  | f :: fs, v :: vs, h, 0, f', v', h1, h2 => by
      simp only [FreeFields] at h; simp at h1 h2; subst h1; subst h2; exact h.1
  | f :: fs, v :: vs, h, i + 1, f', v', h1, h2 => by
      simp only [FreeFields] at h
      exact FreeFields.get h.2 (by simpa using h1) (by simpa using h2)

theorem Ty.ProperAll.get : ∀ {fs : List Field}, Ty.ProperAll fs → ∀ {f : Field}, f ∈ fs → f.ty.Proper
  | [], _, _, h => by cases h
  | (k, o, t) :: fs, hp, f, h => by
      simp only [Ty.ProperAll] at hp
      rcases List.mem_cons.1 h with rfl | h
      · exact hp.1
      · exact Ty.ProperAll.get hp.2 h

/-! ### What is written is an object -/

theorem Objs.append {L : Lib} : ∀ {n : Nat} {b : Bytes}, Objs L n b → ∀ {m : Nat} {c : Bytes}, Objs L m c →
    Objs L (n + m) (b ++ c)
  | _, _, .nil, m, c, h => by simpa using h
  | _, _, .cons n b b' hb hb', m, c, h => by
      have := Objs.cons (n + m) b (b' ++ c) hb (Objs.append hb' h)
      rw [show n + 1 + m = n + m + 1 by omega, List.append_assoc]
      exact this

theorem itemBytes_objs {L : Lib} : ∀ (items : List Item), (∀ it ∈ items, Prim.str.Has it.key) →
    (∀ it ∈ items, Obj L it.bytes) → Objs L (2 * items.length) (itemBytes L items)
  | [], _, _ => by simpa [itemBytes] using Objs.nil
  | it :: items, hk, ho => by
      have h := itemBytes_objs items (fun x hx => hk x (by simp [hx])) (fun x hx => ho x (by simp [hx]))
      have e : itemBytes L (it :: items) = L.put .str it.key ++ (it.bytes ++ itemBytes L items) := by
        simp [itemBytes]
      rw [e, show 2 * (it :: items).length = 2 * items.length + 1 + 1 by simp; omega]
      exact .cons _ _ _ (.prim _ _ (hk it (by simp))) (.cons _ _ _ (ho it (by simp)) h)

theorem fields_obj {L : Lib} {E : Env} {slots : Nat} {fs : List Field} {vs : List Val}
    (hp : ProperFields slots fs)
    (ho : ∀ it ∈ itemsOf L E fs vs, Obj L it.bytes) :
    Obj L (L.mapHdr (fieldsInUse fs vs) ++ encFields L E fs vs) := by
  rw [encFields_items, fieldsInUse_items L E]
  refine .map _ _ ?_ (itemBytes_objs _ ?_ ho)
  · have := itemsOf_length L E fs vs
    have := hp.2.2
    omega
  · intro it hit
    obtain ⟨i, f, v, h1, -, -, rfl⟩ := mem_itemsOf hit
    exact hp.2.1 f (List.mem_of_getElem? h1)

mutual
theorem enc_obj (L : Lib) {E : Env} (hE : E.Proper) : ∀ (t : Ty) (v : Val), t.Proper → Has E t v →
    Obj L (enc L E t v)
  | .prim p, .prim x, _, h => by simp only [Has] at h; simp only [enc]; exact .prim p x h
  | .ptr _, .nil, _, _ => by simp only [enc]; exact .nil
  | .ptr n, .rct vs, _, h => by
      simp only [Has] at h
      have hE' := hE n
      simp only [Ty.Proper] at hE'
      simp only [enc]
      exact fields_obj hE'.1 (encItems_obj L hE _ vs hE'.2 h)
  | .slc t, .list vs, hp, h => by
      simp only [Has] at h; simp only [Ty.Proper] at hp; simp only [enc]
      exact .arr _ _ h.1 (encAll_obj L hE t vs hp h.2)
  | .map k t, .map kvs, hp, h => by
      simp only [Has] at h; simp only [Ty.Proper] at hp; simp only [enc]
      exact .map _ _ h.1 (encMap_obj L hE k t kvs hp h.2.2)
  | .rct _ fs, .rct vs, hp, h => by
      simp only [Has] at h; simp only [Ty.Proper] at hp; simp only [enc]
      exact fields_obj hp.1 (encItems_obj L hE fs vs hp.2 h)
  | .prim _, .nil, _, h => by simp [Has] at h
  | .prim _, .list _, _, h => by simp [Has] at h
  | .prim _, .map _, _, h => by simp [Has] at h
  | .prim _, .rct _, _, h => by simp [Has] at h
  | .ptr _, .prim _, _, h => by simp [Has] at h
  | .ptr _, .list _, _, h => by simp [Has] at h
  | .ptr _, .map _, _, h => by simp [Has] at h
  | .slc _, .prim _, _, h => by simp [Has] at h
  | .slc _, .nil, _, h => by simp [Has] at h
  | .slc _, .map _, _, h => by simp [Has] at h
  | .slc _, .rct _, _, h => by simp [Has] at h
  | .map _ _, .prim _, _, h => by simp [Has] at h
  | .map _ _, .nil, _, h => by simp [Has] at h
  | .map _ _, .list _, _, h => by simp [Has] at h
  | .map _ _, .rct _, _, h => by simp [Has] at h
  | .rct _ _, .prim _, _, h => by simp [Has] at h
  | .rct _ _, .nil, _, h => by simp [Has] at h
  | .rct _ _, .list _, _, h => by simp [Has] at h
  | .rct _ _, .map _, _, h => by simp [Has] at h
theorem encAll_obj (L : Lib) {E : Env} (hE : E.Proper) (t : Ty) : ∀ (vs : List Val), t.Proper →
    HasAll E t vs → Objs L vs.length (encAll L E t vs)
  | [], _, _ => by simp only [encAll, List.length_nil]; exact .nil
  | v :: vs, hp, h => by
      simp only [HasAll] at h; simp only [encAll, List.length_cons]
      exact .cons _ _ _ (enc_obj L hE t v hp h.1) (encAll_obj L hE t vs hp h.2)
theorem encMap_obj (L : Lib) {E : Env} (hE : E.Proper) (k : Prim) (t : Ty) : ∀ (kvs : List (PVal × Val)),
    t.Proper → HasMap E k t kvs → Objs L (2 * kvs.length) (encMap L E k t kvs)
  | [], _, _ => by simp only [encMap, List.length_nil]; exact .nil
  | (x, v) :: kvs, hp, h => by
      simp only [HasMap] at h; simp only [encMap, List.length_cons]
      rw [show 2 * (kvs.length + 1) = 2 * kvs.length + 1 + 1 by omega]
      exact .cons _ _ _ (.prim _ _ h.1) (.cons _ _ _ (enc_obj L hE t v hp h.2.1)
        (encMap_obj L hE k t kvs hp h.2.2))
theorem encItems_obj (L : Lib) {E : Env} (hE : E.Proper) : ∀ (fs : List Field) (vs : List Val),
    Ty.ProperAll fs → HasFields E fs vs → ∀ it ∈ itemsOf L E fs vs, Obj L it.bytes
  | [], [], _, _ => by simp [itemsOf]
  | [], _ :: _, _, h => by simp [HasFields] at h
  | _ :: _, [], _, h => by simp [HasFields] at h
  | (k, o, t) :: fs, v :: vs, hp, h => by
      simp only [HasFields] at h; simp only [Ty.ProperAll] at hp
      intro it hit
      simp only [itemsOf, List.mem_append] at hit
      rcases hit with hit | hit
      · by_cases hd : dropped (k, o, t) v = true
        · simp [hd] at hit
        · simp [hd] at hit
          subst hit
          exact enc_obj L hE t v hp.1 h.1
      · exact encItems_obj L hE fs vs hp.2 h.2 it hit
end

/-! ### Missing fields -/

theorem missingLeft_eq {slots total : Nat} (hs : slots < 2 ^ 32) (ht : total ≤ slots) :
    missingLeft slots total = slots - total := by
  unfold missingLeft
  rw [Nat.mod_eq_of_lt (by omega : total < 2 ^ 32)]
  rw [show slots + 2 ^ 32 - total = (slots - total) + 2 ^ 32 by omega, Nat.add_mod_right,
    Nat.mod_eq_of_lt (by omega)]

/-- With enough resets left, every field that was not found is reset. -/
theorem resetMissing_enough (E : Env) : ∀ (fs : List Field) (vs : List Val) (found : List Bool) (left : Nat),
    vs.length = fs.length → found.length = fs.length → found.count false ≤ left →
    resetMissing E fs vs found left =
      List.zipWith (fun (fv : Field × Val) fd => if fd then fv.2 else reset E fv.1.ty fv.2) (fs.zip vs) found
  | [], [], [], _, _, _, _ => by simp [resetMissing]
  | f :: fs, v :: vs, true :: found, left, h1, h2, h3 => by
      simp only [resetMissing, if_true, List.zip_cons_cons, List.zipWith_cons_cons]
      rw [resetMissing_enough E fs vs found left (by simpa using h1) (by simpa using h2) (by simpa using h3)]
  | f :: fs, v :: vs, false :: found, 0, h1, h2, h3 => by simp at h3
  | f :: fs, v :: vs, false :: found, left + 1, h1, h2, h3 => by
      simp only [resetMissing, List.zip_cons_cons, List.zipWith_cons_cons]
      rw [resetMissing_enough E fs vs found left (by simpa using h1) (by simpa using h2)
        (by simpa using h3)]
      simp

theorem count_finalFound (L : Lib) (E : Env) : ∀ (items : List Item) (fs : List Field),
    (List.zipWith (finalFound items) fs (fs.map fun _ => false)).count false =
      (fs.filter fun f => ! (items.any fun it => keyStr f.key == it.key)).length
  | items, [] => by simp
  | items, f :: fs => by
      simp only [List.map_cons, List.zipWith_cons_cons, List.count_cons, List.filter_cons]
      rw [count_finalFound L E items fs]
      by_cases h : items.any (fun it => keyStr f.key == it.key) = true
      · obtain ⟨it, hit, hk⟩ := List.any_eq_true.1 h
        rw [finalFound_hit hit (eq_of_beq hk)]
        simp [h]
      · have hm : ∀ it ∈ items, keyStr f.key ≠ it.key := by
          intro it hit he
          exact h (List.any_eq_true.2 ⟨it, hit, by simp [he]⟩)
        rw [finalFound_miss hm]
        simp only [h]
        simp

/-- What the reader's field gets: the written value, or zero. -/
def outVal (items : List Item) (f : Field) : Val :=
  match items.find? fun it => it.key == keyStr f.key with
  | some it => it.val
  | none => f.ty.zero

theorem outVal_hit {items : List Item} {f : Field} {it : Item} (hn : (items.map (·.key)).Nodup)
    (hit : it ∈ items) (hk : keyStr f.key = it.key) : outVal items f = it.val := by
  induction items with
  | nil => cases hit
  | cons x items ih =>
    simp only [List.map_cons, List.nodup_cons] at hn
    rcases List.mem_cons.1 hit with rfl | h
    · simp [outVal, hk]
    · have hx : ¬ (x.key == keyStr f.key) = true := by
        intro he
        exact hn.1 (by rw [eq_of_beq he, hk]; exact List.mem_map_of_mem h)
      have := ih hn.2 h
      simp only [outVal, List.find?_cons, hx] at this ⊢
      exact this

theorem outVal_miss {items : List Item} {f : Field} (h : ∀ it ∈ items, keyStr f.key ≠ it.key) :
    outVal items f = f.ty.zero := by
  have : items.find? (fun it => it.key == keyStr f.key) = none := by
    rw [List.find?_eq_none]
    intro it hit he
    exact h it hit (eq_of_beq he).symm
  simp [outVal, this]

/-- The fields after the loop over the missing ones. -/
theorem resetMissing_items (E : Env) (items : List Item) (hk : (items.map (·.key)).Nodup) :
    ∀ (fs : List Field) (old : List Val) (left : Nat), FreeFields fs old →
    ((fs.filter fun f => ! (items.any fun it => keyStr f.key == it.key)).length ≤ left ∨
      old = Ty.zeros fs) →
    resetMissing E fs (List.zipWith (finalVal items) fs old)
      (List.zipWith (finalFound items) fs (fs.map fun _ => false)) left = fs.map (outVal items)
  | [], [], _, _, _ => by simp [resetMissing]
  | f :: fs, o :: old, left, hfree, hb => by
      simp only [FreeFields] at hfree
      simp only [List.map_cons, List.zipWith_cons_cons]
      by_cases h : items.any (fun it => keyStr f.key == it.key) = true
      · obtain ⟨it, hit, he⟩ := List.any_eq_true.1 h
        have he := eq_of_beq he
        rw [finalFound_hit hit he, finalVal_hit hk hit he, outVal_hit hk hit he]
        simp only [resetMissing, if_true]
        rw [resetMissing_items E items hk fs old left hfree.2 ?_]
        rcases hb with hb | hb
        · left; simpa [List.filter_cons, h] using hb
        · right
          obtain ⟨k, om, t⟩ := f
          simp only [Ty.zeros, List.cons.injEq] at hb
          exact hb.2
      · have hm : ∀ it ∈ items, keyStr f.key ≠ it.key := by
          intro it hit he
          exact h (List.any_eq_true.2 ⟨it, hit, by simp [he]⟩)
        rw [finalFound_miss hm, finalVal_miss hm, outVal_miss hm]
        simp only [resetMissing, Bool.false_eq_true, if_false]
        have hz := reset_free E f.ty o hfree.1
        cases left with
        | zero =>
          simp only
          rcases hb with hb | hb
          · simp [List.filter_cons, h] at hb
          · obtain ⟨k, om, t⟩ := f
            simp only [Ty.zeros, List.cons.injEq] at hb
            rw [resetMissing_items E items hk fs old 0 hfree.2 (Or.inr hb.2), hb.1]
            rfl
        | succ left =>
          simp only
          rw [hz, resetMissing_items E items hk fs old left hfree.2 ?_]
          rcases hb with hb | hb
          · left; simpa [List.filter_cons, h] using hb
          · right
            obtain ⟨k, om, t⟩ := f
            simp only [Ty.zeros, List.cons.injEq] at hb
            exact hb.2
  | [], _ :: _, _, h, _ => by simp [FreeFields] at h
  | _ :: _, [], _, h, _ => by simp [FreeFields] at h

/-- Decoding a struct from written fields. -/
theorem decStruct_items {L : Lib} (hL : L.Sound) (E : Env) (d : Dec) (slots : Nat) (fs : List Field)
    (items : List Item) (old : List Val) (r : Bytes)
    (hn : (fs.map fun f => keyStr f.key).Nodup) (hk : (items.map (·.key)).Nodup)
    (hlen : items.length < 2 ^ 32) (hfree : FreeFields fs old)
    (hb : (fs.filter fun f => ! (items.any fun it => keyStr f.key == it.key)).length ≤
      missingLeft slots items.length ∨ old = Ty.zeros fs)
    (hstr : ∀ it ∈ items, Prim.str.Has it.key)
    (hskip : ∀ it ∈ items, caseOf fs it.key = none → Obj L it.bytes)
    (hdec : ∀ it ∈ items, ∀ f ∈ fs, keyStr f.key = it.key → ∀ o, Free f.ty o →
        ∀ r, d f.ty o (it.bytes ++ r) = some (it.val, r)) :
    decStruct L E d slots fs old (L.mapHdr items.length ++ itemBytes L items ++ r) =
      some (fs.map (outVal items), r) := by
  unfold decStruct
  rw [List.append_assoc, hL.get_map _ _ hlen]
  simp only
  rw [decKeys_items hL d fs hn items old _ r hk hfree.length (by simp) hstr hskip ?_]
  · simp only
    rw [resetMissing_items E items hk fs old _ hfree hb]
  · intro it hit i hi f hf o ho r
    obtain ⟨f', hf', hfk⟩ := caseOf_some hi
    rw [hf] at hf'
    cases hf'
    exact hdec it hit f (List.mem_of_getElem? hf) hfk o (hfree.get hf ho) r

theorem index_inj {fs : List Field} (hn : (fs.map fun f => keyStr f.key).Nodup) {i j : Nat} {f g : Field}
    (hi : fs[i]? = some f) (hj : fs[j]? = some g) (he : keyStr f.key = keyStr g.key) : i = j := by
  have hli : i < fs.length := by
    rcases Nat.lt_or_ge i fs.length with h | h
    · exact h
    · rw [List.getElem?_eq_none h] at hi; cases hi
  have hlj : j < fs.length := by
    rcases Nat.lt_or_ge j fs.length with h | h
    · exact h
    · rw [List.getElem?_eq_none h] at hj; cases hj
  rw [List.getElem?_eq_getElem hli] at hi
  rw [List.getElem?_eq_getElem hlj] at hj
  cases hi; cases hj
  have hp := List.pairwise_iff_getElem.1 hn
  rcases Nat.lt_trichotomy i j with h | h | h
  · exact absurd (by rw [List.getElem_map, List.getElem_map]; exact he) (hp i j (by simpa using hli) (by simpa using hlj) h)
  · exact h
  · exact absurd (by rw [List.getElem_map, List.getElem_map]; exact he.symm) (hp j i (by simpa using hlj) (by simpa using hli) h)

theorem outVal_items {L : Lib} {E : Env} {fs : List Field} {vs : List Val}
    (hn : (fs.map fun f => keyStr f.key).Nodup) (hv : HasFields E fs vs) :
    fs.map (outVal (itemsOf L E fs vs)) = vs := by
  have hk : ((itemsOf L E fs vs).map (·.key)).Nodup := (itemsOf_keys fs vs).nodup hn
  apply List.ext_getElem
  · simp [hv.length]
  · intro i h1 h2
    simp only [List.length_map] at h1
    simp only [List.getElem_map]
    have hf : fs[i]? = some fs[i] := by simp
    have hv' : vs[i]? = some vs[i] := by simp
    by_cases hd : dropped fs[i] vs[i] = true
    · rw [outVal_miss ?_]
      · exact (dropped_zero (hv.get hf hv') hd).symm
      · intro it hit he
        obtain ⟨j, f, v, e1, e2, e3, rfl⟩ := mem_itemsOf hit
        have : i = j := index_inj hn hf e1 he
        subst this
        rw [hf] at e1; rw [hv'] at e2; cases e1; cases e2
        rw [hd] at e3; cases e3
    · have hd : dropped fs[i] vs[i] = false := by simpa using hd
      exact outVal_hit hk (itemsOf_mem hf hv' hd) rfl

theorem missing_count {L : Lib} {E : Env} (fs : List Field) (vs : List Val)
    (_hn : (fs.map fun f => keyStr f.key).Nodup) :
    (fs.filter fun f => ! ((itemsOf L E fs vs).any fun it => keyStr f.key == it.key)).length +
      (itemsOf L E fs vs).length ≤ fs.length := by
  have hs := itemsOf_keys (L := L) (E := E) fs vs
  generalize itemsOf L E fs vs = items at *
  have h1 : (items.map (·.key)).length ≤
      ((fs.map fun f => keyStr f.key).filter fun k => items.any fun it => k == it.key).length := by
    have := (hs.filter fun k => items.any fun it => k == it.key).length_le
    rw [List.filter_eq_self.2 ?_] at this
    · exact this
    · intro k hk
      obtain ⟨it, hit, rfl⟩ := List.mem_map.1 hk
      exact List.any_eq_true.2 ⟨it, hit, by simp⟩
  rw [List.filter_map, List.length_map, List.length_map] at h1
  have h2 := List.length_eq_countP_add_countP (l := fs) fun f => items.any fun it => keyStr f.key == it.key
  simp only [List.countP_eq_length_filter] at h2
  simp only [Function.comp_def] at h1
  have h3 : ∀ f : Field, (decide (¬ (items.any fun it => keyStr f.key == it.key) = true)) =
      ! (items.any fun it => keyStr f.key == it.key) := by
    intro f
    cases items.any fun it => keyStr f.key == it.key <;> rfl
  simp only [h3] at h2
  omega

/-- Decoding a struct of the same declaration into a target without pointers. -/
theorem decStruct_same {L : Lib} (hL : L.Sound) {E : Env} (d : Dec) {slots : Nat} {fs : List Field}
    {vs old : List Val} (r : Bytes) (hp : ProperFields slots fs) (hv : HasFields E fs vs)
    (hfree : FreeFields fs old)
    (hdec : ∀ (i : Nat) (f : Field) (v : Val), fs[i]? = some f → vs[i]? = some v →
      dropped f v = false → ∀ o, Free f.ty o → ∀ r, d f.ty o (enc L E f.ty v ++ r) = some (v, r)) :
    decStruct L E d slots fs old (L.mapHdr (fieldsInUse fs vs) ++ encFields L E fs vs ++ r) =
      some (vs, r) := by
  have hle := itemsOf_length L E fs vs
  rw [encFields_items, fieldsInUse_items L E,
    decStruct_items hL E d slots fs (itemsOf L E fs vs) old r hp.1 ((itemsOf_keys fs vs).nodup hp.1)
      (by have := hp.2.2; omega) hfree ?_ ?_ ?_ ?_, outVal_items hp.1 hv]
  · left
    have := hp.2.2
    rw [missingLeft_eq hp.2.2.2 (by omega)]
    have := missing_count (L := L) (E := E) fs vs hp.1
    omega
  · intro it hit
    obtain ⟨i, f, v, h1, -, -, rfl⟩ := mem_itemsOf hit
    exact hp.2.1 f (List.mem_of_getElem? h1)
  · intro it hit hc
    obtain ⟨i, f, v, h1, -, -, rfl⟩ := mem_itemsOf hit
    exact absurd rfl (caseOf_none hc f (List.mem_of_getElem? h1))
  · intro it hit g hg he o ho r
    obtain ⟨i, f, v, h1, h2, h3, rfl⟩ := mem_itemsOf hit
    have : g = f := by
      obtain ⟨j, hj⟩ := List.mem_iff_getElem?.1 hg
      have := index_inj hp.1 hj h1 he
      subst this
      rw [hj] at h1
      exact Option.some.inj h1
    subst this
    exact hdec i g v h1 h2 h3 o ho r

theorem item_length {L : Lib} : ∀ {items : List Item} {it : Item}, it ∈ items →
    it.bytes.length ≤ (itemBytes L items).length
  | x :: items, it, h => by
      have e : itemBytes L (x :: items) = L.put .str x.key ++ (x.bytes ++ itemBytes L items) := by
        simp [itemBytes]
      rw [e]
      simp only [List.length_append]
      rcases List.mem_cons.1 h with rfl | h
      · omega
      · have := item_length (L := L) h; omega

/-! ### Slices and maps -/

theorem FreeAll.head {t : Ty} {vs : List Val} (h : FreeAll t vs) : Free t (vs.headD t.zero) := by
  cases vs with
  | nil => exact free_zero t
  | cons v vs => simp only [FreeAll] at h; exact h.1

theorem FreeAll.tail {t : Ty} {vs : List Val} (h : FreeAll t vs) : FreeAll t vs.tail := by
  cases vs with
  | nil => simp [FreeAll]
  | cons v vs => simp only [FreeAll] at h; exact h.2

theorem decAll_same {L : Lib} {E : Env} (d : Dec) (t : Ty) : ∀ (vs olds : List Val) (r : Bytes),
    FreeAll t olds →
    (∀ v ∈ vs, ∀ o, Free t o → ∀ r, d t o (enc L E t v ++ r) = some (v, r)) →
    decAll d t vs.length olds (encAll L E t vs ++ r) = some (vs, r)
  | [], _, _, _, _ => by simp [decAll, encAll]
  | v :: vs, olds, r, hf, h => by
      simp only [List.length_cons, decAll, encAll, List.append_assoc]
      rw [h v (by simp) _ hf.head]
      simp only
      rw [decAll_same d t vs olds.tail r hf.tail (fun x hx => h x (by simp [hx]))]

theorem setKey_new {k : PVal} {v : Val} : ∀ {m : List (PVal × Val)}, k ∉ m.map (·.1) →
    setKey k v m = m ++ [(k, v)]
  | [], _ => rfl
  | (k', v') :: m, h => by
      simp only [List.map_cons, List.mem_cons, not_or] at h
      simp only [setKey, if_neg (Ne.symm h.1), List.cons_append]
      rw [setKey_new h.2]

theorem decMap_same {L : Lib} (hL : L.Sound) {E : Env} (d : Dec) (k : Prim) (t : Ty) :
    ∀ (kvs m : List (PVal × Val)) (r : Bytes), ((m ++ kvs).map (·.1)).Nodup → HasMap E k t kvs →
    (∀ kv ∈ kvs, ∀ r, d t t.zero (enc L E t kv.2 ++ r) = some (kv.2, r)) →
    decMap L d k t kvs.length m (encMap L E k t kvs ++ r) = some (m ++ kvs, r)
  | [], _, _, _, _, _ => by simp [decMap, encMap]
  | (x, v) :: kvs, m, r, hn, hh, h => by
      simp only [HasMap] at hh
      simp only [List.length_cons, decMap, encMap, List.append_assoc]
      rw [hL.get_put _ _ _ hh.1]
      simp only
      rw [h (x, v) (by simp)]
      simp only
      have hnew : x ∉ m.map (·.1) := by
        simp only [List.map_append, List.map_cons] at hn
        intro hx
        exact (List.nodup_append.1 hn).2.2 x hx x (by simp) rfl
      rw [setKey_new hnew, decMap_same hL d k t kvs (m ++ [(x, v)]) r (by simpa using hn) hh.2.2
        (fun y hy => h y (by simp [hy]))]
      simp

/-- A map whose keys may repeat is read by assigning pair after pair. -/
theorem decMap_fold {L : Lib} (hL : L.Sound) {E : Env} (d : Dec) (k : Prim) (t : Ty) :
    ∀ (kvs m : List (PVal × Val)) (r : Bytes), HasMap E k t kvs →
    (∀ kv ∈ kvs, ∀ r, d t t.zero (enc L E t kv.2 ++ r) = some (kv.2, r)) →
    decMap L d k t kvs.length m (encMap L E k t kvs ++ r) =
      some (kvs.foldl (fun m kv => setKey kv.1 kv.2 m) m, r)
  | [], _, _, _, _ => by simp [decMap, encMap]
  | (x, v) :: kvs, m, r, hh, h => by
      simp only [HasMap] at hh
      simp only [List.length_cons, decMap, encMap, List.append_assoc]
      rw [hL.get_put _ _ _ hh.1]
      simp only
      rw [h (x, v) (by simp)]
      simp only
      rw [decMap_fold hL d k t kvs _ r hh.2.2 (fun y hy => h y (by simp [hy]))]
      rfl

theorem setKey_find {x y : PVal} {v : Val} : ∀ {m : List (PVal × Val)},
    ((setKey x v m).find? (fun kv => kv.1 == y)) =
      if x = y then some (x, v) else m.find? (fun kv => kv.1 == y)
  | [] => by by_cases h : x = y <;> simp [setKey, h]
  | (x', v') :: m => by
      by_cases h1 : x' = x
      · subst h1
        by_cases h : x' = y <;> simp [setKey, h]
      · simp only [setKey, if_neg h1, List.find?_cons]
        by_cases h2 : x' = y
        · have : x ≠ y := fun h => h1 (h2.trans h.symm)
          simp [h2, this]
        · have : (x' == y) = false := by simp [h2]
          rw [this, setKey_find]

/-- Assigning pair after pair leaves, under each key, the last value given for it. -/
theorem foldl_setKey_find {y : PVal} : ∀ {kvs m : List (PVal × Val)},
    ((kvs.foldl (fun m kv => setKey kv.1 kv.2 m) m).find? (fun kv => kv.1 == y)) =
      ((kvs.reverse ++ m).find? (fun kv => kv.1 == y))
  | [], m => by simp
  | (x, v) :: kvs, m => by
      rw [List.foldl_cons, foldl_setKey_find, List.reverse_cons, List.append_assoc, List.find?_append,
        List.find?_append, setKey_find]
      by_cases h : x = y <;> simp [h]

theorem encAll_length {L : Lib} {E : Env} {t : Ty} : ∀ {vs : List Val} {v : Val}, v ∈ vs →
    (enc L E t v).length ≤ (encAll L E t vs).length
  | x :: vs, v, h => by
      simp only [encAll, List.length_append]
      rcases List.mem_cons.1 h with rfl | h
      · omega
      · have := encAll_length (L := L) (E := E) (t := t) h; omega

theorem encMap_length {L : Lib} {E : Env} {k : Prim} {t : Ty} : ∀ {kvs : List (PVal × Val)} {kv : PVal × Val},
    kv ∈ kvs → (enc L E t kv.2).length ≤ (encMap L E k t kvs).length
  | (x, v) :: kvs, kv, h => by
      simp only [encMap, List.length_append]
      rcases List.mem_cons.1 h with rfl | h
      · simp only; omega
      · have := encMap_length (L := L) (E := E) (k := k) (t := t) h; omega

theorem HasAll.get {E : Env} {t : Ty} : ∀ {vs : List Val}, HasAll E t vs → ∀ v ∈ vs, Has E t v
  | x :: vs, h, v, hv => by
      simp only [HasAll] at h
      rcases List.mem_cons.1 hv with rfl | hv
      · exact h.1
      · exact HasAll.get h.2 v hv

theorem HasMap.get {E : Env} {k : Prim} {t : Ty} : ∀ {kvs : List (PVal × Val)}, HasMap E k t kvs →
    ∀ kv ∈ kvs, Has E t kv.2
  | x :: vs, h, v, hv => by
      simp only [HasMap] at h
      rcases List.mem_cons.1 hv with rfl | hv
      · exact h.2.1
      · exact HasMap.get h.2.2 v hv

/-! ### Round trip -/

/-- Decoding what was encoded, into a target without pointers. -/
theorem dec_enc {L : Lib} (hL : L.Sound) {E : Env} (hE : E.Proper) : ∀ (n : Nat) (t : Ty) (v old : Val)
    (r : Bytes), t.Proper → Has E t v → Free t old → (enc L E t v).length ≤ n →
    dec L E n t old (enc L E t v ++ r) = some (v, r) := by
  intro n
  induction n with
  | zero =>
    intro t v old r hp hv hf hl
    exfalso
    have hpos : 0 < (enc L E t v).length := by
      have := enc_obj L hE t v hp hv
      generalize enc L E t v = b at *
      cases this with
      | nil => simp
      | prim p x h => exact hL.put_pos p x h
      | arr n b h _ => have := hL.arr_pos n h; simp only [List.length_append]; omega
      | map n b h _ => have := hL.map_pos n h; simp only [List.length_append]; omega
    omega
  | succ n ih =>
    have struct : ∀ (slots : Nat) (fs : List Field) (vs old : List Val) (r : Bytes),
        ProperFields slots fs → Ty.ProperAll fs → HasFields E fs vs → FreeFields fs old →
        (L.mapHdr (fieldsInUse fs vs) ++ encFields L E fs vs).length ≤ n + 1 →
        isNil (L.mapHdr (fieldsInUse fs vs) ++ encFields L E fs vs ++ r) = false ∧
        decStruct L E (dec L E n) slots fs old
          (L.mapHdr (fieldsInUse fs vs) ++ encFields L E fs vs ++ r) = some (vs, r) := by
      intro slots fs vs old r hp hpa hv hf hl
      have hlt : fieldsInUse fs vs < 2 ^ 32 := by
        rw [fieldsInUse_items L E]
        have := itemsOf_length L E fs vs
        have := hp.2.2
        omega
      refine ⟨by rw [List.append_assoc]; exact hL.map_nil _ _ hlt, ?_⟩
      refine decStruct_same hL _ r hp hv hf ?_
      intro i f v h1 h2 h3 o ho r
      refine ih f.ty v o r (hpa.get (List.mem_of_getElem? h1)) (hv.get h1 h2) ho ?_
      have h4 := item_length (L := L) (itemsOf_mem (L := L) (E := E) h1 h2 h3)
      rw [← encFields_items] at h4
      have := hL.map_pos _ hlt
      simp only [List.length_append] at hl
      simp only at h4
      omega
    intro t v old r hp hv hf hl
    cases t with
    | prim p =>
      cases v <;> simp only [Has] at hv
      rename_i x
      rw [show enc L E (.prim p) (.prim x) = L.put p x by simp only [enc]]
      simp only [dec]
      have : ¬ (p = .bin ∧ isNil (L.put p x ++ r) = true) := by
        rintro ⟨rfl, h⟩
        rw [hL.put_bin _ _ hv] at h; cases h
      rw [if_neg this, hL.get_put _ _ _ hv]
      rfl
    | ptr s =>
      simp only [Free] at hf
      subst hf
      cases v <;> simp only [Has] at hv
      · simp [enc, dec, isNil, reset]
      · rename_i vs
        simp only [enc] at hl ⊢
        have hEs := hE s
        simp only [Ty.Proper] at hEs
        obtain ⟨h1, h2⟩ := struct (E s).slots (E s).fields vs (Ty.zeros (E s).fields) r hEs.1 hEs.2 hv
          (free_zeros _) hl
        simp only [dec, target]
        rw [h1, h2]
        rfl
    | slc t =>
      cases v <;> simp only [Has] at hv
      rename_i vs
      simp only [Ty.Proper] at hp
      simp only [enc, List.length_append] at hl
      have hpos := hL.arr_pos _ hv.1
      simp only [enc, dec, List.append_assoc]
      rw [hL.get_arr _ _ hv.1]
      simp only
      rw [decAll_same]
      · rfl
      · cases old <;> simp only [Free] at hf <;> simp [FreeAll]
        exact hf
      · intro v hv' o ho r
        refine ih t v o r hp (hv.2.get v hv') ho ?_
        have := encAll_length (L := L) (E := E) (t := t) hv'
        omega
    | map k t =>
      cases v <;> simp only [Has] at hv
      rename_i kvs
      simp only [Ty.Proper] at hp
      simp only [enc, List.length_append] at hl
      have hpos := hL.map_pos _ hv.1
      simp only [enc, dec, List.append_assoc]
      rw [hL.get_map _ _ hv.1]
      simp only
      rw [decMap_same hL _ k t kvs [] r (by simpa using hv.2.1) hv.2.2]
      · rfl
      · intro kv hkv r
        refine ih t kv.2 _ r hp (hv.2.2.get kv hkv) (free_zero t) ?_
        have := encMap_length (L := L) (E := E) (k := k) (t := t) hkv
        omega
    | rct s fs =>
      cases v <;> simp only [Has] at hv
      rename_i vs
      cases old <;> simp only [Free] at hf
      rename_i olds
      simp only [Ty.Proper] at hp
      simp only [enc] at hl ⊢
      obtain ⟨h1, h2⟩ := struct s fs vs olds r hp.1 hp.2 hv hf hl
      simp only [dec, target]
      rw [h1, h2]
      rfl

end Verif.Greenpack
