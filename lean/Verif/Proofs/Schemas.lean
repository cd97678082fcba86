import Mathlib.Data.List.Perm.Subperm
import Verif.Proofs.Greenpack
import Verif.Proofs.Msgpack
import Verif.Model.MsgGreen

/-!
# The declarations of `/repo` are proper; pointer-free structs; version skew
-/

namespace Verif.Greenpack

/-! ### Checking declarations -/

/-- `ProperFields` as a computation. -/
def properFieldsB (slots : Nat) (fs : List Field) : Bool :=
  decide (fs.map fun f => f.key).Nodup &&
    (fs.all fun f => decide (f.key.toUTF8.data.size < 2 ^ 32)) &&
    decide (fs.length ≤ slots) && decide (slots < 2 ^ 32)

mutual
/-- `Ty.Proper` as a computation. -/
def properB : Ty → Bool
  | .prim _ => true
  | .ptr _ => true
  | .slc t => properB t
  | .map _ t => properB t
  | .rct n fs => properFieldsB n fs && properAllB fs
/-- The same for all fields. -/
def properAllB : List (String × Bool × Ty) → Bool
  | [] => true
  | (_, _, t) :: fs => properB t && properAllB fs
end

theorem keyStr_inj {a b : String} (h : keyStr a = keyStr b) : a = b := by
  simp only [keyStr, PVal.str.injEq] at h
  have h1 : a.toUTF8.data = b.toUTF8.data := Array.toList_inj.1 h
  have h2 : a.toUTF8 = b.toUTF8 := by
    cases ha : a.toUTF8; cases hb : b.toUTF8
    rw [ha, hb] at h1
    simp only at h1
    rw [h1]
  exact String.toByteArray_inj.1 h2

theorem properFieldsB_sound {slots : Nat} {fs : List Field} (h : properFieldsB slots fs = true) :
    ProperFields slots fs := by
  simp only [properFieldsB, Bool.and_eq_true, decide_eq_true_eq, List.all_eq_true] at h
  obtain ⟨⟨⟨h1, h2⟩, h3⟩, h4⟩ := h
  refine ⟨?_, ?_, h3, h4⟩
  · rw [List.Nodup, List.pairwise_map] at h1 ⊢
    exact h1.imp fun hne he => hne (keyStr_inj he)
  · intro f hf
    simp only [keyStr, Prim.Has, Array.length_toList]
    exact h2 f hf

mutual
theorem properB_sound : ∀ t : Ty, properB t = true → t.Proper
  | .prim _, _ => by simp [Ty.Proper]
  | .ptr _, _ => by simp [Ty.Proper]
  | .slc t, h => by
      simp only [properB] at h; simp only [Ty.Proper]; exact properB_sound t h
  | .map _ t, h => by
      simp only [properB] at h; simp only [Ty.Proper]; exact properB_sound t h
  | .rct n fs, h => by
      simp only [properB, Bool.and_eq_true] at h
      simp only [Ty.Proper]
      exact ⟨properFieldsB_sound h.1, properAllB_sound fs h.2⟩
theorem properAllB_sound : ∀ fs : List (String × Bool × Ty), properAllB fs = true → Ty.ProperAll fs
  | [], _ => by simp [Ty.ProperAll]
  | (_, _, t) :: fs, h => by
      simp only [properAllB, Bool.and_eq_true] at h
      simp only [Ty.ProperAll]
      exact ⟨properB_sound t h.1, properAllB_sound fs h.2⟩
end

theorem structs_properB : (structs.all fun p => properB p.2.ty) = true := by decide +kernel

theorem structs_proper {n : String} {s : Struct} (h : (n, s) ∈ structs) : s.ty.Proper :=
  properB_sound _ (List.all_eq_true.1 structs_properB _ h)

theorem lookup_mem {α β : Type} [BEq α] [LawfulBEq α] : ∀ {l : List (α × β)} {a : α} {b : β},
    l.lookup a = some b → (a, b) ∈ l
  | (x, y) :: l, a, b, h => by
      rw [List.lookup_cons] at h
      cases he : a == x with
      | true =>
        rw [he] at h
        cases eq_of_beq he; cases h; simp
      | false =>
        rw [he] at h
        exact List.mem_cons_of_mem _ (lookup_mem h)

theorem repo_proper : repo.Proper := by
  intro n
  unfold repo
  cases h : structs.lookup n with
  | none => simp [Ty.Proper, Ty.ProperAll, ProperFields]
  | some s => exact structs_proper (lookup_mem h)

/-! ### Structs without pointers -/

mutual
/-- There is no pointer inside, except in maps. -/
def flat : Ty → Bool
  | .prim _ => true
  | .ptr _ => false
  | .slc t => flat t
  | .map _ _ => true
  | .rct _ fs => flats fs
/-- The same for all fields. -/
def flats : List (String × Bool × Ty) → Bool
  | [] => true
  | (_, _, t) :: fs => flat t && flats fs
end

mutual
theorem flat_free {E : Env} : ∀ (t : Ty) (v : Val), flat t = true → Has E t v → Free t v
  | .prim _, _, _, _ => by simp [Free]
  | .ptr _, _, h, _ => by simp [flat] at h
  | .map _ _, _, _, _ => by simp [Free]
  | .slc t, .list vs, h, hv => by
      simp only [flat] at h; simp only [Has] at hv; simp only [Free]
      exact flat_frees t vs h hv.2
  | .slc _, .prim _, _, _ => by simp [Free]
  | .slc _, .nil, _, _ => by simp [Free]
  | .slc _, .map _, _, _ => by simp [Free]
  | .slc _, .rct _, _, _ => by simp [Free]
  | .rct _ fs, .rct vs, h, hv => by
      simp only [flat] at h; simp only [Has] at hv; simp only [Free]
      exact flat_freeFields fs vs h hv
  | .rct _ _, .prim _, _, hv => by simp [Has] at hv
  | .rct _ _, .nil, _, hv => by simp [Has] at hv
  | .rct _ _, .map _, _, hv => by simp [Has] at hv
  | .rct _ _, .list _, _, hv => by simp [Has] at hv
theorem flat_frees {E : Env} (t : Ty) : ∀ (vs : List Val), flat t = true → HasAll E t vs → FreeAll t vs
  | [], _, _ => by simp [FreeAll]
  | v :: vs, h, hv => by
      simp only [HasAll] at hv; simp only [FreeAll]
      exact ⟨flat_free t v h hv.1, flat_frees t vs h hv.2⟩
theorem flat_freeFields {E : Env} : ∀ (fs : List Field) (vs : List Val), flats fs = true →
    HasFields E fs vs → FreeFields fs vs
  | [], [], _, _ => by simp [FreeFields]
  | [], _ :: _, _, hv => by simp [HasFields] at hv
  | _ :: _, [], _, hv => by simp [HasFields] at hv
  | (_, _, t) :: fs, v :: vs, h, hv => by
      simp only [flats, Bool.and_eq_true] at h
      simp only [HasFields] at hv; simp only [FreeFields]
      exact ⟨flat_free t v h.1 hv.1, flat_freeFields fs vs h.2 hv.2⟩
end

/-! ### Round trip of a struct -/

theorem unmarshal_marshal {L : Lib} (hL : L.Sound) {E : Env} (hE : E.Proper) {s : Struct}
    (hs : s.ty.Proper) {v old : Val} (hv : Has E s.ty v) (ho : Free s.ty old) (r : Bytes) :
    unmarshal L E s old (marshal L E s v ++ r) = some (v, r) := by
  refine dec_enc hL hE _ s.ty v old r hs hv ho ?_
  simp only [List.length_append]
  have : (marshal L E s v).length = (enc L E s.ty v).length := rfl
  omega

/-! ### Version skew -/

theorem zeros_get : ∀ (fs : List Field) (i : Nat) (f : Field), fs[i]? = some f →
    (Ty.zeros fs)[i]? = some f.ty.zero
  | (_, _, t) :: fs, 0, f, h => by
      simp only [List.getElem?_cons_zero, Option.some.injEq] at h
      subst h
      simp [Ty.zeros, Field.ty]
  | (_, _, t) :: fs, i + 1, f, h => by
      simp only [List.getElem?_cons_succ] at h
      simp only [Ty.zeros, List.getElem?_cons_succ]
      exact zeros_get fs i f h
  | [], _, _, h => by simp at h

/-- A reader with other fields: what it gets. -/
theorem skew_items {L : Lib} (hL : L.Sound) {E : Env} (hE : E.Proper) {w d : Struct}
    (hw : w.ty.Proper) (hd : d.ty.Proper)
    (hc : ∀ f ∈ w.fields, ∀ g ∈ d.fields, f.key = g.key → f.ty = g.ty)
    {vs old : List Val} (hv : HasFields E w.fields vs) (hfree : FreeFields d.fields old)
    (hb : (d.fields.filter fun f => ! ((itemsOf L E w.fields vs).any fun it => keyStr f.key == it.key)).length ≤
      missingLeft d.slots (itemsOf L E w.fields vs).length ∨ old = Ty.zeros d.fields) (r : Bytes) :
    unmarshal L E d (.rct old) (marshal L E w (.rct vs) ++ r) =
      some (.rct (d.fields.map (outVal (itemsOf L E w.fields vs))), r) := by
  simp only [Struct.ty, Ty.Proper] at hw hd
  have hle := itemsOf_length L E w.fields vs
  have hlt : fieldsInUse w.fields vs < 2 ^ 32 := by
    rw [fieldsInUse_items L E]
    have := hw.1.2.2
    omega
  have henc : marshal L E w (.rct vs) = L.mapHdr (fieldsInUse w.fields vs) ++ encFields L E w.fields vs := by
    simp only [marshal, enc]
  rw [henc]
  unfold unmarshal
  simp only [dec, target]
  have hnil : isNil (L.mapHdr (fieldsInUse w.fields vs) ++ encFields L E w.fields vs ++ r) = false := by
    rw [List.append_assoc]; exact hL.map_nil _ _ hlt
  rw [hnil]
  have key := decStruct_items hL E
    (dec L E (L.mapHdr (fieldsInUse w.fields vs) ++ encFields L E w.fields vs ++ r).length)
    d.slots d.fields (itemsOf L E w.fields vs) old r hd.1.1
    ((itemsOf_keys w.fields vs).nodup hw.1.1) (by have := hw.1.2.2; omega) hfree hb ?_ ?_ ?_
  · rw [← encFields_items, ← fieldsInUse_items] at key
    rw [key]
    rfl
  · intro it hit
    obtain ⟨i, f, v, h1, -, -, rfl⟩ := mem_itemsOf hit
    exact hw.1.2.1 f (List.mem_of_getElem? h1)
  · intro it hit _
    obtain ⟨i, f, v, h1, h2, -, rfl⟩ := mem_itemsOf hit
    exact enc_obj L hE f.ty v (hw.2.get (List.mem_of_getElem? h1)) (hv.get h1 h2)
  · intro it hit g hg he o ho r'
    have hil := item_length (L := L) hit
    obtain ⟨i, f, v, h1, h2, h3, rfl⟩ := mem_itemsOf hit
    have hf := List.mem_of_getElem? h1
    have ht := hc f hf g hg (keyStr_inj he.symm)
    rw [← encFields_items] at hil
    simp only at hil ⊢
    rw [← ht] at ho ⊢
    refine dec_enc hL hE _ f.ty v o r' (hw.2.get hf) (hv.get h1 h2) ho ?_
    simp only [List.length_append]
    omega

/-- A reader that knows every field of the writer has slots for what is missing. -/
theorem older_budget {L : Lib} {E : Env} {w d : Struct} (hw : w.ty.Proper) (hd : d.ty.Proper)
    (hk : ∀ f ∈ w.fields, ∃ g ∈ d.fields, g.key = f.key) (vs : List Val) :
    (d.fields.filter fun f => ! ((itemsOf L E w.fields vs).any fun it => keyStr f.key == it.key)).length ≤
      missingLeft d.slots (itemsOf L E w.fields vs).length := by
  simp only [Struct.ty, Ty.Proper] at hw hd
  have hn := (itemsOf_keys (L := L) (E := E) w.fields vs).nodup hw.1.1
  have hsub : ∀ it ∈ itemsOf L E w.fields vs, ∃ g ∈ d.fields, keyStr g.key = it.key := by
    intro it hit
    obtain ⟨i, f, v, e1, -, -, rfl⟩ := mem_itemsOf hit
    obtain ⟨g, hg, he⟩ := hk f (List.mem_of_getElem? e1)
    exact ⟨g, hg, by simp only [he]⟩
  generalize itemsOf L E w.fields vs = items at *
  have h1 : (items.map (·.key)).length ≤
      ((d.fields.filter fun f => items.any fun it => keyStr f.key == it.key).map fun f => keyStr f.key).length := by
    refine (List.subperm_of_subset hn ?_).length_le
    intro k hk
    obtain ⟨it, hit, rfl⟩ := List.mem_map.1 hk
    obtain ⟨g, hg, he⟩ := hsub it hit
    refine List.mem_map.2 ⟨g, List.mem_filter.2 ⟨hg, ?_⟩, he⟩
    exact List.any_eq_true.2 ⟨it, hit, by simp [he]⟩
  rw [List.length_map, List.length_map] at h1
  have h2 := List.length_eq_countP_add_countP (l := d.fields) fun f => items.any fun it => keyStr f.key == it.key
  simp only [List.countP_eq_length_filter] at h2
  have h3 : ∀ f : Field, (decide (¬ (items.any fun it => keyStr f.key == it.key) = true)) =
      ! (items.any fun it => keyStr f.key == it.key) := by
    intro f
    cases items.any fun it => keyStr f.key == it.key <;> rfl
  simp only [h3] at h2
  have h4 := hd.1.2.2
  rw [missingLeft_eq h4.2 (by omega)]
  omega

theorem outVal_shared {L : Lib} {E : Env} {ws : List Field} {vs : List Val}
    (hn : (ws.map fun f => keyStr f.key).Nodup) (hv : HasFields E ws vs) {j : Nat} {f g : Field} {v : Val}
    (h1 : ws[j]? = some f) (h2 : vs[j]? = some v) (hk : f.key = g.key) (ht : f.ty = g.ty) :
    outVal (itemsOf L E ws vs) g = v := by
  have hkn : ((itemsOf L E ws vs).map (·.key)).Nodup := (itemsOf_keys ws vs).nodup hn
  by_cases hd : dropped f v = true
  · rw [outVal_miss ?_]
    · rw [← ht]
      exact (dropped_zero (hv.get h1 h2) hd).symm
    · intro it hit he
      obtain ⟨i, f', v', e1, e2, e3, rfl⟩ := mem_itemsOf hit
      have : j = i := index_inj hn h1 e1 (by rw [hk]; exact he)
      subst this
      rw [h1] at e1; rw [h2] at e2; cases e1; cases e2
      rw [hd] at e3; cases e3
  · have hd : dropped f v = false := by simpa using hd
    exact outVal_hit hkn (itemsOf_mem h1 h2 hd) (by simp only [hk])

theorem outVal_unknown {L : Lib} {E : Env} {ws : List Field} {vs : List Val} {g : Field}
    (h : ∀ f ∈ ws, f.key ≠ g.key) : outVal (itemsOf L E ws vs) g = g.ty.zero := by
  refine outVal_miss ?_
  intro it hit he
  obtain ⟨i, f, v, e1, -, -, rfl⟩ := mem_itemsOf hit
  exact h f (List.mem_of_getElem? e1) (keyStr_inj he.symm)

end Verif.Greenpack
