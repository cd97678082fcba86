import Verif.Proofs.EventQ2
/-
Operations on a queue: C131.
-/
namespace Verif.EventQ

/-- What is asked of a queue. -/
inductive Op where
  | put (e : Ev) | pop | del (e : Ev)

/-- pq.go:45-100 add, pop, del, with what comes out. -/
def stepQ (cmp : Ev → Ev → Ordering) (q : List Ev) : Op → List Ev × Option Ev
  | .put e => (add cmp e q, none)
  | .pop => (q.tail, q.head?)
  | .del e => let r := del cmp e q; (r.1, if r.2 then some e else none)

def runQ (cmp : Ev → Ev → Ordering) (ops : List Op) : List Ev := ops.foldl (fun q o => (stepQ cmp q o).1) []

def Op.ev : Op → Option Ev
  | .put e => some e
  | .pop => none
  | .del e => some e

theorem sorted_nodup {cmp c : Ev → Ev → Ordering} (K : Keyed cmp c) {q : List Ev} (h : Sorted cmp q) : q.Nodup :=
  h.imp (fun {a b} h e => by subst e; rw [(K.eq_iff a a).2 rfl] at h; cases h)

theorem numbered_mono {l l' : List Ev} (h : ∀ x ∈ l, x ∈ l') (hn : Numbered l') : Numbered l :=
  fun a ha b hb => hn a (h a ha) b (h b hb)

theorem stepQ_inv {cmp c : Ev → Ev → Ordering} (K : Keyed cmp c) {all q : List Ev} (hn : Numbered all) (o : Op)
    (ho : ∀ e, o.ev = some e → e ∈ all) (hq : Sorted cmp q) (hm : ∀ x ∈ q, x ∈ all) :
    Sorted cmp (stepQ cmp q o).1 ∧ ∀ x ∈ (stepQ cmp q o).1, x ∈ all := by
  have hcons : ∀ e, e ∈ all → Numbered (e :: q) := fun e he => numbered_mono (fun x hx => by
    rcases List.mem_cons.1 hx with rfl | hx
    · exact he
    · exact hm x hx) hn
  cases o with
  | put e =>
    have he := ho e rfl
    refine ⟨sorted_add K (hcons e he) hq, ?_⟩
    intro x hx
    rcases mem_of_add hx with rfl | hx
    · exact he
    · exact hm x hx
  | pop => exact ⟨List.Pairwise.sublist (List.tail_sublist q) hq, fun x hx => hm x (List.mem_of_mem_tail hx)⟩
  | del e =>
    have he := ho e rfl
    have hd := del_spec K (hcons e he) hq
    exact ⟨List.Pairwise.sublist hd.2.2 hq, fun x hx => hm x ((hd.2.1 x).1 hx).1⟩

theorem runQ_inv {cmp c : Ev → Ev → Ordering} (K : Keyed cmp c) {all : List Ev} (hn : Numbered all) (ops : List Op) :
    ∀ q : List Ev, (∀ o ∈ ops, ∀ e, o.ev = some e → e ∈ all) → Sorted cmp q → (∀ x ∈ q, x ∈ all) →
    Sorted cmp (ops.foldl (fun q o => (stepQ cmp q o).1) q) ∧ ∀ x ∈ ops.foldl (fun q o => (stepQ cmp q o).1) q, x ∈ all := by
  induction ops with
  | nil => intro q _ h1 h2; exact ⟨h1, h2⟩
  | cons o ops ih =>
    intro q ho h1 h2
    have := stepQ_inv K hn o (ho o List.mem_cons_self) h1 h2
    exact ih _ (fun o' ho' => ho o' (List.mem_cons_of_mem _ ho')) this.1 this.2

theorem distinct_numbered : ∀ {l : List Ev}, DistinctSn l → Numbered l
  | [], _ => fun a ha => by cases ha
  | e :: l, h => by
    have h' := List.pairwise_cons.1 h
    intro a ha b hb hab
    rcases List.mem_cons.1 ha with ea | ka
    · rcases List.mem_cons.1 hb with eb | kb
      · exact ea.trans eb.symm
      · exact absurd (ea ▸ hab) (h'.1 b kb)
    · rcases List.mem_cons.1 hb with eb | kb
      · exact absurd (eb ▸ hab).symm (h'.1 a ka)
      · exact distinct_numbered h'.2 a ka b kb hab

theorem then_lt {c x : Ordering} (h : c.then x = .lt) : c ≠ .gt := by
  intro e; rw [e] at h; cases h

theorem cmpNat_ne_gt {a b : Nat} (h : cmpNat a b ≠ .gt) : a ≤ b :=
  Nat.le_of_not_lt (fun h' => h (cmpNat_gt.2 h'))

end Verif.EventQ
