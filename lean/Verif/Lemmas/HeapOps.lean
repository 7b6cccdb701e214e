import Verif.Model.HeapOps
import Verif.Lemmas.DictOps
/-! # Lemmas about the heap of dictionaries and lists -/

namespace Verif.HeapOps
open Verif Spec

/-- A set of addresses closed by following references. -/
def Closed (h : Heap) (P : Nat → Prop) : Prop := ∀ v s w, Ref P v → Spec.child h v s = some w → Ref P w

theorem _root_.Verif.Spec.Within.closed {h : Heap} {P : Nat → Prop} {v : HVal} (hc : Closed h P) (hv : Ref P v) : Within h P v := by
  intro p
  induction p generalizing v with
  | nil => intro w hw; simp only [valueAt, Option.some.injEq] at hw; subst hw; exact hv
  | cons s p ih =>
    intro w hw
    simp only [valueAt] at hw
    cases hx : Spec.child h v s with
    | none => rw [hx] at hw; simp at hw
    | some x => rw [hx] at hw; exact ih (hc v s x hv hx) w hw

theorem _root_.Verif.Spec.Within.self {h : Heap} {P : Nat → Prop} {v : HVal} (hw : Within h P v) : Ref P v := hw [] v rfl

theorem _root_.Verif.Spec.Within.child {h : Heap} {P : Nat → Prop} {v w : HVal} {s : Step} (hw : Within h P v)
    (hc : Spec.child h v s = some w) : Within h P w := by
  intro p x hx
  exact hw (s :: p) x (by simp only [valueAt, hc]; exact hx)

theorem _root_.Verif.Spec.Within.mono {h : Heap} {P Q : Nat → Prop} {v : HVal} (hw : Within h P v) (hpq : ∀ a, P a → Q a) : Within h Q v := by
  intro p w h1
  have := hw p w h1
  cases w with
  | atom _ => trivial
  | dict a => exact hpq a this
  | list a => exact hpq a this

theorem child_agree {h h' : Heap} {P : Nat → Prop} {v : HVal} (hv : Ref P v) (ha : ∀ a, P a → h'[a]? = h[a]?) (s : Step) :
    Spec.child h' v s = Spec.child h v s := by
  cases v with
  | atom _ => cases s <;> rfl
  | dict a => cases s <;> simp only [child]; rw [ha a hv]
  | list a => cases s <;> simp only [child]; rw [ha a hv]

theorem shapeOf_agree {h h' : Heap} {P : Nat → Prop} {v : HVal} (hv : Ref P v) (ha : ∀ a, P a → h'[a]? = h[a]?) :
    shapeOf h' v = shapeOf h v := by
  cases v with
  | atom _ => rfl
  | dict a => simp only [shapeOf]; rw [ha a hv]
  | list a => simp only [shapeOf]; rw [ha a hv]

theorem valueAt_agree {h h' : Heap} {P : Nat → Prop} {v : HVal} (hw : Within h P v) (ha : ∀ a, P a → h'[a]? = h[a]?)
    (p : List Step) : valueAt h' v p = valueAt h v p := by
  induction p generalizing v with
  | nil => rfl
  | cons s p ih =>
    simp only [valueAt]
    rw [child_agree hw.self ha]
    cases hc : Spec.child h v s with
    | none => rfl
    | some w => exact ih (hw.child hc)

theorem _root_.Verif.Spec.Within.agree {h h' : Heap} {P : Nat → Prop} {v : HVal} (hw : Within h P v) (ha : ∀ a, P a → h'[a]? = h[a]?) :
    Within h' P v := by
  intro p w hp
  rw [valueAt_agree hw ha] at hp
  exact hw p w hp

/-- Values whose cells are unchanged have unchanged contents. -/
theorem same_agree {h h' : Heap} {P : Nat → Prop} {v : HVal} (hw : Within h P v) (ha : ∀ a, P a → h'[a]? = h[a]?) :
    SameContents h v h' v := by
  intro p
  simp only [seen]
  rw [valueAt_agree hw ha]
  cases hc : valueAt h v p with
  | none => rfl
  | some w => exact shapeOf_agree (hw p w hc) ha

theorem _root_.Verif.Spec.SameContents.trans {h₁ h₂ h₃ : Heap} {v₁ v₂ v₃ : HVal} (h12 : SameContents h₁ v₁ h₂ v₂) (h23 : SameContents h₂ v₂ h₃ v₃) :
    SameContents h₁ v₁ h₃ v₃ := fun p => (h23 p).trans (h12 p)

theorem _root_.Verif.Spec.SameContents.refl (h : Heap) (v : HVal) : SameContents h v h v := fun _ => rfl

theorem seen_cons (h : Heap) (v : HVal) (s : Step) (p : List Step) :
    seen h v (s :: p) = (Spec.child h v s).bind (fun w => seen h w p) := by
  simp only [seen, valueAt]
  cases Spec.child h v s <;> rfl

theorem closed_lt {h : Heap} (hw : WFHeap h) : Closed h (· < h.length) := fun v s w _ hc => hw v s w hc

/-! ## setKey -/

theorem length_setKey (h : Heap) (a : Nat) (k : Text) (v : HVal) : (setKey h a k v).length = h.length := by
  unfold setKey; split <;> simp

theorem setKey_ne (h : Heap) (a : Nat) (k : Text) (v : HVal) (b : Nat) (hb : b ≠ a) : (setKey h a k v)[b]? = h[b]? := by
  unfold setKey
  split
  · rw [List.getElem?_set_ne (Ne.symm hb)]
  · rfl

theorem setKey_self {h : Heap} {a : Nat} {m : GoMap HVal} (k : Text) (v : HVal) (hm : h[a]? = some (.dict m)) :
    (setKey h a k v)[a]? = some (.dict (m.set k v)) := by
  unfold setKey
  rw [hm]
  have : a < h.length := (List.getElem?_eq_some_iff.1 hm).1
  simp [this]

theorem entry_some {h : Heap} {a : Nat} {k : Text} {v : HVal} (he : entry h a k = some v) :
    ∃ m, h[a]? = some (.dict m) ∧ m.get? k = some v := by
  simp only [entry, child] at he
  split at he
  · rename_i m hm; exact ⟨m, hm, he⟩
  · cases he

theorem entry_of {h : Heap} {a : Nat} {m : GoMap HVal} (hm : h[a]? = some (.dict m)) (k : Text) : entry h a k = m.get? k := by
  simp only [entry, child, hm]

theorem entry_agree {h h' : Heap} {a : Nat} (ha : h'[a]? = h[a]?) (k : Text) : entry h' a k = entry h a k := by
  simp only [entry, child, ha]

/-! ## Clone -/

/-- What cloning one value guarantees. -/
structure Cloned (h : Heap) (v : HVal) (h' : Heap) (v' : HVal) : Prop where
  ext : ∃ e, h' = h ++ e
  same : SameContents h v h' v'
  fresh : Within h' (fun a => h.length ≤ a ∧ a < h'.length) v'
  closed : Closed h' (fun a => h.length ≤ a ∧ a < h'.length)

theorem closed_range_append {h e : Heap} {lo : Nat} (hlo : lo ≤ h.length) (hc : Closed h (fun a => lo ≤ a ∧ a < h.length))
    (hn : Closed (h ++ e) (fun a => h.length ≤ a ∧ a < (h ++ e).length)) :
    Closed (h ++ e) (fun a => lo ≤ a ∧ a < (h ++ e).length) := by
  intro v s w hv hcw
  by_cases hold : Ref (· < h.length) v
  · have h1 : Spec.child h v s = some w := by
      rw [← hcw]; exact (child_agree hold (fun a ha => List.getElem?_append_left ha) s).symm
    have hv' : Ref (fun a => lo ≤ a ∧ a < h.length) v := by
      cases v with
      | atom _ => trivial
      | dict a => exact ⟨hv.1, hold⟩
      | list a => exact ⟨hv.1, hold⟩
    have := hc v s w hv' h1
    cases w with
    | atom _ => trivial
    | dict a => exact ⟨this.1, by have := this.2; simp; omega⟩
    | list a => exact ⟨this.1, by have := this.2; simp; omega⟩
  · have hv' : Ref (fun a => h.length ≤ a ∧ a < (h ++ e).length) v := by
      cases v with
      | atom _ => trivial
      | dict a => exact ⟨by simpa [Ref] using hold, hv.2⟩
      | list a => exact ⟨by simpa [Ref] using hold, hv.2⟩
    have := hn v s w hv' hcw
    cases w with
    | atom _ => trivial
    | dict a => exact ⟨by have := this.1; omega, this.2⟩
    | list a => exact ⟨by have := this.1; omega, this.2⟩

theorem _root_.Verif.Spec.FlatLists.child {h : Heap} {v w : HVal} {s : Step} (hf : FlatLists h v) (hc : Spec.child h v s = some w) : FlatLists h w := by
  intro p b hb
  exact hf (s :: p) b (by simp only [valueAt, hc]; exact hb)

theorem _root_.Verif.Spec.FlatLists.agree {h h' : Heap} {P : Nat → Prop} {v : HVal} (hf : FlatLists h v) (hw : Within h P v)
    (ha : ∀ a, P a → h'[a]? = h[a]?) : FlatLists h' v := by
  intro p b hb i w hi
  rw [valueAt_agree hw ha] at hb
  rw [child_agree (v := .list b) (hw p _ hb) ha] at hi
  exact hf p b hb i w hi

theorem cloneList_cloned {h : Heap} {a : Nat} {h' : Heap} {v' : HVal} (hf : FlatLists h (.list a))
    (hc : cloneList h a = some (h', v')) : Cloned h (.list a) h' v' := by
  simp only [cloneList, Option.bind_eq_bind, Option.bind_eq_some_iff] at hc
  obtain ⟨items, hi, items', hi', hr⟩ := hc
  simp only [Option.pure_def, Option.some.injEq, Prod.mk.injEq] at hr
  obtain ⟨rfl, rfl⟩ := hr
  have hcell : h[a]? = some (.arr items) := by
    simp only [arrayOf] at hi; split at hi
    · rename_i l hl; simp only [Option.some.injEq] at hi; subst hi; exact hl
    · cases hi
  have hatoms : ∀ (i : Nat) (w : HVal), items[i]? = some w → ∃ x, w = .atom x := by
    intro i w hiw
    exact hf [] a rfl i w (by simp only [Spec.child, hcell]; exact hiw)
  have hsame : items' = items := by
    unfold cloneItems at hi'
    split at hi'
    · rename_i b
      obtain ⟨x, hx⟩ := hatoms 0 (.list b) rfl
      cases hx
    · simpa using hi'.symm
  subst hsame
  have hnew : (h ++ [Cell.arr items'])[h.length]? = some (.arr items') := by simp
  refine ⟨⟨_, rfl⟩, ?_, ?_, ?_⟩
  · intro p
    cases p with
    | nil => simp only [seen, valueAt, Option.bind_some, shapeOf, hnew, hcell]
    | cons s p =>
      rw [seen_cons, seen_cons]
      have : Spec.child (h ++ [Cell.arr items']) (.list h.length) s = Spec.child h (.list a) s := by
        cases s <;> simp only [Spec.child, hnew, hcell]
      rw [this]
      cases hs : Spec.child h (.list a) s with
      | none => rfl
      | some w =>
        have : ∃ x, w = .atom x := by
          cases s with
          | key k => simp [Spec.child] at hs
          | idx i => exact hatoms i w (by simpa only [Spec.child, hcell] using hs)
        obtain ⟨x, rfl⟩ := this
        simp only [Option.bind_some]
        cases p with
        | nil => rfl
        | cons s p => rw [seen_cons, seen_cons]; rfl
  · intro p w hp
    cases p with
    | nil => simp only [valueAt, Option.some.injEq] at hp; subst hp; exact ⟨Nat.le_refl _, by simp⟩
    | cons s p =>
      simp only [valueAt] at hp
      cases s with
      | key k => simp [Spec.child] at hp
      | idx i =>
        simp only [Spec.child, hnew] at hp
        cases hx : items'[i]? with
        | none => rw [hx] at hp; cases hp
        | some x =>
          obtain ⟨y, rfl⟩ := hatoms i x hx
          rw [hx] at hp
          simp only [Option.bind_some] at hp
          cases p with
          | nil => simp only [valueAt, Option.some.injEq] at hp; subst hp; trivial
          | cons s p => simp [valueAt, Spec.child] at hp
  · intro v s w hv hcw
    have hl : (h ++ [Cell.arr items']).length = h.length + 1 := by simp
    cases v with
    | atom _ => cases s <;> cases hcw
    | dict b =>
      have : b = h.length := by have h1 := hv.1; have h2 := hv.2; omega
      subst this
      cases s <;> simp [Spec.child] at hcw
    | list b =>
      have : b = h.length := by have h1 := hv.1; have h2 := hv.2; omega
      subst this
      cases s with
      | key k => cases hcw
      | idx i =>
        simp only [Spec.child, hnew] at hcw
        obtain ⟨x, rfl⟩ := hatoms i w hcw
        trivial

theorem append_agree (h e : Heap) : ∀ a, a < h.length → (h ++ e)[a]? = h[a]? :=
  fun _ ha => List.getElem?_append_left ha

theorem cloneVal_cloned {rec : Heap → Nat → Option (Heap × Nat)} {h : Heap} {v : HVal}
    (hrec : ∀ a h' c, v = .dict a → rec h a = some (h', c) → Cloned h (.dict a) h' (.dict c))
    (hf : FlatLists h v) {h' : Heap} {v' : HVal} (hc : cloneVal rec h v = some (h', v')) : Cloned h v h' v' := by
  cases v with
  | atom x =>
    simp only [cloneVal, Option.some.injEq, Prod.mk.injEq] at hc
    obtain ⟨rfl, rfl⟩ := hc
    refine ⟨⟨[], by simp⟩, SameContents.refl _ _, ?_, ?_⟩
    · intro p w hp
      cases p with
      | nil => simp only [valueAt, Option.some.injEq] at hp; subst hp; trivial
      | cons s p => simp [valueAt, Spec.child] at hp
    · intro v s w hv hcw
      cases v with
      | atom _ => cases s <;> cases hcw
      | dict b => have h1 := hv.1; have h2 := hv.2; omega
      | list b => have h1 := hv.1; have h2 := hv.2; omega
  | dict a =>
    simp only [cloneVal, Option.map_eq_some_iff] at hc
    obtain ⟨⟨h1, c⟩, hr, he⟩ := hc
    simp only [Prod.mk.injEq] at he
    obtain ⟨rfl, rfl⟩ := he
    exact hrec a _ _ rfl hr
  | list a => exact cloneList_cloned hf hc

/-- The state of the clone loop: the old heap `h`, the new dictionary, other new cells. -/
structure LoopInv (h : Heap) (src : Nat) (done : Text → Prop) (g : Heap) : Prop where
  old : ∀ a, a < h.length → g[a]? = h[a]?
  len : h.length < g.length
  cell : ∃ m, g[h.length]? = some (.dict m) ∧ ∀ k,
    (¬ done k → m.get? k = none) ∧
    (done k → ∃ v v', entry h src k = some v ∧ m.get? k = some v' ∧ SameContents h v g v' ∧
      Within g (fun a => h.length < a ∧ a < g.length) v')
  closed : Closed g (fun a => h.length + 1 ≤ a ∧ a < g.length)

theorem LoopInv.ext {h : Heap} {src : Nat} {done : Text → Prop} {g : Heap} (hi : LoopInv h src done g) : ∃ e, g = h ++ e := by
  refine ⟨g.drop h.length, ?_⟩
  have : g.take h.length = h := by
    apply List.ext_getElem?
    intro i
    rw [List.getElem?_take]
    split
    · rename_i hlt; exact hi.old i hlt
    · rename_i hge; exact (List.getElem?_eq_none (by omega)).symm
  calc g = g.take h.length ++ g.drop h.length := (List.take_append_drop _ _).symm
    _ = h ++ g.drop h.length := by rw [this]

theorem LoopInv.step {rec : Heap → Nat → Option (Heap × Nat)} {h : Heap} {src : Nat} (hin : Within h (· < h.length) (.dict src))
    (hf : FlatLists h (.dict src))
    (hrec : ∀ g a h' c, FlatLists g (.dict a) → Within g (· < g.length) (.dict a) → rec g a = some (h', c) → Cloned g (.dict a) h' (.dict c))
    {done : Text → Prop} {g : Heap} (hi : LoopInv h src done g) {k : Text} {v : HVal}
    (hv : entry h src k = some v) {g1 : Heap} {v1 : HVal}
    (hc : cloneVal rec g ((entry g src k).getD (.atom .nil)) = some (g1, v1)) :
    LoopInv h src (fun x => done x ∨ x = k) (setKey g1 h.length k v1) := by
  have hsrc : src < h.length := hin.self
  have hent : entry g src k = some v := by rw [entry_agree (hi.old src hsrc)]; exact hv
  rw [hent, Option.getD_some] at hc
  have hwv : Within h (· < h.length) v := hin.child hv
  have hfv : FlatLists h v := hf.child hv
  have hfg : FlatLists g v := hfv.agree hwv hi.old
  have hcl : Cloned g v g1 v1 := by
    refine cloneVal_cloned ?_ hfg hc
    rintro a h' c rfl hr
    exact hrec g a h' c hfg ((hwv.agree hi.old).mono (fun a ha => Nat.lt_trans ha hi.len)) hr
  obtain ⟨e, he⟩ := hcl.ext
  obtain ⟨m, hm, hkeys⟩ := hi.cell
  have hg1cell : g1[h.length]? = some (.dict m) := by rw [he, append_agree g e _ hi.len]; exact hm
  have hlen1 : g.length ≤ g1.length := by rw [he]; simp
  have hsetlen := length_setKey g1 h.length k v1
  have hsame_v : SameContents h v g v := same_agree hwv hi.old
  -- cells other than the new dictionary are unchanged by the store
  have hagree : ∀ a, h.length < a ∧ a < g1.length → (setKey g1 h.length k v1)[a]? = g1[a]? :=
    fun a ha => setKey_ne _ _ _ _ a (by omega)
  refine ⟨?_, ?_, ?_, ?_⟩
  · intro a ha
    rw [setKey_ne _ _ _ _ a (by omega), he, append_agree g e a (Nat.lt_trans ha hi.len)]
    exact hi.old a ha
  · rw [hsetlen]; exact Nat.lt_of_lt_of_le hi.len hlen1
  · refine ⟨m.set k v1, setKey_self k v1 hg1cell, ?_⟩
    intro k'
    rw [GoMap.get?_set]
    constructor
    · intro hnd
      have h1 : ¬ done k' := fun hd => hnd (Or.inl hd)
      have h2 : ¬ k = k' := fun e => hnd (Or.inr e.symm)
      rw [if_neg h2]; exact (hkeys k').1 h1
    · intro hd
      by_cases he' : k = k'
      · subst he'
        rw [if_pos rfl]
        have hw1 : Within g1 (fun a => h.length < a ∧ a < g1.length) v1 :=
          hcl.fresh.mono (fun a ha => ⟨Nat.lt_of_lt_of_le hi.len ha.1, ha.2⟩)
        refine ⟨v, v1, hv, rfl, ?_, ?_⟩
        · exact (hsame_v.trans hcl.same).trans (same_agree hw1 hagree)
        · rw [hsetlen]; exact hw1.agree hagree
      · rw [if_neg he']
        have hd' : done k' := by
          rcases hd with hd | hd
          · exact hd
          · exact absurd hd.symm he'
        obtain ⟨w, w', hw, hw', hs, hin0⟩ := (hkeys k').2 hd'
        have hag : ∀ a, h.length < a ∧ a < g.length → g1[a]? = g[a]? := by
          intro a ha; rw [he]; exact append_agree g e a ha.2
        have hin1 : Within g1 (fun a => h.length < a ∧ a < g1.length) w' :=
          (hin0.agree hag).mono (fun a ha => ⟨ha.1, Nat.lt_of_lt_of_le ha.2 hlen1⟩)
        refine ⟨w, w', hw, hw', ?_, ?_⟩
        · exact (hs.trans (same_agree hin0 hag)).trans (same_agree hin1 hagree)
        · rw [hsetlen]; exact hin1.agree hagree
  · have hcl1 : Closed g1 (fun a => h.length + 1 ≤ a ∧ a < g1.length) := by
      have h1 := hcl.closed
      rw [he] at h1 ⊢
      exact closed_range_append hi.len hi.closed h1
    rw [hsetlen]
    intro x s w hx hxw
    rw [child_agree hx (fun a ha => hagree a ⟨ha.1, ha.2⟩)] at hxw
    exact hcl1 x s w hx hxw

theorem LoopInv.loop {rec : Heap → Nat → Option (Heap × Nat)} {h : Heap} {src : Nat} (hin : Within h (· < h.length) (.dict src))
    (hf : FlatLists h (.dict src))
    (hrec : ∀ g a h' c, FlatLists g (.dict a) → Within g (· < g.length) (.dict a) → rec g a = some (h', c) → Cloned g (.dict a) h' (.dict c)) :
    ∀ (ks : List Text) (done : Text → Prop) (g g' : Heap), LoopInv h src done g →
      (∀ k ∈ ks, (entry h src k).isSome) → cloneLoop rec src h.length ks g = some g' →
      LoopInv h src (fun x => done x ∨ x ∈ ks) g' := by
  intro ks
  induction ks with
  | nil =>
    intro done g g' hi _ hc
    simp only [cloneLoop, Option.some.injEq] at hc
    subst hc
    have : (fun x => done x ∨ x ∈ ([] : List Text)) = done := by funext x; simp
    rw [this]; exact hi
  | cons k ks ih =>
    intro done g g' hi hks hc
    simp only [cloneLoop, Option.bind_eq_bind, Option.bind_eq_some_iff] at hc
    obtain ⟨⟨g1, v1⟩, h1, h2⟩ := hc
    obtain ⟨v, hv⟩ := Option.isSome_iff_exists.1 (hks k (by simp))
    have hstep := LoopInv.step hin hf hrec hi hv h1
    have := ih _ _ _ hstep (fun x hx => hks x (List.mem_cons_of_mem _ hx)) h2
    have he : (fun x => (done x ∨ x = k) ∨ x ∈ ks) = (fun x => done x ∨ x ∈ k :: ks) := by
      funext x; simp only [List.mem_cons, or_assoc]
    rw [← he]; exact this

theorem cloneDict_cloned (n : Nat) : ∀ (h : Heap) (a : Nat) (h' : Heap) (c : Nat), FlatLists h (.dict a) →
    Within h (· < h.length) (.dict a) → cloneDict n h a = some (h', c) → Cloned h (.dict a) h' (.dict c) := by
  induction n with
  | zero => intro h a h' c _ _ hc; simp [cloneDict] at hc
  | succ n ih =>
    intro h a h' c hf hin hc
    simp only [cloneDict, Option.bind_eq_bind, Option.bind_eq_some_iff, Option.pure_def, Option.some.injEq,
      Prod.mk.injEq] at hc
    obtain ⟨keys, hkeys, g, hloop, rfl, rfl⟩ := hc
    have hcell : ∃ m, h[a]? = some (.dict m) ∧ keys = m.keys := by
      simp only [mapKeys] at hkeys
      split at hkeys
      · rename_i m hm; exact ⟨m, hm, by simpa using hkeys.symm⟩
      · cases hkeys
    obtain ⟨m, hm, rfl⟩ := hcell
    have hinit : LoopInv h a (fun _ => False) (h ++ [.dict []]) := by
      refine ⟨fun i hi => append_agree _ _ i hi, by simp, ⟨[], by simp, ?_⟩, ?_⟩
      · intro k; exact ⟨fun _ => rfl, fun h => h.elim⟩
      · intro v s w hv hcw
        have hl : (h ++ [Cell.dict []]).length = h.length + 1 := by simp
        cases v with
        | atom _ => cases s <;> cases hcw
        | dict b => have h1 := hv.1; have h2 := hv.2; omega
        | list b => have h1 := hv.1; have h2 := hv.2; omega
    have hfin := LoopInv.loop hin hf (fun g a h' c hfg hwg hr => ih g a h' c hfg hwg hr) _ _ _ _ hinit (by
      intro k hk
      rw [Text.mem_sortBy, GoMap.mem_keys_iff] at hk
      rw [entry_of hm]; exact hk) hloop
    obtain ⟨m', hm', hks⟩ := hfin.cell
    refine ⟨hfin.ext, ?_, ?_, ?_⟩
    · intro p
      cases p with
      | nil => simp only [seen, valueAt, Option.bind_some, shapeOf, hm', hm]
      | cons s p =>
        rw [seen_cons, seen_cons]
        cases s with
        | idx i => rfl
        | key k =>
          simp only [Spec.child, hm', hm]
          by_cases hk : k ∈ Text.sortBy id m.keys
          · obtain ⟨v, v', hv, hv', hs, _⟩ := (hks k).2 (Or.inr hk)
            rw [entry_of hm] at hv
            rw [hv, hv']; exact hs p
          · have h1 := (hks k).1 (by simp [hk])
            have h2 : m.get? k = none := by
              rw [GoMap.get?_eq_none_iff]; intro h; exact hk (Text.mem_sortBy id |>.2 h)
            rw [h1, h2]; rfl
    · intro p w hp
      cases p with
      | nil =>
        simp only [valueAt, Option.some.injEq] at hp; subst hp; exact ⟨Nat.le_refl _, hfin.len⟩
      | cons s p =>
        simp only [valueAt] at hp
        cases s with
        | idx i => simp [Spec.child] at hp
        | key k =>
          simp only [Spec.child, hm'] at hp
          by_cases hk : k ∈ Text.sortBy id m.keys
          · obtain ⟨v, v', hv, hv', _, hw⟩ := (hks k).2 (Or.inr hk)
            rw [hv'] at hp
            exact (hw.mono (fun a ha => ⟨Nat.le_of_lt ha.1, ha.2⟩)) p w hp
          · have h1 := (hks k).1 (by simp [hk])
            rw [h1] at hp; cases hp
    · intro v s w hv hcw
      by_cases hnew : Ref (· = h.length) v
      · cases v with
        | atom _ => cases s <;> cases hcw
        | dict b =>
          have : b = h.length := hnew
          subst this
          cases s with
          | idx i => cases hcw
          | key k =>
            simp only [Spec.child, hm'] at hcw
            by_cases hk : k ∈ Text.sortBy id m.keys
            · obtain ⟨v, v', hv, hv', _, hw⟩ := (hks k).2 (Or.inr hk)
              rw [hv'] at hcw; cases hcw
              exact (hw.mono (fun a ha => ⟨Nat.le_of_lt ha.1, ha.2⟩)).self
            · have h1 := (hks k).1 (by simp [hk])
              rw [h1] at hcw; cases hcw
        | list b =>
          have : b = h.length := hnew
          subst this
          cases s with
          | key i => cases hcw
          | idx k => simp only [Spec.child, hm'] at hcw; cases hcw
      · have hv' : Ref (fun a => h.length + 1 ≤ a ∧ a < g.length) v := by
          cases v with
          | atom _ => trivial
          | dict a => have h1 := hv.1; have h2 : ¬ a = h.length := hnew; exact ⟨by omega, hv.2⟩
          | list a => have h1 := hv.1; have h2 : ¬ a = h.length := hnew; exact ⟨by omega, hv.2⟩
        have := hfin.closed v s w hv' hcw
        cases w with
        | atom _ => trivial
        | dict a => have h1 := this.1; exact ⟨by omega, this.2⟩
        | list a => have h1 := this.1; exact ⟨by omega, this.2⟩

/-! ## Writes by clients -/

theorem child_set_ne {h : Heap} {a : Nat} {c : Cell} {v : HVal} (hv : ¬ Ref (· = a) v ∨ ∃ x, v = .atom x) (s : Step) :
    Spec.child (h.set a c) v s = Spec.child h v s := by
  cases v with
  | atom _ => cases s <;> rfl
  | dict b =>
    have hb : b ≠ a := by rcases hv with hv | ⟨x, hx⟩; exact hv; cases hx
    cases s <;> simp only [Spec.child]; rw [List.getElem?_set_ne (Ne.symm hb)]
  | list b =>
    have hb : b ≠ a := by rcases hv with hv | ⟨x, hx⟩; exact hv; cases hx
    cases s <;> simp only [Spec.child]; rw [List.getElem?_set_ne (Ne.symm hb)]

theorem closed_set_dict {h : Heap} {Q : Nat → Prop} (hc : Closed h Q) {a : Nat} (ha : a < h.length) {m : GoMap HVal}
    (hm : ∀ k w, m.get? k = some w → Ref Q w) : Closed (h.set a (.dict m)) Q := by
  intro v s w hv hcw
  cases v with
  | atom _ => cases s <;> cases hcw
  | dict b =>
    by_cases hb : b = a
    · subst hb
      cases s with
      | idx i => cases hcw
      | key k =>
        simp only [Spec.child, List.getElem?_set_self ha] at hcw
        exact hm k w hcw
    · rw [child_set_ne (a := a) (v := .dict b) (Or.inl hb)] at hcw; exact hc _ s w hv hcw
  | list b =>
    by_cases hb : b = a
    · subst hb
      cases s with
      | key k => cases hcw
      | idx k => simp only [Spec.child, List.getElem?_set_self ha] at hcw; cases hcw
    · rw [child_set_ne (a := a) (v := .list b) (Or.inl hb)] at hcw; exact hc _ s w hv hcw

theorem closed_set_arr {h : Heap} {Q : Nat → Prop} (hc : Closed h Q) {a : Nat} (ha : a < h.length) {l : List HVal}
    (hl : ∀ (i : Nat) w, l[i]? = some w → Ref Q w) : Closed (h.set a (.arr l)) Q := by
  intro v s w hv hcw
  cases v with
  | atom _ => cases s <;> cases hcw
  | list b =>
    by_cases hb : b = a
    · subst hb
      cases s with
      | key i => cases hcw
      | idx k =>
        simp only [Spec.child, List.getElem?_set_self ha] at hcw
        exact hl k w hcw
    · rw [child_set_ne (a := a) (v := .list b) (Or.inl hb)] at hcw; exact hc _ s w hv hcw
  | dict b =>
    by_cases hb : b = a
    · subst hb
      cases s with
      | idx k => cases hcw
      | key k => simp only [Spec.child, List.getElem?_set_self ha] at hcw; cases hcw
    · rw [child_set_ne (a := a) (v := .dict b) (Or.inl hb)] at hcw; exact hc _ s w hv hcw

/-- The references of a client after its next step: the old ones and the new cells. -/
def Grown (P : Nat → Prop) (h h' : Heap) (a : Nat) : Prop := P a ∨ (h.length ≤ a ∧ a < h'.length)

theorem _root_.Verif.Spec.Ref.grown {P : Nat → Prop} {h h' : Heap} {v : HVal} (hv : Ref P v) : Ref (Grown P h h') v := by
  cases v with
  | atom _ => trivial
  | dict a => exact Or.inl hv
  | list a => exact Or.inl hv

theorem closed_grown_self {h : Heap} {P : Nat → Prop} (hc : Closed h P) : Closed h (Grown P h h) := by
  have : Grown P h h = P := by funext a; simp only [Grown, eq_iff_iff]; constructor
                               · rintro (h | h); exact h; omega
                               · exact Or.inl
  rw [this]; exact hc

theorem closed_grown_snoc {h : Heap} {P : Nat → Prop} (hc : Closed h P) (hb : ∀ a, P a → a < h.length) (c : Cell)
    (hatoms : ∀ v s w, Ref (· = h.length) v → (∀ x, v ≠ .atom x) → Spec.child (h ++ [c]) v s = some w → ∃ x, w = .atom x) :
    Closed (h ++ [c]) (Grown P h (h ++ [c])) := by
  intro v s w hv hcw
  have key : ∀ a, (v = .dict a ∨ v = .list a) → Grown P h (h ++ [c]) a → Ref (Grown P h (h ++ [c])) w := by
    intro a hva hg
    rcases hg with hP | ⟨h1, h2⟩
    · have hlt := hb a hP
      have hvP : Ref P v := by rcases hva with rfl | rfl <;> exact hP
      have : Spec.child h v s = some w := by
        rw [← hcw]; symm
        refine child_agree (P := (· = a)) ?_ ?_ s
        · rcases hva with rfl | rfl <;> rfl
        · rintro b rfl; exact append_agree h [c] b hlt
      exact (hc v s w hvP this).grown
    · have : a = h.length := by simp at h2; omega
      subst this
      obtain ⟨x, rfl⟩ := hatoms v s w (by rcases hva with rfl | rfl <;> rfl) (by rcases hva with rfl | rfl <;> simp) hcw
      trivial
  cases v with
  | atom _ => cases s <;> cases hcw
  | dict a => exact key a (Or.inl rfl) hv
  | list a => exact key a (Or.inr rfl) hv

theorem eval_frame {h : Heap} {P : Nat → Prop} {root : HVal} (hc : Closed h P) (hr : Ref P root)
    (hb : ∀ a, P a → a < h.length) (r : Rhs) :
    h.length ≤ (r.eval h root).1.length ∧ (∀ a, a < h.length → (r.eval h root).1[a]? = h[a]?) ∧
    Closed (r.eval h root).1 (Grown P h (r.eval h root).1) ∧
    ∀ v, (r.eval h root).2 = some v → Ref (Grown P h (r.eval h root).1) v := by
  cases r with
  | atom x =>
    refine ⟨Nat.le_refl _, fun _ _ => rfl, closed_grown_self hc, ?_⟩
    intro v hv; simp only [Rhs.eval, Option.some.injEq] at hv; subst hv; trivial
  | reach p =>
    refine ⟨Nat.le_refl _, fun _ _ => rfl, closed_grown_self hc, ?_⟩
    intro v hv; exact (Within.closed hc hr p v hv).grown
  | newDict =>
    refine ⟨by simp [Rhs.eval], fun a ha => append_agree _ _ a ha, closed_grown_snoc hc hb _ ?_, ?_⟩
    · intro v s w hv hna hcw
      cases v with
      | atom x => exact absurd rfl (hna x)
      | dict a =>
        have : a = h.length := hv
        subst this
        cases s <;> simp [Spec.child] at hcw
      | list a =>
        have : a = h.length := hv
        subst this
        cases s <;> simp [Spec.child] at hcw
    · intro v hv; simp only [Rhs.eval, Option.some.injEq] at hv; subst hv; exact Or.inr (by simp [Rhs.eval])
  | newList items =>
    refine ⟨by simp [Rhs.eval], fun a ha => append_agree _ _ a ha, closed_grown_snoc hc hb _ ?_, ?_⟩
    · intro v s w hv hna hcw
      cases v with
      | atom x => exact absurd rfl (hna x)
      | dict a =>
        have : a = h.length := hv
        subst this
        cases s <;> simp [Spec.child] at hcw
      | list a =>
        have : a = h.length := hv
        subst this
        cases s with
        | key k => cases hcw
        | idx i =>
          simp [Spec.child] at hcw
          obtain ⟨x, _, hx⟩ := hcw
          exact ⟨x, hx.symm⟩
    · intro v hv; simp only [Rhs.eval, Option.some.injEq] at hv; subst hv; exact Or.inr (by simp [Rhs.eval])

/-- A client whose references are all in `P` changes only cells of `P`, and keeps to `P` and to new cells. -/
theorem write_frame {h : Heap} {P : Nat → Prop} {root : HVal} (hc : Closed h P) (hr : Ref P root)
    (hb : ∀ a, P a → a < h.length) (w : Write) :
    h.length ≤ (w.apply h root).length ∧
    (∀ a, a < h.length → ¬ P a → (w.apply h root)[a]? = h[a]?) ∧
    Closed (w.apply h root) (Grown P h (w.apply h root)) := by
  have hset : ∀ (h' : Heap) (a : Nat) (c : Cell), Closed (h'.set a c) (Grown P h h') →
      Closed (h'.set a c) (Grown P h (h'.set a c)) := by
    intro h' a c hcl
    have : Grown P h (h'.set a c) = Grown P h h' := by funext x; simp only [Grown, List.length_set]
    rw [this]; exact hcl
  cases w with
  | setKey p k r =>
    obtain ⟨h1, h2, h3, h4⟩ := eval_frame hc hr hb r
    have hbase : h.length ≤ (r.eval h root).1.length ∧ (∀ a, a < h.length → ¬ P a → (r.eval h root).1[a]? = h[a]?) ∧
        Closed (r.eval h root).1 (Grown P h (r.eval h root).1) := ⟨h1, fun a ha _ => h2 a ha, h3⟩
    simp only [Write.apply]
    split
    · rename_i a h' v hp he
      rw [he] at h1 h2 h3 h4 hbase
      split
      · rename_i m hm
        have hPa : P a := Within.closed hc hr p _ hp
        have halt : a < h'.length := (List.getElem?_eq_some_iff.1 hm).1
        refine ⟨by simpa using h1, ?_, ?_⟩
        · intro b hb' hnP
          rw [List.getElem?_set_ne (by rintro rfl; exact hnP hPa)]; exact h2 b hb'
        · apply hset
          apply closed_set_dict h3 halt
          intro k' w' hw'
          rw [GoMap.get?_set] at hw'
          split at hw'
          · cases hw'; exact h4 v rfl
          · exact h3 (.dict a) (.key k') w' (Or.inl hPa) (by simp only [Spec.child, hm]; exact hw')
      · exact hbase
    · rename_i he _
      rw [he] at hbase
      exact hbase
  | delKey p k =>
    have hbase : h.length ≤ h.length ∧ (∀ a, a < h.length → ¬ P a → h[a]? = h[a]?) ∧ Closed h (Grown P h h) :=
      ⟨Nat.le_refl _, fun _ _ _ => rfl, closed_grown_self hc⟩
    simp only [Write.apply]
    split
    · rename_i a hp
      split
      · rename_i m hm
        have hPa : P a := Within.closed hc hr p _ hp
        have halt : a < h.length := (List.getElem?_eq_some_iff.1 hm).1
        refine ⟨by simp, ?_, ?_⟩
        · intro b hb' hnP
          rw [List.getElem?_set_ne (by rintro rfl; exact hnP hPa)]
        · apply hset
          apply closed_set_dict hbase.2.2 halt
          intro k' w' hw'
          rw [GoMap.get?_erase] at hw'
          split at hw'
          · cases hw'
          · exact hbase.2.2 (.dict a) (.key k') w' (Or.inl hPa) (by simp only [Spec.child, hm]; exact hw')
      · exact hbase
    · exact hbase
  | setIdx p i r =>
    obtain ⟨h1, h2, h3, h4⟩ := eval_frame hc hr hb r
    have hbase : h.length ≤ (r.eval h root).1.length ∧ (∀ a, a < h.length → ¬ P a → (r.eval h root).1[a]? = h[a]?) ∧
        Closed (r.eval h root).1 (Grown P h (r.eval h root).1) := ⟨h1, fun a ha _ => h2 a ha, h3⟩
    simp only [Write.apply]
    split
    · rename_i a h' v hp he
      rw [he] at h1 h2 h3 h4 hbase
      split
      · rename_i m hm
        have hPa : P a := Within.closed hc hr p _ hp
        have halt : a < h'.length := (List.getElem?_eq_some_iff.1 hm).1
        refine ⟨by simpa using h1, ?_, ?_⟩
        · intro b hb' hnP
          rw [List.getElem?_set_ne (by rintro rfl; exact hnP hPa)]; exact h2 b hb'
        · apply hset
          apply closed_set_arr h3 halt
          intro j w' hw'
          rw [List.getElem?_set] at hw'
          split at hw'
          · split at hw'
            · cases hw'; exact h4 v rfl
            · cases hw'
          · exact h3 (.list a) (.idx j) w' (Or.inl hPa) (by simp only [Spec.child, hm]; exact hw')
      · exact hbase
    · rename_i he _
      rw [he] at hbase
      exact hbase

/-- Two clients whose references are disjoint. -/
def Separate (h : Heap) (r₁ r₂ : HVal) : Prop :=
  ∃ P Q : Nat → Prop, (∀ a, P a → ¬ Q a) ∧ (∀ a, P a → a < h.length) ∧ (∀ a, Q a → a < h.length) ∧
    Closed h P ∧ Closed h Q ∧ Ref P r₁ ∧ Ref Q r₂

theorem Separate.symm {h : Heap} {r₁ r₂ : HVal} (hs : Separate h r₁ r₂) : Separate h r₂ r₁ := by
  obtain ⟨P, Q, h1, h2, h3, h4, h5, h6, h7⟩ := hs
  exact ⟨Q, P, fun a hq hp => h1 a hp hq, h3, h2, h5, h4, h7, h6⟩

theorem Separate.write {h : Heap} {r₁ r₂ : HVal} (hs : Separate h r₁ r₂) (w : Write) :
    Separate (w.apply h r₁) r₁ r₂ ∧ SameContents h r₂ (w.apply h r₁) r₂ := by
  obtain ⟨P, Q, h1, h2, h3, h4, h5, h6, h7⟩ := hs
  obtain ⟨f1, f2, f3⟩ := write_frame h4 h6 h2 w
  have hag : ∀ a, Q a → (w.apply h r₁)[a]? = h[a]? := fun a hq => f2 a (h3 a hq) (fun hp => h1 a hp hq)
  refine ⟨⟨Grown P h (w.apply h r₁), Q, ?_, ?_, ?_, f3, ?_, h6.grown, h7⟩, ?_⟩
  · rintro a (hp | hn) hq
    · exact h1 a hp hq
    · have := h3 a hq; omega
  · rintro a (hp | hn)
    · exact Nat.lt_of_lt_of_le (h2 a hp) f1
    · exact hn.2
  · intro a hq; exact Nat.lt_of_lt_of_le (h3 a hq) f1
  · intro v s x hv hc
    rw [child_agree hv hag] at hc
    exact h5 v s x hv hc
  · exact same_agree (Within.closed h5 h7) hag

theorem Separate.interleave {r₁ r₂ : HVal} (ws : List (Bool × Write)) : ∀ {h : Heap}, Separate h r₁ r₂ →
    Separate (Spec.interleave r₁ r₂ h ws) r₁ r₂ := by
  induction ws with
  | nil => intro h hs; exact hs
  | cons bw ws ih =>
    intro h hs
    obtain ⟨b, w⟩ := bw
    cases b with
    | true => exact ih (hs.write w).1
    | false => exact ih (hs.symm.write w).1.symm

/-! ## Merge -/

theorem dictAt_cons {h : Heap} {a : Nat} {k : Text} {p : List Text} {c : Nat} :
    dictAt h a (k :: p) = some c ↔ ∃ b, entry h a k = some (.dict b) ∧ dictAt h b p = some c := by
  simp only [dictAt, entry]
  split
  · rename_i b hb; rw [hb]; simp
  · rename_i hne
    constructor
    · intro h; cases h
    · rintro ⟨b, hb, _⟩; exact absurd hb (hne b)

theorem dictAt_agree {h g : Heap} (p : List Text) : ∀ {a : Nat}, (∀ q c, dictAt h a q = some c → g[c]? = h[c]?) →
    dictAt g a p = dictAt h a p := by
  induction p with
  | nil => intro a _; rfl
  | cons k p ih =>
    intro a ha
    have he : entry g a k = entry h a k := entry_agree (ha [] a rfl) k
    simp only [entry] at he
    simp only [dictAt, he]
    split
    · rename_i b hb
      exact ih (fun q c hq => ha (k :: q) c (dictAt_cons.2 ⟨b, hb, hq⟩))
    · rfl

theorem _root_.Verif.Spec.WFMaps.setKey {h : Heap} (hw : WFMaps h) (a : Nat) (k : Text) (v : HVal) : WFMaps (setKey h a k v) := by
  intro b m hm
  by_cases hb : b = a
  · subst hb
    cases hc : h[b]? with
    | none => unfold HeapOps.setKey at hm; rw [hc] at hm; simp only at hm; rw [hc] at hm; cases hm
    | some c =>
      cases c with
      | dict m0 =>
        rw [setKey_self k v hc] at hm
        cases hm
        exact (hw b m0 hc).set k v
      | arr l => unfold HeapOps.setKey at hm; rw [hc] at hm; simp only at hm; rw [hc] at hm; cases hm
  · rw [setKey_ne _ _ _ _ _ hb] at hm; exact hw b m hm

/-- The state of the merge loop: what is left to do has not been touched. -/
structure MergeInv (h0 : Heap) (t : Nat) (ks : List Text) (g : Heap) : Prop where
  wf : WFMaps g
  len : g.length = h0.length
  frame : ∀ a, (∀ p, dictAt h0 t p ≠ some a) → g[a]? = h0[a]?
  todo : ∀ k ∈ ks, entry g t k = entry h0 t k ∧
    ∀ b, entry h0 t k = some (.dict b) → ∀ p c, dictAt h0 b p = some c → g[c]? = h0[c]?

theorem MergeInv.store {h0 : Heap} {t : Nat} {k : Text} {ks : List Text} {g : Heap} (ht : Treelike h0 t)
    (hi : MergeInv h0 t ks g) (hk : k ∉ ks) (v : HVal) : MergeInv h0 t ks (setKey g t k v) := by
  refine ⟨hi.wf.setKey _ _ _, by rw [length_setKey]; exact hi.len, ?_, ?_⟩
  · intro a ha
    rw [setKey_ne _ _ _ _ _ (by rintro rfl; exact ha [] rfl)]
    exact hi.frame a ha
  · intro k' hk'
    have hne : k ≠ k' := by rintro rfl; exact hk hk'
    obtain ⟨h1, h2⟩ := hi.todo k' hk'
    refine ⟨?_, ?_⟩
    · rw [← h1]
      cases hc : g[t]? with
      | none => unfold HeapOps.setKey; rw [hc]
      | some c =>
        cases c with
        | dict m => rw [entry_of (setKey_self k v hc), entry_of hc, GoMap.get?_set, if_neg hne]
        | arr l => unfold HeapOps.setKey; rw [hc]
    · intro b hb p c hc
      have : c ≠ t := by
        rintro rfl
        have := ht (k' :: p) [] _ (dictAt_cons.2 ⟨b, hb, hc⟩) rfl
        cases this
      rw [setKey_ne _ _ _ _ _ this]; exact h2 b hb p c hc

theorem mergeLoop_inv {rec : Heap → Nat → Nat → Option Heap} {h0 : Heap} {t s : Nat} (ht : Treelike h0 t)
    (hrec : ∀ h t s h', WFMaps h → Treelike h t → rec h t s = some h' →
      WFMaps h' ∧ h'.length = h.length ∧ ∀ a, (∀ p, dictAt h t p ≠ some a) → h'[a]? = h[a]?) :
    ∀ (ks : List Text) (g g' : Heap), ks.Nodup → MergeInv h0 t ks g → mergeLoop rec t s ks g = some g' →
      MergeInv h0 t [] g' := by
  intro ks
  induction ks with
  | nil => intro g g' _ hi hl; simp only [mergeLoop, Option.some.injEq] at hl; subst hl; exact hi
  | cons k ks ih =>
    intro g g' hnd hi hl
    have hnd' := List.nodup_cons.1 hnd
    have hrest : MergeInv h0 t ks g := ⟨hi.wf, hi.len, hi.frame, fun x hx => hi.todo x (List.mem_cons_of_mem _ hx)⟩
    simp only [mergeLoop, Option.bind_eq_some_iff] at hl
    obtain ⟨g1, h1, h2⟩ := hl
    refine ih g1 g' hnd'.2 ?_ h2
    unfold mergeKey at h1
    split at h1
    · simp only [Option.some.injEq] at h1; subst h1; exact hrest
    · rename_i sv hsv
      split at h1
      · simp only [Option.some.injEq] at h1; subst h1; exact hrest.store ht hnd'.1 sv
      · rename_i tv htv
        split at h1
        · rename_i a b
          simp only [Option.map_eq_some_iff] at h1
          obtain ⟨g2, hr, rfl⟩ := h1
          obtain ⟨he, hcells⟩ := hi.todo k (by simp)
          rw [he] at htv
          have hag : ∀ q, dictAt g a q = dictAt h0 a q := fun q => dictAt_agree q (hcells a htv)
          have hta : Treelike g a := by
            intro p q c hp hq
            rw [hag] at hp hq
            have := ht (k :: p) (k :: q) c (dictAt_cons.2 ⟨a, htv, hp⟩) (dictAt_cons.2 ⟨a, htv, hq⟩)
            exact (List.cons.inj this).2
          obtain ⟨r1, r2, r3⟩ := hrec g a b g2 hi.wf hta hr
          -- the cells written are below key k of the target
          have r3' : ∀ c, (∀ p, dictAt h0 t (k :: p) ≠ some c) → g2[c]? = g[c]? := by
            intro c hc
            apply r3
            intro p hp
            rw [hag] at hp
            exact hc p (dictAt_cons.2 ⟨a, htv, hp⟩)
          apply MergeInv.store ht _ hnd'.1
          refine ⟨r1, by rw [r2]; exact hi.len, ?_, ?_⟩
          · intro c hc
            rw [r3' c (fun p => hc _)]; exact hi.frame c hc
          · intro k' hk'
            have hne : k' ≠ k := by rintro rfl; exact hnd'.1 hk'
            obtain ⟨t1, t2⟩ := hi.todo k' (List.mem_cons_of_mem _ hk')
            refine ⟨?_, ?_⟩
            · rw [← t1]
              apply entry_agree
              apply r3'
              intro p hp
              have := ht (k :: p) [] t hp rfl
              cases this
            · intro b' hb' p c hc
              rw [r3' c]
              · exact t2 b' hb' p c hc
              · intro q hq
                have := ht (k :: q) (k' :: p) c hq (dictAt_cons.2 ⟨b', hb', hc⟩)
                exact hne (List.cons.inj this).1.symm
        · simp only [Option.some.injEq] at h1; subst h1; exact hrest

/-- On a tree-shaped target, `deepMerge` only writes dictionaries of the target. -/
theorem deepMerge_frame (n : Nat) : ∀ (h : Heap) (t s : Nat) (h' : Heap), WFMaps h → Treelike h t →
    deepMerge n h t s = some h' →
    WFMaps h' ∧ h'.length = h.length ∧ ∀ a, (∀ p, dictAt h t p ≠ some a) → h'[a]? = h[a]? := by
  induction n with
  | zero => intro h t s h' _ _ hd; simp [deepMerge] at hd
  | succ n ih =>
    intro h t s h' hw ht hd
    simp only [deepMerge, Option.bind_eq_some_iff] at hd
    obtain ⟨keys, hk, hl⟩ := hd
    have hnd : keys.Nodup := by
      simp only [mapKeys] at hk
      split at hk
      · rename_i m hm; simp only [Option.some.injEq] at hk; subst hk; exact hw s m hm
      · cases hk
    have := mergeLoop_inv ht ih keys h h' hnd ⟨hw, rfl, fun _ _ => rfl, fun k _ => ⟨rfl, fun _ _ _ _ _ => rfl⟩⟩ hl
    exact ⟨this.wf, this.len, this.frame⟩

/-! ### Flat sources -/

theorem mergeLoop_flat {rec : Heap → Nat → Nat → Option Heap} {t s : Nat} (hne : s ≠ t) :
    ∀ (ks : List Text) (g g' : Heap), (∀ k b, entry g s k ≠ some (.dict b)) → mergeLoop rec t s ks g = some g' →
      ∀ a, a ≠ t → g'[a]? = g[a]? := by
  intro ks
  induction ks with
  | nil => intro g g' _ hl a _; simp only [mergeLoop, Option.some.injEq] at hl; subst hl; rfl
  | cons k ks ih =>
    intro g g' hf hl a ha
    simp only [mergeLoop, Option.bind_eq_some_iff] at hl
    obtain ⟨g1, h1, h2⟩ := hl
    have hg1 : ∀ a, a ≠ t → g1[a]? = g[a]? := by
      intro a ha
      unfold mergeKey at h1
      split at h1
      · simp only [Option.some.injEq] at h1; subst h1; rfl
      · rename_i sv hsv
        split at h1
        · simp only [Option.some.injEq] at h1; subst h1; exact setKey_ne _ _ _ _ _ ha
        · split at h1
          · exact absurd hsv (hf _ _)
          · simp only [Option.some.injEq] at h1; subst h1; rfl
    rw [ih g1 g' (fun k b => by rw [entry_agree (hg1 s hne)]; exact hf k b) h2 a ha, hg1 a ha]

theorem deepMerge_flat {n : Nat} {h : Heap} {t s : Nat} {h' : Heap} (hne : s ≠ t) (hf : ∀ k b, entry h s k ≠ some (.dict b))
    (hd : deepMerge n h t s = some h') : ∀ a, a ≠ t → h'[a]? = h[a]? := by
  cases n with
  | zero => simp [deepMerge] at hd
  | succ n =>
    simp only [deepMerge, Option.bind_eq_some_iff] at hd
    obtain ⟨keys, _, hl⟩ := hd
    exact mergeLoop_flat hne keys h h' hf hl

theorem merge_flat {n : Nat} {t : Nat} (ss : List Nat) : ∀ {h h' : Heap},
    (∀ s ∈ ss, s ≠ t ∧ ∀ k b, entry h s k ≠ some (.dict b)) → merge n h t ss = some h' →
    ∀ a, a ≠ t → h'[a]? = h[a]? := by
  induction ss with
  | nil => intro h h' _ hm a _; simp only [merge, Option.some.injEq] at hm; subst hm; rfl
  | cons s ss ih =>
    intro h h' hs hm a ha
    simp only [merge, Option.bind_eq_some_iff] at hm
    obtain ⟨h1, hd, hm⟩ := hm
    obtain ⟨hne, hf⟩ := hs s (by simp)
    have hfr := deepMerge_flat hne hf hd
    rw [ih (fun x hx => ⟨(hs x (List.mem_cons_of_mem _ hx)).1, fun k b => by
      rw [entry_agree (hfr x (hs x (List.mem_cons_of_mem _ hx)).1)]; exact (hs x (List.mem_cons_of_mem _ hx)).2 k b⟩) hm a ha,
      hfr a ha]

/-! ### Clone returns -/

/-- Every value met from `v` has its cell. -/
def WellTyped (h : Heap) (v : HVal) : Prop := ∀ p w, valueAt h v p = some w → (shapeOf h w).isSome

theorem WellTyped.child {h : Heap} {v w : HVal} {s : Step} (hw : WellTyped h v) (hc : Spec.child h v s = some w) : WellTyped h w := by
  intro p x hx
  exact hw (s :: p) x (by simp only [valueAt, hc]; exact hx)

theorem WellTyped.agree {h h' : Heap} {P : Nat → Prop} {v : HVal} (ht : WellTyped h v) (hw : Within h P v)
    (ha : ∀ a, P a → h'[a]? = h[a]?) : WellTyped h' v := by
  intro p w hp
  rw [valueAt_agree hw ha] at hp
  rw [shapeOf_agree (hw p w hp) ha]
  exact ht p w hp

theorem valueAt_dictAt {h : Heap} (p : List Text) : ∀ {a c : Nat}, dictAt h a p = some c →
    valueAt h (.dict a) (p.map .key) = some (.dict c) := by
  induction p with
  | nil => intro a c hc; simp only [dictAt, Option.some.injEq] at hc; subst hc; rfl
  | cons k p ih =>
    intro a c hc
    obtain ⟨b, hb, hp⟩ := dictAt_cons.1 hc
    simp only [List.map_cons, valueAt]
    simp only [entry] at hb
    rw [hb]; exact ih hp

theorem cloneVal_total {rec : Heap → Nat → Option (Heap × Nat)} {h : Heap} {v : HVal} (hf : FlatLists h v)
    (ht : WellTyped h v) (hrec : ∀ a, v = .dict a → ∃ r, rec h a = some r) : ∃ r, cloneVal rec h v = some r := by
  cases v with
  | atom x => exact ⟨_, rfl⟩
  | dict a => obtain ⟨r, hr⟩ := hrec a rfl; exact ⟨(r.1, .dict r.2), by simp [cloneVal, hr]⟩
  | list a =>
    have h1 := ht [] _ rfl
    simp only [shapeOf] at h1
    split at h1
    · rename_i l hl
      have : cloneItems h l = some l := by
        unfold cloneItems
        split
        · rename_i b
          obtain ⟨x, hx⟩ := hf [] a rfl 0 (.list b) (by simp only [Spec.child, hl]; rfl)
          cases hx
        · rfl
      exact ⟨(h ++ [.arr l], .list h.length), by simp [cloneVal, cloneList, arrayOf, hl, this]⟩
    · cases h1

theorem cloneDict_total (n : Nat) : ∀ (h : Heap) (a : Nat), FlatLists h (.dict a) → Within h (· < h.length) (.dict a) →
    WellTyped h (.dict a) → (∀ p c, dictAt h a p = some c → p.length < n) → ∃ r, cloneDict n h a = some r := by
  induction n with
  | zero => intro h a _ _ _ hd; exact absurd (hd [] a rfl) (by simp)
  | succ n ih =>
    intro h a hf hin ht hd
    have hcell : ∃ m, h[a]? = some (.dict m) := by
      have h1 := ht [] _ rfl
      simp only [shapeOf] at h1
      split at h1
      · rename_i m hm; exact ⟨m, hm⟩
      · cases h1
    obtain ⟨m, hm⟩ := hcell
    have hloop : ∀ (ks : List Text) (done : Text → Prop) (g : Heap), LoopInv h a done g →
        (∀ k ∈ ks, (entry h a k).isSome) → ∃ g', cloneLoop (cloneDict n) a h.length ks g = some g' := by
      intro ks
      induction ks with
      | nil => intro done g _ _; exact ⟨g, rfl⟩
      | cons k ks ihk =>
        intro done g hi hks
        obtain ⟨v, hv⟩ := Option.isSome_iff_exists.1 (hks k (by simp))
        have hsrc : a < h.length := hin.self
        have hent : entry g a k = some v := by rw [entry_agree (hi.old a hsrc)]; exact hv
        have hwv : Within h (· < h.length) v := hin.child hv
        have hfv : FlatLists h v := hf.child hv
        have hfg : FlatLists g v := hfv.agree hwv hi.old
        have htg : WellTyped g v := (ht.child hv).agree hwv hi.old
        obtain ⟨⟨g1, v1⟩, hr⟩ := cloneVal_total (rec := cloneDict n) hfg htg (by
          rintro b rfl
          apply ih g b hfg ((hwv.agree hi.old).mono (fun a ha => Nat.lt_trans ha hi.len)) htg
          intro p c hc
          have hag : dictAt g b p = dictAt h b p := dictAt_agree p (fun q c' hq => hi.old c' (by
            exact hwv _ _ (valueAt_dictAt q hq)))
          rw [hag] at hc
          have := hd (k :: p) c (dictAt_cons.2 ⟨b, hv, hc⟩)
          simpa using this)
        have hr' : cloneVal (cloneDict n) g ((entry g a k).getD (.atom .nil)) = some (g1, v1) := by
          rw [hent]; exact hr
        have hstep := LoopInv.step hin hf (fun g a h' c hfg hwg hr => cloneDict_cloned n g a h' c hfg hwg hr) hi hv hr'
        obtain ⟨g', hg'⟩ := ihk _ _ hstep (fun x hx => hks x (List.mem_cons_of_mem _ hx))
        exact ⟨g', by simp only [cloneLoop, Option.bind_eq_bind, hr', Option.bind_some]; exact hg'⟩
    have hinit : LoopInv h a (fun _ => False) (h ++ [.dict []]) := by
      refine ⟨fun i hi => append_agree _ _ i hi, by simp, ⟨[], by simp, ?_⟩, ?_⟩
      · intro k; exact ⟨fun _ => rfl, fun h => h.elim⟩
      · intro v s w hv hcw
        have hl : (h ++ [Cell.dict []]).length = h.length + 1 := by simp
        cases v with
        | atom _ => cases s <;> cases hcw
        | dict b => have h1 := hv.1; have h2 := hv.2; omega
        | list b => have h1 := hv.1; have h2 := hv.2; omega
    obtain ⟨g', hg'⟩ := hloop (Text.sortBy id m.keys) _ _ hinit (by
      intro k hk
      rw [Text.mem_sortBy, GoMap.mem_keys_iff] at hk
      rw [entry_of hm]; exact hk)
    exact ⟨(g', h.length), by simp [cloneDict, mapKeys, hm, hg']⟩

end Verif.HeapOps
