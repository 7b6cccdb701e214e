import Verif.Spec.ContextSpec

/-!
Lemmas on the family of templates.
-/

namespace Verif.Lemmas
open Verif Verif.Contexts Verif.Spec

variable {φ τ : Type}

/-- What holds of the addresses after any history. -/
structure FamilyInv (w : World φ τ) : Prop where
  optLt : ∀ (i : Nat) t, w.nodes[i]? = some t → t.options < w.opts.length
  optInj : ∀ (i j : Nat) t u, w.nodes[i]? = some t → w.nodes[j]? = some u → t.options = u.options → i = j
  kidLt : ∀ (i : Nat) t, w.nodes[i]? = some t → t.children < w.kids.length
  kidInj : ∀ (i j : Nat) t u, w.nodes[i]? = some t → w.nodes[j]? = some u → t.children = u.children → i = j
  tabs : ∀ (i : Nat) t, w.nodes[i]? = some t → t.functions = 0 ∧ t.aliases = 1
  tabLen : w.tables.length = 2
  kidOk : ∀ (a : Nat) f j, w.kidsAt a f = some j → j < w.nodes.length
  kidUniq : ∀ (a b : Nat) f g j, w.kidsAt a f = some j → w.kidsAt b g = some j → a = b ∧ f = g
  parOk : ∀ (i : Nat) t p, w.nodes[i]? = some t → t.parent = some p → p < i

theorem start_inv (builtin : (Text → Bool) → Text → Option φ) (folder : Text) (options : Text → Bool) : FamilyInv (start builtin folder options : World φ τ) := by
  have h1 : ∀ (i : Nat) t, (start builtin folder options : World φ τ).nodes[i]? = some t → i = 0 ∧ t = { folder := folder, parent := none, options := 0, functions := 0, aliases := 1, children := 0, known := builtin options, defs := fun _ => none } := by
    intro i t h
    cases i with
    | zero => simp only [start, List.getElem?_cons_zero, Option.some.injEq] at h; exact ⟨rfl, h.symm⟩
    | succ i => simp [start] at h
  refine ⟨?_, ?_, ?_, ?_, ?_, rfl, ?_, ?_, ?_⟩
  · intro i t h; obtain ⟨rfl, rfl⟩ := h1 i t h; simp [start]
  · intro i j t u h h' _; rw [(h1 i t h).1, (h1 j u h').1]
  · intro i t h; obtain ⟨rfl, rfl⟩ := h1 i t h; simp [start]
  · intro i j t u h h' _; rw [(h1 i t h).1, (h1 j u h').1]
  · intro i t h; obtain ⟨rfl, rfl⟩ := h1 i t h; exact ⟨rfl, rfl⟩
  · intro a f j h
    cases a with
    | zero => simp [World.kidsAt, start] at h
    | succ a => simp [World.kidsAt, start] at h
  · intro a b f g j h
    cases a with
    | zero => simp [World.kidsAt, start] at h
    | succ a => simp [World.kidsAt, start] at h
  · intro i t p h hp; obtain ⟨rfl, rfl⟩ := h1 i t h; cases hp

/-- The new template, field by field. -/
theorem makeNode_world (builtin : (Text → Bool) → Text → Option φ) (w : World φ τ) (i : Nat) (t : Node φ τ) (folder : Text) :
    (makeNode builtin w i t folder).1.nodes = w.nodes ∧ (makeNode builtin w i t folder).1.opts = w.opts ++ [w.optsAt t.options] ∧
    (makeNode builtin w i t folder).1.kids = w.kids ++ [fun _ => none] ∧ (makeNode builtin w i t folder).1.tables.length = w.tables.length ∧
    (makeNode builtin w i t folder).2.options = w.opts.length ∧ (makeNode builtin w i t folder).2.children = w.kids.length ∧
    (makeNode builtin w i t folder).2.functions = t.functions ∧ (makeNode builtin w i t folder).2.aliases = t.aliases ∧
    (makeNode builtin w i t folder).2.parent = some i ∧ (makeNode builtin w i t folder).2.defs = importDefs t.defs (fun _ => none) := by
  refine ⟨rfl, rfl, rfl, ?_, rfl, rfl, rfl, rfl, rfl, rfl⟩
  simp [makeNode, initNode, addFunctions]

theorem tableAt_modify_ne (w : World φ τ) (a b : Nat) (f : (Text → Option φ) → (Text → Option φ)) (h : a ≠ b) :
    ({ w with tables := w.tables.modify b f } : World φ τ).tableAt a = w.tableAt a := by
  unfold World.tableAt
  simp [h.symm]

theorem tableAt_modify_self (w : World φ τ) (a : Nat) (f : (Text → Option φ) → (Text → Option φ)) (h : a < w.tables.length) :
    ({ w with tables := w.tables.modify a f } : World φ τ).tableAt a = f (w.tableAt a) := by
  unfold World.tableAt
  simp [h]

/-- The functions that the new template knows: those of the options, then the aliases, then the functions. -/
theorem makeNode_known (builtin : (Text → Bool) → Text → Option φ) (w : World φ τ) (i : Nat) (t : Node φ τ) (folder : Text) (h : t.functions = 0 ∧ t.aliases = 1) (n : Text) :
    (makeNode builtin w i t folder).2.known n = ((builtin (w.optsAt t.options) n).or (w.tableAt 1 n)).or (w.tableAt 0 n) := by
  have e : (addFunctions w { t with known := fun _ => none, defs := fun _ => none } (w.tableAt t.functions)).1.tableAt t.aliases = w.tableAt t.aliases := by
    unfold addFunctions
    exact tableAt_modify_ne w _ _ _ (by rw [h.1, h.2]; decide)
  have e1 : (makeNode builtin w i t folder).2.known = overlay (builtin (w.optsAt t.options))
      (overlay ((addFunctions w { t with known := fun _ => none, defs := fun _ => none } (w.tableAt t.functions)).1.tableAt t.aliases)
        (overlay (w.tableAt t.functions) fun _ => none)) := rfl
  rw [e1, e, h.1, h.2]
  simp [overlay, Option.or_assoc]

/-- The aliases are not changed by a new template; the functions get the aliases and those of the options. -/
theorem makeNode_tables (builtin : (Text → Bool) → Text → Option φ) (w : World φ τ) (i : Nat) (t : Node φ τ) (folder : Text) (h : t.functions = 0 ∧ t.aliases = 1)
    (hl : w.tables.length = 2) (n : Text) :
    (makeNode builtin w i t folder).1.tableAt 1 n = w.tableAt 1 n ∧
    (makeNode builtin w i t folder).1.tableAt 0 n = ((builtin (w.optsAt t.options) n).or (w.tableAt 1 n)).or (w.tableAt 0 n) := by
  have e0 : (makeNode builtin w i t folder).1.tableAt = ({ w with tables := ((w.tables.modify t.functions (overlay (w.tableAt t.functions))).modify t.functions
      (overlay (({ w with tables := w.tables.modify t.functions (overlay (w.tableAt t.functions)) } : World φ τ).tableAt t.aliases))).modify t.functions (overlay (builtin (w.optsAt t.options))) } : World φ τ).tableAt := rfl
  rw [tableAt_modify_ne w t.aliases t.functions _ (by rw [h.1, h.2]; decide), h.1, h.2] at e0
  rw [e0]
  obtain ⟨a, b, hab⟩ : ∃ a b, w.tables = [a, b] := by
    match w.tables, hl with
    | [a, b], _ => exact ⟨a, b, rfl⟩
  constructor
  · simp [World.tableAt, hab]
  · simp only [World.tableAt, hab]
    simp [overlay, Option.or_assoc]

theorem newContext_cases (builtin : (Text → Bool) → Text → Option φ) (w : World φ τ) (i : Nat) (t : Node φ τ) (folder : Text) (useCache : Bool) (ht : w.nodes[i]? = some t) :
    (∃ j, useCache = true ∧ w.kidsAt t.children (if folder ≠ [] then folder else t.folder) = some j ∧ newContext builtin w i folder useCache = (w, j)) ∨
    ((useCache = true → w.kidsAt t.children (if folder ≠ [] then folder else t.folder) = none) ∧ (newContext builtin w i folder useCache).2 = w.nodes.length ∧
      ∃ kids, (newContext builtin w i folder useCache).1 =
        { (makeNode builtin w i t (if folder ≠ [] then folder else t.folder)).1 with
          nodes := w.nodes ++ [(makeNode builtin w i t (if folder ≠ [] then folder else t.folder)).2], kids := kids } ∧
        kids = if useCache then (w.kids ++ [fun _ => none]).modify t.children fun m n => if n = (if folder ≠ [] then folder else t.folder) then some w.nodes.length else m n else w.kids ++ [fun _ => none]) := by
  unfold newContext
  rw [ht]
  simp only
  cases useCache with
  | false =>
    right
    refine ⟨by simp, rfl, w.kids ++ [fun _ => none], ?_, rfl⟩
    simp only [Bool.false_eq_true, if_false]
    rfl
  | true =>
    simp only [if_true]
    cases hk : w.kidsAt t.children (if folder ≠ [] then folder else t.folder) with
    | some j => left; exact ⟨j, trivial, rfl, rfl⟩
    | none =>
      right
      refine ⟨fun _ => rfl, rfl, _, ?_, rfl⟩
      rfl

theorem getElem?_snoc_cases {α : Type} {l : List α} {x y : α} {i : Nat} (h : (l ++ [x])[i]? = some y) : l[i]? = some y ∨ i = l.length ∧ y = x := by
  rw [List.getElem?_append] at h
  split at h
  · exact .inl h
  · rename_i hl
    right
    cases hk : i - l.length with
    | zero => rw [hk] at h; simp at h; exact ⟨by omega, h.symm⟩
    | succ k => rw [hk] at h; simp at h

theorem getElem?_lt {α : Type} {l : List α} {i : Nat} {x : α} (h : l[i]? = some x) : i < l.length := by
  rw [List.getElem?_eq_some_iff] at h
  exact h.1

/-- The addresses stay right when a template is added. -/
theorem inv_create (builtin : (Text → Bool) → Text → Option φ) (w : World φ τ) (i : Nat) (folder : Text) (useCache : Bool) (h : FamilyInv w) :
    FamilyInv (newContext builtin w i folder useCache).1 := by
  cases ht : w.nodes[i]? with
  | none => unfold newContext; rw [ht]; exact h
  | some t =>
    rcases newContext_cases builtin w i t folder useCache ht with ⟨j, _, _, e⟩ | ⟨_, _, kids, e, hkids⟩
    · rw [e]; exact h
    · rw [e]
      generalize hf : (if folder ≠ [] then folder else t.folder) = f at *
      obtain ⟨m1, m2, m3, m4, m5, m6, m7, m8, m9, m10⟩ := makeNode_world builtin w i t f
      have hklen : kids.length = w.kids.length + 1 := by
        rw [hkids]; split <;> simp
      have kidsAt' : ∀ (a : Nat) g j, (kids[a]?.getD fun _ => none) g = some j →
          w.kidsAt a g = some j ∨ (a = t.children ∧ g = f ∧ j = w.nodes.length) := by
        intro a g j hj'
        rw [hkids] at hj'
        have base : ∀ g j, ((w.kids ++ [fun _ => none])[a]?.getD fun _ => none) g = some j → w.kidsAt a g = some j := by
          intro g j hg
          rw [List.getElem?_append] at hg
          split at hg
          · exact hg
          · cases hk : a - w.kids.length with
            | zero => rw [hk] at hg; simp at hg
            | succ k => rw [hk] at hg; simp at hg
        split at hj'
        · rw [List.getElem?_modify] at hj'
          by_cases ha : t.children = a
          · simp only [ha, if_true, Option.map_eq_map] at hj'
            cases hx : (w.kids ++ [fun _ => none])[a]? with
            | none => rw [hx] at hj'; simp at hj'
            | some mm =>
              rw [hx] at hj'
              simp only [Option.map_some, Option.getD_some] at hj'
              split at hj'
              · rename_i hg
                injection hj' with hj'
                exact .inr ⟨ha.symm, hg, hj'.symm⟩
              · exact .inl (base g j (by rw [hx]; exact hj'))
          · exact .inl (base g j (by simpa [ha] using hj'))
        · exact .inl (base g j hj')
      refine ⟨?_, ?_, ?_, ?_, ?_, ?_, ?_, ?_, ?_⟩
      · intro k u hu
        rw [m2, List.length_append]
        rcases getElem?_snoc_cases hu with hu | ⟨_, rfl⟩
        · have := h.optLt k u hu; simp; omega
        · rw [m5]; simp
      · intro k l u v hu hv he
        rcases getElem?_snoc_cases hu with hu | ⟨rfl, rfl⟩
        · rcases getElem?_snoc_cases hv with hv | ⟨rfl, rfl⟩
          · exact h.optInj k l u v hu hv he
          · have := h.optLt k u hu; rw [he, m5] at this; omega
        · rcases getElem?_snoc_cases hv with hv | ⟨rfl, rfl⟩
          · have := h.optLt l v hv; rw [← he, m5] at this; omega
          · rfl
      · intro k u hu
        show u.children < kids.length
        rw [hklen]
        rcases getElem?_snoc_cases hu with hu | ⟨_, rfl⟩
        · have := h.kidLt k u hu; omega
        · rw [m6]; omega
      · intro k l u v hu hv he
        rcases getElem?_snoc_cases hu with hu | ⟨rfl, rfl⟩
        · rcases getElem?_snoc_cases hv with hv | ⟨rfl, rfl⟩
          · exact h.kidInj k l u v hu hv he
          · have := h.kidLt k u hu; rw [he, m6] at this; omega
        · rcases getElem?_snoc_cases hv with hv | ⟨rfl, rfl⟩
          · have := h.kidLt l v hv; rw [← he, m6] at this; omega
          · rfl
      · intro k u hu
        rcases getElem?_snoc_cases hu with hu | ⟨_, rfl⟩
        · exact h.tabs k u hu
        · rw [m7, m8]; exact h.tabs i t ht
      · show (makeNode builtin w i t f).1.tables.length = 2
        rw [m4]; exact h.tabLen
      · intro a g j hj
        show j < (w.nodes ++ [_]).length
        rw [List.length_append, List.length_singleton]
        rcases kidsAt' a g j hj with h1 | ⟨_, _, h1⟩
        · have := h.kidOk a g j h1; omega
        · omega
      · intro a b g g' j h1 h2
        rcases kidsAt' a g j h1 with h1 | ⟨h1, h3, h4⟩
        · rcases kidsAt' b g' j h2 with h2 | ⟨_, _, h4⟩
          · exact h.kidUniq a b g g' j h1 h2
          · have := h.kidOk a g j h1; omega
        · rcases kidsAt' b g' j h2 with h2 | ⟨h5, h6, _⟩
          · have := h.kidOk b g' j h2; omega
          · exact ⟨by rw [h1, h5], by rw [h3, h6]⟩
      · intro k u p hu hp
        rcases getElem?_snoc_cases hu with hu | ⟨rfl, rfl⟩
        · exact h.parOk k u p hu hp
        · rw [m9] at hp
          injection hp with hp
          rw [← hp]
          exact getElem?_lt ht

theorem inv_step (builtin : (Text → Bool) → Text → Option φ) (w : World φ τ) (op : Op φ τ) (h : FamilyInv w) : FamilyInv (step builtin w op) := by
  cases op with
  | create i folder useCache => exact inv_create builtin w i folder useCache h
  | option i name value =>
    unfold step
    simp only
    split
    · exact h
    · refine ⟨?_, h.optInj, h.kidLt, h.kidInj, h.tabs, h.tabLen, h.kidOk, h.kidUniq, h.parOk⟩
      intro k u hu
      simpa using h.optLt k u hu
  | alias i l name f =>
    unfold step
    simp only
    split
    · exact h
    · exact ⟨h.optLt, h.optInj, h.kidLt, h.kidInj, h.tabs, by simpa using h.tabLen, h.kidOk, h.kidUniq, h.parOk⟩
  | define i name tree =>
    have key : ∀ (k : Nat) u, (w.nodes.modify i fun t => { t with defs := fun n => if n = name then some (tree, true) else t.defs n })[k]? = some u →
        ∃ v, w.nodes[k]? = some v ∧ u.options = v.options ∧ u.children = v.children ∧ u.functions = v.functions ∧ u.aliases = v.aliases ∧ u.parent = v.parent := by
      intro k u hu
      rw [List.getElem?_modify] at hu
      cases hv : w.nodes[k]? with
      | none => rw [hv] at hu; simp at hu
      | some v =>
        rw [hv] at hu
        refine ⟨v, rfl, ?_⟩
        by_cases hik : i = k
        · simp only [hik, if_true, Option.map_eq_map, Option.map_some, Option.some.injEq] at hu
          rw [← hu]; exact ⟨rfl, rfl, rfl, rfl, rfl⟩
        · simp [hik] at hu
          rw [← hu]; exact ⟨rfl, rfl, rfl, rfl, rfl⟩
    unfold step
    refine ⟨?_, ?_, ?_, ?_, ?_, h.tabLen, ?_, h.kidUniq, ?_⟩
    · intro k u hu; obtain ⟨v, hv, e, _⟩ := key k u hu; rw [e]; exact h.optLt k v hv
    · intro k l u v hu hv he
      obtain ⟨u', hu', e1, _⟩ := key k u hu
      obtain ⟨v', hv', e2, _⟩ := key l v hv
      exact h.optInj k l u' v' hu' hv' (by rw [← e1, ← e2]; exact he)
    · intro k u hu; obtain ⟨v, hv, _, e, _⟩ := key k u hu; rw [e]; exact h.kidLt k v hv
    · intro k l u v hu hv he
      obtain ⟨u', hu', _, e1, _⟩ := key k u hu
      obtain ⟨v', hv', _, e2, _⟩ := key l v hv
      exact h.kidInj k l u' v' hu' hv' (by rw [← e1, ← e2]; exact he)
    · intro k u hu; obtain ⟨v, hv, _, _, e1, e2, _⟩ := key k u hu; rw [e1, e2]; exact h.tabs k v hv
    · intro a f j hj
      show j < (w.nodes.modify i _).length
      rw [List.length_modify]
      exact h.kidOk a f j hj
    · intro k u p hu hp; obtain ⟨v, hv, _, _, _, _, e⟩ := key k u hu; rw [e] at hp; exact h.parOk k v p hv hp

theorem inv_run (builtin : (Text → Bool) → Text → Option φ) (w : World φ τ) (ops : List (Op φ τ)) (h : FamilyInv w) : FamilyInv (run builtin w ops) := by
  induction ops generalizing w with
  | nil => exact h
  | cons op ops ih => exact ih _ (inv_step builtin w op h)

end Verif.Lemmas
