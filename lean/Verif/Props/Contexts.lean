import Verif.Lemmas.Contexts

/-!
C82: templates of different folders.
-/

namespace Verif.Props
open Verif Verif.Contexts Verif.Lemmas Verif.Spec

variable {φ τ : Type}

/-- A new template does not change those that exist. -/
theorem created_nodes (builtin : (Text → Bool) → Text → Option φ) (w : World φ τ) (h : FamilyInv w) (i : Nat) (folder : Text) (useCache : Bool) (j : Nat) (hj : j < w.nodes.length) :
    (newContext builtin w i folder useCache).1.nodes[j]? = w.nodes[j]? ∧ optionsOf (newContext builtin w i folder useCache).1 j = optionsOf w j := by
  cases ht : w.nodes[i]? with
  | none => unfold newContext; rw [ht]; exact ⟨rfl, rfl⟩
  | some t =>
    rcases newContext_cases builtin w i t folder useCache ht with ⟨k, _, _, e⟩ | ⟨_, _, kids, e, _⟩
    · rw [e]; exact ⟨rfl, rfl⟩
    · rw [e]
      obtain ⟨_, m2, _⟩ := makeNode_world builtin w i t (if folder ≠ [] then folder else t.folder)
      have hn : (w.nodes ++ [(makeNode builtin w i t (if folder ≠ [] then folder else t.folder)).2])[j]? = w.nodes[j]? := List.getElem?_append_left hj
      refine ⟨hn, ?_⟩
      unfold optionsOf
      simp only [hn]
      cases hu : w.nodes[j]? with
      | none => rfl
      | some u =>
        simp only [Option.map_some, World.optsAt, m2]
        rw [List.getElem?_append_left (h.optLt j u hu)]

/-- **C82**: after any history, an operation changes the options of no template, except that setting an option of a template changes that option of that template. -/
theorem C82_options (builtin : (Text → Bool) → Text → Option φ) (folder : Text) (options : Text → Bool) (ops : List (Op φ τ)) (op : Op φ τ) (j : Nat) :
    let w := run builtin (start builtin folder options) ops
    j < w.nodes.length →
    optionsOf (step builtin w op) j = (optionsOf w j).map fun o => match op with
      | .option i name value => if i = j then (fun n => if n = name then value else o n) else o
      | _ => o := by
  intro w hj
  have h : FamilyInv w := inv_run builtin _ ops (start_inv builtin folder options)
  cases op with
  | create i f c =>
    simp only [Option.map_id']
    exact (created_nodes builtin w h i f c j hj).2
  | alias i l n f =>
    simp only [Option.map_id']
    unfold step
    simp only
    split <;> rfl
  | define i n t =>
    simp only [Option.map_id']
    unfold step optionsOf
    simp only [List.getElem?_modify]
    cases w.nodes[j]? with
    | none => rfl
    | some u =>
      by_cases hij : i = j
      · simp [hij]; rfl
      · simp [hij]; rfl
  | option i name value =>
    unfold step
    simp only
    split
    · rename_i hn
      have hij : i ≠ j := by rintro rfl; rw [List.getElem?_eq_none_iff] at hn; omega
      simp [hij]
    · rename_i t ht
      unfold optionsOf World.optsAt
      cases hu : w.nodes[j]? with
      | none => rfl
      | some u =>
        simp only [Option.map_some, List.getElem?_modify]
        by_cases hij : i = j
        · subst hij
          rw [hu] at ht
          injection ht with ht
          subst ht
          have hl := h.optLt i u hu
          simp [List.getElem?_eq_getElem hl]
        · have hne : t.options ≠ u.options := fun e => hij (h.optInj i j t u ht hu e)
          simp [hij, hne]

/-- **C82**: no operation changes the functions that the texts of an existing template can use; only a definition in a template changes the templates that can be called in it. -/
theorem C82_unchanged_context (builtin : (Text → Bool) → Text → Option φ) (folder : Text) (options : Text → Bool) (ops : List (Op φ τ)) (op : Op φ τ) (j : Nat) :
    let w := run builtin (start builtin folder options) ops
    j < w.nodes.length →
    knownOf (step builtin w op) j = knownOf w j ∧
    defsOf (step builtin w op) j = (defsOf w j).map fun d => match op with
      | .define i name tree => if i = j then (fun n => if n = name then some (tree, true) else d n) else d
      | _ => d := by
  intro w hj
  have h : FamilyInv w := inv_run builtin _ ops (start_inv builtin folder options)
  cases op with
  | create i f c =>
    simp only [Option.map_id']
    have := (created_nodes builtin w h i f c j hj).1
    unfold step knownOf defsOf
    simp only [this, and_self]
  | alias i l n f =>
    simp only [Option.map_id']
    unfold step
    simp only
    split <;> exact ⟨rfl, rfl⟩
  | option i n v =>
    simp only [Option.map_id']
    unfold step
    simp only
    split <;> exact ⟨rfl, rfl⟩
  | define i n t =>
    unfold step knownOf defsOf
    simp only [List.getElem?_modify]
    cases w.nodes[j]? with
    | none => exact ⟨rfl, rfl⟩
    | some u =>
      by_cases hij : i = j
      · simp [hij]
      · simp [hij]

theorem top_lt {w : World φ τ} (h : FamilyInv w) (n i : Nat) (hi : i < w.nodes.length) : top w n i < w.nodes.length := by
  induction n generalizing i with
  | zero => exact hi
  | succ n ih =>
    rw [top]
    split
    · rename_i p hp
      rw [Option.bind_eq_some_iff] at hp
      obtain ⟨t, ht, hp⟩ := hp
      exact ih p (Nat.lt_trans (h.parOk i t p ht hp) hi)
    · exact hi

/-- The table of aliases says the last definition of each. -/
theorem alias_table (builtin : (Text → Bool) → Text → Option φ) (n : Text) (ops : List (Op φ τ)) (w : World φ τ) (h : FamilyInv w) (hl : Legal builtin w ops) :
    (run builtin w ops).tableAt 1 n = (lastAlias n ops).or (w.tableAt 1 n) := by
  induction ops generalizing w with
  | nil => rfl
  | cons op ops ih =>
    have hs := ih (step builtin w op) (inv_step builtin w op h) hl.2
    have e : run builtin w (op :: ops) = run builtin (step builtin w op) ops := rfl
    rw [e, hs]
    cases op with
    | create i f c =>
      show _ = (lastAlias n ops).or (w.tableAt 1 n)
      congr 1
      show (newContext builtin w i f c).1.tableAt 1 n = _
      cases ht : w.nodes[i]? with
      | none => unfold newContext; rw [ht]
      | some t =>
        rcases newContext_cases builtin w i t f c ht with ⟨k, _, _, e⟩ | ⟨_, _, kids, e, _⟩
        · rw [e]
        · rw [e]
          exact (makeNode_tables builtin w i t _ (h.tabs i t ht) h.tabLen n).1
    | option i m v =>
      show _ = (lastAlias n ops).or (w.tableAt 1 n)
      congr 1
      unfold step
      simp only
      split <;> rfl
    | define i m t => rfl
    | alias i l m f =>
      have hi : i < w.nodes.length := hl.1
      rw [lastAlias, Option.or_assoc]
      congr 1
      have hx : (if l then i else top w w.nodes.length i) < w.nodes.length := by
        split
        · exact hi
        · exact top_lt h _ i hi
      unfold step
      simp only
      rw [List.getElem?_eq_getElem hx]
      simp only
      rw [(h.tabs _ _ (List.getElem?_eq_getElem hx)).2, tableAt_modify_self w 1 _ (by rw [h.tabLen]; decide)]
      by_cases hnm : n = m
      · simp [hnm]
      · simp [hnm, Ne.symm hnm]

/-- The functions of the options of the first template stay in the table of functions; a name that is neither an alias nor a function of any option is not there. -/
theorem function_table (builtin : (Text → Bool) → Text → Option φ) (n : Text) (ops : List (Op φ τ)) (w : World φ τ) (h : FamilyInv w) (hl : Legal builtin w ops) :
    ((w.tableAt 0 n).isSome → ((run builtin w ops).tableAt 0 n).isSome) ∧
    ((∀ o, builtin o n = none) → lastAlias n ops = none → w.tableAt 0 n = none → w.tableAt 1 n = none → (run builtin w ops).tableAt 0 n = none) := by
  induction ops generalizing w with
  | nil => exact ⟨id, fun _ _ h _ => h⟩
  | cons op ops ih =>
    have hs := ih (step builtin w op) (inv_step builtin w op h) hl.2
    have e : run builtin w (op :: ops) = run builtin (step builtin w op) ops := rfl
    rw [e]
    cases op with
    | create i f c =>
      have key : ((newContext builtin w i f c).1.tableAt 0 n = w.tableAt 0 n ∨ ∃ o, (newContext builtin w i f c).1.tableAt 0 n = ((builtin o n).or (w.tableAt 1 n)).or (w.tableAt 0 n)) ∧
          (newContext builtin w i f c).1.tableAt 1 n = w.tableAt 1 n := by
        cases ht : w.nodes[i]? with
        | none => unfold newContext; rw [ht]; exact ⟨.inl rfl, rfl⟩
        | some t =>
          rcases newContext_cases builtin w i t f c ht with ⟨k, _, _, e⟩ | ⟨_, _, kids, e, _⟩
          · rw [e]; exact ⟨.inl rfl, rfl⟩
          · rw [e]
            obtain ⟨t1, t2⟩ := makeNode_tables builtin w i t (if f ≠ [] then f else t.folder) (h.tabs i t ht) h.tabLen n
            exact ⟨.inr ⟨_, t2⟩, t1⟩
      refine ⟨fun h0 => hs.1 ?_, fun hb ha h0 h1 => hs.2 hb ha ?_ ?_⟩
      · show ((newContext builtin w i f c).1.tableAt 0 n).isSome
        rcases key.1 with k | ⟨o, k⟩
        · rw [k]; exact h0
        · rw [k]; simp [h0]
      · show (newContext builtin w i f c).1.tableAt 0 n = none
        rcases key.1 with k | ⟨o, k⟩
        · rw [k]; exact h0
        · rw [k]; simp [h0, h1, hb o]
      · exact key.2.trans h1
    | option i m v =>
      have e2 : ∀ a, (step builtin w (.option i m v)).tableAt a = w.tableAt a := by
        intro a
        unfold step
        simp only
        split <;> rfl
      simp only [e2] at hs
      exact ⟨hs.1, hs.2⟩
    | define i m t => exact hs
    | alias i l m f =>
      have hi : i < w.nodes.length := hl.1
      have hx : (if l then i else top w w.nodes.length i) < w.nodes.length := by
        split
        · exact hi
        · exact top_lt h _ i hi
      have hst : step builtin w (.alias i l m f) = { w with tables := w.tables.modify 1 fun mm n => if n = m then some f else mm n } := by
        unfold step
        simp only
        rw [List.getElem?_eq_getElem hx]
        simp only
        rw [(h.tabs _ _ (List.getElem?_eq_getElem hx)).2]
      rw [hst] at hs ⊢
      rw [tableAt_modify_ne w 0 1 _ (by decide), tableAt_modify_self w 1 _ (by rw [h.tabLen]; decide)] at hs
      refine ⟨hs.1, fun hb ha h0 h1 => ?_⟩
      rw [lastAlias, Option.or_eq_none_iff] at ha
      refine hs.2 hb ha.1 h0 ?_
      have : ¬ m = n := by
        intro e
        have := ha.2
        rw [if_pos e] at this
        cases this
      rw [if_neg (fun e => this e.symm)]
      exact h1

/-- **C82**: a new template has the options of the one it comes from, can call the templates that are defined in it, and can use the functions that its options enable, the aliases that any template defined before and nothing else, the functions first. -/
theorem C82_created (builtin : (Text → Bool) → Text → Option φ) (folder : Text) (options : Text → Bool) (ops : List (Op φ τ))
    (hl : Legal builtin (start builtin folder options) ops) (i : Nat) (f : Text) (c : Bool) :
    let w := run builtin (start builtin folder options) ops
    let r := newContext builtin w i f c
    i < w.nodes.length → r.2 = w.nodes.length →
    optionsOf r.1 r.2 = optionsOf w i ∧
    (∃ d d', defsOf w i = some d ∧ defsOf r.1 r.2 = some d' ∧ ∀ n t, d' n = some (t, true) ↔ d n = some (t, true)) ∧
    ∃ o k, optionsOf w i = some o ∧ knownOf r.1 r.2 = some k ∧ ∀ n,
      (∀ g, builtin o n = some g → k n = some g) ∧
      (builtin o n = none → ∀ g, lastAlias n ops = some g → k n = some g) ∧
      ((∀ o, builtin o n = none) → lastAlias n ops = none → k n = none) ∧
      ((builtin options n).isSome → (k n).isSome) := by
  intro w r hi hr
  have h : FamilyInv w := inv_run builtin _ ops (start_inv builtin folder options)
  obtain ⟨t, ht⟩ : ∃ t, w.nodes[i]? = some t := ⟨_, List.getElem?_eq_getElem hi⟩
  rcases newContext_cases builtin w i t f c ht with ⟨k, _, hk, e⟩ | ⟨_, _, kids, e, _⟩
  · exfalso
    have : r = (w, k) := e
    rw [this] at hr
    have := h.kidOk _ _ _ hk
    simp only at hr
    omega
  · obtain ⟨m1, m2, m3, m4, m5, m6, m7, m8, m9, m10⟩ := makeNode_world builtin w i t (if f ≠ [] then f else t.folder)
    have hn : r.1.nodes[r.2]? = some (makeNode builtin w i t (if f ≠ [] then f else t.folder)).2 := by
      rw [hr, show r.1 = _ from e]
      simp
    refine ⟨?_, ⟨t.defs, _, by unfold defsOf; rw [ht]; rfl, by unfold defsOf; rw [hn]; rfl, ?_⟩, w.optsAt t.options, _, by unfold optionsOf; rw [ht]; rfl, by unfold knownOf; rw [hn]; rfl, ?_⟩
    · unfold optionsOf
      rw [hn, ht]
      simp only [Option.map_some, World.optsAt]
      rw [show r.1.opts = w.opts ++ [w.optsAt t.options] by rw [show r.1 = _ from e]; exact m2, m5]
      simp [World.optsAt]
    · intro n tree
      rw [m10]
      unfold importDefs
      split
      · rename_i tr hd; rw [hd]
      · rename_i hd
        constructor
        · intro h; cases h
        · intro h; exact absurd h (hd tree)
    · intro n
      have hk := makeNode_known builtin w i t (if f ≠ [] then f else t.folder) (h.tabs i t ht) n
      have ha := alias_table builtin n ops _ (start_inv builtin folder options) hl
      have ha0 : (start builtin folder options : World φ τ).tableAt 1 n = none := rfl
      rw [ha0, Option.or_none] at ha
      have hf := function_table builtin n ops _ (start_inv builtin folder options) hl
      have hf0 : (start builtin folder options : World φ τ).tableAt 0 n = builtin options n := rfl
      rw [hf0] at hf
      refine ⟨fun g hg => ?_, fun hb g hg => ?_, fun hb hg => ?_, fun hb => ?_⟩
      · rw [hk, hg]; rfl
      · rw [hk, hb, ha, hg]; rfl
      · rw [hk, hb, ha, hg, hf.2 hb hg (hb options) ha0]; rfl
      · rw [hk]
        have := hf.1 hb
        simp [this, show w.tableAt 0 n = (run builtin (start builtin folder options) ops).tableAt 0 n from rfl]

/-- The children are known by their folder. -/
def FolderInv (w : World φ τ) : Prop := ∀ (a : Nat) f j, w.kidsAt a f = some j → (w.nodes[j]?).map Node.folder = some f

theorem makeNode_folder (builtin : (Text → Bool) → Text → Option φ) (w : World φ τ) (i : Nat) (t : Node φ τ) (f : Text) :
    (makeNode builtin w i t (if f ≠ [] then f else t.folder)).2.folder = if f ≠ [] then f else t.folder := by
  simp only [makeNode, initNode, addFunctions]
  by_cases h : f = []
  · simp [h]
  · simp [h]

theorem folder_create (builtin : (Text → Bool) → Text → Option φ) (w : World φ τ) (i : Nat) (f : Text) (c : Bool) (h : FamilyInv w) (hf : FolderInv w) :
    FolderInv (newContext builtin w i f c).1 ∧ ∀ t, w.nodes[i]? = some t →
      ((newContext builtin w i f c).1.nodes[(newContext builtin w i f c).2]?).map Node.folder = some (if f ≠ [] then f else t.folder) := by
  cases ht : w.nodes[i]? with
  | none => exact ⟨by unfold newContext; rw [ht]; exact hf, nofun⟩
  | some t =>
    rcases newContext_cases builtin w i t f c ht with ⟨k, _, hk, e⟩ | ⟨_, e2, kids, e, hkids⟩
    · rw [e]
      refine ⟨hf, fun u hu => ?_⟩
      cases hu
      exact hf _ _ _ hk
    · have new : ((w.nodes ++ [(makeNode builtin w i t (if f ≠ [] then f else t.folder)).2])[w.nodes.length]?).map Node.folder = some (if f ≠ [] then f else t.folder) := by
        simp only [List.getElem?_append_right (Nat.le_refl _), Nat.sub_self, List.getElem?_cons_zero, Option.map_some, makeNode_folder]
      refine ⟨?_, fun u hu => ?_⟩
      · intro a g j hj
        rw [e] at hj ⊢
        have old : w.kidsAt a g = some j → ((w.nodes ++ [(makeNode builtin w i t (if f ≠ [] then f else t.folder)).2])[j]?).map Node.folder = some g := by
          intro hj
          rw [List.getElem?_append_left (h.kidOk _ _ _ hj)]
          exact hf _ _ _ hj
        have grown : ∀ g j, ((w.kids ++ [fun _ => none])[a]?.getD fun _ => none) g = some j → w.kidsAt a g = some j := by
          intro g j hg
          rw [List.getElem?_append] at hg
          split at hg
          · exact hg
          · cases hk : a - w.kids.length with
            | zero => rw [hk] at hg; simp at hg
            | succ k => rw [hk] at hg; simp at hg
        have hj' : (kids[a]?.getD fun _ => none) g = some j := hj
        rw [hkids] at hj'
        split at hj'
        · rw [List.getElem?_modify] at hj'
          by_cases ha : t.children = a
          · simp only [ha, if_true, Option.map_eq_map] at hj'
            cases hx : (w.kids ++ [fun _ => none])[a]? with
            | none => rw [hx] at hj'; simp at hj'
            | some mm =>
              rw [hx] at hj'
              simp only [Option.map_some, Option.getD_some] at hj'
              by_cases hg : g = (if f ≠ [] then f else t.folder)
              · rw [if_pos hg] at hj'
                cases hj'
                rw [hg]
                exact new
              · rw [if_neg hg] at hj'
                exact old (grown g j (by rw [hx]; exact hj'))
          · exact old (grown g j (by simpa [ha] using hj'))
        · exact old (grown g j hj')
      · cases hu
        rw [e, e2]
        exact new

theorem folder_run (builtin : (Text → Bool) → Text → Option φ) (ops : List (Op φ τ)) : ∀ w : World φ τ, FamilyInv w → FolderInv w → FolderInv (run builtin w ops) := by
  induction ops with
  | nil => exact fun _ _ h => h
  | cons op ops ih =>
    intro w h hf
    refine ih _ (inv_step builtin w op h) ?_
    cases op with
    | create i f c => exact (folder_create builtin w i f c h hf).1
    | option i name value =>
      unfold step
      simp only
      split
      · exact hf
      · exact hf
    | alias i l name f =>
      unfold step
      simp only
      split
      · exact hf
      · exact hf
    | define i name tree =>
      intro a f j hj
      have := hf a f j hj
      show ((w.nodes.modify i _)[j]?).map Node.folder = _
      rw [List.getElem?_modify, ← this]
      cases w.nodes[j]? with
      | none => rfl
      | some t => by_cases hij : i = j <;> simp [hij]

/-- **C82**: a template obtained for a folder — new or kept — is the template of this folder; without a folder, of the folder of the template it comes from. -/
theorem C82_folder (builtin : (Text → Bool) → Text → Option φ) (folder : Text) (options : Text → Bool) (ops : List (Op φ τ)) (i : Nat) (f : Text) (c : Bool) :
    let w := run builtin (start builtin folder options) ops
    let r := newContext builtin w i f c
    ∀ own, folderOf w i = some own → folderOf r.1 r.2 = some (if f = [] then own else f) := by
  intro w r own ho
  have h : FamilyInv w := inv_run builtin _ ops (start_inv builtin folder options)
  have hf : FolderInv w := folder_run builtin ops _ (start_inv builtin folder options) (by
    intro a g j hj
    cases a with
    | zero => simp [World.kidsAt, start] at hj
    | succ a => simp [World.kidsAt, start] at hj)
  unfold folderOf at ho
  cases ht : w.nodes[i]? with
  | none => rw [ht] at ho; cases ho
  | some t =>
    rw [ht] at ho
    cases ho
    have := (folder_create builtin w i f c h hf).2 t ht
    unfold folderOf
    rw [show (r.1.nodes[r.2]?).map Node.folder = _ from this]
    by_cases hx : f = [] <;> simp [hx]

/-- **C82**: the same folder gives the same template, and different folders or templates give different ones. -/
theorem C82_cached (builtin : (Text → Bool) → Text → Option φ) (folder : Text) (options : Text → Bool) (ops : List (Op φ τ)) (i : Nat) (f : Text) (hf : f ≠ []) :
    let w := run builtin (start builtin folder options) ops
    let r := newContext builtin w i f true
    i < w.nodes.length →
    newContext builtin r.1 i f true = r ∧
    ∀ i' f', f' ≠ [] → i' < w.nodes.length → newContext builtin r.1 i' f' true = r → i' = i ∧ f' = f := by
  intro w r hi
  have h : FamilyInv w := inv_run builtin _ ops (start_inv builtin folder options)
  have hr : FamilyInv r.1 := inv_create builtin w i f true h
  obtain ⟨t, ht⟩ : ∃ t, w.nodes[i]? = some t := ⟨_, List.getElem?_eq_getElem hi⟩
  have key : r.1.nodes[i]? = some t ∧ r.1.kidsAt t.children f = some r.2 := by
    rcases newContext_cases builtin w i t f true ht with ⟨k, _, hk, e⟩ | ⟨_, e2, kids, e, hkids⟩
    · have : r = (w, k) := e
      rw [this]
      rw [if_pos hf] at hk
      exact ⟨ht, hk⟩
    · refine ⟨by rw [← ht]; exact (created_nodes builtin w h i f true i hi).1, ?_⟩
      rw [show r.2 = w.nodes.length from e2, show r.1 = _ from e]
      rw [if_pos hf] at hkids
      simp only [World.kidsAt, hkids, if_true, List.getElem?_modify]
      rw [List.getElem?_append_left (h.kidLt i t ht), List.getElem?_eq_getElem (h.kidLt i t ht)]
      simp
  have cached : ∀ i' f' u j, f' ≠ [] → r.1.nodes[i']? = some u → r.1.kidsAt u.children f' = some j → newContext builtin r.1 i' f' true = (r.1, j) := by
    intro i' f' u j hf' hu hk
    unfold newContext
    rw [hu]
    simp only [if_pos hf', if_true, hk]
  refine ⟨cached i f t r.2 hf key.1 key.2, ?_⟩
  intro i' f' hf' hi' he
  obtain ⟨u, hu⟩ : ∃ u, w.nodes[i']? = some u := ⟨_, List.getElem?_eq_getElem hi'⟩
  have hu' : r.1.nodes[i']? = some u := by rw [← hu]; exact (created_nodes builtin w h i f true i' hi').1
  rcases newContext_cases builtin r.1 i' u f' true hu' with ⟨k, _, hk, e⟩ | ⟨_, e2, _⟩
  · rw [e] at he
    have hk2 : k = r.2 := congrArg Prod.snd he
    rw [if_pos hf', hk2] at hk
    obtain ⟨hc, hff⟩ := hr.kidUniq _ _ _ _ _ hk key.2
    exact ⟨hr.kidInj i' i u t hu' key.1 hc, hff⟩
  · exfalso
    rw [he] at e2
    have := hr.kidOk _ _ _ key.2
    omega

/-- The functions of the example: `add`, which the option `Math` enables. -/
def fewBuiltins (o : Text → Bool) (n : Text) : Option Nat := if n = T "add" ∧ o (T "Math") then some 0 else none

def mathOn : Text → Bool := fun n => n = T "Math"

/-- **C82**, not in the same folder: after the alias `x` is defined by a text of a folder, another folder knows it and the folder itself does not. -/
theorem C82_not_same_folder :
    let ops : List (Op Nat Unit) := [.create 0 (T "a") true, .alias 1 false (T "x") 7]
    let w := run fewBuiltins (start fewBuiltins (T "/") mathOn) ops
    (∃ k, knownOf (newContext fewBuiltins w 0 (T "a") true).1 (newContext fewBuiltins w 0 (T "a") true).2 = some k ∧ k (T "x") = none) ∧
    ∃ k, knownOf (newContext fewBuiltins w 0 (T "b") true).1 (newContext fewBuiltins w 0 (T "b") true).2 = some k ∧ k (T "x") = some 7 := by
  refine ⟨⟨_, rfl, ?_⟩, ⟨_, rfl, ?_⟩⟩
  · decide +kernel
  · decide +kernel

/-- **C82**, not local: an alias that is said to be local is known in other folders. -/
theorem C82_not_local :
    let ops : List (Op Nat Unit) := [.create 0 (T "a") true, .alias 1 true (T "x") 7]
    let w := run fewBuiltins (start fewBuiltins (T "/") mathOn) ops
    ∃ k, knownOf (newContext fewBuiltins w 0 (T "b") true).1 (newContext fewBuiltins w 0 (T "b") true).2 = some k ∧ k (T "x") = some 7 :=
  ⟨_, rfl, by decide +kernel⟩

/-- **C82**, not over a function: an alias with the name of a function has no effect. -/
theorem C82_not_override :
    let ops : List (Op Nat Unit) := [.alias 0 false (T "add") 7]
    let w := run fewBuiltins (start fewBuiltins (T "/") mathOn) ops
    ∃ k, knownOf (newContext fewBuiltins w 0 (T "b") true).1 (newContext fewBuiltins w 0 (T "b") true).2 = some k ∧ k (T "add") = some 0 :=
  ⟨_, rfl, by decide +kernel⟩

/-- **C82**, not for options: one that is turned off later does not take its functions away. -/
theorem C82_not_disabled :
    let ops : List (Op Nat Unit) := [.option 0 (T "Math") false]
    let w := run fewBuiltins (start fewBuiltins (T "/") mathOn) ops
    (∃ o, optionsOf (newContext fewBuiltins w 0 (T "b") true).1 (newContext fewBuiltins w 0 (T "b") true).2 = some o ∧ o (T "Math") = false) ∧
    ∃ k, knownOf (newContext fewBuiltins w 0 (T "b") true).1 (newContext fewBuiltins w 0 (T "b") true).2 = some k ∧ k (T "add") = some 0 :=
  ⟨⟨_, rfl, by decide +kernel⟩, _, rfl, by decide +kernel⟩

example : Legal fewBuiltins (start fewBuiltins (T "/") mathOn) [.create 0 (T "a") true, .alias 1 false (T "x") 7, .define 1 (T "t") (), .option 0 (T "Math") false] :=
  ⟨by decide, by decide, by decide, by decide, trivial⟩
example : (newContext fewBuiltins (run fewBuiltins (start fewBuiltins (T "/") mathOn : World Nat Unit) [.create 0 (T "a") true]) 0 (T "b") true).2 = 2 ∧
    (newContext fewBuiltins (run fewBuiltins (start fewBuiltins (T "/") mathOn : World Nat Unit) [.create 0 (T "a") true]) 0 (T "a") true).2 = 1 := by
  refine ⟨by decide +kernel, by decide +kernel⟩

example := C82_created fewBuiltins (T "/") mathOn [.create 0 (T "a") true, .alias 1 false (T "x") 7, .define 1 (T "t") (), .option 0 (T "Math") false]
  ⟨by decide, by decide, by decide, by decide, trivial⟩ 0 (T "b") true
example := C82_cached fewBuiltins (T "/") mathOn ([.create 0 (T "a") true, .define 1 (T "t") ()] : List (Op Nat Unit)) 0 (T "a") (by decide)
example : folderOf (run fewBuiltins (start fewBuiltins (T "/") mathOn : World Nat Unit) [.create 0 (T "a") true, .create 1 [] true]) 2 = some (T "a") ∧
    folderOf (run fewBuiltins (start fewBuiltins (T "/") mathOn : World Nat Unit) [.create 0 (T "a") true]) 0 = some (T "/") := by
  refine ⟨by decide +kernel, by decide +kernel⟩

end Verif.Props
