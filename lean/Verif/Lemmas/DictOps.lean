import Verif.Model.DictOps
import Verif.Spec.DictSpec
import Verif.Lemmas.ListOps
/-! # Lemmas about dictionaries -/

namespace Verif
open Value Spec

namespace GoMap
variable {α : Type}

theorem get?_map (m : GoMap α) {β : Type} (f : α → β) (k : Text) :
    get? (m.map (fun e => (e.1, f e.2))) k = (get? m k).map f := by
  induction m with
  | nil => rfl
  | cons e m ih =>
    obtain ⟨k', v⟩ := e
    simp only [List.map_cons, get?_cons, ih]
    split <;> rfl

theorem set_of_not_mem {m : GoMap α} {k : Text} (v : α) (h : k ∉ keys m) : set m k v = m ++ [(k, v)] := by
  induction m with
  | nil => rfl
  | cons e m ih =>
    obtain ⟨k', v'⟩ := e
    rw [keys_cons, List.mem_cons] at h
    have h1 : ¬ k' = k := fun e => h (Or.inl e.symm)
    simp only [set, h1, if_false]
    rw [ih (fun h' => h (Or.inr h'))]; rfl

theorem foldl_set_nodup (ks : List Text) (f : Text → α) (acc : GoMap α) (hn : ks.Nodup)
    (hd : ∀ k ∈ ks, k ∉ keys acc) :
    ks.foldl (fun m k => set m k (f k)) acc = acc ++ ks.map (fun k => (k, f k)) := by
  induction ks generalizing acc with
  | nil => simp
  | cons k ks ih =>
    rw [List.nodup_cons] at hn
    rw [List.foldl_cons, set_of_not_mem _ (hd k (by simp)), ih _ hn.2]
    · simp
    · intro k' hk'
      simp only [keys, List.map_append, List.map_cons, List.map_nil, List.mem_append, List.mem_singleton]
      rintro (h | h)
      · exact hd k' (by simp [hk']) h
      · subst h; exact hn.1 hk'

theorem get?_foldl_set (ks : List Text) (f : Text → α) (acc : GoMap α) (k : Text) :
    get? (ks.foldl (fun m k => set m k (f k)) acc) k = if k ∈ ks then some (f k) else get? acc k := by
  induction ks generalizing acc with
  | nil => simp
  | cons k0 ks ih =>
    rw [List.foldl_cons, ih, get?_set]
    by_cases h1 : k ∈ ks
    · simp [h1]
    · by_cases h2 : k0 = k
      · subst h2; simp [h1]
      · have h3 : ¬ k = k0 := fun e => h2 e.symm
        simp [h1, h2, h3]

theorem WF_foldl_set (ks : List Text) (f : Text → α) {acc : GoMap α} (h : WF acc) :
    WF (ks.foldl (fun m k => set m k (f k)) acc) := by
  induction ks generalizing acc with
  | nil => exact h
  | cons k ks ih => exact ih (h.set k _)

theorem WF.perm {m₁ m₂ : GoMap α} (h : WF m₁) (hp : m₁.Perm m₂) : WF m₂ :=
  (hp.map Prod.fst).nodup_iff.1 h

theorem get?_isSome_of_mem {m : GoMap α} {k : Text} {v : α} (h : (k, v) ∈ m) : (get? m k).isSome :=
  mem_keys_iff.1 (List.mem_map_of_mem (f := Prod.fst) h)

theorem set_get?_perm {m : GoMap α} (hw : WF m) {k : Text} {v : α} (h : get? m k = some v) : set m k v = m := by
  induction m with
  | nil => simp at h
  | cons e m ih =>
    obtain ⟨k', v'⟩ := e
    rw [get?_cons] at h
    simp only [set]
    split
    · rename_i hk; rw [if_pos hk] at h; cases h; subst hk; rfl
    · rename_i hk; rw [if_neg hk] at h; rw [ih hw.tail h]

end GoMap

namespace Text

theorem sortBy_map_val {α β : Type} (f : α → β) (l : List (Text × α)) :
    (sortBy Prod.fst l).map (fun e => (e.1, f e.2)) = sortBy Prod.fst (l.map (fun e => (e.1, f e.2))) := by
  induction l with
  | nil => rfl
  | cons x xs ih =>
    simp only [sortBy, List.map_cons, ← ih]
    generalize sortBy Prod.fst xs = m
    induction m with
    | nil => rfl
    | cons y ys ih2 =>
      simp only [insertSorted, List.map_cons]
      split
      · simp
      · simp [ih2]

theorem sortBy_strict {l : List Text} (hn : l.Nodup) :
    (sortBy id l).Pairwise (fun a b => lt a b = true) := by
  have h1 := sortBy_sorted id l
  have h2 : (sortBy id l).Nodup := (sortBy_perm id l).nodup_iff.2 hn
  refine List.Pairwise.imp₂ ?_ h1 h2
  intro a b hab hne
  rw [lt_iff]; exact ⟨hab, hne⟩

theorem mem_sortBy {α : Type} (key : α → Text) {l : List α} {x : α} : x ∈ sortBy key l ↔ x ∈ l :=
  (sortBy_perm key l).mem_iff

theorem length_sortBy {α : Type} (key : α → Text) (l : List α) : (sortBy key l).length = l.length :=
  (sortBy_perm key l).length_eq

end Text

namespace DictOps
open ListOps

@[simp] theorem sprint_str (s : Text) : sprint (.str s) = s := by simp [sprint]

theorem length_keysAsString (d : Dict) : (keysAsString d).length = d.length := by
  rw [keysAsString, Text.length_sortBy, GoMap.length_eq_keys]

theorem mem_keysAsString {d : Dict} {k : Text} : k ∈ keysAsString d ↔ (GoMap.get? d k).isSome := by
  rw [keysAsString, Text.mem_sortBy, GoMap.mem_keys_iff]

theorem keysAsString_nodup {d : Dict} (hw : GoMap.WF d) : (keysAsString d).Nodup :=
  (Text.sortBy_perm id _).nodup_iff.2 hw

theorem getKeys_eq (d : Dict) : getKeys d = (keysAsString d).map .str := by
  have h : d.length = ((keysAsString d).map Value.str).length := by rw [List.length_map, length_keysAsString]
  rw [getKeys, h, fill_create]

theorem getKeys_texts (d : Dict) : (getKeys d).map sprint = keysAsString d := by
  rw [getKeys_eq, List.map_map]
  have : (sprint ∘ Value.str) = id := by funext s; simp
  rw [this, List.map_id]

theorem getValues_eq (d : Dict) :
    getValues d = (keysAsString d).map (fun k => (GoMap.get? d k).getD .nil) := by
  have h : d.length = ((keysAsString d).map (fun k => get d [.str k])).length := by
    rw [List.length_map, length_keysAsString]
  rw [getValues, h, fill_create]
  apply List.map_congr_left
  intro k _
  simp [get, getOne]

theorem get_eq (d : Dict) (ks : List Value) : get d ks = readOf (GoMap.get? d) ks := by
  match ks with
  | [] => rfl
  | [k] => rfl
  | k1 :: k2 :: ks =>
    show Value.list _ = Value.list _
    congr 1
    have h : (k1 :: k2 :: ks).length = ((k1 :: k2 :: ks).map (getOne d)).length := by simp
    rw [h, fill_create]; rfl

theorem has_single (d : Dict) (k : Value) : has d [k] = GoMap.has d (sprint k) := by
  simp only [has, List.all_cons, List.all_nil, Bool.and_true]
  cases h : GoMap.has d (sprint k) with
  | false => rfl
  | true =>
    have : d ≠ [] := by rintro rfl; simp [GoMap.has] at h
    simp [List.length_pos_iff.2 this]

theorem keysAre (d : Dict) (hw : GoMap.WF d) : FMap.KeysAre (GoMap.get? d) (keysAsString d) :=
  ⟨Text.sortBy_strict hw, fun _ => mem_keysAsString⟩

theorem deleteLoop_false (d : Dict) (ks : List Value) :
    (deleteLoop false d ks).2 = none ∧
    (GoMap.WF d → GoMap.WF (deleteLoop false d ks).1) ∧
    GoMap.get? (deleteLoop false d ks).1 = FMap.remove (GoMap.get? d) (ks.map sprint) := by
  induction ks generalizing d with
  | nil => refine ⟨rfl, id, ?_⟩; funext k; simp [deleteLoop, FMap.remove]
  | cons k ks ih =>
    obtain ⟨h1, h2, h3⟩ := ih (GoMap.erase d (sprint k))
    simp only [deleteLoop, Bool.false_and, Bool.false_eq_true, if_false]
    refine ⟨h1, fun hw => h2 (hw.erase _), ?_⟩
    rw [h3]
    funext k'
    simp only [FMap.remove, List.map_cons, List.mem_cons, GoMap.get?_erase]
    by_cases e : k' = sprint k
    · simp [e]
    · have e' : ¬ sprint k = k' := fun h => e h.symm
      simp [e, e']

theorem WF_set {d : Dict} (hw : GoMap.WF d) (k v : Value) : GoMap.WF (set d k v) := GoMap.WF.set hw _ _

theorem get?_clone (d : Dict) (ks : List Value) (h : ks ≠ []) (k : Text) :
    GoMap.get? (clone d ks) k =
      if k ∈ ks.map sprint then some (cloneValue ((GoMap.get? d k).getD .nil)) else none := by
  have hl : ks.length ≠ 0 := by simpa using h
  unfold clone
  simp only [hl, if_false]
  have : ks.foldl (fun newDict k => set newDict k (cloneValue (getOne d k))) [] =
      (ks.map sprint).foldl (fun m k => GoMap.set m k (cloneValue ((GoMap.get? d k).getD .nil))) [] := by
    rw [List.foldl_map]; rfl
  rw [this, GoMap.get?_foldl_set]
  simp

theorem WF_clone (d : Dict) (ks : List Value) : GoMap.WF (clone d ks) := by
  unfold clone
  generalize (if ks.length = 0 then getKeys d else ks) = ks'
  have : ks'.foldl (fun newDict k => set newDict k (cloneValue (getOne d k))) [] =
      (ks'.map sprint).foldl (fun m k => GoMap.set m k (cloneValue ((GoMap.get? d k).getD .nil))) [] := by
    rw [List.foldl_map]; rfl
  simp only [this]
  exact GoMap.WF_foldl_set _ _ GoMap.WF_nil

theorem get?_clone_all (d : Dict) (k : Text) : GoMap.get? (clone d []) k = (GoMap.get? d k).map cloneValue := by
  unfold clone
  simp only [List.length_nil, if_true]
  have : (getKeys d).foldl (fun newDict k => set newDict k (cloneValue (getOne d k))) [] =
      ((getKeys d).map sprint).foldl (fun m k => GoMap.set m k (cloneValue ((GoMap.get? d k).getD .nil))) [] := by
    rw [List.foldl_map]; rfl
  rw [this, getKeys_texts, GoMap.get?_foldl_set]
  split
  · rename_i h
    rw [mem_keysAsString] at h
    obtain ⟨v, hv⟩ := Option.isSome_iff_exists.1 h
    simp [hv]
  · rename_i h
    rw [mem_keysAsString] at h
    simp at h
    simp [h]

theorem cloneEntries_eq_map (d : List (Text × Value)) : cloneEntries d = d.map (fun e => (e.1, cloneValue e.2)) := by
  induction d with
  | nil => simp [cloneEntries]
  | cons e d ih => obtain ⟨k, v⟩ := e; simp [cloneEntries, ih]

theorem cloneValue_dict (d : Dict) (hw : GoMap.WF d) :
    cloneValue (.dict d) = .dict (Text.sortBy Prod.fst (d.map (fun e => (e.1, cloneValue e.2)))) := by
  simp only [cloneValue]
  congr 1
  rw [cloneEntries_eq_map]
  generalize hc : d.map (fun e => (e.1, cloneValue e.2)) = c
  have hwc : GoMap.WF c := by
    rw [← hc]; unfold GoMap.WF GoMap.keys; rw [List.map_map]; exact hw
  rw [GoMap.foldl_set_nodup _ _ _ (keysAsString_nodup hwc) (by simp), List.nil_append]
  unfold keysAsString GoMap.keys
  rw [← Text.sortBy_map, List.map_map]
  conv => rhs; rw [← List.map_id (Text.sortBy Prod.fst c)]
  apply List.map_congr_left
  rintro ⟨k, v⟩ he
  have := GoMap.get?_of_mem hwc (((Text.sortBy_perm Prod.fst c).mem_iff).1 he)
  simp [this]

end DictOps

namespace Spec

theorem canonEntries_eq_map (d : List (Text × Value)) : canonEntries d = d.map (fun e => (e.1, canon e.2)) := by
  induction d with
  | nil => simp [canonEntries]
  | cons e d ih => obtain ⟨k, v⟩ := e; simp [canonEntries, ih]

theorem canonItems_eq_map (d : List Value) : canonItems d = d.map canon := by
  induction d with
  | nil => simp [canonItems]
  | cons e d ih => simp [canonItems, ih]

theorem WFEntries_iff (d : List (Text × Value)) : WFEntries d ↔ ∀ e ∈ d, WFValue e.2 := by
  induction d with
  | nil => simp [WFEntries]
  | cons e d ih => obtain ⟨k, v⟩ := e; simp [WFEntries, ih]

theorem WFItems_iff (d : List Value) : WFItems d ↔ ∀ e ∈ d, WFValue e := by
  induction d with
  | nil => simp [WFItems]
  | cons e d ih => simp [WFItems, ih]

theorem NoSingletonNestEntries_iff (d : List (Text × Value)) :
    NoSingletonNestEntries d ↔ ∀ e ∈ d, NoSingletonNest e.2 := by
  induction d with
  | nil => simp [NoSingletonNestEntries]
  | cons e d ih => obtain ⟨k, v⟩ := e; simp [NoSingletonNestEntries, ih]

theorem canon_dict (d : Dict) : canon (.dict d) = .dict (Text.sortBy Prod.fst (d.map (fun e => (e.1, canon e.2)))) := by
  simp [canon, canonEntries_eq_map]

theorem canon_list (l : List Value) : canon (.list l) = .list (l.map canon) := by
  simp [canon, canonItems_eq_map]

/-- Two dictionaries with the same entries, each with the same content, have the same content. -/
theorem canon_dict_perm {d₁ d₂ : Dict} (hw : GoMap.WF d₁) (hp : d₁.Perm d₂) :
    canon (.dict d₁) = canon (.dict d₂) := by
  rw [canon_dict, canon_dict]
  congr 1
  apply Text.sortBy_perm_invariant
  · exact hp.map _
  · rw [List.map_map]; exact hw

end Spec

/-- Structural induction on values through lists and dictionaries. -/
theorem Value.ind {P : Value → Prop}
    (nil : P .nil) (bool : ∀ b, P (.bool b)) (int : ∀ i, P (.int i)) (flt : ∀ r, P (.flt r)) (str : ∀ s, P (.str s))
    (list : ∀ l, (∀ v ∈ l, P v) → P (.list l))
    (dict : ∀ d : List (Text × Value), (∀ e ∈ d, P e.2) → P (.dict d)) : ∀ v, P v := by
  intro v
  refine Value.rec (motive_1 := P) (motive_2 := fun l => ∀ v ∈ l, P v) (motive_3 := fun d => ∀ e ∈ d, P e.2)
    (motive_4 := fun e => P e.2) nil bool int flt str list dict ?_ ?_ ?_ ?_ ?_ v
  · simp
  · intro h t hh ht v hv
    rcases List.mem_cons.1 hv with rfl | h'
    · exact hh
    · exact ht v h'
  · simp
  · intro h t hh ht v hv
    rcases List.mem_cons.1 hv with rfl | h'
    · exact hh
    · exact ht v h'
  · intro k v hv; exact hv

namespace Value

/-- Values with the same content print alike. -/
theorem sprint_canon (v : Value) : sprint (canon v) = sprint v := by
  induction v using Value.ind with
  | nil => rfl
  | bool b => rfl
  | int i => rfl
  | flt r => rfl
  | str s => rfl
  | list l ih =>
    rw [canon_list, sprint, sprint, sprintElems_eq_map, sprintElems_eq_map, List.map_map]
    congr 3
    apply List.map_congr_left
    intro v hv; exact ih v hv
  | dict d ih =>
    rw [canon_dict, sprint, sprint, sprintEntries_eq_map, sprintEntries_eq_map]
    congr 4
    rw [Text.sortBy_map_val, List.map_map]
    have hm : d.map ((fun e : Text × Value => (e.1, sprint e.2)) ∘ fun e => (e.1, canon e.2)) =
        d.map (fun e => (e.1, sprint e.2)) := by
      apply List.map_congr_left
      intro e he; simp [ih e he]
    rw [hm]
    -- sorting twice
    generalize d.map (fun e => (e.1, sprint e.2)) = l
    have key : ∀ l : List (Text × Text), l.Pairwise (fun a b => Text.le a.1 b.1 = true) → Text.sortBy Prod.fst l = l := by
      intro l hl
      induction l with
      | nil => rfl
      | cons x xs ih =>
        rw [List.pairwise_cons] at hl
        simp only [Text.sortBy, ih hl.2]
        cases xs with
        | nil => rfl
        | cons y ys => simp only [Text.insertSorted, hl.1 y (by simp), if_true]
    rw [key _ (Text.sortBy_sorted Prod.fst l)]

end Value

namespace DictOps
open ListOps

theorem clone_eq_self {l : List Value} (h : ∀ inner, l ≠ [.list inner]) : ListOps.clone l = l := by
  unfold ListOps.clone newList
  rw [foldl_append_eq, List.nil_append]
  split
  · rename_i l'; exact absurd rfl (h l')
  · rfl

/-- The copy of a value made by `Clone` has its content, when no list holding a single list is met. -/
theorem canon_cloneValue (v : Value) (hw : WFValue v) (hs : NoSingletonNest v) : canon (cloneValue v) = canon v := by
  induction v using Value.ind with
  | nil => rfl
  | bool b => rfl
  | int i => rfl
  | flt r => rfl
  | str s => rfl
  | list l ih => simp only [cloneValue]; rw [clone_eq_self hs]
  | dict d ih =>
    simp only [WFValue] at hw
    rw [WFEntries_iff] at hw
    simp only [NoSingletonNest] at hs
    rw [NoSingletonNestEntries_iff] at hs
    rw [cloneValue_dict d hw.1]
    have hwf : GoMap.WF (d.map (fun e => (e.1, cloneValue e.2))) := by
      unfold GoMap.WF GoMap.keys; rw [List.map_map]; exact hw.1
    rw [← canon_dict_perm hwf (Text.sortBy_perm Prod.fst _).symm, canon_dict, canon_dict, List.map_map]
    congr 2
    apply List.map_congr_left
    intro e he
    simp [ih e he (hw.2 e he) (hs e he)]

end DictOps
end Verif
