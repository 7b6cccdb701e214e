import Verif.Base.Text
/-!
# Go maps with string keys

A `map[string]T` is an association list with distinct keys.  The order of the list stands for
Go's iteration order, which is unspecified; results must not depend on it.
-/

namespace Verif

/-- Go `map[string]α`. -/
abbrev GoMap (α : Type) := List (Text × α)

namespace GoMap
variable {α : Type}

/-- `m[k]` with the "ok" flag. -/
def get? (m : GoMap α) (k : Text) : Option α :=
  match m with
  | [] => none
  | (k', v) :: m => if k' = k then some v else get? m k

/-- The keys, in iteration order. -/
def keys (m : GoMap α) : List Text := m.map Prod.fst

/-- `_, ok := m[k]`. -/
def has (m : GoMap α) (k : Text) : Bool := (get? m k).isSome

/-- `m[k] = v`. -/
def set (m : GoMap α) (k : Text) (v : α) : GoMap α :=
  match m with
  | [] => [(k, v)]
  | (k', v') :: m => if k' = k then (k, v) :: m else (k', v') :: set m k v

/-- `delete(m, k)`. -/
def erase (m : GoMap α) (k : Text) : GoMap α :=
  match m with
  | [] => []
  | (k', v') :: m => if k' = k then erase m k else (k', v') :: erase m k

/-- Every key occurs once: what makes an association list a Go map. -/
def WF (m : GoMap α) : Prop := m.keys.Nodup

instance (m : GoMap α) : Decidable (WF m) := inferInstanceAs (Decidable (List.Nodup _))

@[simp] theorem get?_nil (k : Text) : get? ([] : GoMap α) k = none := rfl

theorem get?_cons (k' : Text) (v : α) (m : GoMap α) (k : Text) :
    get? ((k', v) :: m) k = if k' = k then some v else get? m k := rfl

theorem mem_keys_iff {m : GoMap α} {k : Text} : k ∈ m.keys ↔ (m.get? k).isSome := by
  induction m with
  | nil => simp [keys]
  | cons e m ih =>
    obtain ⟨k', v⟩ := e
    simp only [keys, List.map_cons, List.mem_cons, get?_cons] at *
    by_cases h : k' = k
    · simp [h]
    · simp only [h, if_false]
      rw [← ih]
      constructor
      · rintro (h' | h')
        · exact absurd h'.symm h
        · exact h'
      · exact Or.inr

theorem has_iff {m : GoMap α} {k : Text} : m.has k = true ↔ k ∈ m.keys := mem_keys_iff.symm

theorem get?_eq_none_iff {m : GoMap α} {k : Text} : m.get? k = none ↔ k ∉ m.keys := by
  rw [mem_keys_iff]; cases m.get? k <;> simp

theorem get?_set (m : GoMap α) (k k' : Text) (v : α) :
    (m.set k v).get? k' = if k = k' then some v else m.get? k' := by
  induction m with
  | nil => simp [set, get?]
  | cons e m ih =>
    obtain ⟨k0, v0⟩ := e
    simp only [set]
    split
    · rename_i h; subst h
      simp only [get?_cons]
      split <;> rfl
    · rename_i h
      simp only [get?_cons, ih]
      split
      · rename_i h0; subst h0
        rw [if_neg (fun e => h e.symm)]
      · rfl

theorem get?_erase (m : GoMap α) (k k' : Text) :
    (m.erase k).get? k' = if k = k' then none else m.get? k' := by
  induction m with
  | nil => simp [erase]
  | cons e m ih =>
    obtain ⟨k0, v0⟩ := e
    simp only [erase]
    split
    · rename_i h; subst h
      rw [ih]
      split
      · rfl
      · rename_i h; rw [get?_cons, if_neg h]
    · rename_i h
      simp only [get?_cons, ih]
      split
      · rename_i h0; subst h0; rw [if_neg (fun e => h e.symm)]
      · rfl

@[simp] theorem keys_nil : keys ([] : GoMap α) = [] := rfl
@[simp] theorem keys_cons (k : Text) (v : α) (m : GoMap α) : keys ((k, v) :: m) = k :: keys m := rfl

theorem keys_set (m : GoMap α) (k : Text) (v : α) :
    (m.set k v).keys = if k ∈ m.keys then m.keys else m.keys ++ [k] := by
  induction m with
  | nil => rfl
  | cons e m ih =>
    obtain ⟨k0, v0⟩ := e
    simp only [set]
    split
    · rename_i h; subst h; simp
    · rename_i h
      have h' : ¬ k = k0 := fun e => h e.symm
      rw [keys_cons, ih, keys_cons]
      by_cases hk : k ∈ keys m
      · rw [if_pos hk, if_pos (List.mem_cons_of_mem _ hk)]
      · rw [if_neg hk, if_neg (by simp [h', hk])]; rfl

theorem keys_erase (m : GoMap α) (k : Text) : (m.erase k).keys = m.keys.filter (fun x => !(x == k)) := by
  induction m with
  | nil => rfl
  | cons e m ih =>
    obtain ⟨k0, v0⟩ := e
    simp only [erase, keys, List.map_cons] at *
    split
    · rename_i h; subst h
      rw [ih, List.filter_cons_of_neg (by simp)]
    · rename_i h
      rw [List.filter_cons_of_pos (by simpa using h), List.map_cons, ih]

theorem WF_nil : WF ([] : GoMap α) := List.nodup_nil

theorem WF.tail {e : Text × α} {m : GoMap α} (h : WF (e :: m)) : WF m :=
  (List.nodup_cons.1 h).2

theorem WF.head {k : Text} {v : α} {m : GoMap α} (h : WF ((k, v) :: m)) : k ∉ m.keys :=
  (List.nodup_cons.1 h).1

theorem WF.set {m : GoMap α} (h : m.WF) (k : Text) (v : α) : (m.set k v).WF := by
  unfold WF at *
  rw [keys_set]
  split
  · exact h
  · rename_i hk
    rw [List.nodup_append]
    refine ⟨h, by simp, ?_⟩
    intro a ha b hb e
    simp at hb; subst hb; subst e; exact hk ha

theorem WF.erase {m : GoMap α} (h : m.WF) (k : Text) : (m.erase k).WF := by
  unfold WF at *; rw [keys_erase]; exact h.filter _

theorem mem_of_get? {m : GoMap α} {k : Text} {v : α} (h : m.get? k = some v) : (k, v) ∈ m := by
  induction m with
  | nil => simp at h
  | cons e m ih =>
    obtain ⟨k0, v0⟩ := e
    rw [get?_cons] at h
    split at h
    · rename_i hk; subst hk; cases h; simp
    · exact List.mem_cons_of_mem _ (ih h)

theorem get?_of_mem {m : GoMap α} (hw : m.WF) {k : Text} {v : α} (h : (k, v) ∈ m) :
    m.get? k = some v := by
  induction m with
  | nil => simp at h
  | cons e m ih =>
    obtain ⟨k0, v0⟩ := e
    rw [get?_cons]
    rcases List.mem_cons.1 h with h | h
    · cases h; simp
    · have : k ∈ keys m := List.mem_map_of_mem (f := Prod.fst) h
      rw [if_neg (fun e => WF.head hw (by rw [e]; exact this)), ih (WF.tail hw) h]

theorem mem_iff_get? {m : GoMap α} (hw : m.WF) {k : Text} {v : α} :
    (k, v) ∈ m ↔ m.get? k = some v := ⟨get?_of_mem hw, mem_of_get?⟩

/-- Reading a map does not depend on the iteration order. -/
theorem get?_perm {m₁ m₂ : GoMap α} (hp : m₁.Perm m₂) (hw : m₁.WF) (k : Text) :
    m₁.get? k = m₂.get? k := by
  have hw2 : m₂.WF := (hp.map Prod.fst).nodup_iff.1 hw
  cases h : m₂.get? k with
  | some v => exact get?_of_mem hw (hp.mem_iff.2 (mem_of_get? h))
  | none =>
    rw [get?_eq_none_iff] at *
    intro hk; exact h ((hp.map Prod.fst).mem_iff.1 hk)

/-- Two Go maps with the same lookups are permutations of each other. -/
theorem perm_of_get?_eq {m₁ m₂ : GoMap α} (h1 : m₁.WF) (h2 : m₂.WF)
    (h : ∀ k, m₁.get? k = m₂.get? k) : m₁.Perm m₂ := by
  have n1 : m₁.Nodup := List.Pairwise.of_map Prod.fst (fun a b h e => h (e ▸ rfl)) h1
  have n2 : m₂.Nodup := List.Pairwise.of_map Prod.fst (fun a b h e => h (e ▸ rfl)) h2
  rw [List.perm_ext_iff_of_nodup n1 n2]
  rintro ⟨k, v⟩
  rw [mem_iff_get? h1, mem_iff_get? h2, h]

/-- Number of entries: `len(m)`. -/
theorem length_eq_keys (m : GoMap α) : m.length = m.keys.length := by simp [keys]

end GoMap
end Verif
