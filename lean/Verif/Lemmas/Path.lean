import Verif.Model.Path
/-!
# Lemmas about paths
-/

namespace Verif.Lemmas
open Text Path

/-- An element that can be in the list of elements of a path: not empty, not a dot and without slash. -/
def IsElem (e : Text) : Prop := e ≠ [] ∧ e ≠ ['.'] ∧ '/' ∉ e

/-- An element that is a name. -/
def IsName (e : Text) : Prop := IsElem e ∧ e ≠ ['.', '.']

instance (e : Text) : Decidable (IsElem e) := by unfold IsElem; exact inferInstance
instance (e : Text) : Decidable (IsName e) := by unfold IsName; exact inferInstance

theorem splitC_cut (sep : Char) (a b : Text) : splitC sep (a ++ sep :: b) = splitC sep a ++ splitC sep b := by
  induction a with
  | nil => simp [splitC]
  | cons c a ih =>
    by_cases hc : c = sep
    · subst hc; simp [splitC, ih]
    · simp only [List.cons_append, splitC, ih, hc, if_false]
      cases h : splitC sep a with
      | nil => exact absurd h (splitC_ne_nil sep a)
      | cons x l => simp

theorem elems_cut (a b : Text) : elems (a ++ '/' :: b) = elems a ++ elems b := by
  simp [elems, splitC_cut]

theorem elems_spec {p e : Text} (h : e ∈ elems p) : IsElem e := by
  simp only [elems, List.mem_filter, Bool.and_eq_true, decide_eq_true_eq] at h
  exact ⟨h.2.1, h.2.2, splitC_no_sep _ _ _ h.1⟩

theorem elems_single {e : Text} (h : IsElem e) : elems e = [e] := by
  simp [elems, splitC_of_not_mem h.2.2, h.1, h.2.1]

theorem elems_nil : elems [] = [] := by decide

theorem elems_join {l : List Text} (h : ∀ e ∈ l, IsElem e) : elems (join ['/'] l) = l := by
  induction l with
  | nil => exact elems_nil
  | cons e l ih =>
    have he := h e (by simp)
    have hl := ih (fun x hx => h x (by simp [hx]))
    cases l with
    | nil => exact elems_single he
    | cons x l =>
      rw [join_cons_cons, List.append_assoc, List.singleton_append, elems_cut, elems_single he, hl]
      rfl

theorem elems_slash (p : Text) : elems ('/' :: p) = elems p := by
  have := elems_cut [] p
  simpa [elems_nil] using this

theorem resolve_append (abs : Bool) (kept xs ys : List Text) :
    resolve abs kept (xs ++ ys) = resolve abs (resolve abs kept xs).reverse ys := by
  induction xs generalizing kept with
  | nil => simp [resolve]
  | cons x xs ih =>
    simp only [List.cons_append, resolve]
    split
    · cases kept with
      | nil => exact ih _
      | cons k ks => exact ih _
    · exact ih _

theorem resolve_names (abs : Bool) (kept xs : List Text) (h : ∀ e ∈ xs, e ≠ ['.', '.']) : resolve abs kept xs = kept.reverse ++ xs := by
  induction xs generalizing kept with
  | nil => simp [resolve]
  | cons x xs ih =>
    simp only [resolve, if_neg (h x (by simp))]
    rw [ih _ (fun e he => h e (by simp [he]))]
    simp

/-- The elements of an absolute path are names. -/
theorem resolve_isName (kept xs : List Text) (hk : ∀ e ∈ kept, IsName e) (hx : ∀ e ∈ xs, IsElem e) : ∀ e ∈ resolve true kept xs, IsName e := by
  induction xs generalizing kept with
  | nil => simpa [resolve] using hk
  | cons x xs ih =>
    have hx' : ∀ e ∈ xs, IsElem e := fun e he => hx e (by simp [he])
    simp only [resolve]
    split
    · cases kept with
      | nil => exact ih _ (by simp) hx'
      | cons k ks =>
        have hkn : k ≠ ['.', '.'] := (hk k (by simp)).2
        simp only [if_neg hkn]
        exact ih _ (fun e he => hk e (by simp [he])) hx'
    · rename_i hd
      refine ih _ ?_ hx'
      intro e he
      rcases List.mem_cons.1 he with rfl | he
      · exact ⟨hx e (by simp), hd⟩
      · exact hk e he

/-- The elements of the place of an absolute path. -/
def placeElems (p : Text) : List Text := resolve true [] (elems p)

theorem placeElems_isName (p : Text) : ∀ e ∈ placeElems p, IsName e := resolve_isName [] _ (by simp) (fun _ h => elems_spec h)

theorem isAbs_cons (p : Text) : isAbs ('/' :: p) = true := by simp [isAbs, hasPrefix, dropPrefix?]

theorem isAbs_append {p q : Text} (h : isAbs p = true) : isAbs (p ++ q) = true := by
  unfold isAbs at *
  rw [hasPrefix_iff] at *
  exact h.trans (List.prefix_append _ _)

theorem clean_abs {p : Text} (h : isAbs p = true) : clean p = '/' :: join ['/'] (placeElems p) := by
  simp [clean, h, write, placeElems]

/-- The path of a list of names. -/
theorem placeElems_write {l : List Text} (h : ∀ e ∈ l, IsName e) : placeElems ('/' :: join ['/'] l) = l := by
  unfold placeElems
  rw [elems_slash, elems_join (fun e he => (h e he).1), resolve_names _ _ _ (fun e he => (h e he).2)]
  rfl

theorem placeElems_clean {p : Text} (h : isAbs p = true) : placeElems (clean p) = placeElems p := by
  rw [clean_abs h, placeElems_write (placeElems_isName p)]

theorem isAbs_clean {p : Text} (h : isAbs p = true) : isAbs (clean p) = true := by rw [clean_abs h]; exact isAbs_cons _

theorem clean_clean {p : Text} (h : isAbs p = true) : clean (clean p) = clean p := by
  rw [clean_abs (isAbs_clean h), placeElems_clean h, ← clean_abs h]

theorem placeElems_cut (a b : Text) : placeElems (a ++ '/' :: b) = resolve true (placeElems a).reverse (elems b) := by
  unfold placeElems
  rw [elems_cut, resolve_append]

theorem dropCommon_spec (a b : List Text) : ∃ c, a = c ++ (dropCommon a b).1 ∧ b = c ++ (dropCommon a b).2 := by
  induction a generalizing b with
  | nil => exact ⟨[], by simp [dropCommon], by simp [dropCommon]⟩
  | cons x a ih =>
    cases b with
    | nil => exact ⟨[], by simp [dropCommon], by simp [dropCommon]⟩
    | cons y b =>
      simp only [dropCommon]
      split
      · rename_i h
        obtain ⟨c, h1, h2⟩ := ih b
        exact ⟨x :: c, by rw [List.cons_append, ← h1], by rw [List.cons_append, ← h2, h]⟩
      · exact ⟨[], rfl, rfl⟩

theorem dropCommon_self (a : List Text) : dropCommon a a = ([], []) := by
  induction a with
  | nil => rfl
  | cons x a ih => simp [dropCommon, ih]

theorem dropCommon_append (a b : List Text) : dropCommon a (a ++ b) = ([], b) := by
  induction a with
  | nil => cases b <;> rfl
  | cons x a ih => simp [dropCommon, ih]

/-- The elements of a relative path between two absolute ones. -/
theorem elems_rel (base target : Text) : elems (rel base target) =
    (dropCommon (placeElems base) (placeElems target)).1.map (fun _ => ['.', '.']) ++ (dropCommon (placeElems base) (placeElems target)).2 := by
  unfold rel
  simp only
  change elems (if placeElems base = placeElems target then ['.'] else join ['/'] (List.map _ (dropCommon (placeElems base) (placeElems target)).1 ++ _)) = _
  split
  · rename_i h
    rw [h, dropCommon_self]
    decide
  · apply elems_join
    intro e he
    rcases List.mem_append.1 he with he | he
    · obtain ⟨x, _, rfl⟩ := List.mem_map.1 he
      decide
    · obtain ⟨c, _, h2⟩ := dropCommon_spec (placeElems base) (placeElems target)
      exact (placeElems_isName target e (by rw [h2]; exact List.mem_append_right _ he)).1

theorem resolve_up (kept up rest : List Text) (hu : ∀ e ∈ up, e ≠ ['.', '.']) :
    resolve true (up ++ kept) (up.map (fun _ => ['.', '.']) ++ rest) = resolve true kept rest := by
  induction up with
  | nil => rfl
  | cons x up ih =>
    have hx : x ≠ ['.', '.'] := hu x (by simp)
    simp only [List.map_cons, List.cons_append, resolve, if_true, if_neg hx]
    exact ih (fun y hy => hu y (by simp [hy]))

theorem map_reverse_const (up : List Text) (c : Text) : up.map (fun _ => c) = up.reverse.map (fun _ => c) := by
  simp [List.map_const']

theorem joinPath_abs {a b : Text} (h : isAbs a = true) : joinPath a b = clean (a ++ '/' :: b) := by
  have ha : a ≠ [] := by rintro rfl; revert h; decide
  unfold joinPath
  rw [if_neg ha]
  split
  · rename_i hb
    subst hb
    rw [clean_abs h, clean_abs (isAbs_append h), placeElems_cut, elems_nil]
    simp [resolve]
  · rfl

/-- The target of a file, when the two folders are the same place: the place of the file. -/
theorem target_same {S D f : Text} (hS : isAbs S = true) (hD : isAbs D = true) (h : placeElems S = placeElems D) :
    getTargetFile f S D = place S f := by
  have hn : D ≠ [] := by rintro rfl; revert hD; decide
  unfold getTargetFile relative place
  rw [if_pos hn, joinPath_abs hD]
  split
  · rename_i hf
    rw [clean_abs (isAbs_append hD), clean_abs hf, placeElems_cut, elems_rel, ← h]
    obtain ⟨c, h1, h2⟩ := dropCommon_spec (placeElems S) (placeElems f)
    have hns := placeElems_isName S
    have hnf := placeElems_isName f
    generalize dropCommon (placeElems S) (placeElems f) = r at h1 h2
    rw [h1] at hns
    rw [h2] at hnf
    rw [h1, h2, List.reverse_append, map_reverse_const r.1, resolve_up _ _ _ (fun e he => (hns e (List.mem_append_right _ (List.mem_reverse.1 he))).2), resolve_names _ _ _ (fun e he => (hnf e (List.mem_append_right _ he)).2)]
    simp
  · rw [clean_abs (isAbs_append hD), clean_abs (isAbs_append hS), placeElems_cut, placeElems_cut, h]

/-- The target of a file below the source folder: the same path below the target folder. -/
theorem target_below {S D g : Text} (hS : isAbs S = true) (hD : isAbs D = true) (hg : ∀ e ∈ elems g, e ≠ ['.', '.']) :
    getTargetFile (S ++ '/' :: g) S D = clean (D ++ '/' :: g) := by
  have hn : D ≠ [] := by rintro rfl; revert hD; decide
  unfold getTargetFile relative
  rw [if_pos hn, joinPath_abs hD, if_pos (isAbs_append hS), clean_abs (isAbs_append hD), clean_abs (isAbs_append hD), placeElems_cut, placeElems_cut, elems_rel,
    placeElems_cut, resolve_names _ _ _ hg, List.reverse_reverse, dropCommon_append]
  rfl

/-- The place of a file: the elements of its folder and its name. -/
theorem placeElems_name {cwd d : Text} (hd : d = [] ∨ ∃ d', d = d' ++ ['/']) :
    ∃ folder, (∀ e ∈ folder, IsName e) ∧ ∀ m, IsName m → placeElems (cwd ++ '/' :: (d ++ m)) = folder ++ [m] := by
  rcases hd with rfl | ⟨d', rfl⟩
  · refine ⟨placeElems cwd, placeElems_isName cwd, fun m hm => ?_⟩
    rw [List.nil_append, placeElems_cut, elems_single hm.1, resolve_names _ _ _ (by simpa using hm.2)]
    simp
  · refine ⟨placeElems (cwd ++ '/' :: d'), placeElems_isName _, fun m hm => ?_⟩
    have e : cwd ++ '/' :: (d' ++ ['/'] ++ m) = (cwd ++ '/' :: d') ++ '/' :: m := by simp
    rw [e, placeElems_cut, elems_single hm.1, resolve_names _ _ _ (by simpa using hm.2)]
    simp

/-- Elements that are simplified first lead to the same place. -/
theorem resolve_resolve (from_ kept xs : List Text) : resolve true from_ (resolve false kept xs) = resolve true from_ (kept.reverse ++ xs) := by
  induction xs generalizing kept with
  | nil => simp [resolve]
  | cons e es ih =>
    simp only [resolve]
    split
    · rename_i he
      subst he
      cases kept with
      | nil => simpa using ih [['.', '.']]
      | cons k ks =>
        dsimp only
        split
        · rw [ih]; simp
        · rename_i hk
          rw [ih, List.reverse_cons, List.append_assoc, resolve_append, resolve_append true from_ ks.reverse]
          simp [resolve, hk]
    · rw [ih]; simp

theorem resolve_isElem (abs : Bool) (kept xs : List Text) (hk : ∀ e ∈ kept, IsElem e) (hx : ∀ e ∈ xs, IsElem e) : ∀ e ∈ resolve abs kept xs, IsElem e := by
  induction xs generalizing kept with
  | nil => simpa [resolve] using hk
  | cons x xs ih =>
    have hx' : ∀ e ∈ xs, IsElem e := fun e he => hx e (List.mem_cons_of_mem _ he)
    have h0 := hx x List.mem_cons_self
    simp only [resolve]
    split
    · cases kept with
      | nil =>
        refine ih _ ?_ hx'
        split
        · simp
        · simpa using h0
      | cons k ks =>
        refine ih _ ?_ hx'
        split
        · intro e he
          rcases List.mem_cons.1 he with rfl | he
          · exact h0
          · exact hk e he
        · exact fun e he => hk e (List.mem_cons_of_mem _ he)
    · refine ih _ (fun e he => ?_) hx'
      rcases List.mem_cons.1 he with rfl | he
      · exact h0
      · exact hk e he

theorem elems_clean_rel {p : Text} (h : isAbs p = false) : elems (clean p) = resolve false [] (elems p) := by
  have he := resolve_isElem false [] (elems p) (by simp) (fun _ h => elems_spec h)
  unfold clean write
  rw [h]
  simp only [Bool.false_eq_true, if_false]
  split
  · rename_i h'
    rw [h']; decide
  · exact elems_join he

theorem isAbs_join {l : List Text} (h : ∀ e ∈ l, IsElem e) : isAbs (join ['/'] l) = false := by
  cases l with
  | nil => decide
  | cons x xs =>
    obtain ⟨h1, _, h3⟩ := h x List.mem_cons_self
    cases x with
    | nil => exact absurd rfl h1
    | cons c cs =>
      have hc : '/' ≠ c := fun e => h3 (e ▸ List.mem_cons_self)
      cases xs <;> simp [join, isAbs, hasPrefix, dropPrefix?, hc]

theorem isAbs_clean_rel {p : Text} (h : isAbs p = false) : isAbs (clean p) = false := by
  unfold clean write
  rw [h]
  simp only [Bool.false_eq_true, if_false]
  split
  · decide
  · exact isAbs_join (resolve_isElem false [] (elems p) (by simp) (fun _ h => elems_spec h))

/-- A path that is simplified designates the same place. -/
theorem place_clean {cwd : Text} (hc : isAbs cwd = true) (p : Text) : place cwd (clean p) = place cwd p := by
  unfold place
  cases h : isAbs p with
  | true => rw [isAbs_clean h]; simp only [if_true]; exact clean_clean h
  | false =>
    rw [isAbs_clean_rel h]
    simp only [Bool.false_eq_true, if_false]
    rw [clean_abs (isAbs_append hc), clean_abs (isAbs_append hc), placeElems_cut, placeElems_cut, elems_clean_rel h, resolve_resolve]
    rfl

theorem place_cut_nil {cwd a : Text} (hc : isAbs cwd = true) (ha : a ≠ []) : place cwd (a ++ ['/']) = place cwd a := by
  have e : isAbs (a ++ ['/']) = isAbs a := by
    cases a with
    | nil => exact absurd rfl ha
    | cons c cs => rw [List.cons_append]; simp only [isAbs, hasPrefix, dropPrefix?]; split <;> rfl
  have hz : ∀ b : Text, elems (b ++ ['/']) = elems b := fun b => by rw [elems_cut b [], elems_nil, List.append_nil]
  unfold place
  rw [e]
  split
  · rename_i h
    rw [clean_abs h, clean_abs (isAbs_append h)]
    unfold placeElems
    rw [hz]
  · rw [clean_abs (isAbs_append hc), clean_abs (isAbs_append hc), placeElems_cut, placeElems_cut, hz]

theorem place_joinPath {cwd a : Text} (hc : isAbs cwd = true) (ha : a ≠ []) (b : Text) : place cwd (joinPath a b) = place cwd (a ++ '/' :: b) := by
  unfold joinPath
  rw [if_neg ha]
  split
  · rename_i hb
    subst hb
    rw [place_clean hc, place_cut_nil hc ha]
  · exact place_clean hc _

/-- What is below a folder depends on the place of the folder only. -/
theorem place_below {cwd a b b' : Text} (hc : isAbs cwd = true) (ha : a ≠ []) (h : elems b = elems b') : place cwd (a ++ '/' :: b) = place cwd (a ++ '/' :: b') := by
  have e : ∀ x : Text, isAbs (a ++ '/' :: x) = isAbs a := by
    intro x
    cases a with
    | nil => exact absurd rfl ha
    | cons c cs => rw [List.cons_append]; simp only [isAbs, hasPrefix, dropPrefix?]; split <;> rfl
  unfold place
  rw [e, e]
  split
  · rename_i h'
    rw [clean_abs (isAbs_append h'), clean_abs (isAbs_append h'), placeElems_cut, placeElems_cut, h]
  · rw [clean_abs (isAbs_append hc), clean_abs (isAbs_append hc), placeElems_cut, placeElems_cut, elems_cut, elems_cut, h]

/-- The target of a file below the source folder, for any target folder. -/
theorem target_any {cwd S D g : Text} (hc : isAbs cwd = true) (hS : isAbs S = true) (hD : D ≠ []) (hg : ∀ e ∈ elems g, e ≠ ['.', '.']) :
    place cwd (getTargetFile (S ++ '/' :: g) S D) = place cwd (D ++ '/' :: g) := by
  unfold getTargetFile relative
  rw [if_pos hD, if_pos (isAbs_append hS), place_joinPath hc hD]
  refine place_below hc hD ?_
  rw [elems_rel, placeElems_cut, resolve_names _ _ _ hg, List.reverse_reverse, dropCommon_append]
  rfl

end Verif.Lemmas
