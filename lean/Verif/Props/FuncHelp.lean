import Verif.Lemmas.FuncHelp

/-!
C75: the listing of the functions. Every function is listed exactly once, in order, whatever the order in which the table is visited;
the categories share the functions; the filters keep what they should; the columns show every name once.
-/

namespace Verif.Props
open Verif Verif.FuncHelp Verif.Spec Verif.Lemmas

/-- **C75**: `functions` gives the names of the table of the wanted kinds, each of them once, in order. -/
theorem C75_names (t : Table) (hw : t.WF) (original alias : Bool) :
    Increasing (functions t original alias) ∧
    ∀ n, n ∈ functions t original alias ↔
      (original = true ∧ ∃ d, t.get? n = some (.direct d)) ∨ (alias = true ∧ ∃ d, t.get? n = some (.alias d)) := by
  constructor
  · refine increasing_sort ?_
    have : ((t.filter fun e => (original && !e.2.isAlias) || (alias && e.2.isAlias)).map Prod.fst).Sublist (t.map Prod.fst) :=
      (List.filter_sublist).map _
    exact this.nodup hw
  · intro n
    rw [functions, mem_sort]
    simp only [List.mem_map, List.mem_filter, Prod.exists, exists_and_right, exists_eq_right]
    constructor
    · rintro ⟨e, hm, hk⟩
      have := GoMap.get?_of_mem hw hm
      cases e with
      | direct d =>
        simp only [Entry.isAlias, Bool.not_false, Bool.and_true, Bool.and_false, Bool.or_false] at hk
        exact .inl ⟨hk, d, this⟩
      | alias d =>
        simp only [Entry.isAlias, Bool.not_true, Bool.and_false, Bool.and_true, Bool.false_or] at hk
        exact .inr ⟨hk, d, this⟩
    · rintro (⟨h, d, hd⟩ | ⟨h, d, hd⟩)
      · exact ⟨_, GoMap.mem_of_get? hd, by simp [Entry.isAlias, h]⟩
      · exact ⟨_, GoMap.mem_of_get? hd, by simp [Entry.isAlias, h]⟩

/-- **C75**: the order in which Go visits the table does not matter. -/
theorem C75_order {t u : Table} (hw : t.WF) (hp : t.Perm u) (original alias : Bool) :
    functions t original alias = functions u original alias := by
  have hu : u.WF := ((hp.map Prod.fst).nodup_iff).1 hw
  refine increasing_ext (C75_names t hw _ _).1 (C75_names u hu _ _).1 fun n => ?_
  rw [(C75_names t hw _ _).2, (C75_names u hu _ _).2, GoMap.get?_perm hp hw]

/-! ### Categories -/

/-- **C75**: the categories have distinct names, in order; a name is in a category exactly when it is in the table with that group
(the group of an alias is that of its function); the functions of a category are in order, each once; no category is empty. -/
theorem C75_categories (t : Table) (hw : t.WF) :
    Increasing ((categories t).map Prod.fst) ∧
    (∀ k fs, (k, fs) ∈ categories t → fs ≠ [] ∧ Increasing fs ∧ ∀ n, n ∈ fs ↔ ∃ e, t.get? n = some e ∧ e.real.group = k) ∧
    (∀ n e, t.get? n = some e → ∃ fs, (e.real.group, fs) ∈ categories t ∧ n ∈ fs) := by
  have hk : (categories t).map Prod.fst = Text.sortBy id (collect (groupOf t) (t.map Prod.fst) []).keys := by
    simp [categories, List.map_map, Function.comp_def]
  have hfs : ∀ k, ((collect (groupOf t) (t.map Prod.fst) []).get? k).getD [] = (t.map Prod.fst).filter fun n => groupOf t n == k := by
    intro k; rw [collect_get]; simp
  have hmem : ∀ k n, n ∈ Text.sortBy id (((collect (groupOf t) (t.map Prod.fst) []).get? k).getD []) ↔
      ∃ e, t.get? n = some e ∧ e.real.group = k := by
    intro k n
    rw [mem_sort, hfs, List.mem_filter]
    constructor
    · rintro ⟨h1, h2⟩
      have h1' : n ∈ t.keys := h1
      rw [GoMap.mem_keys_iff, Option.isSome_iff_exists] at h1'
      obtain ⟨e, he⟩ := h1'
      refine ⟨e, he, ?_⟩
      simpa [groupOf, he] using h2
    · rintro ⟨e, he, h⟩
      refine ⟨?_, by simp [groupOf, he, h]⟩
      show n ∈ t.keys
      rw [GoMap.mem_keys_iff, he]; rfl
  refine ⟨?_, ?_, ?_⟩
  · rw [hk]
    exact increasing_sort (collect_wf _ _ _ GoMap.WF_nil)
  · intro k fs h
    simp only [categories, List.mem_map, Prod.mk.injEq] at h
    obtain ⟨k', hk', rfl, rfl⟩ := h
    refine ⟨?_, ?_, hmem _⟩
    · rw [mem_sort, collect_keys] at hk'
      rcases hk' with hk' | ⟨n, hn, hg⟩
      · cases hk'
      · have : n ∈ Text.sortBy id (((collect (groupOf t) (t.map Prod.fst) []).get? k').getD []) := by
          rw [mem_sort, hfs, List.mem_filter]
          exact ⟨hn, by simp [hg]⟩
        exact List.ne_nil_of_mem this
    · rw [hfs]
      exact increasing_sort (List.filter_sublist.nodup hw)
  · intro n e he
    refine ⟨_, ?_, (hmem _ n).2 ⟨e, he, rfl⟩⟩
    simp only [categories, List.mem_map, Prod.mk.injEq]
    refine ⟨e.real.group, ?_, rfl, rfl⟩
    rw [mem_sort, collect_keys]
    refine .inr ⟨n, ?_, by simp [groupOf, he]⟩
    show n ∈ t.keys
    rw [GoMap.mem_keys_iff, he]; rfl

/-- **C75**: the categories do not depend on the order in which Go visits the table. -/
theorem C75_categories_order {t u : Table} (hw : t.WF) (hp : t.Perm u) : categories t = categories u := by
  have hu : u.WF := ((hp.map Prod.fst).nodup_iff).1 hw
  have gg : groupOf t = groupOf u := by
    funext n; unfold groupOf; rw [GoMap.get?_perm hp hw]
  have hkeys : Text.sortBy id (collect (groupOf t) (t.map Prod.fst) []).keys = Text.sortBy id (collect (groupOf u) (u.map Prod.fst) []).keys := by
    refine increasing_ext (increasing_sort (collect_wf _ _ _ GoMap.WF_nil)) (increasing_sort (collect_wf _ _ _ GoMap.WF_nil)) fun k => ?_
    rw [mem_sort, mem_sort, collect_keys, collect_keys, gg]
    simp only [(hp.map Prod.fst).mem_iff]
  unfold categories
  simp only [hkeys]
  refine List.map_congr_left fun k _ => ?_
  have : Text.sortBy id (((collect (groupOf t) (t.map Prod.fst) []).get? k).getD []) = Text.sortBy id (((collect (groupOf u) (u.map Prod.fst) []).get? k).getD []) := by
    rw [collect_get, collect_get, gg]
    simp only [GoMap.get?_nil, Option.getD_none, List.nil_append]
    refine Text.sortBy_perm_invariant id ((hp.map Prod.fst).filter _) ?_
    rw [List.map_id]
    exact List.filter_sublist.nodup hw
  rw [this]

/-! ### Filters -/

theorem mem_filterFunctions (lower : Char → Char) (t : Table) (hw : t.WF) (all category detailed : Bool) (filters : List Text) (n : Text) :
    n ∈ filterFunctions lower t all category detailed filters ↔ kept lower t all category detailed filters n = true := by
  have hall : n ∈ functions t true true ↔ ∃ e, t.get? n = some e := by
    rw [(C75_names t hw true true).2]
    constructor
    · rintro (⟨_, d, h⟩ | ⟨_, d, h⟩) <;> exact ⟨_, h⟩
    · rintro ⟨e, h⟩
      cases e with
      | direct d => exact .inl ⟨rfl, d, h⟩
      | alias d => exact .inr ⟨rfl, d, h⟩
  have hk : kept lower t all category detailed filters n = true → n ∈ functions t true true := by
    intro h
    rw [hall]
    unfold kept at h
    cases hg : t.get? n with
    | none => rw [hg] at h; simp at h
    | some e => exact ⟨e, rfl⟩
  unfold filterFunctions
  by_cases h : (all && filters.isEmpty) = true
  · rw [if_pos h]
    refine ⟨fun hm => ?_, hk⟩
    rw [hall] at hm
    obtain ⟨e, he⟩ := hm
    simp only [Bool.and_eq_true] at h
    simp [kept, he, h.1, h.2]
  · rw [if_neg h, List.mem_filter]
    exact ⟨fun x => x.2, fun x => ⟨hk x, x⟩⟩

/-- **C75**: the names that the listing shows are in order, each once. Without a filter: the functions of the table, and the aliases when
all are wanted. With filters: at least those of them in which one of the filters is found, whatever the case. -/
theorem C75_filter (lower : Char → Char) (t : Table) (hw : t.WF) (all category detailed : Bool) (filters : List Text) :
    Increasing (filterFunctions lower t all category detailed filters) ∧
    (∀ n ∈ filterFunctions lower t all category detailed filters, ∃ e, t.get? n = some e ∧ (e.isAlias = true → all = true)) ∧
    (∀ n e, t.get? n = some e → (e.isAlias = true → all = true) →
      (filters = [] ∨ ∃ f ∈ filters, Finds lower category detailed f n e.real) →
      n ∈ filterFunctions lower t all category detailed filters) := by
  refine ⟨?_, ?_, ?_⟩
  · unfold filterFunctions
    split
    · exact (C75_names t hw _ _).1
    · exact (C75_names t hw _ _).1.sublist List.filter_sublist
  · intro n hn
    rw [mem_filterFunctions _ _ hw] at hn
    unfold kept at hn
    cases hg : t.get? n with
    | none => rw [hg] at hn; simp at hn
    | some e =>
      refine ⟨e, rfl, fun ha => ?_⟩
      rw [hg] at hn
      simp only [ha, Bool.true_and] at hn
      cases all with
      | true => rfl
      | false => simp at hn
  · intro n e he ha hf
    rw [mem_filterFunctions _ _ hw]
    unfold kept
    rw [he]
    simp only
    have h1 : ¬ (e.isAlias && !all) = true := by
      cases h : e.isAlias with
      | false => simp
      | true => simp [ha h]
    rw [if_neg h1]
    rcases hf with rfl | ⟨f, hm, hf⟩
    · rfl
    · have h2 : ¬ filters.isEmpty = true := by
        intro h
        rw [List.isEmpty_iff] at h
        rw [h] at hm; cases hm
      rw [if_neg h2, List.any_eq_true]
      exact ⟨f, hm, Text.contains_iff.2 (search_of_finds hf)⟩

/-- **C75**: with filters that have no blank, exactly those. -/
theorem C75_filter_exact_partial (lower : Char → Char) (hl : lower ' ' = ' ') (t : Table) (hw : t.WF) (all category detailed : Bool)
    (filters : List Text) (hn : filters ≠ []) (hb : ∀ f ∈ filters, ' ' ∉ f.map lower) (n : Text) :
    n ∈ filterFunctions lower t all category detailed filters ↔
      ∃ e, t.get? n = some e ∧ (e.isAlias = true → all = true) ∧ ∃ f ∈ filters, Finds lower category detailed f n e.real := by
  constructor
  · intro h
    obtain ⟨e, he, ha⟩ := (C75_filter lower t hw all category detailed filters).2.1 n h
    refine ⟨e, he, ha, ?_⟩
    rw [mem_filterFunctions _ _ hw] at h
    unfold kept at h
    rw [he] at h
    simp only at h
    split at h
    · cases h
    · have h2 : ¬ filters.isEmpty = true := by rw [List.isEmpty_iff]; exact hn
      rw [if_neg h2, List.any_eq_true] at h
      obtain ⟨f, hm, hc⟩ := h
      exact ⟨f, hm, finds_of_search hl (hb f hm) (Text.contains_iff.1 hc)⟩
  · rintro ⟨e, he, ha, hf⟩
    exact (C75_filter lower t hw all category detailed filters).2.2 n e he ha (.inr hf)

/-- **C75**, not for every filter: one with a blank can be found over two names, so that a function is shown although the filter is in none of its texts. -/
theorem C75_not_within : ∃ (t : Table) (f n : Text) (d : Doc), t.WF ∧ t.get? n = some (.direct d) ∧
    n ∈ filterFunctions id t false false false [f] ∧ ¬ Finds id false false f n d := by
  refine ⟨[(T "join", .direct ⟨T "join", [], [], [T "to"]⟩)], T "n t", T "join", ⟨T "join", [], [], [T "to"]⟩, ?_, rfl, ?_, ?_⟩
  · unfold GoMap.WF; decide
  · decide +kernel
  · rintro ⟨w, hw, hi⟩
    simp only [Bool.false_eq_true, false_and, or_false, List.mem_singleton, List.map_id] at hw hi
    rcases hw with rfl | rfl
    · have := Text.contains_iff.2 hi
      revert this; decide +kernel
    · have := Text.contains_iff.2 hi
      revert this; decide +kernel

/-! ### Layout -/

/-- **C75**: the short list prints each name once, on lines of at most five names; no line is empty; read down the columns, from left to right, the
names are in the order of the list. -/
theorem C75_columns (l : List Text) :
    (shortRows l).flatten.Perm l ∧
    (∀ row ∈ shortRows l, row ≠ [] ∧ row.length ≤ 5) ∧
    ((List.range 5).flatMap fun j => (shortRows l).filterMap fun row => row[j]?) = l := by
  refine ⟨?_, ?_, ?_⟩
  · unfold shortRows
    rw [← List.flatMap_def]
    refine (swap_loops _ _ _).trans ?_
    simp only [slice_filterMap]
    rw [five_slices l _ (colLength_enough l)]
  · intro row h
    simp only [shortRows, List.mem_map, List.mem_range] at h
    obtain ⟨r, hr, rfl⟩ := h
    constructor
    · intro h
      have := row_cell l r 0 (by decide)
      rw [h, Nat.zero_mul, Nat.zero_add] at this
      have h2 := List.getElem?_eq_none_iff.1 this.symm
      unfold colLength at hr
      omega
    · exact Nat.le_trans (List.length_filterMap_le _ _) (by simp)
  · have : ∀ j ∈ List.range 5, ((shortRows l).filterMap fun row => row[j]?) = (l.drop (j * colLength l)).take (colLength l) := by
      intro j hj
      rw [← slice_filterMap]
      unfold shortRows
      rw [List.filterMap_map]
      congr 1
      funext r
      exact row_cell l r j (List.mem_range.1 hj)
    rw [List.flatMap_def, List.map_congr_left this, ← List.flatMap_def]
    exact five_slices l _ (colLength_enough l)

/-- **C75**: the sections of the listing share the names that the filters keep: each is in one section, that of its category when the list is
made by category, and the section keeps them in order. -/
theorem C75_sections (lower : Char → Char) (t : Table) (hw : t.WF) (all detailed byCategory : Bool) (filters : List Text) :
    Increasing ((sections lower t all detailed byCategory filters).map Prod.fst) ∧
    (∀ k ns, (k, ns) ∈ sections lower t all detailed byCategory filters →
      Increasing ns ∧ ns ≠ [] ∧
      ∀ n, n ∈ ns ↔ n ∈ filterFunctions lower t all byCategory detailed filters ∧
        (byCategory = true → ∃ e, t.get? n = some e ∧ e.real.group = k)) ∧
    (∀ n ∈ filterFunctions lower t all byCategory detailed filters, ∃ k ns, (k, ns) ∈ sections lower t all detailed byCategory filters ∧ n ∈ ns) := by
  have F := C75_filter lower t hw all byCategory detailed filters
  generalize hl : filterFunctions lower t all byCategory detailed filters = l at F ⊢
  have hs : sections lower t all detailed byCategory filters =
      (Text.sortBy id (collect (fun n => if byCategory then groupOf t n else []) l []).keys).map fun k =>
        (k, l.filter fun n => (if byCategory then groupOf t n else []) == k) := by
    simp only [sections, hl]
    refine List.map_congr_left fun k _ => ?_
    rw [collect_get]
    simp
  refine ⟨?_, ?_, ?_⟩
  · rw [hs, List.map_map]
    simp only [Function.comp_def, List.map_id']
    exact increasing_sort (collect_wf _ _ _ GoMap.WF_nil)
  · intro k ns h
    rw [hs, List.mem_map] at h
    obtain ⟨k', hk', he⟩ := h
    cases he
    rw [mem_sort, collect_keys] at hk'
    obtain hk' | ⟨n, hn, hg⟩ := hk'
    · cases hk'
    refine ⟨F.1.sublist List.filter_sublist, ?_, ?_⟩
    · exact List.ne_nil_of_mem (a := n) (List.mem_filter.2 ⟨hn, by simpa using hg⟩)
    · intro m
      rw [List.mem_filter]
      refine and_congr_right fun hm => ?_
      obtain ⟨e, he, _⟩ := F.2.1 m hm
      cases byCategory with
      | true => simp [groupOf, he]
      | false =>
        simp only [Bool.false_eq_true, if_false] at hg
        subst hg
        simp
  · intro n hn
    refine ⟨(if byCategory then groupOf t n else []), l.filter fun m => (if byCategory then groupOf t m else []) == (if byCategory then groupOf t n else []), ?_, ?_⟩
    · rw [hs, List.mem_map]
      exact ⟨_, mem_sort.2 ((collect_keys _ _ _ _).2 (.inr ⟨n, hn, rfl⟩)), rfl⟩
    · exact List.mem_filter.2 ⟨hn, by simp⟩

/-- **C75**: the detailed list describes each function once, in order: those of the names and those the aliases stand for. -/
theorem C75_detailed (t : Table) (l : List Text) :
    Increasing (detailedNames t l) ∧ ∀ m, m ∈ detailedNames t l ↔ ∃ n ∈ l, Described t n m := by
  refine ⟨increasing_sort (realNames_wf _ _ _ GoMap.WF_nil), fun m => ?_⟩
  rw [detailedNames, mem_sort, realNames_keys]
  simp

/-- A table with a function, its alias and another function, to which the theorems apply. -/
def helpExample : Table :=
  [ (T "sum", .alias ⟨T "add", T "Math", T "Adds", [T "sum"]⟩)
  , (T "len", .direct ⟨T "len", T "Text", T "Counts", []⟩)
  , (T "add", .direct ⟨T "add", T "Math", T "Adds", [T "sum"]⟩) ]

example : helpExample.WF := by unfold GoMap.WF; decide
example : functions helpExample true true = [T "add", T "len", T "sum"] := by decide +kernel
example : functions helpExample true false = [T "add", T "len"] := by decide +kernel
example : categories helpExample = [(T "Math", [T "add", T "sum"]), (T "Text", [T "len"])] := by decide +kernel
example : filterFunctions Char.toLower helpExample false false false [T "SU"] = [T "add"] := by decide +kernel
example : filterFunctions Char.toLower helpExample true false true [T "count"] = [T "len"] := by decide +kernel
example : detailedNames helpExample [T "sum", T "len"] = [T "add", T "len"] := by decide +kernel
example : shortRows [T "a", T "b", T "c", T "d", T "e", T "f", T "g"] = [[T "a", T "c", T "e", T "g"], [T "b", T "d", T "f"]] := by
  decide +kernel
example : Char.toLower ' ' = ' ' := by decide

end Verif.Props
