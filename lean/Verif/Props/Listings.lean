import Verif.Spec.ListingsSpec
import Verif.Lemmas.Path
/-!
# C103: lines with their numbers, C104: the list of templates
-/

namespace Verif.Props
open Verif Verif.Text Verif.Spec Verif.Listings

private theorem numberLines_length (space i : Nat) (ls : List Text) : (numberLines space i ls).length = ls.length := by
  induction ls generalizing i with
  | nil => rfl
  | cons l ls ih => simp [numberLines, ih]

private theorem numberLines_get (space i k : Nat) (ls : List Text) :
    (numberLines space i ls)[k]? = (ls[k]?).map fun l => padNumber space (i + k + 1) ++ ' ' :: l := by
  induction ls generalizing i k with
  | nil => simp [numberLines]
  | cons l ls ih =>
    cases k with
    | zero => simp [numberLines]
    | succ k =>
      simp only [numberLines, List.getElem?_cons_succ, ih]
      rw [show i + 1 + k + 1 = i + (k + 1) + 1 by omega]

private theorem digits_plain (n : Nat) : '\n' ∉ Nat.toDigits 10 n := by
  intro h
  have := Nat.isDigit_of_mem_toDigits (by decide) (by decide) h
  exact absurd this (by decide)

private theorem numberLines_plain (space i : Nat) (ls : List Text) (h : ∀ l ∈ ls, '\n' ∉ l) : ∀ l ∈ numberLines space i ls, '\n' ∉ l := by
  induction ls generalizing i with
  | nil => simp [numberLines]
  | cons l ls ih =>
    intro x hx
    rcases List.mem_cons.1 hx with rfl | hx
    · have := h l List.mem_cons_self
      have := digits_plain (i + 1)
      simp [padNumber, List.mem_replicate, *]
    · exact ih _ (fun l hl => h l (List.mem_cons_of_mem _ hl)) x hx

private theorem splitLines_ne (s : Text) : Strings.splitLines s ≠ [] := splitC_ne_nil _ _

private theorem lines_numbered (log : Nat → Nat) (s : Text) (space : Int) :
    splitC '\n' (addLineNumber log s space) =
      numberLines (if space ≤ 0 then log (Strings.splitLines s).length + 1 else space.toNat) 0 (Strings.splitLines s) := by
  unfold addLineNumber
  refine splitC_join ?_ (numberLines_plain _ _ _ fun l h => splitC_no_sep _ _ _ h)
  intro h
  have := numberLines_length (if space ≤ 0 then log (Strings.splitLines s).length + 1 else space.toNat) 0 (Strings.splitLines s)
  rw [h] at this
  exact splitLines_ne s (List.length_eq_zero_iff.1 this.symm)

private theorem padNumber_spec {space n : Nat} (l : Text) : ∃ w, NumberedLine w n l (padNumber space n ++ ' ' :: l) ∧ w = max space (Nat.toDigits 10 n).length :=
  ⟨_, ⟨space - (Nat.toDigits 10 n).length, rfl, rfl⟩, by omega⟩

/-- C103. Every line is there, in order, after its number and one space; nothing else is written. -/
theorem C103_lines (log : Nat → Nat) (s : Text) (space : Int) :
    (splitC '\n' (addLineNumber log s space)).length = (Strings.splitLines s).length ∧
    ∀ (i : Nat) (l : Text), (Strings.splitLines s)[i]? = some l → ∃ w out, (splitC '\n' (addLineNumber log s space))[i]? = some out ∧ NumberedLine w (i + 1) l out := by
  rw [lines_numbered]
  refine ⟨numberLines_length _ _ _, fun i l h => ?_⟩
  rw [numberLines_get, h, Nat.zero_add]
  obtain ⟨w, h', _⟩ := padNumber_spec (space := if space ≤ 0 then log (Strings.splitLines s).length + 1 else space.toNat) (n := i + 1) l
  exact ⟨w, _, rfl, h'⟩

private theorem aligned_of {w : Nat} (ls : List Text) (h : 0 < w) (hl : ls.length < 10 ^ w) (i : Nat) (l : Text) (hi : ls[i]? = some l) :
    ∃ out, (numberLines w 0 ls)[i]? = some out ∧ NumberedLine w (i + 1) l out := by
  rw [numberLines_get, hi, Nat.zero_add]
  obtain ⟨w', h', e⟩ := padNumber_spec (space := w) (n := i + 1) l
  have hlt : i < ls.length := (List.getElem?_eq_some_iff.1 hi).1
  have := (Nat.length_toDigits_le_iff (b := 10) (n := i + 1) (by decide) h).2 (by omega)
  rw [show w' = w by omega] at h'
  exact ⟨_, rfl, h'⟩

/-- C103. The numbers are aligned in the column that is asked for, as long as the number of lines fits in it. -/
theorem C103_aligned (log : Nat → Nat) (s : Text) (w : Nat) (hw : 0 < w) (h : (Strings.splitLines s).length < 10 ^ w) (i : Nat) (l : Text)
    (hi : (Strings.splitLines s)[i]? = some l) : ∃ out, (splitC '\n' (addLineNumber log s w))[i]? = some out ∧ NumberedLine w (i + 1) l out := by
  rw [lines_numbered, if_neg (by omega), Int.toNat_natCast]
  exact aligned_of _ hw h i l hi

/-- C103. Without a width, the column is as wide as the number of the last line, provided that the decimal logarithm of the number of lines is right.
Missing: the library computes it in floating point (`C103_not_aligned`). -/
theorem C103_automatic_partial (log : Nat → Nat) (s : Text) (space : Int) (hs : space ≤ 0)
    (h : 10 ^ log (Strings.splitLines s).length ≤ (Strings.splitLines s).length ∧ (Strings.splitLines s).length < 10 ^ (log (Strings.splitLines s).length + 1))
    (i : Nat) (l : Text) (hi : (Strings.splitLines s)[i]? = some l) :
    ∃ out, (splitC '\n' (addLineNumber log s space))[i]? = some out ∧
      NumberedLine (Nat.toDigits 10 (Strings.splitLines s).length).length (i + 1) l out := by
  have e : (Nat.toDigits 10 (Strings.splitLines s).length).length = log (Strings.splitLines s).length + 1 := by
    have h1 := (Nat.length_toDigits_le_iff (b := 10) (n := (Strings.splitLines s).length) (k := log (Strings.splitLines s).length + 1) (by decide) (by omega)).2 h.2
    by_cases h0 : log (Strings.splitLines s).length = 0
    · have := Nat.length_toDigits_pos (b := 10) (n := (Strings.splitLines s).length)
      omega
    · have h2 := mt (Nat.length_toDigits_le_iff (b := 10) (n := (Strings.splitLines s).length) (k := log (Strings.splitLines s).length) (by decide) (by omega)).1 (by omega)
      omega
  rw [lines_numbered, if_pos hs, e]
  exact aligned_of _ (by omega) h.2 i l hi

/-- C103. `math.Log10(1000)` is below 3 (2.9999999999999996): with a thousand lines, the text of the last one begins one column after the others. -/
theorem C103_not_aligned (log : Nat → Nat) (hlog : log 1000 = 2) (s : Text) (h : (Strings.splitLines s).length = 1000) (first last : Text)
    (h1 : (Strings.splitLines s)[0]? = some first) (h2 : (Strings.splitLines s)[999]? = some last) :
    (splitC '\n' (addLineNumber log s 0))[0]? = some (T "  1 " ++ first) ∧ (splitC '\n' (addLineNumber log s 0))[999]? = some (T "1000 " ++ last) := by
  rw [lines_numbered, if_pos (by omega), h, hlog, numberLines_get, numberLines_get, h1, h2]
  have e1 : padNumber (2 + 1) (0 + 0 + 1) = T "  1" := by decide +kernel
  have e2 : padNumber (2 + 1) (0 + 999 + 1) = T "1000" := by decide +kernel
  rw [Option.map_some, Option.map_some, e1, e2]
  exact ⟨rfl, rfl⟩

example : addLineNumber (fun _ => 0) (T "a\n\nb\n") 0 = T "1 a\n2 \n3 b" := by decide +kernel

example : ∃ s, (Strings.splitLines s).length = 1000 ∧ (Strings.splitLines s)[0]? = some [] ∧ (Strings.splitLines s)[999]? = some (T "a") := by
  have e : Strings.splitLines (List.replicate 999 '\n' ++ T "a") = List.replicate 999 [] ++ [T "a"] := by
    have h1 : trimSuffix ['\n'] (List.replicate 999 '\n' ++ T "a") = List.replicate 999 '\n' ++ T "a" := by decide +kernel
    unfold Strings.splitLines
    rw [h1]
    have : ∀ n, splitC '\n' (List.replicate n '\n' ++ T "a") = List.replicate n [] ++ [T "a"] := by
      intro n
      induction n with
      | zero => decide
      | succ n ih => rw [List.replicate_succ, List.cons_append, splitC, if_pos rfl, ih]; rfl
    exact this 999
  exact ⟨_, by rw [e]; decide +kernel, by rw [e]; decide +kernel, by rw [e]; decide +kernel⟩

/-! ## C104 -/

private theorem lookup_some {ts : List Tpl} (hn : (ts.map (·.name)).Nodup) {t : Tpl} (ht : t ∈ ts) : lookup ts t.name = some t := by
  unfold lookup
  induction ts with
  | nil => simp at ht
  | cons x xs ih =>
    rw [List.map_cons, List.nodup_cons] at hn
    rcases List.mem_cons.1 ht with rfl | ht
    · simp
    · have : x.name ≠ t.name := fun e => hn.1 (e ▸ List.mem_map_of_mem ht)
      rw [List.find?_cons, show decide (x.name = t.name) = false by simpa using this]
      exact ih hn.2 ht

private theorem lookup_mem {ts : List Tpl} {n : Text} {t : Tpl} (h : lookup ts n = some t) : t ∈ ts ∧ t.name = n :=
  ⟨List.mem_of_find?_eq_some h, by simpa using List.find?_some h⟩

private theorem width_ge (ts : List Tpl) (ns : List Text) (m : Nat) : m ≤ width ts ns m := by
  induction ns generalizing m with
  | nil => exact Nat.le_refl _
  | cons n ns ih =>
    rw [width]
    split
    · refine Nat.le_trans ?_ (ih _)
      split
      · rename_i h; simp at h; omega
      · exact Nat.le_refl _
    · exact ih m

private theorem width_covers (ts : List Tpl) (ns : List Text) (m : Nat) (t : Tpl) (hl : lookup ts t.name = some t) (ho : OwnName t) (h : t.name ∈ ns) :
    byteLen t.name ≤ width ts ns m := by
  induction ns generalizing m with
  | nil => simp at h
  | cons n ns ih =>
    rw [width]
    rcases List.mem_cons.1 h with h | h
    · subst h
      rw [hl]
      refine Nat.le_trans ?_ (width_ge ts ns _)
      split
      · exact Nat.le_refl _
      · rename_i h'
        have : t.name ≠ t.parseName := ho
        simp [this] at h'
        exact h'
    · split
      · exact ih _ h
      · exact ih _ h

private theorem width_least (ts : List Tpl) (ns : List Text) (m : Nat) : width ts ns m = m ∨ ∃ t ∈ ts, OwnName t ∧ width ts ns m = byteLen t.name := by
  induction ns generalizing m with
  | nil => exact .inl rfl
  | cons n ns ih =>
    rw [width]
    split
    · rename_i t ht
      obtain ⟨hm, hn⟩ := lookup_mem ht
      split
      · rename_i h
        simp at h
        rcases ih (byteLen n) with h' | h'
        · refine .inr ⟨t, hm, ?_, by rw [h', hn]⟩
          unfold OwnName; rw [hn]; exact h.2
        · exact .inr h'
      · exact ih m
    · exact ih m

private theorem length_le_byteLen (s : Text) : s.length ≤ byteLen s := by
  induction s with
  | nil => simp [byteLen]
  | cons c s ih => simp only [byteLen, List.length_cons]; have := Char.utf8Size_pos c; omega

/-- The width of the column of names: that of the longest name of its own. -/
private theorem row_spec (faint : Text → Text) (folder : Text) (ts : List Tpl) (hn : (ts.map (·.name)).Nodup) (all : Bool) {t : Tpl} (ht : t ∈ ts) {r : Text}
    (h : row faint folder (width ts (templateNames ts) 0) all t = some r) : TemplateRow faint folder (width ts (templateNames ts) 0) t r := by
  unfold row at h
  dsimp only at h
  by_cases h0 : (all || decide (t.name ≠ t.parseName)) = true
  · rw [if_pos h0] at h
    by_cases h1 : Path.relative folder t.parseName ++ (if t.name = t.parseName then [] else t.name) ≠ ['.']
    · rw [if_pos h1] at h
      rw [← Option.some.inj h]
      refine ⟨_, if t.name = t.parseName then [] else t.name, ?_, ?_, rfl, ?_⟩
      · intro ho; exact if_neg ho
      · intro ho; exact if_pos (Decidable.of_not_not ho)
      · split
        · simp
        · rename_i ho
          have h1 := width_covers ts (templateNames ts) 0 t (lookup_some hn ht) ho
            ((sortBy_perm id _).mem_iff.2 (List.mem_map_of_mem ht))
          have h2 := length_le_byteLen t.name
          omega
    · rw [if_neg h1] at h; cases h
  · rw [if_neg h0] at h; cases h

private theorem relative_ne {folder p : Text} (h : p ≠ []) : Path.relative folder p ≠ [] := by
  unfold Path.relative
  split
  · intro e
    have he := Lemmas.elems_rel folder p
    unfold Path.rel at e
    dsimp only at e
    split at e
    · cases e
    · rename_i hne
      obtain ⟨c, h1, h2⟩ := Lemmas.dropCommon_spec (Lemmas.placeElems folder) (Lemmas.placeElems p)
      have hr : Path.rel folder p = [] := by
        unfold Path.rel; dsimp only; rw [if_neg hne]; exact e
      rw [hr, Lemmas.elems_nil] at he
      have he := he.symm
      rw [List.append_eq_nil_iff, List.map_eq_nil_iff] at he
      rw [he.1, List.append_nil] at h1
      rw [he.2, List.append_nil] at h2
      exact hne (h1.trans h2.symm)
  · exact h

private theorem row_some (faint : Text → Text) (folder : Text) (w : Nat) (all : Bool) (t : Tpl) :
    (row faint folder w all t).isSome = true ↔
      (all = true ∨ OwnName t) ∧ Path.relative folder t.parseName ++ (if t.name = t.parseName then [] else t.name) ≠ ['.'] := by
  unfold row OwnName
  by_cases h : t.name = t.parseName <;> cases all <;> simp [h]

private theorem sortBy_names (ts : List Tpl) : templateNames ts = (sortBy (·.name) ts).map (·.name) := by
  have hi : ∀ (x : Tpl) (l : List Tpl), insertSorted id x.name (l.map (·.name)) = (insertSorted (·.name) x l).map (·.name) := by
    intro x l
    induction l with
    | nil => rfl
    | cons y ys ih =>
      simp only [List.map_cons, insertSorted, id]
      split
      · rfl
      · rw [List.map_cons, ih]
  unfold templateNames
  induction ts with
  | nil => rfl
  | cons x xs ih => rw [List.map_cons, sortBy, ih, hi]; rfl

private theorem filterMap_same {α β : Type} {f g : α → Option β} {l : List α} (h : ∀ x ∈ l, f x = g x) : l.filterMap f = l.filterMap g := by
  induction l with
  | nil => rfl
  | cons x xs ih => rw [List.filterMap_cons, List.filterMap_cons, h x List.mem_cons_self, ih fun y hy => h y (List.mem_cons_of_mem _ hy)]

private theorem filterMap_isSome {α β : Type} (f : α → Option β) (l : List α) : (l.filter fun x => (f x).isSome).map f = (l.filterMap f).map some := by
  induction l with
  | nil => rfl
  | cons x xs ih =>
    rw [List.filter_cons, List.filterMap_cons]
    cases h : f x with
    | none => simpa using ih
    | some y => simp [h, ih]

/-- C104. The rows are those of the templates to list, in the order of their names: without `all` those with a name of their own in a file, with `all` those
of whole files as well; the second column begins at the same place on every row, just after the longest name of its own (in bytes). Only a row that would be
a single dot is left out, which is that of the folder itself. -/
theorem C104_rows (faint : Text → Text) (folder : Text) (ts : List Tpl) (hn : (ts.map (·.name)).Nodup) (all : Bool) :
    ∃ (l : List Tpl) (w : Nat), (∀ t ∈ ts, OwnName t → byteLen t.name ≤ w) ∧ (w = 0 ∨ ∃ t ∈ ts, OwnName t ∧ w = byteLen t.name) ∧
      (l.map (·.name)).Nodup ∧ l.Pairwise (fun a b => le a.name b.name = true) ∧
      (∀ t, t ∈ l ↔ t ∈ ts ∧ (all = true ∨ OwnName t) ∧ Path.relative folder t.parseName ++ (if t.name = t.parseName then [] else t.name) ≠ T ".") ∧
      (printTemplates faint folder ts all).length = l.length ∧
      ∀ (i : Nat) (t : Tpl), l[i]? = some t → ∃ r, (printTemplates faint folder ts all)[i]? = some r ∧ TemplateRow faint folder w t r := by
  let w := width ts (templateNames ts) 0
  let f := row faint folder w all
  let l := (sortBy (·.name) ts).filter fun t => (f t).isSome
  have hm : ∀ t, t ∈ sortBy (·.name) ts ↔ t ∈ ts := fun t => (sortBy_perm _ ts).mem_iff
  have hp : printTemplates faint folder ts all = (sortBy (·.name) ts).filterMap f := by
    unfold printTemplates
    dsimp only
    rw [sortBy_names, List.filterMap_map, ← sortBy_names]
    refine filterMap_same fun t ht => ?_
    simp only [Function.comp, lookup_some hn ((hm t).1 ht), Option.bind_some]
    rfl
  have hl : l.map f = (printTemplates faint folder ts all).map some := by rw [hp]; exact filterMap_isSome f _
  refine ⟨l, w, fun t ht ho => ?_, width_least _ _ _, ?_, (sortBy_sorted _ ts).filter _, fun t => ?_, ?_, fun i t hi => ?_⟩
  · exact width_covers ts _ 0 t (lookup_some hn ht) ho ((sortBy_perm id _).mem_iff.2 (List.mem_map_of_mem ht))
  · exact (((sortBy_perm _ ts).map _).nodup_iff.2 hn).sublist ((List.filter_sublist).map _)
  · rw [List.mem_filter, hm, row_some]
    rfl
  · simpa using (congrArg List.length hl).symm
  · have h1 : (l.map f)[i]? = some (f t) := by rw [List.getElem?_map, hi]; rfl
    have ht := List.mem_of_getElem? hi
    rw [List.mem_filter, hm] at ht
    rw [hl, List.getElem?_map] at h1
    cases h2 : (printTemplates faint folder ts all)[i]? with
    | none => rw [h2] at h1; cases h1
    | some r =>
      rw [h2] at h1
      exact ⟨r, rfl, row_spec faint folder ts hn all ht.1 (Option.some.inj h1).symm⟩

/-- C104. A template defined under a name is always listed. -/
theorem C104_defined (faint : Text → Text) (folder : Text) (ts : List Tpl) (hn : (ts.map (·.name)).Nodup) (all : Bool) (t : Tpl) (ht : t ∈ ts) (ho : OwnName t)
    (h1 : t.name ≠ []) (h2 : t.parseName ≠ []) : ∃ w, ∃ r ∈ printTemplates faint folder ts all, TemplateRow faint folder w t r := by
  obtain ⟨l, w, _, _, _, _, hm, _, hr⟩ := C104_rows faint folder ts hn all
  have hl : t ∈ l := by
    refine (hm t).2 ⟨ht, .inr ho, fun e => ?_⟩
    rw [if_neg (show t.name ≠ t.parseName from ho)] at e
    have e1 := congrArg List.length e
    have e2 := List.length_pos_iff.2 (relative_ne (folder := folder) h2)
    have e3 := List.length_pos_iff.2 h1
    rw [List.length_append, show (T ".").length = 1 from rfl] at e1
    omega
  obtain ⟨i, hi⟩ := List.getElem?_of_mem hl
  obtain ⟨r, h, hr⟩ := hr i t hi
  exact ⟨w, r, List.mem_of_getElem? h, hr⟩

/-- C104. The order in which the engine gives its templates does not count. -/
theorem C104_stable (faint : Text → Text) (folder : Text) (ts ts' : List Tpl) (hp : ts.Perm ts') (hn : (ts.map (·.name)).Nodup) (all : Bool) :
    printTemplates faint folder ts all = printTemplates faint folder ts' all := by
  have hn' : (ts'.map (·.name)).Nodup := (hp.map _).nodup_iff.1 hn
  have hl : ∀ n, lookup ts n = lookup ts' n := by
    intro n
    cases h : lookup ts n with
    | some t =>
      obtain ⟨h1, h2⟩ := lookup_mem h
      rw [← h2, lookup_some hn' (hp.mem_iff.1 h1)]
    | none =>
      cases h' : lookup ts' n with
      | none => rfl
      | some t =>
        obtain ⟨h1, h2⟩ := lookup_mem h'
        rw [← h2, lookup_some hn (hp.mem_iff.2 h1)] at h
        cases h
  have hnames : templateNames ts = templateNames ts' := sortBy_perm_invariant id (hp.map _) (by simpa using hn)
  have hw : ∀ ns m, width ts ns m = width ts' ns m := by
    intro ns
    induction ns with
    | nil => intro m; rfl
    | cons n ns ih => intro m; rw [width, width, hl]; split <;> exact ih _
  unfold printTemplates
  simp only [hnames, hw, hl]

private def sampleTpls : List Tpl := [⟨T "/w/b.gt", T "/w/b.gt"⟩, ⟨T "title", T "/w/lib/a.gt"⟩, ⟨T "row", T "/w/b.gt"⟩, ⟨T "/w", T "/w"⟩]

example : printTemplates id (T "/w") sampleTpls false = [T "row   b.gt", T "title lib/a.gt"] := by decide +kernel
example : printTemplates id (T "/w") sampleTpls true = [T "      b.gt", T "row   b.gt", T "title lib/a.gt"] := by decide +kernel
example : (sampleTpls.map (·.name)).Nodup := by decide +kernel
example : OwnName ⟨T "title", T "/w/lib/a.gt"⟩ := by unfold OwnName; decide +kernel

end Verif.Props
