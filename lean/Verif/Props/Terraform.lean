import Verif.Model.Terraform
import Verif.Lemmas.Content2
/-!
# C95: formatting the Terraform files
-/

namespace Verif.Props
open Verif Terraform Text

/-- C95. The files that are formatted are those that end with one of the three extensions. -/
theorem C95_extension (file : Text) : isTerraformFile file = true ↔ ∃ name, file = name ++ T ".tf" ∨ file = name ++ T ".tf.json" ∨ file = name ++ T ".tfvars" := by
  simp only [isTerraformFile, List.any_cons, List.any_nil, Bool.or_false, Bool.or_eq_true, hasSuffix_iff]
  constructor
  · rintro (⟨t, h⟩ | ⟨t, h⟩ | ⟨t, h⟩)
    · exact ⟨t, Or.inl h.symm⟩
    · exact ⟨t, Or.inr (Or.inl h.symm)⟩
    · exact ⟨t, Or.inr (Or.inr h.symm)⟩
  · rintro ⟨t, h | h | h⟩
    · exact Or.inl ⟨t, h.symm⟩
    · exact Or.inr (Or.inl ⟨t, h.symm⟩)
    · exact Or.inr (Or.inr ⟨t, h.symm⟩)

/-- C95. The folders are those of the Terraform files, once each. -/
theorem C95_folders (files : List Text) : (folders files).Nodup ∧ ∀ folder, folder ∈ folders files ↔ ∃ file ∈ files, isTerraformFile file = true ∧ Extensions.dir file = folder := by
  induction files with
  | nil => simp [folders]
  | cons file files ih =>
    rw [folders]
    by_cases h : isTerraformFile file = true
    · rw [if_pos h]
      refine ⟨List.nodup_cons.2 ⟨by simp, ih.1.filter _⟩, fun folder => ?_⟩
      rw [List.mem_cons, List.mem_filter, ih.2]
      constructor
      · rintro (rfl | ⟨⟨x, hx, h2⟩, _⟩)
        · exact ⟨file, by simp, h, rfl⟩
        · exact ⟨x, List.mem_cons_of_mem _ hx, h2⟩
      · rintro ⟨x, hx, h2, rfl⟩
        by_cases hd : Extensions.dir x = Extensions.dir file
        · exact Or.inl hd
        · rcases List.mem_cons.1 hx with rfl | hx
          · exact absurd rfl hd
          · exact Or.inr ⟨⟨x, hx, h2, rfl⟩, by simpa using hd⟩
    · rw [if_neg h]
      refine ⟨ih.1, fun folder => ?_⟩
      rw [ih.2]
      constructor
      · rintro ⟨x, hx, h2⟩
        exact ⟨x, List.mem_cons_of_mem _ hx, h2⟩
      · rintro ⟨x, hx, h2, h3⟩
        rcases List.mem_cons.1 hx with rfl | hx
        · exact absurd h2 h
        · exact ⟨x, hx, h2, h3⟩

/-- C95. Without the program nothing is done. -/
theorem C95_absent (run : List Text → Text → Option Text) (order : List Text) : terraformFormat ⟨false, run⟩ order = ⟨[], some []⟩ := rfl

/-- The executions that format the folders one after the other: two in a folder, one if it fails. -/
inductive Formats (w : World) : List Text → List Text → List (Text × Text) → List Text → Prop
  | done (runs : List Text) : Formats w [] runs [] runs
  | ok (folder : Text) (rest runs after : List Text) (errs : List (Text × Text)) : w.run runs folder = none → w.run (runs ++ [folder]) folder = none →
      Formats w rest (runs ++ [folder, folder]) errs after → Formats w (folder :: rest) runs errs after
  | failed (folder output : Text) (rest runs after : List Text) (errs : List (Text × Text)) : w.run runs folder = some output →
      Formats w rest (runs ++ [folder]) errs after → Formats w (folder :: rest) runs ((folder, trimSpace output) :: errs) after

theorem formats_iff (w : World) (order : List Text) : ∀ (runs : List Text) (old errs : List (Text × Text)) (after : List Text),
    formatFolders w order runs old = ⟨after, some (old ++ errs)⟩ ↔ Formats w order runs errs after := by
  induction order with
  | nil =>
    intro runs old errs after
    simp only [formatFolders, Res.mk.injEq, Option.some.injEq]
    constructor
    · rintro ⟨rfl, h⟩
      have : errs = [] := by simpa using h
      subst this
      exact .done _
    · intro h
      cases h
      simp
  | cons folder rest ih =>
    intro runs old errs after
    rw [formatFolders]
    cases h1 : w.run runs folder with
    | some output =>
      simp only
      constructor
      · intro h
        have hpre : ∃ e2, errs = (folder, trimSpace output) :: e2 := by
          have hgrow : ∀ (l runs : List Text) (old : List (Text × Text)) (a : List Text) (e : List (Text × Text)),
              formatFolders w l runs old = ⟨a, some e⟩ → ∃ e2, e = old ++ e2 := by
            intro l
            induction l with
            | nil => intro runs old a e h; cases h; exact ⟨[], by simp⟩
            | cons f l ihl =>
              intro runs old a e h
              rw [formatFolders] at h
              split at h
              · obtain ⟨e2, rfl⟩ := ihl _ _ _ _ h
                exact ⟨_, by rw [List.append_assoc]⟩
              · split at h
                · cases h
                · exact ihl _ _ _ _ h
          obtain ⟨e2, h2⟩ := hgrow _ _ _ _ _ h
          rw [List.append_assoc] at h2
          exact ⟨e2, List.append_cancel_left h2⟩
        obtain ⟨e2, rfl⟩ := hpre
        exact .failed _ _ _ _ _ _ h1 ((ih _ _ _ _).1 (by rw [h, List.append_assoc]; rfl))
      · intro h
        cases h with
        | ok _ _ _ _ _ h2 => rw [h1] at h2; cases h2
        | failed _ out _ _ _ e h2 h3 =>
          rw [h1] at h2
          cases h2
          have := (ih _ (old ++ [(folder, trimSpace output)]) _ _).2 h3
          rwa [List.append_assoc] at this
    | none =>
      simp only
      cases h2 : w.run (runs ++ [folder]) folder with
      | some out =>
        simp only
        constructor
        · intro h; cases h
        · intro h
          cases h with
          | ok _ _ _ _ _ _ h4 => rw [h2] at h4; cases h4
          | failed _ _ _ _ _ _ h4 => rw [h1] at h4; cases h4
      | none =>
        simp only
        rw [ih]
        constructor
        · exact fun h => .ok _ _ _ _ _ h1 h2 h
        · intro h
          cases h with
          | ok _ _ _ _ _ _ _ h5 => exact h5
          | failed _ _ _ _ _ _ h4 => rw [h1] at h4; cases h4

theorem formats_of {run : List Text → Text → Option Text} {order runs : List Text} {errs : List (Text × Text)}
    (h : terraformFormat ⟨true, run⟩ order = ⟨runs, some errs⟩) : Formats ⟨true, run⟩ order [] errs runs :=
  (formats_iff ⟨true, run⟩ order [] [] errs runs).1 h

/-- An execution in the folder failed with this output, among those of the list. -/
def FailedIn (run : List Text → Text → Option Text) (runs : List Text) (folder output : Text) : Prop :=
  ∃ before after, runs = before ++ folder :: after ∧ run before folder = some output

theorem formats_grow {w : World} {order runs after : List Text} {errs : List (Text × Text)} (h : Formats w order runs errs after) :
    ∃ more, after = runs ++ more ∧ (∀ folder ∈ more, folder ∈ order) ∧ (∀ folder ∈ order, folder ∈ more) ∧
      (order.Nodup → ∀ folder ∈ order, more.count folder = if folder ∈ errs.map Prod.fst then 1 else 2) ∧ (∀ e ∈ errs, e.1 ∈ order) := by
  induction h with
  | done runs => exact ⟨[], by simp⟩
  | ok folder rest runs after errs h1 h2 h3 ih =>
    obtain ⟨more, rfl, ha, hb, hc, hd⟩ := ih
    refine ⟨folder :: folder :: more, by simp, ?_, ?_, ?_, fun e he => List.mem_cons_of_mem _ (hd e he)⟩
    · intro f hf
      simp only [List.mem_cons] at hf ⊢
      rcases hf with rfl | rfl | hf
      · exact Or.inl rfl
      · exact Or.inl rfl
      · exact Or.inr (ha f hf)
    · intro f hf
      rcases List.mem_cons.1 hf with rfl | hf
      · simp
      · simp [hb f hf]
    · intro hn f hf
      rw [List.nodup_cons] at hn
      rcases List.mem_cons.1 hf with rfl | hf
      · have hz : more.count f = 0 := List.count_eq_zero.2 (fun hm => hn.1 (ha f hm))
        have hne : f ∉ errs.map Prod.fst := by
          intro hm
          obtain ⟨e, he, rfl⟩ := List.mem_map.1 hm
          exact hn.1 (hd e he)
        rw [if_neg hne, List.count_cons_self, List.count_cons_self, hz]
      · have hne : folder ≠ f := fun h => hn.1 (h ▸ hf)
        rw [List.count_cons_of_ne hne, List.count_cons_of_ne hne]
        exact hc hn.2 f hf
  | failed folder output rest runs after errs h1 h3 ih =>
    obtain ⟨more, rfl, ha, hb, hc, hd⟩ := ih
    refine ⟨folder :: more, by simp, ?_, ?_, ?_, ?_⟩
    · intro f hf
      rcases List.mem_cons.1 hf with rfl | hf
      · simp
      · exact List.mem_cons_of_mem _ (ha f hf)
    · intro f hf
      rcases List.mem_cons.1 hf with rfl | hf
      · simp
      · simp [hb f hf]
    · intro hn f hf
      rw [List.nodup_cons] at hn
      rcases List.mem_cons.1 hf with rfl | hf
      · have hz : more.count f = 0 := List.count_eq_zero.2 (fun hm => hn.1 (ha f hm))
        rw [if_pos (by simp), List.count_cons_self, hz]
      · have hne : folder ≠ f := fun h => hn.1 (h ▸ hf)
        have hiff : f ∈ List.map Prod.fst ((folder, trimSpace output) :: errs) ↔ f ∈ errs.map Prod.fst := by
          rw [List.map_cons, List.mem_cons]
          exact ⟨fun h => h.resolve_left (Ne.symm hne), Or.inr⟩
        rw [List.count_cons_of_ne hne, hc hn.2 f hf]
        by_cases hm : f ∈ errs.map Prod.fst
        · rw [if_pos hm, if_pos (hiff.2 hm)]
        · rw [if_neg hm, if_neg (fun h => hm (hiff.1 h))]
    · intro e he
      rcases List.mem_cons.1 he with rfl | he
      · simp
      · exact List.mem_cons_of_mem _ (hd e he)

theorem formats_failures {w : World} {order runs after : List Text} {errs : List (Text × Text)} (h : Formats w order runs errs after) :
    ∀ folder output, (∃ before more, after = before ++ folder :: more ∧ runs.length ≤ before.length ∧ w.run before folder = some output ∧ (folder, trimSpace output) ∈ errs) ∨
      ∀ before more, after = before ++ folder :: more → runs.length ≤ before.length → w.run before folder ≠ some output := by
  induction h with
  | done runs =>
    intro folder output
    refine Or.inr (fun before more he hl => ?_)
    have := congrArg List.length he
    simp at this
    omega
  | ok folder rest runs after errs h1 h2 h3 ih =>
    intro f out
    obtain ⟨more0, rfl, _⟩ := formats_grow h3
    rcases ih f out with ⟨before, more, he, hl, hr, hm⟩ | hno
    · exact Or.inl ⟨before, more, he, by simp at hl; omega, hr, hm⟩
    · refine Or.inr (fun before more he hl hr => ?_)
      by_cases hge : (runs ++ [folder, folder]).length ≤ before.length
      · exact hno before more he hge hr
      · obtain ⟨x, rfl⟩ : ∃ x, before = runs ++ x := by
          have := List.append_eq_append_iff.1 (show runs ++ ([folder, folder] ++ more0) = before ++ f :: more by rw [← List.append_assoc]; exact he)
          rcases this with ⟨x, hx, _⟩ | ⟨x, hx, _⟩
          · exact ⟨x, hx⟩
          · have hlen := congrArg List.length hx
            have : x = [] := List.length_eq_zero_iff.1 (by simp at hlen; omega)
            exact ⟨[], by rw [hx, this]; simp⟩
        rw [List.append_assoc, List.append_assoc] at he
        have he := List.append_cancel_left he
        simp only [List.length_append, List.length_cons, List.length_nil] at hge
        match x, he, hge, hr with
        | [], he, _, hr =>
          cases he
          rw [List.append_nil, h1] at hr
          cases hr
        | [y], he, _, hr =>
          cases he
          rw [h2] at hr
          cases hr
        | y :: z :: t, _, hge, _ =>
          simp only [List.length_cons] at hge
          omega
  | failed folder output rest runs after errs h1 h3 ih =>
    intro f out
    obtain ⟨more0, rfl, _⟩ := formats_grow h3
    rcases ih f out with ⟨before, more, he, hl, hr, hm⟩ | hno
    · exact Or.inl ⟨before, more, he, by simp at hl; omega, hr, List.mem_cons_of_mem _ hm⟩
    · by_cases hf : folder = f ∧ output = out
      · obtain ⟨rfl, rfl⟩ := hf
        exact Or.inl ⟨runs, more0, by simp, Nat.le_refl _, h1, by simp⟩
      · refine Or.inr (fun before more he hl hr => ?_)
        by_cases hge : (runs ++ [folder]).length ≤ before.length
        · exact hno before more he hge hr
        · have hle : before.length = runs.length := by
            simp only [List.length_append, List.length_cons, List.length_nil] at hge
            omega
          rw [List.append_assoc] at he
          obtain ⟨hb, he2⟩ := List.append_inj he hle.symm
          subst hb
          cases he2
          rw [h1] at hr
          cases hr
          exact hf ⟨rfl, rfl⟩

theorem formats_errors {w : World} {order runs after : List Text} {errs : List (Text × Text)} (h : Formats w order runs errs after) :
    ∀ e ∈ errs, ∃ before more output, after = before ++ e.1 :: more ∧ w.run before e.1 = some output ∧ e.2 = trimSpace output := by
  induction h with
  | done runs => simp
  | ok folder rest runs after errs h1 h2 h3 ih => exact ih
  | failed folder output rest runs after errs h1 h3 ih =>
    intro e he
    rcases List.mem_cons.1 he with rfl | he
    · obtain ⟨more0, rfl, _⟩ := formats_grow h3
      exact ⟨runs, more0, output, by simp, h1, rfl⟩
    · exact ih e he

/-- C95. The program is executed in the folders and nowhere else: twice in each of them, once in those that have an error. Missing: a second
execution in a folder that fails, see `C95_not_all`. -/
theorem C95_runs_partial (run : List Text → Text → Option Text) (order runs : List Text) (errs : List (Text × Text)) (hn : order.Nodup)
    (h : terraformFormat ⟨true, run⟩ order = ⟨runs, some errs⟩) (folder : Text) :
    runs.count folder = if folder ∈ order then (if folder ∈ errs.map Prod.fst then 1 else 2) else 0 := by
  obtain ⟨more, rfl, ha, hb, hc, hd⟩ := formats_grow (formats_of h)
  by_cases hf : folder ∈ order
  · rw [if_pos hf]
    exact hc hn folder hf
  · rw [if_neg hf]
    exact List.count_eq_zero.2 (fun hm => hf (ha folder hm))

/-- C95. The errors are those of the executions that failed, with what they wrote. -/
theorem C95_errors_partial (run : List Text → Text → Option Text) (order runs : List Text) (errs : List (Text × Text))
    (h : terraformFormat ⟨true, run⟩ order = ⟨runs, some errs⟩) (folder text : Text) :
    (folder, text) ∈ errs ↔ ∃ output, FailedIn run runs folder output ∧ text = trimSpace output := by
  have hf := formats_of h
  constructor
  · intro hm
    obtain ⟨before, more, output, he, hr, ht⟩ := formats_errors hf _ hm
    exact ⟨output, ⟨before, more, he, hr⟩, ht⟩
  · rintro ⟨output, ⟨before, more, he, hr⟩, rfl⟩
    rcases formats_failures hf folder output with ⟨_, _, _, _, _, hm⟩ | hno
    · exact hm
    · exact absurd hr (hno before more he (Nat.zero_le _))

/-- C95. The call ends with a panic only if an execution fails just after one that succeeded in the same folder. -/
theorem C95_panic (run : List Text → Text → Option Text) (order runs : List Text) (h : terraformFormat ⟨true, run⟩ order = ⟨runs, none⟩) :
    ∃ before folder output, folder ∈ order ∧ runs = before ++ [folder, folder] ∧ run before folder = none ∧ run (before ++ [folder]) folder = some output := by
  have : ∀ (l start : List Text) (old : List (Text × Text)), formatFolders ⟨true, run⟩ l start old = ⟨runs, none⟩ →
      ∃ before folder output, folder ∈ l ∧ runs = before ++ [folder, folder] ∧ run before folder = none ∧ run (before ++ [folder]) folder = some output := by
    intro l
    induction l with
    | nil => intro start old h; cases h
    | cons f l ih =>
      intro start old h
      rw [formatFolders] at h
      split at h
      · obtain ⟨b, g, o, hg, h2⟩ := ih _ _ h
        exact ⟨b, g, o, List.mem_cons_of_mem _ hg, h2⟩
      · rename_i h1
        split at h
        · rename_i o h2
          cases h
          exact ⟨start, f, o, by simp, rfl, h1, h2⟩
        · obtain ⟨b, g, o, hg, h2⟩ := ih _ _ h
          exact ⟨b, g, o, List.mem_cons_of_mem _ hg, h2⟩
  exact this order [] [] h

/-- A program that fails the second time in the folder `a`, and always in the folder `c`. -/
def flaky (before : List Text) (folder : Text) : Option Text :=
  if folder = T "a" ∧ T "a" ∈ before then some (T "busy") else if folder = T "c" then some (T " syntax\n") else none

/-- C95 is violated: when the second execution in a folder fails, the call panics and the other folders are not formatted. -/
theorem C95_not_all : ∃ run order, terraformFormat ⟨true, run⟩ order = ⟨[T "a", T "a"], none⟩ ∧ T "b" ∈ order :=
  ⟨flaky, [T "a", T "b"], rfl, by simp⟩

example : terraformFormat ⟨true, flaky⟩ [T "b", T "c", T "d"] = ⟨[T "b", T "b", T "c", T "d", T "d"], some [(T "c", T "syntax")]⟩ := by rfl
example : folders [T "/x/a.tf", T "/x/b.tfvars", T "y.txt", T "/z.tf.json"] = [T "/x", T "/"] := by decide +kernel
example : isTerraformFile (T "/x/a.tf") = true ∧ isTerraformFile (T "a.tf.txt") = false := by decide +kernel

end Verif.Props
