import Verif.Lemmas.RazorSliceAuto
import Verif.Lemmas.RazorParenRest
import Verif.Lemmas.RazorAssignRule
import Verif.Spec.RazorIndexedSpec
import Verif.Props.RazorIndex
/-!
# The rule of the indices of razor
-/

namespace Verif.Lemmas
open Verif Regex Spec Engine Razor Table Prepare _root_.Verif.Insert

/-- `\[[^\n]+\]` -/
def bracketRe : Re := .group c!"index" (.seq (.seq (lit '[') (.seq (.cls lineCls) (.star true (.cls lineCls)))) (lit ']'))

/-- The rule `@name[…]`. -/
def sliceRe : Re :=
  .seq (.seq (.seq (.seq (lit '@') reduceRe)
    (.group c!"name" (.seq (.cls ⟨false, [.letter, .chr '_']⟩) (.star true (.cls ⟨false, [.letter, .digit, .chr '_', .chr '.']⟩))))) bracketRe) endRe

theorem slice_entry : (table.drop 103).take 1 = [(c!"Global variables with slice - @var[...]", c!"{{${reduce1} ${slicer} $$.${name} ${index} ${reduce2}}}", 1, sliceRe)] := by
  rfl

/-- The signs capture nothing else. -/
theorem run_reduce_only {r : Text × Text × Text} (h : r ∈ reduceSigns) : ∃ d : Caps, groupOf d c!"reduce1" = r.2.1 ∧ groupOf d c!"reduce2" = r.2.2 ∧
    groupOf d c!"expr" = [] ∧ groupOf d c!"selection" = [] ∧
    ∀ {β : Type} (letter : Char → Bool) (p : Option Char) (ch : Char) (t : Text) (k : Cont β) (res : β), ch ≠ '-' → ch ≠ '_' →
      (∀ p', k p' (ch :: t) d = some res) → run letter reduceRe p (r.1 ++ ch :: t) [] k = some res := by
  obtain ⟨d, h1, h2, h3⟩ := run_reduce h
  have e := h3 Char.isAlpha none '(' [] (fun _ _ c => some c) d (by decide) (by decide) (fun _ => rfl)
  have key : ∀ r ∈ reduceSigns, (run Char.isAlpha reduceRe none (r.1 ++ c!"(") [] (fun _ _ c => some c)).map
      (fun d : Caps => (groupOf d c!"expr", groupOf d c!"selection")) = some ([], []) := by decide +kernel
  have := key r h
  rw [e] at this
  simp only [Option.map_some, Option.some.injEq, Prod.mk.injEq] at this
  exact ⟨d, h1, h2, this.1, this.2, h3⟩

theorem matchAt_slice {letter : Char → Bool} (hl : PlainLetters letter) {r : Text × Text × Text} (hr : r ∈ reduceSigns) {name i b b' : Text} (hn : VarName letter name)
    (hi : i ≠ []) (hline : '\n' ∉ i) (hb : NoBracket b) (hrem : Remains b b') (p : Option Char) :
    ∃ caps, matchAt letter sliceRe p ('@' :: (r.1 ++ (name ++ '[' :: (i ++ ']' :: b)))) = some (('@' :: (r.1 ++ (name ++ '[' :: (i ++ ']' :: b)))).length - b'.length, caps) ∧
      groupOf caps c!"name" = name ∧ groupOf caps c!"index" = '[' :: (i ++ [']']) ∧ groupOf caps c!"reduce1" = r.2.1 ∧ groupOf caps c!"reduce2" = r.2.2 ∧
      groupOf caps c!"expr" = [] ∧ groupOf caps c!"selection" = [] := by
  obtain ⟨d, h1, h2, h3, h4, hrun⟩ := run_reduce_only hr
  obtain ⟨c₀, t, rfl, hc⟩ := hn.first
  obtain ⟨d₀, i', rfl⟩ := List.exists_cons_of_ne_nil hi
  refine ⟨(c!"index", '[' :: (d₀ :: i' ++ [']'])) :: (c!"name", c₀ :: t) :: d, ?_, ?_, ?_, ?_, ?_, ?_, ?_⟩
  · unfold matchAt sliceRe bracketRe
    simp only [run_seq_eq, run_lit_cons]
    have hf := first_not_sign hl hc
    refine hrun letter _ _ _ _ _ hf.1 hf.2.1 (fun p' => ?_)
    rw [run_group_eq, run_seq_eq, run_cls_cons (by simp [Cls.has, Item.has, hc])]
    refine run_star_cls ?_ ?_ ?_
    · intro ch h
      have := hn.chars ch (List.mem_cons_of_mem _ h)
      simp only [Cls.has, Item.has, List.any_cons, List.any_nil, bne_iff_ne, ne_eq, Bool.not_eq_false, Bool.or_eq_true, beq_iff_eq]
      simp only [varChar, Bool.or_eq_true, beq_iff_eq] at this
      rcases this with (h | h) | h <;> simp [h]
    · rintro _ ⟨⟩
      have : letter '[' = false := by
        rw [hl.1 _ (by decide)]
        decide
      simp [Cls.has, Item.has, this]
    · rw [run_group_eq]
      simp only [run_seq_eq, run_lit_cons, List.cons_append]
      rw [run_cls_cons (by rw [has_line]; rintro rfl; exact hline (List.mem_cons_self ..))]
      refine run_star_back ?_ ?_ ?_
      · intro ch h
        rw [has_line]
        rintro rfl
        exact hline (List.mem_cons_of_mem _ h)
      · intro v1 v2 hv hne hall p
        obtain ⟨f, v1, rfl⟩ := List.exists_cons_of_ne_nil hne
        simp only [List.cons_append, List.cons.injEq] at hv
        rw [run_lit]
        cases v2 with
        | nil => rfl
        | cons g v2 =>
          simp only
          rw [if_neg]
          rintro rfl
          have := hb v1 v2 hv.2
          exact (has_line letter '\n').mp (hall _ (List.mem_cons_of_mem _ this)) rfl
      · rw [run_lit_cons]
        refine run_endRe hrem (fun _ => ?_)
        have e1 := take_here (c₀ :: t) ('[' :: d₀ :: (i' ++ ']' :: b))
        have e2 := take_here ('[' :: d₀ :: (i' ++ [']'])) b
        simp only [List.cons_append, List.append_assoc, List.nil_append] at e1 e2
        simp only [List.append_eq]
        rw [e1, e2]
  · simp [groupOf]
  · simp [groupOf]
  · rw [← h1]
    simp [groupOf]
  · rw [← h2]
    simp [groupOf]
  · simpa [groupOf] using h3
  · simpa [groupOf] using h4

end Verif.Lemmas
