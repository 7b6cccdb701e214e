import Verif.Lemmas.Raw
import Verif.Props.Lists

/-!
C79: `repeat`, `mergeList`, `formatList`, `raw` and `rawList`, and how raw values are taken out of their quotes.
-/

namespace Verif.Props
open Verif Verif.Value Verif.ListFuncs Verif.Lemmas Verif.Spec

/-- **C79**: `repeat` gives that many times the value, and an error for a negative number. -/
theorem C79_repeat (n : Int) (v : Value) :
    (n < 0 → repeatFn n v = none) ∧ (0 ≤ n → ∃ l, repeatFn n v = some l ∧ l.length = n.toNat ∧ ∀ x ∈ l, x = v) := by
  unfold repeatFn
  refine ⟨fun h => if_pos h, fun h => ⟨List.replicate n.toNat v, ?_, by simp, ?_⟩⟩
  · rw [if_neg (by omega)]
    have := ListOps.fill_create (List.replicate n.toNat v)
    rw [List.length_replicate] at this
    rw [this]
  · intro x hx
    exact (List.mem_replicate.1 hx).2

theorem foldl_append_flatten (ls : List (List Value)) (acc : List Value) : ls.foldl ListOps.append acc = acc ++ ls.flatten := by
  induction ls generalizing acc with
  | nil => simp
  | cons l ls ih => rw [List.foldl_cons, ih, ListOps.append_eq]; simp

/-- **C79**: `mergeList` has the elements of all lists, in order. -/
theorem C79_mergeList (ls : List (List Value)) : mergeLists ls = ls.flatten := by
  unfold mergeLists
  split
  · rfl
  · simp
  · rw [foldl_append_flatten]; rfl

theorem formatLoop_eq (f : Value → Text) (vs done rest : List Value) (h : rest.length = vs.length) :
    formatLoop f done.length vs (done ++ rest) = done ++ vs.map fun v => .str (f v) := by
  induction vs generalizing done rest with
  | nil =>
    cases rest with
    | nil => rfl
    | cons a b => simp at h
  | cons v vs ih =>
    cases rest with
    | nil => simp at h
    | cons a rest =>
      rw [formatLoop, setInPlace, if_pos (by simp)]
      have e : (done ++ a :: rest).set done.length (.str (f v)) = (done ++ [.str (f v)]) ++ rest := by simp
      have l : done.length + 1 = (done ++ [Value.str (f v)]).length := by simp
      rw [e, l, ih _ _ (by simpa using h)]
      simp

theorem formatLoop_clone (f : Value → Text) (l : List Value) (h : ∀ inner, l ≠ [.list inner]) :
    formatLoop f 0 l (ListOps.clone l) = l.map fun v => .str (f v) := by
  have hc : ListOps.clone l = l := (C06_clone_partial l).2 h
  rw [hc]
  exact formatLoop_eq f l [] l rfl

/-- **C79** (partial): `formatList` gives the text of each element; given one list it takes the elements of the list. Missing: a list whose only element is a list, where the code is wrong. -/
theorem C79_formatList_partial (f : Value → Text) :
    (∀ l, (∀ inner, l ≠ [.list inner]) → formatList f [.list l] = l.map fun v => .str (f v)) ∧
    (∀ args, args.length ≠ 1 → formatList f args = args.map fun v => .str (f v)) ∧
    (∀ v, (∀ l, v ≠ .list l) → DictOps.tryAsList v = none → formatList f [v] = [.str (f v)]) := by
  refine ⟨?_, ?_, ?_⟩
  · intro l h
    exact formatLoop_clone f l h
  · intro args h
    unfold formatList
    match args, h with
    | [], _ => rfl
    | [a], h => simp at h
    | a :: b :: args, _ => exact formatLoop_clone f _ (by intro i e; simp at e)
  · intro v hv hn
    simp only [formatList, DataFuncs.asList, hn]
    refine formatLoop_clone f [v] ?_
    intro i e
    simp only [List.cons.injEq, and_true] at e
    exact hv i e

/-- **C79**, not for every list: the only element of a list is a list, and elements of the inner list stay as they are, or the result is empty. -/
theorem C79_not_formatList (f : Value → Text) :
    formatList f [.list [.list [.int 1, .int 2]]] = [.str (f (.list [.int 1, .int 2])), .int 2] ∧ formatList f [.list [.list []]] = [] := ⟨rfl, rfl⟩

/-- **C79**: several values given to `raw`, and any list given to `rawList`, are written between marks. -/
theorem C79_raw (a b : Value) (args l : List Value) (h : ∀ inner, l ≠ [.list inner]) :
    rawPrint (a :: b :: args) = .list ((a :: b :: args).map fun v => .str (T "!Q!" ++ sprint v ++ T "!Q!")) ∧
      rawList [.list l] = l.map fun v => .str (T "!Q!" ++ sprint v ++ T "!Q!") := by
  refine ⟨?_, (C79_formatList_partial rawItem).1 l h⟩
  have := (C79_formatList_partial rawItem).2.1 (a :: b :: args) (by simp)
  rw [rawPrint, this]
  · rfl
  · intro e; simp at e
  · intro v e; simp at e

/-- **C79**, not for a single value: `raw` does not mark it, so that its quotes stay. -/
theorem C79_not_raw_single (v : Value) : rawPrint [v] = .text (sprint v) := rfl

/-- **C79** (partial): in any text, all values between marks are shown without the marks, without quotes if they have no space; the text around them does not change. Missing: values that are empty, values with spaces and quotes or ends of lines,
and texts in which the mark is elsewhere. -/
theorem C79_unquote_partial (ps : List RawPiece) (tail : Text) (hg : ∀ p ∈ ps, GoodRaw p.value) (hm : ¬ T "!Q!" <:+: rawExpected ps tail) :
    unquote (rawWritten ps tail) = rawExpected ps tail := by
  unfold unquote unquoteSolid
  rw [unquote_first ps tail hg hm _ (Nat.le_refl _)]
  exact unquote_second ps tail hg hm _ (Nat.le_refl _)

/-- **C79**: a text without marks in it does not change. -/
theorem C79_unquote_nothing (s : Text) (h : ¬ T "!Q!" <:+: s) : unquote s = s :=
  C79_unquote_partial [] s (by simp) h

/-- **C79**, not for every value: marks stay in the result for an empty value, for one with spaces that ends with a quote, and for one with spaces and an end of line. -/
theorem C79_not_unquote :
    unquote (T "[\"!Q!!Q!\",\"!Q!b!Q!\"]") = T "[!Q!\",\"!Q!b]" ∧
    unquote (T "[\"!Q!a \\\"b\\\"!Q!\",\"!Q!c!Q!\"]") = T "[\"!Q!a \\\"b\\\",\"!Q!c]" ∧
    unquote (T "\"!Q!a\nb!Q!\"") = T "\"!Q!a\nb!Q!\"" := by
  refine ⟨by decide +kernel, by decide +kernel, by decide +kernel⟩

example : repeatFn 3 (.int 1) = some [.int 1, .int 1, .int 1] ∧ repeatFn (-1) (.int 1) = none := ⟨rfl, rfl⟩
example : mergeLists [[.int 1], [], [.int 2, .list [.int 3]]] = [.int 1, .int 2, .list [.int 3]] := rfl
example : formatList (fun v => T "<" ++ sprint v ++ T ">") [.list [.int 1, .str (T "a")]] = [.str (T "<1>"), .str (T "<a>")] := by rfl
example : rawWritten [⟨T "[", T "a"⟩, ⟨T ",", T "b c"⟩, ⟨T ",", T "d\""⟩] (T "]") = T "[\"!Q!a!Q!\",\"!Q!b c!Q!\",\"!Q!d\"!Q!\"]" := by decide
example : rawExpected [⟨T "[", T "a"⟩, ⟨T ",", T "b c"⟩, ⟨T ",", T "d\""⟩] (T "]") = T "[a,\"b c\",d\"]" := by decide +kernel
example : GoodRaw (T "a") ∧ GoodRaw (T "b c") ∧ GoodRaw (T "d\"") := by
  refine ⟨⟨by decide, by decide +kernel⟩, ⟨by decide, by decide +kernel⟩, ⟨by decide, by decide +kernel⟩⟩
example : Text.contains (T "!Q!") (T "[a,\"b c\",d\"]") = false := by decide +kernel

end Verif.Props
