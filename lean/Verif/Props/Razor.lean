import Verif.Lemmas.RazorExpr
/-!
# C35: razor expressions are translated without changing their structure
-/

namespace Verif.Props
open Spec Razor

/-- A name of the context, for the examples. -/
private def g (n : String) : Expr := .ident (.glob (T n))
/-- A literal, for the examples. -/
private def l (n : String) : Expr := .lit (T n)

/-- C35, for the covered expressions: the translation succeeds and the produced text, read with the grammar of Go templates, is the
operation tree of the expression. What is missing: literals that contain `$` or `*`, methods of the context called with arguments inside
another operation, calls of the result of a call; the statement is false for them, see the theorems `C35_not_…`. -/
theorem C35_translation_partial (group : Text → Text) {e : Expr} (h : Covered e) :
    ∃ s, render group e = some s ∧ parsePipeline s = some (meaning e) := by
  obtain ⟨t, g⟩ := good_of_covered h
  exact ⟨rho t, render_eq group g.nv g.dollar, parsePipeline_of g.cmd⟩

/-- Two covered expressions with the same text have the same operation tree. -/
theorem C35_injective_partial (group : Text → Text) {e e' : Expr} (h : Covered e) (h' : Covered e') (hr : render group e = render group e') :
    meaning e = meaning e' := by
  obtain ⟨s, h1, h2⟩ := C35_translation_partial group h
  obtain ⟨s', h3, h4⟩ := C35_translation_partial group h'
  rw [h1, h3] at hr
  cases hr
  rw [h2] at h4
  exact Option.some.inj h4

/-- The text does not depend on the groups of the rule that contains the expression. -/
theorem C35_context_free_partial (group group' : Text → Text) {e : Expr} (h : Covered e) : render group e = render group' e := by
  obtain ⟨t, g⟩ := good_of_covered h
  rw [render_eq group g.nv g.dollar, render_eq group' g.nv g.dollar]

mutual

/-- Every operator is known and every node is supported. -/
def Known : Expr → Prop
  | .unary op x => (functionOf op).isSome ∧ Known x
  | .binary op x y => (functionOf op).isSome ∧ Known x ∧ Known y
  | .ident _ => True
  | .lit _ => True
  | .sel x _ => Known x
  | .paren x => Known x
  | .call f args _ => Known f ∧ AllKnown args
  | .star x => Known x
  | .index x i => Known x ∧ Known i
  | .slice x low high => Known x ∧ Known low ∧ Known high
  | .other => False

/-- The same for a list. -/
def AllKnown : List Expr → Prop
  | [] => True
  | a :: as => Known a ∧ AllKnown as

end

mutual

theorem known_iff (e : Expr) : (nodeValue e).isSome ↔ Known e := by
  match e with
  | .unary op x =>
    have ih := known_iff x
    simp only [nodeValue, Known, operatorName_eq]
    cases functionOf op <;> cases hx : nodeValue x <;> simp [hx, ← ih]
    split <;> simp
  | .binary op x y =>
    have ih := known_iff x
    have ih' := known_iff y
    simp only [nodeValue, Known, operatorName_eq]
    cases functionOf op <;> cases hx : nodeValue x <;> cases hy : nodeValue y <;> simp [hx, hy, ← ih, ← ih']
    split <;> simp
  | .ident _ => simp [nodeValue, Known]
  | .lit _ => simp [nodeValue, Known]
  | .sel x _ =>
    have ih := known_iff x
    simp only [nodeValue, Known]
    cases hx : nodeValue x <;> simp [hx, ← ih]
  | .paren x =>
    have ih := known_iff x
    simp only [nodeValue, Known]
    exact ih
  | .call f args el =>
    have ih := known_iff f
    have ih' := allKnown_iff args
    simp only [nodeValue, Known]
    cases hx : nodeValue f <;> cases hy : nodeValues args <;> simp [hx, hy, ← ih, ← ih']
    split
    · simp
    · split <;> simp
  | .star x =>
    have ih := known_iff x
    simp only [nodeValue, Known]
    cases hx : nodeValue x <;> simp [hx, ← ih]
  | .index x i =>
    have ih := known_iff x
    have ih' := known_iff i
    simp only [nodeValue, Known]
    cases hx : nodeValue x <;> cases hy : nodeValue i <;> simp [hx, hy, ← ih, ← ih']
  | .slice x i j =>
    have ih := known_iff x
    have ih' := known_iff i
    have ih'' := known_iff j
    simp only [nodeValue, Known]
    cases hx : nodeValue x <;> cases hy : nodeValue i <;> cases hz : nodeValue j <;> simp [hx, hy, hz, ← ih, ← ih', ← ih'']
  | .other => simp [nodeValue, Known]

theorem allKnown_iff (es : List Expr) : (nodeValues es).isSome ↔ AllKnown es := by
  match es with
  | [] => simp [nodeValues, AllKnown]
  | a :: as =>
    have ih := known_iff a
    have ih' := allKnown_iff as
    simp only [nodeValues, AllKnown]
    cases hx : nodeValue a <;> cases hy : nodeValues as <;> simp [hx, hy, ← ih, ← ih']

end

/-- C35, errors: an expression, covered or not, is refused exactly when it contains an unknown operator, an unsupported node or an open
bound; it is never translated in part. -/
theorem C35_error (group : Text → Text) (e : Expr) : render group e = none ↔ ¬ Known e := by
  rw [← known_iff, render, Option.map_eq_none_iff, ← Option.not_isSome_iff_eq_none]

/-! ## Examples -/

private theorem name {n : Text} (h : IsName n) : IsIdent (.glob n) := h

/-- `f(a + 1, -b, .x.m())...` is covered. -/
example : ∃ e, Covered e ∧ render (fun _ => []) e = some (T "ellipsis \"f\" (add $.a 1) (sub 0 $b) .x.m") := by
  refine ⟨.call (g "f") [.binary (T "+") (g "a") (l "1"), .unary (T "-") (.ident (.loc (T "b"))),
    .call (.sel (.ident (.ctx (T "x"))) (T "m")) [] false] true, ?_, by decide +kernel⟩
  refine .ellipsis (.ident (name (by decide))) rfl ?_ ?_
  · intro a ha
    simp at ha
    rcases ha with rfl | rfl | rfl
    · exact .binary (by decide) (.ident (name (by decide))) rfl (.lit ⟨by decide, Or.inl (by decide)⟩) rfl
    · exact .unary (by decide) (.ident (Or.inr (by decide))) rfl
    · exact .call (.sel (.ident (Or.inr (by decide))) rfl (by intro v; simp [inner]) (by decide)) rfl (by simp) (by simp)
  · intro a ha
    simp at ha
    rcases ha with rfl | rfl | rfl <;> rfl

/-- `(a == "x y") ** .b[1:-2]` is covered. -/
example : ∃ e, Covered e ∧ render (fun _ => []) e = some (T "power (eq $.a \"x y\") ((slice .b 1 -2))") := by
  refine ⟨.binary (T "*") (.paren (.binary (T "==") (g "a") (l "\"x y\"")))
    (.star (.slice (.ident (.ctx (T "b"))) (l "1") (.unary (T "-") (l "2")))), ?_, by decide +kernel⟩
  refine .power (.paren (.binary (by decide) (.ident (name (by decide))) rfl
    (.lit ⟨by decide, Or.inr ⟨'"', T "x y\"", Or.inl rfl, rfl, by decide⟩⟩) rfl)) rfl rfl ?_ rfl
  exact .slice (.ident (Or.inr (by decide))) rfl (.lit ⟨by decide, Or.inl (by decide)⟩) rfl
    (.unary (by decide) (.lit ⟨by decide, Or.inl (by decide)⟩) rfl) rfl

example : ¬ Known (.binary (T "+") (g "a") (.unary (T "~") (g "b"))) := by
  have : functionOf (T "~") = none := by decide
  simp [Known, this]

/-! ## Where the code does not keep the structure -/

/-- A `*` in a text operand: `a * "*"` is translated to `power`, and the text loses its star. -/
theorem C35_not_star : render (fun _ => []) (.binary (T "*") (g "a") (l "\"x*\"")) = some (T "power $.a \"x\"") ∧
    meaning (.binary (T "*") (g "a") (l "\"x*\"")) = .call (.atom (T "mul")) [.atom (T "$.a"), .atom (T "\"x*\"")] := by
  exact ⟨by decide +kernel, rfl⟩

/-- A `$` in a text: `f("$x y")` loses the word after the dollar. -/
theorem C35_not_dollar : render (fun _ => []) (.call (g "f") [l "\"$x y\""] false) = some (T "f \" y\"") := by decide +kernel

/-- A method of the context called inside another call: `f(.x.m(a), b)` loses its nesting. -/
theorem C35_not_context_call :
    render (fun _ => []) (.call (g "f") [.call (.sel (.ident (.ctx (T "x"))) (T "m")) [g "a"] false, g "b"] false) =
      some (T "f .x.m $.a $.b") ∧
    parsePipeline (T "f .x.m $.a $.b") = some (.call (.atom (T "f")) [.atom (T ".x.m"), .atom (T "$.a"), .atom (T "$.b")]) ∧
    meaning (.call (g "f") [.call (.sel (.ident (.ctx (T "x"))) (T "m")) [g "a"] false, g "b"] false) =
      .call (.atom (T "f")) [.call (.atom (T ".x.m")) [.atom (T "$.a")], .atom (T "$.b")] := by
  refine ⟨by decide +kernel, ?_, rfl⟩
  have w : ∀ s : Text, s ≠ [] ∧ (∀ c ∈ s, c ∉ [' ', '(', ')', '"', '`', '\'']) → IsOp s (.atom s) := fun s h => isOp_word h.1 h.2
  exact parsePipeline_of (isCmd_call (w (T "f") (by decide))
    (.three (w (T ".x.m") (by decide)) (w (T "$.a") (by decide)) (w (T "$.b") (by decide))) (by simp))

/-- The call of the result of a call: `f(x)(y)` has the same text as `f(x, y)`. -/
theorem C35_not_call_of_call :
    render (fun _ => []) (.call (.call (g "f") [g "x"] false) [g "y"] false) = render (fun _ => []) (.call (g "f") [g "x", g "y"] false) := by
  decide +kernel

/-- A variable named `slice` that is followed by another operand is taken for the function `slice`. -/
theorem C35_not_slice_name : (render (fun _ => []) (.binary (T "+") (g "slice") (l "1"))).map fixSlice = some (T "add slice $.1") := by
  decide +kernel

end Verif.Props
