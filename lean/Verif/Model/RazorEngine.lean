import Verif.Model.Regex
import Verif.Model.RazorRules
import Verif.Model.RazorExpr
import Verif.Model.Content
/-!
# The translation of a razor template, rule by rule

Model of `applyRazor`, template/razor.go:13-46: every rule, in order, is searched in the whole content and its matches are replaced. The
functions that translate expressions (razor_repl_*.go) are a parameter here, except the one of e-mail addresses: they are modelled one by one in
RazorExpr, RazorAssign, AutoWrap and RazorLiteral. The ignored expressions (razor.go:19-31) are in RazorIgnore. Left out: the traces of `printDebugInfo`.
-/

namespace Verif.Engine
open Verif Text Razor Regex

/-- The text of a group (package regexp, `Expand`); nothing if the group is not part of the match. No rule has two groups of the same name. -/
def groupOf (caps : Caps) (name : Text) : Text :=
  match caps.find? (fun g => g.1 == name) with
  | some g => g.2
  | none => []

/-- `strings.Replace(match, "@", "@@", 1)`. -/
def doubleFirst : Text → Text
  | [] => []
  | c :: t => if c = '@' then '@' :: '@' :: t else c :: doubleFirst t

/-- `protectEmail`, razor_repl_literal.go:31-37. A match is never empty. -/
def protectEmail : Text → Text
  | [] => []
  | c :: t => if c = '@' ∨ c = '#' then c :: t else doubleFirst (c :: t)

/-- The comment of the rule of e-mail addresses, razor.go:80. -/
def emailName : Text := c!"Protect email"

/-- What replaces a match, razor.go:36-42: the text of the rule where the groups are inserted, or the result of its function. -/
def output (parser : Replacement → Text → Text) (rule : Replacement) (m : Text) (caps : Caps) : Text :=
  if rule.parser = 0 then expand (groupOf caps) rule.replace
  else if rule.name = emailName then protectEmail m
  else parser rule m

/-- One turn of the loop, razor.go:34-42. `regexp.MustCompile` panics on a rule that is not an expression (razor.go:192); there is none. -/
def applyRule (letter : Char → Bool) (parser : Replacement → Text → Text) (s : Text) (rule : Replacement) : Text :=
  match parse rule.expr with
  | some r => replaceRe letter r (output parser rule) s
  | none => s

/-- `funcCall`, razor_repl_expr.go:18. -/
def callMark : Text := c!"__FuncCall__"

/-- The rules, razor.go:34-43. -/
def translateBy (letter : Char → Bool) (parser : Replacement → Text → Text) (rules : List Replacement) (s : Text) : Text :=
  replaceAll callMark [] (rules.foldl (applyRule letter parser) s)

/-- `applyRazor`, razor.go:13-46, with the option on and no ignored expression. -/
def applyRazor (letter : Char → Bool) (parser : Replacement → Text → Text) (d : Delims) (s : Text) : Text :=
  if Content.isRazor d s then translateBy letter parser (generate d) s else s

end Verif.Engine
