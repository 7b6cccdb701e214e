import Verif.Base.Chars
import Verif.Base.Map
/-!
# The rules of the razor translation and their cache

Model of `ensureInit` and of its tables, template/razor.go. The rules are kept as texts; what they match is modelled in
Regex and RazorEngine.
-/

namespace Verif
namespace Razor

/-- `t.delimiters`, template.go:129. -/
structure Delims where
  left : Text
  right : Text
  razor : Text
  deriving DecidableEq

/-- The default delimiters, template.go:129. -/
def defaultDelims : Delims := ⟨T "{{", T "}}", T "@"⟩

/-- `regexp.QuoteMeta` (library function). -/
def quoteMeta (s : Text) : Text := s.flatMap (fun c => if c ∈ T "\\.+*?()|[]{}^$" then ['\\', c] else [c])

/-- `customMetaclass`, razor.go:52-67. -/
def customMetaclass : List (Text × Text) :=
  [(c!"function;", c!"@reduce;(?P<expr>[id]\\([sp][expr]*[sp]\\))"),
   (c!"assign;", c!"(?P<assign>(?:\\$[id][ \\t,]*){1,2}:=[sp])"),
   (c!"index;", c!"(?P<index>\\[[expr]+\\])"),
   (c!"selector;", c!"(?P<selection>\\.[expr]+)"),
   (c!"reduce;", c!"(?P<reduce>((?P<reduce1>-)|_)?(?P<reduce2>-?))"),
   (c!"endexpr;", c!"(?:[sp];)?"),
   (c!"[sp]", c!"[[:blank:]]*"),
   (c!"[id]", c!"[\\p{L}\\d_]+"),
   (c!"[id_comp]", c!"[\\p{L}\\d_\\.]+"),
   (c!"[flexible_id]", c!"[map_id;][map_id;\\.\\-]*"),
   (c!"[idSel]", c!"[\\p{L}_][\\p{L}\\d_\\.]*"),
   (c!"map_id;", c!"\\p{L}\\d_\\+\\*%#!~"),
   (c!"assign_op;", c!":=|~=|=|\\+=|-=|\\*=|\\/=|÷=|%=|&=|\\|=|\\^=|<<=|«=|>>=|»=|&\\^=")]

/-- `expressionList`, razor.go:70. -/
def expressionList : List Text :=
  [c!"[^\\n]", c!"[^@\\n]", c!"[^@;\\n]", c!"[^@{\\n]", c!"[^@;{\\n]", c!"[^@;{\\n'`]", c!"[\\p{L}_\\.]"]

/-- The text of the regular expression of a rule, razor.go:167-180. -/
def searchText (d : Delims) (re : Text) : Text :=
  let re := Text.replaceAll (T "@") (quoteMeta d.razor) re
  let re := Text.replaceAll (T "{{") (quoteMeta d.left) re
  let re := Text.replaceAll (T "}}") (quoteMeta d.right) re
  customMetaclass.foldl (fun re m => Text.replaceAll m.1 m.2 re) re

/-- The regular expressions made from one rule, razor.go:182-190. -/
def subExpressions (re : Text) : List Text :=
  if Text.contains (T "[expr]") re then expressionList.map (fun e => Text.replaceAll (T "[expr]") e re) else [re]

/-- The replacement of a rule, razor.go:170. -/
def replaceText (d : Delims) (s : Text) : Text :=
  Text.replaceAll (T "@") d.razor (Text.replaceAll (T "}}") d.right (Text.replaceAll (T "{{") d.left s))

/-- `expressions`, razor.go:75-146: the comment, the text of the regular expression, the replacement and the number of parsers. -/
def expressions : List (Text × Text × Text × Nat) :=
  [(c!"", c!"```",
      c!"_=!TRIPLE_BT!=_", 0),
   (c!"", c!"(?s)`.*?`",
      c!"", 1),
   (c!"Protect email", c!"(\\W|^)[\\w.!#$%&'*+/=?^_{|}~-]+@[\\w-]{1,61}(?:\\.[\\w-]{1,61})+",
      c!"", 1),
   (c!"", c!"\\${",
      c!"_=!REPL!=_", 0),
   (c!"", c!"@@",
      c!"_=!AT!=_", 0),
   (c!"", c!"@{{",
      c!"{{ \"{{\" }}", 0),
   (c!"", c!"@<;",
      c!"{{- $.NEWLINE }}", 0),
   (c!"Auto indent", c!"(?m)^(?P<before>.*)@reduce;(?:autoIndent|aindent|aIndent)\\(",
      c!"@<-spaceIndent(`${before}`, ", 0),
   (c!"Auto wrap", c!"(?m)^(?P<before>.*)@(?P<nl><)?reduce;(?P<func>autoWrap|awrap|aWrap)(?P<context>\\(.*)$",
      c!"", 1),
   (c!"Inline content \"@<...>\"", c!"\"@reduce;<(?P<content>.*?)>\"",
      c!"\"<<@${reduce}(${content})\"", 0),
   (c!"Newline expression", c!"@<",
      c!"{{- $.NEWLINE }}@", 0),
   (c!"Pseudo line comments - #! @", c!"(?m)(?:[sp](?:#|//)![sp])@",
      c!"@", 0),
   (c!"Pseudo block comments - /*@  @*/", c!"(?s)/\\*@(?P<content>.*?)@\\*/",
      c!"${content}", 0),
   (c!"Real comments - ##|/// @ comment", c!"(?m)[sp](?:##|///)[sp]@.*$",
      c!"{{- \"\" }}", 0),
   (c!"Line comment - @// or @#", c!"(?m)@reduce;(#|//)[sp](?P<line_comment>.*)[sp]$",
      c!"{{${reduce1} /* ${line_comment} */ ${reduce2}}}", 0),
   (c!"Block comment - @/* */", c!"(?s)@reduce;/\\*(?P<block_comment>.*?)\\*/",
      c!"{{${reduce1} /*${block_comment}*/ ${reduce2}}}", 0),
   (c!"", c!"{{ /\\*",
      c!"{{/*", 0),
   (c!"", c!"\\*/ }}",
      c!"*/}}", 0),
   (c!"Foreach", c!"@reduce;for(?:[sp]each)?[sp]\\(",
      c!"@${reduce}range(", 0),
   (c!"Single line command - @command (expr) action;", c!"@reduce;(?P<command>if|with|range)[sp]\\([sp]assign;?[sp](?P<expr>[expr]+)[sp]\\)[sp](?P<action>[^\\n]+?)[sp];",
      c!"{{${reduce1} ${command} ${assign}${expr} ${reduce2}}}${action}{{${reduce1} end ${reduce2}}}", 2),
   (c!"Single line command - @command (expr) { action }", c!"(?m)@reduce;(?P<command>if|with|range)[sp]\\([sp]assign;?[sp](?P<expr>[expr]+)[sp]\\)[sp]{[sp](?P<action>[^\\n]+?)}[sp]$",
      c!"{{${reduce1} ${command} ${assign}${expr} ${reduce2}}}${action}{{${reduce1} end ${reduce2}}}", 2),
   (c!"Command(expr)", c!"@reduce;(?P<command>if|else[sp]if|block|with|define|range)[sp]\\([sp]assign;?[sp](?P<expr>[expr]+)[sp]\\)[sp]",
      c!"{{${reduce1} ${command} ${assign}${expr} ${reduce2}}}", 2),
   (c!"else", c!"@reduce;else",
      c!"{{${reduce1} else ${reduce2}}}", 0),
   (c!"various ends", c!"@reduce;(?P<command>end[sp](if|range|define|block|with|for[sp]each|for|))endexpr;",
      c!"{{${reduce1} end ${reduce2}}}", 0),
   (c!"Assign - @var := value", c!"(?P<type>@(\\$|\\.|\\$\\.)?)(?P<id>[flexible_id])[sp](?P<assign>assign_op;)[sp](?P<expr>[expr]+)endexpr;",
      c!"", 1),
   (c!"Assign - @{var} := value", c!"(?P<type>@{)(?P<id>[id_comp])}[sp](?P<assign>assign_op;)[sp](?P<expr>[expr]+)endexpr;",
      c!"", 1),
   (c!"Assign - @{var := expr}", c!"(?P<type>@{)(?P<id>[id_comp])[sp](?P<assign>assign_op;)[sp](?P<expr>[expr]+?)}endexpr;",
      c!"", 1),
   (c!"Function call followed by expression - @func(args...).args", c!"function;selector;endexpr;",
      c!"@${reduce}((${expr})${selection});", 1),
   (c!"Function call with slice - @func(args...)[...]", c!"function;index;endexpr;",
      c!"{{${reduce1} ${slicer} (${expr}) ${index} ${reduce2}}}", 1),
   (c!"Function call - @func(args...)", c!"function;endexpr;",
      c!"{{${reduce1} ${expr} ${reduce2}}}", 1),
   (c!"Function unmanaged - @func(value | func)", c!"@reduce;(?P<function>[id])\\([sp](?P<args>[expr]+)[sp]\\)endexpr;",
      c!"{{${reduce1} ${function} ${args} ${reduce2}}}", 0),
   (c!"Local variables - @{var}", c!"@reduce;{[sp](?P<name>[\\p{L}\\d_\\.]*)[sp]}(?P<end>endexpr;)",
      c!"@${reduce}($$${name});", 0),
   (c!"Global variables followed by expression", c!"@reduce;(?P<expr>[idSel]selector;index;?)(?P<end>endexpr;)",
      c!"@${reduce}(${expr});", 1),
   (c!"Context variables - @.var", c!"@reduce;\\.(?P<name>[idSel])endexpr;",
      c!"@${reduce}(.${name})", 0),
   (c!"Global variables with slice - @var[...]", c!"@reduce;(?P<name>[idSel])index;endexpr;",
      c!"{{${reduce1} ${slicer} $$.${name} ${index} ${reduce2}}}", 1),
   (c!"Context variables special with slice", c!"@reduce;\\.(?P<expr>(?P<name>[flexible_id])index;)endexpr;",
      c!"{{${reduce1} ${slicer} (get . \"${name}\") ${index} ${reduce2}}}", 1),
   (c!"Global variables special with slice", c!"@reduce;(?P<expr>(?P<name>[flexible_id])index;)endexpr;",
      c!"{{${reduce1} ${slicer} (get $$ \"${name}\") ${index} ${reduce2}}}", 1),
   (c!"Local variables with slice", c!"@reduce;(?P<expr>(?P<name>[\\$\\.][\\p{L}\\d_\\.]*)index;)endexpr;",
      c!"{{${reduce1} ${slicer} ${name} ${index} ${reduce2}}}", 1),
   (c!"Global variables - @var", c!"@reduce;(?P<name>[idSel])endexpr;",
      c!"{{${reduce1} $$.${name} ${reduce2}}}", 0),
   (c!"Context variables special - @.var", c!"@reduce;\\.(?P<name>[flexible_id])endexpr;",
      c!"{{${reduce1} get . \"${name}\" ${reduce2}}}", 0),
   (c!"Global variables special - @var", c!"@reduce;(?P<name>[flexible_id])endexpr;",
      c!"{{${reduce1} get $$ \"${name}\" ${reduce2}}}", 0),
   (c!"Local variables - @$var or @.var", c!"@reduce;(?P<name>[\\$\\.][\\p{L}\\d_\\.]*)endexpr;",
      c!"{{${reduce1} ${name} ${reduce2}}}", 0),
   (c!"Expression @(var)[...]", c!"@reduce;(?P<expr>\\([sp](?P<name>[idSel])[sp]\\)index;)endexpr;",
      c!"{{${reduce1} ${slicer} $$.${name} ${index} ${reduce2}}}", 1),
   (c!"Expression @(var)", c!"@reduce;\\([sp](?P<expr>[idSel])[sp]\\)endexpr;",
      c!"{{${reduce1} ${expr} ${reduce2}}}", 1),
   (c!"Expression @(expr)[...]", c!"@reduce;\\([sp](?P<expr>[expr]+)[sp]\\)index;endexpr;",
      c!"{{${reduce1} ${slicer} (${expr}) ${index} ${reduce2}}}", 1),
   (c!"Expression @(expr)", c!"@reduce;\\([sp](?P<assign>.*?:= ?)?[sp](?P<expr>[expr]+)[sp]\\)endexpr;",
      c!"{{${reduce1} ${assign}${expr} ${reduce2}}}", 2),
   (c!"Space eater", c!"@-endexpr;",
      c!"{{- \"\" -}}", 0),
   (c!"Raw content \"{{ raw ...", c!"\"(?P<content>{{-? (?:raw(?:List)?(?:__FuncCall__)?|ellipsis \"raw__FuncCall__\") .*?}})\"",
      c!"\"<<${content}\"", 0),
   (c!"Inline content \"<<...\"", c!"\"<<(?P<content>.*?{{[sp].*?[sp]}}.*?)\"",
      c!"${content}", 0),
   (c!"", c!"_=!AT!=_",
      c!"@", 0),
   (c!"", c!"_=!TRIPLE_BT!=_",
      c!"```", 0),
   (c!"", c!"_=!REPL!=_",
      c!"${", 0),
   (c!"", c!"\\x60_=LONG_STRING=(?P<num>\\d+)\\x60",
      c!"", 1)]

/-- A rule ready to be applied: comment, regular expression, replacement and parser (its position in the declaration, 0 when there is
none). The field `delimiters` of the code is `d` itself. -/
structure Replacement where
  name : Text
  expr : Text
  replace : Text
  parser : Nat
  delimiters : Delims
  deriving DecidableEq

/-- The loop of `ensureInit`, razor.go:164-201, for one rule. -/
def makeRules (d : Delims) (rule : Text × Text × Text × Nat) : List Replacement :=
  let re := searchText d rule.2.1
  let replace := replaceText d rule.2.2.1
  let parsers := rule.2.2.2
  let sub := subExpressions re
  sub.map (fun e => ⟨rule.1, e, replace, min parsers 1, d⟩) ++
    (if sub.length > 1 ∧ parsers = 2 then [⟨rule.1, sub.headD [], replace, 2, d⟩] else [])

/-- The rules generated by `ensureInit` for a set of delimiters. -/
def generate (d : Delims) : List Replacement := expressions.flatMap (makeRules d)

/-- `fmt.Sprint(t.delimiters)` (library function), the key of the cache. -/
def cacheKey (d : Delims) : Text := '[' :: (Text.join [' '] [d.left, d.right, d.razor] ++ [']'])

/-- `ensureInit`, razor.go:160-205, for rules of any type. -/
def ensureInit {α : Type} (gen : Delims → α) (cache : GoMap α) (d : Delims) : GoMap α :=
  if cache.has (cacheKey d) then cache else cache.set (cacheKey d) (gen d)

/-- The rules used by `applyRazor` (razor.go:17, 34) and the cache left for the next template. -/
def rulesOf {α : Type} (gen : Delims → α) (cache : GoMap α) (d : Delims) : Option α × GoMap α :=
  let cache := ensureInit gen cache d
  (cache.get? (cacheKey d), cache)

/-- The cache after the translation of some templates; `replacementsInit` is empty when the process starts (razor.go:148). -/
def cacheAfter {α : Type} (gen : Delims → α) (history : List Delims) : GoMap α :=
  history.foldl (fun cache d => (rulesOf gen cache d).2) []

end Razor
end Verif
