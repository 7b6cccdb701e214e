"""Prints Verif/Lemmas/RazorTable.lean: python3 ../tools/razor_table.py > Verif/Lemmas/RazorTable.lean, from /verif/lean.

The rules are printed by Lean, one JSON array per line: name, replacement, parser, expression."""
import json, subprocess, sys, tempfile
from collections import Counter
sys.setrecursionlimit(10000)
PRINT = r'''import Verif.Model.RazorEngine
open Verif Regex Razor Engine
def q (c : Char) : String := toString c.toNat
def qs (t : Text) : String := "[" ++ String.intercalate "," (t.map q) ++ "]"
def ci : Item → String
 | .chr c => "[\"chr\"," ++ q c ++ "]"
 | .range a b => "[\"range\"," ++ q a ++ "," ++ q b ++ "]"
 | .digit => "[\"digit\"]" | .word => "[\"word\"]" | .nonWord => "[\"nonWord\"]" | .letter => "[\"letter\"]" | .blank => "[\"blank\"]" | .space => "[\"space\"]"
def bb (b : Bool) : String := if b then "true" else "false"
def sh : Re → String
 | .eps => "[\"eps\"]"
 | .cls k => "[\"cls\"," ++ bb k.neg ++ ",[" ++ String.intercalate "," (k.items.map ci) ++ "]]"
 | .bol m => "[\"bol\"," ++ bb m ++ "]"
 | .eol m => "[\"eol\"," ++ bb m ++ "]"
 | .edge => "[\"edge\"]"
 | .seq a b => "[\"seq\"," ++ sh a ++ "," ++ sh b ++ "]"
 | .alt a b => "[\"alt\"," ++ sh a ++ "," ++ sh b ++ "]"
 | .opt g a => "[\"opt\"," ++ bb g ++ "," ++ sh a ++ "]"
 | .star g a => "[\"star\"," ++ bb g ++ "," ++ sh a ++ "]"
 | .group n a => "[\"group\"," ++ qs n ++ "," ++ sh a ++ "]"
def main : IO Unit := do
  for r in generate defaultDelims do
    IO.println ("[" ++ qs r.name ++ "," ++ qs r.replace ++ "," ++ toString r.parser ++ "," ++ (match parse r.expr with | some e => sh e | none => "null") ++ "]")
#eval main
'''
with tempfile.NamedTemporaryFile('w', suffix='.txt', delete=False) as f: f.write(PRINT)
rules = [json.loads(l) for l in subprocess.run(['lake', 'env', 'lean', f.name], capture_output=True, text=True).stdout.splitlines()]
def tup(x): return tuple(tup(y) if isinstance(y, list) else y for y in x)
def esc(cs):
    out = ''
    for n in cs:
        c = chr(n)
        out += {'"': '\\"', '\\': '\\\\', '\n': '\\n', '\t': '\\t'}.get(c, c)
    return 'c!"' + out + '"'
def ch(n):
    c = chr(n)
    return "'" + {"'": "\\'", '\\': '\\\\', '\n': '\\n', '\t': '\\t'}.get(c, c) + "'"
def item(i):
    return {'chr': lambda: '.chr ' + ch(i[1]), 'range': lambda: '.range %s %s' % (ch(i[1]), ch(i[2]))}.get(i[0], lambda: '.' + i[0])()
size = {}
def sz(e):
    if e in size: return size[e]
    k = e[0]
    n = 1
    if k in ('seq', 'alt'): n += sz(e[1]) + sz(e[2])
    if k in ('opt', 'star', 'group'): n += sz(e[2])
    if k == 'cls': n += len(e[2])
    size[e] = n
    return n
cnt = Counter()
def count(e):
    cnt[e] += 1
    if cnt[e] > 1: return
    if e[0] in ('seq', 'alt'): count(e[1]); count(e[2])
    if e[0] in ('opt', 'star', 'group'): count(e[2])
exprs = [tup(r[3]) for r in rules]
for e in exprs: count(e)
defs, names, depth = [], {}, {}
def body(e):
    k = e[0]
    if k == 'eps': return '.eps'
    if k == 'cls':
        if not e[1] and len(e[2]) == 1 and e[2][0][0] == 'chr': return 'lit ' + ch(e[2][0][1])
        return '.cls ⟨%s, [%s]⟩' % ('true' if e[1] else 'false', ', '.join(item(i) for i in e[2]))
    if k in ('bol', 'eol'): return '.%s %s' % (k, 'true' if e[1] else 'false')
    if k in ('seq', 'alt'): return '.%s (%s) (%s)' % (k, term(e[1]), term(e[2]))
    if k in ('opt', 'star'): return '.%s %s (%s)' % (k, 'true' if e[1] else 'false', term(e[2]))
    return '.group %s (%s)' % (esc(e[1]), term(e[2]))
def term(e, force=False):
    if e in names: return names[e]
    b = body(e)
    if force or (cnt[e] > 1 and sz(e) > 3) or len(b) > 150:
        n = 'x%d' % len(defs)
        defs.append('def %s : Re := %s' % (n, b))
        names[e] = n
        return n
    return b
rows = []
for r, e in zip(rules, exprs):
    rows.append('  (%s, %s, %d, %s)' % (esc(r[0]), esc(r[1]), r[2], term(e, True)))
print('''import Verif.Model.RazorEngine
/-!
# The rules of razor, compiled

Generated by tools/razor_table.py: the rules made for the default delimiters with their expressions already parsed. The kernel checks at the end
that they are the rules of the model, so that the other modules need not compute them again.
-/

namespace Verif.Table
open Verif Regex Razor Engine

''' + '\n'.join(defs) + '''

/-- The comment, the replacement, the parser and the expression of every rule. -/
def table : List (Text × Text × Nat × Re) := [
''' + ',\n'.join(rows) + ''']

set_option maxRecDepth 100000 in
theorem table_eq : (generate defaultDelims).map (fun r => (r.name, r.replace, r.parser, parse r.expr)) =
    table.map (fun e => (e.1, e.2.1, e.2.2.1, some e.2.2.2)) := by
  decide +kernel

end Verif.Table''')
