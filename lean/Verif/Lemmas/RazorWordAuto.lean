import Verif.Lemmas.RazorNameRun
import Verif.Spec.RazorWordSpec
/-!
# An automaton for else and end in razor

It reads a text with variables, `else` and `end`; the state `bad` is out of reach when nothing around makes them something else.
-/

namespace Verif.Lemmas
open Verif Regex Spec Engine Razor Table

/-- The states: before a delimiter (`p`, `h`, `s1`, `s2`, `cm`, as for variables), just after it (`a`, then `m1`, `m2`, `u1` and `u2` after `-`, `--`,
`_` and `_-`), in a local variable (`d`), in a name (`ne`... for its beginnings that matter, `nm`, then `b` after blanks), after `else` (`k`, then `ki`, `kif` before
a parenthesis, `kb` after blanks, then `kbi`, `kbif`), in a word that follows (`w`, then `wd` after a dot). -/
inductive WSt
  | p | h | s1 | s2 | cm | a | m1 | m2 | u1 | u2 | d | ne | nel | nels | nen | nf | nfo | nfor | nm | b | k | ki | kif | kb | kbi | kbif | w | wd
  | bad
  deriving DecidableEq

def allW : List WSt :=
  [.p, .h, .s1, .s2, .cm, .a, .m1, .m2, .u1, .u2, .d, .ne, .nel, .nels, .nen, .nf, .nfo, .nfor, .nm, .b, .k, .ki, .kif, .kb, .kbi, .kbif, .w,
    .wd, .bad]

def wordP : Kind → WSt
  | .at => .a
  | .hash => .h
  | .slash => .s1
  | _ => .p

def wordN : Kind → WSt
  | .e | .l | .s | .n | .d | .f | .i | .o | .r | .letter | .digit | .under => .nm
  | .at | .minus | .dot | .lpar => .bad
  | .blank => .b
  | k => wordP k

/-- The first character of a name. -/
def wordA : Kind → WSt
  | .e => .ne
  | .f => .nf
  | .l | .s | .n | .d | .i | .o | .r | .letter => .nm
  | _ => .bad

/-- In a word after a keyword. -/
def wordW : Kind → WSt
  | .e | .l | .s | .n | .d | .f | .i | .o | .r | .letter | .digit | .under | .minus => .w
  | .dot => .wd
  | k => wordP k

def wordNext : WSt → Kind → WSt
  | .p, k => wordP k
  | .h, k => match k with
    | .hash | .bang => .cm
    | k => wordP k
  | .s1, k => match k with
    | .slash => .s2
    | k => wordP k
  | .s2, k => match k with
    | .slash | .bang => .cm
    | k => wordP k
  | .cm, k => match k with
    | .at => .bad
    | .blank => .cm
    | k => wordP k
  | .a, k => match k with
    | .minus => .m1
    | .under => .u1
    | .dollar => .d
    | k => wordA k
  | .m1, k => match k with
    | .minus => .m2
    | .dollar => .d
    | k => wordA k
  | .m2, k => match k with
    | .dollar => .d
    | k => wordA k
  | .u1, k => match k with
    | .minus => .u2
    | k => wordA k
  | .u2, k => wordA k
  | .d, k => match k with
    | .e | .l | .s | .n | .d | .f | .i | .o | .r | .letter | .digit | .under | .dot => .d
    | k => wordN k
  | .ne, k => match k with
    | .l => .nel
    | .n => .nen
    | k => wordN k
  | .nel, k => match k with
    | .s => .nels
    | k => wordN k
  | .nels, k => match k with
    | .e => .k
    | k => wordN k
  | .nen, k => match k with
    | .d => .w
    | k => wordN k
  | .nf, k => match k with
    | .o => .nfo
    | k => wordN k
  | .nfo, k => match k with
    | .r => .nfor
    | k => wordN k
  | .nfor, k => match k with
    | .e | .l | .s | .n | .d | .f | .i | .o | .r | .letter | .digit | .under => .nm
    | _ => .bad
  | .nm, k => wordN k
  | .b, k => match k with
    | .blank => .b
    | .lpar => .bad
    | k => wordP k
  | .k, k => match k with
    | .i => .ki
    | .blank => .kb
    | k => wordW k
  | .ki, k => match k with
    | .f => .kif
    | k => wordW k
  | .kif, k => match k with
    | .blank => .kbif
    | .lpar => .bad
    | k => wordW k
  | .kb, k => match k with
    | .blank => .kb
    | .i => .kbi
    | k => wordP k
  | .kbi, k => match k with
    | .f => .kbif
    | k => wordP k
  | .kbif, k => match k with
    | .blank => .kbif
    | .lpar => .bad
    | k => wordP k
  | .w, k => wordW k
  | .wd, k => match k with
    | .e | .l | .s | .n | .d | .f | .i | .o | .r | .letter | .digit | .under | .minus => .bad
    | k => wordP k
  | .bad, _ => .bad

def wordCharNext (letter : Char → Bool) (s : WSt) (c : Char) : WSt := wordNext s (kindOf letter c)

/-- The states after a character of a class. -/
def wordStep (k : Cls) (S : List WSt) : List WSt :=
  (allKinds.filter (clsMay k)).foldl (fun R kd => union R (S.foldl (fun R s => union R [wordNext s kd]) [])) []

/-- The matches of the expression all lead to the state `bad`. -/
def leadsToWordBad (r : Re) : Bool := (post allW wordStep r [.p]).all (fun s => s == .bad)

theorem wordStep_sound {letter : Char → Bool} (hl : PlainLetters letter) (k : Cls) (c : Char) (s : WSt) (S : List WSt)
    (hk : k.has letter c = true) (hs : s ∈ S) : wordCharNext letter s c ∈ wordStep k S := by
  unfold wordStep
  refine mem_foldl_union _ _ _ _ (.inr ⟨kindOf letter c, List.mem_filter.mpr ⟨?_, clsMay_sound hl hk⟩, ?_⟩)
  · cases kindOf letter c <;> decide
  · exact mem_foldl_union _ _ _ _ (.inr ⟨s, hs, List.mem_singleton.mpr rfl⟩)

theorem leadsToWordBad_sound {letter : Char → Bool} (hl : PlainLetters letter) {r : Re} {p : Option Char} {x q : Text} {c c' : Caps}
    (h : Fit letter r p x q c c') (hb : leadsToWordBad r = true) : x.foldl (wordCharNext letter) .p = .bad := by
  have h1 := post_sound (all := allW) (fun s => by cases s <;> decide) (step := wordStep) (δ := wordCharNext letter) (wordStep_sound hl) h
    (List.mem_singleton.mpr rfl : WSt.p ∈ [WSt.p])
  exact eq_of_beq (List.all_eq_true.mp hb _ h1)

/-- The rules before the one of `else`. -/
theorem table_word_bad : ∀ e ∈ (table.drop 2).take 41,
    (needs c!"${" e.2.2.2 || needs c!"{{ /*" e.2.2.2 || needs c!"*/ }}" e.2.2.2 || leadsToWordBad e.2.2.2) = true := by
  decide +kernel

/-- The rules between the one of `end` and the one of variables. -/
theorem table_name_bad : ∀ e ∈ (table.drop 45).take 86, leadsToBad e.2.2.2 = true := by
  decide +kernel

end Verif.Lemmas
