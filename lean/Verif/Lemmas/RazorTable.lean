import Verif.Model.RazorEngine
/-!
# The rules of razor, compiled

Generated by tools/razor_table.py: the rules made for the default delimiters with their expressions already parsed. The kernel checks at the end
that they are the rules of the model, so that the other modules need not compute them again.
-/

namespace Verif.Table
open Verif Regex Razor Engine

def x0 : Re := .seq (.seq (lit '`') (lit '`')) (lit '`')
def x1 : Re := .seq (.seq (lit '`') (.star false (.cls ⟨true, []⟩))) (lit '`')
def x2 : Re := .cls ⟨false, [.word, .chr '.', .chr '!', .chr '#', .chr '$', .chr '%', .chr '&', .chr '\'', .chr '*', .chr '+', .chr '/', .chr '=', .chr '?', .chr '^', .chr '_', .chr '{', .chr '|', .chr '}', .chr '~', .chr '-']⟩
def x3 : Re := .seq (.cls ⟨false, [.word, .chr '-']⟩) (.opt true (.seq (.cls ⟨false, [.word, .chr '-']⟩) (.opt true (.seq (.cls ⟨false, [.word, .chr '-']⟩) (.eps)))))
def x4 : Re := .seq (.cls ⟨false, [.word, .chr '-']⟩) (.opt true (.seq (.cls ⟨false, [.word, .chr '-']⟩) (.opt true (.seq (.cls ⟨false, [.word, .chr '-']⟩) (.opt true (x3))))))
def x5 : Re := .seq (.cls ⟨false, [.word, .chr '-']⟩) (.opt true (.seq (.cls ⟨false, [.word, .chr '-']⟩) (.opt true (.seq (.cls ⟨false, [.word, .chr '-']⟩) (.opt true (x4))))))
def x6 : Re := .seq (.cls ⟨false, [.word, .chr '-']⟩) (.opt true (.seq (.cls ⟨false, [.word, .chr '-']⟩) (.opt true (.seq (.cls ⟨false, [.word, .chr '-']⟩) (.opt true (x5))))))
def x7 : Re := .seq (.cls ⟨false, [.word, .chr '-']⟩) (.opt true (.seq (.cls ⟨false, [.word, .chr '-']⟩) (.opt true (.seq (.cls ⟨false, [.word, .chr '-']⟩) (.opt true (x6))))))
def x8 : Re := .seq (.cls ⟨false, [.word, .chr '-']⟩) (.opt true (.seq (.cls ⟨false, [.word, .chr '-']⟩) (.opt true (.seq (.cls ⟨false, [.word, .chr '-']⟩) (.opt true (x7))))))
def x9 : Re := .seq (.cls ⟨false, [.word, .chr '-']⟩) (.opt true (.seq (.cls ⟨false, [.word, .chr '-']⟩) (.opt true (.seq (.cls ⟨false, [.word, .chr '-']⟩) (.opt true (x8))))))
def x10 : Re := .seq (.cls ⟨false, [.word, .chr '-']⟩) (.opt true (.seq (.cls ⟨false, [.word, .chr '-']⟩) (.opt true (.seq (.cls ⟨false, [.word, .chr '-']⟩) (.opt true (x9))))))
def x11 : Re := .seq (.cls ⟨false, [.word, .chr '-']⟩) (.opt true (.seq (.cls ⟨false, [.word, .chr '-']⟩) (.opt true (.seq (.cls ⟨false, [.word, .chr '-']⟩) (.opt true (x10))))))
def x12 : Re := .seq (.cls ⟨false, [.word, .chr '-']⟩) (.opt true (.seq (.cls ⟨false, [.word, .chr '-']⟩) (.opt true (.seq (.cls ⟨false, [.word, .chr '-']⟩) (.opt true (x11))))))
def x13 : Re := .seq (.cls ⟨false, [.word, .chr '-']⟩) (.opt true (.seq (.cls ⟨false, [.word, .chr '-']⟩) (.opt true (.seq (.cls ⟨false, [.word, .chr '-']⟩) (.opt true (x12))))))
def x14 : Re := .seq (.cls ⟨false, [.word, .chr '-']⟩) (.opt true (.seq (.cls ⟨false, [.word, .chr '-']⟩) (.opt true (.seq (.cls ⟨false, [.word, .chr '-']⟩) (.opt true (x13))))))
def x15 : Re := .seq (.cls ⟨false, [.word, .chr '-']⟩) (.opt true (.seq (.cls ⟨false, [.word, .chr '-']⟩) (.opt true (.seq (.cls ⟨false, [.word, .chr '-']⟩) (.opt true (x14))))))
def x16 : Re := .seq (.cls ⟨false, [.word, .chr '-']⟩) (.opt true (.seq (.cls ⟨false, [.word, .chr '-']⟩) (.opt true (.seq (.cls ⟨false, [.word, .chr '-']⟩) (.opt true (x15))))))
def x17 : Re := .seq (.cls ⟨false, [.word, .chr '-']⟩) (.opt true (.seq (.cls ⟨false, [.word, .chr '-']⟩) (.opt true (.seq (.cls ⟨false, [.word, .chr '-']⟩) (.opt true (x16))))))
def x18 : Re := .seq (.cls ⟨false, [.word, .chr '-']⟩) (.opt true (.seq (.cls ⟨false, [.word, .chr '-']⟩) (.opt true (.seq (.cls ⟨false, [.word, .chr '-']⟩) (.opt true (x17))))))
def x19 : Re := .seq (.cls ⟨false, [.word, .chr '-']⟩) (.opt true (.seq (.cls ⟨false, [.word, .chr '-']⟩) (.opt true (.seq (.cls ⟨false, [.word, .chr '-']⟩) (.opt true (x18))))))
def x20 : Re := .seq (.cls ⟨false, [.word, .chr '-']⟩) (.opt true (.seq (.cls ⟨false, [.word, .chr '-']⟩) (.opt true (.seq (.cls ⟨false, [.word, .chr '-']⟩) (.opt true (x19))))))
def x21 : Re := .seq (.cls ⟨false, [.word, .chr '-']⟩) (.opt true (.seq (.cls ⟨false, [.word, .chr '-']⟩) (.opt true (.seq (.cls ⟨false, [.word, .chr '-']⟩) (.opt true (x20))))))
def x22 : Re := .seq (.cls ⟨false, [.word, .chr '-']⟩) (.opt true (.seq (.cls ⟨false, [.word, .chr '-']⟩) (.opt true (.seq (.cls ⟨false, [.word, .chr '-']⟩) (.opt true (x21))))))
def x23 : Re := .seq (.cls ⟨false, [.word, .chr '-']⟩) (.opt true (x22))
def x24 : Re := .seq (lit '.') (x23)
def x25 : Re := .seq (.seq (.seq (.seq (.group c!"" (.alt (.cls ⟨false, [.nonWord]⟩) (.bol false))) (.seq (x2) (.star true (x2)))) (lit '@')) (x23)) (.seq (x24) (.star true (x24)))
def x26 : Re := .seq (lit '$') (lit '{')
def x27 : Re := .seq (lit '@') (lit '@')
def x28 : Re := .seq (lit '@') (lit '{')
def x29 : Re := .seq (x28) (lit '{')
def x30 : Re := .seq (lit '@') (lit '<')
def x31 : Re := .seq (x30) (lit ';')
def x32 : Re := .seq (.seq (.bol true) (.group c!"before" (.star true (.cls ⟨true, [.chr '\n']⟩)))) (lit '@')
def x33 : Re := .group c!"reduce" (.seq (.opt true (.group c!"" (.alt (.group c!"reduce1" (lit '-')) (lit '_')))) (.group c!"reduce2" (.opt true (lit '-'))))
def x34 : Re := .seq (.seq (.seq (lit 'a') (lit 'u')) (lit 't')) (lit 'o')
def x35 : Re := .alt (.seq (.seq (.seq (.seq (.seq (.seq (lit 'a') (lit 'i')) (lit 'n')) (lit 'd')) (lit 'e')) (lit 'n')) (lit 't')) (.seq (.seq (.seq (.seq (.seq (.seq (lit 'a') (lit 'I')) (lit 'n')) (lit 'd')) (lit 'e')) (lit 'n')) (lit 't'))
def x36 : Re := .seq (.seq (.seq (x32) (x33)) (.alt (.seq (.seq (.seq (.seq (.seq (.seq (x34) (lit 'I')) (lit 'n')) (lit 'd')) (lit 'e')) (lit 'n')) (lit 't')) (x35))) (lit '(')
def x37 : Re := .alt (.seq (.seq (.seq (.seq (lit 'a') (lit 'w')) (lit 'r')) (lit 'a')) (lit 'p')) (.seq (.seq (.seq (.seq (lit 'a') (lit 'W')) (lit 'r')) (lit 'a')) (lit 'p'))
def x38 : Re := .seq (.seq (.seq (x32) (.opt true (.group c!"nl" (lit '<')))) (x33)) (.group c!"func" (.alt (.seq (.seq (.seq (.seq (x34) (lit 'W')) (lit 'r')) (lit 'a')) (lit 'p')) (x37)))
def x39 : Re := .seq (.seq (x38) (.group c!"context" (.seq (lit '(') (.star true (.cls ⟨true, [.chr '\n']⟩))))) (.eol true)
def x40 : Re := .seq (.seq (.seq (.seq (.seq (.seq (lit '"') (lit '@')) (x33)) (lit '<')) (.group c!"content" (.star false (.cls ⟨true, [.chr '\n']⟩)))) (lit '>')) (lit '"')
def x41 : Re := .seq (lit '/') (lit '/')
def x42 : Re := .alt (lit '#') (x41)
def x43 : Re := .seq (.seq (.seq (.seq (.star true (.cls ⟨false, [.blank]⟩)) (x42)) (lit '!')) (.star true (.cls ⟨false, [.blank]⟩))) (lit '@')
def x44 : Re := .seq (.seq (.seq (.seq (.seq (.seq (lit '/') (lit '*')) (lit '@')) (.group c!"content" (.star false (.cls ⟨true, []⟩)))) (lit '@')) (lit '*')) (lit '/')
def x45 : Re := .seq (.seq (.seq (.star true (.cls ⟨false, [.blank]⟩)) (.alt (.seq (lit '#') (lit '#')) (.seq (x41) (lit '/')))) (.star true (.cls ⟨false, [.blank]⟩))) (lit '@')
def x46 : Re := .seq (.seq (x45) (.star true (.cls ⟨true, [.chr '\n']⟩))) (.eol true)
def x47 : Re := .seq (lit '@') (x33)
def x48 : Re := .seq (.seq (.seq (.seq (x47) (.group c!"" (x42))) (.star true (.cls ⟨false, [.blank]⟩))) (.group c!"line_comment" (.star true (.cls ⟨true, [.chr '\n']⟩)))) (.star true (.cls ⟨false, [.blank]⟩))
def x49 : Re := .seq (x48) (.eol true)
def x50 : Re := .seq (.seq (.seq (.seq (.seq (x47) (lit '/')) (lit '*')) (.group c!"block_comment" (.star false (.cls ⟨true, []⟩)))) (lit '*')) (lit '/')
def x51 : Re := .seq (lit '{') (lit '{')
def x52 : Re := .seq (.seq (.seq (x51) (lit ' ')) (lit '/')) (lit '*')
def x53 : Re := .seq (.seq (.seq (.seq (lit '*') (lit '/')) (lit ' ')) (lit '}')) (lit '}')
def x54 : Re := .seq (.seq (.seq (.seq (x47) (lit 'f')) (lit 'o')) (lit 'r')) (.opt true (.seq (.seq (.seq (.seq (.star true (.cls ⟨false, [.blank]⟩)) (lit 'e')) (lit 'a')) (lit 'c')) (lit 'h')))
def x55 : Re := .seq (.seq (x54) (.star true (.cls ⟨false, [.blank]⟩))) (lit '(')
def x56 : Re := .seq (lit 'i') (lit 'f')
def x57 : Re := .seq (.seq (.seq (lit 'w') (lit 'i')) (lit 't')) (lit 'h')
def x58 : Re := .seq (lit 'r') (lit 'a')
def x59 : Re := .seq (.seq (.seq (x58) (lit 'n')) (lit 'g')) (lit 'e')
def x60 : Re := .seq (.seq (.seq (.seq (x47) (.group c!"command" (.alt (x56) (.alt (x57) (x59))))) (.star true (.cls ⟨false, [.blank]⟩))) (lit '(')) (.star true (.cls ⟨false, [.blank]⟩))
def x61 : Re := .cls ⟨false, [.letter, .digit, .chr '_']⟩
def x62 : Re := .seq (x61) (.star true (x61))
def x63 : Re := .seq (.seq (lit '$') (x62)) (.star true (.cls ⟨false, [.chr ' ', .chr '\t', .chr ',']⟩))
def x64 : Re := .opt true (.group c!"assign" (.seq (.seq (.seq (.seq (x63) (.opt true (.seq (x63) (.eps)))) (lit ':')) (lit '=')) (.star true (.cls ⟨false, [.blank]⟩))))
def x65 : Re := .seq (.seq (x60) (x64)) (.star true (.cls ⟨false, [.blank]⟩))
def x66 : Re := .seq (.cls ⟨true, [.chr '\n']⟩) (.star true (.cls ⟨true, [.chr '\n']⟩))
def x67 : Re := .group c!"expr" (x66)
def x68 : Re := .seq (.seq (.seq (.seq (x65) (x67)) (.star true (.cls ⟨false, [.blank]⟩))) (lit ')')) (.star true (.cls ⟨false, [.blank]⟩))
def x69 : Re := .seq (.cls ⟨true, [.chr '\n']⟩) (.star false (.cls ⟨true, [.chr '\n']⟩))
def x70 : Re := .group c!"action" (x69)
def x71 : Re := .seq (.seq (.seq (x68) (x70)) (.star true (.cls ⟨false, [.blank]⟩))) (lit ';')
def x72 : Re := .star true (.cls ⟨true, [.chr '@', .chr '\n']⟩)
def x73 : Re := .seq (.cls ⟨true, [.chr '@', .chr '\n']⟩) (x72)
def x74 : Re := .group c!"expr" (x73)
def x75 : Re := .seq (.seq (.seq (.seq (x65) (x74)) (.star true (.cls ⟨false, [.blank]⟩))) (lit ')')) (.star true (.cls ⟨false, [.blank]⟩))
def x76 : Re := .seq (.seq (.seq (x75) (x70)) (.star true (.cls ⟨false, [.blank]⟩))) (lit ';')
def x77 : Re := .cls ⟨true, [.chr '@', .chr ';', .chr '\n']⟩
def x78 : Re := .star true (x77)
def x79 : Re := .seq (x77) (x78)
def x80 : Re := .group c!"expr" (x79)
def x81 : Re := .seq (.seq (.seq (.seq (x65) (x80)) (.star true (.cls ⟨false, [.blank]⟩))) (lit ')')) (.star true (.cls ⟨false, [.blank]⟩))
def x82 : Re := .seq (.seq (.seq (x81) (x70)) (.star true (.cls ⟨false, [.blank]⟩))) (lit ';')
def x83 : Re := .cls ⟨true, [.chr '@', .chr '{', .chr '\n']⟩
def x84 : Re := .star true (x83)
def x85 : Re := .seq (x83) (x84)
def x86 : Re := .group c!"expr" (x85)
def x87 : Re := .seq (.seq (.seq (.seq (x65) (x86)) (.star true (.cls ⟨false, [.blank]⟩))) (lit ')')) (.star true (.cls ⟨false, [.blank]⟩))
def x88 : Re := .seq (.seq (.seq (x87) (x70)) (.star true (.cls ⟨false, [.blank]⟩))) (lit ';')
def x89 : Re := .cls ⟨true, [.chr '@', .chr ';', .chr '{', .chr '\n']⟩
def x90 : Re := .star true (x89)
def x91 : Re := .seq (x89) (x90)
def x92 : Re := .group c!"expr" (x91)
def x93 : Re := .seq (.seq (.seq (.seq (x65) (x92)) (.star true (.cls ⟨false, [.blank]⟩))) (lit ')')) (.star true (.cls ⟨false, [.blank]⟩))
def x94 : Re := .seq (.seq (.seq (x93) (x70)) (.star true (.cls ⟨false, [.blank]⟩))) (lit ';')
def x95 : Re := .cls ⟨true, [.chr '@', .chr ';', .chr '{', .chr '\n', .chr '\'', .chr '`']⟩
def x96 : Re := .star true (x95)
def x97 : Re := .seq (x95) (x96)
def x98 : Re := .group c!"expr" (x97)
def x99 : Re := .seq (.seq (.seq (.seq (x65) (x98)) (.star true (.cls ⟨false, [.blank]⟩))) (lit ')')) (.star true (.cls ⟨false, [.blank]⟩))
def x100 : Re := .seq (.seq (.seq (x99) (x70)) (.star true (.cls ⟨false, [.blank]⟩))) (lit ';')
def x101 : Re := .cls ⟨false, [.letter, .chr '_', .chr '.']⟩
def x102 : Re := .star true (x101)
def x103 : Re := .seq (x101) (x102)
def x104 : Re := .group c!"expr" (x103)
def x105 : Re := .seq (.seq (.seq (.seq (x65) (x104)) (.star true (.cls ⟨false, [.blank]⟩))) (lit ')')) (.star true (.cls ⟨false, [.blank]⟩))
def x106 : Re := .seq (.seq (.seq (x105) (x70)) (.star true (.cls ⟨false, [.blank]⟩))) (lit ';')
def x107 : Re := .seq (.seq (.seq (.seq (.seq (.seq (x68) (lit '{')) (.star true (.cls ⟨false, [.blank]⟩))) (x70)) (lit '}')) (.star true (.cls ⟨false, [.blank]⟩))) (.eol true)
def x108 : Re := .seq (.seq (.seq (.seq (.seq (.seq (x75) (lit '{')) (.star true (.cls ⟨false, [.blank]⟩))) (x70)) (lit '}')) (.star true (.cls ⟨false, [.blank]⟩))) (.eol true)
def x109 : Re := .seq (.seq (.seq (.seq (.seq (.seq (x81) (lit '{')) (.star true (.cls ⟨false, [.blank]⟩))) (x70)) (lit '}')) (.star true (.cls ⟨false, [.blank]⟩))) (.eol true)
def x110 : Re := .seq (.seq (.seq (.seq (.seq (.seq (x87) (lit '{')) (.star true (.cls ⟨false, [.blank]⟩))) (x70)) (lit '}')) (.star true (.cls ⟨false, [.blank]⟩))) (.eol true)
def x111 : Re := .seq (.seq (.seq (.seq (.seq (.seq (x93) (lit '{')) (.star true (.cls ⟨false, [.blank]⟩))) (x70)) (lit '}')) (.star true (.cls ⟨false, [.blank]⟩))) (.eol true)
def x112 : Re := .seq (.seq (.seq (.seq (.seq (.seq (x99) (lit '{')) (.star true (.cls ⟨false, [.blank]⟩))) (x70)) (lit '}')) (.star true (.cls ⟨false, [.blank]⟩))) (.eol true)
def x113 : Re := .seq (.seq (.seq (.seq (.seq (.seq (x105) (lit '{')) (.star true (.cls ⟨false, [.blank]⟩))) (x70)) (lit '}')) (.star true (.cls ⟨false, [.blank]⟩))) (.eol true)
def x114 : Re := .seq (lit 'e') (lit 'l')
def x115 : Re := .seq (.seq (.seq (.seq (lit 'b') (lit 'l')) (lit 'o')) (lit 'c')) (lit 'k')
def x116 : Re := .seq (.seq (.seq (.seq (.seq (lit 'd') (lit 'e')) (lit 'f')) (lit 'i')) (lit 'n')) (lit 'e')
def x117 : Re := .alt (.seq (.seq (.seq (.seq (.seq (x114) (lit 's')) (lit 'e')) (.star true (.cls ⟨false, [.blank]⟩))) (lit 'i')) (lit 'f')) (.alt (x115) (.alt (x57) (.alt (x116) (x59))))
def x118 : Re := .seq (.seq (.seq (.seq (x47) (.group c!"command" (.alt (x56) (x117)))) (.star true (.cls ⟨false, [.blank]⟩))) (lit '(')) (.star true (.cls ⟨false, [.blank]⟩))
def x119 : Re := .seq (.seq (x118) (x64)) (.star true (.cls ⟨false, [.blank]⟩))
def x120 : Re := .seq (.seq (.seq (.seq (x119) (x67)) (.star true (.cls ⟨false, [.blank]⟩))) (lit ')')) (.star true (.cls ⟨false, [.blank]⟩))
def x121 : Re := .seq (.seq (.seq (.seq (x119) (x74)) (.star true (.cls ⟨false, [.blank]⟩))) (lit ')')) (.star true (.cls ⟨false, [.blank]⟩))
def x122 : Re := .seq (.seq (.seq (.seq (x119) (x80)) (.star true (.cls ⟨false, [.blank]⟩))) (lit ')')) (.star true (.cls ⟨false, [.blank]⟩))
def x123 : Re := .seq (.seq (.seq (.seq (x119) (x86)) (.star true (.cls ⟨false, [.blank]⟩))) (lit ')')) (.star true (.cls ⟨false, [.blank]⟩))
def x124 : Re := .seq (.seq (.seq (.seq (x119) (x92)) (.star true (.cls ⟨false, [.blank]⟩))) (lit ')')) (.star true (.cls ⟨false, [.blank]⟩))
def x125 : Re := .seq (.seq (.seq (.seq (x119) (x98)) (.star true (.cls ⟨false, [.blank]⟩))) (lit ')')) (.star true (.cls ⟨false, [.blank]⟩))
def x126 : Re := .seq (.seq (.seq (.seq (x119) (x104)) (.star true (.cls ⟨false, [.blank]⟩))) (lit ')')) (.star true (.cls ⟨false, [.blank]⟩))
def x127 : Re := .seq (.seq (.seq (.seq (x47) (lit 'e')) (lit 'l')) (lit 's')) (lit 'e')
def x128 : Re := .seq (.seq (lit 'f') (lit 'o')) (lit 'r')
def x129 : Re := .alt (x57) (.alt (.seq (.seq (.seq (.seq (.seq (x128) (.star true (.cls ⟨false, [.blank]⟩))) (lit 'e')) (lit 'a')) (lit 'c')) (lit 'h')) (.alt (x128) (.eps)))
def x130 : Re := .seq (.seq (.seq (.seq (lit 'e') (lit 'n')) (lit 'd')) (.star true (.cls ⟨false, [.blank]⟩))) (.group c!"" (.alt (x56) (.alt (x59) (.alt (x116) (.alt (x115) (x129))))))
def x131 : Re := .opt true (.seq (.star true (.cls ⟨false, [.blank]⟩)) (lit ';'))
def x132 : Re := .seq (.seq (x47) (.group c!"command" (x130))) (x131)
def x133 : Re := .seq (.cls ⟨false, [.letter, .digit, .chr '_', .chr '+', .chr '*', .chr '%', .chr '#', .chr '!', .chr '~']⟩) (.star true (.cls ⟨false, [.letter, .digit, .chr '_', .chr '+', .chr '*', .chr '%', .chr '#', .chr '!', .chr '~', .chr '.', .chr '-']⟩))
def x134 : Re := .seq (.seq (.group c!"type" (.seq (lit '@') (.opt true (.group c!"" (.alt (lit '$') (.alt (lit '.') (.seq (lit '$') (lit '.')))))))) (.group c!"id" (x133))) (.star true (.cls ⟨false, [.blank]⟩))
def x135 : Re := .alt (.seq (lit '«') (lit '=')) (.alt (.seq (.seq (lit '>') (lit '>')) (lit '=')) (.alt (.seq (lit '»') (lit '=')) (.seq (.seq (lit '&') (lit '^')) (lit '='))))
def x136 : Re := .alt (.seq (lit '&') (lit '=')) (.alt (.seq (lit '|') (lit '=')) (.alt (.seq (lit '^') (lit '=')) (.alt (.seq (.seq (lit '<') (lit '<')) (lit '=')) (x135))))
def x137 : Re := .alt (.seq (lit '-') (lit '=')) (.alt (.seq (lit '*') (lit '=')) (.alt (.seq (lit '/') (lit '=')) (.alt (.seq (lit '÷') (lit '=')) (.alt (.seq (lit '%') (lit '=')) (x136)))))
def x138 : Re := .group c!"assign" (.alt (.seq (lit ':') (lit '=')) (.alt (.seq (lit '~') (lit '=')) (.alt (lit '=') (.alt (.seq (lit '+') (lit '=')) (x137)))))
def x139 : Re := .seq (.seq (x134) (x138)) (.star true (.cls ⟨false, [.blank]⟩))
def x140 : Re := .seq (.seq (x139) (x67)) (x131)
def x141 : Re := .seq (.seq (x139) (x74)) (x131)
def x142 : Re := .seq (.seq (x139) (x80)) (x131)
def x143 : Re := .seq (.seq (x139) (x86)) (x131)
def x144 : Re := .seq (.seq (x139) (x92)) (x131)
def x145 : Re := .seq (.seq (x139) (x98)) (x131)
def x146 : Re := .seq (.seq (x139) (x104)) (x131)
def x147 : Re := .cls ⟨false, [.letter, .digit, .chr '_', .chr '.']⟩
def x148 : Re := .star true (x147)
def x149 : Re := .seq (.group c!"type" (x28)) (.group c!"id" (.seq (x147) (x148)))
def x150 : Re := .seq (.seq (.seq (.seq (x149) (lit '}')) (.star true (.cls ⟨false, [.blank]⟩))) (x138)) (.star true (.cls ⟨false, [.blank]⟩))
def x151 : Re := .seq (.seq (x150) (x67)) (x131)
def x152 : Re := .seq (.seq (x150) (x74)) (x131)
def x153 : Re := .seq (.seq (x150) (x80)) (x131)
def x154 : Re := .seq (.seq (x150) (x86)) (x131)
def x155 : Re := .seq (.seq (x150) (x92)) (x131)
def x156 : Re := .seq (.seq (x150) (x98)) (x131)
def x157 : Re := .seq (.seq (x150) (x104)) (x131)
def x158 : Re := .seq (.seq (.seq (x149) (.star true (.cls ⟨false, [.blank]⟩))) (x138)) (.star true (.cls ⟨false, [.blank]⟩))
def x159 : Re := .seq (.seq (.seq (x158) (.group c!"expr" (x69))) (lit '}')) (x131)
def x160 : Re := .seq (.seq (.seq (x158) (.group c!"expr" (.seq (.cls ⟨true, [.chr '@', .chr '\n']⟩) (.star false (.cls ⟨true, [.chr '@', .chr '\n']⟩))))) (lit '}')) (x131)
def x161 : Re := .seq (.seq (.seq (x158) (.group c!"expr" (.seq (x77) (.star false (x77))))) (lit '}')) (x131)
def x162 : Re := .seq (.seq (.seq (x158) (.group c!"expr" (.seq (x83) (.star false (x83))))) (lit '}')) (x131)
def x163 : Re := .seq (.seq (.seq (x158) (.group c!"expr" (.seq (x89) (.star false (x89))))) (lit '}')) (x131)
def x164 : Re := .seq (.seq (.seq (x158) (.group c!"expr" (.seq (x95) (.star false (x95))))) (lit '}')) (x131)
def x165 : Re := .seq (.seq (.seq (x158) (.group c!"expr" (.seq (x101) (.star false (x101))))) (lit '}')) (x131)
def x166 : Re := .seq (.seq (x62) (lit '(')) (.star true (.cls ⟨false, [.blank]⟩))
def x167 : Re := .seq (x47) (.group c!"expr" (.seq (.seq (.seq (x166) (.star true (.cls ⟨true, [.chr '\n']⟩))) (.star true (.cls ⟨false, [.blank]⟩))) (lit ')')))
def x168 : Re := .group c!"selection" (.seq (lit '.') (x66))
def x169 : Re := .seq (.seq (x167) (x168)) (x131)
def x170 : Re := .seq (x47) (.group c!"expr" (.seq (.seq (.seq (x166) (x72)) (.star true (.cls ⟨false, [.blank]⟩))) (lit ')')))
def x171 : Re := .group c!"selection" (.seq (lit '.') (x73))
def x172 : Re := .seq (.seq (x170) (x171)) (x131)
def x173 : Re := .seq (x47) (.group c!"expr" (.seq (.seq (.seq (x166) (x78)) (.star true (.cls ⟨false, [.blank]⟩))) (lit ')')))
def x174 : Re := .group c!"selection" (.seq (lit '.') (x79))
def x175 : Re := .seq (.seq (x173) (x174)) (x131)
def x176 : Re := .seq (x47) (.group c!"expr" (.seq (.seq (.seq (x166) (x84)) (.star true (.cls ⟨false, [.blank]⟩))) (lit ')')))
def x177 : Re := .group c!"selection" (.seq (lit '.') (x85))
def x178 : Re := .seq (.seq (x176) (x177)) (x131)
def x179 : Re := .seq (x47) (.group c!"expr" (.seq (.seq (.seq (x166) (x90)) (.star true (.cls ⟨false, [.blank]⟩))) (lit ')')))
def x180 : Re := .group c!"selection" (.seq (lit '.') (x91))
def x181 : Re := .seq (.seq (x179) (x180)) (x131)
def x182 : Re := .seq (x47) (.group c!"expr" (.seq (.seq (.seq (x166) (x96)) (.star true (.cls ⟨false, [.blank]⟩))) (lit ')')))
def x183 : Re := .group c!"selection" (.seq (lit '.') (x97))
def x184 : Re := .seq (.seq (x182) (x183)) (x131)
def x185 : Re := .seq (x47) (.group c!"expr" (.seq (.seq (.seq (x166) (x102)) (.star true (.cls ⟨false, [.blank]⟩))) (lit ')')))
def x186 : Re := .group c!"selection" (.seq (lit '.') (x103))
def x187 : Re := .seq (.seq (x185) (x186)) (x131)
def x188 : Re := .group c!"index" (.seq (.seq (lit '[') (x66)) (lit ']'))
def x189 : Re := .seq (.seq (x167) (x188)) (x131)
def x190 : Re := .group c!"index" (.seq (.seq (lit '[') (x73)) (lit ']'))
def x191 : Re := .seq (.seq (x170) (x190)) (x131)
def x192 : Re := .group c!"index" (.seq (.seq (lit '[') (x79)) (lit ']'))
def x193 : Re := .seq (.seq (x173) (x192)) (x131)
def x194 : Re := .group c!"index" (.seq (.seq (lit '[') (x85)) (lit ']'))
def x195 : Re := .seq (.seq (x176) (x194)) (x131)
def x196 : Re := .group c!"index" (.seq (.seq (lit '[') (x91)) (lit ']'))
def x197 : Re := .seq (.seq (x179) (x196)) (x131)
def x198 : Re := .group c!"index" (.seq (.seq (lit '[') (x97)) (lit ']'))
def x199 : Re := .seq (.seq (x182) (x198)) (x131)
def x200 : Re := .group c!"index" (.seq (.seq (lit '[') (x103)) (lit ']'))
def x201 : Re := .seq (.seq (x185) (x200)) (x131)
def x202 : Re := .seq (x167) (x131)
def x203 : Re := .seq (x170) (x131)
def x204 : Re := .seq (x173) (x131)
def x205 : Re := .seq (x176) (x131)
def x206 : Re := .seq (x179) (x131)
def x207 : Re := .seq (x182) (x131)
def x208 : Re := .seq (x185) (x131)
def x209 : Re := .seq (.seq (.seq (x47) (.group c!"function" (x62))) (lit '(')) (.star true (.cls ⟨false, [.blank]⟩))
def x210 : Re := .seq (.seq (.seq (.seq (x209) (.group c!"args" (x66))) (.star true (.cls ⟨false, [.blank]⟩))) (lit ')')) (x131)
def x211 : Re := .seq (.seq (.seq (.seq (x209) (.group c!"args" (x73))) (.star true (.cls ⟨false, [.blank]⟩))) (lit ')')) (x131)
def x212 : Re := .seq (.seq (.seq (.seq (x209) (.group c!"args" (x79))) (.star true (.cls ⟨false, [.blank]⟩))) (lit ')')) (x131)
def x213 : Re := .seq (.seq (.seq (.seq (x209) (.group c!"args" (x85))) (.star true (.cls ⟨false, [.blank]⟩))) (lit ')')) (x131)
def x214 : Re := .seq (.seq (.seq (.seq (x209) (.group c!"args" (x91))) (.star true (.cls ⟨false, [.blank]⟩))) (lit ')')) (x131)
def x215 : Re := .seq (.seq (.seq (.seq (x209) (.group c!"args" (x97))) (.star true (.cls ⟨false, [.blank]⟩))) (lit ')')) (x131)
def x216 : Re := .seq (.seq (.seq (.seq (x209) (.group c!"args" (x103))) (.star true (.cls ⟨false, [.blank]⟩))) (lit ')')) (x131)
def x217 : Re := .seq (.seq (.seq (.seq (.seq (x47) (lit '{')) (.star true (.cls ⟨false, [.blank]⟩))) (.group c!"name" (x148))) (.star true (.cls ⟨false, [.blank]⟩))) (lit '}')
def x218 : Re := .group c!"end" (x131)
def x219 : Re := .seq (x217) (x218)
def x220 : Re := .seq (.cls ⟨false, [.letter, .chr '_']⟩) (x148)
def x221 : Re := .seq (.seq (x47) (.group c!"expr" (.seq (.seq (x220) (x168)) (.opt true (x188))))) (x218)
def x222 : Re := .seq (.seq (x47) (.group c!"expr" (.seq (.seq (x220) (x171)) (.opt true (x190))))) (x218)
def x223 : Re := .seq (.seq (x47) (.group c!"expr" (.seq (.seq (x220) (x174)) (.opt true (x192))))) (x218)
def x224 : Re := .seq (.seq (x47) (.group c!"expr" (.seq (.seq (x220) (x177)) (.opt true (x194))))) (x218)
def x225 : Re := .seq (.seq (x47) (.group c!"expr" (.seq (.seq (x220) (x180)) (.opt true (x196))))) (x218)
def x226 : Re := .seq (.seq (x47) (.group c!"expr" (.seq (.seq (x220) (x183)) (.opt true (x198))))) (x218)
def x227 : Re := .seq (.seq (x47) (.group c!"expr" (.seq (.seq (x220) (x186)) (.opt true (x200))))) (x218)
def x228 : Re := .seq (x47) (lit '.')
def x229 : Re := .group c!"name" (x220)
def x230 : Re := .seq (.seq (x228) (x229)) (x131)
def x231 : Re := .seq (x47) (x229)
def x232 : Re := .seq (.seq (x231) (x188)) (x131)
def x233 : Re := .seq (.seq (x231) (x190)) (x131)
def x234 : Re := .seq (.seq (x231) (x192)) (x131)
def x235 : Re := .seq (.seq (x231) (x194)) (x131)
def x236 : Re := .seq (.seq (x231) (x196)) (x131)
def x237 : Re := .seq (.seq (x231) (x198)) (x131)
def x238 : Re := .seq (.seq (x231) (x200)) (x131)
def x239 : Re := .group c!"name" (x133)
def x240 : Re := .group c!"expr" (.seq (x239) (x188))
def x241 : Re := .seq (.seq (x228) (x240)) (x131)
def x242 : Re := .group c!"expr" (.seq (x239) (x190))
def x243 : Re := .seq (.seq (x228) (x242)) (x131)
def x244 : Re := .group c!"expr" (.seq (x239) (x192))
def x245 : Re := .seq (.seq (x228) (x244)) (x131)
def x246 : Re := .group c!"expr" (.seq (x239) (x194))
def x247 : Re := .seq (.seq (x228) (x246)) (x131)
def x248 : Re := .group c!"expr" (.seq (x239) (x196))
def x249 : Re := .seq (.seq (x228) (x248)) (x131)
def x250 : Re := .group c!"expr" (.seq (x239) (x198))
def x251 : Re := .seq (.seq (x228) (x250)) (x131)
def x252 : Re := .group c!"expr" (.seq (x239) (x200))
def x253 : Re := .seq (.seq (x228) (x252)) (x131)
def x254 : Re := .seq (.seq (x47) (x240)) (x131)
def x255 : Re := .seq (.seq (x47) (x242)) (x131)
def x256 : Re := .seq (.seq (x47) (x244)) (x131)
def x257 : Re := .seq (.seq (x47) (x246)) (x131)
def x258 : Re := .seq (.seq (x47) (x248)) (x131)
def x259 : Re := .seq (.seq (x47) (x250)) (x131)
def x260 : Re := .seq (.seq (x47) (x252)) (x131)
def x261 : Re := .group c!"name" (.seq (.cls ⟨false, [.chr '$', .chr '.']⟩) (x148))
def x262 : Re := .seq (.seq (x47) (.group c!"expr" (.seq (x261) (x188)))) (x131)
def x263 : Re := .seq (.seq (x47) (.group c!"expr" (.seq (x261) (x190)))) (x131)
def x264 : Re := .seq (.seq (x47) (.group c!"expr" (.seq (x261) (x192)))) (x131)
def x265 : Re := .seq (.seq (x47) (.group c!"expr" (.seq (x261) (x194)))) (x131)
def x266 : Re := .seq (.seq (x47) (.group c!"expr" (.seq (x261) (x196)))) (x131)
def x267 : Re := .seq (.seq (x47) (.group c!"expr" (.seq (x261) (x198)))) (x131)
def x268 : Re := .seq (.seq (x47) (.group c!"expr" (.seq (x261) (x200)))) (x131)
def x269 : Re := .seq (x231) (x131)
def x270 : Re := .seq (.seq (x228) (x239)) (x131)
def x271 : Re := .seq (.seq (x47) (x239)) (x131)
def x272 : Re := .seq (.seq (x47) (x261)) (x131)
def x273 : Re := .seq (.seq (.seq (.seq (lit '(') (.star true (.cls ⟨false, [.blank]⟩))) (x229)) (.star true (.cls ⟨false, [.blank]⟩))) (lit ')')
def x274 : Re := .seq (.seq (x47) (.group c!"expr" (.seq (x273) (x188)))) (x131)
def x275 : Re := .seq (.seq (x47) (.group c!"expr" (.seq (x273) (x190)))) (x131)
def x276 : Re := .seq (.seq (x47) (.group c!"expr" (.seq (x273) (x192)))) (x131)
def x277 : Re := .seq (.seq (x47) (.group c!"expr" (.seq (x273) (x194)))) (x131)
def x278 : Re := .seq (.seq (x47) (.group c!"expr" (.seq (x273) (x196)))) (x131)
def x279 : Re := .seq (.seq (x47) (.group c!"expr" (.seq (x273) (x198)))) (x131)
def x280 : Re := .seq (.seq (x47) (.group c!"expr" (.seq (x273) (x200)))) (x131)
def x281 : Re := .seq (.seq (x47) (lit '(')) (.star true (.cls ⟨false, [.blank]⟩))
def x282 : Re := .seq (.seq (.seq (.seq (x281) (.group c!"expr" (x220))) (.star true (.cls ⟨false, [.blank]⟩))) (lit ')')) (x131)
def x283 : Re := .seq (.seq (.seq (.seq (.seq (x281) (x67)) (.star true (.cls ⟨false, [.blank]⟩))) (lit ')')) (x188)) (x131)
def x284 : Re := .seq (.seq (.seq (.seq (.seq (x281) (x74)) (.star true (.cls ⟨false, [.blank]⟩))) (lit ')')) (x190)) (x131)
def x285 : Re := .seq (.seq (.seq (.seq (.seq (x281) (x80)) (.star true (.cls ⟨false, [.blank]⟩))) (lit ')')) (x192)) (x131)
def x286 : Re := .seq (.seq (.seq (.seq (.seq (x281) (x86)) (.star true (.cls ⟨false, [.blank]⟩))) (lit ')')) (x194)) (x131)
def x287 : Re := .seq (.seq (.seq (.seq (.seq (x281) (x92)) (.star true (.cls ⟨false, [.blank]⟩))) (lit ')')) (x196)) (x131)
def x288 : Re := .seq (.seq (.seq (.seq (.seq (x281) (x98)) (.star true (.cls ⟨false, [.blank]⟩))) (lit ')')) (x198)) (x131)
def x289 : Re := .seq (.seq (.seq (.seq (.seq (x281) (x104)) (.star true (.cls ⟨false, [.blank]⟩))) (lit ')')) (x200)) (x131)
def x290 : Re := .seq (.seq (x281) (.opt true (.group c!"assign" (.seq (.seq (.seq (.star false (.cls ⟨true, [.chr '\n']⟩)) (lit ':')) (lit '=')) (.opt true (lit ' ')))))) (.star true (.cls ⟨false, [.blank]⟩))
def x291 : Re := .seq (.seq (.seq (.seq (x290) (x67)) (.star true (.cls ⟨false, [.blank]⟩))) (lit ')')) (x131)
def x292 : Re := .seq (.seq (.seq (.seq (x290) (x74)) (.star true (.cls ⟨false, [.blank]⟩))) (lit ')')) (x131)
def x293 : Re := .seq (.seq (.seq (.seq (x290) (x80)) (.star true (.cls ⟨false, [.blank]⟩))) (lit ')')) (x131)
def x294 : Re := .seq (.seq (.seq (.seq (x290) (x86)) (.star true (.cls ⟨false, [.blank]⟩))) (lit ')')) (x131)
def x295 : Re := .seq (.seq (.seq (.seq (x290) (x92)) (.star true (.cls ⟨false, [.blank]⟩))) (lit ')')) (x131)
def x296 : Re := .seq (.seq (.seq (.seq (x290) (x98)) (.star true (.cls ⟨false, [.blank]⟩))) (lit ')')) (x131)
def x297 : Re := .seq (.seq (.seq (.seq (x290) (x104)) (.star true (.cls ⟨false, [.blank]⟩))) (lit ')')) (x131)
def x298 : Re := .seq (.seq (lit '@') (lit '-')) (x131)
def x299 : Re := .seq (.seq (.seq (.seq (.seq (.seq (.seq (.seq (.seq (lit '_') (lit '_')) (lit 'F')) (lit 'u')) (lit 'n')) (lit 'c')) (lit 'C')) (lit 'a')) (lit 'l')) (lit 'l')
def x300 : Re := .seq (.seq (.seq (x58) (lit 'w')) (.opt true (.seq (.seq (.seq (lit 'L') (lit 'i')) (lit 's')) (lit 't')))) (.opt true (.seq (.seq (x299) (lit '_')) (lit '_')))
def x301 : Re := .seq (.seq (.seq (.seq (.seq (.seq (.seq (.seq (.seq (x114) (lit 'l')) (lit 'i')) (lit 'p')) (lit 's')) (lit 'i')) (lit 's')) (lit ' ')) (lit '"')) (lit 'r')
def x302 : Re := .seq (.seq (.seq (.seq (.seq (.seq (.seq (.seq (.seq (x301) (lit 'a')) (lit 'w')) (lit '_')) (lit '_')) (lit 'F')) (lit 'u')) (lit 'n')) (lit 'c')) (lit 'C')
def x303 : Re := .seq (.seq (.seq (x51) (.opt true (lit '-'))) (lit ' ')) (.alt (x300) (.seq (.seq (.seq (.seq (.seq (.seq (x302) (lit 'a')) (lit 'l')) (lit 'l')) (lit '_')) (lit '_')) (lit '"')))
def x304 : Re := .seq (.seq (lit '"') (.group c!"content" (.seq (.seq (.seq (.seq (x303) (lit ' ')) (.star false (.cls ⟨true, [.chr '\n']⟩))) (lit '}')) (lit '}')))) (lit '"')
def x305 : Re := .seq (.seq (.seq (.seq (.star false (.cls ⟨true, [.chr '\n']⟩)) (lit '{')) (lit '{')) (.star true (.cls ⟨false, [.blank]⟩))) (.star false (.cls ⟨true, [.chr '\n']⟩))
def x306 : Re := .group c!"content" (.seq (.seq (.seq (.seq (x305) (.star true (.cls ⟨false, [.blank]⟩))) (lit '}')) (lit '}')) (.star false (.cls ⟨true, [.chr '\n']⟩)))
def x307 : Re := .seq (.seq (.seq (.seq (lit '"') (lit '<')) (lit '<')) (x306)) (lit '"')
def x308 : Re := .seq (.seq (lit '_') (lit '=')) (lit '!')
def x309 : Re := .seq (.seq (.seq (.seq (.seq (x308) (lit 'A')) (lit 'T')) (lit '!')) (lit '=')) (lit '_')
def x310 : Re := .seq (.seq (.seq (.seq (.seq (.seq (.seq (.seq (.seq (x308) (lit 'T')) (lit 'R')) (lit 'I')) (lit 'P')) (lit 'L')) (lit 'E')) (lit '_')) (lit 'B')) (lit 'T')
def x311 : Re := .seq (.seq (.seq (x310) (lit '!')) (lit '=')) (lit '_')
def x312 : Re := .seq (.seq (.seq (.seq (.seq (.seq (.seq (x308) (lit 'R')) (lit 'E')) (lit 'P')) (lit 'L')) (lit '!')) (lit '=')) (lit '_')
def x313 : Re := .seq (.seq (.seq (.seq (.seq (.seq (.seq (.seq (.seq (lit '`') (lit '_')) (lit '=')) (lit 'L')) (lit 'O')) (lit 'N')) (lit 'G')) (lit '_')) (lit 'S')) (lit 'T')
def x314 : Re := .seq (.seq (.seq (.seq (.seq (.seq (x313) (lit 'R')) (lit 'I')) (lit 'N')) (lit 'G')) (lit '=')) (.group c!"num" (.seq (.cls ⟨false, [.digit]⟩) (.star true (.cls ⟨false, [.digit]⟩))))
def x315 : Re := .seq (x314) (lit '`')

/-- The comment, the replacement, the parser and the expression of every rule. -/
def table : List (Text × Text × Nat × Re) := [
  (c!"", c!"_=!TRIPLE_BT!=_", 0, x0),
  (c!"", c!"", 1, x1),
  (c!"Protect email", c!"", 1, x25),
  (c!"", c!"_=!REPL!=_", 0, x26),
  (c!"", c!"_=!AT!=_", 0, x27),
  (c!"", c!"{{ \"{{\" }}", 0, x29),
  (c!"", c!"{{- $.NEWLINE }}", 0, x31),
  (c!"Auto indent", c!"@<-spaceIndent(`${before}`, ", 0, x36),
  (c!"Auto wrap", c!"", 1, x39),
  (c!"Inline content \"@<...>\"", c!"\"<<@${reduce}(${content})\"", 0, x40),
  (c!"Newline expression", c!"{{- $.NEWLINE }}@", 0, x30),
  (c!"Pseudo line comments - #! @", c!"@", 0, x43),
  (c!"Pseudo block comments - /*@  @*/", c!"${content}", 0, x44),
  (c!"Real comments - ##|/// @ comment", c!"{{- \"\" }}", 0, x46),
  (c!"Line comment - @// or @#", c!"{{${reduce1} /* ${line_comment} */ ${reduce2}}}", 0, x49),
  (c!"Block comment - @/* */", c!"{{${reduce1} /*${block_comment}*/ ${reduce2}}}", 0, x50),
  (c!"", c!"{{/*", 0, x52),
  (c!"", c!"*/}}", 0, x53),
  (c!"Foreach", c!"@${reduce}range(", 0, x55),
  (c!"Single line command - @command (expr) action;", c!"{{${reduce1} ${command} ${assign}${expr} ${reduce2}}}${action}{{${reduce1} end ${reduce2}}}", 1, x71),
  (c!"Single line command - @command (expr) action;", c!"{{${reduce1} ${command} ${assign}${expr} ${reduce2}}}${action}{{${reduce1} end ${reduce2}}}", 1, x76),
  (c!"Single line command - @command (expr) action;", c!"{{${reduce1} ${command} ${assign}${expr} ${reduce2}}}${action}{{${reduce1} end ${reduce2}}}", 1, x82),
  (c!"Single line command - @command (expr) action;", c!"{{${reduce1} ${command} ${assign}${expr} ${reduce2}}}${action}{{${reduce1} end ${reduce2}}}", 1, x88),
  (c!"Single line command - @command (expr) action;", c!"{{${reduce1} ${command} ${assign}${expr} ${reduce2}}}${action}{{${reduce1} end ${reduce2}}}", 1, x94),
  (c!"Single line command - @command (expr) action;", c!"{{${reduce1} ${command} ${assign}${expr} ${reduce2}}}${action}{{${reduce1} end ${reduce2}}}", 1, x100),
  (c!"Single line command - @command (expr) action;", c!"{{${reduce1} ${command} ${assign}${expr} ${reduce2}}}${action}{{${reduce1} end ${reduce2}}}", 1, x106),
  (c!"Single line command - @command (expr) action;", c!"{{${reduce1} ${command} ${assign}${expr} ${reduce2}}}${action}{{${reduce1} end ${reduce2}}}", 2, x71),
  (c!"Single line command - @command (expr) { action }", c!"{{${reduce1} ${command} ${assign}${expr} ${reduce2}}}${action}{{${reduce1} end ${reduce2}}}", 1, x107),
  (c!"Single line command - @command (expr) { action }", c!"{{${reduce1} ${command} ${assign}${expr} ${reduce2}}}${action}{{${reduce1} end ${reduce2}}}", 1, x108),
  (c!"Single line command - @command (expr) { action }", c!"{{${reduce1} ${command} ${assign}${expr} ${reduce2}}}${action}{{${reduce1} end ${reduce2}}}", 1, x109),
  (c!"Single line command - @command (expr) { action }", c!"{{${reduce1} ${command} ${assign}${expr} ${reduce2}}}${action}{{${reduce1} end ${reduce2}}}", 1, x110),
  (c!"Single line command - @command (expr) { action }", c!"{{${reduce1} ${command} ${assign}${expr} ${reduce2}}}${action}{{${reduce1} end ${reduce2}}}", 1, x111),
  (c!"Single line command - @command (expr) { action }", c!"{{${reduce1} ${command} ${assign}${expr} ${reduce2}}}${action}{{${reduce1} end ${reduce2}}}", 1, x112),
  (c!"Single line command - @command (expr) { action }", c!"{{${reduce1} ${command} ${assign}${expr} ${reduce2}}}${action}{{${reduce1} end ${reduce2}}}", 1, x113),
  (c!"Single line command - @command (expr) { action }", c!"{{${reduce1} ${command} ${assign}${expr} ${reduce2}}}${action}{{${reduce1} end ${reduce2}}}", 2, x107),
  (c!"Command(expr)", c!"{{${reduce1} ${command} ${assign}${expr} ${reduce2}}}", 1, x120),
  (c!"Command(expr)", c!"{{${reduce1} ${command} ${assign}${expr} ${reduce2}}}", 1, x121),
  (c!"Command(expr)", c!"{{${reduce1} ${command} ${assign}${expr} ${reduce2}}}", 1, x122),
  (c!"Command(expr)", c!"{{${reduce1} ${command} ${assign}${expr} ${reduce2}}}", 1, x123),
  (c!"Command(expr)", c!"{{${reduce1} ${command} ${assign}${expr} ${reduce2}}}", 1, x124),
  (c!"Command(expr)", c!"{{${reduce1} ${command} ${assign}${expr} ${reduce2}}}", 1, x125),
  (c!"Command(expr)", c!"{{${reduce1} ${command} ${assign}${expr} ${reduce2}}}", 1, x126),
  (c!"Command(expr)", c!"{{${reduce1} ${command} ${assign}${expr} ${reduce2}}}", 2, x120),
  (c!"else", c!"{{${reduce1} else ${reduce2}}}", 0, x127),
  (c!"various ends", c!"{{${reduce1} end ${reduce2}}}", 0, x132),
  (c!"Assign - @var := value", c!"", 1, x140),
  (c!"Assign - @var := value", c!"", 1, x141),
  (c!"Assign - @var := value", c!"", 1, x142),
  (c!"Assign - @var := value", c!"", 1, x143),
  (c!"Assign - @var := value", c!"", 1, x144),
  (c!"Assign - @var := value", c!"", 1, x145),
  (c!"Assign - @var := value", c!"", 1, x146),
  (c!"Assign - @{var} := value", c!"", 1, x151),
  (c!"Assign - @{var} := value", c!"", 1, x152),
  (c!"Assign - @{var} := value", c!"", 1, x153),
  (c!"Assign - @{var} := value", c!"", 1, x154),
  (c!"Assign - @{var} := value", c!"", 1, x155),
  (c!"Assign - @{var} := value", c!"", 1, x156),
  (c!"Assign - @{var} := value", c!"", 1, x157),
  (c!"Assign - @{var := expr}", c!"", 1, x159),
  (c!"Assign - @{var := expr}", c!"", 1, x160),
  (c!"Assign - @{var := expr}", c!"", 1, x161),
  (c!"Assign - @{var := expr}", c!"", 1, x162),
  (c!"Assign - @{var := expr}", c!"", 1, x163),
  (c!"Assign - @{var := expr}", c!"", 1, x164),
  (c!"Assign - @{var := expr}", c!"", 1, x165),
  (c!"Function call followed by expression - @func(args...).args", c!"@${reduce}((${expr})${selection});", 1, x169),
  (c!"Function call followed by expression - @func(args...).args", c!"@${reduce}((${expr})${selection});", 1, x172),
  (c!"Function call followed by expression - @func(args...).args", c!"@${reduce}((${expr})${selection});", 1, x175),
  (c!"Function call followed by expression - @func(args...).args", c!"@${reduce}((${expr})${selection});", 1, x178),
  (c!"Function call followed by expression - @func(args...).args", c!"@${reduce}((${expr})${selection});", 1, x181),
  (c!"Function call followed by expression - @func(args...).args", c!"@${reduce}((${expr})${selection});", 1, x184),
  (c!"Function call followed by expression - @func(args...).args", c!"@${reduce}((${expr})${selection});", 1, x187),
  (c!"Function call with slice - @func(args...)[...]", c!"{{${reduce1} ${slicer} (${expr}) ${index} ${reduce2}}}", 1, x189),
  (c!"Function call with slice - @func(args...)[...]", c!"{{${reduce1} ${slicer} (${expr}) ${index} ${reduce2}}}", 1, x191),
  (c!"Function call with slice - @func(args...)[...]", c!"{{${reduce1} ${slicer} (${expr}) ${index} ${reduce2}}}", 1, x193),
  (c!"Function call with slice - @func(args...)[...]", c!"{{${reduce1} ${slicer} (${expr}) ${index} ${reduce2}}}", 1, x195),
  (c!"Function call with slice - @func(args...)[...]", c!"{{${reduce1} ${slicer} (${expr}) ${index} ${reduce2}}}", 1, x197),
  (c!"Function call with slice - @func(args...)[...]", c!"{{${reduce1} ${slicer} (${expr}) ${index} ${reduce2}}}", 1, x199),
  (c!"Function call with slice - @func(args...)[...]", c!"{{${reduce1} ${slicer} (${expr}) ${index} ${reduce2}}}", 1, x201),
  (c!"Function call - @func(args...)", c!"{{${reduce1} ${expr} ${reduce2}}}", 1, x202),
  (c!"Function call - @func(args...)", c!"{{${reduce1} ${expr} ${reduce2}}}", 1, x203),
  (c!"Function call - @func(args...)", c!"{{${reduce1} ${expr} ${reduce2}}}", 1, x204),
  (c!"Function call - @func(args...)", c!"{{${reduce1} ${expr} ${reduce2}}}", 1, x205),
  (c!"Function call - @func(args...)", c!"{{${reduce1} ${expr} ${reduce2}}}", 1, x206),
  (c!"Function call - @func(args...)", c!"{{${reduce1} ${expr} ${reduce2}}}", 1, x207),
  (c!"Function call - @func(args...)", c!"{{${reduce1} ${expr} ${reduce2}}}", 1, x208),
  (c!"Function unmanaged - @func(value | func)", c!"{{${reduce1} ${function} ${args} ${reduce2}}}", 0, x210),
  (c!"Function unmanaged - @func(value | func)", c!"{{${reduce1} ${function} ${args} ${reduce2}}}", 0, x211),
  (c!"Function unmanaged - @func(value | func)", c!"{{${reduce1} ${function} ${args} ${reduce2}}}", 0, x212),
  (c!"Function unmanaged - @func(value | func)", c!"{{${reduce1} ${function} ${args} ${reduce2}}}", 0, x213),
  (c!"Function unmanaged - @func(value | func)", c!"{{${reduce1} ${function} ${args} ${reduce2}}}", 0, x214),
  (c!"Function unmanaged - @func(value | func)", c!"{{${reduce1} ${function} ${args} ${reduce2}}}", 0, x215),
  (c!"Function unmanaged - @func(value | func)", c!"{{${reduce1} ${function} ${args} ${reduce2}}}", 0, x216),
  (c!"Local variables - @{var}", c!"@${reduce}($$${name});", 0, x219),
  (c!"Global variables followed by expression", c!"@${reduce}(${expr});", 1, x221),
  (c!"Global variables followed by expression", c!"@${reduce}(${expr});", 1, x222),
  (c!"Global variables followed by expression", c!"@${reduce}(${expr});", 1, x223),
  (c!"Global variables followed by expression", c!"@${reduce}(${expr});", 1, x224),
  (c!"Global variables followed by expression", c!"@${reduce}(${expr});", 1, x225),
  (c!"Global variables followed by expression", c!"@${reduce}(${expr});", 1, x226),
  (c!"Global variables followed by expression", c!"@${reduce}(${expr});", 1, x227),
  (c!"Context variables - @.var", c!"@${reduce}(.${name})", 0, x230),
  (c!"Global variables with slice - @var[...]", c!"{{${reduce1} ${slicer} $$.${name} ${index} ${reduce2}}}", 1, x232),
  (c!"Global variables with slice - @var[...]", c!"{{${reduce1} ${slicer} $$.${name} ${index} ${reduce2}}}", 1, x233),
  (c!"Global variables with slice - @var[...]", c!"{{${reduce1} ${slicer} $$.${name} ${index} ${reduce2}}}", 1, x234),
  (c!"Global variables with slice - @var[...]", c!"{{${reduce1} ${slicer} $$.${name} ${index} ${reduce2}}}", 1, x235),
  (c!"Global variables with slice - @var[...]", c!"{{${reduce1} ${slicer} $$.${name} ${index} ${reduce2}}}", 1, x236),
  (c!"Global variables with slice - @var[...]", c!"{{${reduce1} ${slicer} $$.${name} ${index} ${reduce2}}}", 1, x237),
  (c!"Global variables with slice - @var[...]", c!"{{${reduce1} ${slicer} $$.${name} ${index} ${reduce2}}}", 1, x238),
  (c!"Context variables special with slice", c!"{{${reduce1} ${slicer} (get . \"${name}\") ${index} ${reduce2}}}", 1, x241),
  (c!"Context variables special with slice", c!"{{${reduce1} ${slicer} (get . \"${name}\") ${index} ${reduce2}}}", 1, x243),
  (c!"Context variables special with slice", c!"{{${reduce1} ${slicer} (get . \"${name}\") ${index} ${reduce2}}}", 1, x245),
  (c!"Context variables special with slice", c!"{{${reduce1} ${slicer} (get . \"${name}\") ${index} ${reduce2}}}", 1, x247),
  (c!"Context variables special with slice", c!"{{${reduce1} ${slicer} (get . \"${name}\") ${index} ${reduce2}}}", 1, x249),
  (c!"Context variables special with slice", c!"{{${reduce1} ${slicer} (get . \"${name}\") ${index} ${reduce2}}}", 1, x251),
  (c!"Context variables special with slice", c!"{{${reduce1} ${slicer} (get . \"${name}\") ${index} ${reduce2}}}", 1, x253),
  (c!"Global variables special with slice", c!"{{${reduce1} ${slicer} (get $$ \"${name}\") ${index} ${reduce2}}}", 1, x254),
  (c!"Global variables special with slice", c!"{{${reduce1} ${slicer} (get $$ \"${name}\") ${index} ${reduce2}}}", 1, x255),
  (c!"Global variables special with slice", c!"{{${reduce1} ${slicer} (get $$ \"${name}\") ${index} ${reduce2}}}", 1, x256),
  (c!"Global variables special with slice", c!"{{${reduce1} ${slicer} (get $$ \"${name}\") ${index} ${reduce2}}}", 1, x257),
  (c!"Global variables special with slice", c!"{{${reduce1} ${slicer} (get $$ \"${name}\") ${index} ${reduce2}}}", 1, x258),
  (c!"Global variables special with slice", c!"{{${reduce1} ${slicer} (get $$ \"${name}\") ${index} ${reduce2}}}", 1, x259),
  (c!"Global variables special with slice", c!"{{${reduce1} ${slicer} (get $$ \"${name}\") ${index} ${reduce2}}}", 1, x260),
  (c!"Local variables with slice", c!"{{${reduce1} ${slicer} ${name} ${index} ${reduce2}}}", 1, x262),
  (c!"Local variables with slice", c!"{{${reduce1} ${slicer} ${name} ${index} ${reduce2}}}", 1, x263),
  (c!"Local variables with slice", c!"{{${reduce1} ${slicer} ${name} ${index} ${reduce2}}}", 1, x264),
  (c!"Local variables with slice", c!"{{${reduce1} ${slicer} ${name} ${index} ${reduce2}}}", 1, x265),
  (c!"Local variables with slice", c!"{{${reduce1} ${slicer} ${name} ${index} ${reduce2}}}", 1, x266),
  (c!"Local variables with slice", c!"{{${reduce1} ${slicer} ${name} ${index} ${reduce2}}}", 1, x267),
  (c!"Local variables with slice", c!"{{${reduce1} ${slicer} ${name} ${index} ${reduce2}}}", 1, x268),
  (c!"Global variables - @var", c!"{{${reduce1} $$.${name} ${reduce2}}}", 0, x269),
  (c!"Context variables special - @.var", c!"{{${reduce1} get . \"${name}\" ${reduce2}}}", 0, x270),
  (c!"Global variables special - @var", c!"{{${reduce1} get $$ \"${name}\" ${reduce2}}}", 0, x271),
  (c!"Local variables - @$var or @.var", c!"{{${reduce1} ${name} ${reduce2}}}", 0, x272),
  (c!"Expression @(var)[...]", c!"{{${reduce1} ${slicer} $$.${name} ${index} ${reduce2}}}", 1, x274),
  (c!"Expression @(var)[...]", c!"{{${reduce1} ${slicer} $$.${name} ${index} ${reduce2}}}", 1, x275),
  (c!"Expression @(var)[...]", c!"{{${reduce1} ${slicer} $$.${name} ${index} ${reduce2}}}", 1, x276),
  (c!"Expression @(var)[...]", c!"{{${reduce1} ${slicer} $$.${name} ${index} ${reduce2}}}", 1, x277),
  (c!"Expression @(var)[...]", c!"{{${reduce1} ${slicer} $$.${name} ${index} ${reduce2}}}", 1, x278),
  (c!"Expression @(var)[...]", c!"{{${reduce1} ${slicer} $$.${name} ${index} ${reduce2}}}", 1, x279),
  (c!"Expression @(var)[...]", c!"{{${reduce1} ${slicer} $$.${name} ${index} ${reduce2}}}", 1, x280),
  (c!"Expression @(var)", c!"{{${reduce1} ${expr} ${reduce2}}}", 1, x282),
  (c!"Expression @(expr)[...]", c!"{{${reduce1} ${slicer} (${expr}) ${index} ${reduce2}}}", 1, x283),
  (c!"Expression @(expr)[...]", c!"{{${reduce1} ${slicer} (${expr}) ${index} ${reduce2}}}", 1, x284),
  (c!"Expression @(expr)[...]", c!"{{${reduce1} ${slicer} (${expr}) ${index} ${reduce2}}}", 1, x285),
  (c!"Expression @(expr)[...]", c!"{{${reduce1} ${slicer} (${expr}) ${index} ${reduce2}}}", 1, x286),
  (c!"Expression @(expr)[...]", c!"{{${reduce1} ${slicer} (${expr}) ${index} ${reduce2}}}", 1, x287),
  (c!"Expression @(expr)[...]", c!"{{${reduce1} ${slicer} (${expr}) ${index} ${reduce2}}}", 1, x288),
  (c!"Expression @(expr)[...]", c!"{{${reduce1} ${slicer} (${expr}) ${index} ${reduce2}}}", 1, x289),
  (c!"Expression @(expr)", c!"{{${reduce1} ${assign}${expr} ${reduce2}}}", 1, x291),
  (c!"Expression @(expr)", c!"{{${reduce1} ${assign}${expr} ${reduce2}}}", 1, x292),
  (c!"Expression @(expr)", c!"{{${reduce1} ${assign}${expr} ${reduce2}}}", 1, x293),
  (c!"Expression @(expr)", c!"{{${reduce1} ${assign}${expr} ${reduce2}}}", 1, x294),
  (c!"Expression @(expr)", c!"{{${reduce1} ${assign}${expr} ${reduce2}}}", 1, x295),
  (c!"Expression @(expr)", c!"{{${reduce1} ${assign}${expr} ${reduce2}}}", 1, x296),
  (c!"Expression @(expr)", c!"{{${reduce1} ${assign}${expr} ${reduce2}}}", 1, x297),
  (c!"Expression @(expr)", c!"{{${reduce1} ${assign}${expr} ${reduce2}}}", 2, x291),
  (c!"Space eater", c!"{{- \"\" -}}", 0, x298),
  (c!"Raw content \"{{ raw ...", c!"\"<<${content}\"", 0, x304),
  (c!"Inline content \"<<...\"", c!"${content}", 0, x307),
  (c!"", c!"@", 0, x309),
  (c!"", c!"```", 0, x311),
  (c!"", c!"${", 0, x312),
  (c!"", c!"", 1, x315)]

set_option maxRecDepth 100000 in
theorem table_eq : (generate defaultDelims).map (fun r => (r.name, r.replace, r.parser, parse r.expr)) =
    table.map (fun e => (e.1, e.2.1, e.2.2.1, some e.2.2.2)) := by
  decide +kernel

end Verif.Table
