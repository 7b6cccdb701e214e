import Verif.Base.Text
/-!
# Quoted texts

The `%q` verb of `fmt` (`strconv.Quote`, library), used by hcl/utilities.go:85,257 and collections/convert_data.go:83,315.
-/

namespace Verif
namespace Quote

/-- `unicode.IsPrint`: exact for ASCII characters, given by `pr` for the others. -/
def isPrint (pr : Char → Bool) (c : Char) : Bool := if c.toNat < 128 then 32 ≤ c.toNat && c.toNat < 127 else pr c

/-- The last `k` hexadecimal digits of a number, in lower case. -/
def hex : Nat → Nat → Text
  | 0, _ => []
  | k + 1, n => hex k (n / 16) ++ [Nat.digitChar (n % 16)]

/-- `appendEscapedRune` of `strconv`. -/
def escape (pr : Char → Bool) (c : Char) : Text :=
  if c = '"' ∨ c = '\\' then ['\\', c]
  else if isPrint pr c then [c]
  else if c.toNat = 7 then ['\\', 'a']
  else if c.toNat = 8 then ['\\', 'b']
  else if c.toNat = 12 then ['\\', 'f']
  else if c.toNat = 10 then ['\\', 'n']
  else if c.toNat = 13 then ['\\', 'r']
  else if c.toNat = 9 then ['\\', 't']
  else if c.toNat = 11 then ['\\', 'v']
  else if c.toNat < 128 then '\\' :: 'x' :: hex 2 c.toNat
  else if c.toNat < 65536 then '\\' :: 'u' :: hex 4 c.toNat
  else '\\' :: 'U' :: hex 8 c.toNat

/-- `strconv.Quote`. Texts are valid UTF-8. -/
def quote (pr : Char → Bool) (s : Text) : Text := '"' :: (s.flatMap (escape pr) ++ ['"'])

end Quote
end Verif
