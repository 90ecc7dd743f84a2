import Verif.Model.Types
/-!
# Letter case of Python strings

`str.lower`, `str.upper`, `str.swapcase`, `str.title` and `str.capitalize` on strings of ASCII characters. On other
strings they depend on the Unicode tables and are those of the environment.
-/

namespace Pip

def isAsciiStr (s : Str) : Bool :=
  s.all fun c => decide (c.toNat < 128)

/-- `str.swapcase` on one character -/
def swapChar (c : Char) : Char :=
  if c.isUpper then c.toLower else c.toUpper

/-- `str.title`; `prev`: is the character before cased? -/
def titleFrom (prev : Bool) : Str → Str
  | [] => []
  | c :: cs => (if prev then c.toLower else c.toUpper) :: titleFrom c.isAlpha cs

/-- `str.capitalize` -/
def capStr : Str → Str
  | [] => []
  | c :: cs => c.toUpper :: cs.map Char.toLower

/-- The environment with the letter case of ASCII strings; everything else is that of `X`. -/
abbrev Ext.withCase (X : Ext) : Ext :=
  { X with
    lower := fun s => if isAsciiStr s then s.map Char.toLower else X.lower s
    upper := fun s => if isAsciiStr s then s.map Char.toUpper else X.upper s
    swapcase := fun s => if isAsciiStr s then s.map swapChar else X.swapcase s
    title := fun s => if isAsciiStr s then titleFrom false s else X.title s
    capitalize := fun s => if isAsciiStr s then capStr s else X.capitalize s }

end Pip
