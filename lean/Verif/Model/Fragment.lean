import Verif.Base.Str
import Verif.Base.Res

/-
Model of /repo/internal/pointer/fragment.go.
A fragment is the list of its (unescaped) tokens.  nil and empty slices are identified here;
aliasing of backing arrays is modelled separately in `Verif.Model.SliceHeap`.
-/
namespace Oapi

/-- `type Fragment []string`, fragment.go:17. -/
abbrev Fragment := List Str

namespace Fragment

/-- `separator`, fragment.go:10: the byte '/'. -/
def sepByte : UInt8 := 47
/-- `escapedSeparator`, `tilde`, `escapedTilde`, `separator`, fragment.go:10-13. -/
def separator : Str := b!"/"
def escapedSeparator : Str := b!"~1"
def tilde : Str := b!"~"
def escapedTilde : Str := b!"~0"

/-- `unescapeToken`, fragment.go:111-114. -/
def unescapeToken (tok : Str) : Str :=
  Str.replaceAll (Str.replaceAll tok escapedSeparator separator) escapedTilde tilde

/-- `escapeToken`, fragment.go:116-119. -/
def escapeToken (tok : Str) : Str :=
  Str.replaceAll (Str.replaceAll tok tilde escapedTilde) separator escapedSeparator

/-- `parseFragment`, fragment.go:128-143. -/
def parseFragment : Str → Res Fragment
  | [] => .ok []
  | c :: str =>
    if c ≠ sepByte then .err .syntaxErr
    else .ok ((Str.split sepByte str).map unescapeToken)

/-- `NewFragment`, fragment.go:20-22. -/
def new (str : Str) : Res Fragment := parseFragment str

/-- `Fragment.String`, fragment.go:78-83. -/
def toStr : Fragment → Str
  | [] => []
  | tok :: r => sepByte :: escapeToken tok ++ toStr r

/-- `Fragment.Replace`, fragment.go:67-74.  `n` is a Go `int`.  The bounds check lets `n = len(p)`
through and `x[n]` then panics. -/
def replace (p : Fragment) (n : Int) (element : Str) : Res Fragment :=
  if n > p.length ∨ n < 0 then .err .range
  else if n.toNat < p.length then .ok (p.set n.toNat element)
  else .panic

/-- `Fragment.Descendant`, fragment.go:87-101, values only (see SliceHeap for aliasing). -/
def descendant (p : Fragment) (path : Str) : Res Fragment :=
  let path := if Str.hasPrefix path separator then path else sepByte :: path
  match parseFragment path with
  | .ok dpath => if toStr p = separator then .ok dpath else .ok (p ++ dpath)
  | .err e => .err e
  | .panic => .panic

/-- `Fragment.RawDescendant`, fragment.go:107-109, values only. -/
def rawDescendant (p : Fragment) (path : List Str) : Fragment := p ++ path

/-- `Fragment.Head`, fragment.go:31-36. -/
def head (p : Fragment) : Option Str := p.head?

/-- `p[len(p)-1]` for `len(p) > 0`. -/
def lastIndex (p : Fragment) : Option Str := p[p.length - 1]?

/-- `Fragment.Tail`, fragment.go:39-44: the last token, in spite of its comment. -/
def tail (p : Fragment) : Option Str := if p.length > 0 then p.lastIndex else none

/-- `Fragment.Last`, fragment.go:47-52. -/
def last (p : Fragment) : Option Str := if p.length = 0 then none else p.lastIndex

/-- `Fragment.IsEmpty`, fragment.go:26-28. -/
def isEmpty (p : Fragment) : Bool := p.length == 0

end Fragment
end Oapi
