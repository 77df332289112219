import Verif.Base.Str
import Verif.Base.Res

/-
internal/route/route.go.  Go strings are byte strings; regular expressions work on runes, so patterns and paths are
decoded first.  Of Go's `regexp` only the sub-language that `Match` itself generates is given a meaning (literal runes,
escaped punctuation, `.`, `([^/]+)` and `(.*)`); the meaning of every other expression is a parameter (`other`).
-/
namespace Oapi.Route

/-- Text of a pattern, expression or path as code points. -/
abbrev Runes := List Nat

def cont (b : UInt8) : Bool := decide (0x80 ≤ b.toNat) && decide (b.toNat ≤ 0xBF)

/-- Go's `utf8.DecodeRuneInString`: the first rune and its width, `none` for an invalid sequence (width 1). -/
def decode1 : Str → Option (Nat × Nat)
  | [] => none
  | a :: t =>
    if a.toNat < 0x80 then some (a.toNat, 1)
    else if 0xC0 ≤ a.toNat ∧ a.toNat < 0xE0 then
      match t with
      | b :: _ =>
        let n := (a.toNat - 0xC0) * 64 + (b.toNat - 0x80)
        if cont b ∧ 0x80 ≤ n then some (n, 2) else none
      | _ => none
    else if 0xE0 ≤ a.toNat ∧ a.toNat < 0xF0 then
      match t with
      | b :: c :: _ =>
        let n := (a.toNat - 0xE0) * 4096 + (b.toNat - 0x80) * 64 + (c.toNat - 0x80)
        if cont b ∧ cont c ∧ 0x800 ≤ n ∧ ¬ (0xD800 ≤ n ∧ n < 0xE000) then some (n, 3) else none
      | _ => none
    else if 0xF0 ≤ a.toNat then
      match t with
      | b :: c :: d :: _ =>
        let n := (a.toNat - 0xF0) * 262144 + (b.toNat - 0x80) * 4096 + (c.toNat - 0x80) * 64 + (d.toNat - 0x80)
        if cont b ∧ cont c ∧ cont d ∧ 0x10000 ≤ n ∧ n < 0x110000 then some (n, 4) else none
      | _ => none
    else none

/-- Runes of a string; `none` marks a byte that is not part of a valid sequence. `skip` counts the remaining bytes of the
current rune. -/
def runesGo : Nat → Str → List (Option Nat)
  | _, [] => []
  | skip + 1, _ :: t => runesGo skip t
  | 0, a :: t =>
    match decode1 (a :: t) with
    | some (n, w) => some n :: runesGo (w - 1) t
    | none => none :: runesGo 0 t

/-- What ranging over a Go string yields: invalid bytes become U+FFFD. -/
def runes (s : Str) : Runes := (runesGo 0 s).map fun o => o.getD 0xFFFD

/-- The runes of a valid UTF-8 string. -/
def validRunes (s : Str) : Option Runes :=
  if (runesGo 0 s).all Option.isSome then some (runes s) else none

/-- route.go:13-53 -/
def methods : List Str :=
  [b!"ACL", b!"BASELINE-CONTROL", b!"BIND", b!"CHECKIN", b!"CHECKOUT", b!"CONNECT", b!"COPY", b!"DELETE", b!"GET", b!"HEAD",
   b!"LABEL", b!"LINK", b!"LOCK", b!"MERGE", b!"MKACTIVITY", b!"MKCALENDAR", b!"MKCOL", b!"MKREDIRECTREF", b!"MKWORKSPACE",
   b!"MOVE", b!"OPTIONS", b!"ORDERPATCH", b!"PATCH", b!"POST", b!"PRI", b!"PROPFIND", b!"PROPPATCH", b!"PUT", b!"REBIND",
   b!"REPORT", b!"SEARCH", b!"TRACE", b!"UNBIND", b!"UNCHECKOUT", b!"UNLINK", b!"UNLOCK", b!"UPDATE", b!"UPDATEREDIRECTREF",
   b!"VERSION-CONTROL"]

/-- `unicode.ToLower`, as far as the result can be an ASCII letter: A–Z, U+0130 (İ) and U+212A (Kelvin sign).  Other runes
are left unchanged; their lower case is never ASCII. -/
def lowerRune (r : Nat) : Nat :=
  if 65 ≤ r ∧ r ≤ 90 then r + 32 else if r = 0x130 then 105 else if r = 0x212A then 107 else r

/-- ASCII text as runes. -/
def ascii (s : Str) : Runes := s.map UInt8.toNat

/-- route.go:60-68: the loop that looks for a method prefix. The cut is made at `len(m)+1` bytes. -/
def stripMethod : List Str → Str → Str × Str
  | [], pattern => ([], pattern)
  | m :: ms, pattern =>
    let met := Str.lower m
    if (ascii (met ++ b!":")).isPrefixOf ((runes pattern).map lowerRune) then (met, pattern.drop (m.length + 1))
    else stripMethod ms pattern

/-- Does rune `b` fold to the ASCII rune `a` (simple Unicode case folding)? -/
def foldRune (a b : Nat) : Bool :=
  lowerRune b == a && b != 0x130 || (a == 115 && b == 0x17F)

/-- Go's `strings.EqualFold(fm, method)` for a lower-case ASCII `fm`. -/
def equalFold : Runes → Runes → Bool
  | [], [] => true
  | a :: s, b :: t => foldRune a b && equalFold s t
  | _, _ => false

def isLower (r : Nat) : Bool := decide (97 ≤ r) && decide (r ≤ 122)
def isAlnum (r : Nat) : Bool :=
  isLower r || (decide (65 ≤ r) && decide (r ≤ 90)) || (decide (48 ≤ r) && decide (r ≤ 57))

/-- Length of the match of the expression `(\{[a-z][a-zA-Z0-9]+?\}|\*)` (route.go:11) at the start of the text. -/
def varAt : Runes → Option Nat
  | [] => none
  | 42 :: _ => some 1
  | 123 :: c :: t =>
    let k := (t.takeWhile isAlnum).length
    if isLower c && decide (1 ≤ k) && (t[k]? == some 125) then some (k + 3) else none
  | _ => none

/-- `variables.FindAllStringIndex(pattern, -1)`: leftmost non-overlapping matches. -/
def findAll : Nat → Nat → Runes → List (Nat × Nat)
  | _, _, [] => []
  | pos, skip + 1, _ :: t => findAll (pos + 1) skip t
  | pos, 0, c :: t =>
    match varAt (c :: t) with
    | some n => (pos, pos + n) :: findAll (pos + 1) (n - 1) t
    | none => findAll (pos + 1) 0 t

/-- `\.+*?()|[]{}^$` -/
def special (r : Nat) : Bool :=
  r == 92 || r == 46 || r == 43 || r == 42 || r == 63 || r == 40 || r == 41 || r == 124 || r == 91 || r == 93 ||
  r == 123 || r == 125 || r == 94 || r == 36

/-- Go's `regexp.QuoteMeta`. -/
def quoteMeta (s : Runes) : Runes := s.flatMap fun r => if special r then [92, r] else [r]

/-- `p[i:j]` -/
def slice (p : Runes) (i j : Nat) : Runes := (p.drop i).take (j - i)

/-- route.go:72-90: the loop over the matches and the final join. -/
def build (p : Runes) : Nat → List (Nat × Nat) → Runes
  | last, [] => p.drop last
  | last, (i, j) :: r =>
    quoteMeta (slice p last i) ++
    (if p[i]? = some 123 ∧ p[j - 1]? = some 125 then ascii b!"([^/]+)"
     else if p[i]? = some 42 then ascii b!"(.*)"
     else slice p i j) ++ build p j r

/-- The expression for a pattern without method prefix. -/
def toRegexp (p : Runes) : Runes := build p 0 (findAll 0 0 p)

/-- Pieces of an expression of the modelled sub-language. -/
inductive Piece where
  | lit (r : Nat)
  | seg          -- ([^/]+)
  | star         -- (.*)
  | dot          -- .
  deriving DecidableEq, Repr

/-- Parser for the modelled sub-language of Go's regular expressions; `none` for everything else. -/
def parseRe : Nat → Runes → Option (List Piece)
  | _, [] => some []
  | skip + 1, _ :: t => parseRe skip t
  | 0, c :: t =>
    if (ascii b!"([^/]+)").isPrefixOf (c :: t) then (parseRe 6 t).map (Piece.seg :: ·)
    else if (ascii b!"(.*)").isPrefixOf (c :: t) then (parseRe 3 t).map (Piece.star :: ·)
    else if c = 92 then
      match t with
      | d :: _ => if decide (d < 128) && !isAlnum d then (parseRe 1 t).map (Piece.lit d :: ·) else none
      | [] => none
    else if c = 46 then (parseRe 0 t).map (Piece.dot :: ·)
    else if special c then none
    else (parseRe 0 t).map (Piece.lit c :: ·)

/-- `[^/]+` followed by `f`. -/
def segGo (f : Runes → Bool) : Runes → Bool
  | [] => false
  | c :: t => c != 47 && (f t || segGo f t)

/-- `.*` followed by `f`; `.` does not match a line feed. -/
def starGo (f : Runes → Bool) : Runes → Bool
  | [] => f []
  | c :: t => f (c :: t) || (c != 10 && starGo f t)

/-- Does `^pieces$` match the text? -/
def matchRe : List Piece → Runes → Bool
  | [], s => s.isEmpty
  | .lit r :: ps, s => match s with
    | c :: t => c == r && matchRe ps t
    | [] => false
  | .seg :: ps, s => segGo (matchRe ps) s
  | .star :: ps, s => starGo (matchRe ps) s
  | .dot :: ps, s => match s with
    | c :: t => c != 10 && matchRe ps t
    | [] => false

/-- A compiled expression: what `MatchString` answers. -/
abbrev Regexp := Str → Bool

/-- `regexp.Compile("^" + pattern + "$")` (route.go:105).  `other` gives the behaviour of expressions outside the modelled
sub-language (`none`: it does not compile). -/
def compile (other : Runes → Option Regexp) (re : Runes) : Option Regexp :=
  match parseRe 0 re with
  | some ps => some fun path => matchRe ps (runes path)
  | none => other re

/-- What a call needs from the cache. -/
inductive Prep where
  | done (r : Res Bool)
  | need (re : Runes)

/-- route.go:58-90: everything before `compileCached`.  A pattern that is not valid UTF-8 keeps its invalid bytes through
quoting and joining, and does not compile; this is modelled as an error at once. -/
def prepare (pattern method : Str) : Prep :=
  let (fm, pattern) := stripMethod methods pattern
  if fm.length > 0 ∧ method.length > 0 ∧ equalFold (ascii fm) (runes method) = false then .done (.ok false)
  else match validRunes pattern with
    | none => .done (.err .syntaxErr)
    | some p => .need (toRegexp p)

/-- route.go:58-96 with `compileCached` (route.go:98-112) answering as `regexp.Compile` does; see `Step` for the cache. -/
def matchPure (other : Runes → Option Regexp) (pattern method path : Str) : Res Bool :=
  match prepare pattern method with
  | .done r => r
  | .need re => match compile other re with
    | none => .err .syntaxErr
    | some f => .ok (f path)

/-! ### The cache and its lock: concurrent calls -/

/-- A call of `Match`. -/
structure Call where
  pattern : Str
  method : Str
  path : Str

/-- Where a goroutine is in its call. -/
inductive PC where
  | idle
  | start (c : Call)                                       -- Match entered
  | want (c : Call) (re : Runes)                           -- before relock.Lock(), route.go:99
  | locked (c : Call) (re : Runes)                         -- lock held, before the map lookup, route.go:102
  | looked (c : Call) (re : Runes) (r : Option Regexp)     -- after `regex := regexen[pattern]`
  | compiled (c : Call) (re : Runes) (f : Regexp)          -- compiled, before the store, route.go:109
  | unlock (c : Call) (r : Option Regexp)                  -- before the deferred Unlock; `none` is the error return
  | back (c : Call) (r : Option Regexp)                    -- in Match, after compileCached

/-- The shared state, the goroutines, and the answers given so far (newest first). -/
structure Sys where
  cache : Runes → Option Regexp
  lock : Option Nat
  pc : Nat → PC
  log : List (Call × Res Bool)

def Sys.set (s : Sys) (t : Nat) (p : PC) : Sys := { s with pc := fun u => if u = t then p else s.pc u }

/-- One atomic step of goroutine `t`. -/
inductive Step (other : Runes → Option Regexp) : Sys → Nat → Sys → Prop where
  | enter {s t} (c : Call) : s.pc t = .idle → Step other s t (s.set t (.start c))
  | early {s t c r} : s.pc t = .start c → prepare c.pattern c.method = .done r →
      Step other s t { s.set t .idle with log := (c, r) :: s.log }
  | prep {s t c re} : s.pc t = .start c → prepare c.pattern c.method = .need re →
      Step other s t (s.set t (.want c re))
  | acquire {s t c re} : s.pc t = .want c re → s.lock = none →
      Step other s t { s.set t (.locked c re) with lock := some t }
  | look {s t c re} : s.pc t = .locked c re → Step other s t (s.set t (.looked c re (s.cache re)))
  | hit {s t c re f} : s.pc t = .looked c re (some f) → Step other s t (s.set t (.unlock c (some f)))
  | bad {s t c re} : s.pc t = .looked c re none → compile other re = none → Step other s t (s.set t (.unlock c none))
  | comp {s t c re f} : s.pc t = .looked c re none → compile other re = some f →
      Step other s t (s.set t (.compiled c re f))
  | store {s t c re f} : s.pc t = .compiled c re f →
      Step other s t { s.set t (.unlock c (some f)) with cache := fun x => if x = re then some f else s.cache x }
  | release {s t c r} : s.pc t = .unlock c r → Step other s t { s.set t (.back c r) with lock := none }
  | fail {s t c} : s.pc t = .back c none → Step other s t { s.set t .idle with log := (c, .err .syntaxErr) :: s.log }
  | answer {s t c f} : s.pc t = .back c (some f) →
      Step other s t { s.set t .idle with log := (c, .ok (f c.path)) :: s.log }

/-- The program starts with an empty cache and no call under way. -/
def Sys.init : Sys := { cache := fun _ => none, lock := none, pc := fun _ => .idle, log := [] }

/-- States reachable under some schedule. -/
inductive Reach (other : Runes → Option Regexp) : Sys → Prop where
  | init : Reach other Sys.init
  | step {s t s'} : Reach other s → Step other s t s' → Reach other s'

end Oapi.Route
