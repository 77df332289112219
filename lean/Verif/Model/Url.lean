import Verif.Base.Str
import Verif.Base.Res

/-
Model of the part of Go's net/url (Go 1.15, /repo/go.mod:3) that /repo/internal/pointer/pointer.go uses: `url.Parse`,
`URL.String`, `URL.Hostname`.  The source is not in the sandbox; this file is part of the trusted base.  User information,
IPv6 literals and IPv6 zones are included; which error is reported is not.
-/
namespace Oapi.Url

/-- `type Userinfo struct`; no password is `passwordSet = false`. -/
structure User where
  username : Str := []
  password : Option Str := none
  deriving DecidableEq, Repr

/-- `type URL struct`; a nil `User` is `none`. -/
structure URL where
  scheme : Str := []
  opaque_ : Str := []
  user : Option User := none
  host : Str := []
  path : Str := []
  rawPath : Str := []
  forceQuery : Bool := false
  rawQuery : Str := []
  fragment : Str := []
  rawFragment : Str := []
  deriving DecidableEq, Repr

inductive Mode where
  | path
  | host
  | zone
  | user
  | fragment
  deriving DecidableEq, Repr

def isUpper (c : UInt8) : Bool := decide (65 ≤ c) && decide (c ≤ 90)
def isLower (c : UInt8) : Bool := decide (97 ≤ c) && decide (c ≤ 122)
def isDigit (c : UInt8) : Bool := decide (48 ≤ c) && decide (c ≤ 57)
def isAlnum (c : UInt8) : Bool := isLower c || isUpper c || isDigit c

/-- net/url `shouldEscape`. -/
def shouldEscape (m : Mode) (c : UInt8) : Bool :=
  if isAlnum c then false
  else if (m = .host ∨ m = .zone) ∧ c ∈ b!"!$&'()*+,;=:[]<>\"" then false
  else if c ∈ b!"-_.~" then false
  else if c ∈ b!"$&+,/:;=?@" then
    match m with
    | .path => c == 63
    | .fragment => false
    | .user => decide (c ∈ b!"@/?:")
    | .host => true
    | .zone => true
  else if m = .fragment ∧ c ∈ b!"!()*" then false
  else true

/-- Value of a hexadecimal digit. -/
def hexVal (c : UInt8) : Option Nat :=
  if 48 ≤ c ∧ c ≤ 57 then some (c.toNat - 48)
  else if 97 ≤ c ∧ c ≤ 102 then some (c.toNat - 87)
  else if 65 ≤ c ∧ c ≤ 70 then some (c.toNat - 55)
  else none

/-- Upper-case hexadecimal digit. -/
def hexDigit (n : Nat) : UInt8 := if n < 10 then UInt8.ofNat (48 + n) else UInt8.ofNat (55 + n)

/-- net/url `unescape`; `none` is an error. -/
def unescape (m : Mode) (s : Str) : Option Str :=
  match s with
  | [] => some []
  | c :: t =>
    if c = 37 then
      match t with
      | a :: b :: t' =>
        match hexVal a, hexVal b with
        | some x, some y =>
          if m = .host ∧ x < 8 ∧ ¬ (x = 2 ∧ b = 53) then none
          else if m = .zone ∧ ¬ (x = 2 ∧ b = 53) ∧ UInt8.ofNat (x * 16 + y) ≠ 32 ∧
            shouldEscape .host (UInt8.ofNat (x * 16 + y)) = true then none
          else (unescape m t').map (UInt8.ofNat (x * 16 + y) :: ·)
        | _, _ => none
      | _ => none
    else if (m = .host ∨ m = .zone) ∧ c < 128 ∧ shouldEscape m c = true then none
    else (unescape m t).map (c :: ·)
termination_by structural s

/-- net/url `escape`. -/
def escape (m : Mode) (s : Str) : Str :=
  s.flatMap fun c => if shouldEscape m c then [37, hexDigit (c.toNat / 16), hexDigit (c.toNat % 16)] else [c]

/-- net/url `validEncoded`. -/
def validEncoded (m : Mode) (s : Str) : Bool :=
  s.all fun c => decide (c ∈ b!"!$&'()*+,;=:@[]%") || !shouldEscape m c

/-- net/url `getscheme`: scheme and rest; `none` is "missing protocol scheme". -/
def getscheme (raw : Str) : Option (Str × Str) :=
  let rec go (acc : Str) : Str → Option (Str × Str)
    | [] => some ([], raw)
    | c :: t =>
      if isLower c || isUpper c then go (acc ++ [c]) t
      else if isDigit c || decide (c ∈ b!"+-.") then
        if acc.isEmpty then some ([], raw) else go (acc ++ [c]) t
      else if c = 58 then
        if acc.isEmpty then none else some (acc, t)
      else some ([], raw)
  go [] raw

/-- net/url `validOptionalPort`: empty, or ':' followed by digits. -/
def validOptionalPort : Str → Bool
  | [] => true
  | c :: t => c == 58 && t.all isDigit

/-- The part of a string from its last ':' on, if there is one (`strings.LastIndex`). -/
def fromLastColon : Str → Option Str
  | [] => none
  | c :: t => match fromLastColon t with
    | some r => some r
    | none => if c = 58 then some (c :: t) else none

/-- `strings.LastIndex(s, c)`: what precedes and what follows the last `c`. -/
def cutLast (c : UInt8) : Str → Option (Str × Str)
  | [] => none
  | x :: t => match cutLast c t with
    | some (a, b) => some (x :: a, b)
    | none => if x = c then some ([], t) else none

/-- `strings.Index(s, "%25")`: what precedes the first "%25", and the rest from it on. -/
def cutZone : Str → Option (Str × Str)
  | [] => none
  | x :: t => if Str.hasPrefix (x :: t) b!"%25" then some ([], x :: t)
    else match cutZone t with
      | some (a, b) => some (x :: a, b)
      | none => none

/-- net/url `parseHost`. -/
def parseHost (a : Str) : Option Str :=
  if a.head? = some 91 then
    match cutLast 93 a with
    | none => none
    | some (pre, port) =>
      if validOptionalPort port then
        match cutZone pre with
        | some (h1, z) =>
          match unescape .host h1, unescape .zone z, unescape .host (93 :: port) with
          | some x, some y, some w => some (x ++ y ++ w)
          | _, _, _ => none
        | none => unescape .host a
      else none
  else match fromLastColon a with
    | some p => if validOptionalPort p then unescape .host a else none
    | none => unescape .host a

/-- net/url `validUserinfo`. -/
def validUserinfo (s : Str) : Bool := s.all fun c => isAlnum c || decide (c ∈ b!"-._:~!$&'()*+,;=%@")

/-- The second half of net/url `parseAuthority`: name, and password if there is a ':'. -/
def parseUser (s : Str) : Option User :=
  match Str.cut 58 s with
  | (n, none) => match unescape .user n with
    | some n => some { username := n }
    | none => none
  | (n, some pw) => match unescape .user n, unescape .user pw with
    | some n, some pw => some { username := n, password := some pw }
    | _, _ => none

/-- net/url `parseAuthority`: user information and host. -/
def parseAuthority (a : Str) : Option (Option User × Str) :=
  match cutLast 64 a with
  | none => match parseHost a with
    | some h => some (none, h)
    | none => none
  | some (ui, ho) => match parseHost ho with
    | none => none
    | some h => if validUserinfo ui then
        match parseUser ui with
        | some u => some (some u, h)
        | none => none
      else none

/-- net/url `setPath`: path and raw path. -/
def setPath (u : URL) (p : Str) : Option URL :=
  match unescape .path p with
  | none => none
  | some path => some { u with path := path, rawPath := if p = escape .path path then [] else p }

/-- net/url `setFragment`. -/
def setFragment (u : URL) (f : Str) : Option URL :=
  match unescape .fragment f with
  | none => none
  | some frag => some { u with fragment := frag, rawFragment := if f = escape .fragment frag then [] else f }

/-- `split(rest, '?', true)` with the special case of a single trailing '?': rest, forceQuery, raw query. -/
def splitQuery (rest : Str) : Str × Bool × Str :=
  match Str.cut 63 rest with
  | (a, some []) => (a, true, [])
  | (a, some q) => (a, false, q)
  | (a, none) => (a, false, [])

/-- Does the first ':' come before the first '/'? -/
def colonFirst (s : Str) : Bool :=
  match Str.cut 58 s with
  | (a, some _) => decide ((47 : UInt8) ∉ a)
  | (_, none) => false

/-- The path after the authority: what follows the first '/', with that '/'. -/
def slashOpt : Option Str → Str
  | some t => 47 :: t
  | none => []

/-- The last part of net/url `parse`: authority and path. -/
def parseRest (u : URL) (rest : Str) : Option URL :=
  if u.scheme ≠ [] ∧ ¬ Str.hasPrefix rest b!"/" then some { u with opaque_ := rest }
  else if ¬ Str.hasPrefix rest b!"/" ∧ colonFirst rest = true then none
  else if (u.scheme ≠ [] ∨ ¬ Str.hasPrefix rest b!"///") ∧ Str.hasPrefix rest b!"//" then
    let (auth, tail) := Str.cut 47 (rest.drop 2)
    match parseAuthority auth with
    | none => none
    | some (us, h) => setPath { u with user := us, host := h } (slashOpt tail)
  else setPath u rest

/-- net/url `parse` (without fragment). -/
def parse (raw : Str) : Option URL :=
  if raw.any (fun b => decide (b < 32) || b == 127) then none
  else if raw = b!"*" then some { path := b!"*" }
  else match getscheme raw with
    | none => none
    | some (scheme, rest) =>
      let (rest, fq, q) := splitQuery rest
      parseRest { scheme := Str.lower scheme, forceQuery := fq, rawQuery := q } rest

/-- `url.Parse`. -/
def Parse (raw : Str) : Option URL :=
  match Str.cut 35 raw with
  | (u, frag) => match parse u with
    | none => none
    | some url => match frag with
      | none => some url
      | some [] => some url
      | some f => setFragment url f

/-- `URL.EscapedPath`. -/
def escapedPath (u : URL) : Str :=
  if u.rawPath ≠ [] ∧ validEncoded .path u.rawPath = true ∧ unescape .path u.rawPath = some u.path then u.rawPath
  else if u.path = b!"*" then b!"*"
  else escape .path u.path

/-- `URL.EscapedFragment`. -/
def escapedFragment (u : URL) : Str :=
  if u.rawFragment ≠ [] ∧ validEncoded .fragment u.rawFragment = true ∧ unescape .fragment u.rawFragment = some u.fragment
  then u.rawFragment else escape .fragment u.fragment

/-- `Userinfo.String`. -/
def userStr (us : User) : Str :=
  escape .user us.username ++ match us.password with
    | some pw => 58 :: escape .user pw
    | none => []

/-- The user information as `URL.String` writes it, with the '@'. -/
def userPart : Option User → Str
  | some us => userStr us ++ [64]
  | none => []

/-- The hierarchical part of `URL.String`. -/
def authPath (u : URL) : Str :=
  let pre : Str :=
    (if u.scheme ≠ [] ∨ u.host ≠ [] ∨ u.user ≠ none then
      (if u.host ≠ [] ∨ u.path ≠ [] ∨ u.user ≠ none then b!"//" else []) ++ userPart u.user ++ escape .host u.host
     else [])
  let path := escapedPath u
  let slash : Str := if path ≠ [] ∧ path.head? ≠ some 47 ∧ u.host ≠ [] then b!"/" else []
  let dot : Str := if u.scheme = [] ∧ pre = [] ∧ slash = [] ∧ colonFirst path = true then b!"./" else []
  pre ++ slash ++ dot ++ path

/-- `URL.String`. -/
def toStr (u : URL) : Str :=
  (if u.scheme ≠ [] then u.scheme ++ b!":" else []) ++
  (if u.opaque_ ≠ [] then u.opaque_ else authPath u) ++
  (if u.forceQuery ∨ u.rawQuery ≠ [] then 63 :: u.rawQuery else []) ++
  (if u.fragment ≠ [] then 35 :: escapedFragment u else [])

/-- `URL.Hostname`. -/
def hostname (u : URL) : Str :=
  let h := match fromLastColon u.host with
    | some p => if validOptionalPort p then u.host.take (u.host.length - p.length) else u.host
    | none => u.host
  if h.head? = some 91 ∧ h.getLast? = some 93 then (h.drop 1).dropLast else h

end Oapi.Url
