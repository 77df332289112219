import Verif.Base.Json

/-! Reading a document by location, independent of the dot-path machinery of the code. -/
namespace Oapi.Spec

/-- One step into a document: an object member or an array element. -/
inductive Step where
  | key (k : Str)
  | idx (n : Nat)
  deriving DecidableEq, Repr

/-- A location in a document. -/
abbrev Loc := List Step

/-- The member or element a step leads to. -/
def child : Json → Step → Option Json
  | .obj m, .key k => Obj.lookup k m
  | .arr xs, .idx n => xs[n]?
  | _, _ => none

/-- The value at a location. -/
def getAt : Json → Loc → Option Json
  | j, [] => some j
  | j, s :: l => match child j s with
    | some c => getAt c l
    | none => none

/-- The document with the value at an existing location replaced (unchanged if there is none). -/
def putAt (v : Json) : Loc → Json → Json
  | [], _ => v
  | .key k :: l, .obj m => match Obj.lookup k m with
    | some c => .obj (Obj.insert k (putAt v l c) m)
    | none => .obj m
  | .idx n :: l, .arr xs => match xs[n]? with
    | some c => .arr (xs.set n (putAt v l c))
    | none => .arr xs
  | _ :: _, j => j

/-- Neither location is at or below the other. -/
def Apart (a b : Loc) : Prop := ¬ a <+: b ∧ ¬ b <+: a

/-- A scalar: not an object, not an array. -/
def scalar : Json → Bool
  | .obj _ => false
  | .arr _ => false
  | _ => true

/-- The path segment of a step: the key itself, or the decimal index. -/
def seg : Step → Str
  | .key k => k
  | .idx n => Str.itoa n

/-- A path segment may denote a step: a member of that name, the element of that number (any spelling
`strconv.Atoi` accepts), or, for "-", an appended element. -/
def Denotes (s : Str) : Step → Prop
  | .key k => s = k
  | .idx n => Str.atoi s = some (n : Int) ∨ s = b!"-"

/-- A list of segments denotes a location step by step. -/
def DenotesAll : List Str → Loc → Prop
  | [], [] => True
  | s :: p, st :: l => Denotes s st ∧ DenotesAll p l
  | _, _ => False

/-- The value at a prefix of a written path, where a segment selects an object member by name or an array element
by number (no wildcard). -/
def along : Json → List Str → Option Json
  | j, [] => some j
  | .obj m, s :: p => match Obj.lookup s m with
    | some c => along c p
    | none => none
  | .arr xs, s :: p => match Str.atoi s with
    | some (Int.ofNat n) => match xs[n]? with
      | some c => along c p
      | none => none
    | _ => none
  | _, _ :: _ => none

/-- A value that cannot be entered by segment `s` when writing a path: `first` says that `s` is the first segment
of the path, `last` that it is the last one. -/
inductive Blocks : (first last : Bool) → Json → Str → Prop where
  | bool {f l b s} : Blocks f l (.bool b) s
  | num {f l n s} : Blocks f l (.num n) s
  | str {f l t s} : Blocks f l (.str t) s
  /-- appending to a root array -/
  | append {l xs} : Blocks true l (.arr xs) b!"-"
  /-- not a number, or not smaller than the length -/
  | noElem {f l xs s} : s ≠ b!"-" → (∀ n : Nat, Str.atoi s = some (n : Int) → xs.length ≤ n) → Blocks f l (.arr xs) s
  /-- a null element on the way -/
  | nullElem {f xs s} {n : Nat} : s ≠ b!"-" → Str.atoi s = some (n : Int) → xs[n]? = some .null → Blocks f false (.arr xs) s

/-- Keys that dot paths can carry: not empty, no '.', no "~0" and no "~1". -/
def DotSafe (k : Str) : Prop :=
  k ≠ [] ∧ (46 : UInt8) ∉ k ∧ ∀ i : Nat, k[i]? = some 126 → k[i+1]? ≠ some 48 ∧ k[i+1]? ≠ some 49

/-- All keys of all objects in the document are dot-safe. -/
def SafeDoc (j : Json) : Prop :=
  ∀ l m, getAt j l = some (.obj m) → ∀ k ∈ Obj.keys m, DotSafe k

/-- The dot path printed for a location: the segments joined with dots, without any escaping; nothing is printed before the first segment
that is not empty. -/
def dotted (L : Loc) : Str := L.foldl (fun p s => if p = [] then seg s else p ++ 46 :: seg s) []

/-- No other scalar of the document has the same printed dot path as location `L`. -/
def Lone (j : Json) (L : Loc) : Prop := ∀ L' v, getAt j L' = some v → scalar v = true → dotted L' = dotted L → L' = L

/-- Keys occur once in every object of the document (true of every Go map). -/
def NodupDoc (j : Json) : Prop :=
  ∀ l m, getAt j l = some (.obj m) → (Obj.keys m).Nodup

/-- What is bound at a key path through objects: an object, or a non-object value. -/
inductive Node where
  | obj
  | leaf (j : Json)
  deriving DecidableEq

/-- The node at a key path (only object members are followed). -/
def nodeAt : Json → List Str → Option Node
  | .obj _, [] => some .obj
  | j, [] => some (.leaf j)
  | .obj m, k :: p => match Obj.lookup k m with
    | some c => nodeAt c p
    | none => none
  | _, _ :: _ => none

end Oapi.Spec
