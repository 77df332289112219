import Verif.Spec.Doc
import Verif.Model.Read

/-! What reading files means: YAML documents by location, directories by the names in them. -/
namespace Oapi.Spec
open Read (Key Yaml FS)

/-- How a key of a YAML mapping is written in the document: strings as they are, the other kinds as Go prints them. -/
inductive KeyText (other : Nat → Str) : Key → Str → Prop where
  | str {s} : KeyText other (.str s) s
  | null : KeyText other .null b!"<nil>"
  | yes : KeyText other (.bool true) b!"true"
  | no : KeyText other (.bool false) b!"false"
  | nat {n : Nat} : KeyText other (.int n) (Str.itoa n)
  | neg {n : Nat} : 0 < n → KeyText other (.int (-n)) (b!"-" ++ Str.itoa n)
  | other {n} : KeyText other (.other n) (other n)

/-- `z` stands at a location of the YAML document `y`; keys are found by their texts. -/
inductive YamlAt (other : Nat → Str) : Yaml → Loc → Yaml → Prop where
  | here (y) : YamlAt other y [] y
  | key {m k s v l z} : (k, v) ∈ m → KeyText other k s → YamlAt other v l z → YamlAt other (.map m) (.key s :: l) z
  | idx {xs n v l z} : xs[n]? = some v → YamlAt other v l z → YamlAt other (.seq xs) (.idx n :: l) z

/-- The same kind of value: equal scalars, two lists of the same length, or two mappings. -/
inductive SameKind : Yaml → Json → Prop where
  | null : SameKind .null .null
  | bool {b} : SameKind (.bool b) (.bool b)
  | num {n} : SameKind (.num n) (.num n)
  | str {s} : SameKind (.str s) (.str s)
  | seq {xs ys} : xs.length = ys.length → SameKind (.seq xs) (.arr ys)
  | map {m o} : SameKind (.map m) (.obj o)

/-- No two keys of one mapping have the same text, anywhere in the document. -/
def KeysApart (other : Nat → Str) (y : Yaml) : Prop :=
  ∀ l m, YamlAt other y l (.map m) →
    m.Pairwise fun a b => ∀ s, KeyText other a.1 s → ¬ KeyText other b.1 s

/-- The two documents list their mappings in different orders, at any depth. -/
inductive YReorder : Yaml → Yaml → Prop where
  | refl (a) : YReorder a a
  | trans {a b c} : YReorder a b → YReorder b c → YReorder a c
  | shuffle {m n : List (Key × Yaml)} : m.Perm n → YReorder (.map m) (.map n)
  | member {v w : Yaml} (pre post : List (Key × Yaml)) (k : Key) :
      YReorder v w → YReorder (.map (pre ++ (k, v) :: post)) (.map (pre ++ (k, w) :: post))
  | elem {v w : Yaml} (pre post : List Yaml) :
      YReorder v w → YReorder (.seq (pre ++ v :: post)) (.seq (pre ++ w :: post))

/-- A name of a file or directory. -/
def FileName (n : Str) : Prop := n ≠ [] ∧ n ≠ b!"." ∧ n ≠ b!".." ∧ (47 : UInt8) ∉ n

/-- No character that is special in a file name pattern. -/
def NoPattern (p : Str) : Prop := ∀ c ∈ p, c ∉ b!"*?[\\"

/-- The absolute path with the given names. -/
def pathOfNames (ds : List Str) : Str := ds.flatMap fun n => b!"/" ++ n

/-- An absolute directory below the root, written without detours. -/
def PlainDir (dir : Str) : Prop := ∃ ds, ds ≠ [] ∧ (∀ d ∈ ds, FileName d) ∧ dir = pathOfNames ds

/-- The text ends with a suffix. -/
def EndsWith (s suf : Str) : Prop := ∃ a, s = a ++ suf

/-- The last element of a path. -/
def LastElem (p n : Str) : Prop := (47 : UInt8) ∉ n ∧ (p = n ∨ ∃ d, p = d ++ 47 :: n)

/-- Document `j` says the same as the YAML document `y`: it has the same locations, and values of the same kind at each. -/
def SameDoc (other : Nat → Str) (y : Yaml) (j : Json) : Prop :=
  Json.WF j ∧ ∀ L, (∀ z, YamlAt other y L z → ∃ v, getAt j L = some v ∧ SameKind z v) ∧
    ∀ v, getAt j L = some v → ∃ z, YamlAt other y L z ∧ SameKind z v

/-- A mapping with texts as keys, which is what the top of a file is decoded into. -/
def topMap (m : List (Str × Yaml)) : Yaml := .map (m.map fun e => (.str e.1, e.2))

/-- An import path of the given names. -/
def importPath (ns : List Str) : Str := (pathOfNames ns).drop 1

/-- Where the sources of package `pkg` are looked for: in its module, below the module's directory; without a module, below GOPATH, if
there is something. -/
inductive PkgDirIs (gopath : Str) (missing : Str → Bool) (pkg : Str) : Option Read.Module → Str → Prop where
  | inModule {m : Read.Module} {ds rest} : m.path ≠ [] → ds ≠ [] → (∀ d ∈ ds, FileName d) → (∀ d ∈ rest, FileName d) →
      m.dir = pathOfNames ds → pkg = m.path ++ pathOfNames rest → PkgDirIs gopath missing pkg (some m) (pathOfNames (ds ++ rest))
  | inGopath {gs ns} : gs ≠ [] → (∀ d ∈ gs, FileName d) → ns ≠ [] → (∀ d ∈ ns, FileName d) → gopath = pathOfNames gs → pkg = importPath ns →
      missing (pathOfNames (gs ++ ns)) = false → PkgDirIs gopath missing pkg none (pathOfNames (gs ++ ns))

/-- The names of specification files. -/
def specNames : List Str := [b!"oapi.yaml", b!"oapi.yml", b!"oapi.json"]

end Oapi.Spec
