import Verif.Model.Cli

/-! Specification vocabulary for the command line tool (C51–C53, C63, C64). -/
namespace Oapi.Spec
open Cli

/-! ### Paths -/

/-- From directory `d` (the names on the way from the root), following the steps of a path leads to `r`. -/
inductive Follow : List Str → List Str → List Str → Prop
  | done {d} : Follow d [] d
  | stay {d c cs r} : c = [] ∨ c = b!"." → Follow d cs r → Follow d (c :: cs) r
  | up {d cs r} : Follow d.dropLast cs r → Follow d (b!".." :: cs) r
  | down {d c cs r} : c ≠ [] → c ≠ b!"." → c ≠ b!".." → Follow (d ++ [c]) cs r → Follow d (c :: cs) r

/-- An absolute path. -/
def AbsPath (p : Str) : Prop := ∃ t, p = 47 :: t

/-- An absolute path leads from the root to `d`. -/
def LeadsTo (p : Str) (d : List Str) : Prop := AbsPath p ∧ Follow [] (Str.split 47 p) d

/-- What a path written in directory `base` means. -/
def MeansIn (base p : Str) (d : List Str) : Prop :=
  (AbsPath p ∧ LeadsTo p d) ∨ (¬ AbsPath p ∧ ∃ b, LeadsTo base b ∧ Follow b (Str.split 47 p) d)

/-- Where a path leads when it is used in directory `d`. -/
def Reaches (d : List Str) (p : Str) (r : List Str) : Prop :=
  (AbsPath p ∧ LeadsTo p r) ∨ (¬ AbsPath p ∧ Follow d (Str.split 47 p) r)

/-- Where the directory of a file is, when its path is used in directory `d`: up to the last slash, `d` itself if there is none. -/
def DirReaches (d : List Str) (file : Str) (r : List Str) : Prop :=
  (∃ a b, file = a ++ 47 :: b ∧ (47 : UInt8) ∉ b ∧ Reaches d (a ++ [47]) r) ∨ ((47 : UInt8) ∉ file ∧ r = d)

/-! ### Log levels -/

/-- The documented names. -/
def levelNames : List (Str × Level) :=
  [(b!"panic", .panic), (b!"fatal", .fatal), (b!"error", .error), (b!"warn", .warn), (b!"warning", .warn), (b!"info", .info),
   (b!"debug", .debug), (b!"trace", .trace)]

/-- How a lower-case letter may be written: itself, its capital, and for `i` also `İ` (U+0130, two bytes). -/
def letterForms (c : UInt8) : List Str := if c = 105 then [[c], [c - 32], [0xC4, 0xB0]] else [[c], [c - 32]]

/-- `s` spells the lower-case name. -/
inductive Spells : Str → Str → Prop
  | nil : Spells [] []
  | cons {c n f s} : f ∈ letterForms c → Spells n s → Spells (c :: n) (f ++ s)

end Oapi.Spec
