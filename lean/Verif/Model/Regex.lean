import Verif.Model.Route

/-! Model of `regexp.Compile("^" + pattern + "$")` and `MatchString` (/repo/internal/route/route.go:105 and 92) for more of the language of Go's
regular expressions than `Route.parseRe` reads: groups, alternatives, character classes and the repetitions `+` and `?`.  It is a behaviour `other` for
`Route.compile`; what it does not read goes to another such behaviour. -/
namespace Oapi.Regex
open Oapi Route

/-- Expressions, as regexp/syntax has them; groups leave no trace, since only `MatchString` is called. -/
inductive Re where
  | none
  | eps
  | chr (c : Nat)
  | dot
  | cls (neg : Bool) (rs : List (Nat × Nat))
  | cat (a b : Re)
  | alt (a b : Re)
  | plus (a : Re)
  | opt (a : Re)
  deriving DecidableEq, Repr

/-- A level of the parser's stack (regexp/syntax `parser.stack` down to the next left parenthesis): the alternatives that are complete and the
items since the last '|', the last one first, with a mark on repetitions. -/
structure Frame where
  alts : List Re := []
  cur : List (Re × Bool) := []

/-- regexp/syntax `parser.concat`. -/
def concat (cur : List (Re × Bool)) : Re := cur.foldl (fun acc x => .cat x.1 acc) .eps

/-- regexp/syntax `parser.alternate`. -/
def alternate : List Re → Re
  | [] => .none
  | [e] => e
  | e :: t => .alt e (alternate t)

/-- An item is added. -/
def Frame.push (f : Frame) (x : Re × Bool) : Frame := { f with cur := x :: f.cur }

/-- All alternatives of a level. -/
def Frame.close (f : Frame) : List Re := f.alts ++ [concat f.cur]

/-- How deep groups may be nested here; Go's bound on the height of an expression is 1000. -/
def limit : Nat := 400

/-- regexp/syntax `parser.parseClass`, inside the brackets: the ranges, and how many runes there are up to the ']'; `none` are classes that are left to
another model (with '[' or '\' in them).  The first argument counts the runes that are skipped. -/
def ranges : Nat → Runes → Option (List (Nat × Nat) × Nat)
  | _, [] => Option.none
  | skip + 1, _ :: t => (ranges skip t).map fun r => (r.1, r.2 + 1)
  | 0, c :: t =>
    if c = 93 then some ([], 1)
    else if c = 91 ∨ c = 92 then Option.none
    else match t with
      | 45 :: e :: _ =>
        if e = 93 then (ranges 0 t).map fun r => ((c, c) :: r.1, r.2 + 1)
        else if e = 91 ∨ e = 92 ∨ e < c then Option.none
        else (ranges 2 t).map fun r => ((c, e) :: r.1, r.2 + 1)
      | _ => (ranges 0 t).map fun r => ((c, c) :: r.1, r.2 + 1)

/-- regexp/syntax `parser.parseClass`, behind the '['; a ']' at the beginning, which would stand for itself, is left to another model. -/
def cls (t : Runes) : Option (Bool × List (Nat × Nat) × Nat) :=
  if t.head? = some 94 then
    if (t.drop 1).head? = some 93 then Option.none else (ranges 0 (t.drop 1)).map fun r => (true, r.1, r.2 + 1)
  else if t.head? = some 93 then Option.none else (ranges 0 t).map fun r => (false, r.1, r.2)

/-- regexp/syntax `perl_groups`. -/
def perl (d : Nat) : Option Re :=
  if d = 100 then some (.cls false [(48, 57)])
  else if d = 68 then some (.cls true [(48, 57)])
  else if d = 115 then some (.cls false [(9, 10), (12, 13), (32, 32)])
  else if d = 83 then some (.cls true [(9, 10), (12, 13), (32, 32)])
  else if d = 119 then some (.cls false [(48, 57), (65, 90), (95, 95), (97, 122)])
  else if d = 87 then some (.cls true [(48, 57), (65, 90), (95, 95), (97, 122)])
  else Option.none

/-- regexp/syntax `parse`: the alternatives at the top level; `none` is an expression that is left to another model, also because it is
wrong.  The first argument counts the runes that are skipped, the others are the level that is being read and the ones around it. -/
def run : Nat → Frame → List Frame → Runes → Option (List Re)
  | _, f, [], [] => some f.close
  | _, _, _ :: _, [] => Option.none
  | skip + 1, f, st, _ :: t => run skip f st t
  | 0, f, st, c :: t =>
    if (ascii b!"(.*)").isPrefixOf (c :: t) then run 3 (f.push (.opt (.plus .dot), false)) st t
    else if c = 92 then
      match t with
      | d :: _ => if decide (d < 128) && !isAlnum d then run 1 (f.push (.chr d, false)) st t
        else match perl d with
          | some x => run 1 (f.push (x, false)) st t
          | Option.none => Option.none
      | [] => Option.none
    else if c = 46 then run 0 (f.push (.dot, false)) st t
    else if c = 91 then
      match cls t with
      | some (neg, rs, k) => run k (f.push (.cls neg rs, false)) st t
      | Option.none => Option.none
    else if c = 40 then
      if t.head? = some 63 ∨ limit ≤ st.length then Option.none else run 0 {} (f :: st) t
    else if c = 41 then
      match st with
      | g :: st => run 0 (g.push (alternate f.close, false)) st t
      | [] => Option.none
    else if c = 124 then run 0 { alts := f.close } st t
    else if c = 43 ∨ c = 63 then
      match f.cur with
      | (x, false) :: r => run 0 { f with cur := ((if c = 43 then .plus x else .opt x), true) :: r } st t
      | _ => Option.none
    else if special c then Option.none
    else run 0 (f.push (.chr c, false)) st t

/-! ### Matching: the language of an expression, by derivatives -/

def nullable : Re → Bool
  | .none => false
  | .eps => true
  | .chr _ => false
  | .dot => false
  | .cls _ _ => false
  | .cat a b => nullable a && nullable b
  | .alt a b => nullable a || nullable b
  | .plus a => nullable a
  | .opt _ => true

/-- regexp/syntax `matchRune`, on the ranges as they are written. -/
def inRanges (c : Nat) (rs : List (Nat × Nat)) : Bool := rs.any fun r => decide (r.1 ≤ c) && decide (c ≤ r.2)

/-- What can follow the rune. -/
def deriv (c : Nat) : Re → Re
  | .none => .none
  | .eps => .none
  | .chr x => if c = x then .eps else .none
  | .dot => if c = 10 then .none else .eps
  | .cls neg rs => if inRanges c rs = neg then .none else .eps
  | .cat a b => if nullable a then .alt (.cat (deriv c a) b) (deriv c b) else .cat (deriv c a) b
  | .alt a b => .alt (deriv c a) (deriv c b)
  | .plus a => .cat (deriv c a) (.opt (.plus a))
  | .opt a => deriv c a

/-- Is the text as a whole in the language? -/
def full (r : Re) : Runes → Bool
  | [] => nullable r
  | c :: t => full (deriv c r) t

/-- A match that begins where the text begins. -/
def pre (r : Re) (q : Runes) : Bool := (List.range (q.length + 1)).any fun i => full r (q.take i)
/-- A match that ends where the text ends. -/
def suf (r : Re) (q : Runes) : Bool := (List.range (q.length + 1)).any fun i => full r (q.drop i)
/-- A match anywhere. -/
def anywhere (r : Re) (q : Runes) : Bool := (List.range (q.length + 1)).any fun i => pre r (q.drop i)

/-- The alternatives after the first: the `$` belongs to the last one. -/
def later : List Re → Runes → Bool
  | [], _ => false
  | [z], q => suf z q
  | m :: t, q => anywhere m q || later t q

/-- `^alternatives$`: the `^` belongs to the first alternative. -/
def anchored : List Re → Runes → Bool
  | [], _ => false
  | [r], q => full r q
  | a :: t, q => pre a q || later t q

/-- The behaviour of expressions: `rest` is the behaviour of those that are not read here. -/
def behaviour (rest : Runes → Option Regexp) (re : Runes) : Option Regexp :=
  match run 0 {} [] re with
  | some l => some fun path => anchored l (runes path)
  | Option.none => rest re

end Oapi.Regex
