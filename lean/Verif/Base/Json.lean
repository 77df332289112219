import Verif.Base.Str
import Verif.Base.Res

/-
JSON documents: what a gabs container wraps (`interface{}` trees of map[string]interface{},
[]interface{}, string, float64, bool, nil).
Objects are association lists; Go maps are represented by the list with increasing keys.
Numbers are opaque tokens.
-/
namespace Oapi

inductive Json where
  | null
  | bool (b : Bool)
  | num (n : Int)
  | str (s : Str)
  | arr (xs : List Json)
  | obj (kvs : List (Str × Json))

/-- The content of an object. -/
abbrev Obj := List (Str × Json)

namespace Json

mutual
/-- Structural equality test. -/
def beq (a b : Json) : Bool :=
  match a, b with
  | .null, .null => true
  | .bool a, .bool b => a == b
  | .num a, .num b => a == b
  | .str a, .str b => a == b
  | .arr a, .arr b => beqL a b
  | .obj a, .obj b => beqO a b
  | _, _ => false
termination_by structural a
def beqL (a b : List Json) : Bool :=
  match a, b with
  | [], [] => true
  | x :: a, y :: b => beq x y && beqL a b
  | _, _ => false
termination_by structural a
def beqO (a b : List (Str × Json)) : Bool :=
  match a, b with
  | [], [] => true
  | (k, x) :: a, (l, y) :: b => k == l && beq x y && beqO a b
  | _, _ => false
termination_by structural a
end

mutual
theorem beq_iff (a b : Json) : beq a b = true ↔ a = b := by
  match a, b with
  | .null, .null | .bool _, .bool _ | .num _, .num _ | .str _, .str _ => simp [beq]
  | .arr a, .arr b => simp [beq, beqL_iff a b]
  | .obj a, .obj b => simp [beq, beqO_iff a b]
  | .null, .bool _ | .null, .num _ | .null, .str _ | .null, .arr _ | .null, .obj _
  | .bool _, .null | .bool _, .num _ | .bool _, .str _ | .bool _, .arr _ | .bool _, .obj _
  | .num _, .null | .num _, .bool _ | .num _, .str _ | .num _, .arr _ | .num _, .obj _
  | .str _, .null | .str _, .bool _ | .str _, .num _ | .str _, .arr _ | .str _, .obj _
  | .arr _, .null | .arr _, .bool _ | .arr _, .num _ | .arr _, .str _ | .arr _, .obj _
  | .obj _, .null | .obj _, .bool _ | .obj _, .num _ | .obj _, .str _ | .obj _, .arr _ => simp [beq]
termination_by structural a
theorem beqL_iff (a b : List Json) : beqL a b = true ↔ a = b := by
  match a, b with
  | [], [] => simp [beqL]
  | [], _ :: _ => simp [beqL]
  | _ :: _, [] => simp [beqL]
  | x :: a, y :: b => simp [beqL, beq_iff x y, beqL_iff a b]
termination_by structural a
theorem beqO_iff (a b : List (Str × Json)) : beqO a b = true ↔ a = b := by
  match a, b with
  | [], [] => simp [beqO]
  | [], _ :: _ => simp [beqO]
  | _ :: _, [] => simp [beqO]
  | (k, x) :: a, (l, y) :: b => simp [beqO, beq_iff x y, beqO_iff a b]
termination_by structural a
end

instance : DecidableEq Json := fun a b => decidable_of_iff (beq a b = true) (beq_iff a b)

/-- Is the value an object (`map[string]interface{}`)? -/
def isObj : Json → Bool
  | .obj _ => true
  | _ => false

/-- Is the value an object or an array? -/
def isContainer : Json → Bool
  | .obj _ => true
  | .arr _ => true
  | _ => false

end Json

namespace Obj

/-- Map lookup. -/
def lookup (k : Str) : Obj → Option Json
  | [] => none
  | (k', v) :: t => if k = k' then some v else lookup k t

/-- Map assignment `m[k] = v`, keeping the keys increasing. -/
def insert (k : Str) (v : Json) : Obj → Obj
  | [] => [(k, v)]
  | (k', v') :: t =>
    if k = k' then (k, v) :: t
    else if Str.lt k k' then (k, v) :: (k', v') :: t
    else (k', v') :: insert k v t

/-- Map deletion. -/
def erase (k : Str) : Obj → Obj
  | [] => []
  | (k', v') :: t => if k = k' then erase k t else (k', v') :: erase k t

/-- The keys. -/
def keys (m : Obj) : List Str := m.map Prod.fst

/-- Keys strictly increasing. -/
def Sorted : Obj → Prop
  | [] => True
  | (k, _) :: t => (∀ k' ∈ keys t, Str.lt k k' = true) ∧ Sorted t

/-- Build a Go map from a list of bindings in any order (the last binding of a key wins). -/
def ofList : List (Str × Json) → Obj
  | [] => []
  | (k, v) :: t => if k ∈ keys t then ofList t else insert k v (ofList t)

end Obj

namespace Json

mutual
/-- Canonical representation: increasing keys, everywhere. -/
def WF (j : Json) : Prop :=
  match j with
  | .arr xs => WFL xs
  | .obj kvs => Obj.Sorted kvs ∧ WFO kvs
  | _ => True
termination_by structural j
def WFL (xs : List Json) : Prop :=
  match xs with
  | [] => True
  | x :: t => WF x ∧ WFL t
termination_by structural xs
def WFO (kvs : List (Str × Json)) : Prop :=
  match kvs with
  | [] => True
  | (_, v) :: t => WF v ∧ WFO t
termination_by structural kvs
end

mutual
/-- Sort all objects of a document whose objects list their keys in arbitrary order. -/
def canon (j : Json) : Json :=
  match j with
  | .arr xs => .arr (canonL xs)
  | .obj kvs => .obj (Obj.ofList (canonO kvs))
  | .null => .null
  | .bool b => .bool b
  | .num n => .num n
  | .str s => .str s
termination_by structural j
def canonL (xs : List Json) : List Json :=
  match xs with
  | [] => []
  | x :: t => canon x :: canonL t
termination_by structural xs
def canonO (kvs : List (Str × Json)) : List (Str × Json) :=
  match kvs with
  | [] => []
  | (k, v) :: t => (k, canon v) :: canonO t
termination_by structural kvs
end

end Json
end Oapi
