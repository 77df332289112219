import Verif.Model.Fragment

/-
Fragments as Go slices: a header (backing array, length) over a heap of backing arrays.
All fragment slices of the code start at offset 0 of their array (nothing in
/repo/internal/pointer re-slices), so a header needs no offset.
Models the allocation behaviour of /repo/internal/pointer/fragment.go:59-109 and of
/repo/internal/oapi/scan/types/point.go:23-46.
-/
namespace Oapi

/-- Heap: the i-th element is the backing array number i (its length is its capacity). -/
abbrev Heap := List (List Str)

/-- A Go slice header: backing array and length. -/
structure Slice where
  arr : Nat
  len : Nat
  deriving DecidableEq, Repr

namespace Slice

/-- Capacity of a slice. -/
def cap (h : Heap) (s : Slice) : Nat := (h.getD s.arr []).length

/-- What the program reads through the slice. -/
def view (h : Heap) (s : Slice) : Fragment := (h.getD s.arr []).take s.len

/-- Write `xs` into the backing array `a` starting at index `i`. -/
def writeArr (a : List Str) (i : Nat) (xs : List Str) : List Str :=
  a.take i ++ xs ++ a.drop (i + xs.length)

/-- Allocate a fresh array with the given contents and `extra` more capacity. -/
def alloc (h : Heap) (xs : List Str) (extra : Nat) : Heap × Slice :=
  (h ++ [xs ++ List.replicate extra []], ⟨h.length, xs.length⟩)

/-- Go's `append(s, xs...)`: in place when the capacity suffices, otherwise into a fresh array
whose extra capacity (`extra`) is up to the runtime. -/
def append (h : Heap) (s : Slice) (xs : List Str) (extra : Nat) : Heap × Slice :=
  if s.len + xs.length ≤ cap h s then
    (h.set s.arr (writeArr (h.getD s.arr []) s.len xs), ⟨s.arr, s.len + xs.length⟩)
  else alloc h (view h s ++ xs) extra

/-- `Fragment.Clone`, fragment.go:60-64: `make(Fragment, len(p))` has capacity `len(p)`. -/
def clone (h : Heap) (s : Slice) : Heap × Slice := alloc h (view h s) 0

/-- `Fragment.RawDescendant`, fragment.go:107-109. -/
def rawDescendant (h : Heap) (s : Slice) (toks : List Str) (extra : Nat) : Heap × Slice :=
  append h s toks extra

/-- `Fragment.Descendant`, fragment.go:87-101.  `parseFragment` allocates its own array
(`strings.Split`), which is returned when the receiver prints as "/".
The error branch (unreachable, see C03) returns the receiver. -/
def descendant (h : Heap) (s : Slice) (path : Str) (extra : Nat) : Heap × Slice :=
  let path := if Str.hasPrefix path Fragment.separator then path else Fragment.sepByte :: path
  match Fragment.parseFragment path with
  | .ok dpath =>
    let (h1, d) := alloc h dpath 0
    if Fragment.toStr (view h1 s) = Fragment.separator then (h1, d) else append h1 s dpath extra
  | _ => (h, s)

/-- `Fragment.Replace`, fragment.go:67-74, on success: a write into the clone. -/
def replace (h : Heap) (s : Slice) (n : Nat) (e : Str) : Heap × Slice :=
  let (h1, c) := clone h s
  (h1.set c.arr ((h1.getD c.arr []).set n e), c)

/-- `withDescendant`, `withArray`, `withPtr`, point.go:23-42: clone, then `Descendant` on the clone. -/
def withDescendant (h : Heap) (s : Slice) (path : Str) (extra : Nat) : Heap × Slice :=
  let (h1, c) := clone h s
  descendant h1 c path extra

end Slice

/-- The ways the code obtains a new fragment; `r` numbers the earlier fragments. -/
inductive SliceOp where
  /-- `NewFragment` / `NewPointer`: a fresh slice, any spare capacity -/
  | fresh (f : Fragment) (extra : Nat)
  /-- `Fragment.Clone`, `Pointer.Clone` -/
  | clone (r : Nat)
  /-- `Fragment.Replace` with an index in range -/
  | replace (r : Nat) (n : Nat) (e : Str)
  /-- `withDescendant`, `withArray`, `withPtr` -/
  | withDescendant (r : Nat) (path : Str) (extra : Nat)

/-- Program state: heap and the fragments obtained so far. -/
structure SliceState where
  heap : Heap
  regs : List Slice

namespace SliceState
def push (s : SliceState) (p : Heap × Slice) : SliceState := ⟨p.1, s.regs ++ [p.2]⟩

/-- One operation; an operation on a fragment that does not exist does nothing. -/
def step (s : SliceState) : SliceOp → SliceState
  | .fresh f extra => s.push (Slice.alloc s.heap f extra)
  | .clone r => match s.regs[r]? with
    | some x => s.push (Slice.clone s.heap x)
    | none => s
  | .replace r n e => match s.regs[r]? with
    | some x => s.push (Slice.replace s.heap x n e)
    | none => s
  | .withDescendant r path extra => match s.regs[r]? with
    | some x => s.push (Slice.withDescendant s.heap x path extra)
    | none => s

def run (s : SliceState) (ops : List SliceOp) : SliceState := ops.foldl step s

/-- What fragment number `i` reads as. -/
def read (s : SliceState) (i : Nat) : Option Fragment := (s.regs[i]?).map (Slice.view s.heap)

def init : SliceState := ⟨[], []⟩
end SliceState
end Oapi
