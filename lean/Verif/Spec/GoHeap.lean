import Verif.Model.GoHeap
import Verif.Spec.Merge
import Verif.Spec.Doc

/-! What it means that a Go value is a document of its own. -/
namespace Oapi.GoHeap

mutual
/-- In memory `h` the value `v` is the document `j`, and `F` lists the maps and backing arrays it is made of, each used once: nothing is shared. -/
def Rep (h : Mem) (j : Json) (v : Val) (F : List Nat) : Prop :=
  match j with
  | .null => v = .null ∧ F = []
  | .bool b => v = .bool b ∧ F = []
  | .num n => v = .num n ∧ F = []
  | .str s => v = .str s ∧ F = []
  | .arr xs => ∃ a len bs G, v = .slice a len ∧ h[a]? = some (.arr bs) ∧ len ≤ bs.length ∧ RepL h xs (bs.take len) G ∧ a ∉ G ∧ F = a :: G
  | .obj m => Obj.Sorted m ∧ ∃ a kvs G, v = .map a ∧ h[a]? = some (.map kvs) ∧ RepO h m kvs G ∧ a ∉ G ∧ F = a :: G
termination_by structural j
def RepL (h : Mem) (xs : List Json) (vs : List Val) (F : List Nat) : Prop :=
  match xs with
  | [] => vs = [] ∧ F = []
  | x :: t => ∃ v vt A B, vs = v :: vt ∧ Rep h x v A ∧ RepL h t vt B ∧ F = A ++ B ∧ ∀ a ∈ A, a ∉ B
termination_by structural xs
def RepO (h : Mem) (m : List (Str × Json)) (kvs : GoMap) (F : List Nat) : Prop :=
  match m with
  | [] => kvs = [] ∧ F = []
  | (k, x) :: t => ∃ v vt A B, kvs = (k, v) :: vt ∧ Rep h x v A ∧ RepO h t vt B ∧ F = A ++ B ∧ ∀ a ∈ A, a ∉ B
termination_by structural m
end

/-! ### Containers as values: what a caller may think a container is -/

/-- The documents of the containers a caller has. -/
abbrev Docs := Nat → Option Json

/-- One container gets a document; all others keep theirs. -/
def Docs.upd (d : Docs) (c : Nat) (j : Json) : Docs := fun x => if x = c then some j else d x

/-- The mergers on documents. -/
def Strategy.pure : Strategy → Container.Merger
  | .strict => Container.mergeStrict
  | .default => Container.mergeDefault
  | .override => Container.mergeOverride

/-- The beginning of a document, listed in some order: what a walk through it that is broken off has passed by. -/
inductive BeginningOf : Json → Json → Prop where
  | stop (before after : List (Str × Json)) : BeginningOf (.obj before) (.obj (before ++ after))
  | inside {part whole : Json} (before after : List (Str × Json)) (k : Str) : BeginningOf part whole →
      BeginningOf (.obj (before ++ [(k, part)])) (.obj (before ++ (k, whole) :: after))

/-- The effect of a call and what it returns, if containers were independent values.  A merge that fails has merged the beginning of its source. -/
def Effect (d : Docs) : Cmd → Res (Option Nat) → Docs → Prop
  | .new, r, d' => ∃ n, d n = none ∧ r = .ok (some n) ∧ d' = d.upd n (.obj [])
  | .make j, r, d' => ∃ n, d n = none ∧ r = .ok (some n) ∧ d' = d.upd n j
  | .clone c, r, d' => ∃ n j, d n = none ∧ d c = some j ∧ r = .ok (some n) ∧ d' = d.upd n j
  | .setP c p src, r, d' => ∃ jc js, d c = some jc ∧ d src = some js ∧
      ((∃ j, Container.setP jc p js = .ok j ∧ r = .ok none ∧ d' = d.upd c j) ∨ ∃ e, Container.setP jc p js = .err e ∧ r = .err e ∧ d' = d)
  | .merge c f src order, r, d' => ∃ jc js, d c = some jc ∧ d src = some js ∧ Spec.Reorder js order ∧
      ((∃ j, Container.merge jc order f.pure = .ok j ∧ r = .ok none ∧ d' = d.upd c j) ∨
        ∃ e j part, Container.merge jc order f.pure = .err e ∧ r = .err e ∧ BeginningOf part order ∧ Container.merge jc part f.pure = .ok j ∧ d' = d.upd c j)

/-- A history of calls on values. -/
inductive Hist : Docs → List (Cmd × Res (Option Nat)) → Docs → Prop where
  | nil (d) : Hist d [] d
  | snoc {d d' d'' l cmd r} : Hist d l d' → Effect d' cmd r d'' → Hist d (l ++ [(cmd, r)]) d''

/-- A call a program can make: on containers it has been given; a document handed to `Make` is a tree with distinct keys; a map is visited in some order. -/
def Legal (known : List Nat) (h : Heap) : Cmd → Prop
  | .new => True
  | .make j => Json.WF j
  | .clone c => c ∈ known
  | .setP c _ src => c ∈ known ∧ src ∈ known
  | .merge c _ src order => c ∈ known ∧ src ∈ known ∧ ∀ j, doc h.mem (data h (some src)) = some j → Spec.Reorder j order

/-- The containers a caller knows after a call. -/
def learn : Res (Option Nat) → List Nat → List Nat
  | .ok (some n), known => n :: known
  | _, known => known

/-- A history of calls in memory; `known` are the containers the caller has been given. -/
inductive Calls (room : Nat) : List (Cmd × Res (Option Nat)) → List Nat → Heap → Prop where
  | start : Calls room [] [] ⟨[], []⟩
  | call {l known h} (cmd : Cmd) : Calls room l known h → Legal known h cmd →
      Calls room (l ++ [(cmd, (exec room h cmd).2)])
        (learn (exec room h cmd).2 known) (exec room h cmd).1

/-- The container a call changes. -/
def target : Cmd → Option Nat
  | .setP c _ _ => some c
  | .merge c _ _ _ => some c
  | _ => none

/-! ### Views -/

/-- A history of calls on values, one of which, `w`, is the part at `L` of another, `c`: a call on the part is a call on the whole. -/
inductive ViewHist (c w : Nat) (L : Spec.Loc) : Docs → List (Cmd × Res (Option Nat)) → Docs → Prop where
  | nil (d) : ViewHist c w L d [] d
  | other {d d' d'' l cmd r} : ViewHist c w L d l d' → target cmd ≠ some w → Effect d' cmd r d'' → ViewHist c w L d (l ++ [(cmd, r)]) d''
  | part {d d' d'' l cmd r j x} : ViewHist c w L d l d' → target cmd = some w → Effect d' cmd r d'' → d'' c = some j → d'' w = some x →
      ViewHist c w L d (l ++ [(cmd, r)]) (d''.upd c (Spec.putAt x L j))

/-- Calls after a history that has led to `h0`, on any container but `c`. -/
inductive Away (room c : Nat) (known0 : List Nat) (h0 : Heap) : List (Cmd × Res (Option Nat)) → List Nat → Heap → Prop where
  | start : Away room c known0 h0 [] known0 h0
  | call {l known h} (cmd : Cmd) : Away room c known0 h0 l known h → Legal known h cmd → target cmd ≠ some c →
      Away room c known0 h0 (l ++ [(cmd, (exec room h cmd).2)]) (learn (exec room h cmd).2 known) (exec room h cmd).1

end Oapi.GoHeap
