import Verif.Model.Merge

/-
Containers as Go has them: documents are trees of maps and slices in memory, which are changed in place and can be shared.
Models /repo/internal/container/{container,merge,utils}.go a second time, below the value-level models `Model/Container` and `Model/Merge`,
and of gabs v2.6.0 `Search`, `Set`, `ChildrenMap`.
-/
namespace Oapi.GoHeap

/-- A Go `interface{}` that holds a document: maps are pointers, slices are headers over a backing array (offset 0). -/
inductive Val where
  | null
  | bool (b : Bool)
  | num (n : Int)
  | str (s : Str)
  | map (a : Nat)
  | slice (a len : Nat)
  deriving DecidableEq

/-- The content of a `map[string]interface{}`, with increasing keys. -/
abbrev GoMap := List (Str × Val)

/-- `m[k]`. -/
def look (k : Str) : GoMap → Option Val
  | [] => none
  | (k', v) :: t => if k = k' then some v else look k t

/-- `m[k] = v`. -/
def put (k : Str) (v : Val) : GoMap → GoMap
  | [] => [(k, v)]
  | (k', v') :: t => if k = k' then (k, v) :: t else if Str.lt k k' then (k, v) :: (k', v') :: t else (k', v') :: put k v t

/-- What is at an address: a map, or a backing array (as long as its capacity). -/
inductive Node where
  | map (m : GoMap)
  | arr (xs : List Val)
  deriving DecidableEq

/-- Memory: the address is the position. -/
abbrev Mem := List Node

/-- The map at an address. -/
def Mem.mapAt (h : Mem) (a : Nat) : GoMap :=
  match h[a]? with
  | some (.map m) => m
  | _ => []

/-- The backing array at an address. -/
def Mem.arrAt (h : Mem) (a : Nat) : List Val :=
  match h[a]? with
  | some (.arr xs) => xs
  | _ => []

/-- The elements of a slice. -/
def Mem.elems (h : Mem) (a len : Nat) : List Val := (h.arrAt a).take len

/-- Go's `append(s, v)`: in place if there is room, else into a new array with `room` more places. -/
def append1 (room : Nat) (h : Mem) (a len : Nat) (v : Val) : Mem × Val :=
  if len < (h.arrAt a).length then (h.set a (.arr ((h.arrAt a).set len v)), .slice a (len + 1))
  else (h ++ [.arr (h.elems a len ++ v :: List.replicate room .null)], .slice h.length (len + 1))

/-! ### gabs -/

/-- The loop over the elements at a wildcard: the values found below them. -/
def searchAll (f : Val → Mem → Mem × Option Val) : List Val → Mem → Mem × List Val
  | [], h => (h, [])
  | v :: t, h =>
    let r := f v h
    let r' := searchAll f t r.1
    (r'.1, r.2.toList ++ r'.2)

/-- gabs `Search`; a wildcard makes a new slice of the found values. -/
def search : List Str → Val → Mem → Mem × Option Val
  | [], v, h => (h, some v)
  | seg :: p, v, h =>
    match v with
    | .map a => match look seg (h.mapAt a) with
      | some c => search p c h
      | none => (h, none)
    | .slice a len =>
      if seg = b!"*" then
        let r := match p with
          | [] => (h, h.elems a len)
          | _ :: _ => searchAll (fun v h => search p v h) (h.elems a len) h
        if r.2.isEmpty then (r.1, none) else (r.1 ++ [.arr r.2], some (.slice r.1.length r.2.length))
      else match Gabs.arrIndex seg len with
        | some i => match (h.elems a len)[i]? with
          | some c => search p c h
          | none => (h, none)
        | none => (h, none)
    | _ => (h, none)

/-- The member `Set` descends into: where there is none, or nil, a new map. -/
def fill (c : Option Val) (h : Mem) : Mem × Val :=
  match c with
  | none => (h ++ [.map []], .map h.length)
  | some .null => (h ++ [.map []], .map h.length)
  | some c => (h, c)

/-- gabs `Set` below the root, in place.  The second component is what stands in the slot the walk came from: the same map or slice, except that
appending makes a new slice header, which gabs stores into the slot by walking to it a second time (`g.Set(typedObj, hierarchy[:target]...)`).
`room` is the capacity the runtime adds when a slice grows. -/
def setRec (room : Nat) (v : Val) (root : Bool) (p : List Str) (o : Val) (h : Mem) : Res (Mem × Val) :=
  match p with
  | [] => .ok (h, v)
  | seg :: p =>
    match o with
    | .map a =>
      match p with
      | [] => .ok (h.set a (.map (put seg v (h.mapAt a))), .map a)
      | s :: q =>
        let r := fill (look seg (h.mapAt a)) h
        match setRec room v false (s :: q) r.2 r.1 with
        | .ok (h', c) => .ok (h'.set a (.map (put seg c (h'.mapAt a))), .map a)
        | .err e => .err e
        | .panic => .panic
    | .slice a len =>
      if seg = b!"-" then
        if root then .err .outOfBounds
        else match p with
          | [] => .ok (append1 room h a len v)
          | s :: q => match setRec room v false (s :: q) (.map h.length) (h ++ [.map []]) with
            | .ok (h', c) => .ok (append1 room h' a len c)
            | .err e => .err e
            | .panic => .panic
      else match Gabs.arrIndex seg len with
        | none => .err .outOfBounds
        | some i =>
          match p with
          | [] => .ok (h.set a (.arr ((h.arrAt a).set i v)), .slice a len)
          | s :: q => match (h.elems a len)[i]? with
            | none => .err .outOfBounds
            | some .null => .err .notFound
            | some c => match setRec room v false (s :: q) c h with
              | .ok (h', c') => .ok (h'.set a (.arr ((h'.arrAt a).set i c')), .slice a len)
              | .err e => .err e
              | .panic => .panic
    | _ => .err .collision
termination_by structural p

/-- gabs `Set` on a container whose object is `o`: memory and object after it. -/
def set (room : Nat) (v : Val) (p : List Str) (o : Val) (h : Mem) : Res (Mem × Val) :=
  match p with
  | [] => .ok (h, v)
  | s :: q => let r := fill (some o) h; setRec room v true (s :: q) r.2 r.1

/-! ### Copying -/

mutual
/-- What `json.Unmarshal` builds for a document: everything is new. -/
def alloc (j : Json) (h : Mem) : Mem × Val :=
  match j with
  | .null => (h, .null)
  | .bool b => (h, .bool b)
  | .num n => (h, .num n)
  | .str s => (h, .str s)
  | .arr xs => let r := allocL xs h; (r.1 ++ [.arr r.2], .slice r.1.length r.2.length)
  | .obj m => let r := allocO m h; (r.1 ++ [.map r.2], .map r.1.length)
termination_by structural j
def allocL (xs : List Json) (h : Mem) : Mem × List Val :=
  match xs with
  | [] => (h, [])
  | x :: t => let r := alloc x h; let r' := allocL t r.1; (r'.1, r.2 :: r'.2)
termination_by structural xs
def allocO (m : List (Str × Json)) (h : Mem) : Mem × GoMap :=
  match m with
  | [] => (h, [])
  | (k, x) :: t => let r := alloc x h; let r' := allocO t r.1; (r'.1, (k, r.2) :: r'.2)
termination_by structural m
end

/-- The elements of a slice, read one by one. -/
def readsL (f : Val → Option Json) : List Val → Option (List Json)
  | [] => some []
  | v :: t => match f v, readsL f t with
    | some j, some js => some (j :: js)
    | _, _ => none

/-- The members of a map, read one by one. -/
def readsO (f : Val → Option Json) : GoMap → Option (List (Str × Json))
  | [] => some []
  | (k, v) :: t => match f v, readsO f t with
    | some j, some js => some ((k, j) :: js)
    | _, _ => none

/-- What `json.Marshal` reads from memory, with a bound on the depth (a cyclic value has no text). -/
def reads : Nat → Mem → Val → Option Json
  | 0, _, _ => none
  | n + 1, h, v => match v with
    | .null => some .null
    | .bool b => some (.bool b)
    | .num n => some (.num n)
    | .str s => some (.str s)
    | .map a => (readsO (reads n h) (h.mapAt a)).map .obj
    | .slice a len => (readsL (reads n h) (h.elems a len)).map .arr

/-- The document a value is, if it is one: no value is nested deeper than there are maps and slices. -/
def doc (h : Mem) (v : Val) : Option Json := reads (h.length + 1) h v

/-- `clone`, utils.go:50-61: through JSON text, which is the identity on documents here (see C97 for numbers). -/
def clone (h : Mem) (v : Val) : Res (Mem × Val) :=
  match doc h v with
  | some j => .ok (alloc j h)
  | none => .err .decode

/-! ### Containers -/

/-- Memory and the `*gabs.Container`s made so far: a container is a position in `objs`, with the object it wraps. -/
structure Heap where
  mem : Mem
  objs : List Val

/-- `Container.Data`, container.go:131-133; the nil container has none. -/
def data (h : Heap) (c : Option Nat) : Val :=
  match c with
  | some i => h.objs.getD i .null
  | none => .null

/-- `New`, container.go:29-33. -/
def new (h : Heap) : Heap × Nat := (⟨h.mem ++ [.map []], h.objs ++ [.map h.mem.length]⟩, h.objs.length)

/-- `Make`, container.go:38-44, and `ReadJSON`, `ReadYAML`, container.go:47-68, for the document they get. -/
def make (j : Json) (h : Heap) : Heap × Nat := let r := alloc j h.mem; (⟨r.1, h.objs ++ [r.2]⟩, h.objs.length)

/-- `Container.Clone`, container.go:191-194: the error is dropped. -/
def cloneC (c : Option Nat) (h : Heap) : Heap × Nat :=
  match clone h.mem (data h c) with
  | .ok (m, v) => (⟨m, h.objs ++ [v]⟩, h.objs.length)
  | _ => (⟨h.mem, h.objs ++ [.null]⟩, h.objs.length)

/-- `Container.Path`, container.go:151-153: a view of a part. -/
def path (p : Str) (c : Nat) (h : Heap) : Heap × Option Nat :=
  match search (Gabs.dotPathToSlice p) (data h (some c)) h.mem with
  | (m, some v) => (⟨m, h.objs ++ [v]⟩, some h.objs.length)
  | (m, none) => (⟨m, h.objs⟩, none)

/-- gabs `Set` on container `c`. -/
def setC (room : Nat) (v : Val) (p : List Str) (c : Nat) (h : Heap) : Res Heap :=
  match set room v p (data h (some c)) h.mem with
  | .ok (m, o) => .ok ⟨m, h.objs.set c o⟩
  | .err e => .err e
  | .panic => .panic

/-- `Container.SetP`, container.go:160-167, with the value of another container (utils.go:51-53). -/
def setP (room : Nat) (p : Str) (v : Val) (c : Nat) (h : Heap) : Res Heap :=
  match clone h.mem v with
  | .ok (m, v') => setC room v' (Gabs.dotPathToSlice p) c ⟨m, h.objs⟩
  | .err e => .err e
  | .panic => .panic

/-- The three mergers, merge.go:9-21. -/
inductive Strategy where
  | strict | default | override
  deriving DecidableEq

/-- They return one of the two values themselves, not a copy. -/
def Strategy.run : Strategy → Val → Val → Res Val
  | .strict, _, _ => .err .collision
  | .default, dest, _ => .ok dest
  | .override, _, source => .ok source

/-- The destination after a step of the merge, and the error the merge stops with: a step that fails has changed nothing. -/
def after (h : Heap) : Res Heap → Heap × Res Unit
  | .ok h' => (h', .ok ())
  | .err e => (h, .err e)
  | .panic => (h, .panic)

/-- A collision, merge.go:55-73. -/
def collide (room : Nat) (f : Strategy) (c : Nat) (newPath : List Str) (existing value : Val) (h : Heap) : Heap × Res Unit :=
  match f.run existing value with
  | .ok xx => after h (setC room xx newPath c h)
  | .err e => (h, .err e)
  | .panic => (h, .panic)

mutual
/-- The loop of `recursiveFnc`, merge.go:35-76, over the (cloned) source map `m`.  `order` is a document that says in which order the keys of each map are
visited.  The destination is changed step by step: a merge that fails stops halfway. -/
def mergeMap (room : Nat) (f : Strategy) (c : Nat) (path : List Str) (m : Val) (order : List (Str × Json)) (h : Heap) : Heap × Res Unit :=
  match order with
  | [] => (h, .ok ())
  | (key, o) :: t => match m with
    | .map a => match look key (h.mem.mapAt a) with
      | none => mergeMap room f c path m t h
      | some value => match mergeOne room f c (path ++ [key]) value o h with
        | (h', .ok _) => mergeMap room f c path m t h'
        | r => r
    | _ => (h, .ok ())
termination_by structural order
/-- The body of the loop, merge.go:37-74. -/
def mergeOne (room : Nat) (f : Strategy) (c : Nat) (newPath : List Str) (value : Val) (o : Json) (h : Heap) : Heap × Res Unit :=
  match search newPath (data h (some c)) h.mem with
  | (m, none) => after ⟨m, h.objs⟩ (setC room value newPath c ⟨m, h.objs⟩)
  | (m, some existing) =>
    match value with
    | .map _ =>
      match existing with
      | .map _ => match o with
        | .obj t => mergeMap room f c newPath value t ⟨m, h.objs⟩
        | _ => (⟨m, h.objs⟩, .ok ())
      | _ => collide room f c newPath existing value ⟨m, h.objs⟩
    | _ => collide room f c newPath existing value ⟨m, h.objs⟩
termination_by structural o
end

/-- `Container.Merge`, merge.go:29-81: the source is cloned, then its values are moved into the destination. -/
def merge (room : Nat) (f : Strategy) (c : Nat) (source : Option Nat) (order : Json) (h : Heap) : Heap × Res Unit :=
  let r := cloneC source h
  match order with
  | .obj t => mergeMap room f c [] (data r.1 (some r.2)) t r.1
  | _ => (r.1, .ok ())

/-! ### Calls -/

/-- What a caller does with containers; they are named by the number they got. -/
inductive Cmd where
  /-- `New`. -/
  | new
  /-- `Make`, `ReadJSON`, `ReadYAML` of a document. -/
  | make (j : Json)
  /-- `Clone`. -/
  | clone (c : Nat)
  /-- `c.SetP(p, src)`. -/
  | setP (c : Nat) (p : Str) (src : Nat)
  /-- `c.Merge(src, f)`, visiting the maps of `src` in the given order. -/
  | merge (c : Nat) (f : Strategy) (src : Nat) (order : Json)

/-- The call: memory after it, and the container or the error it returns. -/
def exec (room : Nat) (h : Heap) : Cmd → Heap × Res (Option Nat)
  | .new => ((new h).1, .ok (some (new h).2))
  | .make j => ((make j h).1, .ok (some (make j h).2))
  | .clone c => ((cloneC (some c) h).1, .ok (some (cloneC (some c) h).2))
  | .setP c p src => match setP room p (data h (some src)) c h with
    | .ok h' => (h', .ok none)
    | .err e => (h, .err e)
    | .panic => (h, .panic)
  | .merge c f src order => match merge room f c (some src) order h with
    | (h', .ok _) => (h', .ok none)
    | (h', .err e) => (h', .err e)
    | (h', .panic) => (h', .panic)

end Oapi.GoHeap
