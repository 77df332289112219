import Verif.Model.Resolver

/- Model of /repo/internal/oapi/scan/cmds. -/
namespace Oapi.Cmds

/-- `strings.TrimRight(s, cutset)` for a set of ASCII bytes. -/
def trimRight (cut : List UInt8) (s : Str) : Str := (s.reverse.dropWhile (· ∈ cut)).reverse

/-- `strings.Trim(s, " ")`. -/
def trim (s : Str) : Str := trimRight [32] (s.dropWhile (· ∈ [32]))

/-- `Commander`: `CmdRoot` (root.go:5-13) or `CmdSchema` (schema.go:15-19), with the arguments. -/
inductive Cmd where
  | root (args : List Str)
  | schema (args : List Str) (name : Str) (ptr : Pointer)
  deriving DecidableEq, Repr

/-- `newArguments`, args.go:8-14. -/
def newArguments (a : List Str) : List Str := a.map trim

/-- `makePtr`, schema.go:32-37, with its error dropped as in schema.go:45,55. -/
def makePtr (pkg a : Str) : Pointer :=
  if Str.contains a b!"://" || Str.contains a b!"#" then Pointer.parseLoose a else Pointer.newGoLoose pkg a

/-- `NewCmdSchema`, schema.go:22-60. -/
def newSchema (pkg : Str) (args : List Str) : Res Cmd :=
  match args with
  | [name] => if name = [] then .err .syntaxErr else .ok (.schema args name (makePtr pkg name))
  | [name, ptr] =>
    if name = [] then .err .syntaxErr
    else if ptr = [] then .err .syntaxErr
    else .ok (.schema args name (makePtr pkg ptr))
  | _ => .err .syntaxErr

/-- `Parse`, cmds.go:50-79 (`strings.Split` never returns an empty slice here). -/
def parse (pkg comment : Str) : Res Cmd :=
  match Str.split 32 comment with
  | [] => .err .syntaxErr
  | c :: rest =>
    let x := trim c
    if x = b!":schema" then newSchema pkg (newArguments rest)
    else if x = [] ∨ x = b!":root" then .ok (.root (newArguments rest))
    else .err .syntaxErr

/-- One comment in `ParseCommentGroup`, cmds.go:34-47; the text of a comment has at least two bytes. -/
def commentText (t : Str) : Option Str :=
  let c := t.drop 2
  if Str.hasPrefix c b!"openapi" then some (trimRight [32, 10] (c.drop 7)) else none

/-- `ParseCommentGroup`, cmds.go:34-47. -/
def parseGroup (texts : List Str) : List Str := texts.filterMap commentText

/-- The loop of `Scanner.Scan`, scan.go:37-43. -/
def parseAll (pkg : Str) : List Str → Res (List Cmd)
  | [] => .ok []
  | c :: t => match parse pkg c with
    | .err e => .err e
    | .panic => .panic
    | .ok x => match parseAll pkg t with
      | .err e => .err e
      | .panic => .panic
      | .ok xs => .ok (x :: xs)

/-- `Scanner.Scan`, scan.go:27-46, on the comment texts of a package: the commands stored for the package. -/
def scan (pkg : Str) (groups : List (List Str)) : Res (List Cmd) := parseAll pkg (groups.flatMap parseGroup)

/-- The loop of `ExportedComponents`, scan.go:56-73; `acc` is `exports`. -/
def exportLoop (acc : List Resolver.Export) : List Cmd → Res (List Resolver.Export)
  | [] => .ok acc
  | .root _ :: t => exportLoop acc t
  | .schema _ name ptr :: t =>
    match Resolver.get acc ptr with
    | some _ => .err .duplicate
    | none => exportLoop (acc ++ [⟨.schema, name, ptr⟩]) t

/-- `ExportedComponents`, scan.go:50-75; `cmds` lists the map in iteration order. -/
def exportedComponents (cmds : List (Str × List Cmd)) : Res (List Resolver.Export) :=
  exportLoop [] (cmds.flatMap Prod.snd)

/-- `List.Pointers`, cmds.go:85-94. -/
def listPointers : List Cmd → Pointers → Pointers
  | [], x => x
  | .root _ :: t, x => listPointers t x
  | .schema _ _ p :: t, x => listPointers t (Pointers.put p.toStr p x)

/-- `Map.Pointers`, cmds.go:100-106. -/
def mapPointers : List (Str × List Cmd) → Pointers → Pointers
  | [], pp => pp
  | (_, l) :: t, pp => mapPointers t (Pointers.merge pp (listPointers l []))

end Oapi.Cmds
