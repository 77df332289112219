import Verif.Model.Container
import Verif.Model.Pointer

/- Model of the spec-file scanner, /repo/internal/oapi/scan/specs/scan.go. -/
namespace Oapi.Specs

/-- scan.go:53-64: what one `$ref` string becomes in a package: the pointer it is replaced by. -/
def rewriteRef (pkg x : Str) : Res Pointer :=
  match Pointer.parse x with
  | .err e => .err e
  | .panic => .panic
  | .ok p =>
    if p.url.scheme = b!"go" ∧ p.pkgPath = [] then
      .ok { Pointer.newGoLoose pkg [] with fragment := p.fragment }
    else .ok p

/-- scan.go:48-72: the loop over the extracted references (in the order of the Go map), updating the document and the
registered pointers. -/
def scanRefs (pkg : Str) : List (Str × Json) → Json → Pointers → Res (Json × Pointers)
  | [], c, ps => .ok (c, ps)
  | (key, v) :: t, c, ps =>
    match v with
    | .str x => match rewriteRef pkg x with
      | .err e => .err e
      | .panic => .panic
      | .ok p =>
        let ps := Pointers.put p.toStr p ps
        match Container.setP c key (.str p.toStr) with
        | .err e => .err e
        | .panic => .panic
        | .ok c => scanRefs pkg t c ps
    | _ => scanRefs pkg t c ps

/-- scan.go:38-76 for one file: `none` if it is skipped.  `ScanFile pkg c ps r` holds for every result some iteration order
of the extracted references gives. -/
def ScanFile (pkg : Str) (c : Json) (ps : Pointers) (r : Res (Option Json × Pointers)) : Prop :=
  if Container.existsP c b!"openapi" = false then r = .ok (none, ps)
  else match Container.extractKey c b!"$ref" with
    | .err e => r = .err e
    | .panic => r = .panic
    | .ok refs => ∃ refs', Container.MapOrder refs refs' ∧
        r = match scanRefs pkg refs' c ps with
          | .ok (c', ps') => .ok (some c', ps')
          | .err e => .err e
          | .panic => .panic

/-- scan.go:26-79: the files of one package, in directory order.  On an error the containers of the package are dropped. -/
inductive ScanFiles (pkg : Str) : List Json → Pointers → Res (List Json × Pointers) → Prop where
  | nil {ps} : ScanFiles pkg [] ps (.ok ([], ps))
  | skip {c cs ps r ps'} : ScanFile pkg c ps (.ok (none, ps')) → ScanFiles pkg cs ps' r → ScanFiles pkg (c :: cs) ps r
  | keep {c cs ps ps' c' out ps''} : ScanFile pkg c ps (.ok (some c', ps')) → ScanFiles pkg cs ps' (.ok (out, ps'')) →
      ScanFiles pkg (c :: cs) ps (.ok (c' :: out, ps''))
  | keepErr {c cs ps ps' c' e} : ScanFile pkg c ps (.ok (some c', ps')) → ScanFiles pkg cs ps' (.err e) →
      ScanFiles pkg (c :: cs) ps (.err e)
  | fail {c cs ps e} : ScanFile pkg c ps (.err e) → ScanFiles pkg (c :: cs) ps (.err e)

end Oapi.Specs
