# Formal model of buypal/oapi-go in Lean 4

## 1. What is modelled

The model follows the Go code function by function.  Every Lean definition in `lean/Verif/Model`
cites the file and lines it models and says where it simplifies.

| Go code | Lean module | How, and what is left out |
|---|---|---|
| `internal/pointer/fragment.go` | `Model/Fragment`, `Model/SliceHeap` | byte strings; for aliasing (C05, C68) slices with backing arrays, length and capacity |
| `internal/pointer/pointer.go`, `pointers.go` | `Model/Pointer`, `Model/Url` | all of `url.Parse`, `URL.String`, `URL.Hostname`, with user information, IPv6 literals and zones; errors are not told apart |
| `internal/pointer/pointer.go` UnmarshalJSON, MarshalJSON | `Model/PtrJson` | `strconv.Quote`, `Unquote` and the string part of the JSON scanner; Go's table of printable runes is a parameter; HTML escaping (`<` as `\\u003c`), done after the method by `json.Marshal`, is left out |
| `internal/container/*.go`, the parts of gabs it calls | `Model/Gabs`, `Model/Container`, `Model/Merge` | JSON values are trees with key-sorted objects; the source of a merge is cloned; the error of `Containers.Merge` is always "collision" |
| `internal/container/container.go` readers, `utils.go` mmap, `internal/pkgutil/info.go` | `Model/Read` | the file system, `json.Unmarshal` and `yaml.Unmarshal` are parameters (a YAML mapping lists its entries in Go's iteration order); `filepath.Glob` for patterns without special characters in the directory and a plain name or `*` + text as last part |
| `internal/route/route.go` | `Model/Route` | pattern compiler to a regular-expression AST; expressions outside the generated sub-language have the meaning of a parameter `other`; a pattern that is not UTF-8 is an error; lower-casing of methods is that of ASCII; the cache is an interleaving machine |
| `internal/route/route.go` (regexp.Compile, MatchString) | `Model/Regex` | groups, '|', '+', '?', brackets and \d, \s, \w of Go's expressions as an instance of `other`; left out are '[', ']' and '\' between brackets, {n}, lazy repetitions, inner '^' and '$', letter escapes; the rest of the language goes to a further parameter |
| `internal/oapi/resolver/*.go`, `spec/entity.go` | `Model/Resolver` | state = document, the visiting path as pointer texts, fuel; map order = oracle |
| `internal/oapi/scan/types/*.go` | `Model/Types` | go/types as a datatype whose equality is `types.Identical` + an environment of named types; no generics, aliases or function-local types; `typeutil.Map` is a list in any order; the sort of pointers is any sorting permutation; struct tags enter through the parameter `tagOf`, the standard mapping through `std` |
| `tag/tag.go` | `Model/Tag` | after third-party tag splitting; a partly filled tag returned next to an error is dropped |
| `tag/tag.go` Parse, parseTag with the two libraries | `Model/TagText` | structtag v1.2.0 and tagparser v0.1.2 from knowledge of them (their sources are not in /repo); `strings.TrimSpace` for ASCII |
| `internal/oapi/scan/cmds/*.go` | `Model/Cmds` | comment texts are inputs |
| `internal/oapi/scan/specs/scan.go` | `Model/Specs` | |
| `internal/oapi/oapi.go`, `oapi.go` | `Model/OAPI`, `Model/Scan` | all stages of `Scan`; map orders are oracles; a panic is kept as the state of the scan; the contents of files, the loaded packages, comments and declared objects are inputs; error texts only where a property speaks of them |
| `internal/pkgutil/util.go` | `Model/Pkgs` | packages are heap indices, nil pointers are indices outside the heap; scanners are state machines |
| `internal/oapi/config`, `cmd/oapi/*.go`, `temp.go`, `internal/logging` | `Model/Cli`, `Model/Format`, `Model/Main` | configuration sections are JSON; `filepath.Clean` by components; encoders (`json.Marshal`, `%q`) and the file system are parameters of the machine; logs are the messages handed to the logger (`logging.Fatal` does not exit) |
| `internal/oapi/spec/*_util.go`, `paths.go`, `any*.go` | `Model/SpecUtil` | Go values by value, Go maps as optional finite functions |
| `internal/oapi/spec/schema_util.go`, `parameter_util.go`, `any.go` UnmarshalJSON | `Model/Build` | a heap with numbered schemas, maps, objects and backing arrays; slices start at offset 0; enumerations by value; numbers abstract; decoding only of the example |
| `internal/oapi/spec/*.go` struct declarations, `callback.go`, `any_or_expressions.go`, `config/config.go` Config | `Model/SpecJson` | `encoding/json` on trees: number tokens are opaque (which of them are 64-bit integers is a parameter, all are floats), texts are valid UTF-8, the JSON text of values other than strings is a parameter; elements beyond the end of a shortened slice are zero |
| `internal/oapi/config/config.go` ReadFile, `cmd/oapi/scan.go` | `Model/Load` | the decoded configuration as JSON; an override or section that was read but cannot be written is dropped in the configuration of `Model/Main` (the code fails when it is used; for the root document see `C91_root_encoded`) |
| `internal/container/sort.go` JSON methods, `container.go` ReadJSON, `utils.go` clone | `Model/JsonText` | `encoding/json` scanner, compact, Indent, tree encoder and decoder; the nesting limit of 10000 is left out; number texts and printable runes are parameters |
| `cmd/oapi/main.go` with everything it calls, over one disk | `Model/System` | composition of the models above; the order of YAML mappings and the Go toolchain are parameters that do not change between runs |
| `internal/oapi/spec/{request_body_util,response_util,header_util,xml}.go` | `Model/Values` | schemas, headers, links abstract |
| `cmd/oapi/main.go` step by step, with signals and kills | `Model/Process` | loading and scanning one step each; logs left out; writing byte by byte |
| `cmd/oapi/main.go` 62-83 for several processes at once | `Model/Writers` | inodes; `os.Remove` fails only if nothing is there, `os.OpenFile` never; a failing write is a stopped process; bytes are written one at a time |
| `internal/container/{container,merge,utils}.go` a second time, in memory | `Model/GoHeap` | maps and slices are addresses; slices start at offset 0 of their array; JSON text of a clone is the identity on documents (C97) |
| `internal/oapi/oapi.go` Paths, SetPathsDefaults a second time, in memory | `Model/GoDefaults` | operations are containers looking into the document |
| `internal/oapi/resolver/resolver.go` a second time, in memory | `Model/GoResolver` | the path slices of nested calls share backing arrays |
| `internal/container/container.go` Containers.Merge, MergeStrict and `internal/oapi/oapi.go` MergeWithRoot a second time, in memory | `Model/GoMerge` | maps are visited in any order |
| `oapi.go` Scan and `internal/oapi/scan/specs` a second time, in memory | `Model/GoScan` | memory after an error of the package walk is not looked at; package walks, commands and types are the ones of `Model/Scan` (they do not touch containers) |
| `internal/oapi/scan/types` a second time, in memory | `Model/GoTypes` | points are values; `sort.Sort` is any function per call |
| `oapi.go` Scan a third time, with containers and type scanner in memory | `Model/GoWhole` | errors' texts; the options stage (`Model/Main`) |
| `cmd/oapi/config.go` getConfig, `internal/pkgutil/util.go` init | `Model/Args` | kingpin v2.2.6 from knowledge of it (its source is not in /repo); argument files are a parameter; negated forms of kingpin's own flags count as errors; no environment variables |

Not modelled: `golang.org/x/tools/go/packages` loading, the go/types checker, YAML text parsing and printing
(YAML documents are trees; JSON texts are in `Model/JsonText`), argument files of kingpin, races on input files while a scan reads them.

## 2. Trusted base

* Lean's kernel (4.33.0) and the standard axioms `propext`, `Classical.choice`, `Quot.sound`; no other axiom,
  no compiled evaluation.  (`decide +kernel` on concrete examples is evaluated by the kernel.)
* The reading of the Go source, and of the third-party code below, recorded in the comments.
* Third-party behaviour (source not in the sandbox; modelled from the documented behaviour of the version in go.mod):
  * gabs v2.6.0: `DotPathToSlice`, `Search/Path`, `Set/SetP`, `Flatten` (keys unescaped, coinciding paths kept), `ChildrenMap`;
  * Go `net/url` `Parse`/`String`/`Hostname`;
  * Go `regexp` on the fragment produced by the route compiler;
  * `sort.Slice`, `sort.Sort` = some permutation that is sorted by the given less function (not assumed stable);
  * Go map iteration = an arbitrary permutation, chosen afresh at every loop by an oracle;
  * `structtag`/`tagparser`: a parameter of `Model/Tag`, their code from memory in `Model/TagText`;
  * `strconv.ParseFloat`: a parameter.
* Numbers inside documents are opaque tokens.  Strings are byte strings.

## 3. Method

Objects are association lists with strictly increasing keys, so that equal documents are equal terms.
Iteration over a Go map is either the list order of an arbitrary permutation, or an oracle.
A panic is an explicit outcome (`Res.panic`).  Specifications (`Spec/*`) are written without the helper
functions of the model: e.g. the meaning of a merge is a statement about `nodeAt doc path` (what is bound at a key path).

False expectations (defects of the code) are proved as negations with concrete witnesses, or, where possible, as
universally quantified statements of the wrong behaviour.

The hypotheses of the whole-scan theorems (C65, C73, C75, C76) are in `Spec/Scan.lean`: `InputOK` (paths and texts a loader can
produce), `OrdersOK` (oracles are permutations), `Resolvable` (references parse, types are registered and convertible, cycles
contain an exported pointer), `OneShortest` (a type's shortest pointer is unique), `SchemasOK` (texts of tags are UTF-8 and free
of references), `DefaultsOK` (no dot in the path of an operation that a default matches, default operations that match one operation do not contradict each other).
Each is met by a concrete input in `Props/*Ex.lean`; outside them the behaviour differs, see C25, C34, C35, C58, C105.

Dots in keys: documents may have any keys. Where a theorem needs that the dot path of a reference leads back to it, this is said of the references
only (`Routed`, with `Lone`: nothing else has the same printed path); C105 says what happens to the others. The entries `ExtractKey` collects are kept in a Go map
keyed by the printed path, so the model's iteration orders (`MapOrder`) visit each path once, with any of the values that have it.

## 4. Plan per property

* **C01** Model/Fragment; induction on tokens and on bytes (escape/unescape, join/split).
* **C02** same; iff by induction on bytes against an independent RFC 6901 syntax predicate.
* **C03** same; equation against split/unescape spec.
* **C04** Replace with Go index semantics (Int), outcome ok/err/panic.
* **C05** heap of backing arrays; invariant over operation histories; negative witness without clone.
* **C06** url model + Pointer; forward parse of printed form.
* **C07** every URL made of RFC 3986 characters reads back from its print (scheme, user information, host with IPv6 literal and zone, path, query), so equal prints have equal targets.
* **C08** scan of a spec file: statement about every $ref; the target of other references by the round trip of C07; counterexamples for fragments with "%" and for texts that are not URLs.
* **C09** fold over any permutation of px equals right-biased lookup.
* **C10** byte induction on the two replacers; iff.
* **C11** induction on the path over the gabs Set model.
* **C12** same, incomparable paths.
* **C13** same; characterisation of failure.
* **C14** induction on the document; membership iff for all documents (printed paths may coincide), no duplicates and the way back for keys without dots.
* **C15** path-based merge loop refined to kindAt spec, any iteration order.
* **C16** same.
* **C17** same, iff.
* **C18** corollary: the spec does not mention the order + extensionality.
* **C19** sort canonicalises permutations; strict merge commutative by extensionality.
* **C20** corollary of C17 on the fold.
* **C21** MergeWithRoot model; kindAt per section.
* **C22** same; theorem for every list-valued section.
* **C23** fold invariant over paths x defaults.
* **C24** order independence under compatibility; two-order witness.
* **C25** universal statement for one dotted path; failure theorem.
* **C26** compiler to regex AST, matching soundness/completeness to word decomposition.
* **C27** method-prefix stripping.
* **C28** interleaving machine with cache; invariant cache[k]=compile k.
* **C29** fuel bound from the pigeonhole on the path of distinct pointers.
* **C30** induction on fuel; substitution lemma.
* **C31** refinement to a recursive expansion spec for every oracle.
* **C32** frame of substitution.
* **C33** writes-list invariant.
* **C34** concrete witness evaluated in the kernel.
* **C35** universal statement on ReplacePtr with root reference.
* **C36** fuel bound for walk; closure by induction on paths.
* **C37** navigation spec; invariant of walk.
* **C38** fuel sufficiency + error characterisation.
* **C39** collectStructFields against an inductive visibility spec.
* **C40** case theorems for all type arguments.
* **C41** finite table of kinds, all tags.
* **C42** struct2schema over all fields.
* **C43** pick/findType with C37.
* **C44** Tag.Parse, all inputs.
* **C45** same.
* **C46** same.
* **C47** Cmds.
* **C48** duplicate detection iff, any order.
* **C49** DFS with seen-set, fuel = number of packages; postorder invariant.
* **C50** same walk, error list.
* **C51** config as Json + merge theorems.
* **C52** decision logic.
* **C53** decision logic.
* **C54** any sorted permutation.
* **C55** uniqueness of sorted permutation iff at most one unlisted.
* **C56** Go raw-string lexer model on the template.
* **C57** decoder of an object into a string field.
* **C58** Resolve outcome.
* **C59** removeDuplicates loop + sort; NewServers.
* **C60** map operations.
* **C61** list of optional fields.
* **C62** codec on Json.
* **C63** finite table + case folding for all strings.
* **C64** file as byte list, write at offset 0 without truncation.
* **C65** composition of the above.
* **C66** constructors evaluated with a nil map; panic outcome for all arguments.
* **C67** first/last token against the token list.
* **C68** slice heap: two descendants of a fragment with spare capacity share a cell.
* **C69** machine of main; file contents after every failing run.
* **C70** same machine; status and log for all runs.
* **C71** fold over the option list.
* **C72** non-interference of the settings.
* **C73** `Stands`/`SchemaOf` relations; composition of the resolver, type and default theorems.
* **C74** members of the encoded schema, injectivity by induction on the schema's size, failure iff a non-finite number.
* **C75** outcome of the defaults for a member the operation lacks; default stage after the resolver stage.
* **C76** expansion spec: a component is stored iff its pointer is reached.
* **C77** stage by stage: each scanner run over the walk's list of packages is a fold, characterised by input-level predicates (`Spec/Prepare.lean`: `Visited`, `SpecAt`, `CommandAt`, `AskedFor`, `Merged`, `Preparable`); needs distinct import paths.
* **C78** corollary of C77: two scalars at the key path `openapi` collide.
* **C79** C77 + C21 (paths: the document wins) + C37 (registered pointers denote) + C58.
* **C80** `Model/Read.lean` (`readDir`, `glob`): the pattern `dir/name` without special characters is a `Lstat`, `dir/*.ext` filters the sorted names; `Proofs/Read.lean` for joining plain paths. Directories with `*?[\` in their path are excluded (the pattern then means something else; `globMeta` stands for that).
* **C81** case analysis; `LastElem`/`EndsWith` are the specification of `filepath.Ext`.
* **C82** induction over YAML documents (`YamlAt`, `SameKind`, `SameDoc`, `KeysApart`, `YReorder` in `Spec/Read.lean`). The decoders themselves are parameters.
* **C83** `PkgDirIs`; lemmas about `filepath.Join` of plain names.
* **C84** C77, C78 with the input's files being those of a file system.
* **C85** Heap model of the builders (`Model/Build`): pointers, maps and backing arrays are numbers; `Spec/Build` has the table of what each call sets (`Sets`) and how a field is read (`look`). Case analysis over calls and fields for one call, induction over the chain.
* **C86** Separation: `Apart` (no shared map, object or array tail) is preserved by calls and makes them invisible; the leaks are theorems about all heaps with the sharing.
* **C87** Induction over the chain.
* **C88** `strconv.Quote`/`Unquote` and the validity check that `encoding/json` makes of a method's output, over byte strings decoded
  rune by rune (`Model/PtrJson`); the specification describes JSON strings as sequences of elements with a text and a meaning. Induction over
  chunks and elements. The table of printable runes is a parameter. `Spec/GoString` gives the grammar of Go's interpreted string literals;
  `Unquote` accepts exactly these (for texts that start with neither of Go's other two quotes).
* **C89**, **C90** The struct declarations of `spec/*.go` with their JSON tags as a table, `encoding/json` reading into existing values
  and writing (`omitempty`), and the methods of `Any`, `AnyOrExpressions`, `Callback`, `Pointer` (`Model/SpecJson`). The specification has
  its own table of sections and members, the relation `Passes` between what is read and what is written, and for C90 the relation `At`
  (places that are read) with the non-recursive `Misfit`. Soundness by induction over `Passes`, completeness by induction over the size.
* **C91**, **C92** `config.ReadFile` with the decoding of `Config` (`Model/Load` on top of `Model/SpecJson`, `Model/Cli`) and the root document
  of `cmd/oapi/scan.go`. The specification speaks of `given`, `Passes`, `At` and of its own list of settings; C92 is relational over two
  documents. The status of decoding is characterised by induction over the size of the document.
* **C93**–**C97** JSON texts (`Model/JsonText`): of `encoding/json` the scanner's state machine, `compact` with HTML escaping, `Indent`, the encoder of
  trees and the decoder into `interface{}`, function by function, and on top of them `Sorter.MarshalJSON`/`MarshalIndentJSON`, `MapSlice.MarshalJSON`
  (with Go's `%q` for the top-level keys), `ReadJSON` and `clone`. The specification (`Spec/JsonText`) is the grammar of RFC 8259 as an inductive
  relation between texts and documents, parametrised by what number texts and string literals mean. Proved: the scanner accepts every text of the
  grammar; compaction and indentation keep the meaning; the decoder reads exactly the texts of the grammar (completeness by induction on the
  derivation, soundness by building the derivation, the fuel always sufficing); the encoder's text means the tree; a top-level key that cannot be quoted makes the scanner fail.
  Left open, as parameters: the table of printable runes, `\b`/`\f` (Go 1.22), how numbers are written and which number a number text denotes
  (the theorems say what they assume: number texts have the form of numbers, and for round trips that they are read back).
* **C98** composes the model of the command (C69) with the JSON encoder (C93), the reader (C81) and the decoder (C94); nothing new is modelled. New facts:
  no proper prefix of an object's text is a JSON text (a derivation of a prefix would end in the state in which the scanner accepts only white space, but
  the text ends with a brace), and an object's text followed by anything but white space is none.
* **C99** uses the model of `Scan` (C57, C65, C77) as it is. Each stage is shown to return an error or a value but no panic, except the types (panic
  exactly at `error`, C36), the merge with the root document (panic exactly at a scalar section, decided in the order in which the sections are merged)
  and the resolver, whose panics come from the type lookup: induction over the recursion gives a met pointer whose resolution panics, and the
  references of generated schemas are all registered, so it stands in the prepared document or in an override. Termination: the texts of pointers that can be met are
  among the strings of these documents and the registered pointers, so C29's bound applies, for all orders at once.
* **C100**, **C101** Runs after each other (`Model/System`): nothing new is modelled, the models of the command (`Main`), configuration (`Load`), scan (`Scan`), package
  directories and files (`Read`) and JSON texts (`JsonText`) are put together over one disk, a function from paths to contents, so that a run finds what the last one left.
  A `World` has what stays (toolchain, directories, decoders), a `Chance` what differs between runs (iteration orders, stack, encoder choices, faults while writing).
  C100: everything a run reads is unchanged by the output (reading of settings by cases on `ConfigFile`; `pkgFiles` by C84's description of what it looks at), so the
  input of the scan is the same up to irrelevant packages; induction on the sequence. Byte equality from C65 and C55. C101: an invariant `Phase` on the disk after `k` runs;
  in even phases the package has either no `oapi.json` or one that reads as the empty document (ignored), in odd phases a second specification whose `openapi` collides (C20).
* **C102** Builder chains (`Model/Values`): Go maps with nil values as in C60; each call changes one entry, "what a call says about a name" is the specification, and
  induction on the chain gives "the last call about it".
* **C103**, **C104** Signals and kills (`Model/Process`): `main` as a transition system whose steps are interleaved with the signal goroutine, arriving signals and kills; the
  output is removed, opened and written byte by byte. An invariant (`Early`/`Late`, `Left`) ties every reachable state to the whole run of `Model/Main`, so that the result
  is one of two runs (`interrupted`: packages cannot be loaded). Termination by a rank. Readers: no proper prefix of an object's text or of `null` is readable (C98's argument).
  Recovery: every disk such histories leave differs from the first only at the output, so C100 applies. Reading the configuration, loading and scanning are one step each:
  they write nothing, so splitting them adds no observable state. Log messages are left out.
* **C105** references below keys with a dot: the printed path of a reference, split at its dots, denotes a location without dotted keys, so by C12 (`SetP` changes one
  location) nothing below a key with a dot is written, neither by the scan of a file nor, by induction over the recursion, by the resolver. Two whole scans evaluated in the kernel.
  ('~' in keys is left out: a path with `~1` in it is decoded, and could spell a dot.)
* **C106** reading by path: `Spec/Path` says which locations a list of segments names; `C106_path` is an equivalence between `Path` and that relation, by induction over the segments; `C106_wildcard` splits the path at its `*` and describes the found list through increasing positions.
* **C107** containers are values: `Model/GoHeap` models the same functions a second time over a heap of maps and backing arrays with in-place updates, growing slices and moved values. `Rep` says that a value in memory is a tree with a list of addresses, each used once; every function is shown to keep the trees of all containers disjoint and to have the effect of the value-level model on its receiver (frame rule: only addresses of the receiver and new ones change). `Hist` is the same history on immutable documents.
* **C108** defaults in memory: `Inv` relates the heap to the state of `Model/OAPI` (the `attached` flag of an operation there says whether its container still looks into the document); every merge and write-back keeps it, by focusing on the operation's part and the frame rule; `paths_inv` establishes it. Orders of operations correspond through `Pairwise2`.
* **C109** views: `view_focus` splits a tree at any location into the part and the rest; `ViewHist` is the history on values in which a call on the part is a call on the whole.
* **C110** resolver in memory: `resolve_sim` (Proofs/GoHeap13) is a simulation between the heap-level resolver and the value-level one; `AKeep` says that the array cells other live path slices look at are kept, `append_path` that an append writes only behind them.
* **C111** merging in memory: `World` (Proofs/GoHeap14) says that every container has a document of its own; `mergeIn_world`, `mergeAll_world`, `mergeWithRoot_world` follow the loops, `ChangesTo`/`KeepsBut` say which containers change.
* **C112** the whole scan in memory: `Sim` (Proofs/GoHeap17) relates a computation on memory with one on values, stage by stage (`scanSpecs_world`, `mergeAll_sim`, `mergeWithRoot_sim`, `resolve_sim`, `inv_applyDefaults`); orders of containers are carried over to orders of documents and back (`files_to`, `files_from`, `scan_to`, `scan_from`). C65 and C99 then hold in memory.
* **C113** — `Model/GoTypes` models the type scanner with Go slices (backing arrays, capacity chosen by an arbitrary function) for paths and for the points stored in the map, `pick` sorting in place by an arbitrary function per call. Proved by a simulation: slices that nested calls write behind the end of a slice do not change it (`AKeep`), the map holds at all times a reordering of the collected points, and each pick is the first point of some sorted order; induction over the recursion of `walk`, `collectStructFields`, `type2schema` and over the history of resolves. Limit: in the whole-scan models (`Scan`, `GoScan`) the pick is a function of the pointer text and the field, so two different picks for the same pointer in one scan are only covered here and in C116; under `OneShortest` (C65) they coincide by `C113_same_schema`.
* **C114** — theorems about `decode` of `Model/SpecJson` started on an arbitrary old value; the append lemma for struct and map decoding is an induction over the members.
* **C115** — a failed merge. The memory model of `Merge` (`Model/GoHeap`) already changes the destination step by step; the simulation between it and the value-level merge (`Proofs/GoHeap5`) is strengthened so that the error case says which document the destination represents: the merge of a `BeginningOf` the source. That a beginning has only nodes of the source (`beginning_node`) and C17's union then give that nothing is lost. Two iteration orders of one source show that the outcome of a failed merge is not determined.
* **C116** — `Model/GoWhole` composes `Model/GoScan` (containers in memory) with `Model/GoTypes` (type scanner in memory): the resolver function has a state, threaded through `visit`, `loop`, `iterator`; the type scanner is filled by the package walk. Proved in two steps: a simulation for any resolver function with state that answers as a pure one from an invariant (`Proofs/GoWhole`, induction over the recursion), and that the in-memory scanner is one (C113's `resolve_sim`, `one_schema` under `OneShortest`; `resolve_still` for a deterministic sort). With C112 and C65 this gives the one document. This removes the limit noted at C113. Missing: ties with a sort that is neither (`tie_shows`: there the scan is not determined, even within one document).
* **C117** — `Spec/Settled.lean` says when a document has nothing left to do (`Standing` references, object sections, `Rule.holds s y s` for the root's sections, `Fills a e a` for the default operations that match). Proof: the union of specifications whose references stand is the specification (`merged_single`); each rule determines its result (`rule_one`), so `MergeWithRoot` changes nothing (C21); the resolver's loop skips every entry (induction over the entries); default operations change nothing (C23). The rescan theorem derives all conditions from C65/C73: references by C65, sections by induction over the expansion and the added components, gaps by induction over the defaults applied (`fillsAll_filled`). `C117_component_of_root` is the limit: components of the root document collide with themselves (C21, C77).
* **C118** — `Model/Regex.lean`: the parser (a stack of levels, as regexp/syntax has it) and matcher (derivatives) for more of Go's expression language; it is an instance of the parameter `other` of `Route.compile`, so all of C26–C28 hold for it. `Spec/Regex.lean`: what texts are written as expressions (`Written`), what they stand for (`StandsFor`), and what a pattern ending in alternatives accepts (`Accepts`). Proof: derivatives decide the language (`full_iff`), the parser reads exactly what is written (`reads_as`, induction over `Written`), it agrees with `parseRe` where both read (`run_pieces`), and `^`/`$` belong to the first and the last alternative (`anchored_iff`). Not modelled: classes, `{n}`, letters behind a backslash, non-greedy and doubled repetitions, anchors in the text, Go's bounds on the size of expressions (only nesting is bounded).
* **C119** (`Spec/Irrelevant`, `Proofs/Irrelevant`, `Props/Irrelevant`): two inputs are the same (`SameInput`) when they agree on everything but comments
  and files and, in every visited package, have the same commands (`CommandsOf`: a sublist defined with C78's `CommandIn`) and the same specifications
  (`SpecsOf`, with `IsSpec`). The theorem is that both have the same set of outcomes (`CanYield`: over all orders of Go's maps, because the orders of
  the references are numbered by file and the numbers shift). Corollaries: packages not visited, one comment more, one file more, anywhere. The proof
  replaces the two scanners on the visited packages (`walk_congr`) and renumbers the orders.
* **C120** (`Spec/Idle`, `Proofs/Idle`, `Props/Idle`): an override `y` is `Unreferenced` when no registered type has a pointer written `y` and no
  reference-like text of the prepared document or of an override parses to it; the scan with the override is then equal to the scan without, for the
  same orders. The resolver is shown to depend on its resolve function only at the pointers that are met (`resolve_met`), and these are registered or
  written in one of the documents (`meets_text`). A default operation `MatchesNothing` when its pattern matches no path and method of any document the
  scan yields without default operations; the sets of outcomes are then equal (over all orders, since the order of the longer map induces one of the
  shorter).
* **C121** — `Model/Args`: kingpin's tokens, flags and values, and the initialisation of pkgutil before it; `process` puts `Model/System.run` behind them. `Spec.Says` is an inductive grammar of
  command lines, `Proper` and `Gives` what the settings are and mean; the parser accepts a line iff it is derivable (induction over the tokens), and order and form fall away because `Gives` only
  looks at membership. Not modelled: argument files beyond a parameter, negated forms of kingpin's own flags, texts of the errors.
* **C122** (`Model/Writers`, `Proofs/Writers`, `Props/Writers`): the end of `main` for any number of processes over a store of inodes in which a removed file lives on for those that have it open; `Steps` is any interleaving, and any process may be stopped at any point. Invariant over `Steps`: the file that has the name is old, or each of its bytes is what a process that has opened it has written there, and it is as long as what any of them has written; `C122_at_any_time`, `C122_same_text`, `C122_different_texts`, `C122_one_writer` follow, `C122_reader` with C104's results on beginnings of JSON texts; `C122_mixture` constructs the bad interleaving for any two texts and `C122_unreadable` shows that no reader accepts it; `C122_goes_on` is progress. Simplifications: `os.OpenFile` does not fail, a failing write is a stopped process.
* **C123** (`Model/TagText`, `Spec/TagText`, `Proofs/TagText`, `Props/TagText`): `structtag.Parse` and `tagparser.Parse` of the versions in go.mod, byte by byte, instantiate the parameter `lib` of `Model/Tag`. `Spec.TagText.Raw` and `Value` are inductive grammars; `structtag_iff` says that the first parser accepts exactly `Raw` (Go strings by C88's `GoString`), `tagparser_value` that the second gives the name and the options of a `Value`. `C123_read` hands over to C44–C46, `C123_options` goes through to the fields of the tag; `C123_unambiguous`, `C123_malformed` and `C123_crashes` (exactly the non-empty blank texts) hold for all texts. Missing: values that are no `Value`, such as one with an unclosed bracket, are read in some way by `Model/TagText` that no theorem describes.
* **C124** (`Spec/GoJson`, `Props/GoJson`): the rules of `encoding/json` (package documentation, Go 1.16) are a specification of their own: `Embedded` (promotion at any depth, with the path), `Counts`, `KeyOf`, `Beats`, `JsonName`; names are those of ASCII letters, digits and the allowed signs. `Plain` lists what is excluded. For a conversion that parses tags with `Model/TagText` (`cx.tagOf = TagP.parse TagText.lib pf`), `plain_tag` says what is read from a plain tag (C123's grammars), and `C124_properties` compares `Embedded` with C39's inlining by induction over both. `C124_ambiguous`, `C124_named_embedded`, `C124_unexported_embedded` and `C124_dash` are the deviations. Missing: conversion of field types that `encoding/json` cannot write, `omitempty` and the `string` option.

## 5. Disagreements found between the code and its evident intent

1. `SliceToDotPath` escapes `.` to `~1` and then `~` to `~0`, so `.` becomes `~01`, which decodes to `~1` (C10, C25).
2. `Fragment.Replace` accepts `n = len` and then indexes out of range (C04).
3. Specs: two kept spec files always collide on `openapi` (C20); `MergeWithRoot` turns `servers`, `security`, `tags` lists into `{}` (C22).
4. `SetPathsDefaults` treats path-level members (`parameters`, `summary`) as operations (C25), and default order is map order (C24).
5. Resolver: output depends on map order for unexported types in a cycle with exported ones (C34); bare-reference overrides (C35).
6. Struct fields lose formats, required references are dropped (C42); `mulof` is stored as exclusive minimum (C46).
7. `Resolve` of an unknown Go pointer panics (C58); `newOAPI` always reports an error (C57).
8. `--output stderr` is ignored (C53); unlisted sections come first in random order (C54, C55).
9. `AddContent(nil)`/`AddLink(nil)` remove a header (C60); the empty expression becomes null (C62).
10. The Go file format breaks on backquotes (C56); output file is not truncated (C64).
11. YAML keys that print alike (`1` and `"1"`) overwrite each other in random order (C82); without a module packages are looked for in `$GOPATH/<path>`, without `src` (C83).
12. `DateProperty`/`DateTimeProperty` have the formats `data`/`data-time`, and their shared example is overwritten by decoding (C85, C86); `HeaderParam`, documented as required, is not (C87).
13. A `$ref` in JSON with `\/` or a surrogate pair is read with its quotes; `{"$ref": 5}` and `{"$ref": true}` are accepted as references; a reference with a percent-encoded control byte is accepted but cannot be written (C88).
14. OAuth `scopes` are lost (the field is tagged `acopes`), `x-` extensions are dropped, reading a bare reference to a parameter, header, response, request body, example or security scheme and writing it adds empty members (`name: ""`, `explode: false`, `content: null`, `value: null`), (C89); boolean `additionalProperties` is refused (C90).
15. The top-level keys of the JSON output are quoted with Go's `%q`: a DEL or another control character, a byte that is no UTF-8 or an unprintable character beyond the basic plane in such a key makes `Format` fail (C93). `Make`, `SetP` and `Clone` copy through JSON text: integers beyond 2^53 from YAML are rounded, NaN and infinities make them fail (C97).
16. A scan panics, instead of reporting an error, if an asked-for type contains `error`, if a section such as `tags` is a scalar, or if a `go://` reference leads nowhere (C99).
17. Writing the output to `oapi.json` of a scanned package makes every second run produce `null`: the run finds its own output as a second specification, which never merges (C101).
18. An interrupt or SIGTERM does not stop the command; if it comes while packages are loaded, the run goes on, replaces the output with `null` and ends with status 0 (C103).
19. The output is not replaced atomically: the old file is removed first, so a kill loses both (C104).
20. Keys with dots (`/v1.0/pets`, `application/vnd.api+json`): a reference below one is found, but what replaces it is written to the path its dots spell, so the reference stays and a stray member appears; if the file was scanned with a relative reference, resolving it panics or not depending on map order (C105).
21. A runtime expression in a link parameter stays when a value is read onto it: `AnyOrExpressions.UnmarshalJSON` does not clear the expression, and it is what is written (C114).
22. `Merge` changes its destination although it reports an error, and how much it changes depends on the iteration order of maps (C115).
23. If two Go types of the same structure have equally short pointers, which of them a schema refers to is up to `sort.Sort`; only because Go's is deterministic is it the same one throughout a document (C116).
24. A tool run whose root document defines components cannot take its own output as a specification: the components collide with themselves and the scan fails (C117), although nothing in them differs.
25. A '|' in the text behind the last variable of a route pattern removes the anchors: `/users|/admin` gives its default operations to every path that begins with `/users` or ends with `/admin` (C118); a '?' behind a variable makes the variable optional. Brackets do not stand for themselves either: `/v[1]/x` does not match the path `/v[1]/x`.
26. A usage error is a panic with a stack trace, not a message (`main.go:24-27`), `--output -` is such an error, and an argument beginning with '@' makes kingpin read a file of that name. If no Go toolchain is there, package pkgutil panics in its `init`, so that not even `--help` works (C121).
27. The output is opened without O_EXCL or O_TRUNC and under its final name (no temporary file and rename), so two runs at the same time that both remove the old file before one of them opens the new one write into one file: with different documents they can both end with status 0 and leave a mixture that nobody can read (C122).
28. A struct tag of nothing but blanks crashes the scan: `structtag.Parse` returns neither tags nor an error, and `tag.go:127` looks into a nil pointer (C123). A misspelt option is not an error but ignored, and an option in front of the name makes the name a flag.
29. Deviations from `encoding/json` (C124): an embedded struct that is named by its `json` tag is inlined all the same (`types.go` looks at `Embedded` only); `json:"-,"` hides the field instead of naming it `-`; the exported fields of an unexported embedded struct are missing; two fields that cancel each other are still a property.
