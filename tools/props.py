import json
P=[]
def p(id,title,statement,quant,why,anchors):
    P.append(dict(id=id,title=title,statement=statement,quantifier=quant,why_tests_cant=why,anchors=anchors))
p("C01","JSON-pointer fragments survive print and parse",
 "For every fragment f (any list of tokens, tokens being arbitrary byte strings, including empty ones and ones containing '/' and '~'), NewFragment(f.String()) succeeds and returns exactly f; hence two different fragments never print to the same string.",
 "all token lists of any length, all byte strings as tokens",
 "the escaping of '~' and '/' interacts across token boundaries; a test samples a few tokens, the claim is about every string.",
 ["internal/pointer/fragment.go: NewFragment, parseFragment, escapeToken, unescapeToken, Fragment.String"])
p("C02","Which fragment strings are accepted, and which are canonical",
 "NewFragment(s) succeeds exactly when s is empty or starts with '/'; when it succeeds, printing the result gives s back exactly when every '~' in s is followed by '0' or '1' (RFC 6901 syntax), and otherwise prints a different, canonical string.",
 "all byte strings s","an iff over all strings; no finite sample settles either direction.",
 ["internal/pointer/fragment.go: NewFragment, parseFragment, Fragment.String"])
p("C03","Descendant appends parsed tokens",
 "For every fragment p and path string, p.Descendant(path) never fails and yields p followed by the tokens of path (with one leading '/' made optional), except that the fragment holding one empty token (printed '/') is replaced instead of extended; so every fragment other than '/' is kept as a prefix.",
 "all fragments, all path strings","quantifies over every fragment and every string, including those with escapes and empty tokens.",
 ["internal/pointer/fragment.go: Fragment.Descendant"])
p("C04","Replace changes one token and nothing else",
 "f.Replace(n, e) with 0 <= n < len(f) returns a fragment that equals f except that token n is e, leaving f itself unchanged; with n < 0 or n > len(f) it returns an error; with n = len(f) it does not return (index out of range).",
 "all fragments, all integers n, all elements","boundary behaviour for every length; the off-by-one at n = len(f) is invisible unless a test happens to pick it.",
 ["internal/pointer/fragment.go: Fragment.Replace, Fragment.Clone"])
p("C05","Extending a pointer never changes another pointer",
 "In any sequence of clone-then-Descendant operations (the way the type scanner derives points) every fragment obtained earlier keeps its tokens for ever; without the clone this fails: two RawDescendant/Descendant calls on one fragment with spare capacity overwrite each other.",
 "all histories of slice operations on a shared heap","depends on slice capacity and on the whole history of appends; unit tests inspect one pointer at a time.",
 ["internal/pointer/fragment.go: Descendant, RawDescendant, Clone","internal/oapi/scan/types/point.go: withDescendant, withArray, withPtr, Clone"])
p("C06","Go pointers survive print and parse",
 "For every import path made of ordinary import-path characters and every fragment whose printed form contains no '%', the pointer go://<pkg>#<fragment> parses, has scheme go, package path <pkg>, exactly that fragment, and prints back as the same string. Tokens containing '%' do not survive: the printed form is not percent-encoded again.",
 "all import paths over the import-path alphabet, all fragments",
 "goes through URL splitting, percent-decoding and fragment unescaping for every string.",
 ["internal/pointer/pointer.go: Parse, NewGoPointer, Pointer.String, PkgPath, Hostname"])
p("C07","Pointer identity by string is sound",
 "Two pointers read from references made of URL characters (RFC 3986) print the same string only if they have the same target: scheme, user information, host, path, query and fragment, and so package path (which leaves out port and user information); so cycle detection, override lookup and export lookup, which compare printed strings, never confuse two different types.",
 "all pairs of references made of URL characters, all fragments put on them","injectivity is a statement about all pairs.",
 ["internal/pointer/pointer.go: Pointer.String","internal/oapi/resolver/resolver.go: path.has, Exports.Get","oapi.go: Scan (override lookup)"])
p("C08","Local Go references become absolute, everything else keeps its meaning",
 "Scanning a package's spec file rewrites every $ref of the form go://#/X into the absolute go://<that package>#/X, keeps the fragment, leaves the target of every other reference made of URL characters (RFC 3986, percent-encoding, user information and IPv6 hosts included) unchanged as long as its decoded fragment has no '%', and registers exactly the resulting pointers.",
 "all package paths, all $ref strings that parse","ranges over every reference string and package.",
 ["internal/oapi/scan/specs/scan.go: Scanner.Scan","internal/pointer/pointer.go: Parse, NewGoPointer"])
p("C09","Merging pointer sets is a right-biased union",
 "pp.Merge(px) contains a key exactly when pp or px does; the pointer under it is px's if px has the key, else pp's; the operands are unchanged and the result does not depend on map iteration order.",
 "all pointer sets, all iteration orders","iteration order of Go maps is random; a test sees one order.",
 ["internal/pointer/pointer.go: Pointers.Merge, NewPointers"])
p("C10","Dot paths address the intended location exactly when no key contains a dot",
 "For every non-empty list of keys, converting it with SliceToDotPath and splitting it again the way the container does gives the same list exactly when no key contains '.'; a key with a dot is turned into a different key.",
 "all non-empty lists of byte-string keys","an iff over all strings; the wrong replacement order only shows on keys with a dot.",
 ["internal/container/utils.go: SliceToDotPath","github.com/Jeffail/gabs/v2: DotPathToSlice"])
p("C11","What SetP writes, Path reads",
 "Whenever SetP(path, v) succeeds and no segment of the path is the array-append marker or wildcard, reading the same path returns exactly v.",
 "all documents, all paths, all values","every nesting of objects and arrays and every path.",
 ["internal/container/container.go: SetP, Path","gabs Set, Search"])
p("C12","SetP touches nothing else",
 "Whenever SetP(path, v) succeeds, every location that is neither on the written path nor below it keeps its value.",
 "all documents, all pairs of paths, all values","a frame condition over all other locations.",
 ["internal/container/container.go: SetP","gabs Set"])
p("C13","SetP fails only on a real obstruction",
 "SetP on an object document fails only if some proper prefix of the path holds a value that is neither an object nor null nor an array addressed by a valid in-range index; on objects whose path prefixes are objects or absent it always succeeds.",
 "all documents and paths","all shapes of obstruction at every depth.",
 ["gabs Set"])
p("C14","ExtractKey finds every occurrence of a key exactly once, at a path that leads back to it",
 "ExtractKey(doc, k) finds each scalar stored under key k (or under a key ending in '.' and k) at any depth, under its dot path, which is printed without escaping; iterating the result gives each path once. If the keys on the way are non-empty and contain no '.' and no '~0'/'~1', Path(entry.Key) returns that scalar; otherwise it may lead elsewhere, and values with the same path shadow each other.",
 "all documents, any depth, any order of map iteration","all trees; completeness cannot be sampled.",
 ["internal/container/utils.go: ExtractKey","gabs Flatten, walkObject, walkArray"])
p("C15","MergeDefault fills gaps and never overwrites",
 "After c.Merge(s, MergeDefault), every key path bound in c keeps what it had (objects stay objects, other values stay equal), and a path absent from c gets what s has there unless a shorter prefix is bound to a non-object in c; nothing else appears. It never fails on object documents.",
 "all pairs of documents, all key paths","pointwise characterisation over all paths of all trees.",
 ["internal/container/merge.go: Merge, MergeDefault"])
p("C16","MergeOverride lets the source win",
 "After c.Merge(s, MergeOverride), every key path bound in s has what s has there, and a path absent from s keeps what c had unless a shorter prefix is bound to a non-object in s; nothing else appears. It never fails on object documents.",
 "all pairs of documents, all key paths","pointwise characterisation over all paths of all trees.",
 ["internal/container/merge.go: Merge, MergeOverride"])
p("C17","MergeStrict succeeds exactly on collision-free documents and then loses nothing",
 "c.Merge(s, MergeStrict) succeeds exactly when there is no key path bound in both where at least one side is not an object; on success the result is bound exactly where c or s is, with the value they had.",
 "all pairs of documents","an iff over all pairs of trees.",
 ["internal/container/merge.go: Merge, MergeStrict"])
p("C18","Merge does not depend on map iteration order",
 "For each of the three strategies, whether Merge succeeds and the resulting document are the same for every order in which the source's maps are iterated.",
 "all documents, all iteration orders at every level","the Go runtime picks a random order on each run.",
 ["internal/container/merge.go: Merge"])
p("C19","Merging spec files does not depend on discovery order",
 "The document merged from a set of spec files with distinct paths (success and content) is the same for every order in which the files were discovered; strict merging of two documents is commutative.",
 "all lists of containers with distinct file paths, all permutations","all permutations of any number of files.",
 ["internal/container/container.go: Containers.Sort, Containers.Merge","internal/oapi/scan/specs/scan.go: Merge"])
p("C20","Two spec files can never be merged",
 "Every spec file that is kept has a top-level openapi key; if two or more kept files have a scalar there, the strict merge always reports a collision, whatever else they contain and even if the values are equal.",
 "all lists of two or more spec documents","the failure is for every pair, not a particular one; no test in the repository merges two specs.",
 ["internal/oapi/scan/specs/scan.go: Scan, Merge","internal/container/merge.go: MergeStrict"])
p("C21","Merging with the root document follows each section's rule",
 "If MergeWithRoot succeeds: info is the deep merge with the root's fields winning; components is the disjoint union (a colliding component is an error); paths and externalDocs are the deep merge with the scanned document winning; every other top-level key is unchanged.",
 "all object documents and roots whose sections are objects or absent","pointwise over all paths of both documents.",
 ["internal/oapi/oapi.go: MergeWithRoot"])
p("C22","MergeWithRoot discards list-valued sections",
 "If servers, security or tags is a list in the scanned document or in the root, then after MergeWithRoot that section is the empty object: neither list survives.",
 "all documents and roots where one of these sections is a list","holds for every such document; the repository has no test for it.",
 ["internal/oapi/oapi.go: MergeWithRoot"])
p("C23","Operation defaults only fill gaps of matching operations",
 "If SetPathsDefaults succeeds on a document in which no path that some default matches contains a '.', then each operation whose path and method match some pattern is the deep merge of the operation with the matching defaults, existing values winning; every other location of the document is unchanged.",
 "all documents, all sets of default operations, all orders","pointwise over all locations.",
 ["internal/oapi/oapi.go: SetPathsDefaults, Paths, FlattenPaths.Match"])
p("C24","Which default wins depends on map order only when two matching defaults conflict",
 "If no two patterns matching the same operation give different values to the same field, the outcome of SetPathsDefaults is the same for every iteration order of the defaults map; there are conflicting defaults for which two orders give different documents.",
 "all defaults maps, all iteration orders","random map order.",
 ["internal/oapi/oapi.go: SetPathsDefaults"])
p("C25","Paths with dots and path-level members break operation defaults",
 "For every path containing '.', applying a default to one of its operations also creates a second, mangled path entry; and a list- or string-valued member of a path item (parameters, summary, ...) matched by a pattern with non-empty defaults makes SetPathsDefaults fail.",
 "all such documents and defaults","universal failure statement; tests use /v1/demo only.",
 ["internal/oapi/oapi.go: SetPathsDefaults, Paths","internal/container/utils.go: SliceToDotPath"])
p("C26","Route patterns match exactly what they describe",
 "For a pattern whose text after its last variable has no regular-expression metacharacter, Match(pattern, method, path) on the path part is true exactly when path is a concatenation of the pattern's literal pieces, with each {name} replaced by a non-empty '/'-free text and each '*' by any text without line feed.",
 "all patterns of that kind, all paths","the language of each pattern is infinite.",
 ["internal/route/route.go: Match"])
p("C27","Method prefixes restrict, case-insensitively",
 "If the pattern starts (in any letter case) with a known method and ':', Match is false for every different non-empty method, and otherwise answers as the pattern without the prefix does; a pattern without such a prefix accepts every method.",
 "all patterns, methods, paths","all strings and all 39 methods.",
 ["internal/route/route.go: Match, methods"])
p("C28","The compiled-pattern cache is invisible",
 "Under any interleaving of any number of concurrent Match calls, each call's answer is what it would be with an empty cache.",
 "all schedules, all histories of calls","concurrency and history.",
 ["internal/route/route.go: compileCached, relock, regexen"])
p("C29","Reference resolution terminates",
 "If the references reachable from the document form a finite set, Resolve terminates whatever the cycles among them, with recursion depth at most the size of the set plus one.",
 "all documents, all resolver functions with finitely many reachable references, all iteration orders","termination over all graphs.",
 ["internal/oapi/resolver/resolver.go: Resolve, iterator, path.has"])
p("C30","No external reference survives resolution",
 "If Resolve succeeds on a tidy document (dot paths lead to the external references, external reference objects hold only $ref, the exported components are not yet present, and neither the document nor a resolved schema is itself a bare external reference), the result contains no $ref with a scheme, at any depth, for any iteration order.",
 "all tidy documents and resolver functions, all iteration orders, cycles included","all trees, graphs and orders.",
 ["internal/oapi/resolver/resolver.go: iterator, set, setRecursive","internal/oapi/resolver/utils.go: ReplacePtr, UpdatePtr, SetEntity"])
p("C31","Resolution is a deterministic substitution",
 "If moreover every type on a reference cycle is exported as a schema, then for any iteration order the document returned by Resolve is the input with each unexported external reference replaced by its resolved schema (recursively), each exported one by a local reference, and each exported component added once under its name; so any two runs agree.",
 "all tidy documents, resolver functions and exports with distinct names, all iteration orders","random map order; recursion over all graphs.",
 ["internal/oapi/resolver/resolver.go"])
p("C32","Resolution leaves the rest of the document alone",
 "Every location of the input that is not inside a replaced reference object and not under an exported component keeps its value, and local references keep their text.",
 "all tidy documents, all locations","frame condition over all locations.",
 ["internal/oapi/resolver/resolver.go","internal/oapi/resolver/utils.go"])
p("C33","Local references written by the resolver are never dangling",
 "If Resolve succeeds on a tidy document and export names contain no '.', '/', '~' and are not empty, every reference in the result was in the document or a resolved schema, or is a local reference to an exported component that is present in the result.",
 "all documents, resolver functions, exports, orders","also covers components that are still being built when the reference is written (cycles).",
 ["internal/oapi/resolver/resolver.go: set, setRecursive","internal/oapi/resolver/utils.go: Entity.Path, Entity.Fragment"])
p("C34","An unexported type in a cycle with an exported one makes the output depend on map order",
 "There is a document and a pair of mutually recursive types, one exported and one not, for which two iteration orders produce different documents, one of them with the cyclic part replaced by {}.",
 "existence of two schedules","random map order; a test would be flaky rather than failing.",
 ["internal/oapi/resolver/resolver.go: iterator, setRecursive"])
p("C35","Overriding a type by a bare reference does not work",
 "Whenever the schema returned for an unexported reference is itself a bare external reference to an unexported type (as in the documented overrides example), the result keeps an external $ref and gains a member with the empty name.",
 "all such overrides","universal failure statement.",
 ["internal/oapi/resolver/utils.go: ReplacePtr, isref","oapi.go: WithOverride",".conf.yaml"])
p("C36","Type collection terminates and covers everything reachable",
 "collectTypes terminates on every (possibly recursive) type and registers every type reachable through exported fields, elements and pointers, so that a later reference to a reachable struct always finds a pointer.",
 "all finite type environments, cycles included","all type graphs.",
 ["internal/oapi/scan/types/types.go: collectTypes, walk, path.visit","point.go: pointmap.append"])
p("C37","A Go pointer denotes one type",
 "Every pointer registered by the scanner leads, by following its tokens from the named type, to exactly the type it is registered for; so looking a pointer up gives the same type whatever the map order.",
 "all type environments, all scan histories, all map orders","random map order and all type graphs.",
 ["internal/oapi/scan/types/types.go: walk","point.go: findType, pick"])
p("C38","Type-to-schema conversion terminates; it fails exactly on unsupported types",
 "For every collected type the conversion terminates, cycles included, and fails only if it meets an interface, channel, function, complex or other unsupported kind, an unknown type override or a malformed tag.",
 "all finite type environments","all type graphs.",
 ["internal/oapi/scan/types/types.go: type2schema, struct2schema, collectStructFields"])
p("C39","A struct's properties are exactly its visible fields",
 "The properties of the schema of a struct are exactly the names of its exported, non-ignored fields, with embedded or inline structs replaced by theirs; unexported fields never appear.",
 "all structs, any nesting of embedding, cycles included","all struct shapes.",
 ["internal/oapi/scan/types/types.go: collectStructFields, castInlineStruct, struct2schema"])
p("C40","Nullability follows the Go type unless the tag says otherwise",
 "Slices, maps and pointers to non-references give nullable schemas, arrays and basic types do not; a nullable option in the tag overrides this in every case; a nullable pointer to a referenced type becomes oneOf the reference and a nullable object.",
 "all types and tags","all combinations of type and tag.",
 ["internal/oapi/scan/types/types.go: map2schema, slice2schema, array2schema, pointer2schema"])
p("C41","Basic kinds map to their OpenAPI type and bounds",
 "Each supported basic kind has the documented type and format, unsigned kinds get minimum 0 unless the tag gives a bound, min/max/emin/emax constrain numbers only, maxlen/minlen/pattern strings only, and other kinds are rejected.",
 "all basic kinds, all tags","all combinations.",
 ["internal/oapi/scan/types/types.go: basic2schema, basicString2schema"])
p("C42","Struct fields lose their default format and required references are dropped",
 "The schema of a struct property that is not a reference always has exactly the format given in its tag (so int64, double, uuid formats are lost without one), and a required field appears in required exactly when its schema is not a bare reference.",
 "all structs and tags","universal; the tests only use string fields.",
 ["internal/oapi/scan/types/types.go: struct2schema"])
p("C43","References produced for types resolve to the same type",
 "Every go:// reference in a schema produced from a collected type is a registered pointer and resolving it gives the schema of the very type that was referenced.",
 "all type environments and scan histories","all type graphs.",
 ["internal/oapi/scan/types/types.go: reference2schema","point.go: pick, findType"])
p("C44","Tag precedence",
 "For every struct tag, the property name is the oapi name if non-empty, else the json name, else unset; inline is taken from oapi if present there, else json; omitempty is taken from oapi whenever an oapi tag that is not '-' is present, else json.",
 "all tags","all combinations of the two tags.",
 ["tag/tag.go: Parse, parseJSONTag, parseOAPITag"])
p("C45","A dash in either tag hides the field",
 "The parsed tag is marked ignored exactly when the json or the oapi name is '-' (and parsing did not fail earlier).",
 "all tags","all combinations.",["tag/tag.go: parseJSONTag, parseOAPITag"])
p("C46","Tag options: integers and floats are validated, booleans are not, mulof is an exclusive minimum",
 "A malformed integer or float option makes Parse fail; a malformed boolean option silently means false for flag options and fails for inline and nullable; mulof never sets the multiple-of bound and always sets the exclusive minimum.",
 "all tags","all option values.",["tag/tag.go: parseTagBool, parseTagIntPtr, parseTagFloatPtr, parseOAPITag"])
p("C47","Schema comments name a pointer",
 "A comment //openapi:schema with one well-formed argument exports that name pointing at the type of that name in the package; with two arguments it exports the first under the second's pointer; with another number of arguments or an empty one it is an error; an argument that is not a valid pointer is accepted silently, leaving a pointer with an empty fragment.",
 "all comment strings","all strings.",["internal/oapi/scan/cmds/cmds.go: Parse, ParseCommentGroup","schema.go: NewCmdSchema"])
p("C48","Exporting the same type twice is always an error",
 "ExportedComponents fails exactly when two schema commands, in any packages, have the same pointer; otherwise it returns one export per command; success does not depend on map order.",
 "all command sets, all iteration orders","random map order.",["internal/oapi/scan/cmds/scan.go: ExportedComponents"])
p("C49","Every package is scanned exactly once, after its imports",
 "The package walk visits every package reachable through non-standard-library imports exactly once, never a standard-library one, terminates on every import graph, and on acyclic graphs visits each package after all packages it imports.",
 "all finite import graphs","all graphs.",["internal/pkgutil/util.go: Scan"])
p("C50","No package error is lost",
 "The package walk returns an error exactly when some visited package has load errors or its scan fails, and goes on with the remaining packages in any case.",
 "all graphs, all sets of failing packages","all graphs.",["internal/pkgutil/util.go: Scan, newSingleError"])
p("C51","extends fills in configuration from one base file",
 "Reading a configuration that extends another gives the deep merge of both with the extending file's values winning; only one level is followed; a missing base is an error; without extends the configuration is unchanged.",
 "all pairs of configurations","pointwise over all settings.",["internal/oapi/config/config.go: extends, ReadFile"])
p("C52","Command-line flags win over the configuration file",
 "The directory and format used are the flag's if given, else the file's, else the default (working directory, json:pretty); relative directories are taken relative to the place they were written in.",
 "all flag and file values","all combinations.",["cmd/oapi/config.go: full, toAbsPath"])
p("C53","stderr can never be selected as output and stdout cannot override a configured file",
 "If the configuration is read without error the resolved output is stdout or an absolute file path, never stderr, for all flags and configurations; --output stdout leaves a file configured in the configuration file in force.",
 "all flag and file values","universal failure statement.",["cmd/oapi/config.go: full","cmd/oapi/main.go"])
p("C54","Formatted output lists the well-known sections in order",
 "In every formatted document the sections openapi, info, components, paths appear in that order, each present key exactly once, and all other top-level keys come before them.",
 "all documents, all map orders, any sorting algorithm","random map order, unstable sort.",["oapi.go: Format, order","internal/container/sort.go: SortMapMarhsaler, MapSlice"])
p("C55","Formatted output is deterministic exactly when at most one other section exists",
 "If at most one top-level key is outside the listed order, the order of the output is the same for every map iteration order and sorting algorithm; with two or more such keys there are two runs with different output.",
 "all documents, all map orders","random map order.",["internal/container/sort.go: SortMapMarhsaler"])
p("C56","The generated Go file holds the document exactly when it has no backquote",
 "For every JSON text without backquote and carriage return, the Go constant in the generated file has exactly that text as its value; with a backquote in the text the literal ends early.",
 "all texts","all strings.",["temp.go: produceGoFile, tpl","oapi.go: Format"])
p("C57","Scan never reports success",
 "Whatever it scans, Scan returns a non-nil error whenever it gets as far as a complete document, because the final check decodes the document object into a string; the document is returned together with the error.",
 "all documents","universal; there is no test of Scan.",["oapi.go: newOAPI, Scan"])
p("C58","An unknown Go pointer crashes the scan",
 "Resolving a go:// pointer that denotes no collected type, and has no override, does not return an error: it panics; a pointer with another scheme and no override is an error.",
 "all unknown pointers","universal failure statement.",["internal/oapi/scan/types/scan.go: Resolve","types.go: type2schema","oapi.go: Scan"])
p("C59","Duplicate removal keeps the set",
 "removing duplicates from a server list gives a strictly increasing list with exactly the same elements; NewServers lists every given URI once plus '/' plus one templated server whose defaults are members of their enumerations, and fails exactly if a URI cannot be parsed; a slice passed with spare capacity is overwritten with sorted values.",
 "all lists of strings","all lists.",["internal/oapi/spec/server_util.go: removeDuplicates, NewServers"])
p("C60","Response builder maps",
 "AddHeader/AddContent/AddLink with a value make that name map to it and change no other entry; AddHeader with nil removes that header; AddContent and AddLink with nil remove the header of that name instead and leave contents and links unchanged.",
 "all responses, names and values","all maps.",["internal/oapi/spec/response_util.go"])
p("C61","PathItem lists its operations once, in fixed order",
 "Operations() returns exactly the non-nil operations of the path item, in the order get, put, post, delete, options, head, patch, trace.",
 "all path items","all 256 presence combinations and all contents.",["internal/oapi/spec/paths.go: Operations"])
p("C62","Union values round-trip except the empty string",
 "Decoding the encoding of an any-or-expression value that came from decoding gives the same value, except for the empty string, which becomes null; decoding a non-string into a value that already holds an expression leaves that expression in force.",
 "all JSON texts","all values.",["internal/oapi/spec/any_or_expressions.go","internal/oapi/spec/any.go"])
p("C63","Log level names",
 "ParseLevel accepts exactly the eight documented names in any letter case (İ counting as a capital i) and maps them to their level, severity order preserved; everything else is an error.",
 "all strings","all strings.",["internal/logging/logging.go: ParseLevel"])
p("C64","The output file holds exactly the document when the old file could be removed",
 "When writing to a file, if the old file is removed or absent, the file afterwards holds exactly the formatted document; if removal fails while the file can still be opened, the tail of a longer old file remains.",
 "all old and new contents","all contents and failure points.",["cmd/oapi/main.go: main"])
p("C65","Type lookups by reference survive the whole pipeline",
 "For tidy inputs whose references denote collected, supported, acyclic-or-exported types, the composed pipeline (merge, root merge, resolve, defaults) yields a document that satisfies the no-external-reference, no-dangling-reference and determinism guarantees together.",
 "all such inputs, all map orders","composition of all stages.",["oapi.go: Scan"])
p("C66","OAuth2 scheme constructors crash",
 "OAuth2Implicit, OAuth2Password, OAuth2AuthorizationCode and OAuth2ClientCredentials panic for every argument (they write through a nil flow); BasicAuth, BearerAuth and APIKeyAuth never do and set exactly the documented fields.",
 "all strings","all arguments.",["internal/oapi/spec/security_scheme_util.go","internal/oapi/spec/oauth_flows.go"])
p("C67","First and last token of a fragment",
 "Head returns the first token of a fragment, Last and Tail both return the last one (Tail is not the rest after the head), and all three report false exactly for the empty fragment; descending by a token makes it the last one and keeps the first.",
 "all fragments and tokens","all strings.",["internal/pointer/fragment.go: Head, Tail, Last, IsEmpty, Descendant"])
p("C68","Descendants of one fragment may overwrite each other",
 "If the slice of a fragment has spare capacity for the new tokens, taking a second descendant of the same fragment (without cloning it) rewrites the first one in place; if it has none, the first keeps its tokens.",
 "all slices, capacities and token lists","depends on the capacities the runtime chooses.",["internal/pointer/fragment.go: RawDescendant, Descendant"])
p("C69","A failed run still replaces the output file",
 "Whatever the scan returns, document or none, error or none, the command replaces the output file: it then holds the formatted document, the formatted null if there is none, and nothing at all if the format is unknown; only a crash leaves it alone. A document goes to exactly one of stdout, stderr and the file.",
 "all scan results, formats, output settings and old file contents","failure paths of main are not testable units.",["cmd/oapi/main.go: main","oapi.go: Format"])
p("C70","Exit status and log do not tell success from failure",
 "The command ends with status 0 unless the scan crashes; every run that does not crash logs a fatal error, and a run that produced a document and one that failed have the same status and the same log.",
 "all configurations and scan results","process-level behaviour over all inputs.",["cmd/oapi/main.go: main","internal/logging/logging.go: Fatal","oapi.go: newOAPI"])
p("C71","The last option of a kind wins",
 "Of several WithDir, WithOverride, WithDefOps or WithRootSchema options the last one alone counts, nothing is combined, and without one the default stays; WithLog(nil) leaves a nil logger rather than the silent one.",
 "all option lists","all lists.",["oapi.go: Options, WithDir, WithLog, WithOverride, WithDefOps, WithRootSchema, Scan"])
p("C72","Settings without effect",
 "version, openapi and exclude in a configuration file never change what is scanned, and neither does the logger; every other setting is passed on unchanged.",
 "all pairs of configurations","a non-interference statement over pairs of runs.",["cmd/oapi/scan.go: scan","internal/oapi/config/config.go: Config"])
p("C73","The document of a scan, completely",
 "For inputs as in C65 the document every scan returns is: the merged document in which every reference to an exported pointer is a local reference and every other external reference is what stands for it (its override, else the schema of the registered Go type) with its own references replaced likewise; plus one component for exactly the exported pointers that are met; with the gaps of the operations filled from the default operations that match them.",
 "all such inputs, all map orders","composition of all stages over all inputs.",["oapi.go: Scan","internal/oapi/resolver/resolver.go: Resolve","internal/oapi/scan/types/types.go"])
p("C74","A schema's JSON has exactly its set fields and loses none",
 "A schema is written as an object whose members are exactly those fields that are set (flags that are true, nonempty texts and lists, present bounds), distinct schemas have distinct JSON, and writing fails exactly if a number at any depth is NaN or infinite.",
 "all schemas of every depth","all schemas.",["internal/oapi/spec/schema.go: Schema","internal/container/container.go: Make"])
p("C75","What default operations bring is copied, never resolved",
 "A value a default operation gives to a member the operation lacks is in the result exactly as written. Defaults are applied after references are resolved, so a reference to a Go type in a default operation stays, unresolved, in the document of every scan.",
 "all documents, default operations, map orders","ordering of two whole-document passes over all inputs.",["internal/oapi/spec/oapi_util.go: SetPathsDefaults","oapi.go: Scan"])
p("C76","A document has exactly the components something refers to",
 "After a scan the document has the component of an exported Go pointer if and only if some reference, in the document or in what references stand for, leads to a pointer exported under that component's name; openapi:schema exports nothing refers to do not appear.",
 "all inputs as in C65, all map orders","an equivalence with reachability through arbitrarily long reference chains.",["internal/oapi/resolver/resolver.go: Resolve","oapi.go: Scan"])
p("C77","What a scan reads, and when it can start resolving",
 "A scan gets as far as resolving references if and only if the packages load without errors, every openapi comment is well-formed and no two export pointers with the same text, every spec file of every scanned package can be read, every reference in it can be parsed, no two spec files bind the same key path (except to objects), no asked-for type contains error, and the root document can be merged in. What is then resolved is exactly the union of all spec files with references made absolute, merged with the root; the exported components are exactly those of the comments; the registered types are exactly those reached from the objects comments and references ask for.",
 "all package graphs, comments, files, programs and map orders","an equivalence over whole inputs.",["oapi.go: Scan","internal/oapi/scan/cmds/scan.go: Scan, ExportedComponents","internal/oapi/scan/specs/scan.go: Scan","internal/oapi/scan/types/scan.go: Scan"])
p("C78","A module with two spec files cannot be scanned",
 "If two spec files, in the same or in different scanned packages, have an openapi member that is a string, no scan returns a document, whatever the rest of the input.",
 "all inputs with two such files","all inputs.",["oapi.go: Scan","internal/oapi/scan/specs/scan.go: Scan","internal/container/container.go: MergeStrict"])
p("C79","References of path items survive the preparation, and one to a missing object is fatal",
 "A reference in a path item of any spec file is in the prepared document at the same place, made absolute. If it leads to a Go object (or part of one) that no package declares and is not overridden, no scan returns a document (if nothing else in the document has its dot path).",
 "all inputs and references","all inputs.",["oapi.go: Scan","internal/oapi/scan/types/scan.go: Resolve"])
p("C80","ReadDir reads exactly the named files, in order",
 "With the names the specs scanner passes, ReadDir of a plainly written directory reads exactly those of oapi.yaml, oapi.yml and oapi.json that are there, in this order; it fails exactly if one of these cannot be read and never panics; a missing directory is one without files; no other file has any influence. Without patterns it reads all *.yaml, then all *.yml, then all *.json files, each group in increasing order of names.",
 "all file systems and directories without pattern characters","they sample a few directories; the claim is about every directory content.",["internal/container/container.go: ReadDir, defaultSearchPatterns","internal/oapi/scan/specs/scan.go: NewScanner"])
p("C81","ReadFile decides by the extension",
 "A file whose name ends with .yaml or .yml is read as YAML, one ending with .json as JSON, and the document is exactly what the decoder delivers; any other file, an unreadable file and a file that cannot be decoded is an error. The result is always a document that is an object, or an error.",
 "all file systems and paths","all paths and contents.",["internal/container/container.go: ReadFile, ReadYAML, ReadJSON"])
p("C82","YAML mappings become objects, keys being printed",
 "If no mapping of a YAML file has two keys of the same text (1 and \"1\"), the document read has exactly the locations of the file with values of the same kind, is the only such document, and does not depend on the order in which Go iterates the mappings. Otherwise the entry met last stays, so that two keys of the same text with different values make the document depend on that order.",
 "all YAML documents and all map iteration orders","map iteration order is random; all documents, depths and orders.",["internal/container/utils.go: mmap","internal/container/container.go: ReadYAML"])
p("C83","Where the sources of a package are",
 "GetPkgPath of package M/rest of a module M in directory D is D/rest; without a module it is GOPATH/path if something is there, otherwise an error; a module without directory is an error. Two packages of one module have different directories.",
 "all module and import paths written plainly","all paths.",["internal/pkgutil/info.go: GetPkgPath, getPkgPath"])
p("C84","A scan uses the oapi files of each package, and fails if they are broken",
 "The specifications of a scanned package are the documents with an openapi member in the oapi.yaml, oapi.yml and oapi.json of its directory. If one of these files of any scanned package cannot be read, if the directory of a scanned package is unknown, or if two of the files of a package both have a version, no scan returns a document. No other file of the package matters.",
 "all inputs, file systems and orders","all inputs and orders.",["internal/oapi/scan/specs/scan.go: Scan","oapi.go: Scan","internal/pkgutil/info.go: GetPkgPath"])
p("C85","A schema call sets exactly its fields, and the last call wins",
 "Each fluent call on a schema (WithTitle, WithProperty, WithRequired, AddRequired, WithExternalDocs, WithXMLName, ...) sets exactly the fields it is named for and leaves all others; appending calls append; in a chain of any length the last call that sets a field determines it, and fields no call sets keep their values. WithExternalDocs with two empty texts removes the documentation. A constructor's schema has exactly the promised type, format and parts and is blank otherwise; DateProperty and DateTimeProperty give the formats 'data' and 'data-time', which OpenAPI does not know.",
 "all schemas, chains of calls and arguments","chains of any length in any order, all heaps.",["internal/oapi/spec/schema_util.go: With*, Add*, As*, *Property, *Schema"])
p("C86","Schemas that share nothing do not influence each other; shared maps and lists leak",
 "Calls on one schema are not seen through another unless they share a property map, external documentation, XML object or list storage; a new schema is apart from all older ones. A property map or a list with spare capacity given to two schemas is shared: setting a property or appending through one changes the other. Decoding JSON into a schema made by DateProperty or DateTimeProperty overwrites the example of every such schema, also those made later.",
 "all heaps, schemas and chains of calls","all ways of sharing and all histories of calls.",["internal/oapi/spec/schema_util.go: WithProperties, WithProperty, AddRequired, AddToAllOf, WithExternalDocs, DateProperty","internal/oapi/spec/any.go: UnmarshalJSON"])
p("C87","Only path parameters can be required",
 "A parameter built by QueryParam, HeaderParam, PathParam or CookieParam and any chain of calls is required exactly if it was built by PathParam and AsOptional was not called; its name, location, schema, description and empty-value flag are those of the last call about them, else those of the constructor.",
 "all constructors, arguments and chains of calls","chains of any length.",["internal/oapi/spec/parameter_util.go"])
p("C88","References survive JSON","A reference can be written as JSON exactly if its text is valid Unicode with no control characters but backspace, tab, newline, form feed and return, and no unprintable characters beyond the basic plane; what is written is a JSON string meaning that text, and a reference to a place in a Go package (no percent signs) is read back unchanged. A JSON string, however its characters are escaped, is read as the reference its meaning denotes, unless it uses an escaped slash or a surrogate pair: then the raw quoted text is parsed, so the reference is refused or denotes something inside the document, never another package. Numbers and booleans are accepted as references to that text. In general exactly the texts that are interpreted string literals of Go, with nothing behind the closing quote, are unquoted; every other text is parsed as it stands.",
 "all references, all JSON strings with any escaping, all numbers and words","infinitely many strings and escapings, any set of printable characters.",["internal/pointer/pointer.go:UnmarshalJSON,MarshalJSON"])
p("C89","What survives reading and writing a section","When a part of an OpenAPI document (info, servers, components, schemas, operations, callbacks, ...) is read into the tool's data types and written again: members the tool does not know (extensions `x-...` among them) are lost; every member it knows keeps its value, read and written in the same way at every depth, whatever the letter case of its name; members that say nothing (null, empty text, false, empty list or table) are left out, except those always written, which are added with an empty value if they are missing (e.g. `name`, `in`, `explode` of a parameter, also of one that is only a reference). What is written is not changed by reading and writing it again, if its references are written the way the tool writes them. The scopes of OAuth flows are always lost, because the data type misspells their name.",
 "all JSON documents of any size and depth in which no member is given twice, all sections","documents of unbounded depth, about 170 members in 25 mutually recursive sections.",["internal/oapi/spec/openapi.go:OpenAPI","internal/oapi/spec/schema.go:Schema","internal/oapi/spec/parameter.go:Parameter","internal/oapi/spec/callback.go:Callback","internal/oapi/spec/any_or_expressions.go:AnyOrExpressions","internal/oapi/spec/oauth_flow.go:OAuthFlow"])
p("C90","Which documents are refused","Reading a part of an OpenAPI document into the tool's data types and writing it fails exactly if some value in it, at a place the tool reads, is not of the kind expected there (a text, a truth value, a number, a 64-bit integer, a reference whose text parses and can be written, a list, a table); values of unknown members and of free members do not matter, and there is no crash. So a schema with a boolean `additionalProperties` is always refused.",
 "all JSON documents of any size and depth in which no member is given twice, all sections","a mistake may sit at any depth of any section.",["internal/oapi/spec/schema.go:Schema","internal/oapi/spec/callback.go:UnmarshalJSON","internal/pointer/pointer.go:UnmarshalJSON,MarshalJSON"])
p("C91","What the configuration document contributes","If the configuration document is read without an error: the texts `dir`, `format`, `output`, `extends`, `version`, `openapi` and the list `exclude` are the ones it says, letter case of the names not mattering, and empty where it says nothing or null; the root document has exactly the sections info, servers, components, security, tags and externalDocs that it gives and that say something, each read and written as in C89 (never `openapi` or `paths`); the overrides and default operations are the schemas and operations of its tables, null standing for an empty one. The root document can be encoded exactly if every given section can be read and written.",
 "all configuration documents in which no setting is given twice","documents of unbounded depth with all combinations of settings.",["internal/oapi/config/config.go:ReadFile,Config","cmd/oapi/scan.go:scan"])
p("C92","Errors in the configuration","Reading a configuration document reports an error exactly if some value of a setting, at a place the tool reads, cannot be read. Even then (the tool logs the error and goes on) a wrong value of one setting has no influence on the others: two documents that agree in all settings but one give configurations that agree in all settings but that one, as long as the mistake is not a malformed reference or inside a callback, which stop reading. If the file or the one it extends cannot be read, all settings are empty.",
 "all configuration documents and pairs of them in which no setting is given twice","pairs of documents of unbounded size, mistakes at any depth.",["internal/oapi/config/config.go:ReadFile","cmd/oapi/config.go:full"])
p("C93","JSON output is right","Formatting a document as `json` or `json:pretty` succeeds exactly if all its numbers can be written (no NaN, no infinity) and every top-level key is valid Unicode without DEL, without control characters other than backspace, tab, newline, form feed and return, and without unprintable characters beyond the basic plane, whatever order the members are sorted in. What is written then is always a JSON text by RFC 8259, and if the texts of the document are valid Unicode it means exactly that document: same members, same order in lists, each text and number.",
 "all documents of any size and depth, all keys and texts (any bytes), all orders of the top-level members, any set of printable characters","documents of unbounded depth and texts of any bytes pass through quoting, escaping, compaction and indentation.",["oapi.go:Format","internal/container/sort.go:MarshalJSON,MarshalIndentJSON,SortMapMarhsaler"])
p("C94","JSON input is read as what it means","A JSON file is read as exactly the object its text means by RFC 8259: white space and escapes do not matter and of members with the same name the last counts; `null` is the empty document, other values are refused. A text is accepted exactly if it has the form of a JSON text (string literals need not be valid UTF-8 and may have lone surrogates, each such place being read as U+FFFD) and no number is out of range. So all texts of a document that was read are valid Unicode.",
 "all byte sequences given as JSON files","infinitely many texts, nested to any depth, valid and invalid.",["internal/container/container.go:ReadJSON"])
p("C95","JSON output can be read back","Reading a document that was written as `json` or `json:pretty` gives the document back: the same members, lists and texts, and each number as its text is read (the same number if numbers survive being written and read).",
 "all documents with Unicode texts, of any size and depth, all orders of the top-level members","needs every document and both layouts.",["oapi.go:Format","internal/container/container.go:ReadJSON","internal/container/sort.go:MarshalJSON"])
p("C96","The Go file holds the document","The constant in the generated Go file is exactly the JSON text of the document if and only if no text and no key anywhere in the document has a backquote; the text is one line.",
 "all documents of any size and depth that can be written, all package names without backquote","a backquote may sit at any depth, in any text or key.",["oapi.go:Format","temp.go:produceGoFile","internal/container/sort.go:MarshalJSON"])
p("C97","Copies of values","The tool copies values through their JSON text when it makes a document, sets a member or clones. Copying fails exactly if a number of the value cannot be written; otherwise the copy of a value with Unicode texts is that value with each number replaced by what its text is read as, so it is the value itself exactly if all its numbers survive (integers beyond 2^53 from YAML files do not). Values that were read from JSON are copied unchanged, and copies always consist of valid Unicode.",
 "all values of any size and depth","values of unbounded depth, every number.",["internal/container/utils.go:clone","internal/container/container.go:Make,SetP,Clone"])
p("C98","The command's JSON files, from scan to reader","After a run of the command with format `json` or `json:pretty` and an output file: if the scan returned a document that can be written (C93), its texts are Unicode and its numbers survive, the file holds a JSON text of exactly that document and reading the file gives it back; if the scan returned none the file holds `null`, which reads as an empty document; if the document cannot be written the file is emptied although the scan succeeded, a fatal error is logged and the file cannot be read. If only part of the text could be written, the file cannot be read either: no part of a document passes for one. If the old file could not be removed, what is left of it behind the new text makes the file unreadable unless it is white space. With format `go` the file's constant is the JSON text exactly if there are no backquotes.",
 "all machines: scans, documents, settings, old files, numbers of bytes that can be written","needs every document, every crash point of the write and every old content.",["cmd/oapi/main.go:main","oapi.go:Format","internal/container/container.go:ReadFile"])
p("C99","When a scan crashes","If the packages do not load cleanly, a command is malformed or exports what another exports, a file cannot be read, a reference of a specification cannot be parsed or two specifications collide, every scan returns an error and no document; it does not crash. Otherwise every scan crashes if a type that a command or a reference asks for contains the type `error`, or if one of the sections info, components, paths, externalDocs, security, servers, tags of the combined specification is a string, a number or a boolean (unless the components collide with the root's, which is reported before). Apart from that a scan crashes only if some document refers to a Go pointer that nothing overrides and that leads to no registered type; if there is none, every scan returns. No scan recurses without end, whatever cycles there are among types and references: one depth suffices for all orders.",
 "all inputs, iteration orders and recursion depths","needs every combination of malformed input and every order; a crash can sit behind any of them.",["oapi.go:Scan","internal/oapi/oapi.go:MergeWithRoot","internal/oapi/resolver/resolver.go:Resolve","internal/oapi/scan/types/scan.go:Scan"])
p("C100","Runs do not depend on earlier runs","If the output file is none of the files the command reads (its configuration, the file that extends, the specification files of scanned packages, anything the Go toolchain looks at), then a run that can remove the old output does the same whatever earlier runs, failed, crashed or truncated ones among them, have left there: same exit, same output on the standard streams, same files. No sequence of runs touches any other file. If the input settles the document (C65), every sequence of runs ending with an undisturbed one leaves a JSON text of that document, which reads back as it, and the same bytes if at most one top-level member is besides openapi, info, components and paths. A directory named like a specification file in the directory of a scanned package counts as one that cannot be read, so that no run finds a document.",
 "all machines, configurations, inputs, all sequences of runs with any iteration orders and any faults","histories of any length with crashes and write errors at any point; all iteration orders.",["cmd/oapi/main.go:main","cmd/oapi/scan.go:scan","oapi.go:Scan,Format","internal/oapi/scan/specs/scan.go:Scan","internal/oapi/config/config.go:ReadFile"])
p("C101","Runs that read their own output","If the output is the file oapi.json of a scanned package, where there was none, and some specification has a scalar `openapi`, then undisturbed runs alternate: all of them end normally; the first, third, fifth, ... leave the document and the second, fourth, ... leave `null` in its place.",
 "all machines and inputs that settle the document (C65), all numbers of runs, all iteration orders","needs histories of any length and every document.",["cmd/oapi/main.go:main","oapi.go:Scan","internal/oapi/scan/specs/scan.go:Scan","internal/container/container.go:Merge,ReadFile"])
p("C102","Builder chains for responses, request bodies, headers and XML objects","A response built by one of the constructors and any chain of Add…/Remove…/WithDescription calls (none of which crashes) has for each name the header, content and link that the last call about it says, a nil content or link counting as the removal of the header of that name and never of the content; without such a call the only content is the schema under the constructor's media type. Request bodies have exactly that content. After any chain on a header or XML object each field is that of the last call about it; a header is required only if it was and AsOptional was not called.",
 "all chains of calls of any length with any arguments","chains of calls are unbounded.",["internal/oapi/spec/response_util.go","internal/oapi/spec/request_body_util.go","internal/oapi/spec/header_util.go","internal/oapi/spec/xml.go"])
p("C103","Signals","However interrupts and SIGTERMs arrive while the command runs, they do not stop it (unless one comes before the handler is installed): it always gets to its end, and does there either exactly what it does without signals, or, only if a signal came before the packages were loaded, what it does when packages cannot be loaded, which in a JSON format replaces the output file with `null` and ends with status 0.",
 "all interleavings of main, the signal goroutine and arriving signals; all machines and configurations","schedules: a signal can arrive between any two steps, any number of times.",["cmd/oapi/main.go:main","oapi.go:Scan","cmd/oapi/scan.go:scan"])
p("C104","Kills at any point","If the process is killed at any point, no file but the output has changed; the output is the old one, is missing or holds a beginning of what a complete run leaves; with a JSON format and a name ending with .json a reader gets an error, the complete document or (after a signal) the empty one, but never a part of a document. If the output is apart from what the command reads, then after any history of killed, interrupted and complete runs a further run does what it would have done on the original disk.",
 "all crash points between steps and between bytes written, all histories of such runs","crash points and histories; every document.",["cmd/oapi/main.go:main","oapi.go:Format","internal/container/container.go:ReadFile"])
p("C105","References below keys with a dot","A reference that stands below an object key containing a '.' (a path such as /v1.0/pets, a media type such as application/vnd.api+json) is neither made absolute when its file is scanned nor replaced when references are resolved: it comes out as it was written, and scanning adds, under the path its dots spell, a stray member with the absolute reference. Whether such a scan panics or comes back with a document can depend on the order in which a Go map is visited.",
 "all documents without '~' in keys, all such references, all map orders, cycles included","documents, keys and visiting orders are unbounded.",["internal/oapi/scan/specs/scan.go:Scan","internal/oapi/resolver/resolver.go:iterator","internal/container/utils.go:ExtractKey"])
p("C106","Reading by path finds exactly the named location","Container.Path with a dotted path without a wildcard returns the value standing at the location the decoded segments name (member names for objects, any strconv.Atoi spelling of an index for arrays) and nil iff there is no such location; ExistsP answers accordingly; a '*' segment at an array returns the list, in order, of what the rest of the path finds below its elements, leaving out elements without it, and nothing (not an empty list) when no element has it.","every document, every path string, every array","tests try a few documents and paths; the claim ranges over all trees, spellings of indexes and wildcard positions",["internal/container/container.go:Container.Path","internal/container/container.go:Container.ExistsP"])
p("C107","Containers behave as independent values although they are shared mutable memory","In any history of New, Make (ReadJSON, ReadYAML), Clone, SetP and Merge calls on containers the program was given, each call returns, and each container afterwards reads as, what it would if containers were immutable values: in particular a call changes no container but its receiver, also not its source, also when the receiver is the source, when the call fails halfway, when a slice grows in place or moves, and when values were moved or copied by earlier calls; no two containers ever share a map or slice, and no container becomes cyclic.","every history of calls of any length, every document, every path, every merge strategy, every map iteration order, every capacity growth policy of slices","aliasing bugs appear only for particular earlier histories and capacities; tests run single calls on fresh containers",["internal/container/container.go:Clone","internal/container/container.go:SetP","internal/container/merge.go:Merge","internal/container/utils.go:clone"])
p("C108","SetPathsDefaults through shared memory does what it does on values","Run in memory, where the operations returned by Paths are containers looking into the document's own maps, defaults are merged in place and clones are written back (which detaches the container from the document), SetPathsDefaults leaves the container with exactly one of the documents, or errors, that the value-level description (C23-C25) allows, every such outcome is possible, and no other container of the program changes.","every history before the call, every document, every set of defaults, every order of operations and defaults, every slice growth","aliasing between operations, the document and clones depends on the whole history of in-place merges",["internal/oapi/oapi.go:SetPathsDefaults","internal/oapi/oapi.go:Paths","internal/container/merge.go:Merge"])
p("C109","A container returned by Path is the part itself","Path (without wildcard) returns a new container that holds what stands at the named location and changes nothing; if that is an object or array, then, as long as the whole is not written to otherwise, every later SetP or Merge on the returned container changes the whole at exactly that location and nowhere else and leaves every other container alone; if it is a scalar the returned container is an independent copy.","every history before and after, every document, path and location, every source (also the whole or the part itself)","the effect on the owner is invisible to single-call tests and depends on slices moving when they grow",["internal/container/container.go:Container.Path","internal/container/container.go:SetP","internal/container/merge.go:Merge"])
p("C110","Resolve in memory does what it does on values, and leaves its input alone","Run in memory, where Resolve works on a clone, writes to containers in place and hands nested calls path slices that share backing arrays, it returns a new container with exactly the document (or error, or panic) the value-level description (C29-C35) gives; no container the caller has is changed, not even the one being resolved, whether it succeeds or fails.","every history before the call, every document, every set of exported components and resolvable types, every iteration order, every slice growth","whether two appends to the same path slice overwrite each other depends on capacities, i.e. on depth and history",["internal/oapi/resolver/resolver.go:Resolve","internal/oapi/resolver/resolver.go:extract","internal/container/container.go:SetP","internal/container/container.go:Clone"])
p("C111","Merging files and merging with the root document in memory does what it does on values","Containers.Merge and Containers.MergeStrict over containers, and MergeWithRoot, run on real maps and slices - where a merge clones its source, moves values of the clone into the destination, and works through views of sections that share memory with the container - give exactly the document (or error, or panic) the value-level description (C15-C22) gives; the merged containers and all others the caller has keep their documents, and MergeWithRoot changes no container but the one it is called for.","every history before the call, every list of containers, every root document, every iteration order of every map, every slice growth","sharing between the merged document and its sources shows only when one of them is changed later",["internal/container/container.go:Merge","internal/container/container.go:MergeStrict","internal/oapi/oapi.go:MergeWithRoot"])
p("C112","A scan in memory makes the same document","Scan as a whole, run in memory - one container per spec file, references rewritten in place, files merged, root sections merged through views, a resolved clone, default operations merged through views of the paths and stored as clones - comes back with exactly what the value-level account of Scan comes back with for some possible iteration orders and sorting, and every outcome of that account is possible in memory; so the determinism and crash freedom of C65 and C99 hold of the program that changes shared maps in place.","every loaded program, every set of spec files, every configuration, every iteration order, every slice growth, every depth of recursion","that no stage disturbs what another stage shares with it is a statement about all documents, orders and capacities at once",["oapi.go:Scan","internal/oapi/scan/specs/scan.go:Scan","internal/oapi/oapi.go:SetPathsDefaults","internal/oapi/resolver/resolver.go:Resolve"])
p("C113","The type scanner in memory",
 "In the Go implementation nested calls of the type walker append to shared slices, and making a reference sorts the stored slice of pointers of a type in place. None of this is observable in what is registered or produced: collecting registers exactly the pointers of the value-level scan; resolving never changes which pointers are registered; after any history of earlier resolves a pointer gives a schema of the value-level conversion (so C38-C43 hold); and the same pointer gives the same schema at all times if shortest pointers are unique, or if the sort is deterministic and leaves sorted slices alone. Without either condition the schema may differ between the first and the second time.",
 "every program, every set of scanned packages and pointers, every history of resolves with every map iteration order, every capacity append may choose, every behaviour of sort.Sort allowed by its contract",
 "aliasing shows only for particular capacities and call orders, and the order of ties only for particular histories; tests see one of them",
 ["internal/oapi/scan/types/types.go: walk, path.visit, type2schema, struct2schema, collectStructFields","internal/oapi/scan/types/point.go: pointmap.append, pick, findType","internal/oapi/scan/types/scan.go: Scan, Resolve"])
p("C114","Reading onto what is already there",
 "When a JSON value is read into one of the spec data types that already holds something (a variable read into twice, or a document that gives a member twice in different letter case): objects are added to sections and dictionaries member by member, exactly as if the members of both had been given in one object; null makes everything but texts and flags as new; texts, flags, numbers, free values and references are replaced. Hazards: list elements are read onto the old elements and keep what only those had; a runtime expression stays and is written instead of a value read after it.",
 "every data type of the spec package, every previous content, every JSON value",
 "the outcome depends on what was read before, at any depth, and on letter case of member names",
 ["internal/oapi/spec/any_or_expressions.go: AnyOrExpressions.UnmarshalJSON","internal/oapi/spec/any.go: Any.UnmarshalJSON","internal/oapi/spec: all structs (encoding/json)"])
p("C115","A merge that fails has merged a beginning of its source","When Merge reports an error the destination has nevertheless been changed: it holds exactly what merging a beginning of the source (in the order its maps were visited) would have produced without an error. For object documents this happens only for MergeStrict and exactly when the documents collide; then nothing of the destination is lost or altered, everything new in it is in the source at the same key path, a retry with the same source fails again, and which members came in depends on Go's unspecified map order.","every program of New, Make, Clone, SetP and Merge calls, every pair of containers, strategy, map iteration order at every level and slice growth","Which members have been copied when the collision is met depends on the iteration order of maps, which a test neither controls nor enumerates; and the claim is about all documents.",["internal/container/merge.go: Merge, MergeStrict","internal/container/container.go: SetP, Clone"])
p("C116","A whole scan resolves every pointer with one type scanner in memory, and still has one document","During one Scan all Go references are resolved with the same type scanner, whose stored pointers are sorted in place at each reference and whose recursion paths share backing arrays, while the document is changed in place. None of this is observable: if every type that schemas refer to has one shortest pointer, the scan returns exactly the document of C65, however often and in whatever order pointers are resolved, whatever sort.Sort makes of equal elements and wherever append finds room. If shortest pointers are not unique but sort.Sort is deterministic and leaves sorted slices alone (as Go's is), the scan still returns what a scan over immutable values returns, so all whole-scan guarantees (no crash, no foreign references) hold. Without either condition one document can hold two different schemas for one Go type.","every scan input, every iteration order of every map at every call, every result sort.Sort may have at each call, every slice growth, every resolution history","The state of the type scanner at the n-th reference depends on all earlier references, on map order and on the runtime's sort and append; a test sees one history.",["oapi.go: Scan","internal/oapi/resolver/resolver.go: Resolve, iterator","internal/oapi/scan/types/scan.go: Scanner.Scan, Scanner.Resolve","internal/oapi/scan/types/point.go: pick, append, findType"])
p("C117","A finished document passes a scan unchanged","A scan leaves alone what needs nothing: if the specification in the scanned packages (or the union of several) has only references without a scheme, written as the library prints them, has every section as an object, and already has what the root document and the matching default operations would add, then Scan returns exactly this document, whatever the packages export and whatever overrides are given. In particular a document that a scan has returned can be scanned again (with an empty root document and the same default operations) and comes back unchanged, even though the components are now in the specification and still exported. This does not extend to a root document that defines components: if a specification defines one of them too, as the document of an earlier scan does, no scan returns a document.","every scan input whose specifications are finished in this sense, every document returned by a scan that meets the conditions of C65, every iteration order, every stack bound","Idempotence of the whole pipeline over all documents, default operations, root documents and map orders; a test rescans one file.",["oapi.go: Scan","internal/oapi/oapi.go: MergeWithRoot, SetPathsDefaults","internal/oapi/resolver/resolver.go: Resolve, iterator","internal/oapi/scan/specs/scan.go: Scan","internal/container/container.go: Merge"])
p("C118","Text behind the last variable is an expression","The text of a route pattern behind its last variable is not taken literally but as a regular expression: '.' stands for any character but a line feed, '+' and '?' repeat or drop what is in front of them (also the variable itself: '/users/{id}?' matches '/users/'), parentheses group, brackets stand for one of the characters or ranges between them or, after '^', for any other ('/v[12]/users' matches '/v2/users' and not itself), \\d, \\s, \\w and their opposites for one of their characters, and with a '|' outside groups the pattern is no longer anchored: what is in front of the first bar only has to begin the path, what is behind the last bar only has to end it, and what is between two bars may be anywhere ('/users|/admin' matches '/users/7/secret' and '/other/admin').","all patterns without a method prefix, with any variables and stars, whose last text is written with plain and escaped characters, dots, bracketed characters and ranges (without '[', ']' and backslash among them), \\d, \\s and \\w, groups nested at most 400 deep, repetitions '+' and '?' and bars; all methods; all paths; all behaviours of other regular expressions","the expressions are nested without bound and a path can be matched in many ways; tests try patterns and paths one at a time",["internal/route/route.go:Match","internal/route/route.go:compileCached"])
p("C119","A scan does not depend on anything but commands and specifications","The outcomes a scan can have - its documents, its errors, its crashes - do not change when comments that are no openapi commands are added, removed or changed in the scanned packages, when JSON or YAML files without an openapi key are added or removed among the candidates of their directories, or when anything at all is changed in the comments and files of packages that the scan does not reach.","for every two inputs that agree but for the comments and files, where in every reached package the comments hold the same commands in the same order and the files hold the same specifications in the same order (or cannot be read in the same way); for every order of Go's maps","Tests compare two fixtures; that nothing else is looked at is a statement about every pair of inputs.",["internal/oapi/scan/specs/scan.go:Scan","internal/oapi/scan/cmds/scan.go:Scan","internal/pkgutil/util.go:Scan","oapi.go:Scan"])
p("C120","Configuration that nothing refers to does nothing","An override of a pointer that is no registered Go type and that no reference - of the merged specifications or of another override - is one to leaves the outcome of a scan exactly as it is, whatever document it holds. A default operation whose pattern matches no operation of the documents the scan would give without default operations leaves the set of possible outcomes as it is, wherever it stands in the configuration.","for every input, every override or default operation added in any position, every order of Go's maps, every document size and reference depth, failing and crashing scans included","A test adds one unused entry to one configuration; that no entry of any configuration has an effect without being referred to is a statement about all of them.",["oapi.go:Scan","internal/oapi/resolver/resolver.go:Resolve","internal/oapi/oapi.go:SetPathsDefaults"])
p("C121","Which command lines run","Leaving argument files (@name) aside, a command line is run exactly if it is a writing of settings of the five flags, each at most once, as --name=value or as --name value (then the value does not begin with - or @, unless a -- stands between them at the very end), with an existing log level and format; the flags then have the written values, and their defaults otherwise. The order and the form of the settings do not matter to anything the process does. Any other command line ends the process before it has read or written a file. If the standard library's packages cannot be listed, every process crashes, whatever its arguments are.","for every list of arguments of any length and bytes, every order and form of the settings, every disk, environment and sequence of environment choices","A test tries a few command lines; which of all of them are accepted, with what values, and that the rest has no effect, ranges over all lists of byte strings.",["cmd/oapi/config.go:getConfig","cmd/oapi/main.go:main","internal/pkgutil/util.go:init"])
p("C122","Concurrent runs with the same output","When several runs of the command write the same output file at the same time, none of them ever waits for another one. If they write the same text, the output is at every moment what it was before them, missing, or a beginning of the text, and when all that began have finished it is exactly the text; a reader of a JSON output never gets another document than the one written. If they write different texts, the output in the end is as long as the longest text of the runs that opened this file, and every byte is the one that one of their texts has at that place: a file that only one run opened has its text, but for every two texts there is an interleaving in which both runs succeed and leave one text followed by the rest of the other, which for two JSON documents of different lengths nobody can read.","for any number of processes, every interleaving of their steps byte by byte, every set of processes stopped at any points, every old output and all texts","interleavings of several processes at byte granularity are unboundedly many, and a test cannot choose them",["cmd/oapi/main.go:main"])
p("C123","What the text of a struct tag means","The raw text of a struct tag, written as keys with values in Go string quotes separated by blanks, is read as what its first json tag and its first oapi tag say, and nothing else in it matters. A value is a name and, behind commas (and a blank), options: flags, key:value, where commas may stand between brackets or behind a backslash, or key:'value', where only apostrophes need a backslash, or 'text' without a key; a comma at the end counts for nothing; every text without a backslash and without white space at its ends can be written so. Of several options with one key the last one counts. No text has two readings. A raw text that is not written so is refused with an error, and one of nothing but blanks crashes: a struct with such a tag crashes the scan.","for every raw tag text, every list of keys and values and every list of options in any of the ways to write them","the texts of tags are an infinite language with three levels of quoting (Go string, apostrophes, brackets), and that a text has no second reading is a statement about all of it",["tag/tag.go:Parse","tag/tag.go:parseTag","tag/tag.go:parseOAPITag","internal/oapi/scan/types/types.go:collectStructFields"])
p("C124","Property names agree with encoding/json","The names package encoding/json considers for the members of a struct (names from json tags, else field names, hidden and unexported fields left out, fields of embedded structs promoted at any depth) are exactly the properties of its schema, provided no field has an oapi tag, an inline option, text behind a dash, or a name on an embedded struct, and embedded structs are exported or hidden. So each member of the objects written is a property; and if no two fields cancel each other, each property is a member. The deviations: of two equally nested fields with one name encoding/json writes neither, the schema has the property; an embedded struct with a name in its json tag is a member of that name, the schema has its fields; with a dash and a comma the name is a dash, the schema hides the field; the fields of an unexported embedded struct are promoted, the schema is as if it was not there.","for every Go program that is scanned, every registered struct type with any embedding (cycles included) and any tags, every name","structs embed structs to any depth, the rule which of several fields of one name wins ranges over all of them, and two parsers of tags have to agree on every tag",["internal/oapi/scan/types/types.go:collectStructFields","internal/oapi/scan/types/types.go:castInlineStruct","tag/tag.go:parseJSONTag"])
open('/verif/properties.jsonl','w').write(''.join(json.dumps(x)+'\n' for x in P))
print(len(P))
