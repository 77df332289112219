{
 "F8": {
  "tightened": [
   "C03_raw_descendant"
  ],
  "note": "no theorem spoke about RawDescendant; re-run as F8b"
 },
 "F9": {
  "tightened": [
   "C67_head",
   "C67_last_and_tail",
   "C67_descend"
  ],
  "note": "Last was not covered; re-run as F9b"
 },
 "Q11": {
  "tightened": [
   "C33_sections"
  ],
  "note": "repaired program; the section table is now a claim; re-run as Q11b"
 },
 "T8": {
  "tightened": [
   "C46_values",
   "C46_fails_iff"
  ],
  "note": "the specification used the model's own integer parser; IntText now says what a 64-bit integer text is; re-run as T8b"
 },
 "K9": {
  "tightened": [
   "C48_pointers"
  ],
  "note": "nothing was said about the pointers of commands; re-run as K9b"
 },
 "K10": {
  "tightened": [
   "C47_package",
   "C47_package_fails"
  ],
  "note": "re-run as K10b"
 },
 "L13": {
  "tightened": [
   "C51_extends_from_anywhere"
  ],
  "note": "only absolute paths were covered; re-run as L13b"
 },
 "L14": {
  "tightened": [
   "C69_one_destination"
  ],
  "note": "only examples failed; re-run as L14b"
 },
 "Z5": {
  "tightened": [
   "C56_encodings"
  ],
  "note": "re-run as Z5b"
 },
 "H4": {
  "tightened": [],
  "note": "overrides in the pipeline: see H4b"
 },
 "K8": {
  "note": "equivalent program: no blanks are left after the split"
 },
 "Y26": {
  "note": "equivalent program: no finite type is its own element"
 },
 "M10": {
  "tightened": [
   "C70_silent"
  ],
  "note": "re-run as M10b"
 },
 "M18": {
  "tightened": [
   "C72_settings_from_the_named_file"
  ],
  "note": "re-run as M18b"
 },
 "L14b": {
  "note": "examples of Props/Cli fail, so Props/Main with C69_one_destination is not reached"
 },
 "J12": {
  "tightened": [
   "C77_document",
   "C77_types",
   "C77_exports",
   "C77_prepared_iff",
   "C79_references_of_paths",
   "C79_missing_object"
  ],
  "note": "the specification of absolute references (Spec/Prepare.lean) used the function of the model; restated as go://pkg#..., and commands restated in terms of the text of comments; re-run as J12b"
 },
 "N6": {
  "tightened": [
   "C07_pkgPath",
   "C07_port_ignored",
   "C59_newServers"
  ],
  "note": "no theorem failed: host names were only stated through the model's own hostname; C59_newServers is now stated with HostName and HasPort on the text of the host, and C07_pkgPath/C07_port_ignored say that a port is no part of a package; the repaired theorems fail on R22-R24"
 },
 "K26": {
  "tightened": [],
  "note": "equivalent edit: struct fields are converted by the same function either way"
 },
 "K35": {
  "tightened": [],
  "note": "the edited definition was used nowhere and has been deleted; the formats are pinned by C56_encodings and C56_unknown_format"
 },
 "J27": {
  "tightened": [],
  "note": "equivalent within the stated domain: only members given twice differ, which the properties exclude (decoding trees with unique keys)"
 },
 "QQ16": {
  "tightened": [],
  "note": "equivalent within the stated domain: only members given twice differ, which the properties exclude (decoding trees with unique keys)"
 },
 "QQ18": {
  "tightened": [],
  "note": "equivalent program: trees have unique keys, so equal keys are never inserted"
 },
 "QQ4": {
  "tightened": [],
  "note": "equivalent through the API: encoding/json only passes complete literals to UnmarshalJSON"
 },
 "VB17": {
  "tightened": [
   "C106_wildcard"
  ],
  "note": "no theorem spoke about '*' on an empty array; Reading by path is now a property of its own"
 },
 "VF21": {
  "tightened": [
   "C114_accumulates",
   "C114_twins"
  ],
  "note": "no theorem spoke about reading onto a value that is there; it is now a property of its own"
 },
 "VF29": {
  "tightened": [
   "C114_null_resets"
  ],
  "note": "no theorem spoke about reading onto a value that is there; it is now a property of its own"
 },
 "VG34": {
  "tightened": [],
  "note": "equivalent: in the model a clone of a value never fails"
 },
 "VE35": {
  "tightened": [],
  "note": "the raw fragment is not observable through Pointer.String or PkgPath"
 },
 "VH39": {
  "tightened": [
   "C88_go_strings",
   "C88_nothing_behind"
  ],
  "note": "added: exactly Go's string literals are unquoted"
 },
 "VC32": {
  "tightened": [
   "C88_go_strings",
   "C88_nothing_behind"
  ],
  "note": "added: exactly Go's string literals are unquoted"
 },
 "VH38": {
  "tightened": [
   "C88_go_strings"
  ],
  "note": "added: exactly Go's string literals are unquoted"
 },
 "VH49": {
  "tightened": [
   "C100_directory_in_the_way"
  ],
  "note": "added: a directory named like a specification file"
 },
 "VH54": {
  "tightened": [],
  "note": "equivalent: the constructor panics before this line (C66)"
 },
 "VH22": {
  "tightened": [],
  "note": "the definition was used nowhere and has been removed"
 },
 "VI7": {
  "tightened": [],
  "note": "equivalent: scanPkg never returns an error (scanPkg_ne_err), so dropping it changes nothing"
 },
 "VK4": {
  "tightened": [
   "C121_flags_iff",
   "C121_runs",
   "C121_order_and_form"
  ],
  "note": "the specification took the list of flags from the model; it has its own now (Spec.FlagNames)"
 },
 "VJ84": {
  "tightened": [],
  "note": "C118 leaves open what becomes of expressions the model does not read: `rest` is a parameter, and no claim is made about it"
 },
 "VJ30": {
  "tightened": [],
  "note": "equivalent in every reachable state: each container holds a document (Calls, C110), so the branch is not taken"
 },
 "VM15": {
  "tightened": [
   "C123_read",
   "C123_unambiguous",
   "C123_options"
  ],
  "note": "Spec.TagText has texts between apostrophes without a key now (Alone)"
 },
 "VM35": {
  "tightened": [
   "C123_read",
   "C123_unambiguous",
   "C123_options"
  ],
  "note": "Spec.TagText has texts between apostrophes without a key now (Alone)"
 },
 "VM33": {
  "tightened": [],
  "note": "equivalent: tagparser gives a value and the value with a comma at its end the same reading"
 },
 "VP8": {
  "tightened": [],
  "note": "equivalent: the flow is a nil pointer, so the constructor panics before the function is applied (C66)"
 },
 "VJ22": {
  "tightened": [],
  "note": "open: the theorems about malformed pointers say that they have no fragment; which URL is left with a malformed fragment is claimed nowhere"
 }
}