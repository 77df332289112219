import Verif.Proofs.System3

/-! C100 and C101: runs of the command after each other. -/
namespace Oapi.Props
open Spec Spec.JsonText
open Spec.PtrJson (Quotable)
open JsonText (Env Marshals MarshalsIndent)
open System Scan
open Cli (Flags)

variable {F L : Type} {w : World F L} {disk : Disk} {ff : Flags} {nolog : Bool}

/-! ### Nothing of a run reaches the next one -/

/-- **C100** (one run after another): if the output is apart from what the command reads, then whatever stands there, or nothing, a run that can
remove it does the same: the same status, the same on the standard streams and, unless it crashes, the same files. -/
theorem C100_old_output_is_ignored (h : SeparateOutput w disk ff nolog) (hn : NotASpec w disk ff nolog) (hi : InputOK (scanInput w disk ff nolog))
    {ch : Chance} (ho : OrdersOK (scanInput w disk ff nolog) ch.orders) (hr : ch.faults.removes = true) (t : Option Str) :
    (run w ff nolog (put disk (outputOf w disk ff) t) ch).exit = (run w ff nolog disk ch).exit ∧
    (run w ff nolog (put disk (outputOf w disk ff) t) ch).stdout = (run w ff nolog disk ch).stdout ∧
    (run w ff nolog (put disk (outputOf w disk ff) t) ch).stderr = (run w ff nolog disk ch).stderr ∧
    ((run w ff nolog disk ch).exit = .returns → (run w ff nolog (put disk (outputOf w disk ff) t) ch).files = (run w ff nolog disk ch).files) :=
  run_forgets h (scan_after h hi hn ho _) hr

/-- **C100** (any history): after any runs, failed, crashed or unable to write among them, one more run that can remove the old output leaves what it
would have left as the first. -/
theorem C100_history_does_not_matter (h : SeparateOutput w disk ff nolog) (hn : NotASpec w disk ff nolog) (hi : InputOK (scanInput w disk ff nolog))
    (chs : List Chance) {ch : Chance} (ho : OrdersOK (scanInput w disk ff nolog) ch.orders) (hr : ch.faults.removes = true)
    (hx : (run w ff nolog disk ch).exit = .returns) :
    (run w ff nolog (runs w ff nolog disk chs) ch).exit = .returns ∧ runs w ff nolog disk (chs ++ [ch]) = runs w ff nolog disk [ch] := by
  obtain ⟨x, e⟩ := runs_disk h chs
  have h1 := C100_old_output_is_ignored h hn hi ho hr x
  refine ⟨by rw [e, h1.1, hx], ?_⟩
  unfold runs at e ⊢
  rw [List.foldl_append, e]
  exact h1.2.2.2 hx

/-- **C100** (other files): no runs, whatever happens in them, touch another file. -/
theorem C100_other_files (h : SeparateOutput w disk ff nolog) (chs : List Chance) {q : Str} (hq : q ≠ outputOf w disk ff) :
    runs w ff nolog disk chs q = disk q := by
  obtain ⟨x, e⟩ := runs_disk h chs
  rw [e]
  exact if_neg hq

/-! ### With the real scan and the real encoders -/

/-- **C100** (a directory in the way): a directory that is named like a specification file, in the directory of a scanned package, is
taken for one and cannot be read: no run finds a document. -/
theorem C100_directory_in_the_way (hi : InputOK (scanInput w disk ff nolog)) {o : Orders} (ho : OrdersOK (scanInput w disk ff nolog) o)
    (hdp : DistinctPaths (scanInput w disk ff nolog)) {p : Nat} {dir : Str} (hv : Visited (scanInput w disk ff nolog) p)
    (hd : PackageDir w disk ff nolog p dir) {n : Str} (hn : n ∈ specNames) (hx : w.dirs (dir ++ b!"/" ++ n) = true) (hf : disk (dir ++ b!"/" ++ n) = none)
    (fuel : Nat) : ¬ HasDoc (scan (scanInput w disk ff nolog) o fuel) := by
  refine C77_unprepared_no_document hi ho hdp (fun h => ?_) fuel
  obtain ⟨l, hl⟩ := h.files p hv
  rw [System.files_dir hv hd, ← readDir_specs (dir_plain hd.1) hd.2] at hl
  obtain ⟨e, he⟩ := (C80_fails_iff (fs := fsOf w disk) (dir_plain hd.1) hd.2).1.2 ⟨n, hn, by unfold fsOf; dsimp only; rw [hx]; rfl, .notFound, by
    unfold Read.readFile
    rw [show (fsOf w disk).content (dir ++ b!"/" ++ n) = none from hf]⟩
  rw [hl] at he; cases he

/-- A document that JSON can carry. -/
structure Portable (env : Env) (m : Obj) : Prop where
  texts : AllTexts Unicode (.obj m)
  numbers : AllNumbers (CanWrite env) (.obj m)
  keys : ∀ k ∈ Obj.keys m, Quotable env.prn k

/-- Nothing goes wrong in a run: Go's maps are iterated in some order, the stack suffices, the JSON encoders are the modelled ones, the old file
can be removed and the new one written, with room for the document and for `null`. -/
structure Undisturbed (w : World F L) (disk : Disk) (ff : Flags) (nolog : Bool) (N : Nat) (d : Json) (ch : Chance) : Prop where
  orders : OrdersOK (scanInput w disk ff nolog) ch.orders
  depth : N ≤ ch.depth
  encoders : ∀ d, (∃ r, Marshals w.text d r ∧ Encodes (ch.json d) r) ∧ ∃ r, MarshalsIndent w.text d r ∧ Encodes (ch.pretty d) r
  writes : ch.faults.removes = true ∧ ch.faults.opens = true
  room : ∀ t, ch.json d = .ok t ∨ ch.pretty d = .ok t ∨ t = b!"null" → t.length ≤ ch.faults.written

/-- One undisturbed run over a disk whose scan gives document `m`. -/
theorem run_document (hT : ∀ n t, w.text.numText n = some t → NumberText w.text.numOf t n)
    (hf : formatOf w disk ff = b!"json" ∨ formatOf w disk ff = b!"json:pretty")
    (hp : outputOf w disk ff ≠ [] ∧ outputOf w disk ff ≠ b!"stdout" ∧ outputOf w disk ff ≠ b!"stderr")
    {m : Obj} (hw : Json.WF (.obj m)) (hm : Portable w.text m) {N : Nat} {ch : Chance} {d₀ : Disk} (hc : Undisturbed w d₀ ff nolog N (.obj m) ch) {err : Option Err}
    (hs : scan (scanInput w disk ff nolog) ch.orders ch.depth = .ret (some (.obj m)) err) :
    (run w ff nolog disk ch).exit = .returns ∧
    ∃ t, (if formatOf w disk ff = b!"json" then ch.json (.obj m) else ch.pretty (.obj m)) = .ok t ∧ JsonText w.text.numOf t (.obj m) ∧
      (run w ff nolog disk ch).files = put disk (outputOf w disk ff) (some t) ∧
      ((∃ n, LastElem (outputOf w disk ff) n ∧ EndsWith n b!".json") →
        Read.readFile (fsOf w (put disk (outputOf w disk ff) (some t))) (outputOf w disk ff) = .ok ⟨outputOf w disk ff, .obj m⟩) := by
  obtain ⟨t, h1, h2, h3⟩ := C98_round_trip (m := machine w disk ch) (env := w.text) (ff := ff) (nolog := nolog) hT hc.encoders hf hp hs hw hm.texts hm.numbers hm.keys
  have h1' : (if formatOf w disk ff = b!"json" then ch.json (.obj m) else ch.pretty (.obj m)) = .ok t := h1
  have hroom : t.length ≤ ch.faults.written := by
    refine hc.room t ?_
    split at h1'
    · exact .inl h1'
    · exact .inr (.inl h1')
  obtain ⟨h4, h5⟩ := h3 ⟨hc.writes.1, hc.writes.2, hroom⟩
  have hfmt : Format.format (ch.yaml (.obj m)) (ch.json (.obj m)) (ch.pretty (.obj m)) (formatOf w disk ff) = .ok t :=
    (encoded_format (m := machine w disk ch) (ff := ff) hf (.obj m)).trans h1
  have hfiles : (run w ff nolog disk ch).files = put disk (outputOf w disk ff) (some t) := by
    funext q
    by_cases hq : q = outputOf w disk ff
    · subst hq
      exact h4.trans (by simp [put])
    · have := (C69_output_replaced (m := machine w disk ch) (ff := ff) (nolog := nolog) (doc := some (.obj m)) hs hfmt hp ⟨hc.writes.1, hc.writes.2, hroom⟩).2 q hq
      exact this.trans (by simp [put, hq]; rfl)
  refine ⟨?_, t, h1', h2, hfiles, fun hn => h5 _ ⟨?_, rfl, hn⟩⟩
  · rw [run_eq, hs]
    simp only [Option.getD_some, hfmt]
    exact output_exit
  · exact (congrFun hfiles _).symm

/-- **C100** (every run gives the document): if the input settles the document (C65), the format is one of the JSON formats and the output is apart
from what the command reads, there is one document such that, if JSON can carry it, every sequence of undisturbed runs ends well and leaves it in the
output file, from which it can be read back if the name ends with `.json`. -/
theorem C100_repeated_runs (hT : ∀ n t, w.text.numText n = some t → NumberText w.text.numOf t n) {o : Orders} {pre : Prepared}
    (hs : Settled (scanInput w disk ff nolog) o pre) (h : SeparateOutput w disk ff nolog) (hn : NotASpec w disk ff nolog)
    (hf : formatOf w disk ff = b!"json" ∨ formatOf w disk ff = b!"json:pretty") :
    ∃ m N, (∀ o', OrdersOK (scanInput w disk ff nolog) o' → ∀ fuel, N ≤ fuel → scan (scanInput w disk ff nolog) o' fuel = .ret (some (.obj m)) (some .decode)) ∧
      (Portable w.text m → ∀ chs ch, Undisturbed w disk ff nolog N (.obj m) ch →
        (run w ff nolog (runs w ff nolog disk chs) ch).exit = .returns ∧
        ∃ t, runs w ff nolog disk (chs ++ [ch]) (outputOf w disk ff) = some t ∧ JsonText w.text.numOf t (.obj m) ∧
          ((∃ n, LastElem (outputOf w disk ff) n ∧ EndsWith n b!".json") →
            Read.readFile (fsOf w (runs w ff nolog disk (chs ++ [ch]))) (outputOf w disk ff) = .ok ⟨outputOf w disk ff, .obj m⟩)) := by
  obtain ⟨m, N, h1, h2, _⟩ := one_document hs.input hs.schemas hs.orders hs.prepared hs.resolvable hs.shortest hs.defaults
  refine ⟨m, N, h1, fun hm chs ch hc => ?_⟩
  obtain ⟨h3, t, _, h5, h6, h7⟩ := run_document hT hf h.file h2 hm hc (h1 _ hc.orders _ hc.depth)
  obtain ⟨h8, h9⟩ := C100_history_does_not_matter h hn hs.input chs hc.orders hc.writes.1 h3
  have h10 : runs w ff nolog disk (chs ++ [ch]) = put disk (outputOf w disk ff) (some t) := h9.trans h6
  refine ⟨h8, t, ?_, h5, fun hx => ?_⟩
  · rw [h10]; simp [put]
  · rw [h10]; exact h7 hx

/-- **C100** (byte for byte): if moreover the document has at most one member besides those Format orders, all such sequences leave the same bytes on
the whole disk. -/
theorem C100_same_bytes (hT : ∀ n t, w.text.numText n = some t → NumberText w.text.numOf t n)
    {o : Orders} {pre : Prepared} (hs : Settled (scanInput w disk ff nolog) o pre) (h : SeparateOutput w disk ff nolog) (hn : NotASpec w disk ff nolog)
    (hf : formatOf w disk ff = b!"json" ∨ formatOf w disk ff = b!"json:pretty") {m : Obj} {N : Nat}
    (h1 : ∀ o', OrdersOK (scanInput w disk ff nolog) o' → ∀ fuel, N ≤ fuel → scan (scanInput w disk ff nolog) o' fuel = .ret (some (.obj m)) (some .decode))
    (hm : Portable w.text m) (ho : (others m).length ≤ 1) (chs chs' : List Chance) {ch ch' : Chance}
    (hc : Undisturbed w disk ff nolog N (.obj m) ch) (hc' : Undisturbed w disk ff nolog N (.obj m) ch') :
    runs w ff nolog disk (chs ++ [ch]) = runs w ff nolog disk (chs' ++ [ch']) := by
  have hi := hs.input
  have hw : Json.WF (.obj m) := by
    obtain ⟨m', N', h1', h2, _⟩ := one_document hs.input hs.schemas hs.orders hs.prepared hs.resolvable hs.shortest hs.defaults
    have := (h1 o hs.orders (max N N') (Nat.le_max_left _ _)).symm.trans (h1' o hs.orders (max N N') (Nat.le_max_right _ _))
    cases this
    exact h2
  obtain ⟨h3, t, ht, _, h6, _⟩ := run_document hT hf h.file hw hm hc (h1 _ hc.orders _ hc.depth)
  obtain ⟨h3', t', ht', _, h6', _⟩ := run_document hT hf h.file hw hm hc' (h1 _ hc'.orders _ hc'.depth)
  have e : t = t' := by
    split at ht
    · rename_i hj
      rw [if_pos hj] at ht'
      obtain ⟨r, hr, he⟩ := (hc.encoders (.obj m)).1
      obtain ⟨r', hr', he'⟩ := (hc'.encoders (.obj m)).1
      cases C55_json_same hw ho hr hr'
      rcases he with ⟨a, rfl, ha⟩ | ⟨_, _, ha⟩
      · rcases he' with ⟨b, hb, hb'⟩ | ⟨hb, _⟩
        · cases hb
          rw [ht] at ha
          rw [ht'] at hb'
          cases ha; cases hb'; rfl
        · cases hb
      · rw [ht] at ha; cases ha
    · rename_i hj
      rw [if_neg hj] at ht'
      obtain ⟨r, ⟨q, hq, hr⟩, he⟩ := (hc.encoders (.obj m)).2
      obtain ⟨r', ⟨q', hq', hr'⟩, he'⟩ := (hc'.encoders (.obj m)).2
      cases C55_json_same hw ho hq hq'
      cases hr.trans hr'.symm
      rcases he with ⟨a, ha', ha⟩ | ⟨_, _, ha⟩
      · rcases he' with ⟨b, hb, hb'⟩ | ⟨hb, _⟩
        · cases ha'.symm.trans hb
          rw [ht] at ha
          rw [ht'] at hb'
          cases ha; cases hb'; rfl
        · rw [hb] at ha'; cases ha'
      · rw [ht] at ha; cases ha
  rw [(C100_history_does_not_matter h hn hi chs hc.orders hc.writes.1 h3).2, (C100_history_does_not_matter h hn hi chs' hc'.orders hc'.writes.1 h3').2]
  exact h6.trans ((congrArg (fun x => put disk (outputOf w disk ff) (some x)) e).trans h6'.symm)

/-! ### Runs that read their own output -/

/-- One undisturbed run over a disk whose scan fails. -/
theorem run_null (hf : formatOf w disk ff = b!"json" ∨ formatOf w disk ff = b!"json:pretty")
    (hp : outputOf w disk ff ≠ [] ∧ outputOf w disk ff ≠ b!"stdout" ∧ outputOf w disk ff ≠ b!"stderr")
    {N : Nat} {ch : Chance} {d₀ : Disk} {d : Json} (hc : Undisturbed w d₀ ff nolog N d ch) {err : Option Err}
    (hs : scan (scanInput w disk ff nolog) ch.orders ch.depth = .ret none err) :
    (run w ff nolog disk ch).exit = .returns ∧ (run w ff nolog disk ch).files = put disk (outputOf w disk ff) (some b!"null") ∧
      ((∃ n, LastElem (outputOf w disk ff) n ∧ EndsWith n b!".json") →
        Read.readFile (fsOf w (put disk (outputOf w disk ff) (some b!"null"))) (outputOf w disk ff) = .ok ⟨outputOf w disk ff, .obj []⟩) := by
  have hW : Writable (machine w disk ch).faults b!"null" := ⟨hc.writes.1, hc.writes.2, hc.room _ (.inr (.inr rfl))⟩
  obtain ⟨h4, h5⟩ := C98_failed_scan (m := machine w disk ch) (env := w.text) (ff := ff) (nolog := nolog) hc.encoders hf hp hs hW
  obtain ⟨r, hr, he⟩ := json_outcome (m := machine w disk ch) (env := w.text) (ff := ff) hc.encoders hf .null
  have hr' : r = some b!"null" := by
    rcases hr with h' | ⟨q, h', h''⟩
    · exact h'
    · rw [h'', show q = some b!"null" from h']; decide
  subst hr'
  have hfmt : Format.format (ch.yaml .null) (ch.json .null) (ch.pretty .null) (formatOf w disk ff) = .ok b!"null" := by
    rcases he with ⟨x, hx, hy⟩ | ⟨hx, _⟩
    · cases hx; exact hy
    · cases hx
  have hfiles : (run w ff nolog disk ch).files = put disk (outputOf w disk ff) (some b!"null") := by
    funext q
    by_cases hq : q = outputOf w disk ff
    · subst hq
      exact h4.trans (by simp [put])
    · have := (C69_output_replaced (m := machine w disk ch) (ff := ff) (nolog := nolog) (doc := none) hs hfmt hp hW).2 q hq
      exact this.trans (by simp [put, hq]; rfl)
  refine ⟨?_, hfiles, fun hn => h5 _ ⟨(congrFun hfiles _).symm, rfl, hn⟩⟩
  rw [run_eq, hs]
  simp only [Option.getD_none, hfmt]
  exact output_exit

/-- What the disk looks like after `k` runs that read their own output. -/
inductive Phase (w : World F L) (disk : Disk) (out : Str) (m : Obj) : Nat → Disk → Prop
  | start : Phase w disk out m 0 disk
  | document {k : Nat} {t : Str} : k % 2 = 1 → JsonText w.text.numOf t (.obj m) →
      Read.readFile (fsOf w (put disk out (some t))) out = .ok ⟨out, .obj m⟩ → Phase w disk out m k (put disk out (some t))
  | null {k : Nat} : k % 2 = 0 → 0 < k → Read.readFile (fsOf w (put disk out (some b!"null"))) out = .ok ⟨out, .obj []⟩ →
      Phase w disk out m k (put disk out (some b!"null"))

theorem phases (hT : ∀ n t, w.text.numText n = some t → NumberText w.text.numOf t n) {o : Orders} {pre : Prepared}
    (hs : Settled (scanInput w disk ff nolog) o pre) (hd : DistinctPaths (scanInput w disk ff nolog)) (hz : Sound (scanInput w disk ff nolog))
    (h : SeparateOutput w disk ff nolog) {p : Nat} {dir : Str} (hw : OwnSpec w disk ff nolog p dir)
    (hf : formatOf w disk ff = b!"json" ∨ formatOf w disk ff = b!"json:pretty")
    {q i : Nat} {d : Obj} {v : Json} (hq : SpecAt (scanInput w disk ff nolog) q i (.obj d)) (hv : Obj.lookup b!"openapi" d = some v) (hsc : scalar v = true) :
    ∃ m N, (∀ o', OrdersOK (scanInput w disk ff nolog) o' → ∀ fuel, N ≤ fuel → scan (scanInput w disk ff nolog) o' fuel = .ret (some (.obj m)) (some .decode)) ∧
      (Portable w.text m → SpecFileOK (.obj m) → ∀ k e ch, Undisturbed w disk ff nolog N (.obj m) ch → Phase w disk (outputOf w disk ff) m k e →
        (run w ff nolog e ch).exit = .returns ∧ Phase w disk (outputOf w disk ff) m (k + 1) (run w ff nolog e ch).files) := by
  obtain ⟨m, N, h1, h2, h3⟩ := one_document hs.input hs.schemas hs.orders hs.prepared hs.resolvable hs.shortest hs.defaults
  refine ⟨m, N, h1, fun hm hspec k e ch hc hph => ?_⟩
  have hopen := document_openapi hs (prepared_openapi hs.input hs.orders hd hz hs.prepared hq hv hsc) hsc h3
  obtain ⟨fs, hfs⟩ := ((C77_prepared_iff hs.input hs.orders hd).1 ⟨pre, hs.prepared⟩).files p hw.visited
  have hname : ∃ n, LastElem (outputOf w disk ff) n ∧ EndsWith n b!".json" :=
    ⟨b!"oapi.json", by rw [hw.output, List.append_assoc]; exact ⟨by decide, .inr ⟨dir, rfl⟩⟩, b!"oapi", rfl⟩
  have hform : ∀ t, formatOf w (put disk (outputOf w disk ff) t) ff = formatOf w disk ff := fun t => by
    have := settings_after (t := t) h
    exact congrArg (fun c => c.1.base.format) this
  have hout : ∀ t, outputOf w (put disk (outputOf w disk ff) t) ff = outputOf w disk ff := fun t => output_after h
  cases hph with
  | start =>
    obtain ⟨g1, t, _, g3, g4, g5⟩ := run_document hT hf h.file h2 hm hc (h1 _ hc.orders _ hc.depth)
    exact ⟨g1, g4 ▸ .document rfl g3 (g5 hname)⟩
  | @document _ t hk _ ht =>
    obtain ⟨er, he⟩ := scan_after_document h hw hs.input hd hz hfs ht hspec hopen hq hv hsc hc.orders
    obtain ⟨g1, g2, g3⟩ := run_null (disk := put disk (outputOf w disk ff) (some t)) (by rw [hform]; exact hf) (by rw [hout]; exact h.file) hc (he ch.depth)
    rw [hout, put_put] at g2 g3
    exact ⟨g1, g2 ▸ .null (by omega) (by omega) (g3 hname)⟩
  | @null _ hk hk' ht =>
    have hsame := scan_after_null h hw hs.input hfs ht rfl hc.orders ch.depth
    obtain ⟨g1, t, _, g3, g4, g5⟩ := run_document (disk := put disk (outputOf w disk ff) (some b!"null")) hT (by rw [hform]; exact hf) (by rw [hout]; exact h.file) h2 hm hc
      (hsame.trans (h1 _ hc.orders _ hc.depth))
    rw [hout, put_put] at g4 g5
    exact ⟨g1, g4 ▸ .document (by omega) g3 (g5 hname)⟩

/-- **C101** (runs that read their own output): if the output is the file `oapi.json` of a scanned package, where it was not before, and some
specification says a scalar for `openapi`, then the runs alternate: all end well; the first, third, … leave the document, the second, fourth, …
(which find the document beside the specification it was made from) leave `null`. -/
theorem C101_alternation (hT : ∀ n t, w.text.numText n = some t → NumberText w.text.numOf t n) {o : Orders} {pre : Prepared}
    (hs : Settled (scanInput w disk ff nolog) o pre) (hd : DistinctPaths (scanInput w disk ff nolog)) (hz : Sound (scanInput w disk ff nolog))
    (h : SeparateOutput w disk ff nolog) {p : Nat} {dir : Str} (hw : OwnSpec w disk ff nolog p dir)
    (hf : formatOf w disk ff = b!"json" ∨ formatOf w disk ff = b!"json:pretty")
    {q i : Nat} {d : Obj} {v : Json} (hq : SpecAt (scanInput w disk ff nolog) q i (.obj d)) (hv : Obj.lookup b!"openapi" d = some v) (hsc : scalar v = true) :
    ∃ m N, (∀ o', OrdersOK (scanInput w disk ff nolog) o' → ∀ fuel, N ≤ fuel → scan (scanInput w disk ff nolog) o' fuel = .ret (some (.obj m)) (some .decode)) ∧
      (Portable w.text m → SpecFileOK (.obj m) → ∀ chs ch, (∀ c ∈ chs ++ [ch], Undisturbed w disk ff nolog N (.obj m) c) →
        (run w ff nolog (runs w ff nolog disk chs) ch).exit = .returns ∧
        ((chs ++ [ch]).length % 2 = 1 → ∃ t, runs w ff nolog disk (chs ++ [ch]) (outputOf w disk ff) = some t ∧ JsonText w.text.numOf t (.obj m)) ∧
        ((chs ++ [ch]).length % 2 = 0 → runs w ff nolog disk (chs ++ [ch]) (outputOf w disk ff) = some b!"null")) := by
  obtain ⟨m, N, h1, h2⟩ := phases hT hs hd hz h hw hf hq hv hsc
  refine ⟨m, N, h1, fun hm hspec chs ch hc => ?_⟩
  have step := h2 hm hspec
  have key : ∀ (chs : List Chance) (k : Nat) (e : Disk), (∀ c ∈ chs, Undisturbed w disk ff nolog N (.obj m) c) →
      Phase w disk (outputOf w disk ff) m k e → Phase w disk (outputOf w disk ff) m (k + chs.length) (runs w ff nolog e chs) := by
    intro chs
    induction chs with
    | nil => exact fun k e _ h => h
    | cons c chs ih =>
      intro k e hc hp
      have := ih (k + 1) _ (fun c' hc' => hc c' (List.mem_cons_of_mem _ hc')) (step k e c (hc c (by simp)) hp).2
      rw [List.length_cons, show k + (chs.length + 1) = k + 1 + chs.length by omega]
      exact this
  have hlast := key chs 0 disk (fun c hc' => hc c (List.mem_append_left _ hc')) .start
  have hnow := key (chs ++ [ch]) 0 disk hc .start
  refine ⟨(step _ _ ch (hc ch (by simp)) hlast).1, fun hodd => ?_, fun heven => ?_⟩
  · rw [Nat.zero_add] at hnow
    generalize hk : (chs ++ [ch]).length = k at hnow hodd
    generalize runs w ff nolog disk (chs ++ [ch]) = e at hnow
    cases hnow with
    | start => cases hodd
    | document _ ht _ => exact ⟨_, by simp [put], ht⟩
    | null h0 _ _ => omega
  · rw [Nat.zero_add] at hnow
    generalize hk : (chs ++ [ch]).length = k at hnow heven
    generalize runs w ff nolog disk (chs ++ [ch]) = e at hnow
    cases hnow with
    | start => simp at hk
    | document h0 _ _ => omega
    | null _ _ _ => simp [put]

end Oapi.Props
