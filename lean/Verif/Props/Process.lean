import Verif.Proofs.Process
import Verif.Props.System

/-! C103 and C104: signals, and kills at any point. -/
namespace Oapi.Props
open Spec Spec.JsonText
open Spec.PtrJson (Quotable)
open JsonText (Env Marshals MarshalsIndent unmarshal unmarshalMap)
open Main Process
open Cli (Flags)

section
variable {L : Type} {m : Machine L} {ff : Flags} {nolog : Bool}

/-! ### C103: signals -/

/-- **C103** (the result): however signals arrive, a process that ends by itself did either exactly what it does without signals, or, only if a
signal arrived, what it does if the packages cannot be loaded. -/
theorem C103_result {acts : List Act} {s : State} {e : Exit} (h : Steps m ff nolog (start m) acts s) (he : s.pc = .ended e) :
    DidAs e s (main m ff nolog) ∨ .signal ∈ acts ∧ DidAs e s (main (interrupted m) ff nolog) := by
  rcases steps_start h with ⟨_, _, _, hp⟩ | ⟨f, ⟨_, _, hp⟩, hf⟩
  · rw [he] at hp; exact hp.elim
  · rw [he] at hp
    cases f with
    | false => exact .inl hp
    | true =>
      obtain ⟨pre, s₁, post, h1, _, h3, rfl⟩ := hf rfl
      exact .inr ⟨List.mem_append_left _ (cancelled_signal h1 (.inl h3)), hp⟩

/-- **C103** (too late): once the packages are loaded, no signal changes the result. -/
theorem C103_too_late {pre acts : List Act} {s₁ s : State} {e : Exit} (h : Steps m ff nolog (start m) pre s₁) (h1 : s₁.pc = .scanning false)
    (h2 : Steps m ff nolog s₁ acts s) (he : s.pc = .ended e) : DidAs e s (main m ff nolog) := by
  rcases steps_start h with ⟨_, _, _, hp⟩ | ⟨f, hl, _⟩
  · rw [h1] at hp; exact hp.elim
  · have hf : false = f := by
      have := hl.2.2
      rw [h1] at this
      exact this.1
    subst hf
    have := (steps_late hl h2).2.2
    rw [he] at this
    exact this

/-- **C103** (signals do not stop the command): a signal ends the process only if it is the first thing that happens, before the handler is in place,
or if everything is done. -/
theorem C103_not_stopped {acts : List Act} {s : State} (h : Steps m ff nolog (start m) acts s) (hk : .kill ∉ acts) (hc : s.pc = .killed) :
    acts.head? = some .signal ∨ DidAs .returns s (main m ff nolog) ∨ .signal ∈ acts ∧ DidAs .returns s (main (interrupted m) ff nolog) := by
  rcases not_killed h hk hc with h | ⟨f, h, hf⟩
  · exact .inl h
  · cases f with
    | false => exact .inr (.inl h)
    | true => exact .inr (.inr ⟨hf rfl, h⟩)

/-- **C103** (it ends by itself): a process that is not over can go on, whatever signals came, and no execution has more than nine steps of `main`
and one for each byte to be written (loading and scanning counted as one step each). -/
theorem C103_goes_on {s : State} (h : over s.pc = false) (fail : Bool) : ∃ s', mainStep m ff nolog fail s = some s' := by
  unfold mainStep
  cases hpc : s.pc <;> rw [hpc] at h <;> simp only
  case ended e => cases h
  case killed => cases h
  all_goals repeat' split
  all_goals exact ⟨_, rfl⟩

theorem C103_ends {N : Nat} (hN : ∀ f data, dataFor m ff nolog f = some data → data.length ≤ N) {acts : List Act} {s : State}
    (h : Steps m ff nolog (start m) acts s) : acts.count .main ≤ N + 9 := by
  let rank : Pc → Nat := fun pc => match pc with
    | .boot => N + 9 | .config => N + 8 | .loading => N + 7 | .scanning _ => N + 6 | .remove _ _ => N + 5 | .opening _ _ => N + 4
    | .copying _ _ n => N + 3 - n | .leaving => 2 | .stopped => 1 | .ended _ => 0 | .killed => 0
  have hb : ∀ {s : State} {acts p data n}, Steps m ff nolog (start m) acts s → s.pc = .copying p data n → n ≤ data.length ∧ data.length ≤ N := by
    intro s acts p data n h hpc
    rcases steps_start h with ⟨_, _, _, hp⟩ | ⟨f, ⟨_, _, hp⟩, _⟩
    · rw [hpc] at hp; exact hp.elim
    · rw [hpc] at hp; exact ⟨hp.2.2.2.1, hN f data hp.2.1⟩
  have key : acts.count .main + rank s.pc ≤ N + 9 := by
    induction h with
    | refl => exact Nat.le_of_eq (Nat.zero_add _)
    | @step s' s'' acts a h1 h2 ih =>
      rw [List.count_append]
      cases h2 with
      | main fail hm =>
        have hlt : rank s''.pc < rank s'.pc := by
          unfold mainStep at hm
          cases hpc : s'.pc <;> rw [hpc] at hm <;> simp only at hm
          case boot => cases hm; show N + 8 < N + 9; omega
          case config => cases hm; show N + 7 < N + 8; omega
          case loading => cases hm; show N + 6 < N + 7; omega
          case scanning f =>
            repeat' split at hm
            all_goals cases hm
            · show 0 < N + 6; omega
            · show 2 < N + 6; omega
            · show 2 < N + 6; omega
            · show N + 5 < N + 6; omega
          case remove p data => cases hm; show N + 4 < N + 5; omega
          case opening p data =>
            split at hm
            · cases hm; show N + 3 - 0 < N + 4; omega
            · cases hm; show 2 < N + 4; omega
          case copying p data n =>
            have := hb h1 hpc
            repeat' split at hm
            · cases hm; show 2 < N + 3 - n; omega
            · rename_i b hb' _
              have hn : n < data.length := by
                apply Classical.byContradiction
                intro hc
                rw [List.getElem?_eq_none_iff.2 (by omega)] at hb'
                cases hb'
              cases hm; show N + 3 - (n + 1) < N + 3 - n; omega
            · cases hm; show 2 < N + 3 - n; omega
          case leaving => cases hm; show 1 < 2; omega
          case stopped => cases hm; show 0 < 1; omega
          case ended => cases hm
          case killed => cases hm
        have : List.count Act.main [Act.main] = 1 := rfl
        omega
      | watcher => have : List.count Act.main [Act.watcher] = 0 := rfl; simp only; omega
      | caught => have : List.count Act.main [Act.signal] = 0 := rfl; simp only; omega
      | uncaught =>
        have : List.count Act.main [Act.signal] = 0 := rfl
        have : rank Pc.killed = 0 := rfl
        simp only; omega
      | kill =>
        have : List.count Act.main [Act.kill] = 0 := rfl
        have : rank Pc.killed = 0 := rfl
        simp only; omega
  omega

theorem steps_trans {s s' s'' : State} {as bs : List Act} (h : Steps m ff nolog s as s') (h' : Steps m ff nolog s' bs s'') :
    Steps m ff nolog s (as ++ bs) s'' := by
  induction h' with
  | refl => rwa [List.append_nil]
  | step _ h2 ih => rw [← List.append_assoc]; exact ih.step h2

/-- **C103** (it can always finish): whatever signals came and wherever it is, the process, not being killed, gets to its end by steps of `main` alone. -/
theorem C103_finishes {acts : List Act} {s : State} (h : Steps m ff nolog (start m) acts s) (hk : s.pc ≠ .killed) (fail : Bool) :
    ∃ n s' e, Steps m ff nolog s (List.replicate n .main) s' ∧ s'.pc = .ended e := by
  obtain ⟨N, hN⟩ : ∃ N, ∀ f data, dataFor m ff nolog f = some data → data.length ≤ N := by
    refine ⟨max ((dataFor m ff nolog false).getD []).length ((dataFor m ff nolog true).getD []).length, ?_⟩
    rintro (_ | _) data hd
    · rw [hd]; exact Nat.le_max_left _ _
    · rw [hd]; exact Nat.le_max_right _ _
  generalize hr : N + 10 - acts.count .main = r
  induction r generalizing acts s with
  | zero => have := C103_ends hN h; omega
  | succ r ih =>
    cases ho : over s.pc with
    | true =>
      cases hpc : s.pc <;> rw [hpc] at ho <;> try cases ho
      · exact ⟨0, s, _, .refl, hpc⟩
      · exact absurd hpc hk
    | false =>
      obtain ⟨s', hs'⟩ := C103_goes_on (m := m) (ff := ff) (nolog := nolog) ho fail
      have hst : Step m ff nolog .main s s' := .main fail hs'
      have hk' : s'.pc ≠ .killed := by
        intro hc
        unfold mainStep at hs'
        cases hpc : s.pc <;> rw [hpc] at hs' <;> simp only at hs'
        all_goals repeat' split at hs'
        all_goals cases hs'
        all_goals cases hc
      obtain ⟨n, s'', e, h1, h2⟩ := ih (h.step hst) hk' (by rw [List.count_append, show List.count Act.main [Act.main] = 1 from rfl]; omega)
      refine ⟨n + 1, s'', e, ?_, h2⟩
      rw [List.replicate_succ]
      exact steps_trans (as := [.main]) (Steps.step .refl hst) h1

/-- **C103** (an interrupt destroys the output): if loading failed because of a signal and a JSON format goes to a file, the process still replaces
the file, by `null`, and ends with status 0. -/
theorem C103_null {env : Env} (hm : JsonMachine env m) (hf : JsonFormat m ff) (hp : ToFile m ff) (hW : Writable m.faults b!"null")
    {pre acts : List Act} {s₁ s : State} {e : Exit} (h : Steps m ff nolog (start m) pre s₁) (h1 : s₁.pc = .scanning true)
    (h2 : Steps m ff nolog s₁ acts s) (he : s.pc = .ended e) :
    e = .returns ∧ s.files (inForce m ff).output = some b!"null" := by
  rcases steps_start h with ⟨_, _, _, hx⟩ | ⟨f, hl, _⟩
  · rw [h1] at hx; exact hx.elim
  · have hf' : true = f := by
      have := hl.2.2
      rw [h1] at this
      exact this.1
    subst hf'
    have hd := (steps_late hl h2).2.2
    rw [he] at hd
    have hd' : DidAs e s (main (interrupted m) ff nolog) := hd
    have h3 := (C98_failed_scan (m := interrupted m) (env := env) (ff := ff) (nolog := nolog) hm hf hp (err := some .loadErr) rfl hW).1
    refine ⟨?_, (congrFun hd'.2.2.2 _).trans h3⟩
    rw [hd'.1]
    obtain ⟨r, hr, hen⟩ := json_outcome (m := interrupted m) hm hf .null
    have hr' : r = some b!"null" := by
      rcases hr with h' | ⟨q, h', h''⟩
      · exact h'
      · rw [h'', show q = some b!"null" from h']; decide
    subst hr'
    have hfmt : Format.format (m.yaml .null) (m.json .null) (m.pretty .null) (inForce m ff).format = .ok b!"null" := by
      rcases hen with ⟨x, hx, hy⟩ | ⟨hx, _⟩
      · cases hx; exact hy
      · cases hx
    have := main_ret (m := interrupted m) (ff := ff) (nolog := nolog) (doc := none) (err := some .loadErr) rfl
    rw [this]
    simp only [Option.getD_none]
    change (match Format.format (m.yaml .null) (m.json .null) (m.pretty .null) (inForce m ff).format with
      | .panic => _
      | .ok s => _
      | .err _ => _ : Run).exit = _
    rw [hfmt]
    simp only
    unfold Main.output
    split <;> rfl

/-! ### C104: kills -/

/-- **C104** (other files): wherever an execution is, and wherever it is killed, no file but the output has changed, and none at all if the output is a
stream. -/
theorem C104_other_files {acts : List Act} {s : State} (h : Steps m ff nolog (start m) acts s) (q : Str)
    (hq : q ≠ (inForce m ff).output ∨ Cli.dest (inForce m ff).output ≠ .file (inForce m ff).output) : s.files q = m.files q := by
  have hd : ∀ p, target m ff = .file p → p = (inForce m ff).output := by
    intro p hp
    unfold target Cli.dest at hp
    repeat' split at hp
    · cases hp
    · cases hp
    · cases hp; rfl
  have hl : ∀ f, Left m ff nolog f s.files → s.files q = m.files q := by
    intro f hl
    generalize s.files = g at hl
    have hne : ∀ p c, target m ff = .file p → setFile m.files p c q = m.files q := by
      intro p c hp
      have := hd p hp
      subst this
      rcases hq with hq | hq
      · simp [setFile, hq]
      · exact absurd hp hq
    cases hl with
    | untouched => rfl
    | removed ht _ => exact hne _ _ ht
    | part ht _ _ _ _ => exact hne _ _ ht
  rcases steps_start h with ⟨he, _⟩ | ⟨f, ⟨hl', _⟩, _⟩
  · rw [he]
  · exact hl f hl'

/-- **C104** (the output): if the old output can be removed, then at every moment, and so after a kill at any point, the output file is the old one, is
missing, or holds a beginning of what the whole run, or the run whose packages cannot be loaded if a signal arrived, leaves there. -/
theorem C104_output (hp : ToFile m ff) (hr : m.faults.removes = true) {acts : List Act} {s : State} (h : Steps m ff nolog (start m) acts s) :
    s.files (inForce m ff).output = m.files (inForce m ff).output ∨ s.files (inForce m ff).output = none ∨
    ∃ c full, s.files (inForce m ff).output = some c ∧ c <+: full ∧
      ((main m ff nolog).files (inForce m ff).output = some full ∨
       .signal ∈ acts ∧ (main (interrupted m) ff nolog).files (inForce m ff).output = some full) := by
  rcases steps_start h with ⟨he, _⟩ | ⟨f, ⟨hl, _⟩, hf⟩
  · exact .inl (by rw [he])
  · generalize hg : s.files = g at hl
    have hd : ∀ p, target m ff = .file p → p = (inForce m ff).output := by
      intro p hp'
      have : target m ff = .file (inForce m ff).output := dest_file hp
      rw [this] at hp'
      cases hp'; rfl
    cases hl with
    | untouched => exact .inl rfl
    | removed ht _ => rw [hd _ ht]; exact .inr (.inl (setFile_at _ _ _))
    | @part p data n ht hdata ho hn hw =>
      have := hd _ ht
      subst this
      refine .inr (.inr ⟨data.take n, data.take m.faults.written, ?_, ?_, ?_⟩)
      · rw [setFile_at]; simp [base, hr]
      · exact (List.take_prefix_take_left hw)
      · have hm := main_data (m := m) (ff := ff) (nolog := nolog) f
        rw [hdata] at hm
        obtain ⟨l, hm⟩ := hm
        have hfile : (main (seen m f) ff nolog).files (inForce m ff).output = some (data.take m.faults.written) := by
          rw [hm, ht]
          simp [Main.output, Cli.writeFile, hr, ho]
        cases f with
        | false => exact .inl hfile
        | true =>
          obtain ⟨pre, s₁, post, h1, _, h3, rfl⟩ := hf rfl
          exact .inr ⟨List.mem_append_left _ (cancelled_signal h1 (.inl h3)), hfile⟩

/-- A reader that finds the files `files`, and whose JSON numbers are `env`'s. -/
structure Sees (env : Env) (files : Str → Option Str) (p : Str) (fs : Read.FS) : Prop where
  content : fs.content p = files p
  json : fs.json = unmarshalMap env.numOf
  named : ∃ n, LastElem p n ∧ EndsWith n b!".json"

theorem sees_doc {env : Env} {files : Str → Option Str} {p : Str} {fs : Read.FS} (hs : Sees env files p fs) {w : Str} (h : files p = some w) {o : Obj}
    (ho : unmarshalMap env.numOf w = some o) : Read.readFile fs p = .ok ⟨p, .obj o⟩ := by
  obtain ⟨n, hn, he⟩ := hs.named
  exact (C81_json hn he _).2 ⟨rfl, w, o, hs.content.trans h, by rw [hs.json]; exact ho, rfl⟩

theorem sees_error {env : Env} {files : Str → Option Str} {p : Str} {fs : Read.FS} (hs : Sees env files p fs)
    (h : ∀ w, files p = some w → unmarshalMap env.numOf w = none) : ∃ e, Read.readFile fs p = .err e := by
  obtain ⟨n, hn, he⟩ := hs.named
  rcases C81_object_or_error (fs := fs) p with ⟨o, h'⟩ | h'
  · obtain ⟨_, data, k, h1, h2, _⟩ := (C81_json hn he _).1 h'
    rw [hs.content] at h1
    rw [hs.json, h data h1] at h2
    cases h2
  · exact h'

/-- No proper prefix of `null` is a document. -/
theorem null_prefix (f : Str → Option Int) {c : Str} (h : c <+: b!"null") : unmarshalMap f c = none ∨ c = b!"null" := by
  obtain ⟨t, e⟩ := h
  have hc : c = (b!"null").take c.length := by rw [← e]; simp
  have hl : c.length ≤ 4 := by have := congrArg List.length e; simp at this; omega
  generalize c.length = n at hc hl
  subst hc
  have : n = 0 ∨ n = 1 ∨ n = 2 ∨ n = 3 ∨ n = 4 := by omega
  rcases this with rfl | rfl | rfl | rfl | rfl
  · exact .inl rfl
  · exact .inl rfl
  · exact .inl rfl
  · exact .inl rfl
  · exact .inr rfl

/-- What an interrupted run leaves is a beginning of `null`. -/
theorem interrupted_null {env : Env} (hm : JsonMachine env m) (hf : JsonFormat m ff) (hp : ToFile m ff) (hr : m.faults.removes = true) {full : Str}
    (h : (main (interrupted m) ff nolog).files (inForce m ff).output = some full) : full <+: b!"null" := by
  obtain ⟨r, hr', hen⟩ := json_outcome (m := interrupted m) hm hf .null
  have hr'' : r = some b!"null" := by
    rcases hr' with h' | ⟨q, h', h''⟩
    · exact h'
    · rw [h'', show q = some b!"null" from h']; decide
  subst hr''
  have hfmt : Format.format (m.yaml .null) (m.json .null) (m.pretty .null) (inForce m ff).format = .ok b!"null" := by
    rcases hen with ⟨x, hx, hy⟩ | ⟨hx, _⟩
    · cases hx; exact hy
    · cases hx
  rw [main_ret (m := interrupted m) (ff := ff) (nolog := nolog) (doc := none) (err := some .loadErr) rfl] at h
  simp only [Option.getD_none] at h
  change (match Format.format (m.yaml .null) (m.json .null) (m.pretty .null) (inForce m ff).format with
    | .panic => _
    | .ok s => _
    | .err _ => _ : Run).files _ = _ at h
  rw [hfmt] at h
  change (Main.output m.faults m.files (Cli.dest (inForce m ff).output) _ _).files _ = _ at h
  rw [dest_file hp] at h
  simp only [Main.output, if_true, Cli.writeFile, hr] at h
  split at h
  · injection h with h
    rw [Option.getD_none, List.drop_nil, List.append_nil] at h
    rw [← h]
    exact List.take_prefix _ _
  · cases h

/-- **C104** (no reader takes a part for a document): if the scan gives a document that JSON can carry, written in a JSON format to a file named `.json`,
then at every moment, and so after a kill at any point, the file is the old one, or cannot be read, or gives the complete document, or, if a
signal arrived, the empty document from `null`. -/
theorem C104_reader {env : Env} (hT : ∀ n t, env.numText n = some t → NumberText env.numOf t n) (hm : JsonMachine env m) (hf : JsonFormat m ff) (hp : ToFile m ff)
    {o : Obj} {err : Option Err} (h : m.scan (passed m ff nolog) = .ret (some (.obj o)) err) (hw : Json.WF (.obj o)) (hd : Portable env o)
    (hr : m.faults.removes = true) {acts : List Act} {s : State} (hs : Steps m ff nolog (start m) acts s) :
    s.files (inForce m ff).output = m.files (inForce m ff).output ∨
    ∀ fs, Sees env s.files (inForce m ff).output fs →
      (∃ e, Read.readFile fs (inForce m ff).output = .err e) ∨
      Read.readFile fs (inForce m ff).output = .ok ⟨(inForce m ff).output, .obj o⟩ ∨
      .signal ∈ acts ∧ Read.readFile fs (inForce m ff).output = .ok ⟨(inForce m ff).output, .obj []⟩ := by
  rcases C104_output hp hr hs with h1 | h1 | ⟨c, full, h1, h2, h3⟩
  · exact .inl h1
  · exact .inr fun fs hfs => .inl (sees_error hfs fun w hw => by rw [h1] at hw; cases hw)
  right
  intro fs hfs
  rcases h3 with h3 | ⟨hsig, h3⟩
  · obtain ⟨r, hr', he⟩ := json_outcome hm hf (.obj o)
    have hsome : r.isSome := by
      rcases hr' with h' | h'
      · exact ((C93_ok (fun n t e => (hT n t e).1) hw).1 r h').2 ⟨hd.numbers, hd.keys⟩
      · exact ((C93_ok (fun n t e => (hT n t e).1) hw).2 r h').2 ⟨hd.numbers, hd.keys⟩
    rcases he with ⟨w, rfl, hx⟩ | ⟨rfl, _⟩
    · have hj := Oapi.JsonText.means_mono (fun _ _ h => Oapi.JsonText.go_json h) (hr'.elim (written_means hT hw hd.texts).1 (written_means hT hw hd.texts).2)
      have hmain := main_ret (ff := ff) h
      simp only [Option.getD_some, hx, dest_file hp, output] at hmain
      have hc : c <+: w := by
        rw [hmain] at h3
        simp only [if_true, Cli.writeFile, hr] at h3
        split at h3
        · injection h3 with h3
          rw [Option.getD_none, List.drop_nil, List.append_nil] at h3
          exact h2.trans (h3 ▸ List.take_prefix _ _)
        · cases h3
      obtain ⟨t, e⟩ := hc
      have hct : c = w.take c.length := by rw [← e]; simp
      by_cases hlt : c.length < w.length
      · refine .inl (sees_error hfs fun w' hw' => ?_)
        rw [h1] at hw'
        cases hw'
        unfold unmarshalMap
        cases hx : unmarshal env.numOf c with
        | none => rfl
        | some j => rw [hct] at hx; exact absurd hx (prefix_unreadable hj hlt j)
      · have : c = w := by
          have := congrArg List.length e
          rw [List.length_append] at this
          have : t = [] := List.length_eq_zero_iff.1 (by omega)
          rw [← e, this, List.append_nil]
        subst this
        exact .inr (.inl (sees_doc hfs h1 ((C94_reads o).2 (.inl ⟨[], _, [], nofun, nofun, by simp, hj⟩))))
    · cases hsome
  · have hnull := (interrupted_null (nolog := nolog) hm hf hp hr h3)
    rcases null_prefix env.numOf (h2.trans hnull) with h4 | rfl
    · exact .inl (sees_error hfs fun w' hw' => by rw [h1] at hw'; cases hw'; exact h4)
    · exact .inr (.inr ⟨hsig, sees_doc hfs h1 rfl⟩)

end

/-! ### Recovery -/

section
open System (World Disk Chance put_same put_put output_after)
variable {F L : Type} {w : World F L} {disk : Disk} {ff : Flags} {nolog : Bool}

theorem leaves_put (h : SeparateOutput w disk ff nolog) {d : Disk} (hd : Leaves w ff nolog disk d) : ∃ x, d = put disk (outputOf w disk ff) x := by
  induction hd with
  | first => exact ⟨disk (outputOf w disk ff), (put_same _ _).symm⟩
  | @run d ch acts s _ hs ih =>
    obtain ⟨x, rfl⟩ := ih
    have hout := output_after (t := x) h
    have hset : ∀ a, setFile (put disk (outputOf w disk ff) x) (outputOf w disk ff) a = put disk (outputOf w disk ff) a := fun a => put_put _ _ _ _
    have hl : ∀ f, Left (System.machine w (put disk (outputOf w disk ff) x) ch) ff nolog f s.files → ∃ y, s.files = put disk (outputOf w disk ff) y := by
      intro f hf
      have htgt : target (System.machine w (put disk (outputOf w disk ff) x) ch) ff = .file (outputOf w disk ff) := by
        show Cli.dest (outputOf w (put disk (outputOf w disk ff) x) ff) = _
        rw [hout]
        have := h.file
        simp [Cli.dest, this.1, this.2.1, this.2.2]
      generalize s.files = g at hf
      cases hf with
      | untouched => exact ⟨x, rfl⟩
      | removed ht _ => rw [htgt] at ht; cases ht; exact ⟨_, hset _⟩
      | part ht _ _ _ _ => rw [htgt] at ht; cases ht; exact ⟨_, hset _⟩
    rcases steps_start hs with ⟨he, _⟩ | ⟨f, ⟨hf, _⟩, _⟩
    · exact ⟨x, he⟩
    · exact hl f hf

/-- **C104** (recovery): if the output is apart from what the command reads, then after any runs, killed at any points, interrupted or complete, a run that
can remove what stands there does what it does on the disk before them: the same status, the same on the standard streams and the same files. -/
theorem C104_recovery (h : SeparateOutput w disk ff nolog) (hn : NotASpec w disk ff nolog) (hi : InputOK (scanInput w disk ff nolog))
    {d : Disk} (hd : Leaves w ff nolog disk d) {ch : Chance} (ho : OrdersOK (scanInput w disk ff nolog) ch.orders) (hr : ch.faults.removes = true)
    (hx : (System.run w ff nolog disk ch).exit = .returns) :
    (System.run w ff nolog d ch).exit = .returns ∧ (System.run w ff nolog d ch).stdout = (System.run w ff nolog disk ch).stdout ∧
    (System.run w ff nolog d ch).stderr = (System.run w ff nolog disk ch).stderr ∧
    (System.run w ff nolog d ch).files = (System.run w ff nolog disk ch).files := by
  obtain ⟨x, rfl⟩ := leaves_put h hd
  obtain ⟨h1, h2, h3, h4⟩ := C100_old_output_is_ignored h hn hi ho hr x
  exact ⟨h1.trans hx, h2, h3, h4 hx⟩

/-- **C104** (other files): and no other file is touched by any such history. -/
theorem C104_history_other_files (h : SeparateOutput w disk ff nolog) {d : Disk} (hd : Leaves w ff nolog disk d) {q : Str} (hq : q ≠ outputOf w disk ff) :
    d q = disk q := by
  obtain ⟨x, rfl⟩ := leaves_put h hd
  exact if_neg hq

end

end Oapi.Props
