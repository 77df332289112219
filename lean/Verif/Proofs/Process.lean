import Verif.Spec.Process

/-! Invariants of the process (C103, C104). -/
namespace Oapi.Process
open Main Spec
open Cli (Flags Dest dest Faults)

variable {L : Type} {m : Machine L} {ff : Flags} {nolog : Bool}

/-- The machine as the process meets it. -/
def seen (m : Machine L) (f : Bool) : Machine L := if f then interrupted m else m

/-- Where the output goes. -/
def target (m : Machine L) (ff : Flags) : Dest := dest (fullConfig m.wd m.load ff).1.base.output

/-- What stands at `p` when the file is opened. -/
def base (m : Machine L) (p : Str) : Option Str := if m.faults.removes then none else m.files p

/-- The result of a run. -/
abbrev Result (m : Machine L) (ff : Flags) (nolog f : Bool) (e : Exit) (s : State) : Prop := DidAs e s (main (seen m f) ff nolog)

/-- What may be left of the files. -/
inductive Left (m : Machine L) (ff : Flags) (nolog f : Bool) : (Str → Option Str) → Prop where
  | untouched : Left m ff nolog f m.files
  | removed {p : Str} : target m ff = .file p → m.faults.removes = true → Left m ff nolog f (setFile m.files p none)
  | part {p data : Str} {n : Nat} : target m ff = .file p → dataFor m ff nolog f = some data → m.faults.opens = true → n ≤ data.length → n ≤ m.faults.written →
      Left m ff nolog f (setFile m.files p (some (data.take n ++ ((base m p).getD []).drop n)))

/-- States before loading is over. -/
def Early (m : Machine L) (s : State) : Prop :=
  s.files = m.files ∧ s.stdout = [] ∧ s.stderr = [] ∧
  match s.pc with
  | .boot => s.notified = false ∧ s.cancelled = false ∧ s.watcher = .absent
  | .config => s.notified = true ∧ s.cancelled = false ∧ s.watcher = .absent
  | .loading => s.notified = true
  | .killed => True
  | _ => False

/-- States after it, `f` telling whether loading failed because of a signal. -/
def Late (m : Machine L) (ff : Flags) (nolog f : Bool) (s : State) : Prop :=
  Left m ff nolog f s.files ∧ (over s.pc = false → s.pc ≠ .stopped → s.notified = true) ∧
  match s.pc with
  | .scanning f' => f' = f ∧ s.files = m.files ∧ s.stdout = [] ∧ s.stderr = []
  | .remove p data => target m ff = .file p ∧ dataFor m ff nolog f = some data ∧ s.files = m.files ∧ s.stdout = [] ∧ s.stderr = []
  | .opening p data => target m ff = .file p ∧ dataFor m ff nolog f = some data ∧ s.files = setFile m.files p (base m p) ∧ s.stdout = [] ∧ s.stderr = []
  | .copying p data n => target m ff = .file p ∧ dataFor m ff nolog f = some data ∧ m.faults.opens = true ∧ n ≤ data.length ∧ n ≤ m.faults.written ∧
      s.files = setFile m.files p (some (data.take n ++ ((base m p).getD []).drop n)) ∧ s.stdout = [] ∧ s.stderr = []
  | .leaving => Result m ff nolog f .returns s
  | .stopped => Result m ff nolog f .returns s
  | .ended e => Result m ff nolog f e s
  | .killed => True
  | _ => False

theorem setFile_self (g : Str → Option Str) (p : Str) : setFile g p (g p) = g := by
  funext q
  unfold setFile
  split
  · rename_i h; rw [h]
  · rfl

theorem setFile_setFile (g : Str → Option Str) (p : Str) (a b : Option Str) : setFile (setFile g p a) p b = setFile g p b := by
  funext q
  unfold setFile
  split <;> rfl

theorem setFile_at (g : Str → Option Str) (p : Str) (a : Option Str) : setFile g p a p = a := by simp [setFile]

theorem outcome_seen (f : Bool) : outcome m ff nolog f =
    (seen m f).scan (build (seen m f).void (cmdOptions (if nolog then (seen m f).void else (seen m f).logger) (fullConfig (seen m f).wd (seen m f).load ff).1)) := by
  cases f <;> rfl

/-- A whole run, by its data. -/
theorem main_data (f : Bool) :
    match dataFor m ff nolog f with
    | none => ∃ l, main (seen m f) ff nolog = { exit := .panics, logs := l, files := m.files }
    | some data => ∃ l, main (seen m f) ff nolog = output m.faults m.files (target m ff) data l := by
  have e1 : (seen m f).wd = m.wd := by cases f <;> rfl
  have e2 : (seen m f).load = m.load := by cases f <;> rfl
  have e3 : (seen m f).yaml = m.yaml := by cases f <;> rfl
  have e4 : (seen m f).json = m.json := by cases f <;> rfl
  have e5 : (seen m f).pretty = m.pretty := by cases f <;> rfl
  have e6 : (seen m f).files = m.files := by cases f <;> rfl
  have e7 : (seen m f).faults = m.faults := by cases f <;> rfl
  have ho := outcome_seen (m := m) (ff := ff) (nolog := nolog) f
  simp only [e1, e2] at ho
  unfold dataFor main
  simp only [← ho, e1, e2, e3, e4, e5, e6, e7]
  cases outcome m ff nolog f with
  | panic => exact ⟨_, rfl⟩
  | ret doc err =>
    simp only
    cases hf : Format.format (m.yaml (doc.getD .null)) (m.json (doc.getD .null)) (m.pretty (doc.getD .null)) (fullConfig m.wd m.load ff).1.base.format with
    | panic => exact ⟨_, rfl⟩
    | ok s => exact ⟨_, rfl⟩
    | err e => exact ⟨_, rfl⟩

theorem early_start : Early m (start m) := ⟨rfl, rfl, rfl, rfl, rfl, rfl⟩

/-- What the last byte leaves. -/
theorem written_all {p data : Str} {n : Nat} (h1 : n ≤ data.length) (h2 : n ≤ m.faults.written) (h3 : data[n]? = none ∨ ¬ n < m.faults.written)
    (ho : m.faults.opens = true) :
    some (data.take n ++ ((base m p).getD []).drop n) = Cli.writeFile m.faults data (m.files p) := by
  have h4 : data.take m.faults.written = data.take n := by
    rcases h3 with h3 | h3
    · have : n = data.length := by rw [List.getElem?_eq_none_iff] at h3; omega
      rw [this, List.take_length, List.take_of_length_le (by omega)]
    · have : n = m.faults.written := by omega
      rw [this]
  have h5 : (data.take n).length = n := by rw [List.length_take]; omega
  unfold Cli.writeFile
  simp only [ho, if_true, h4, h5]
  rfl

theorem overwrite_part {data b : Str} {n : Nat} {c : UInt8} (h : data[n]? = some c) :
    overwrite (data.take n ++ b.drop n) n c = data.take (n + 1) ++ b.drop (n + 1) := by
  have hn : n < data.length := by
    apply Classical.byContradiction
    intro hn
    rw [List.getElem?_eq_none_iff.2 (by omega)] at h
    cases h
  have h5 : (data.take n).length = n := by rw [List.length_take]; omega
  unfold overwrite
  rw [List.take_append_of_le_length (by omega), List.take_of_length_le (by omega), List.drop_append, h5, List.take_add_one, h]
  have : List.drop (n + 1) (data.take n) = [] := List.drop_eq_nil_of_le (by omega)
  rw [this, List.drop_drop, show n + (n + 1 - n) = n + 1 by omega]
  simp

theorem late_step {f fail : Bool} {s s' : State} (h : Late m ff nolog f s) (hs : mainStep m ff nolog fail s = some s') : Late m ff nolog f s' := by
  obtain ⟨hl, hn, hp⟩ := h
  have hm := main_data (m := m) (ff := ff) (nolog := nolog) f
  unfold mainStep at hs
  cases hpc : s.pc with
  | boot => rw [hpc] at hp; exact hp.elim
  | config => rw [hpc] at hp; exact hp.elim
  | loading => rw [hpc] at hp; exact hp.elim
  | killed => rw [hpc] at hs; cases hs
  | ended e => rw [hpc] at hs; cases hs
  | leaving =>
    rw [hpc] at hs hp
    cases hs
    exact ⟨hl, fun _ h => absurd rfl h, hp⟩
  | stopped =>
    rw [hpc] at hs hp
    cases hs
    exact ⟨hl, fun h => by simp [over] at h, hp⟩
  | scanning f' =>
    rw [hpc] at hs hp hn
    obtain ⟨rfl, h1, h2, h3⟩ := hp
    simp only at hs
    cases hd : dataFor m ff nolog f' with
    | none =>
      rw [hd] at hs hm
      cases hs
      obtain ⟨l, hm⟩ := hm
      refine ⟨hl, fun h => by simp [over] at h, ?_⟩
      show Result m ff nolog f' .panics _
      unfold Result DidAs
      rw [hm]
      exact ⟨rfl, h2, h3, h1⟩
    | some data =>
      rw [hd] at hs hm
      obtain ⟨l, hm⟩ := hm
      simp only at hs
      cases ht : target m ff with
      | stdout =>
        unfold target at ht
        rw [ht] at hs
        cases hs
        refine ⟨hl, fun _ _ => hn rfl (by simp), ?_⟩
        show Result m ff nolog f' .returns _
        unfold Result DidAs
        rw [hm]
        unfold target
        rw [ht]
        exact ⟨rfl, rfl, h3, h1⟩
      | stderr =>
        unfold target at ht
        rw [ht] at hs
        cases hs
        refine ⟨hl, fun _ _ => hn rfl (by simp), ?_⟩
        show Result m ff nolog f' .returns _
        unfold Result DidAs
        rw [hm]
        unfold target
        rw [ht]
        exact ⟨rfl, h2, rfl, h1⟩
      | file p =>
        have ht' := ht
        unfold target at ht
        rw [ht] at hs
        cases hs
        exact ⟨hl, fun _ _ => hn rfl (by simp), ht', hd, h1, h2, h3⟩
  | remove p data =>
    rw [hpc] at hs hp hn
    obtain ⟨ht, hd, h1, h2, h3⟩ := hp
    cases hs
    have e : (if m.faults.removes then setFile s.files p none else s.files) = setFile m.files p (base m p) := by
      unfold base
      rw [h1]
      split
      · rfl
      · rw [setFile_self]
    refine ⟨?_, fun _ _ => hn rfl (by simp), ht, hd, e, h2, h3⟩
    show Left m ff nolog f (if m.faults.removes then setFile s.files p none else s.files)
    rw [h1]
    split
    · rename_i hr; exact .removed ht hr
    · exact .untouched
  | opening p data =>
    rw [hpc] at hs hp hn
    obtain ⟨ht, hd, h1, h2, h3⟩ := hp
    simp only at hs
    rw [hd] at hm
    obtain ⟨l, hm⟩ := hm
    split at hs
    · rename_i ho
      cases hs
      have e : setFile s.files p (some ((s.files p).getD [])) = setFile m.files p (some (data.take 0 ++ ((base m p).getD []).drop 0)) := by
        rw [h1, setFile_setFile, setFile_at]
        rfl
      refine ⟨?_, fun _ _ => hn rfl (by simp), ht, hd, ho, Nat.zero_le _, Nat.zero_le _, e, h2, h3⟩
      show Left m ff nolog f (setFile s.files p (some ((s.files p).getD [])))
      rw [e]
      exact .part ht hd ho (Nat.zero_le _) (Nat.zero_le _)
    · rename_i ho
      cases hs
      refine ⟨hl, fun _ _ => hn rfl (by simp), ?_⟩
      show Result m ff nolog f .returns _
      unfold Result DidAs
      rw [hm, ht]
      refine ⟨rfl, h2, h3, h1.trans ?_⟩
      unfold output setFile base Cli.writeFile
      simp only [ho]
      rfl
  | copying p data n =>
    rw [hpc] at hs hp hn
    obtain ⟨ht, hd, ho, hlen, hwr, h1, h2, h3⟩ := hp
    simp only at hs
    rw [hd] at hm
    obtain ⟨l, hm⟩ := hm
    have fin : (data[n]? = none ∨ ¬ n < m.faults.written) → Late m ff nolog f { s with pc := .leaving } := by
      intro hx
      refine ⟨hl, fun _ _ => hn rfl (by simp), ?_⟩
      show Result m ff nolog f .returns _
      unfold Result DidAs
      rw [hm, ht]
      refine ⟨rfl, h2, h3, h1.trans ?_⟩
      rw [written_all hlen hwr hx ho]
      rfl
    split at hs
    · rename_i hx
      cases hs
      exact fin (.inl hx)
    · rename_i b hx
      split at hs
      · rename_i hw
        cases hs
        have e : setFile s.files p (some (overwrite ((s.files p).getD []) n b)) =
            setFile m.files p (some (data.take (n + 1) ++ ((base m p).getD []).drop (n + 1))) := by
          rw [h1, setFile_setFile, setFile_at, Option.getD_some, overwrite_part hx]
        have hn' : n + 1 ≤ data.length := by
          apply Classical.byContradiction
          intro hc
          rw [List.getElem?_eq_none_iff.2 (by omega)] at hx
          cases hx
        refine ⟨?_, fun _ _ => hn rfl (by simp), ht, hd, ho, hn', hw, e, h2, h3⟩
        show Left m ff nolog f (setFile s.files p (some (overwrite ((s.files p).getD []) n b)))
        rw [e]
        exact .part ht hd ho hn' hw
      · rename_i hw
        cases hs
        exact fin (.inr hw)

/-- The watcher, signals and kills do not matter after loading. -/
theorem late_steps {f : Bool} {a : Act} {s s' : State} (h : Late m ff nolog f s) (hs : Step m ff nolog a s s') : Late m ff nolog f s' := by
  cases hs with
  | main fail hs => exact late_step h hs
  | watcher ho hw hp => exact h
  | caught ho hn => exact h
  | uncaught ho hn => exact ⟨h.1, fun h => by simp [over] at h, trivial⟩
  | kill ho => exact ⟨h.1, fun h => by simp [over] at h, trivial⟩

theorem early_step {a : Act} {s s' : State} (h : Early m s) (hs : Step m ff nolog a s s') :
    Early m s' ∨ ∃ f, Late m ff nolog f s' ∧ (f = true → s.pc = .loading ∧ s.cancelled = true) := by
  obtain ⟨h1, h2, h3, hp⟩ := h
  cases hs with
  | main fail hs =>
    unfold mainStep at hs
    cases hpc : s.pc with
    | boot =>
      rw [hpc] at hs hp
      cases hs
      exact .inl ⟨h1, h2, h3, rfl, hp.2.1, hp.2.2⟩
    | config =>
      rw [hpc] at hs hp
      cases hs
      exact .inl ⟨h1, h2, h3, hp.1⟩
    | loading =>
      rw [hpc] at hs hp
      cases hs
      refine .inr ⟨s.cancelled && fail, ⟨h1 ▸ .untouched, fun _ _ => hp, rfl, h1, h2, h3⟩, fun h => ?_⟩
      rw [Bool.and_eq_true] at h
      exact ⟨rfl, h.1⟩
    | killed => rw [hpc] at hs; cases hs
    | _ => rw [hpc] at hp; exact hp.elim
  | watcher ho hw hp' =>
    refine .inl ⟨h1, h2, h3, ?_⟩
    show match s.pc with
      | .boot => s.notified = false ∧ true = false ∧ Watcher.done = .absent
      | .config => s.notified = true ∧ true = false ∧ Watcher.done = .absent
      | .loading => s.notified = true
      | .killed => True
      | _ => False
    cases hpc : s.pc with
    | boot => rw [hpc] at hp; rw [hp.2.2] at hw; cases hw
    | config => rw [hpc] at hp; rw [hp.2.2] at hw; cases hw
    | loading => rw [hpc] at hp; exact hp
    | killed => trivial
    | _ => rw [hpc] at hp; exact hp.elim
  | caught ho hn => exact .inl ⟨h1, h2, h3, hp⟩
  | uncaught ho hn => exact .inl ⟨h1, h2, h3, trivial⟩
  | kill ho => exact .inl ⟨h1, h2, h3, trivial⟩

theorem steps_late {f : Bool} {acts : List Act} {s s' : State} (h : Late m ff nolog f s) (hs : Steps m ff nolog s acts s') : Late m ff nolog f s' := by
  induction hs with
  | refl => exact h
  | step _ h2 ih => exact late_steps ih h2

/-- Every execution. -/
theorem steps_start {acts : List Act} {s : State} (hs : Steps m ff nolog (start m) acts s) :
    Early m s ∨ ∃ f, Late m ff nolog f s ∧ (f = true → ∃ pre s₁ post, Steps m ff nolog (start m) pre s₁ ∧ s₁.pc = .loading ∧ s₁.cancelled = true ∧ acts = pre ++ post) := by
  induction hs with
  | refl => exact .inl early_start
  | @step s' s'' acts a h1 h2 ih =>
    rcases ih with h | ⟨f, h, hf⟩
    · rcases early_step h h2 with h' | ⟨f, h', hf⟩
      · exact .inl h'
      · exact .inr ⟨f, h', fun hx => ⟨acts, s', [a], h1, (hf hx).1, (hf hx).2, rfl⟩⟩
    · refine .inr ⟨f, late_steps h h2, fun hx => ?_⟩
      obtain ⟨pre, s₁, post, g1, g2, g3, g4⟩ := hf hx
      exact ⟨pre, s₁, post ++ [a], g1, g2, g3, by rw [g4, List.append_assoc]⟩

/-- The context is cancelled only after a signal. -/
theorem cancelled_signal {acts : List Act} {s : State} (hs : Steps m ff nolog (start m) acts s) :
    (s.cancelled = true ∨ s.pending = true → .signal ∈ acts) := by
  induction hs with
  | refl => intro h; simp [start] at h
  | @step s' s'' acts a h1 h2 ih =>
    intro h
    cases h2 with
    | main fail hm =>
      have hk : s''.cancelled = s'.cancelled ∧ s''.pending = s'.pending := by
        unfold mainStep at hm
        repeat' split at hm
        all_goals first | (cases hm; done) | (cases hm; exact ⟨rfl, rfl⟩)
      rw [hk.1, hk.2] at h
      exact List.mem_append_left _ (ih h)
    | watcher _ _ hp => exact List.mem_append_left _ (ih (.inr hp))
    | caught _ _ => simp
    | uncaught _ _ => simp
    | kill _ => exact List.mem_append_left _ (ih h)

/-- Killed by a signal only before `signal.Notify` or after `signal.Stop`. -/
theorem not_killed {acts : List Act} {s : State} (hs : Steps m ff nolog (start m) acts s) (hk : .kill ∉ acts) (h : s.pc = .killed) :
    acts.head? = some .signal ∨ ∃ f, Result m ff nolog f .returns s ∧ (f = true → .signal ∈ acts) := by
  have key : ∀ {acts : List Act} {s : State}, Steps m ff nolog (start m) acts s → .kill ∉ acts →
      (acts = [] ∧ s = start m) ∨ (acts.head? = some .signal ∨ s.pc = .killed ∧ ∃ f, Result m ff nolog f .returns s ∧ (f = true → .signal ∈ acts)) ∨
      (s.pc ≠ .killed ∧ (over s.pc = false → s.pc ≠ .stopped → s.notified = true)) := by
    intro acts s hs
    induction hs with
    | refl => exact fun _ => .inl ⟨rfl, rfl⟩
    | @step s' s'' acts a h1 h2 ih =>
      intro hk
      have hk' : .kill ∉ acts := fun h => hk (List.mem_append_left _ h)
      have hd : ∀ x, acts.head? = some x → (acts ++ [a]).head? = some x := by
        intro x hx
        cases acts with
        | nil => cases hx
        | cons c t => exact hx
      rcases ih hk' with ⟨rfl, rfl⟩ | (h | ⟨h, _⟩) | ⟨h, hn⟩
      · cases h2 with
        | main fail hm => cases hm; exact .inr (.inr ⟨by simp, fun _ _ => rfl⟩)
        | watcher _ hw _ => cases hw
        | caught _ hn => cases hn
        | uncaught _ _ => exact .inr (.inl (.inl rfl))
        | kill _ => simp at hk
      · exact .inr (.inl (.inl (hd _ h)))
      · exfalso
        cases h2 with
        | main fail hm => unfold mainStep at hm; rw [h] at hm; cases hm
        | watcher ho _ _ => rw [h] at ho; cases ho
        | caught ho _ => rw [h] at ho; cases ho
        | uncaught ho _ => rw [h] at ho; cases ho
        | kill ho => rw [h] at ho; cases ho
      · right
        cases h2 with
        | main fail hm =>
          right
          unfold mainStep at hm
          cases hpc : s'.pc <;> rw [hpc] at hm hn
          all_goals simp only at hm
          all_goals first
            | (cases hm; exact ⟨by simp, fun _ _ => rfl⟩)
            | (cases hm; exact ⟨by simp, fun _ _ => hn rfl Pc.noConfusion⟩)
            | (cases hm; exact ⟨by simp, fun _ h => absurd rfl h⟩)
            | (cases hm; exact ⟨by simp, fun h => Bool.noConfusion h⟩)
            | (cases hm; done)
            | (repeat' split at hm
               all_goals first
                 | (cases hm; exact ⟨by simp, fun _ _ => hn rfl Pc.noConfusion⟩)
                 | (cases hm; exact ⟨by simp, fun h => Bool.noConfusion h⟩))
        | watcher ho _ _ => exact .inr ⟨h, hn⟩
        | caught ho _ => exact .inr ⟨h, hn⟩
        | uncaught ho hx =>
          left
          right
          refine ⟨rfl, ?_⟩
          by_cases hst : s'.pc = .stopped
          · rcases steps_start h1 with ⟨_, _, _, hp⟩ | ⟨f, ⟨_, _, hp⟩, hf⟩
            · rw [hst] at hp; exact hp.elim
            · rw [hst] at hp
              exact ⟨f, hp, fun _ => by simp⟩
          · rw [hn ho hst] at hx; cases hx
        | kill _ => simp at hk
  rcases key hs hk with ⟨rfl, rfl⟩ | (h' | ⟨_, h'⟩) | ⟨h', _⟩
  · cases h
  · exact .inl h'
  · exact .inr h'
  · exact absurd h h'

end Oapi.Process
