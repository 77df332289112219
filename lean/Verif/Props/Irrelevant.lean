import Verif.Proofs.Irrelevant
import Verif.Props.PrepareEx

/-! C119: what a scan does not look at. -/
namespace Oapi.Props
open Spec Container
open Scan (Input Orders scan Outcome renumber ordersOK_renumber prepare_irrelevant)

variable {F : Type} {inp inp' : Input F}


theorem same_input_one (hg : ∀ roots, inp.load = .ok roots → GraphOK inp.heap roots) (h : SameInput inp inp') {fuel : Nat} {out : Outcome}
    (hy : CanYield inp fuel out) : CanYield inp' fuel out := by
  obtain ⟨o, ho, hs⟩ := hy
  obtain ⟨hr, hc, hf⟩ := h
  generalize inp'.comments = c at *
  generalize inp'.files = f at *
  subst hr
  obtain ⟨g, hp⟩ := prepare_irrelevant hg ho hc hf
  refine ⟨renumber o g, ?_, ?_⟩
  · exact ordersOK_renumber (inp := inp) (inp' := { inp with comments := c, files := f }) rfl ho g
  · rw [← hs]
    unfold scan
    rw [hp]
    rfl

theorem same_symm (h : SameInput inp inp') : SameInput inp' inp := by
  obtain ⟨hr, hc, hf⟩ := h
  have hv : ∀ p, Visited inp' p → Visited inp p := by
    rw [hr]; exact fun p h => h
  refine ⟨?_, fun p hp => ?_, fun p hp => ?_⟩
  · rw [hr]
  · obtain ⟨bs, h1, h2⟩ := hc p (hv p hp)
    exact ⟨bs, h2, h1⟩
  · rcases hf p (hv p hp) with h | ⟨l, l', s, h1, h2, h3, h4⟩
    · exact .inl h.symm
    · exact .inr ⟨l', l, s, h2, h1, h4, h3⟩

/-- **C119**: two inputs that differ only in comments that are no commands, in files that are no specifications and in the packages that are not
visited have the same outcomes: the same documents, the same errors, the same crashes. -/
theorem C119_only_commands_and_specifications_matter (hg : ∀ roots, inp.load = .ok roots → GraphOK inp.heap roots) (h : SameInput inp inp')
    (fuel : Nat) (out : Outcome) : CanYield inp fuel out ↔ CanYield inp' fuel out := by
  refine ⟨same_input_one hg h, same_input_one ?_ (same_symm h)⟩
  have := h.rest
  rw [this]
  exact hg

/-- **C119** (packages that are not visited): what stands in a package that is not visited does not matter. -/
theorem C119_unvisited_packages (hg : ∀ roots, inp.load = .ok roots → GraphOK inp.heap roots) {c : Nat → List (List Str)} {f : Nat → Res (List File)}
    (h : ∀ p, Visited inp p → c p = inp.comments p ∧ f p = inp.files p) (fuel : Nat) (out : Outcome) :
    CanYield { inp with comments := c, files := f } fuel out ↔ CanYield inp fuel out := by
  have hcs : ∀ l : List Str, ∃ bs, CommandsOf l bs := by
    intro l
    induction l with
    | nil => exact ⟨[], .nil⟩
    | cons t l ih =>
      obtain ⟨bs, h⟩ := ih
      by_cases hb : ∃ b, CommandIn t b
      · obtain ⟨b, hb⟩ := hb
        exact ⟨b :: bs, .command hb h⟩
      · exact ⟨bs, .other (fun b h => hb ⟨b, h⟩) h⟩
  refine (C119_only_commands_and_specifications_matter hg ⟨rfl, fun p hp => ?_, fun p hp => ?_⟩ fuel out).symm
  · obtain ⟨bs, hb⟩ := hcs (inp.comments p).flatten
    refine ⟨bs, hb, ?_⟩
    show CommandsOf (c p).flatten bs
    rw [(h p hp).1]
    exact hb
  · left
    exact (h p hp).2.symm

theorem commandsOf_self : ∀ l : List Str, ∃ bs, CommandsOf l bs
  | [] => ⟨[], .nil⟩
  | t :: l => by
    obtain ⟨bs, h⟩ := commandsOf_self l
    by_cases hb : ∃ b, CommandIn t b
    · obtain ⟨b, hb⟩ := hb
      exact ⟨b :: bs, .command hb h⟩
    · exact ⟨bs, .other (fun b h => hb ⟨b, h⟩) h⟩

/-- A comment of any text that is no command, in a group of its own, is ignored. -/
theorem C119_comments (hg : ∀ roots, inp.load = .ok roots → GraphOK inp.heap roots) {p : Nat} {before later : List (List Str)} {t : Str}
    (h : inp.comments p = before ++ later) (ht : ∀ b, ¬ CommandIn t b) (fuel : Nat) (out : Outcome) :
    CanYield { inp with comments := fun q => if q = p then before ++ [t] :: later else inp.comments q } fuel out ↔ CanYield inp fuel out := by
  refine (C119_only_commands_and_specifications_matter (inp' := { inp with comments := fun q => if q = p then before ++ [t] :: later else inp.comments q })
    hg ⟨rfl, fun q _ => ?_, fun q _ => .inl rfl⟩ fuel out).symm
  by_cases hq : q = p
  · subst hq
    show SameCommands _ (if q = q then _ else _)
    rw [if_pos rfl, h]
    have app : ∀ {a b : List Str} {x y}, CommandsOf a x → CommandsOf b y → CommandsOf (a ++ b) (x ++ y) := by
      intro a b x y h k
      induction h with
      | nil => exact k
      | command hc _ ih => exact .command hc ih
      | other hn _ ih => exact .other hn ih
    obtain ⟨b1, h1⟩ := commandsOf_self before.flatten
    obtain ⟨b2, h2⟩ := commandsOf_self later.flatten
    refine ⟨b1 ++ b2, ?_, ?_⟩
    · rw [List.flatten_append]; exact app h1 h2
    · rw [List.flatten_append, List.flatten_cons]
      exact app h1 (.other ht h2)
  · show SameCommands _ (if q = p then _ else _)
    rw [if_neg hq]
    obtain ⟨bs, h⟩ := commandsOf_self (inp.comments q).flatten
    exact ⟨bs, h, h⟩

/-- A file that is no specification is ignored, wherever it stands. -/
theorem C119_files (hg : ∀ roots, inp.load = .ok roots → GraphOK inp.heap roots) {p : Nat} {before later : List File} {x : File}
    (h : inp.files p = .ok (before ++ later)) (hx : ¬ IsSpec x.doc) (fuel : Nat) (out : Outcome) :
    CanYield { inp with files := fun q => if q = p then .ok (before ++ x :: later) else inp.files q } fuel out ↔ CanYield inp fuel out := by
  have self : ∀ l : List File, ∃ s, SpecsOf l s := by
    intro l
    induction l with
    | nil => exact ⟨[], .nil⟩
    | cons f l ih =>
      obtain ⟨s, h⟩ := ih
      by_cases hf : IsSpec f.doc
      · exact ⟨f :: s, .spec hf h⟩
      · exact ⟨s, .other hf h⟩
  have app : ∀ {a b x y : List File}, SpecsOf a x → SpecsOf b y → SpecsOf (a ++ b) (x ++ y) := by
    intro a b x y h k
    induction h with
    | nil => exact k
    | spec hc _ ih => exact .spec hc ih
    | other hn _ ih => exact .other hn ih
  refine (C119_only_commands_and_specifications_matter hg ⟨rfl, fun q _ => ?_, fun q _ => ?_⟩ fuel out).symm
  · obtain ⟨bs, h⟩ := commandsOf_self (inp.comments q).flatten
    exact ⟨bs, h, h⟩
  · show SameSpecs _ (if q = p then _ else _)
    by_cases hq : q = p
    · subst hq
      rw [if_pos rfl, h]
      obtain ⟨s1, h1⟩ := self before
      obtain ⟨s2, h2⟩ := self later
      exact .inr ⟨_, _, s1 ++ s2, rfl, rfl, app h1 h2, app h1 (.other hx h2)⟩
    · rw [if_neg hq]; exact .inl rfl

/-! The hypotheses are met: the scan of `WholeEx` with a remark, a file that is no specification and a broken package that is not visited. -/
namespace IrrelevantEx

def remark : Str := b!"// openapi: see below"
def other : File := ⟨b!"/src/p/config.yaml", .obj [(b!"root", .str b!"./")]⟩

def noisy : Input Int := { WholeEx.inp with
  files := fun p => if p = 0 then .ok [other, ⟨b!"/src/p/openapi.yaml", WholeEx.spec b!"go://#/Node"⟩] else .err .decode
  comments := fun p => if p = 0 then [[remark, b!"//openapi:schema Node"], [b!"/* openapi */"]] else [[b!"//openapi:nonsense"]] }

theorem no_command {t : Str} (h : Cmds.commentText t = none) (b : Str) : ¬ CommandIn t b := fun hc => by
  rw [Cmds.comment_iff.2 hc] at h; cases h

theorem no_spec {d : Json} (h : existsP d b!"openapi" = false) : ¬ IsSpec d := fun hs => by
  rw [Scan.isSpec_exists hs] at h; cases h

theorem same : SameInput WholeEx.inp noisy where
  rest := rfl
  comments p hp := by
    obtain rfl := PrepareEx.visited hp
    have hc : CommandIn b!"//openapi:schema Node" b!":schema Node" := Cmds.comment_iff.1 (by decide +kernel)
    exact ⟨[b!":schema Node"], .command hc .nil, .other (no_command (by decide +kernel)) (.command hc (.other (no_command (by decide +kernel)) .nil))⟩
  files p hp := by
    obtain rfl := PrepareEx.visited hp
    have hs : IsSpec (WholeEx.spec b!"go://#/Node") := ⟨_, _, rfl, rfl⟩
    exact .inr ⟨_, _, [⟨b!"/src/p/openapi.yaml", WholeEx.spec b!"go://#/Node"⟩], rfl, rfl, .spec hs .nil,
      .other (no_spec (by decide +kernel)) (.spec hs .nil)⟩

/-- The scan of the noisy input has the outcomes of the scan of the plain one. -/
example (fuel : Nat) (out : Outcome) : CanYield WholeEx.inp fuel out ↔ CanYield noisy fuel out :=
  C119_only_commands_and_specifications_matter WholeEx.input_ok.graph same fuel out

end IrrelevantEx
end Oapi.Props
