import Verif.Proofs.Prep3
import Verif.Proofs.CmdText

/-! The stages before the resolution, in terms of the text of comments (C77). -/
namespace Oapi.Scan
open Spec Container Types

variable {F : Type} {inp : Input F} {o : Orders}

/-- Every package's comments can be scanned. -/
def CmdsRead (inp : Input F) : Prop := ∀ p, Visited inp p → ∃ cs, Cmds.scan (pathOf inp.heap p) (inp.comments p) = .ok cs

theorem cmdsRead_iff : CmdsRead inp ↔ ∀ p t body, Visited inp p → t ∈ (inp.comments p).flatten → CommandIn t body →
    (∃ name ptr, ExportText (pathOf inp.heap p) body name ptr) ∨ RootText body := by
  constructor
  · intro h p t body hv; exact Cmds.scan_ok_iff.1 (h p hv) t body
  · intro h p hv; exact Cmds.scan_ok_iff.2 fun t body => h p t body hv

/-- Commands by their number are commands by the number of their comment. -/
theorem commandNo_at (hc : CmdsRead inp) {p j : Nat} {name : Str} {ptr : Pointer} :
    CommandNo inp p j name ptr ↔ ∃ i, CommandAt inp p i name ptr ∧ Cmds.place Cmds.commentText (inp.comments p).flatten i = j := by
  constructor
  · rintro ⟨hv, cs, args, h1, h2⟩
    obtain ⟨i, t, body, e1, e2, e3, e4⟩ := (Cmds.scan_commands h1).1 ⟨args, h2⟩
    exact ⟨i, ⟨hv, t, body, e1, e2, e3⟩, e4⟩
  · rintro ⟨i, ⟨hv, t, body, e1, e2, e3⟩, e4⟩
    obtain ⟨cs, h1⟩ := hc p hv
    obtain ⟨args, h2⟩ := (Cmds.scan_commands h1).2 ⟨i, t, body, e1, e2, e3, e4⟩
    exact ⟨hv, cs, args, h1, h2⟩

theorem command_iff (hc : CmdsRead inp) {p : Nat} {name : Str} {ptr : Pointer} :
    (∃ j, CommandNo inp p j name ptr) ↔ ∃ i, CommandAt inp p i name ptr := by
  constructor
  · rintro ⟨j, h⟩; obtain ⟨i, h, _⟩ := (commandNo_at hc).1 h; exact ⟨i, h⟩
  · rintro ⟨i, h⟩; exact ⟨_, (commandNo_at hc).2 ⟨i, h, rfl⟩⟩

theorem asked_iff (hc : CmdsRead inp) {ptr : Pointer} : AskedNo inp ptr ↔ AskedFor inp ptr := by
  unfold AskedNo AskedFor
  refine or_congr ?_ Iff.rfl
  constructor
  · rintro ⟨p, j, name, h⟩; obtain ⟨i, h⟩ := (command_iff hc).1 ⟨j, h⟩; exact ⟨p, i, name, h⟩
  · rintro ⟨p, j, name, h⟩; obtain ⟨i, h⟩ := (command_iff hc).2 ⟨j, h⟩; exact ⟨p, i, name, h⟩

theorem object_iff (hc : CmdsRead inp) {pkg name : Str} {t : GoType} : ObjectNo inp pkg name t ↔ ObjectAskedFor inp pkg name t := by
  unfold ObjectNo ObjectAskedFor
  simp only [asked_iff hc]

theorem once_iff (hc : CmdsRead inp) :
    (∀ p i n ptr p' i' n' ptr', CommandNo inp p i n ptr → CommandNo inp p' i' n' ptr' → ptr.toStr = ptr'.toStr → p = p' ∧ i = i') ↔
    ∀ p i n ptr p' i' n' ptr', CommandAt inp p i n ptr → CommandAt inp p' i' n' ptr' → ptr.toStr = ptr'.toStr → p = p' ∧ i = i' := by
  constructor
  · intro h p i n ptr p' i' n' ptr' h1 h2 e
    obtain ⟨rfl, e'⟩ := h _ _ _ _ _ _ _ _ ((commandNo_at hc).2 ⟨i, h1, rfl⟩) ((commandNo_at hc).2 ⟨i', h2, rfl⟩) e
    obtain ⟨_, t, b, a1, a2, _⟩ := h1
    obtain ⟨_, t', b', b1, b2, _⟩ := h2
    exact ⟨rfl, Cmds.place_inj a1 (Cmds.comment_iff.2 a2) b1 (Cmds.comment_iff.2 b2) e'⟩
  · intro h p i n ptr p' i' n' ptr' h1 h2 e
    obtain ⟨j, g1, rfl⟩ := (commandNo_at hc).1 h1
    obtain ⟨j', g2, rfl⟩ := (commandNo_at hc).1 h2
    obtain ⟨rfl, rfl⟩ := h _ _ _ _ _ _ _ _ g1 g2 e
    exact ⟨rfl, rfl⟩

theorem preparable_iff : PreparableNo inp ↔ Preparable inp := by
  constructor
  · rintro ⟨h1, h2, hc, h3, h4, h5, h6, h7, h8⟩
    have hc : CmdsRead inp := hc
    exact ⟨h1, h2, cmdsRead_iff.1 hc, (once_iff hc).1 h3, h4, h5, h6, fun pkg name t h => h7 pkg name t ((object_iff hc).2 h), h8⟩
  · rintro ⟨h1, h2, hc, h3, h4, h5, h6, h7, h8⟩
    have hc : CmdsRead inp := cmdsRead_iff.2 hc
    exact ⟨h1, h2, hc, (once_iff hc).2 h3, h4, h5, h6, fun pkg name t h => h7 pkg name t ((object_iff hc).1 h), h8⟩

/-- What a prepared scan holds. -/
structure Prepares (inp : Input F) (pre : Prepared) : Prop where
  exports : ∀ x : Resolver.Export, x ∈ pre.exports ↔ x.kind = .schema ∧ ∃ p i, CommandAt inp p i x.name x.ptr
  doc : ∃ c, Merged inp c ∧ OAPI.mergeWithRoot inp.root c = .ok pre.doc
  types : ∃ runs, scanPkgs inp.prog runs [] = .ok pre.points ∧ ∀ pkg name t, Requested inp.prog runs pkg name t ↔ ObjectAskedFor inp pkg name t

theorem prepare_iff (hi : InputOK inp) (ho : OrdersOK inp o) (hd : DistinctPaths inp) :
    (∃ pre, prepare inp o = .ok pre) ↔ Preparable inp := (prepareNo_iff hi ho hd).trans preparable_iff

theorem prepare_gives (hi : InputOK inp) (ho : OrdersOK inp o) (hd : DistinctPaths inp) {pre : Prepared} (h : prepare inp o = .ok pre) :
    Prepares inp pre := by
  have hc : CmdsRead inp := ((prepareNo_iff hi ho hd).1 ⟨pre, h⟩).commands
  obtain ⟨h1, h2, runs, h3, h4⟩ := prepareNo_gives hi ho hd h
  refine ⟨fun x => ?_, h2, runs, h3, fun pkg name t => (h4 pkg name t).trans (object_iff hc)⟩
  rw [h1 x]
  exact and_congr_right fun _ => exists_congr fun p => command_iff hc

end Oapi.Scan
