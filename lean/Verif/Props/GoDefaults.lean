import Verif.Proofs.GoHeap10
import Verif.Props.GoHeap

/-! C108: `SetPathsDefaults` in memory, where operations are containers that look into the document. -/
namespace Oapi.Props
open Oapi.GoHeap Spec

/-- A call in memory ends as the computation on documents does: the container holds the document, or both fail alike. -/
def Agrees (c : Nat) : Res GoHeap.Heap → Res Json → Prop
  | .ok h, .ok j => content h c = some j
  | .err e, .err e' => e = e'
  | .panic, .panic => True
  | _, _ => False

section
variable {room : Nat} {l : List (Cmd × Res (Option Nat))} {known : List Nat} {h : GoHeap.Heap} {c : Nat} {mt : Str → Str → Str → Res Bool} {defops : List (Str × Json)}

/-- A run of the loop, on both sides. -/
theorem run_agrees {h' : GoHeap.Heap} {cnt : Json} {ops' : List OAPI.Op} {hops' : List HOp} {defops' : List (Str × Json)} {F : List Nat} {D : Nat → List Nat}
    {K : List (Nat × Json × List Nat)} (I : Inv h' c ⟨cnt, ops'⟩ hops' F D K) (hq : ∀ q ∈ defops', Json.NodupKeys q.2) :
    Agrees c (GoHeap.applyDefaults room c mt hops' defops' h') (OAPI.runDefaults mt cnt ops' defops') ∧
      ∀ h2, GoHeap.applyDefaults room c mt hops' defops' h' = .ok h2 → ∀ q ∈ K, content h2 q.1 = some q.2.1 := by
  have hr := inv_applyDefaults room mt defops' hq I
  unfold OAPI.runDefaults
  cases hg : OAPI.applyDefaults mt defops' ⟨cnt, ops'⟩ with
  | panic => rw [hg] at hr; simp only at hr; rw [hr]; exact ⟨trivial, fun h2 e => by cases e⟩
  | err e => rw [hg] at hr; simp only at hr; rw [hr]; exact ⟨rfl, fun h2 e => by cases e⟩
  | ok st =>
    rw [hg] at hr
    obtain ⟨h2, F', D', e, I'⟩ := hr
    rw [e]
    refine ⟨doc_rep I'.rep, fun h3 e3 q hq => ?_⟩
    cases e3
    exact doc_rep (I'.keep q hq).2.1

/-- What is known of memory before the call. -/
theorem known_rep (hc : Calls room l known h) (hk : c ∈ known) : ∃ (d : Docs) (F : Nat → List Nat) (K : List (Nat × Json × List Nat)) (j : Json),
    content h c = some j ∧ c < h.objs.length ∧ Rep h.mem j (data h (some c)) (F c) ∧
    (∀ q ∈ K, q.1 < h.objs.length ∧ q.1 ≠ c ∧ Rep h.mem q.2.1 (data h (some q.1)) q.2.2 ∧ ∀ a ∈ q.2.2, a ∉ F c) ∧
    ∀ x ∈ known, x ≠ c → ∃ q ∈ K, q.1 = x ∧ content h x = some q.2.1 := by
  obtain ⟨d, _, w, h3⟩ := calls_hist hc
  have hs : ∀ c ∈ known, ∃ j, d c = some j := fun c hk => Option.isSome_iff_exists.1 (h3 c hk)
  obtain ⟨j, hj⟩ := hs c hk
  obtain ⟨F, h1, h2⟩ := id w
  refine ⟨d, F, (known.filter (· ≠ c)).map (fun x => (x, (d x).getD .null, F x)), j, w.doc hj, (h1 c j hj).1, (h1 c j hj).2, ?_, ?_⟩
  · intro q hq
    obtain ⟨x, hx, rfl⟩ := List.mem_map.1 hq
    obtain ⟨hx, hne⟩ := List.mem_filter.1 hx
    have hne : x ≠ c := by simpa using hne
    obtain ⟨j', hj'⟩ := hs x hx
    simp only [hj', Option.getD_some]
    exact ⟨(h1 x j' hj').1, hne, (h1 x j' hj').2, h2 x c j' j hj' hj hne⟩
  · intro x hx hne
    obtain ⟨j', hj'⟩ := hs x hx
    exact ⟨_, List.mem_map.2 ⟨x, List.mem_filter.2 ⟨hx, by simpa using hne⟩, rfl⟩, rfl, by rw [content, w.doc hj', hj']; rfl⟩

/-- **C108**: in memory `SetPathsDefaults` ends as it does on documents (C23 to C25), for some order of the operations and the defaults; it changes no
other container. -/
theorem C108_defaults_in_memory (hc : Calls room l known h) (hk : c ∈ known) (hq : ∀ q ∈ defops, Json.NodupKeys q.2) {out : Res GoHeap.Heap}
    (hs : GoHeap.SetPathsDefaults room c mt defops h out) :
    ∃ j r, content h c = some j ∧ OAPI.SetPathsDefaults mt j defops r ∧ Agrees c out r ∧
      ∀ h', out = .ok h' → ∀ x ∈ known, x ≠ c → content h' x = content h x := by
  obtain ⟨d, F, K, j, e, hl, hr, hK, hx⟩ := known_rep hc hk
  have hp := paths_inv hl hr K hK
  unfold GoHeap.SetPathsDefaults at hs
  unfold OAPI.SetPathsDefaults
  cases hg : OAPI.paths j with
  | panic => rw [hg] at hp; exact hp.elim
  | err e' =>
    rw [hg] at hp
    simp only at hp
    rw [hp] at hs
    refine ⟨j, .err e', e, by rw [hg], by rw [hs]; rfl, fun h' e2 => by rw [hs] at e2; cases e2⟩
  | ok ops =>
    rw [hg] at hp
    obtain ⟨h', hops, e1, R, r1, r2⟩ := hp
    rw [e1] at hs
    obtain ⟨hops', defops', p1, p2, rfl⟩ := hs
    obtain ⟨ops', p3, p4⟩ := pairwise2_perm p1.symm r1
    have hrun := run_agrees (room := room) (mt := mt) (defops' := defops') (r2 ops' hops' p3 p1 p4) fun q hq' => hq q (p2.mem_iff.1 hq')
    refine ⟨j, _, e, by rw [hg]; exact ⟨ops', defops', p3, p2, rfl⟩, hrun.1, fun h2 e2 x hxk hne => ?_⟩
    obtain ⟨q, q1, q2, q3⟩ := hx x hxk hne
    rw [q3, ← q2]
    exact hrun.2 h2 e2 q q1

/-- **C108** (converse): every outcome on documents is one in memory. -/
theorem C108_defaults_all (hc : Calls room l known h) (hk : c ∈ known) (hq : ∀ q ∈ defops, Json.NodupKeys q.2) {j : Json} (hj : content h c = some j) {r : Res Json}
    (hs : OAPI.SetPathsDefaults mt j defops r) : ∃ out, GoHeap.SetPathsDefaults room c mt defops h out ∧ Agrees c out r := by
  obtain ⟨d, F, K, j', e, hl, hr, hK, hx⟩ := known_rep hc hk
  rw [hj] at e
  cases e
  have hp := paths_inv hl hr K hK
  unfold GoHeap.SetPathsDefaults
  unfold OAPI.SetPathsDefaults at hs
  cases hg : OAPI.paths j with
  | panic => rw [hg] at hp; exact hp.elim
  | err e' =>
    rw [hg] at hp hs
    simp only at hp hs
    rw [hp]
    exact ⟨_, rfl, by rw [hs]; rfl⟩
  | ok ops =>
    rw [hg] at hp hs
    obtain ⟨h', hops, e1, R, r1, r2⟩ := hp
    obtain ⟨ops', defops', p1, p2, rfl⟩ := hs
    obtain ⟨hops', p3, p4⟩ := pairwise2_perm p1.symm (pairwise2_flip r1)
    rw [e1]
    exact ⟨_, ⟨hops', defops', p3, p2, rfl⟩, (run_agrees (r2 ops' hops' p1 p3 (pairwise2_flip p4)) fun q hq' => hq q (p2.mem_iff.1 hq')).1⟩

end

/-! Two operations and two defaults; one default changes an operation that was already replaced by a copy. -/

/-- The document. -/
def twoOps : Json := .obj [(b!"paths", .obj [(b!"/a", .obj [(b!"get", .obj []), (b!"put", .obj [(b!"x", .num 1)])])])]

/-- The patterns match every operation. -/
def everyOp : Str → Str → Str → Res Bool := fun _ _ _ => .ok true

/-- The defaults. -/
def twoDefaults : List (Str × Json) := [(b!"1", .obj [(b!"x", .num 7)]), (b!"2", .obj [(b!"y", .obj [(b!"z", .num 8)])])]

theorem twoOps_calls : ∃ l, Calls 1 l [0] (runAll 1 [.make twoOps]) :=
  ⟨_, Calls.call (.make twoOps) .start (wfB_sound _ (by decide +kernel))⟩

/-- The run with the operations and the defaults in the order of the document. -/
def twoRun : Res GoHeap.Heap :=
  match GoHeap.paths 0 (runAll 1 [.make twoOps]) with
  | .ok (h, ops) => GoHeap.applyDefaults 1 0 everyOp ops twoDefaults h
  | .err e => .err e
  | .panic => .panic

theorem twoRun_possible : GoHeap.SetPathsDefaults 1 0 everyOp twoDefaults (runAll 1 [.make twoOps]) twoRun := by
  unfold GoHeap.SetPathsDefaults twoRun
  split
  · rename_i h ops e
    rw [e]
    exact ⟨ops, _, .refl _, .refl _, rfl⟩
  · rename_i e h; rw [h]
  · rename_i h; rw [h]

/-- The document a run ends with. -/
def finalDoc (c : Nat) : Res GoHeap.Heap → Option Json
  | .ok h => content h c
  | _ => none

theorem finalDoc_agrees {c : Nat} {out : Res GoHeap.Heap} {j : Json} (h : finalDoc c out = some j) : Agrees c out (.ok j) := by
  cases out with
  | ok x => exact h
  | err e => cases h
  | panic => cases h

/-- What it should be. -/
def twoDone : Json := .obj [(b!"paths", .obj [(b!"/a", .obj [(b!"get", .obj [(b!"x", .num 7), (b!"y", .obj [(b!"z", .num 8)])]),
  (b!"put", .obj [(b!"x", .num 1), (b!"y", .obj [(b!"z", .num 8)])])])])]

theorem twoRun_done : finalDoc 0 twoRun = some twoDone := by decide +kernel

attribute [local irreducible] twoRun in
example : Agrees 0 twoRun (.ok twoDone) := finalDoc_agrees twoRun_done

end Oapi.Props
