import Verif.Proofs.Defaults4
import Verif.Proofs.Check

/-! Properties C23–C25: operation defaults.  `mt pattern method path` stands for `route.Match` and is arbitrary here. -/
namespace Oapi.Props
open Oapi Spec Container OAPI

/-- C23: if `SetPathsDefaults` succeeds and no default matches an operation with a dot in its path or member name, then, for the order in which
the defaults map happened to be iterated, every operation is filled with the defaults that match it (existing values win)
and nothing else changes. -/
theorem C23_defaults_fill_gaps {mt : Str → Str → Str → Res Bool} {c : Obj} (hw : Json.WF (.obj c)) {defops : List (Str × Json)}
    (hnd : NoDots mt defops (.obj c)) (hd : ∀ d ∈ defops, Json.WF d.2 ∧ NamedKeys d.2) {out : Json}
    (h : SetPathsDefaults mt (.obj c) defops (.ok out)) :
    ∃ defops', defops'.Perm defops ∧ Json.WF out ∧
      OpsRelated (fun P M a b => OpOutcome (hits mt defops' P M) a b) (.obj c) out := by
  unfold SetPathsDefaults at h
  cases hp : paths (.obj c) with
  | err e => rw [hp] at h; cases h
  | panic => rw [hp] at h; cases h
  | ok ops =>
    rw [hp] at h
    obtain ⟨ops', defops', p1, p2, hrun⟩ := h
    obtain ⟨hi, hn⟩ := inv_init hw hp p1
    have hcl : Clean (fun x => hits mt defops x.1 x.2 ≠ []) (ops'.map opId) := ⟨hn, fun x hx => by
      obtain ⟨a, ha⟩ := (ids_iff hw hp p1 x).1 hx; exact hnd _ _ _ ha⟩
    have hh : ∀ d ∈ defops', ∀ x : Str × Str, mt d.1 x.2 x.1 = .ok true → hits mt defops x.1 x.2 ≠ [] := by
      intro d hdd x hx e
      have : d.2 ∈ hits mt defops x.1 x.2 := by
        unfold hits
        exact List.mem_map.2 ⟨d, List.mem_filter.2 ⟨p2.mem_iff.1 hdd, by rw [hx]⟩, rfl⟩
      rw [e] at this; cases this
    have hd' : ∀ d ∈ defops', Json.WF d.2 ∧ NamedKeys d.2 := fun d hdd => hd d (p2.mem_iff.1 hdd)
    unfold runDefaults at hrun
    cases hr : applyDefaults mt defops' ⟨.obj c, ops'⟩ with
    | err e => rw [hr] at hrun; cases hrun
    | panic => rw [hr] at hrun; cases hrun
    | ok st =>
      rw [hr] at hrun; cases hrun
      obtain ⟨g1, g2, _, g4⟩ := applyDefaults_ok hcl defops' hh hd' _ st hi hr
      refine ⟨defops', p2, g1.wf, OpsRelated_strengthen g2 ?_⟩
      intro P M a b ha hb
      have hmem : (⟨P, M, a, isShared a⟩ : Op) ∈ ops' := p1.mem_iff.2 (((paths_ok hw hp).1 _).2 ⟨ha, rfl⟩)
      obtain ⟨j, hj⟩ := List.mem_iff_getElem?.1 hmem
      obtain ⟨o', q1, q2, q3⟩ := g4 j _ hj
      have hrep := g1.rep o' (List.mem_of_getElem? q1)
      rw [show o'.path = P from congrArg Prod.fst q2, show o'.method = M from congrArg Prod.snd q2, hb] at hrep
      cases hrep
      exact (chain_outcome defops' hd' (getAt_WF hw ha) q3).2

/-- C23: exactly when it succeeds, whatever the iteration orders: the path items are objects (or null), the matcher
answers for every pattern and operation, and a non-empty default only matches members that are objects (or null). -/
theorem C23_succeeds_iff {mt : Str → Str → Str → Res Bool} {c : Obj} (hw : Json.WF (.obj c)) {defops : List (Str × Json)}
    (hnd : NoDots mt defops (.obj c)) (hd : ∀ d ∈ defops, Json.WF d.2 ∧ NamedKeys d.2) {res : Res Json}
    (h : SetPathsDefaults mt (.obj c) defops res) :
    (∃ out, res = .ok out) ↔
      PathItemsOk (.obj c) ∧
      (∀ d ∈ defops, ∀ P M a, opAt (.obj c) P M = some a → ∃ b, mt d.1 M P = .ok b) ∧
      (∀ P M a, opAt (.obj c) P M = some a →
        (∀ d ∈ hits mt defops P M, d = .obj []) ∨ a = .null ∨ ∃ m, a = .obj m) := by
  rw [← paths_total hw]
  unfold SetPathsDefaults at h
  cases hp : paths (.obj c) with
  | err e => rw [hp] at h; simp only at h; subst h; simp
  | panic => rw [hp] at h; simp only at h; subst h; simp
  | ok ops =>
    rw [hp] at h
    obtain ⟨ops', defops', p1, p2, hrun⟩ := h
    obtain ⟨hi, hn⟩ := inv_init hw hp p1
    have hcl : Clean (fun x => hits mt defops x.1 x.2 ≠ []) (ops'.map opId) := ⟨hn, fun x hx => by
      obtain ⟨a, ha⟩ := (ids_iff hw hp p1 x).1 hx; exact hnd _ _ _ ha⟩
    have hh : ∀ d ∈ defops', ∀ x : Str × Str, mt d.1 x.2 x.1 = .ok true → hits mt defops x.1 x.2 ≠ [] := by
      intro d hdd x hx e
      have : d.2 ∈ hits mt defops x.1 x.2 := by
        unfold hits
        exact List.mem_map.2 ⟨d, List.mem_filter.2 ⟨p2.mem_iff.1 hdd, by rw [hx]⟩, rfl⟩
      rw [e] at this; cases this
    have hd' : ∀ d ∈ defops', Json.WF d.2 ∧ NamedKeys d.2 := fun d hdd => hd d (p2.mem_iff.1 hdd)
    have hch : ∀ P M a, opAt (.obj c) P M = some a →
        ((∃ b, Chain mt P M defops' a b) ↔ ((∀ d ∈ hits mt defops P M, d = .obj []) ∨ a = .null ∨ ∃ m, a = .obj m)) := by
      intro P M a ha
      rw [chain_exists defops' hd' (getAt_WF hw ha)]
      have : (∀ d ∈ hits mt defops' P M, d = .obj []) ↔ (∀ d ∈ hits mt defops P M, d = .obj []) := by
        constructor <;> intro hh d hdd
        · exact hh d ((hits_perm p2 P M).mem_iff.2 hdd)
        · exact hh d ((hits_perm p2 P M).mem_iff.1 hdd)
      rw [this]
    constructor
    · rintro ⟨out, rfl⟩
      unfold runDefaults at hrun
      cases hr : applyDefaults mt defops' ⟨.obj c, ops'⟩ with
      | err e => rw [hr] at hrun; cases hrun
      | panic => rw [hr] at hrun; cases hrun
      | ok st =>
        obtain ⟨g1, g2, g3, g4⟩ := applyDefaults_ok hcl defops' hh hd' _ st hi hr
        refine ⟨⟨ops, rfl⟩, ?_, ?_⟩
        · intro d hdd P M a ha
          exact g3 d (p2.mem_iff.2 hdd) (P, M) ((ids_iff hw hp p1 _).2 ⟨a, ha⟩)
        · intro P M a ha
          have hmem : (⟨P, M, a, isShared a⟩ : Op) ∈ ops' := p1.mem_iff.2 (((paths_ok hw hp).1 _).2 ⟨ha, rfl⟩)
          obtain ⟨j, hj⟩ := List.mem_iff_getElem?.1 hmem
          obtain ⟨o', _, _, q3⟩ := g4 j _ hj
          exact (hch P M a ha).1 ⟨_, q3⟩
    · rintro ⟨_, h2, h3⟩
      obtain ⟨st, hst⟩ := applyDefaults_total (mt := mt) hcl defops' hh hd' ⟨.obj c, ops'⟩ hi
        (fun d hdd x hx => by
          obtain ⟨a, ha⟩ := (ids_iff hw hp p1 x).1 hx
          exact h2 d (p2.mem_iff.1 hdd) _ _ a ha)
        (fun o ho => by
          have := ((paths_ok hw hp).1 o).1 (p1.mem_iff.1 ho)
          exact (hch _ _ _ this.1).2 (h3 _ _ _ this.1))
      unfold runDefaults at hrun
      rw [hst] at hrun
      exact ⟨_, hrun⟩

/-- C24: if no two defaults that match the same operation conflict, all iteration orders agree: if one succeeds with a
document, every other succeeds with the same document. -/
theorem C24_order_irrelevant_without_conflict {mt : Str → Str → Str → Res Bool} {c : Obj} (hw : Json.WF (.obj c))
    {defops : List (Str × Json)} (hnd : NoDots mt defops (.obj c)) (hd : ∀ d ∈ defops, Json.WF d.2 ∧ NamedKeys d.2)
    (hnc : ∀ P M a, opAt (.obj c) P M = some a → (hits mt defops P M).Pairwise fun x y => ¬ Conflict x y)
    {out : Json} {res : Res Json} (h1 : SetPathsDefaults mt (.obj c) defops (.ok out))
    (h2 : SetPathsDefaults mt (.obj c) defops res) : res = .ok out := by
  have hs := (C23_succeeds_iff hw hnd hd h1).1 ⟨out, rfl⟩
  obtain ⟨out', rfl⟩ := (C23_succeeds_iff hw hnd hd h2).2 hs
  congr 1
  obtain ⟨d1, p1, w1, r1⟩ := C23_defaults_fill_gaps hw hnd hd h1
  obtain ⟨d2, p2, w2, r2⟩ := C23_defaults_fill_gaps hw hnd hd h2
  have objOf : ∀ {x : Json} {R}, OpsRelated R (.obj c) x → (∃ m, x = .obj m) ∨ (c = [] ∧ Json.isObj x = false) := by
    intro x R hR
    rcases isObj_cases x with hx | hx
    · right
      refine ⟨?_, hx⟩
      have hnone : ∀ k, section_ x k = none := by intro k; cases x <;> first | rfl | cases hx
      have : ∀ k, Obj.lookup k c = none := by
        intro k
        by_cases hk : k = b!"paths"
        · subst hk
          rcases PathsRel_cases hR.2 with ⟨a, b, _, e, _⟩ | ⟨_, e⟩
          · rw [hnone] at e; cases e
          · rw [hnone] at e; exact e
        · have := hR.1 k hk; rw [hnone] at this; exact this.symm
      cases c with
      | nil => rfl
      | cons kv t => have := this kv.1; simp [Obj.lookup] at this
    · exact Or.inl hx
  -- the result is an object in either case, because the run starts from one
  have obj_of_run : ∀ {x : Json}, SetPathsDefaults mt (.obj c) defops (.ok x) → ∃ m, x = .obj m := by
    intro x hx
    obtain ⟨d, _, _, hR⟩ := C23_defaults_fill_gaps hw hnd hd hx
    rcases objOf hR with h | ⟨hc, hno⟩
    · exact h
    · exfalso
      subst hc
      unfold SetPathsDefaults at hx
      rw [paths_eq] at hx
      simp only [Obj.lookup_nil, data, Option.getD_none, childrenMap, pathsGo] at hx
      obtain ⟨ops', defops', q1, _, hrun⟩ := hx
      have : ops' = [] := List.perm_nil.1 q1
      subst this
      have : ∀ (l : List (Str × Json)) (j : Json), applyDefaults mt l ⟨j, []⟩ = .ok ⟨j, []⟩ := by
        intro l j; induction l with
        | nil => rfl
        | cons d t ih => simp only [applyDefaults, matching, applyAll]; exact ih
      unfold runDefaults at hrun
      rw [this] at hrun
      cases hrun
      cases hno
  refine OpsRelated_unique ⟨c, rfl⟩ w2 w1 (obj_of_run h2) (obj_of_run h1) r2 r1 ?_
  intro P M a b b' ha hb hb' ho ho'
  have hp2 := hits_perm (mt := mt) p2 P M
  have hp1 := hits_perm (mt := mt) p1 P M
  have hp := hp2.trans hp1.symm
  have hall : (∀ d ∈ hits mt d2 P M, d = .obj []) ↔ (∀ d ∈ hits mt d1 P M, d = .obj []) :=
    ⟨fun h d hdd => h d (hp.mem_iff.2 hdd), fun h d hdd => h d (hp.mem_iff.1 hdd)⟩
  rcases ho with ⟨e1, e2⟩ | ⟨⟨d, hdm, hne⟩, e1, e2⟩
  · rcases ho' with ⟨_, e4⟩ | ⟨⟨d, hdm, hne⟩, _, _⟩
    · rw [e2, e4]
    · exact absurd (hall.1 e1 d hdm) hne
  · rcases ho' with ⟨e3, _⟩ | ⟨_, _, e4⟩
    · exact absurd (e3 d (hp.mem_iff.1 hdm)) hne
    · have wa : Json.WF (members (some a)) := members_WF (by intro x hx; cases hx; exact getAt_WF hw ha)
      have hds : ∀ d ∈ hits mt d2 P M, Json.WF d ∧ ∃ m, d = .obj m := by
        intro d hdd
        simp only [hits, List.mem_map, List.mem_filter] at hdd
        obtain ⟨x, ⟨hx, _⟩, rfl⟩ := hdd
        have := hd x (p2.mem_iff.1 hx)
        obtain ⟨m, hm, _⟩ := this.2
        exact ⟨this.1, m, hm⟩
      have sym : ∀ {x y : Json}, ¬ Conflict x y → ¬ Conflict y x := by
        rintro x y h ⟨p, a, b, ha, hb, hne⟩; exact h ⟨p, b, a, hb, ha, Ne.symm hne⟩
      have hpw := (hp2.pairwise_iff sym).2 (hnc P M a ha)
      exact fillsAll_unique (fillsAll_perm hp (members_isObj _) wa hds hpw e2) e4

private def exMt : Str → Str → Str → Res Bool := fun _ _ P => .ok (P != b!"/v1.0")
private def exDoc : Obj := [(b!"openapi", .str b!"3"),
  (b!"paths", .obj [(b!"/a", .obj [(b!"get", .obj [(b!"summary", .str b!"s")])]), (b!"/v1.0", .obj [(b!"get", .obj [])])])]
private def exDefs : List (Str × Json) :=
  [(b!"p", .obj [(b!"summary", .str b!"1"), (b!"tags", .str b!"1")]), (b!"q", .obj [(b!"tags", .str b!"2")])]

private def exOut (t : Str) : Json :=
  .obj [(b!"openapi", .str b!"3"), (b!"paths", .obj [(b!"/a", .obj [(b!"get", .obj [(b!"summary", .str b!"s"), (b!"tags", .str t)])]),
    (b!"/v1.0", .obj [(b!"get", .obj [])])])]

/-- C24: with conflicting defaults two iteration orders of the same map give different documents. -/
theorem C24_order_matters_with_conflict :
    ∃ (mt : Str → Str → Str → Res Bool) (c : Json) (defops : List (Str × Json)) (x y : Json),
      Json.WF c ∧ NoDots mt defops c ∧ (∀ d ∈ defops, Json.WF d.2 ∧ NamedKeys d.2) ∧
      SetPathsDefaults mt c defops (.ok x) ∧ SetPathsDefaults mt c defops (.ok y) ∧ x ≠ y := by
  refine ⟨exMt, .obj exDoc, exDefs, exOut b!"1", exOut b!"2", wfB_sound _ (by decide), ?_, ?_, ⟨_, exDefs, List.Perm.refl _, List.Perm.refl _, ?_⟩,
    ⟨_, exDefs.reverse, List.Perm.refl _, List.reverse_perm _, ?_⟩, ?_⟩
  · intro P M v h hh
    obtain ⟨m, ps, it, e, h1, h2, h3⟩ := opAt_of h
    cases e
    have := Obj.lookup_mem h1
    simp [exDoc] at this; subst this
    have := Obj.lookup_mem h2
    simp only [List.mem_cons, Prod.mk.injEq, Json.obj.injEq, List.not_mem_nil, or_false] at this
    rcases this with ⟨rfl, rfl⟩ | ⟨rfl, rfl⟩
    · have := Obj.lookup_mem h3
      simp at this; obtain ⟨rfl, rfl⟩ := this
      decide
    · exact absurd rfl hh
  · intro d hd
    simp only [exDefs, List.mem_cons, List.not_mem_nil, or_false] at hd
    rcases hd with rfl | rfl
    · exact ⟨wfB_sound _ (by decide), _, rfl, by decide⟩
    · exact ⟨wfB_sound _ (by decide), _, rfl, by decide⟩
  · decide
  · decide
  · decide

/-- C25: whenever a pattern matches an operation of a path with a dot, a successful `SetPathsDefaults` leaves an entry
under the mangled path ('.' replaced by "~1"), which is a different path. -/
theorem C25_dotted_path_duplicated {mt : Str → Str → Str → Res Bool} {c : Obj} (hw : Json.WF (.obj c))
    {defops : List (Str × Json)} {out : Json} (h : SetPathsDefaults mt (.obj c) defops (.ok out))
    {P M : Str} {a : Json} (ha : opAt (.obj c) P M = some a) (hP : (46 : UInt8) ∈ P)
    {d : Str × Json} (hd : d ∈ defops) (hm : mt d.1 M P = .ok true) :
    let P' := Str.replaceAll P b!"." b!"~1"
    let M' := Str.replaceAll M b!"." b!"~1"
    P' ≠ P ∧ opAt out P' M' ≠ none ∧ opAt out P M ≠ none := by
  refine ⟨?_, ?_⟩
  · rw [Str.replaceAll_byte]
    intro e
    have hno : (46 : UInt8) ∉ P.flatMap (fun c => if c = 46 then b!"~1" else [c]) := by
      intro hmem
      obtain ⟨x, _, hx⟩ := List.mem_flatMap.1 hmem
      split at hx
      · revert hx; decide
      · rename_i hne; simp at hx; exact hne hx.symm
    rw [e] at hno; exact hno hP
  · unfold SetPathsDefaults at h
    cases hp : paths (.obj c) with
    | err e => rw [hp] at h; cases h
    | panic => rw [hp] at h; cases h
    | ok ops =>
      rw [hp] at h
      obtain ⟨ops', defops', p1, p2, hrun⟩ := h
      unfold runDefaults at hrun
      cases hr : applyDefaults mt defops' ⟨.obj c, ops'⟩ with
      | err e => rw [hr] at hrun; cases hrun
      | panic => rw [hr] at hrun; cases hrun
      | ok st =>
        rw [hr] at hrun; cases hrun
        have hopen : Open (.obj c) := by
          obtain ⟨m, ps, it, e, h1, _, _⟩ := opAt_of ha
          cases e
          rcases (paths_total hw).1 ⟨ops, hp⟩ with hm | ⟨ps', e1, e2⟩
          · rw [section_obj, h1] at hm; rcases hm with hm | hm <;> cases hm
          · exact ⟨c, ps', rfl, e1, e2⟩
        have hmem : (⟨P, M, a, isShared a⟩ : Op) ∈ ops' := p1.mem_iff.2 (((paths_ok hw hp).1 _).2 ⟨ha, rfl⟩)
        obtain ⟨g1, g2⟩ := applyDefaults_open hopen hr
        exact ⟨g2 d (p2.mem_iff.2 hd) _ hmem hm, g1 P M (by rw [ha]; simp)⟩

/-- C25: a member of a path item that is a list, a string, a number or a boolean (parameters, summary, ...) and is matched
by a pattern with a non-empty default makes `SetPathsDefaults` fail, with or without dots anywhere. -/
theorem C25_path_level_member_fails {mt : Str → Str → Str → Res Bool} {c : Obj} (hw : Json.WF (.obj c))
    {defops : List (Str × Json)} (hd : ∀ d ∈ defops, Json.WF d.2 ∧ NamedKeys d.2) {res : Res Json}
    (h : SetPathsDefaults mt (.obj c) defops res)
    {P M : Str} {a : Json} (ha : opAt (.obj c) P M = some a) (hno : ¬ (a = .null ∨ ∃ m, a = .obj m))
    {d : Str × Json} (hdm : d ∈ defops) (hm : mt d.1 M P = .ok true) (hne : d.2 ≠ .obj []) (out : Json) :
    res ≠ .ok out := by
  rintro rfl
  unfold SetPathsDefaults at h
  cases hp : paths (.obj c) with
  | err e => rw [hp] at h; cases h
  | panic => rw [hp] at h; cases h
  | ok ops =>
    rw [hp] at h
    obtain ⟨ops', defops', p1, p2, hrun⟩ := h
    have hopen : Open (.obj c) := by
      obtain ⟨m, ps, it, e, h1, _, _⟩ := opAt_of ha
      cases e
      rcases (paths_total hw).1 ⟨ops, hp⟩ with hm | ⟨ps', e1, e2⟩
      · rw [section_obj, h1] at hm; rcases hm with hm | hm <;> cases hm
      · exact ⟨c, ps', rfl, e1, e2⟩
    have hmem : (⟨P, M, a, isShared a⟩ : Op) ∈ ops' := p1.mem_iff.2 (((paths_ok hw hp).1 _).2 ⟨ha, rfl⟩)
    obtain ⟨j, hj⟩ := List.mem_iff_getElem?.1 hmem
    unfold runDefaults at hrun
    cases hr : applyDefaults mt defops' ⟨.obj c, ops'⟩ with
    | err e => rw [hr] at hrun; cases hrun
    | panic => rw [hr] at hrun; cases hrun
    | ok st =>
      exact applyDefaults_stuck (st := ⟨.obj c, ops'⟩) hopen (fun d hdd => hd d (p2.mem_iff.1 hdd)) hj (getAt_WF hw ha) hno
        ⟨d, p2.mem_iff.2 hdm, hm, hne⟩ st hr

/-- a dotted path: the defaults also appear under the mangled path -/
example : runDefaults exMt (.obj [(b!"paths", .obj [(b!"/a.b", .obj [(b!"get", .obj [])])])])
    [⟨b!"/a.b", b!"get", .obj [], true⟩] [(b!"*", .obj [(b!"tags", .null)])] =
    .ok (.obj [(b!"paths", .obj [(b!"/a.b", .obj [(b!"get", .obj [(b!"tags", .null)])]),
      (b!"/a~1b", .obj [(b!"get", .obj [(b!"tags", .null)])])])]) := by decide
example : paths (.obj [(b!"paths", .obj [(b!"/a.b", .obj [(b!"get", .obj [])])])]) = .ok [⟨b!"/a.b", b!"get", .obj [], true⟩] := by decide
/-- path-level parameters -/
example : runDefaults exMt (.obj [(b!"paths", .obj [(b!"/a", .obj [(b!"parameters", .arr [])])])])
    [⟨b!"/a", b!"parameters", .arr [], false⟩] [(b!"*", .obj [(b!"tags", .null)])] = .err .outOfBounds := by decide

end Oapi.Props
