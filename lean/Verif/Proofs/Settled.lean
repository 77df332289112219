import Verif.Spec.Settled
import Verif.Proofs.Det7
import Verif.Props.Root
import Verif.Props.Prepare
import Verif.Props.Resolver

/-! A document with nothing left to do. -/
namespace Oapi.Scan
open Spec Container OAPI

theorem fills_one {a b r r' : Json} (h : Fills a b r) (h' : Fills a b r') (hr : Json.WF r) (hr' : Json.WF r') : r = r' := by
  refine nodeAt_ext _ _ hr hr' fun p => ?_
  cases hn : nodeAt a p with
  | some n => rw [(h p).1 n hn, (h' p).1 n hn]
  | none =>
    by_cases hs : Shadowed a p
    · rw [(h p).2.1 hn hs, (h' p).2.1 hn hs]
    · rw [(h p).2.2 hn hs, (h' p).2.2 hn hs]

/-- The rules determine the result. -/
theorem rule_one {R : Rule} {z y r r' : Json} (h : R.holds z y r) (h' : R.holds z y r') (hr : Json.WF r) (hr' : Json.WF r') : r = r' := by
  cases R with
  | rootWins => exact fills_one h h' hr hr'
  | disjoint => exact nodeAt_ext _ _ hr hr' fun p => by rw [h.2 p, h'.2 p]
  | docWins => exact fills_one h h' hr hr'

theorem not_shadowed_empty {p : List Str} : ¬ Shadowed (.obj []) p := by
  rintro ⟨q, j, _, hj⟩
  cases q with
  | nil => cases hj
  | cons k q => simp [nodeAt, Obj.lookup] at hj

theorem empty_node {p : List Str} {n : Node} (h : nodeAt (.obj []) p = some n) : p = [] ∧ n = .obj := by
  cases p with
  | nil => cases h; exact ⟨rfl, rfl⟩
  | cons k q => simp [nodeAt, Obj.lookup] at h

/-- Filling with nothing changes nothing. -/
theorem fills_empty (s : Obj) : Fills (.obj s) (.obj []) (.obj s) := by
  refine fun p => ⟨fun n h => h, fun h _ => h, fun h _ => ?_⟩
  rw [h]
  cases p with
  | nil => cases h
  | cons k q => rfl

theorem empty_fills (s : Obj) : Fills (.obj []) (.obj s) (.obj s) := by
  refine fun p => ⟨fun n h => ?_, fun _ h => absurd h not_shadowed_empty, fun _ _ => rfl⟩
  obtain ⟨rfl, rfl⟩ := empty_node h
  rfl

theorem rule_empty (R : Rule) (s : Obj) : R.holds (.obj s) (.obj []) (.obj s) := by
  cases R with
  | rootWins => exact empty_fills s
  | docWins => exact fills_empty s
  | disjoint =>
    refine ⟨?_, ?_⟩
    · rintro ⟨p, x, y, h1, h2, h3⟩
      obtain ⟨rfl, rfl⟩ := empty_node h2
      cases h1
      exact h3 ⟨rfl, rfl⟩
    · intro p
      cases p with
      | nil => rfl
      | cons k q =>
        rw [show nodeAt (.obj []) (k :: q) = none from rfl, Option.or_none]

theorem fillsAll_settled {a b : Json} {ds : List Json} (hf : FillsAll a ds b) : (∀ e ∈ ds, e = .obj [] ∨ Fills a e a) → (∃ m, a = .obj m) →
    Json.WF a → b = a := by
  induction hf with
  | nil => intros; rfl
  | @cons a d b r ds h1 h2 _ ih =>
    rintro h ⟨m, rfl⟩ hw
    have hin : Fills (.obj m) d (.obj m) := by
      rcases h d (by simp) with rfl | h
      · exact fills_empty m
      · exact h
    have := fills_one h1 hin h2 hw
    subst this
    exact ih (fun e he => h e (by simp [he])) ⟨m, rfl⟩ hw

theorem outcome_settled {a b : Json} {ds : List Json} (h : OpOutcome ds a b) (hd : ∀ e ∈ ds, e = .obj [] ∨ ((∃ m, a = .obj m) ∧ Fills a e a))
    (hw : Json.WF a) : b = a := by
  rcases h with ⟨_, rfl⟩ | ⟨⟨e, he, hne⟩, _, hf⟩
  · rfl
  · have : ∃ m, a = .obj m := by
      rcases hd e he with h | h
      · exact absurd h hne
      · exact h.1
    obtain ⟨m, rfl⟩ := this
    exact fillsAll_settled hf (fun e he => (hd e he).imp id And.right) ⟨m, rfl⟩ hw

theorem getAt_member {m : Obj} {k : Str} : section_ (.obj m) k = Obj.lookup k m := rfl

/-- Nothing changes if no operation does. -/
theorem opsRelated_same {R : Str → Str → Json → Json → Prop} {m m' : Obj} (hw : Json.WF (.obj m)) (hw' : Json.WF (.obj m'))
    (h : OpsRelated R (.obj m) (.obj m')) (hR : ∀ P M a b, opAt (.obj m) P M = some a → R P M a b → b = a) : m' = m := by
  rw [Json.WF_obj] at hw hw'
  refine Obj.ext_lookup hw'.1 hw.1 fun k => ?_
  by_cases hk : k = b!"paths"
  · subst hk
    have h2 := h.2
    simp only [getAt_member] at h2
    cases h1 : Obj.lookup b!"paths" m with
    | none =>
      rw [h1] at h2
      cases h3 : Obj.lookup b!"paths" m' with
      | none => rfl
      | some v => rw [h3] at h2; cases v <;> simp [PathsRel] at h2
    | some v =>
      cases h3 : Obj.lookup b!"paths" m' with
      | none => rw [h1, h3] at h2; cases v <;> simp [PathsRel] at h2
      | some v' =>
        rw [h1, h3] at h2
        by_cases hv : ∃ ps ps', v = .obj ps ∧ v' = .obj ps'
        · obtain ⟨ps, ps', rfl, rfl⟩ := hv
          have e1 := (Json.WF_obj ps).1 ((Json.WFO_iff _).1 hw.2 _ (Obj.lookup_mem h1))
          have e2 := (Json.WF_obj ps').1 ((Json.WFO_iff _).1 hw'.2 _ (Obj.lookup_mem h3))
          congr 2
          refine Obj.ext_lookup e2.1 e1.1 fun P => ?_
          have hP : ItemRel (R P) (Obj.lookup P ps) (Obj.lookup P ps') := h2 P
          cases g1 : Obj.lookup P ps with
          | none =>
            rw [g1] at hP
            cases g2 : Obj.lookup P ps' with
            | none => rfl
            | some w => rw [g2] at hP; cases w <;> simp [ItemRel] at hP
          | some w =>
            cases g2 : Obj.lookup P ps' with
            | none => rw [g1, g2] at hP; cases w <;> simp [ItemRel] at hP
            | some w' =>
              rw [g1, g2] at hP
              by_cases hwo : ∃ it it', w = .obj it ∧ w' = .obj it'
              · obtain ⟨it, it', rfl, rfl⟩ := hwo
                have f1 := (Json.WF_obj it).1 ((Json.WFO_iff _).1 e1.2 _ (Obj.lookup_mem g1))
                have f2 := (Json.WF_obj it').1 ((Json.WFO_iff _).1 e2.2 _ (Obj.lookup_mem g2))
                congr 2
                refine Obj.ext_lookup f2.1 f1.1 fun M => ?_
                have hM : MemberRel (R P M) (Obj.lookup M it) (Obj.lookup M it') := hP M
                cases i1 : Obj.lookup M it with
                | none =>
                  rw [i1] at hM
                  cases i2 : Obj.lookup M it' with
                  | none => rfl
                  | some x => rw [i2] at hM; simp [MemberRel] at hM
                | some x =>
                  cases i2 : Obj.lookup M it' with
                  | none => rw [i1, i2] at hM; simp [MemberRel] at hM
                  | some x' =>
                    rw [i1, i2] at hM
                    rw [hR P M x x' ?_ hM]
                    simp only [opAt, getAt, child, h1, g1, i1]
              · have : some w = some w' := by
                  cases w <;> cases w' <;> first | exact absurd ⟨_, _, rfl, rfl⟩ hwo | exact hP
                exact this.symm
        · have : some v = some v' := by
            cases v <;> cases v' <;> first | exact absurd ⟨_, _, rfl, rfl⟩ hv | exact h2
          exact this.symm
  · have := h.1 k hk
    simpa only [getAt_member] using this

end Oapi.Scan
namespace Oapi.Scan
open Spec Container OAPI

variable {F : Type} {inp : Input F} {o : Orders}

theorem missing_members {v : Option Json} (h : Missing v) : members v = .obj [] := by
  rcases h with rfl | rfl <;> rfl

/-- The merge of the root document into a document that has it already. -/
theorem merge_settled {m : Obj} (hw : Json.WF (.obj m)) (hs : Complete inp (.obj m)) {out : Json}
    (h : OAPI.mergeWithRoot inp.root (.obj m) = .ok out) : out = .obj m := by
  obtain ⟨r, hr, hrw, hin⟩ := hs.root
  rw [hr] at h
  have hz : ∀ k R, (k, R) ∈ ruleOf → Composite (section_ (.obj m) k) ∧ Composite (section_ (.obj r) k) := by
    intro k R hk
    constructor
    · rcases hs.sections k R hk with (h | h) | ⟨s, h⟩
      · exact .inl h
      · exact .inr ⟨_, h, .inl rfl⟩
      · exact .inr ⟨_, h, .inr rfl⟩
    · rcases hin k R hk with (h | h) | ⟨y, s, h, _⟩
      · exact .inl h
      · exact .inr ⟨_, h, .inl rfl⟩
      · exact .inr ⟨_, h, .inr rfl⟩
  rcases Props.C21_sections_follow_rules hw hrw hz with ⟨out', e1, e2, e3, e4⟩ | ⟨e1, _⟩
  · rw [h] at e1; cases e1
    have hobj : ∃ m', out = .obj m' := mergeWithRoot_isObj h
    obtain ⟨m', rfl⟩ := hobj
    rw [Json.WF_obj] at e2
    have hw' := (Json.WF_obj m).1 hw
    congr 1
    refine Obj.ext_lookup e2.1 hw'.1 fun k => ?_
    by_cases hk : ∃ R, (k, R) ∈ ruleOf
    · obtain ⟨R, hk⟩ := hk
      by_cases hmiss : Missing (section_ (.obj m) k) ∧ Missing (section_ (.obj r) k)
      · exact (e4 k R hk).1 hmiss
      · obtain ⟨s, g1, g2⟩ := (e4 k R hk).2 hmiss
        have : ∃ z, section_ (.obj m) k = some (.obj z) ∧ R.holds (.obj z) (members (section_ (.obj r) k)) (.obj z) := by
          rcases hin k R hk with hm | ⟨y, s, h1, h2, h3⟩
          · rcases hs.sections k R hk with hm' | ⟨z, hz⟩
            · exact absurd ⟨hm', hm⟩ hmiss
            · exact ⟨z, hz, by rw [missing_members hm]; exact rule_empty R z⟩
          · exact ⟨s, h2, by rw [h1]; exact h3⟩
        obtain ⟨z, g3, g4⟩ := this
        rw [g3] at g2
        have w1 : Json.WF (.obj z) := (Json.WFO_iff _).1 hw'.2 _ (Obj.lookup_mem g3)
        have w2 : Json.WF (.obj s) := (Json.WFO_iff _).1 e2.2 _ (Obj.lookup_mem g1)
        have := rule_one g2 g4 w2 w1
        simp only [getAt_member] at g1 g3
        rw [g1, g3, this]
    · exact e3 k fun R hR => hk ⟨R, hR⟩
  · rw [h] at e1; cases e1

/-- The loop over references without schemes. -/
theorem loop_local {cfg : Resolver.Cfg} {call : List Str → Json → Resolver.St → Res (Resolver.Cur × Resolver.St)} {pp : List Str} {cx : Resolver.Cur}
    {st : Resolver.St} : ∀ (es : List (Str × Json)), (∀ k x, (k, Json.str x) ∈ es → ∃ p, Pointer.parse x = .ok p ∧ p.url.scheme = []) →
    Resolver.loop cfg call pp es cx st = .ok (cx, st)
  | [], _ => rfl
  | (k, v) :: t, h => by
    have hv : Resolver.visit cfg call pp cx st k v = .ok (cx, st) := by
      cases v with
      | str x =>
        obtain ⟨p, h1, h2⟩ := h k x (by simp)
        unfold Resolver.visit
        dsimp only
        rw [h1]
        dsimp only
        rw [if_pos (by simp [Pointer.isExternal, h2])]
      | _ => rfl
    unfold Resolver.loop
    rw [hv]
    exact loop_local t fun k x hx => h k x (by simp [hx])

/-- Resolving a document without references of a scheme. -/
theorem resolve_local {cfg : Resolver.Cfg} {m : Obj} (hw : Json.WF (.obj m)) (ho : ∀ n l, Container.MapOrder l (cfg.ord n l))
    (h : ∀ x, RefLike (.obj m) x → ∃ p, Pointer.parse x = .ok p ∧ p.url.scheme = []) (n : Nat) : Resolver.resolve cfg (n + 1) (.obj m) = .ok (.obj m) := by
  unfold Resolver.resolve Resolver.iter
  have he : ∃ es, Container.extractKey (.obj m) b!"$ref" = .ok es := ⟨_, rfl⟩
  obtain ⟨es, he⟩ := he
  simp only [Resolver.readCur, Option.getD_none, he]
  rw [loop_local]
  intro k x hx
  exact h x (Resolver.extract_refLike hw he ((ho 0 es).2.1 _ hx))

theorem settled_local {d : Json} (h : Complete inp d) (x : Str) (hx : RefLike d x) : ∃ p, Pointer.parse x = .ok p ∧ p.url.scheme = [] := by
  obtain ⟨p, h1, h2, _⟩ := h.refs x hx
  exact ⟨p, h1, h2⟩

/-- Default operations change nothing. -/
theorem defaults_settled {m : Obj} (hw : Json.WF (.obj m)) (ho : OrdersOK inp o) (hs : Complete inp (.obj m)) (hd : DefaultsOK inp (.obj m)) :
    (match OAPI.paths (.obj m) with
      | .err e => .err e
      | .panic => .panic
      | .ok ops => OAPI.runDefaults inp.matches_ (.obj m) (o.ops ops) (o.defops inp.defops)) = Res.ok (.obj m) := by
  have hrel := defaults_rel (inp := inp) ho (.obj m)
  obtain ⟨out, hout⟩ := (Props.C23_succeeds_iff hw hd.nodots hd.defs hrel).2 ⟨hd.items, hd.answers, hd.objects⟩
  rw [hout] at hrel
  obtain ⟨defops', hperm, hwo, hops⟩ := Props.C23_defaults_fill_gaps hw hd.nodots hd.defs hrel
  have hobj : ∃ m', out = .obj m' := by
    clear hops hrel hwo
    split at hout
    · cases hout
    · cases hout
    · exact runDefaults_isObj hout
  obtain ⟨m', rfl⟩ := hobj
  have : m' = m := by
    refine opsRelated_same hw hwo hops fun P M a b ha hab => outcome_settled hab ?_ (getAt_WF hw ha)
    intro e he
    exact hs.ops P M a ha e ((hits_perm hperm P M).mem_iff.1 he)
  rw [this] at hout
  exact hout

/-- The union of the specifications, if it is settled, is what the scan returns. -/
theorem scan_settled (hi : InputOK inp) (ho : OrdersOK inp o) (hd : DistinctPaths inp) (hp : Preparable inp) {d : Json} (hm : Merged inp d)
    (hs : Complete inp d) (hdef : DefaultsOK inp d) (n : Nat) : scan inp o (n + 1) = .ret (some d) (some .decode) := by
  obtain ⟨pre, hpre⟩ := (Props.C77_prepared_iff hi ho hd).2 hp
  obtain ⟨c, h1, h2, h3⟩ := Props.C77_document hi ho hd hpre
  obtain ⟨m, rfl⟩ := hm.object
  have := h3 _ hm
  subst this
  have hdoc : pre.doc = .obj m := merge_settled hm.wf hs h2
  have hres : Resolver.resolve (cfg inp o pre) (n + 1) pre.doc = .ok (.obj m) := by
    rw [hdoc]
    exact resolve_local hm.wf ho.resolver (settled_local hs) n
  have hfin : finish inp o (n + 1) pre = .ok (.obj m) := by
    unfold finish
    rw [hres]
    exact defaults_settled hm.wf ho hs hdef
  unfold scan
  rw [hpre]
  dsimp only
  rw [hfin]
  rfl

/-- References that stand are absolute. -/
theorem absolute_standing {pkg x y : Str} (h : Standing x) (ha : Absolute pkg x y) : y = x := by
  obtain ⟨p, h1, h2, h3⟩ := h
  cases ha with
  | here g1 g2 _ => rw [h1] at g1; cases g1; rw [h2] at g2; cases g2
  | other g1 _ => rw [h1] at g1; cases g1; exact h3

theorem standing_absolute {pkg x : Str} (h : Standing x) : Absolute pkg x x := by
  obtain ⟨p, h1, h2, h3⟩ := h
  have := Absolute.other (pkg := pkg) h1 (by rw [h2]; rintro ⟨h, _⟩; cases h)
  rwa [h3] at this

theorem hasRef_refLike {d : Json} {x : Str} (h : HasRef d x) : RefLike d x := by
  obtain ⟨L, h⟩ := h
  exact ⟨L, refKey, h, .inl rfl⟩

mutual
theorem mapRefs_id : ∀ (d : Json), mapRefs (fun x => x) d = d
  | .obj m => by simp only [mapRefs, mapRefsO_id m]
  | .arr xs => by simp only [mapRefs, mapRefsA_id xs]
  | .null => rfl
  | .bool _ => rfl
  | .num _ => rfl
  | .str _ => rfl
termination_by structural d => d
theorem mapRefsO_id : ∀ (m : List (Str × Json)), mapRefsO (fun x => x) m = m
  | [] => rfl
  | (k, v) :: t => by
    have h1 := mapRefs_id v
    have h2 := mapRefsO_id t
    unfold mapRefsO
    cases v <;> simp_all
termination_by structural m => m
theorem mapRefsA_id : ∀ (xs : List Json), mapRefsA (fun x => x) xs = xs
  | [] => rfl
  | v :: t => by
    have h1 := mapRefs_id v
    have h2 := mapRefsA_id t
    unfold mapRefsA
    simp_all
termination_by structural xs => xs
end

/-- One specification, with references that stand, is the union. -/
theorem merged_single {p i : Nat} {d : Json} (hs : SpecAt inp p i d) (hobj : ∃ m, d = .obj m) (hw : Json.WF d) (hone : ∀ p' i' d', SpecAt inp p' i' d' → d' = d)
    (hr : ∀ x, HasRef d x → Standing x) : Merged inp d := by
  have hmap : ∀ f pkg, (∀ x, HasRef d x → Absolute pkg x (f x)) → mapRefs f d = d := by
    intro f pkg hf
    rw [mapRefs_congr d hw (g := fun x => x) fun x hx => absolute_standing (hr x hx) (hf x hx)]
    exact mapRefs_id d
  refine ⟨hobj, hw, fun path n _ => ⟨fun h => ⟨p, i, d, fun x => x, hs, fun x hx => standing_absolute (hr x hx), ?_⟩, ?_⟩⟩
  · rw [mapRefs_id]; exact h
  · rintro ⟨p', i', d', f, h1, h2, h3⟩
    have := hone p' i' d' h1
    subst this
    rwa [hmap f _ h2] at h3

end Oapi.Scan
