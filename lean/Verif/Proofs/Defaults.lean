import Verif.Proofs.Root
import Verif.Props.Container

namespace Oapi.OAPI
open Oapi Spec Container Json

/-! ### relating documents operation by operation -/

theorem ItemRel_refl {R : Str → Json → Json → Prop} (h : ∀ M a, R M a a) (x : Option Json) : ItemRel R x x := by
  cases x with
  | none => rfl
  | some j =>
    cases j with
    | obj m => intro M; cases Obj.lookup M m <;> simp [MemberRel, h]
    | _ => rfl

theorem OpsRelated_refl {R : Str → Str → Json → Json → Prop} (h : ∀ P M a, R P M a a) (c : Json) : OpsRelated R c c := by
  refine ⟨fun _ _ => rfl, ?_⟩
  cases section_ c b!"paths" with
  | none => rfl
  | some j =>
    cases j with
    | obj m => intro P; exact ItemRel_refl (h P) _
    | _ => rfl

theorem ItemRel_cases {R : Str → Json → Json → Prop} {x y : Option Json} (h : ItemRel R x y) :
    (∃ a b, x = some (.obj a) ∧ y = some (.obj b) ∧ ∀ M, MemberRel (R M) (Obj.lookup M a) (Obj.lookup M b)) ∨
    ((∀ a, x ≠ some (.obj a)) ∧ x = y) := by
  unfold ItemRel at h
  split at h
  · rename_i a b; exact Or.inl ⟨a, b, rfl, rfl, h⟩
  · rename_i h1
    refine Or.inr ⟨?_, h⟩
    rintro a rfl
    exact h1 a a rfl h.symm

theorem PathsRel_cases {R : Str → Str → Json → Json → Prop} {x y : Option Json} (h : PathsRel R x y) :
    (∃ a b, x = some (.obj a) ∧ y = some (.obj b) ∧ ∀ P, ItemRel (R P) (Obj.lookup P a) (Obj.lookup P b)) ∨
    ((∀ a, x ≠ some (.obj a)) ∧ x = y) := by
  unfold PathsRel at h
  split at h
  · rename_i a b; exact Or.inl ⟨a, b, rfl, rfl, h⟩
  · rename_i h1
    refine Or.inr ⟨?_, h⟩
    rintro a rfl
    exact h1 a a rfl h.symm

theorem MemberRel_trans {R S T : Json → Json → Prop} (h : ∀ a b c, R a b → S b c → T a c) {x y z : Option Json}
    (h1 : MemberRel R x y) (h2 : MemberRel S y z) : MemberRel T x z := by
  cases x <;> cases y <;> cases z <;> simp [MemberRel] at *
  exact h _ _ _ h1 h2

theorem ItemRel_trans {R S T : Str → Json → Json → Prop} (h : ∀ M a b c, R M a b → S M b c → T M a c) {x y z : Option Json}
    (h1 : ItemRel R x y) (h2 : ItemRel S y z) : ItemRel T x z := by
  rcases ItemRel_cases h1 with ⟨a, b, rfl, rfl, g1⟩ | ⟨n, rfl⟩
  · rcases ItemRel_cases h2 with ⟨a', b', e, rfl, g2⟩ | ⟨n, rfl⟩
    · cases e; intro M; exact MemberRel_trans (h M) (g1 M) (g2 M)
    · exact absurd rfl (n b)
  · rcases ItemRel_cases h2 with ⟨a', b', rfl, rfl, g2⟩ | ⟨_, rfl⟩
    · exact absurd rfl (n a')
    · cases x with
      | none => rfl
      | some j => cases j <;> first | rfl | exact absurd rfl (n _)

theorem OpsRelated_trans {R S T : Str → Str → Json → Json → Prop} (h : ∀ P M a b c, R P M a b → S P M b c → T P M a c)
    {x y z : Json} (h1 : OpsRelated R x y) (h2 : OpsRelated S y z) : OpsRelated T x z := by
  refine ⟨fun k hk => (h2.1 k hk).trans (h1.1 k hk), ?_⟩
  rcases PathsRel_cases h1.2 with ⟨a, b, e1, e2, g1⟩ | ⟨n, e⟩
  · rcases PathsRel_cases h2.2 with ⟨a', b', e3, e4, g2⟩ | ⟨n, e⟩
    · rw [e2] at e3; cases e3
      rw [e1, e4]; intro P; exact ItemRel_trans (h P) (g1 P) (g2 P)
    · exact absurd e2 (n b)
  · rcases PathsRel_cases h2.2 with ⟨a', b', e3, e4, g2⟩ | ⟨_, e'⟩
    · rw [e3] at e; exact absurd e (n _)
    · rw [← e', ← e]
      cases hx : section_ x b!"paths" with
      | none => rfl
      | some j => cases j <;> first | rfl | exact absurd hx (n _)

theorem opAt_of {c : Json} {P M : Str} {v : Json} (h : opAt c P M = some v) :
    ∃ m ps it, c = .obj m ∧ Obj.lookup b!"paths" m = some (.obj ps) ∧ Obj.lookup P ps = some (.obj it) ∧
      Obj.lookup M it = some v := by
  unfold opAt at h
  cases c with
  | obj m =>
    rw [getAt_obj_key] at h
    cases h1 : Obj.lookup b!"paths" m with
    | none => rw [h1] at h; simp at h
    | some p =>
      rw [h1] at h; simp only at h
      cases p with
      | obj ps =>
        rw [getAt_obj_key] at h
        cases h2 : Obj.lookup P ps with
        | none => rw [h2] at h; simp at h
        | some q =>
          rw [h2] at h; simp only at h
          cases q with
          | obj it =>
            rw [getAt_obj_key] at h
            cases h3 : Obj.lookup M it with
            | none => rw [h3] at h; simp at h
            | some w => rw [h3] at h; simp [getAt] at h; exact ⟨m, ps, it, rfl, h1, h2, by rw [h3, h]⟩
          | _ => simp [getAt, child] at h
      | _ => simp [getAt, child] at h
  | _ => simp [getAt, child] at h

theorem opAt_eq {m ps it : Obj} {P : Str} (M : Str) (h1 : Obj.lookup b!"paths" m = some (.obj ps))
    (h2 : Obj.lookup P ps = some (.obj it)) : opAt (.obj m) P M = Obj.lookup M it := by
  unfold opAt
  rw [getAt_obj_key, h1]; simp only
  rw [getAt_obj_key, h2]; simp only
  rw [getAt_obj_key]; cases Obj.lookup M it <;> rfl

/-- the document with an operation replaced -/
def putOp (P M : Str) (v c : Json) : Json := putAt v [.key b!"paths", .key P, .key M] c

theorem putOp_eq {m ps it : Obj} {P M : Str} {old : Json} (v : Json) (h1 : Obj.lookup b!"paths" m = some (.obj ps))
    (h2 : Obj.lookup P ps = some (.obj it)) (h3 : Obj.lookup M it = some old) :
    putOp P M v (.obj m) = .obj (Obj.insert b!"paths" (.obj (Obj.insert P (.obj (Obj.insert M v it)) ps)) m) := by
  simp [putOp, putAt, h1, h2, h3]

theorem set_op {c : Json} {P M : Str} {old : Json} (v : Json) (h : opAt c P M = some old) :
    Gabs.set v [b!"paths", P, M] c = .ok (putOp P M v c) := by
  obtain ⟨m, ps, it, rfl, h1, h2, h3⟩ := opAt_of h
  have hg : getAt (.obj m) (keyLoc [b!"paths", P]) = some (.obj it) := by
    simp [keyLoc, getAt, child, h1, h2]
  have := set_keys hg M v
  simp only [List.cons_append, List.nil_append] at this
  rw [this, putOp_eq v h1 h2 h3]
  simp [keyLoc, putAt, h1, h2]

theorem putOp_related {c : Json} {P M : Str} {old : Json} (v : Json) (h : opAt c P M = some old) :
    OpsRelated (fun P' M' a b => if P' = P ∧ M' = M then b = v else b = a) c (putOp P M v c) := by
  obtain ⟨m, ps, it, rfl, h1, h2, h3⟩ := opAt_of h
  rw [putOp_eq v h1 h2 h3]
  refine ⟨fun k hk => ?_, ?_⟩
  · exact Obj.lookup_insert_ne _ _ hk
  · rw [section_obj, section_obj, h1, Obj.lookup_insert_self]
    intro P'
    by_cases hP : P' = P
    · subst hP
      rw [h2, Obj.lookup_insert_self]
      intro M'
      by_cases hM : M' = M
      · subst hM; rw [h3, Obj.lookup_insert_self]; simp [MemberRel]
      · rw [Obj.lookup_insert_ne _ _ hM]
        cases Obj.lookup M' it <;> simp [MemberRel, hM]
    · rw [Obj.lookup_insert_ne _ _ hP]
      apply ItemRel_refl
      intro M' a; simp [hP]

theorem putOp_WF {c : Json} {P M : Str} {v : Json} (h : WF c) (hv : WF v) : WF (putOp P M v c) := putAt_WF h hv

theorem opAt_related {R : Str → Str → Json → Json → Prop} {c c' : Json} (h : OpsRelated R c c') {P M : Str} {a : Json}
    (ha : opAt c P M = some a) : ∃ b, opAt c' P M = some b ∧ R P M a b := by
  obtain ⟨m, ps, it, rfl, h1, h2, h3⟩ := opAt_of ha
  rcases PathsRel_cases h.2 with ⟨x, y, e1, e2, g⟩ | ⟨n, e⟩
  · rw [section_obj, h1] at e1; cases e1
    have := g P
    rw [h2] at this
    rcases ItemRel_cases this with ⟨x, y', e3, e4, g'⟩ | ⟨n, _⟩
    · cases e3
      have := g' M
      rw [h3] at this
      cases hb : Obj.lookup M y' with
      | none => rw [hb] at this; exact this.elim
      | some b =>
        rw [hb] at this
        refine ⟨b, ?_, this⟩
        cases c' with
        | obj m' => rw [opAt_eq M e2 e4, hb]
        | _ => simp [section_, child] at e2
    · exact absurd rfl (n _)
  · exact absurd h1 (n _)

/-! ### the list of operations -/

theorem childrenMap_ok {j : Json} {m : Obj} (h : childrenMap j = .ok m) : j = .obj m ∨ (j = .null ∧ m = []) := by
  cases j <;> simp [childrenMap] at h <;> simp_all

theorem pathsGo_mem {ps : Obj} {ops : List Op} (h : pathsGo ps = .ok ops) (o : Op) :
    o ∈ ops ↔ ∃ it, (o.path, Json.obj it) ∈ ps ∧ (o.method, o.val) ∈ it ∧ o.attached = isShared o.val := by
  induction ps generalizing ops with
  | nil => simp [pathsGo] at h; subst h; simp
  | cons kv t ih =>
    obtain ⟨P, item⟩ := kv
    simp only [pathsGo] at h
    cases hc : childrenMap item with
    | err e => rw [hc] at h; simp at h
    | panic => rw [hc] at h; simp at h
    | ok m =>
      rw [hc] at h
      cases ht : pathsGo t with
      | err e => rw [ht] at h; simp at h
      | panic => rw [ht] at h; simp at h
      | ok l =>
        rw [ht] at h; simp at h; subst h
        rw [List.mem_append, ih ht]
        have hit : o ∈ itemOps P m ↔ ∃ it, o.path = P ∧ item = .obj it ∧ (o.method, o.val) ∈ it ∧ o.attached = isShared o.val := by
          unfold itemOps
          rw [List.mem_map]
          rcases childrenMap_ok hc with rfl | ⟨rfl, rfl⟩
          · constructor
            · rintro ⟨⟨k, v⟩, hkv, rfl⟩; exact ⟨m, rfl, rfl, hkv, rfl⟩
            · rintro ⟨it, rfl, e, hm, ha⟩
              cases e
              refine ⟨_, hm, ?_⟩
              cases o; simp at ha ⊢; exact ha.symm
          · simp
        rw [hit]
        constructor
        · rintro (⟨it, rfl, rfl, h1, h2⟩ | ⟨it, h1, h2, h3⟩)
          · exact ⟨it, by simp, h1, h2⟩
          · exact ⟨it, by simp [h1], h2, h3⟩
        · rintro ⟨it, h1, h2, h3⟩
          simp only [List.mem_cons, Prod.mk.injEq] at h1
          rcases h1 with ⟨e1, e2⟩ | h1
          · exact Or.inl ⟨it, e1, e2.symm, h2, h3⟩
          · exact Or.inr ⟨it, h1, h2, h3⟩

def opId (o : Op) : Str × Str := (o.path, o.method)

theorem pathsGo_nodup {ps : Obj} {ops : List Op} (h : pathsGo ps = .ok ops) (hn : (Obj.keys ps).Nodup)
    (hn2 : ∀ P it, (P, Json.obj it) ∈ ps → (Obj.keys it).Nodup) : (ops.map opId).Nodup := by
  induction ps generalizing ops with
  | nil => simp [pathsGo] at h; subst h; simp
  | cons kv t ih =>
    obtain ⟨P, item⟩ := kv
    have h0 := h
    simp only [pathsGo] at h
    cases hc : childrenMap item with
    | err e => rw [hc] at h; simp at h
    | panic => rw [hc] at h; simp at h
    | ok m =>
      rw [hc] at h
      cases ht : pathsGo t with
      | err e => rw [ht] at h; simp at h
      | panic => rw [ht] at h; simp at h
      | ok l =>
        rw [ht] at h; simp at h; subst h
        simp only [Obj.keys_cons, List.nodup_cons] at hn
        rw [List.map_append, List.nodup_append]
        refine ⟨?_, ih ht hn.2 (fun P it hm => hn2 P it (by simp [hm])), ?_⟩
        · have : (itemOps P m).map opId = (Obj.keys m).map fun k => (P, k) := by
            simp [itemOps, opId, Obj.keys, Function.comp_def]
          rw [this]
          have hm : (Obj.keys m).Nodup := by
            rcases childrenMap_ok hc with rfl | ⟨rfl, rfl⟩
            · exact hn2 P m (by simp)
            · simp
          exact List.Pairwise.map _ (fun a b hab => by simpa using hab) hm
        · intro a ha b hb hab
          subst hab
          rw [List.mem_map] at ha hb
          obtain ⟨o, ho, rfl⟩ := ha
          obtain ⟨o', ho', e⟩ := hb
          simp only [itemOps, List.mem_map] at ho
          obtain ⟨kv, _, rfl⟩ := ho
          obtain ⟨it, hm, _⟩ := (pathsGo_mem ht o').1 ho'
          have : o'.path = P := by simpa [opId] using congrArg Prod.fst e
          apply hn.1
          rw [← this]
          exact List.mem_map.2 ⟨_, hm, rfl⟩

end Oapi.OAPI
