import Verif.Proofs.Det10
import Verif.Spec.Whole

/-! What pointers resolve to in a scan. -/
namespace Oapi.Resolver
open Spec

/-- The component of an exported pointer that is met is the expansion of what it resolves to. -/
theorem component_is {cfg : Cfg} {c r : Json} {n : Nat} (hs : Setting cfg c) (hcyc : CyclesExported cfg c) (h : resolve cfg n c = .ok r)
    {p : Pointer} {e : Export} {d : Json} (hR : Reach cfg c p) (he : get cfg.exp p = some e) (hd : cfg.res p = .ok d) :
    ∃ v, Expansion cfg d v ∧ getAt r (compLoc e) = some v := by
  obtain ⟨D, T, h1, h2, h3, rfl, h5, h6⟩ := resolve_spec hs.good hs.tidy hs.receives hs.bare hs.bares hcyc h
  obtain ⟨D', log, k1, k2, k3, k4⟩ := resolve_ok hs.good hs.tidy hs.receives h
  obtain ⟨v0, hv0⟩ := k3.2 e (reach_need hs.good.byString hR he)
  obtain ⟨q, d', m1, m2, m3, m4⟩ := (k3.1 _ hv0).1.expansion hcyc .top hs.bares
  have hT : (e, v0) ∈ T := (h3 e v0).2 ⟨q, d', m1, m2, m3, m4⟩
  obtain ⟨v', g1, e', g2, g3⟩ := component_present h6 hT h5
  obtain ⟨q', d'', n1, n2, n3, n4⟩ := (h3 e' v').1 g2
  have hpq : q'.toStr = p.toStr := by
    rw [← (get_mem n2).2, ← (get_mem he).2]
    exact hs.good.apart _ (get_mem n2).1 _ (get_mem he).1 g3
  have : d'' = d := by
    have := hs.good.byString q' p n1 hR hpq
    rw [n3, hd] at this; cases this; rfl
  subst this
  exact ⟨v', n4, g1⟩

end Oapi.Resolver

namespace Oapi.Scan
open Spec Types

variable {F : Type} {inp : Input F} {o : Orders} {pre : Prepared}

theorem describes_congr {env : Env} {m m' : PMap} {std : Str → Option (Schema F)} {zero : F} {tg : TagP.Tag F}
    (hm : ∀ u p, BestPoint m u p → BestPoint m' u p) {seen : List GoType} {t : GoType} {s : Schema F}
    (h : TypeDescribes env m std zero tg seen t s) : TypeDescribes env m' std zero tg seen t s := by
  induction h with
  | ref h1 h2 h3 => exact .ref h1 (hm _ _ h2) h3
  | std h1 h2 h3 => exact .std h1 (hm _ _ h2) h3
  | basic h1 h2 h3 => exact .basic h1 h2 h3
  | slice h1 h2 _ ih => exact .slice h1 h2 ih
  | array h1 h2 _ ih => exact .array h1 h2 ih
  | map h1 h2 _ ih => exact .map h1 h2 ih
  | pointer h1 h2 _ h3 ih => exact .pointer h1 h2 ih h3
  | pointerRef h1 h2 _ h3 h4 ih => exact .pointerRef h1 h2 ih h3 h4
  | pointerOne h1 h2 _ h3 h4 ih => exact .pointerOne h1 h2 ih h3 h4

theorem struct_congr {env : Env} {m m' : PMap} {tagOf : Str → Res (TagP.Tag F)} {std : Str → Option (Schema F)} {zero : F}
    (hm : ∀ u p, BestPoint m u p → BestPoint m' u p) {fs : List (FieldInfo × GoType)} {fields : List (StructField F × Schema F)} {s : Schema F}
    (h : StructDescribes env tagOf m std zero fs fields s) : StructDescribes env tagOf m' std zero fs fields s := by
  obtain ⟨h1, h2, h3⟩ := h
  refine ⟨h1, ?_, h3⟩
  intro e he
  have := h2 e he
  unfold FieldDescribes at this ⊢
  split
  · rename_i hn
    rw [if_pos hn] at this
    exact describes_congr hm this
  · rename_i hn
    rw [if_neg hn] at this
    exact this

/-- Whatever a scan resolves a pointer to stands for it. -/
theorem resolveFn_stands (hi : InputOK inp) (ho : OrdersOK inp o) (hs : SchemasOK inp) (hp : prepare inp o = .ok pre)
    {p : Pointer} {d : Json} (h : resolveFn inp o pre.points p = .ok d) : Stands inp pre.points p d := by
  unfold resolveFn at h
  cases hl : inp.override.lookup p.toStr with
  | some d' => rw [hl] at h; cases h; exact .inl hl
  | none =>
    rw [hl] at h
    simp only at h
    have hno : ∀ d', (p.toStr, d') ∉ inp.override := by
      intro d' hd'
      have := List.lookup_eq_none_iff.1 hl _ hd'
      simp at this
    split at h
    · rename_i hsch
      refine .inr ⟨hno, hsch, ?_⟩
      obtain ⟨runs, hc⟩ := scan_converts hi ho hs hp
      have hc := hc p.toStr
      obtain ⟨runs', hr⟩ := prepare_scanned hi ho hp
      have hinv := scan_inv hi.prog hr
      have hfp : (ctx inp o pre.points p.toStr).m.findType p = pre.points.findType p := hinv.find_perm (ho.types _ _) p
      have hbest : ∀ u q, BestPoint (ctx inp o pre.points p.toStr).m u q → BestPoint pre.points u q := by
        rintro u q ⟨h1, h2, h3⟩
        rw [show (ctx inp o pre.points p.toStr).m.at u = pre.points.at u from at_perm hinv.nodup (ho.types _ _) u] at h1 h2
        rw [show (ctx inp o pre.points p.toStr).m.findType q = pre.points.findType q from hinv.find_perm (ho.types _ _) q] at h3
        exact ⟨h1, h2, h3⟩
      cases hf : (ctx inp o pre.points p.toStr).m.findType p with
      | none =>
        exfalso
        unfold Types.resolve at h
        rw [hf] at h
        cases h
      | some u =>
        rcases Props.C38_outcome hc hf with ⟨_, e, he, _⟩ | ⟨_, s, hres⟩
        · rw [he] at h; cases h
        · rw [hres] at h
          simp only [make] at h
          split at h
          · cases h
            refine ⟨u, s, hfp.symm.trans hf, ?_, rfl⟩
            by_cases hst : ∃ fs, u = .struct fs
            · obtain ⟨fs, rfl⟩ := hst
              obtain ⟨fields, hd⟩ := Props.C38_describes_struct hc hf hres
              exact .inl ⟨fs, fields, rfl, struct_congr hbest hd⟩
            · exact .inr ⟨fun fs e => hst ⟨fs, e⟩, describes_congr hbest (Props.C38_describes hc hf (fun fs e => hst ⟨fs, e⟩) hres)⟩
          · cases h
    · cases h

end Oapi.Scan
