import Verif.Proofs.Det6
import Verif.Proofs.Scan2

/-! Whole scans in every order. -/
namespace Oapi.Scan
open Spec Container

variable {F : Type} {inp : Input F} {o : Orders}

/-- The default operations of a scan, as a relation. -/
theorem defaults_rel (ho : OrdersOK inp o) (r : Json) :
    OAPI.SetPathsDefaults inp.matches_ r inp.defops (match OAPI.paths r with
      | .err e => .err e
      | .panic => .panic
      | .ok ops => OAPI.runDefaults inp.matches_ r (o.ops ops) (o.defops inp.defops)) := by
  unfold OAPI.SetPathsDefaults
  cases h : OAPI.paths r with
  | ok ops => exact ⟨_, _, ho.ops ops, ho.defops _, rfl⟩
  | err e => rfl
  | panic => rfl

theorem mem_hits {mt : Str → Str → Str → Res Bool} {defops : List (Str × Json)} {P M : Str} {d : Json} (h : d ∈ hits mt defops P M) :
    ∃ k, (k, d) ∈ defops := by
  unfold hits at h
  rw [List.mem_map] at h
  obtain ⟨e, he, rfl⟩ := h
  exact ⟨e.1, (List.mem_filter.1 he).1⟩

/-- What the document after the default operations has. -/
structure Finished (inp : Input F) (r out : Json) : Prop where
  refs : ∀ x, HasRef out x → HasRef r x ∨ ∃ d ∈ inp.defops, HasRef d.2 x
  rest : ∀ k L, k ≠ b!"paths" → getAt out (.key k :: L) = getAt r (.key k :: L)
  ops : ∃ defops', defops'.Perm inp.defops ∧ OpsRelated (fun P M a b => OpOutcome (hits inp.matches_ defops' P M) a b) r out
  wf : Json.WF out

/-- Resolution and default operations, whatever the orders. -/
theorem finish_one {pre : Prepared} {U : List Str} (hi : InputOK inp) (ho : OrdersOK inp o) (hp : prepare inp o = .ok pre)
    (hs : Setting (cfg inp o pre) pre.doc) (hcyc : CyclesExported (cfg inp o pre) pre.doc) (hsolv : Solvable (cfg inp o pre) pre.doc U)
    (h1 : OneShortest inp.prog.env pre.points) (hd : DefaultsOK inp pre.doc) :
    ∃ r out, (∃ n, Resolver.resolve (cfg inp o pre) n pre.doc = .ok r) ∧ Finished inp r out ∧
      ∀ o', OrdersOK inp o' → ∀ fuel, U.length + 1 ≤ fuel → scan inp o' fuel = .ret (some out) (some .decode) := by
  obtain ⟨r, hr⟩ := Props.C31_one_result hs hcyc hsolv
  have hr0 := hr (cfg inp o pre).ord hs.good.ord (U.length + 1) (Nat.le_refl _)
  obtain ⟨hpl, hw⟩ := Resolver.resolved_paths hs.good hs.tidy hs.receives hs.bare hd.items hd.plain hr0
  have hobj : ∃ m, r = .obj m := by
    obtain ⟨m, hm⟩ := prepare_isObj hp
    rw [hm] at hr0
    exact resolve_isObj hr0
  obtain ⟨m, rfl⟩ := hobj
  have hnd : NoDots inp.matches_ inp.defops (.obj m) := by
    intro P M v hv hh
    obtain ⟨b, hb, _⟩ := hpl.ops P M v hv
    exact hd.nodots P M b hb hh
  have hgood : PathItemsOk (.obj m) ∧
      (∀ d ∈ inp.defops, ∀ P M a, opAt (.obj m) P M = some a → ∃ b, inp.matches_ d.1 M P = .ok b) ∧
      (∀ P M a, opAt (.obj m) P M = some a → (∀ d ∈ hits inp.matches_ inp.defops P M, d = .obj []) ∨ a = .null ∨ ∃ m, a = .obj m) := by
    refine ⟨hpl.items, ?_, ?_⟩
    · intro d hdm P M a ha
      obtain ⟨b, hb, _⟩ := hpl.ops P M a ha
      exact hd.answers d hdm P M b hb
    · intro P M a ha
      obtain ⟨b, hb, k1, k2⟩ := hpl.ops P M a ha
      rcases hd.objects P M b hb with h | h | h
      · exact .inl h
      · exact .inr (.inl (k1 h))
      · exact .inr (.inr (k2 h))
  have hagree : ∀ P M a, opAt (.obj m) P M = some a → (hits inp.matches_ inp.defops P M).Pairwise fun x y => ¬ Conflict x y := by
    intro P M a ha
    obtain ⟨b, hb, _⟩ := hpl.ops P M a ha
    exact hd.agree P M b hb
  obtain ⟨out, hout⟩ := (Props.C23_succeeds_iff hw hnd hd.defs (defaults_rel ho (.obj m))).2 hgood
  have hrel := defaults_rel (inp := inp) ho (.obj m)
  rw [hout] at hrel
  obtain ⟨defops', hperm, hwo, hops⟩ := Props.C23_defaults_fill_gaps hw hnd hd.defs hrel
  refine ⟨.obj m, out, ⟨_, hr0⟩, ?_, ?_⟩
  · have hobj : ∃ m', out = .obj m' := by
      clear hops hrel hwo
      split at hout
      · cases hout
      · cases hout
      · exact runDefaults_isObj hout
    obtain ⟨m', rfl⟩ := hobj
    refine ⟨?_, ?_, ⟨defops', hperm, hops⟩, hwo⟩
    · intro x hx
      rcases opsRelated_refs hops (fun P M a h => opOutcome_str h) hx with h | ⟨P, M, a, b, ha, hab, hbx⟩
      · exact .inl h
      · rcases opOutcome_refs hab hbx with h | ⟨d, hd', h⟩
        · obtain ⟨L, hL⟩ := h
          refine .inl ⟨[.key b!"paths", .key P, .key M] ++ L, ?_⟩
          rw [List.append_assoc, getAt_append, show getAt (.obj m) [.key b!"paths", .key P, .key M] = some a from ha]
          exact hL
        · obtain ⟨k, hk⟩ := mem_hits hd'
          exact .inr ⟨(k, d), hperm.mem_iff.1 hk, h⟩
    · intro k L hk
      have := hops.1 k hk
      simp only [section_] at this
      simp only [getAt, this]
  · intro o' ho' fuel hf
    obtain ⟨pre', hp', hsame⟩ := prepare_same hi ho ho' hp
    obtain ⟨runs, hruns⟩ := prepare_scanned hi ho hp
    obtain ⟨runs', hruns'⟩ := prepare_scanned hi ho' hp'
    have hres := resolveFn_same ho ho' hi.prog hruns hruns' hsame.points h1
    have hR : Resolver.resolve (cfg inp o' pre') fuel pre'.doc = .ok (.obj m) := by
      rw [← hsame.doc, Resolver.resolve_exp (cfg := { cfg inp o pre with ord := o'.resolver }) (cfg' := cfg inp o' pre') hres.symm
        (fun p => (hsame.get p).symm) rfl]
      exact hr o'.resolver ho'.resolver fuel hf
    have hrel' := defaults_rel (inp := inp) ho' (.obj m)
    have hfin := Props.C24_order_irrelevant_without_conflict hw hnd hd.defs hagree hrel hrel'
    have : finish inp o' fuel pre' = .ok out := by
      unfold finish
      rw [hR]
      exact hfin
    unfold scan
    rw [hp']
    simp only [this]
    have hobj := finish_isObj (prepare_isObj hp') this
    obtain ⟨m', rfl⟩ := hobj
    rfl

end Oapi.Scan
