import Verif.Proofs.GoHeap9
import Verif.Proofs.Defaults4
import Verif.Spec.Path

/-! The operations `Paths` finds, in memory and in the document. -/
namespace Oapi.GoHeap
open Spec Container

/-- Both lists name the same operation, and its container looks into the document. -/
def SameOp (h : Mem) (objs : List Val) (kvs : GoMap) (o : OAPI.Op) (w : HOp) : Prop :=
  o.path = w.path ∧ o.method = w.method ∧ o.attached = OAPI.isShared o.val ∧
    ∃ a v A, (o.path, Val.map a) ∈ kvs ∧ (o.method, v) ∈ h.mapAt a ∧ objs[w.cont]? = some v ∧ Rep h o.val v A

theorem pairwise2_mono {α β : Type} {R S : α → β → Prop} (hm : ∀ a b, R a b → S a b) : ∀ {as : List α} {bs : List β}, Pairwise2 R as bs → Pairwise2 S as bs
  | [], [], _ => trivial
  | _ :: _, _ :: _, h => ⟨hm _ _ h.1, pairwise2_mono hm h.2⟩
  | [], _ :: _, h => h.elim
  | _ :: _, [], h => h.elim

theorem pairwise2_append {α β : Type} {R : α → β → Prop} : ∀ {as : List α} {bs : List β} {as' : List α} {bs' : List β}, Pairwise2 R as bs → Pairwise2 R as' bs' →
    Pairwise2 R (as ++ as') (bs ++ bs')
  | [], [], _, _, _, h => h
  | _ :: _, _ :: _, _, _, h, h' => ⟨h.1, pairwise2_append h.2 h'⟩
  | [], _ :: _, _, _, h, _ => h.elim
  | _ :: _, [], _, _, h, _ => h.elim

theorem pairwise2_get {α β : Type} {R : α → β → Prop} : ∀ {as : List α} {bs : List β}, Pairwise2 R as bs → ∀ (i : Nat) {a b}, as[i]? = some a → bs[i]? = some b → R a b
  | [], [], _, i, a, b, h, _ => by simp at h
  | x :: _, y :: _, h, 0, a, b, ha, hb => by simp at ha hb; subst ha; subst hb; exact h.1
  | x :: _, y :: _, h, i + 1, a, b, ha, hb => pairwise2_get h.2 i (by simpa using ha) (by simpa using hb)
  | [], _ :: _, h, _, _, _, _, _ => h.elim
  | _ :: _, [], h, _, _, _, _, _ => h.elim

theorem pairwise2_map {α β γ : Type} {R : α → β → Prop} {f : α → γ} {g : β → γ} (he : ∀ a b, R a b → f a = g b) : ∀ {as : List α} {bs : List β}, Pairwise2 R as bs →
    as.map f = bs.map g
  | [], [], _ => rfl
  | x :: _, y :: _, h => by simp [he _ _ h.1, pairwise2_map he h.2]
  | [], _ :: _, h => h.elim
  | _ :: _, [], h => h.elim

/-- What one list is reordered to, the other can be. -/
theorem pairwise2_perm {α β : Type} {R : α → β → Prop} {bs bs' : List β} (hp : bs.Perm bs') : ∀ {as : List α}, Pairwise2 R as bs → ∃ as', as'.Perm as ∧ Pairwise2 R as' bs' := by
  induction hp with
  | nil => intro as h; exact ⟨as, .refl _, h⟩
  | cons b _ ih =>
    intro as h
    cases as with
    | nil => exact h.elim
    | cons a as =>
      obtain ⟨as', h1, h2⟩ := ih h.2
      exact ⟨a :: as', h1.cons a, h.1, h2⟩
  | swap b b' l =>
    intro as h
    cases as with
    | nil => exact h.elim
    | cons a as =>
      cases as with
      | nil => exact h.2.elim
      | cons a' as => exact ⟨a' :: a :: as, .swap _ _ _, h.2.1, h.1, h.2.2⟩
  | trans _ _ ih1 ih2 =>
    intro as h
    obtain ⟨as1, h1, h2⟩ := ih1 h
    obtain ⟨as2, h3, h4⟩ := ih2 h2
    exact ⟨as2, h3.trans h1, h4⟩

theorem pairwise2_flip {α β : Type} {R : α → β → Prop} : ∀ {as : List α} {bs : List β}, Pairwise2 R as bs → Pairwise2 (fun b a => R a b) bs as
  | [], [], _ => trivial
  | _ :: _, _ :: _, h => ⟨h.1, pairwise2_flip h.2⟩
  | [], _ :: _, h => h.elim
  | _ :: _, [], h => h.elim

theorem SameOp.more {h : Mem} {objs : List Val} {kvs kvs' : GoMap} {o : OAPI.Op} {w : HOp} (more : List Val) (hk : ∀ p ∈ kvs, p ∈ kvs') (hs : SameOp h objs kvs o w) :
    SameOp h (objs ++ more) kvs' o w := by
  obtain ⟨h1, h2, h3, a, v, A, h4, h5, h6, h7⟩ := hs
  refine ⟨h1, h2, h3, a, v, A, hk _ h4, h5, ?_, h7⟩
  rw [List.getElem?_append_left (List.getElem?_eq_some_iff.1 h6).1]
  exact h6

theorem itemOps_same {h : Mem} (P : Str) {a : Nat} {kvs0 : GoMap} (hP : (P, Val.map a) ∈ kvs0) : ∀ {m : List (Str × Json)} {kvs : GoMap} {F : List Nat} (objs : List Val),
    RepO h m kvs F → (∀ p ∈ kvs, p ∈ h.mapAt a) →
    ∃ more, (itemOps P kvs objs).1 = objs ++ more ∧ more.length = (itemOps P kvs objs).2.length ∧
      (itemOps P kvs objs).2.map HOp.cont = List.range' objs.length more.length ∧
      Pairwise2 (SameOp h (objs ++ more) kvs0) (OAPI.itemOps P m) (itemOps P kvs objs).2
  | [], kvs, F, objs, hr, hsub => by
    obtain ⟨rfl, rfl⟩ := hr
    exact ⟨[], by simp [itemOps], rfl, rfl, trivial⟩
  | (k, x) :: t, kvs, F, objs, hr, hsub => by
    simp only [RepO] at hr
    obtain ⟨v, vt, A, B, rfl, h1, h2, rfl, h3⟩ := hr
    obtain ⟨more, g1, g2, g3, g4⟩ := itemOps_same P hP (objs ++ [v]) h2 (fun p hp => hsub p (by simp [hp]))
    refine ⟨v :: more, ?_, ?_, ?_, ?_⟩
    · simp [itemOps, g1]
    · simp [itemOps, g2]
    · simp only [itemOps, List.map_cons, g3]
      simp [List.range'_succ]
    · simp only [itemOps, OAPI.itemOps, List.map_cons]
      refine ⟨⟨rfl, rfl, rfl, a, v, A, hP, hsub _ (by simp), by simp, h1⟩, ?_⟩
      simpa [OAPI.itemOps] using g4

/-- The values below the path items. -/
theorem children_rep {h : Mem} {j : Json} {v : Val} {F : List Nat} (hr : Rep h j v F) :
    match childrenMap j with
    | .ok m => (∃ a kvs G, v = .map a ∧ j = .obj m ∧ h[a]? = some (.map kvs) ∧ RepO h m kvs G ∧ Obj.Sorted m) ∨ (v = .null ∧ m = [])
    | .err e => children v h = .err e
    | .panic => False := by
  cases j with
  | obj m =>
    obtain ⟨hs, a, kvs, G, rfl, he, hO, ha, rfl⟩ := hr
    exact .inl ⟨a, kvs, G, rfl, rfl, he, hO, hs⟩
  | arr xs => obtain ⟨a, len, bs, G, rfl, -⟩ := hr; rfl
  | null => obtain ⟨rfl, -⟩ := hr; exact .inr ⟨rfl, rfl⟩
  | bool b => obtain ⟨rfl, -⟩ := hr; rfl
  | num n => obtain ⟨rfl, -⟩ := hr; rfl
  | str s => obtain ⟨rfl, -⟩ := hr; rfl

theorem pathsGo_same {h : Mem} : ∀ {m : List (Str × Json)} {kvs : GoMap} {F : List Nat} (objs : List Val), RepO h m kvs F →
    match OAPI.pathsGo m with
    | .ok ops => ∃ more hops, pathsGo h kvs objs = .ok (objs ++ more, hops) ∧ more.length = hops.length ∧ hops.map HOp.cont = List.range' objs.length more.length ∧
        Pairwise2 (SameOp h (objs ++ more) kvs) ops hops
    | .err e => pathsGo h kvs objs = .err e
    | .panic => False
  | [], kvs, F, objs, hr => by
    obtain ⟨rfl, rfl⟩ := hr
    exact ⟨[], [], by simp [pathsGo], rfl, rfl, trivial⟩
  | (P, x) :: t, kvs, F, objs, hr => by
    simp only [RepO] at hr
    obtain ⟨v, vt, A, B, rfl, h1, h2, rfl, h3⟩ := hr
    have hc := children_rep h1
    simp only [OAPI.pathsGo, pathsGo]
    cases hx : childrenMap x with
    | panic => rw [hx] at hc; exact hc.elim
    | err e => rw [hx] at hc; simp only at hc ⊢; simp only [hc]
    | ok m =>
      rw [hx] at hc
      have key : ∃ kvs', children v h = .ok kvs' ∧ ∃ more, (itemOps P kvs' objs).1 = objs ++ more ∧ more.length = (itemOps P kvs' objs).2.length ∧
          (itemOps P kvs' objs).2.map HOp.cont = List.range' objs.length more.length ∧
          Pairwise2 (SameOp h (objs ++ more) ((P, v) :: vt)) (OAPI.itemOps P m) (itemOps P kvs' objs).2 := by
        rcases hc with ⟨a, kvs, G, rfl, rfl, he, hO, hs⟩ | ⟨rfl, rfl⟩
        · have hm := mapAt_of he
          exact ⟨kvs, by simp [children, hm], itemOps_same P (a := a) (by simp) objs hO (by simp [hm])⟩
        · exact ⟨[], rfl, [], by simp [itemOps], rfl, rfl, trivial⟩
      obtain ⟨kvs', e1, more, e2, e3, e4, e5⟩ := key
      simp only [e1]
      have ih := pathsGo_same (objs ++ more) h2
      rw [e2]
      cases hg : OAPI.pathsGo t with
      | panic => rw [hg] at ih; exact ih.elim
      | err e => rw [hg] at ih; simp only at ih ⊢; simp only [ih]
      | ok ops =>
        rw [hg] at ih
        obtain ⟨more', hops, i1, i2, i3, i4⟩ := ih
        simp only [i1]
        refine ⟨more ++ more', (itemOps P kvs' objs).2 ++ hops, by simp, by simp [e3, i2], ?_, ?_⟩
        · rw [List.map_append, e4, i3, List.length_append, List.length_append, List.range'_append_1]
        · rw [← List.append_assoc]
          exact pairwise2_append (pairwise2_mono (fun o w hs => hs.more more' (fun p hp => hp)) e5)
            (pairwise2_mono (fun o w hs => by simpa using hs.more [] (kvs' := (P, v) :: vt) (fun p hp => by simp [hp])) i4)

theorem look_mem {k : Str} {v : Val} : ∀ {kvs : GoMap}, (kvs.map Prod.fst).Nodup → (k, v) ∈ kvs → look k kvs = some v
  | [], _, h => by simp at h
  | (k', v') :: t, hn, h => by
    simp only [List.map_cons, List.nodup_cons] at hn
    simp only [look]
    rcases List.mem_cons.1 h with h | h
    · cases h; simp
    · rw [if_neg, look_mem hn.2 h]
      exact fun e => hn.1 (List.mem_map.2 ⟨(k, v), h, e⟩)

theorem repO_keys {h : Mem} : ∀ {m : List (Str × Json)} {kvs : GoMap} {F : List Nat}, RepO h m kvs F → kvs.map Prod.fst = Obj.keys m
  | [], kvs, F, hr => by obtain ⟨rfl, rfl⟩ := hr; rfl
  | (k, x) :: t, kvs, F, hr => by
    simp only [RepO] at hr
    obtain ⟨v, vt, A, B, rfl, h1, h2, rfl, h3⟩ := hr
    simp only [List.map_cons, repO_keys h2]
    rfl

theorem dot_paths : Gabs.dotPathToSlice b!"paths" = [b!"paths"] := by decide +kernel

/-- The section with the path items. -/
theorem section_rep {h : Mem} {cnt : Json} {o : Val} {F : List Nat} (hr : Rep h cnt o F) :
    ∃ A, Rep h (Container.data (Container.path cnt b!"paths")) (((search [b!"paths"] o h).2).getD .null) A ∧
      (∀ m, Container.data (Container.path cnt b!"paths") = .obj m → ∃ a kvs, o = .map a ∧ h[a]? = some (.map kvs) ∧
        look b!"paths" kvs = some (((search [b!"paths"] o h).2).getD .null) ∧ ∃ top, cnt = .obj top ∧ Obj.lookup b!"paths" top = some (.obj m)) := by
  have hn : Container.path cnt b!"paths" = none → (search [b!"paths"] o h).2 = none → ∃ A, Rep h (Container.data (Container.path cnt b!"paths")) (((search [b!"paths"] o h).2).getD .null) A ∧
      (∀ m, Container.data (Container.path cnt b!"paths") = .obj m → ∃ a kvs, o = .map a ∧ h[a]? = some (.map kvs) ∧
        look b!"paths" kvs = some (((search [b!"paths"] o h).2).getD .null) ∧ ∃ top, cnt = .obj top ∧ Obj.lookup b!"paths" top = some (.obj m)) := by
    intro h1 h2
    rw [h1, h2]
    exact ⟨[], ⟨rfl, rfl⟩, fun m e => by cases e⟩
  cases cnt with
  | obj m =>
    obtain ⟨hs, a, kvs, G, rfl, he, hO, ha, rfl⟩ := hr
    obtain ⟨A, hC, -, -⟩ := repO_focus b!"paths" hs hO
    have hm := mapAt_of he
    cases hl : Obj.lookup b!"paths" m with
    | none =>
      rw [hl] at hC
      have hk : look b!"paths" kvs = none := by
        cases hk : look b!"paths" kvs with
        | none => rfl
        | some v => rw [hk] at hC; exact hC.elim
      exact hn (by simp only [Container.path, dot_paths, Gabs.search, hl]) (by simp only [search, hm, hk])
    | some x =>
      rw [hl] at hC
      obtain ⟨v, hk, hv⟩ := repC_some hC
      have e1 : Container.path (.obj m) b!"paths" = some x := by simp only [Container.path, dot_paths, Gabs.search, hl]
      have e2 : (search [b!"paths"] (.map a) h).2 = some v := by simp only [search, hm, hk]
      rw [e1, e2]
      exact ⟨A, hv, fun m' e => ⟨a, kvs, rfl, he, hk, m, rfl, by rw [hl]; exact congrArg some e⟩⟩
  | arr xs =>
    obtain ⟨a, len, bs, G, rfl, -⟩ := hr
    have hi : ∀ n, Gabs.arrIndex b!"paths" n = none := fun n => by
      have : Str.atoi b!"paths" = none := by decide +kernel
      simp [Gabs.arrIndex, this]
    have hne : (b!"paths" : Str) ≠ b!"*" := by decide
    exact hn (by simp only [Container.path, dot_paths, Gabs.search, if_neg hne, hi]) (by simp only [search, if_neg hne, hi])
  | null => obtain ⟨rfl, -⟩ := hr; exact hn (by simp only [Container.path, dot_paths, Gabs.search]) rfl
  | bool b => obtain ⟨rfl, -⟩ := hr; exact hn (by simp only [Container.path, dot_paths, Gabs.search]) rfl
  | num n => obtain ⟨rfl, -⟩ := hr; exact hn (by simp only [Container.path, dot_paths, Gabs.search]) rfl
  | str s => obtain ⟨rfl, -⟩ := hr; exact hn (by simp only [Container.path, dot_paths, Gabs.search]) rfl

theorem scalar_parts {h : Mem} {j : Json} {v : Val} {A : List Nat} (hr : Rep h j v A) (hs : OAPI.isShared j = false) : A = [] := by
  cases j with
  | obj m => cases hs
  | arr m => cases hs
  | null => exact hr.2
  | bool b => exact hr.2
  | num b => exact hr.2
  | str b => exact hr.2

theorem shared_ref {h : Mem} {j : Json} {v : Val} {A : List Nat} (hr : Rep h j v A) (hs : OAPI.isShared j = true) : v.isRef = true := by
  cases j with
  | obj m => obtain ⟨-, a, kvs, G, rfl, -⟩ := hr; rfl
  | arr m => obtain ⟨a, kvs, bs, G, rfl, -⟩ := hr; rfl
  | null => cases hs
  | bool b => cases hs
  | num b => cases hs
  | str b => cases hs

/-- After `Paths`: the operations look into the document. -/
theorem paths_inv {h : Heap} {c : Nat} {cnt : Json} {F : List Nat} (hc : c < h.objs.length) (hr : Rep h.mem cnt (data h (some c)) F) (K : List (Nat × Json × List Nat))
    (hK : ∀ q ∈ K, q.1 < h.objs.length ∧ q.1 ≠ c ∧ Rep h.mem q.2.1 (data h (some q.1)) q.2.2 ∧ ∀ a ∈ q.2.2, a ∉ F) :
    match OAPI.paths cnt with
    | .ok ops => ∃ h' hops, paths c h = .ok (h', hops) ∧ ∃ R, Pairwise2 R ops hops ∧
        ∀ ops' hops', ops'.Perm ops → hops'.Perm hops → Pairwise2 R ops' hops' → Inv h' c ⟨cnt, ops'⟩ hops' F (fun _ => []) K
    | .err e => paths c h = .err e
    | .panic => False := by
  obtain ⟨A, hs, htop⟩ := section_rep hr
  have hc' := children_rep hs
  unfold OAPI.paths paths
  rw [dot_paths]
  cases hx : childrenMap (Container.data (Container.path cnt b!"paths")) with
  | panic => rw [hx] at hc'; exact hc'.elim
  | err e => rw [hx] at hc'; simp only at hc' ⊢; simp only [hc']
  | ok m =>
    rw [hx] at hc'
    rcases hc' with ⟨a, kvs, G, e1, e2, he, hO, hsort⟩ | ⟨e1, rfl⟩
    · obtain ⟨a0, kvs0, t1, t2, t3, top, rfl, t5⟩ := htop m e2
      rw [e1] at t3
      have hm := mapAt_of he
      simp only [e1, children, hm]
      have hp := pathsGo_same h.objs hO
      cases hg : OAPI.pathsGo m with
      | panic => rw [hg] at hp; exact hp.elim
      | err e => rw [hg] at hp; simp only at hp ⊢; simp only [hp]
      | ok ops =>
        rw [hg] at hp
        obtain ⟨more, hops, p1, p2, p3, p4⟩ := hp
        simp only [p1]
        refine ⟨_, _, rfl, _, p4, ?_⟩
        intro ops' hops' q1 q2 q3
        have hd : data ⟨h.mem, h.objs ++ more⟩ (some c) = data h (some c) := by
          simp [data, List.getD, List.getElem?_append_left hc]
        have hkeys : ∀ o ∈ hops, h.objs.length ≤ o.cont ∧ o.cont < h.objs.length + more.length := by
          intro o ho
          have : o.cont ∈ hops.map HOp.cont := List.mem_map.2 ⟨o, ho, rfl⟩
          rw [p3, List.mem_range'_1] at this
          exact this
        have hwfm : Json.WF (.obj m) := rep_wf _ _ _ (e2 ▸ hs)
        have hnd : (ops.map (fun o => (o.path, o.method))).Nodup := by
          refine OAPI.pathsGo_nodup hg (Obj.sorted_nodup hsort) ?_
          intro P it hmem
          have := (Json.WFO_iff _).1 ((Json.WF_obj _).1 hwfm).2 _ hmem
          exact Obj.sorted_nodup ((Json.WF_obj _).1 this).1
        refine ⟨?_, ?_, ?_, ?_, ?_, ?_, ?_, by simp, by simp, by simp, ?_⟩
        · simp only [List.length_append]; omega
        · rw [hd]; exact hr
        · exact pairwise2_map (fun o w hs => by rw [hs.1, hs.2.1]) q3
        · exact ((q1.map _).nodup_iff).2 hnd
        · rw [(q2.map _).nodup_iff, p3]
          exact List.nodup_range'
        · intro o ho
          have := hkeys o ((q2.mem_iff).1 ho)
          simp only [List.length_append]
          omega
        · intro i o w hi hw
          obtain ⟨s1, s2, s3, a', v, A', s4, s5, s6, s7⟩ := pairwise2_get q3 i hi hw
          have hv : data ⟨h.mem, h.objs ++ more⟩ (some w.cont) = v := by
            simp only [data, List.getD, s6, Option.getD_some]
          unfold OpInv
          rw [hv, s3]
          split
          · rename_i hsh
            have hl1 : look o.path kvs = some (.map a') := look_mem (by rw [repO_keys hO]; exact Obj.sorted_nodup hsort) s4
            obtain ⟨B, hC, -, -⟩ := repO_focus o.path hsort hO
            rw [hl1] at hC
            cases hlo : Obj.lookup o.path m with
            | none => rw [hlo] at hC; exact hC.elim
            | some it =>
              rw [hlo] at hC
              have hC : Rep h.mem it (.map a') B := hC
              cases it with
              | obj im =>
                obtain ⟨his, a2, kvs2, G2, ea, he2, hO2, -, -⟩ := hC
                cases ea
                have hm2 := mapAt_of he2
                rw [hm2] at s5
                have hl2 : look o.method kvs2 = some v := look_mem (by rw [repO_keys hO2]; exact Obj.sorted_nodup his) s5
                have hmem := (OAPI.pathsGo_mem hg o).1 ((q1.mem_iff).1 (List.mem_of_getElem? hi))
                obtain ⟨it', u1, u2, -⟩ := hmem
                have := Obj.lookup_of_mem (Obj.sorted_nodup hsort) u1
                rw [hlo] at this
                cases this
                have hl3 := Obj.lookup_of_mem (Obj.sorted_nodup his) u2
                refine ⟨?_, ?_, shared_ref s7 hsh, rfl⟩
                · rw [hd, t1]
                  simp only [keysOf, walkM, mapAt_of t2, t3, hm, hl1, hm2, hl2]
                · simp [keysOf, keyLoc, getAt, child, t5, hlo, hl3]
              | arr xs => obtain ⟨_, _, _, _, e, -⟩ := hC; cases e
              | null => exact absurd hC.1 (by simp)
              | bool b => exact absurd hC.1 (by simp)
              | num b => exact absurd hC.1 (by simp)
              | str b => exact absurd hC.1 (by simp)
          · rename_i hsh
            have := scalar_parts s7 (by simpa using hsh)
            rw [this] at s7
            exact s7
        · intro q hq
          obtain ⟨k1, k2, k3, k4⟩ := hK q hq
          have hdq : data ⟨h.mem, h.objs ++ more⟩ (some q.1) = data h (some q.1) := by
            simp [data, List.getD, List.getElem?_append_left k1]
          refine ⟨⟨by simp only [List.length_append]; omega, k2, ?_⟩, by rw [hdq]; exact k3, k4, by simp⟩
          intro o ho
          have := hkeys o ((q2.mem_iff).1 ho)
          omega
    · simp only [e1, children, OAPI.pathsGo, pathsGo]
      refine ⟨_, _, rfl, fun _ _ => True, trivial, ?_⟩
      intro ops' hops' q1 q2 _
      rw [List.Perm.eq_nil q1, List.Perm.eq_nil q2]
      exact ⟨hc, hr, rfl, .nil, .nil, by simp, by simp, by simp, by simp, by simp, fun q hq => by
        obtain ⟨k1, k2, k3, k4⟩ := hK q hq
        exact ⟨⟨k1, k2, by simp⟩, k3, k4, by simp⟩⟩

end Oapi.GoHeap
