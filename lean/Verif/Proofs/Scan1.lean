import Verif.Model.Scan
import Verif.Proofs.Gabs

/- The document stays an object through all stages. -/
namespace Oapi.Scan
open Container

theorem setGo_isObj {v : Json} {root : Bool} {s : Str} {p : List Str} {m : Obj} {r : Json}
    (h : Gabs.setGo v root (s :: p) (.obj m) = .ok r) : ∃ m', r = .obj m' := by
  unfold Gabs.setGo at h
  simp only at h
  split at h
  · cases h; exact ⟨_, rfl⟩
  · split at h
    · cases h; exact ⟨_, rfl⟩
    · cases h
    · cases h

theorem set_isObj {v : Json} {s : Str} {p : List Str} {m : Obj} {r : Json} (h : Gabs.set v (s :: p) (.obj m) = .ok r) :
    ∃ m', r = .obj m' := setGo_isObj (root := true) (m := m) h

theorem dotPath_cons (p : Str) : ∃ s l, Gabs.dotPathToSlice p = s :: l := by
  unfold Gabs.dotPathToSlice
  cases h : Str.split 46 p with
  | nil => exact absurd h (Str.split_ne_nil 46 p)
  | cons a l => exact ⟨_, _, rfl⟩

theorem setP_isObj {m : Obj} {p : Str} {v r : Json} (h : setP (.obj m) p v = .ok r) : ∃ m', r = .obj m' := by
  obtain ⟨s, l, e⟩ := dotPath_cons p
  unfold setP at h
  rw [e] at h
  exact set_isObj h

mutual
theorem mergeMap_isObj {f : Merger} {m : Obj} {p : List Str} (kvs : List (Str × Json)) {r : Json}
    (h : mergeMap f (.obj m) p kvs = .ok r) : ∃ m', r = .obj m' := by
  match kvs with
  | [] => rw [mergeMap] at h; cases h; exact ⟨_, rfl⟩
  | (k, v) :: t =>
    rw [mergeMap] at h
    split at h
    · rename_i c' hc
      obtain ⟨m', rfl⟩ := mergeOne_isObj v hc (by simp)
      exact mergeMap_isObj t h
    · cases h
    · cases h
termination_by structural kvs
theorem mergeOne_isObj {f : Merger} {m : Obj} {p : List Str} (v : Json) {r : Json}
    (h : mergeOne f (.obj m) p v = .ok r) (hp : p ≠ []) : ∃ m', r = .obj m' := by
  have hcol : ∀ {a b : Json}, collide f (.obj m) p a b = .ok r → ∃ m', r = .obj m' := by
    intro a b hc
    unfold collide at hc
    split at hc
    · match p, hp with
      | s :: l, _ => exact set_isObj hc
    · cases hc
    · cases hc
  match v with
  | .obj t =>
    rw [mergeOne] at h
    split at h
    · match p, hp with
      | s :: l, _ => exact set_isObj h
    · rename_i ex _
      cases ex with
      | obj m' => exact mergeMap_isObj t h
      | _ => exact hcol h
  | .null | .bool _ | .num _ | .str _ | .arr _ =>
    rw [mergeOne] at h
    split at h
    · match p, hp with
      | s :: l, _ => exact set_isObj h
    · exact hcol h
termination_by structural v
end

theorem merge_isObj {f : Merger} {m : Obj} {s r : Json} (h : merge (.obj m) s f = .ok r) : ∃ m', r = .obj m' := by
  unfold merge at h
  split at h
  · exact mergeMap_isObj _ h
  · cases h; exact ⟨_, rfl⟩

theorem mergeFrom_isObj {f : Merger} (l : List Json) : ∀ {m : Obj} {r : Json}, mergeFrom f (.obj m) l = .ok r → ∃ m', r = .obj m' := by
  induction l with
  | nil => intro m r h; cases h; exact ⟨_, rfl⟩
  | cons x t ih =>
    intro m r h
    unfold mergeFrom at h
    split at h
    · rename_i c' hc
      obtain ⟨m', rfl⟩ := merge_isObj hc
      exact ih h
    · cases h
    · cases h

theorem mergeAll_isObj {f : Merger} {l : List Json} {r : Json} (h : mergeAll f l = .ok r) : ∃ m', r = .obj m' := mergeFrom_isObj l h

theorem mergeSections_isObj {root : Json} (l : List (Str × Merger)) : ∀ {m : Obj} {r : Json},
    OAPI.mergeSections root l (.obj m) = .ok r → ∃ m', r = .obj m' := by
  induction l with
  | nil => intro m r h; cases h; exact ⟨_, rfl⟩
  | cons x t ih =>
    intro m r h
    obtain ⟨k, f⟩ := x
    unfold OAPI.mergeSections at h
    split at h
    · rename_i c' hc
      have : ∃ m', c' = .obj m' := by
        unfold OAPI.mergeSection at hc
        split at hc
        · cases hc; exact ⟨_, rfl⟩
        · unfold OAPI.mergeInto at hc
          split at hc
          · split at hc
            · exact merge_isObj hc
            · cases hc
            · cases hc
          · cases hc
          · cases hc
        · cases hc
        · cases hc
      obtain ⟨m', rfl⟩ := this
      exact ih h
    · cases h
    · cases h

theorem mergeWithRoot_isObj {root : Json} {m : Obj} {r : Json} (h : OAPI.mergeWithRoot root (.obj m) = .ok r) : ∃ m', r = .obj m' :=
  mergeSections_isObj _ h

/-! ### The resolver -/
section
open Resolver

/-- The resolver's document is an object. -/
def ConObj (st : Resolver.St) : Prop := ∃ m, st.con = .obj m

theorem setCur_obj {cx cx' : Cur} {st st' : Resolver.St} {key : Str} {v : Json} (ho : ConObj st)
    (h : setCur cx st key v = .ok (cx', st')) : ConObj st' := by
  unfold setCur at h
  split at h
  · cases h
  · cases h
  · rename_i j hj
    cases cx with
    | none =>
      cases h
      obtain ⟨m, hm⟩ := ho
      unfold readCur at hj
      rw [Option.getD_none, hm] at hj
      exact setP_isObj hj
    | some c => cases h; exact ho

theorem replacePtr_obj {cx cx' : Cur} {st st' : Resolver.St} {key : Str} {v : Json} (ho : ConObj st)
    (h : replacePtr cx st key v = .ok (cx', st')) : ConObj st' := by
  unfold replacePtr at h
  split at h
  · cases h
  · exact setCur_obj ho h

theorem updateLocal_obj {cx cx' : Cur} {st st' : Resolver.St} {key : Str} {f : Fragment} (ho : ConObj st)
    (h : updateLocal cx st key f = .ok (cx', st')) : ConObj st' := by
  unfold updateLocal at h
  split at h
  · cases h
  · exact setCur_obj ho h

theorem set_obj {cfg : Cfg} {cx cx' : Cur} {st st' : Resolver.St} {p : Pointer} {key : Str} {v : Json} (ho : ConObj st)
    (h : Resolver.set cfg cx st p key v = .ok (cx', st')) : ConObj st' := by
  unfold Resolver.set at h
  split at h
  · exact replacePtr_obj ho h
  · split at h
    · cases h
    · cases h
    · rename_i con hc
      obtain ⟨m, hm⟩ := ho
      rw [hm] at hc
      exact updateLocal_obj (st := { st with con := con }) (setP_isObj hc) h

theorem setRecursive_obj {cfg : Cfg} {cx cx' : Cur} {st st' : Resolver.St} {p : Pointer} {key : Str} (ho : ConObj st)
    (h : setRecursive cfg cx st p key = .ok (cx', st')) : ConObj st' := by
  unfold setRecursive at h
  split at h
  · split at h
    · exact updateLocal_obj ho h
    · exact replacePtr_obj ho h
  · exact replacePtr_obj ho h

theorem loop_obj {cfg : Cfg} {call : List Str → Json → Resolver.St → Res (Cur × Resolver.St)} {pp : List Str}
    (hcall : ∀ pp j st cx' st', ConObj st → call pp j st = .ok (cx', st') → ConObj st') (l : List (Str × Json)) :
    ∀ {cx cx' : Cur} {st st' : Resolver.St}, ConObj st → loop cfg call pp l cx st = .ok (cx', st') → ConObj st' := by
  induction l with
  | nil => intro cx cx' st st' ho h; cases h; exact ho
  | cons x t ih =>
    obtain ⟨key, v⟩ := x
    intro cx cx' st st' ho h
    unfold loop at h
    split at h
    · cases h
    · cases h
    · rename_i cx1 st1 hv
      refine ih ?_ h
      unfold visit at hv
      split at hv
      · split at hv
        · cases hv
        · cases hv
        · split at hv
          · cases hv; exact ho
          · split at hv
            · exact setRecursive_obj ho hv
            · split at hv
              · cases hv
              · cases hv
              · split at hv
                · cases hv
                · cases hv
                · rename_i hc
                  exact set_obj (hcall _ _ _ _ _ ho hc) hv
      · cases hv; exact ho

theorem iter_obj {cfg : Cfg} (n : Nat) : ∀ {pp : List Str} {cx cx' : Cur} {st st' : Resolver.St}, ConObj st →
    iter cfg n pp cx st = .ok (cx', st') → ConObj st' := by
  induction n with
  | zero => intro pp cx cx' st st' _ h; cases h
  | succ n ih =>
    intro pp cx cx' st st' ho h
    unfold iter at h
    split at h
    · cases h
    · cases h
    · exact loop_obj (fun _ _ _ _ _ ho h => ih ho h) _ (st := { st with clock := st.clock + 1 }) ho h

theorem resolve_isObj {cfg : Cfg} {n : Nat} {m : Obj} {r : Json} (h : resolve cfg n (.obj m) = .ok r) : ∃ m', r = .obj m' := by
  unfold resolve at h
  split at h
  · cases h
  · cases h
  · rename_i cx st hi
    cases h
    exact iter_obj n (st := ⟨.obj m, 0⟩) ⟨m, rfl⟩ hi
end

/-! ### Default operations -/
section
open OAPI

theorem applyAt_obj {ov : Json} {st st' : OAPI.St} {i : Nat} (ho : ∃ m, st.cnt = .obj m) (h : applyAt ov st i = .ok st') :
    ∃ m, st'.cnt = .obj m := by
  obtain ⟨m, hm⟩ := ho
  unfold applyAt at h
  split at h
  · cases h; exact ⟨m, hm⟩
  · split at h
    · split at h
      · rename_i hc1
        rename_i cnt1
        have : ∃ m', cnt1 = .obj m' := by
          split at hc1
          · rw [hm] at hc1; exact set_isObj hc1
          · cases hc1; exact ⟨m, hm⟩
        obtain ⟨m', rfl⟩ := this
        split at h
        · rename_i hc2
          cases h
          exact setP_isObj hc2
        · cases h
        · cases h
      · cases h
      · cases h
    · cases h
    · cases h

theorem applyAll_obj {ov : Json} (l : List Nat) : ∀ {st st' : OAPI.St}, (∃ m, st.cnt = .obj m) → applyAll ov l st = .ok st' →
    ∃ m, st'.cnt = .obj m := by
  induction l with
  | nil => intro st st' ho h; cases h; exact ho
  | cons i t ih =>
    intro st st' ho h
    unfold applyAll at h
    split at h
    · rename_i hc; exact ih (applyAt_obj ho hc) h
    · cases h
    · cases h

theorem applyDefaults_obj {mt : Str → Str → Str → Res Bool} (l : List (Str × Json)) : ∀ {st st' : OAPI.St}, (∃ m, st.cnt = .obj m) →
    applyDefaults mt l st = .ok st' → ∃ m, st'.cnt = .obj m := by
  induction l with
  | nil => intro st st' ho h; cases h; exact ho
  | cons x t ih =>
    obtain ⟨pat, ov⟩ := x
    intro st st' ho h
    unfold applyDefaults at h
    split at h
    · split at h
      · rename_i hc; exact ih (applyAll_obj _ ho hc) h
      · cases h
      · cases h
    · cases h
    · cases h

theorem runDefaults_isObj {mt : Str → Str → Str → Res Bool} {m : Obj} {ops : List Op} {defops : List (Str × Json)} {r : Json}
    (h : runDefaults mt (.obj m) ops defops = .ok r) : ∃ m', r = .obj m' := by
  unfold runDefaults at h
  split at h
  · rename_i hc
    cases h
    exact applyDefaults_obj defops (st := ⟨.obj m, ops⟩) ⟨m, rfl⟩ hc
  · cases h
  · cases h
end

variable {F : Type} {inp : Input F} {o : Orders}

/-- What a successful preparation consists of. -/
theorem prepare_ok {pre : Prepared} (h : prepare inp o = .ok pre) :
    ∃ roots cmds files ps c,
      inp.load = .ok roots ∧
      walk inp o.heap₁ roots (cmdsScanner inp) [] = .ok cmds ∧
      Cmds.exportedComponents (o.exports cmds) = .ok pre.exports ∧
      walk inp o.heap₂ roots (specsScanner inp o) (.ok ([], [])) = .ok (.ok (files, ps)) ∧
      mergeAll mergeStrict ((o.sort files).map File.doc) = .ok c ∧
      walk inp o.heap₃ roots
        (typesScanner inp o (Pointers.merge (Pointers.merge [] (Cmds.mapPointers (o.commands cmds) [])) ps)) (.ok []) = .ok (.ok pre.points) ∧
      OAPI.mergeWithRoot inp.root c = .ok pre.doc := by
  unfold prepare at h
  obtain ⟨roots, h1, h⟩ := Res.bind_eq_ok.1 h
  obtain ⟨cmds, h2, h⟩ := Res.bind_eq_ok.1 h
  obtain ⟨exports, h3, h⟩ := Res.bind_eq_ok.1 h
  obtain ⟨⟨files, ps⟩, h4, h⟩ := Res.bind_eq_ok.1 h
  obtain ⟨c, h5, h⟩ := Res.bind_eq_ok.1 h
  obtain ⟨m, h6, h⟩ := Res.bind_eq_ok.1 h
  obtain ⟨d, h7, h⟩ := Res.bind_eq_ok.1 h
  cases h
  have hflat : ∀ {α : Type} {r : Res (Res α)} {a : α}, flat r = .ok a → r = .ok (.ok a) := by
    intro α r a h
    cases r <;> simp_all [flat]
  exact ⟨roots, cmds, files, ps, c, h1, h2, h3, hflat h4, h5, hflat h6, h7⟩

theorem prepare_isObj {pre : Prepared} (h : prepare inp o = .ok pre) : ∃ m, pre.doc = .obj m := by
  obtain ⟨_, _, _, _, c, _, _, _, _, h5, _, h7⟩ := prepare_ok h
  obtain ⟨m, rfl⟩ := mergeAll_isObj h5
  exact mergeWithRoot_isObj h7

theorem finish_isObj {n : Nat} {pre : Prepared} {r : Json} (hp : ∃ m, pre.doc = .obj m) (h : finish inp o n pre = .ok r) : ∃ m, r = .obj m := by
  obtain ⟨m, hm⟩ := hp
  unfold finish at h
  rw [hm] at h
  split at h
  · cases h
  · cases h
  · rename_i c hc
    obtain ⟨m', rfl⟩ := resolve_isObj hc
    split at h
    · cases h
    · cases h
    · exact runDefaults_isObj h

end Oapi.Scan
