import Verif.Proofs.Extract
import Verif.Proofs.Specs
import Verif.Model.Resolver
import Verif.Props.Container

/-! References below keys with dots (C105). -/
namespace Oapi
open Spec

theorem tilde_dotted {L : Loc} (h : ∀ k, Step.key k ∈ L → (126 : UInt8) ∉ k) : (126 : UInt8) ∉ dotted L := by
  have key : ∀ (L : Loc) (p : Str), (∀ k, Step.key k ∈ L → (126 : UInt8) ∉ k) → (126 : UInt8) ∉ p →
      (126 : UInt8) ∉ L.foldl (fun p s => if p = [] then seg s else p ++ 46 :: seg s) p := by
    intro L
    induction L with
    | nil => intro p _ hp; exact hp
    | cons s L ih =>
      intro p h hp
      have hs : (126 : UInt8) ∉ seg s := by
        cases s with
        | key k => exact h k (by simp)
        | idx n => intro hm; exact absurd (Str.itoa_digits n 126 hm) (by decide)
      rw [List.foldl_cons]
      refine ih _ (fun k hk => h k (by simp [hk])) ?_
      split
      · exact hs
      · intro hm
        simp only [List.mem_append, List.mem_cons] at hm
        rcases hm with hm | hm | hm
        · exact hp hm
        · exact absurd hm (by decide)
        · exact hs hm
  exact key L [] h (by simp)

theorem mem_join {c : UInt8} {x : Str} (hm : c ∈ x) : ∀ (l : List Str), x ∈ l → c ∈ Str.join 46 l := by
  intro l
  induction l with
  | nil => intro h; cases h
  | cons y t ih =>
    intro hx
    cases t with
    | nil =>
      rw [List.mem_singleton] at hx
      subst hx
      simpa [Str.join] using hm
    | cons z t =>
      simp only [Str.join, List.mem_append, List.mem_cons]
      rcases List.mem_cons.1 hx with rfl | hx
      · exact .inl hm
      · exact .inr (.inr (ih hx))

theorem of_mem_join {c : UInt8} (hc : c ≠ 46) : ∀ (l : List Str), c ∈ Str.join 46 l → ∃ x ∈ l, c ∈ x := by
  intro l
  induction l with
  | nil => intro h; cases h
  | cons y t ih =>
    intro hm
    cases t with
    | nil => exact ⟨y, by simp, by simpa [Str.join] using hm⟩
    | cons z t =>
      simp only [Str.join, List.mem_append, List.mem_cons] at hm
      rcases hm with hm | hm | hm
      · exact ⟨y, by simp, hm⟩
      · exact absurd hm hc
      · obtain ⟨x, hx, hx'⟩ := ih hm
        exact ⟨x, List.mem_cons_of_mem _ hx, hx'⟩

/-- The segments of a path without '~' are its parts between dots. -/
theorem slice_plain {s : Str} (h : (126 : UInt8) ∉ s) : Gabs.dotPathToSlice s = Str.split 46 s := by
  rw [Gabs.dotPathToSlice_eq]
  have : ∀ x ∈ Str.split 46 s, Gabs.dec x = x := by
    intro x hx
    refine Gabs.dec_of_no_tilde x fun hm => h ?_
    rw [← Str.join_split 46 s]
    exact mem_join hm _ hx
  calc (Str.split 46 s).map Gabs.dec = (Str.split 46 s).map id := List.map_congr_left this
    _ = _ := List.map_id _

theorem denotesAll_key {ss : List Str} {W : Loc} (h : DenotesAll ss W) {k : Str} (hk : Step.key k ∈ W) : k ∈ ss := by
  induction W generalizing ss with
  | nil => cases hk
  | cons s W ih =>
    cases ss with
    | nil => exact h.elim
    | cons t ss =>
      obtain ⟨h1, h2⟩ := h
      rcases List.mem_cons.1 hk with rfl | hk
      · exact List.mem_cons.2 (.inl h1.symm)
      · exact List.mem_cons.2 (.inr (ih h2 hk))

theorem denotesAll_last {ss : List Str} {W : Loc} (h : DenotesAll ss W) {t : Str} (ht : ss.getLast? = some t)
    (hn : Str.atoi t = none) (hd : t ≠ b!"-") : ∃ W', W = W' ++ [.key t] := by
  induction W generalizing ss with
  | nil =>
    cases ss with
    | nil => cases ht
    | cons a b => exact h.elim
  | cons s W ih =>
    cases ss with
    | nil => exact h.elim
    | cons a ss =>
      obtain ⟨h1, h2⟩ := h
      cases ss with
      | nil =>
        cases W with
        | cons _ _ => exact h2.elim
        | nil =>
          simp only [List.getLast?_singleton, Option.some.injEq] at ht
          subst ht
          cases s with
          | key k => exact ⟨[], by rw [show a = k from h1]; rfl⟩
          | idx n =>
            rcases h1 with h1 | h1
            · rw [hn] at h1; cases h1
            · exact absurd h1 hd
      | cons b ss =>
        obtain ⟨W', rfl⟩ := ih h2 (by simpa using ht)
        exact ⟨s :: W', rfl⟩

/-- A write under a reference's printed path does not touch a reference below a key with a dot. -/
theorem setP_below_dot {j j' v : Json} {s : Str} (hs : (126 : UInt8) ∉ s) (hm : Container.keyMatches refKey s = true)
    (h : Container.setP j s v = .ok j') {L : Loc} (hL : Step.key refKey ∉ L) (hd : ∃ k, Step.key k ∈ L ∧ (46 : UInt8) ∈ k) :
    getAt j' (L ++ [.key refKey]) = getAt j (L ++ [.key refKey]) := by
  obtain ⟨W, h1, _, h3⟩ := Props.C12_setP_frame j j' v s h
  rw [slice_plain hs] at h1
  have nodot : ∀ k, Step.key k ∈ W → (46 : UInt8) ∉ k := fun k hk => Str.mem_split_no_sep 46 s k (denotesAll_key h1 hk)
  obtain ⟨W', rfl⟩ := denotesAll_last h1 (of_decide_eq_true hm) (by decide) (by decide)
  obtain ⟨k, hk, hk'⟩ := hd
  refine h3 _ ⟨?_, ?_⟩
  · rintro ⟨t, ht⟩
    refine nodot k ?_ hk'
    rw [← ht]
    simp [hk]
  · rintro ⟨t, ht⟩
    rcases List.eq_nil_or_concat t with rfl | ⟨t', b, rfl⟩
    · rw [List.append_nil] at ht
      refine nodot k ?_ hk'
      rw [ht]
      simp [hk]
    · rw [List.concat_eq_append, ← List.append_assoc] at ht
      obtain ⟨e, _⟩ := List.append_inj' ht rfl
      refine hL ?_
      rw [← e]
      simp

theorem scanRefs_below_dot {pkg : Str} {L : Loc} (hL : Step.key refKey ∉ L) (hd : ∃ k, Step.key k ∈ L ∧ (46 : UInt8) ∈ k) :
    ∀ (es : List (Str × Json)) {c c' : Json} {ps ps' : Pointers}, (∀ e ∈ es, (126 : UInt8) ∉ e.1 ∧ Container.keyMatches refKey e.1 = true) →
      Specs.scanRefs pkg es c ps = .ok (c', ps') → getAt c' (L ++ [.key refKey]) = getAt c (L ++ [.key refKey]) := by
  intro es
  induction es with
  | nil => intro c c' ps ps' _ h; cases h; rfl
  | cons e es ih =>
    obtain ⟨k, v⟩ := e
    intro c c' ps ps' he h
    have ht := fun e h => he e (List.mem_cons_of_mem _ h)
    have h0 := he (k, v) (by simp)
    simp only [Specs.scanRefs] at h
    split at h
    · split at h
      · cases h
      · cases h
      · split at h
        · cases h
        · cases h
        · rename_i c1 h1
          rw [ih ht h, setP_below_dot h0.1 h0.2 h1 hL hd]
    · exact ih ht h

/-- A write that does not lead to a place above a key with a dot does not touch what is below it. -/
theorem setP_apart {j j' v : Json} {s : Str} (h : Container.setP j s v = .ok j') {L : Loc}
    (h1 : ∀ W, DenotesAll (Gabs.dotPathToSlice s) W → Apart L W) : getAt j' L = getAt j L := by
  obtain ⟨W, g1, _, g3⟩ := Props.C12_setP_frame j j' v s h
  exact g3 _ (h1 W g1)

theorem denotesAll_keys {ss ks : List Str} (h : DenotesAll ss (ks.map .key)) : ss = ks := by
  induction ks generalizing ss with
  | nil => cases ss with
    | nil => rfl
    | cons _ _ => exact h.elim
  | cons k ks ih => cases ss with
    | nil => exact h.elim
    | cons s ss => rw [show s = k from h.1, ih h.2]

namespace Resolver

/-- The printed paths that are harmless. -/
def Harmless (ks : List Str) (s : Str) : Prop :=
  (126 : UInt8) ∉ s ∧ Container.keyMatches refKey s = true ∧ ∀ P, P <+: ks → s ≠ dotted ((P ++ [refKey]).map .key)

theorem below_apart {ks : List Str} {d : Str} {R : Loc} (hd : (46 : UInt8) ∈ d) {ss : List Str} (hs : ∀ x ∈ ss, (46 : UInt8) ∉ x) (hne : ss ≠ [])
    (hp : ∀ P, P <+: ks → ss ≠ P) {W : Loc} (hW : DenotesAll ss W) : Apart (ks.map Step.key ++ .key d :: R) W := by
  have nodot : ∀ k, Step.key k ∈ W → (46 : UInt8) ∉ k := fun k hk => hs k (denotesAll_key hW hk)
  constructor
  · rintro ⟨t, rfl⟩
    exact nodot d (by simp) hd
  · rintro ⟨t, ht⟩
    rcases List.append_eq_append_iff.1 ht with ⟨a, e1, e2⟩ | ⟨a, e1, e2⟩
    · obtain ⟨P, Q, e, rfl, rfl⟩ := List.map_eq_append_iff.1 e1
      exact hp P ⟨Q, e.symm⟩ (denotesAll_keys hW)
    · cases a with
      | nil =>
        rw [List.append_nil] at e1
        subst e1
        exact hp ks (List.prefix_refl _) (denotesAll_keys hW)
      | cons b a =>
        rw [List.cons_append] at e2
        cases e2
        refine nodot d ?_ hd
        rw [e1]
        simp

theorem harmless_replace {ks : List Str} (hks : ∀ k ∈ ks, DotSafe k) {d : Str} {R : Loc} (hd : (46 : UInt8) ∈ d) {s path : Str} (hs : Harmless ks s)
    (hi : isref s = some path) {W : Loc} (hW : DenotesAll (Gabs.dotPathToSlice path) W) : Apart (ks.map Step.key ++ .key d :: R) W := by
  unfold isref at hi
  simp only at hi
  split at hi
  · rename_i hl
    simp only [Option.some.injEq] at hi
    have hnd : ∀ x ∈ (Str.split 46 s).dropLast, (46 : UInt8) ∉ x := fun x hx => Str.mem_split_no_sep 46 s x (List.dropLast_subset _ hx)
    have hsp : Str.split 46 s = (Str.split 46 s).dropLast ++ [refKey] := by
      rcases List.eq_nil_or_concat (Str.split 46 s) with e | ⟨a, b, e⟩
      · rw [e] at hl; cases hl
      · rw [e, List.concat_eq_append] at hl ⊢
        simp only [List.getLast?_append, List.getLast?_singleton, Option.some_or, Option.some.injEq] at hl
        rw [List.dropLast_concat, hl]
        rfl
    have hj : s = Str.join 46 ((Str.split 46 s).dropLast ++ [refKey]) := by rw [← hsp, Str.join_split]
    by_cases hn : (Str.split 46 s).dropLast = []
    · rw [hn] at hi
      subst hi
      refine below_apart hd (ss := [[]]) (by simp) (by simp) (fun P hP e => ?_) hW
      subst e
      obtain ⟨t, ht⟩ := hP
      have := hks [] (by rw [← ht]; simp)
      exact absurd rfl this.1
    · have htil : (126 : UInt8) ∉ path := by
        intro hm
        rw [← hi] at hm
        obtain ⟨x, hx, hx'⟩ := of_mem_join (by decide) _ hm
        refine hs.1 ?_
        rw [hj]
        exact mem_join hx' _ (List.mem_append_left _ hx)
      rw [slice_plain htil, ← hi, Str.split_join 46 _ hn hnd] at hW
      refine below_apart hd hnd hn (fun P hP e => hs.2.2 P hP ?_) hW
      rw [dotted_good]
      · rw [hj, e]
        congr 1
        simp [seg, List.map_map, Function.comp_def]
      · intro st hst
        obtain ⟨k, hk, rfl⟩ := List.mem_map.1 hst
        rcases List.mem_append.1 hk with hk | hk
        · obtain ⟨t, rfl⟩ := hP
          exact (hks k (List.mem_append_left _ hk)).good
        · rw [List.mem_singleton] at hk
          subst hk
          exact ⟨by decide, by decide, by decide⟩
  · cases hi

/-- Exported components are stored elsewhere. -/
theorem export_apart {L : Loc} {k : Str} (hk : k ≠ b!"components") (e : Export) {W : Loc} (hW : DenotesAll (Gabs.dotPathToSlice e.path) W) :
    Apart (.key k :: L) W := by
  have hs : ∃ t, Gabs.dotPathToSlice e.path = b!"components" :: t := by
    rw [Gabs.dotPathToSlice_eq]
    have : Str.split 46 e.path = b!"components" :: Str.split 46 (e.kind.key ++ 46 :: e.name) := by
      unfold Export.path
      rw [show b!"components." ++ e.kind.key ++ 46 :: e.name = b!"components" ++ 46 :: (e.kind.key ++ 46 :: e.name) by simp]
      exact Str.split_append_sep 46 _ _ (by decide)
    rw [this]
    exact ⟨_, rfl⟩
  obtain ⟨t, ht⟩ := hs
  rw [ht] at hW
  cases W with
  | nil => exact hW.elim
  | cons s W =>
    have hne : s ≠ .key k := by
      rintro rfl
      exact hk (show b!"components" = k from hW.1).symm
    constructor
    · rintro ⟨t, ht⟩; cases ht; exact hne rfl
    · rintro ⟨t, ht⟩; cases ht; exact hne rfl

/-- Where the reference is. -/
abbrev Ref (ks : List Str) (d : Str) (R : Loc) : Loc := ks.map Step.key ++ .key d :: (R ++ [.key refKey])

theorem ref_head {ks : List Str} {d : Str} (R : Loc) (hd : (46 : UInt8) ∈ d) (hc : ks.head? ≠ some b!"components") :
    ∃ k L, Ref ks d R = .key k :: L ∧ k ≠ b!"components" := by
  cases ks with
  | nil => exact ⟨d, _, rfl, by rintro rfl; exact absurd hd (by decide)⟩
  | cons k ks => exact ⟨k, _, rfl, fun e => hc (by rw [e]; rfl)⟩

/-- The reference is not touched, and what is worked on stays the same kind of container. -/
def Kept (L : Loc) (cx : Cur) (st : St) (r : Cur × St) : Prop := getAt r.2.con L = getAt st.con L ∧ (r.1 = none ↔ cx = none)

theorem Kept.trans {L : Loc} {cx : Cur} {st : St} {r r' : Cur × St} (h : Kept L cx st r) (h' : Kept L r.1 r.2 r') : Kept L cx st r' :=
  ⟨h'.1.trans h.1, h'.2.trans h.2⟩

section
variable {cfg : Cfg} {ks : List Str} {d : Str} {R : Loc} (hks : ∀ k ∈ ks, DotSafe k) (hd : (46 : UInt8) ∈ d)
  (hc : ks.head? ≠ some b!"components") (hL : Step.key refKey ∉ ks.map Step.key ++ .key d :: R)

theorem setCur_kept {L : Loc} {cx : Cur} {st : St} {key : Str} {v : Json} {r : Cur × St}
    (hap : cx = none → ∀ W, DenotesAll (Gabs.dotPathToSlice key) W → Apart L W) (h : setCur cx st key v = .ok r) : Kept L cx st r := by
  unfold setCur at h
  split at h
  · cases h
  · cases h
  · rename_i hs
    cases cx with
    | none => cases h; exact ⟨setP_apart hs (hap rfl), Iff.rfl⟩
    | some j => cases h; exact ⟨rfl, by simp⟩

include hks hd in
theorem replacePtr_kept {cx : Cur} {st : St} {key : Str} {v : Json} {r : Cur × St} (hk : cx = none → Harmless ks key)
    (h : replacePtr cx st key v = .ok r) : Kept (Ref ks d R) cx st r := by
  unfold replacePtr at h
  split at h
  · cases h
  · rename_i path hi
    exact setCur_kept (fun e W hW => harmless_replace hks hd (hk e) hi hW) h

include hd hL in
theorem updateLocal_kept {cx : Cur} {st : St} {key : Str} {f : Fragment} {r : Cur × St} (hk : cx = none → Harmless ks key)
    (h : updateLocal cx st key f = .ok r) : Kept (Ref ks d R) cx st r := by
  unfold updateLocal at h
  split at h
  · cases h
  · unfold setCur at h
    split at h
    · cases h
    · cases h
    · rename_i hs
      cases cx with
      | none =>
        cases h
        refine ⟨?_, Iff.rfl⟩
        have := setP_below_dot (hk rfl).1 (hk rfl).2.1 hs hL ⟨d, by simp, hd⟩
        simpa [Ref, List.append_assoc, readCur] using this
      | some j => cases h; exact ⟨rfl, by simp⟩

include hks hd hL in
theorem setRecursive_kept {cx : Cur} {st : St} {p : Pointer} {key : Str} {r : Cur × St} (hk : cx = none → Harmless ks key)
    (h : setRecursive cfg cx st p key = .ok r) : Kept (Ref ks d R) cx st r := by
  unfold setRecursive at h
  split at h
  · split at h
    · exact updateLocal_kept hd hL hk h
    · exact replacePtr_kept hks hd hk h
  · exact replacePtr_kept hks hd hk h

include hks hd hc hL in
theorem set_kept {cx : Cur} {st : St} {p : Pointer} {key : Str} {v : Json} {r : Cur × St} (hk : cx = none → Harmless ks key)
    (h : set cfg cx st p key v = .ok r) : Kept (Ref ks d R) cx st r := by
  unfold set at h
  split at h
  · exact replacePtr_kept hks hd hk h
  · rename_i e _
    split at h
    · cases h
    · cases h
    · rename_i con hs
      have h1 := updateLocal_kept hd hL hk h
      refine ⟨h1.1.trans ?_, h1.2⟩
      obtain ⟨k, L, e1, e2⟩ := ref_head R hd hc
      rw [e1]
      exact setP_apart hs fun W hW => export_apart e2 e hW

/-- A call on a container of its own. -/
def Keeps (L : Loc) (call : List Str → Json → St → Res (Cur × St)) : Prop :=
  ∀ pp j st r, call pp j st = .ok r → Kept L (some j) st r

include hks hd hc hL in
theorem visit_kept {call} (hcall : Keeps (Ref ks d R) call) {pp : List Str} {cx : Cur} {st : St} {key : Str} {v : Json} {r : Cur × St}
    (hk : cx = none → Harmless ks key) (h : visit cfg call pp cx st key v = .ok r) : Kept (Ref ks d R) cx st r := by
  cases v with
  | str s =>
    simp only [visit] at h
    split at h
    · cases h
    · cases h
    · split at h
      · cases h; exact ⟨rfl, Iff.rfl⟩
      · split at h
        · exact setRecursive_kept hks hd hL hk h
        · split at h
          · cases h
          · cases h
          · split at h
            · cases h
            · cases h
            · rename_i hcl
              have h1 := hcall _ _ _ _ hcl
              have h2 := set_kept hks hd hc hL hk h
              exact ⟨h2.1.trans h1.1, h2.2⟩
  | _ => cases h; exact ⟨rfl, Iff.rfl⟩

include hks hd hc hL in
theorem loop_kept {call} (hcall : Keeps (Ref ks d R) call) {pp : List Str} : ∀ {l : List (Str × Json)} {cx : Cur} {st : St} {r : Cur × St},
    (cx = none → ∀ e ∈ l, Harmless ks e.1) → loop cfg call pp l cx st = .ok r → Kept (Ref ks d R) cx st r
  | [], cx, st, r, _, h => by cases h; exact ⟨rfl, Iff.rfl⟩
  | (k, v) :: t, cx, st, r, hk, h => by
    simp only [loop] at h
    split at h
    · cases h
    · cases h
    · rename_i hv
      have h1 := visit_kept hks hd hc hL hcall (fun e => hk e (k, v) (by simp)) hv
      exact h1.trans (loop_kept hcall (fun e x hx => hk (h1.2.1 e) x (List.mem_cons_of_mem _ hx)) h)

include hks hd hc hL in
theorem iter_kept : ∀ {n : Nat} {pp : List Str} {cx : Cur} {st : St} {r : Cur × St},
    (cx = none → ∀ refs, Container.extractKey st.con b!"$ref" = .ok refs → ∀ e ∈ cfg.ord st.clock refs, Harmless ks e.1) →
    iter cfg n pp cx st = .ok r → Kept (Ref ks d R) cx st r
  | 0, _, _, _, _, _, h => by cases h
  | n + 1, pp, cx, st, r, hk, h => by
    simp only [iter] at h
    split at h
    · cases h
    · cases h
    · rename_i refs hr
      have := loop_kept (ks := ks) (d := d) (R := R) hks hd hc hL (fun pp j st r h => iter_kept (fun e => by cases e) h) (fun e => ?_) h
      · exact this
      · subst e
        exact hk rfl refs hr

end

end Resolver

end Oapi
