import Verif.Spec.Read
import Verif.Proofs.Json
import Verif.Proofs.Cli
import Verif.Proofs.Pkgs
import Verif.Props.Container

namespace Oapi.Read
open Spec

variable {other : Nat → Str}

/-! ### YAML -/

theorem keyText_iff {k : Key} {s : Str} : KeyText other k s ↔ sprint other k = s := by
  constructor
  · intro h
    cases h with
    | str => rfl
    | null => rfl
    | yes => rfl
    | no => rfl
    | nat => rfl
    | @neg n hn =>
      obtain ⟨m, rfl⟩ : ∃ m, n = m + 1 := ⟨n - 1, by omega⟩
      show intText (-((m + 1 : Nat) : Int)) = _
      rw [show (-((m + 1 : Nat) : Int)) = Int.negSucc m from rfl]
      rfl
    | other => rfl
  · rintro rfl
    match k with
    | .str s => exact .str
    | .null => exact .null
    | .bool true => exact .yes
    | .bool false => exact .no
    | .int (.ofNat n) => exact .nat
    | .int (.negSucc n) =>
      have := KeyText.neg (other := other) (n := n + 1) (by omega)
      exact this
    | .other n => exact .other

theorem mmapList_get (l : List Yaml) (n : Nat) : (mmapList other l)[n]? = (l[n]?).map (mmap other) := by
  induction l generalizing n with
  | nil => simp [mmapList]
  | cons y t ih => cases n with
    | zero => simp [mmapList]
    | succ n => simp [mmapList, ih]

theorem mmapList_length (l : List Yaml) : (mmapList other l).length = l.length := by
  induction l with
  | nil => simp [mmapList]
  | cons y t ih => simp [mmapList, ih]

theorem mmapList_eq (l : List Yaml) : mmapList other l = l.map (mmap other) := by
  apply List.ext_getElem? ; intro n; rw [mmapList_get, List.getElem?_map]

/-- The last entry with a text is the one that stays. -/
theorem mmapMap_lookup (m : List (Key × Yaml)) (acc : Obj) (s : Str) :
    Obj.lookup s (mmapMap other m acc) =
      match m.reverse.find? (fun e => sprint other e.1 = s) with
      | some e => some (mmap other e.2)
      | none => Obj.lookup s acc := by
  induction m generalizing acc with
  | nil => simp [mmapMap]
  | cons e t ih =>
    obtain ⟨k, v⟩ := e
    rw [mmapMap, ih, List.reverse_cons, List.find?_append]
    cases h : t.reverse.find? (fun e => sprint other e.1 = s) with
    | some e => simp
    | none =>
      simp only [Option.none_or, List.find?_cons, List.find?_nil]
      by_cases hk : sprint other k = s
      · simp [hk, Obj.lookup_insert]
      · simp only [hk, decide_false]
        rw [Obj.lookup_insert, if_neg (fun e => hk e.symm)]

theorem mmapMap_sorted (m : List (Key × Yaml)) (acc : Obj) (h : Obj.Sorted acc) : Obj.Sorted (mmapMap other m acc) := by
  induction m generalizing acc with
  | nil => simpa [mmapMap] using h
  | cons e t ih => obtain ⟨k, v⟩ := e; rw [mmapMap]; exact ih _ (Obj.insert_sorted _ _ _ h)

theorem mmapMap_mem (m : List (Key × Yaml)) (acc : Obj) {s : Str} {j : Json} (h : Obj.lookup s (mmapMap other m acc) = some j) :
    (∃ e ∈ m, sprint other e.1 = s ∧ j = mmap other e.2) ∨ Obj.lookup s acc = some j := by
  rw [mmapMap_lookup] at h
  split at h
  · rename_i e he
    refine .inl ⟨e, ?_, by simpa using List.find?_some he, by injection h with h; exact h.symm⟩
    have := List.mem_of_find?_eq_some he
    simpa using this
  · exact .inr h

mutual
theorem mmap_wf (y : Yaml) : Json.WF (mmap other y) := by
  match y with
  | .null => simp [mmap, Json.WF]
  | .bool b => simp [mmap, Json.WF]
  | .num n => simp [mmap, Json.WF]
  | .str s => simp [mmap, Json.WF]
  | .seq l => rw [mmap, Json.WF_arr, Json.WFL_iff]; exact mmapList_wf l
  | .map m => rw [mmap]; exact mmapMap_wf m [] (by simp [Json.WF, Json.WFO, Obj.Sorted])
termination_by structural y
theorem mmapList_wf (l : List Yaml) : ∀ x ∈ mmapList other l, Json.WF x := by
  match l with
  | [] => simp [mmapList]
  | y :: t =>
    rw [mmapList]
    intro x hx
    rcases List.mem_cons.1 hx with rfl | hx
    · exact mmap_wf y
    · exact mmapList_wf t x hx
termination_by structural l
theorem mmapMap_wf (m : List (Key × Yaml)) (acc : Obj) (h : Json.WF (.obj acc)) : Json.WF (.obj (mmapMap other m acc)) := by
  match m with
  | [] => simpa [mmapMap] using h
  | (k, v) :: t =>
    rw [mmapMap]
    exact mmapMap_wf t _ (Json.WF_insert _ h (mmap_wf v))
termination_by structural m
end

theorem apart_map {m : List (Key × Yaml)} : KeysApart other (.map m) ↔
    (m.Pairwise fun a b => sprint other a.1 ≠ sprint other b.1) ∧ ∀ e ∈ m, KeysApart other e.2 := by
  have key : ∀ a b : Key × Yaml, (∀ s, KeyText other a.1 s → ¬ KeyText other b.1 s) ↔ sprint other a.1 ≠ sprint other b.1 := by
    intro a b
    constructor
    · intro h e; exact h _ (keyText_iff.2 rfl) (keyText_iff.2 e.symm)
    · intro h s ha hb; exact h ((keyText_iff.1 ha).trans (keyText_iff.1 hb).symm)
  constructor
  · intro h
    refine ⟨(h [] m (.here _)).imp fun h => (key _ _).1 h, ?_⟩
    rintro ⟨k, v⟩ he l m' hm
    exact h _ m' (.key he (keyText_iff.2 rfl) hm)
  · rintro ⟨h, h'⟩ l m' hm
    cases hm with
    | here => exact h.imp fun h => (key _ _).2 h
    | key he _ hm => exact h' _ he _ _ hm

theorem apart_seq {xs : List Yaml} : KeysApart other (.seq xs) ↔ ∀ y ∈ xs, KeysApart other y := by
  constructor
  · intro h y hy l m hm
    obtain ⟨n, hn⟩ := List.mem_iff_getElem?.1 hy
    exact h _ m (.idx hn hm)
  · intro h l m hm
    cases hm with
    | idx hn hm => exact h _ (List.mem_of_getElem? hn) _ _ hm

theorem lookup_apart {m : List (Key × Yaml)} (h : m.Pairwise fun a b => sprint other a.1 ≠ sprint other b.1) {k : Key} {v : Yaml}
    (he : (k, v) ∈ m) : Obj.lookup (sprint other k) (mmapMap other m []) = some (mmap other v) := by
  rw [mmapMap_lookup]
  have hf : ∃ e, m.reverse.find? (fun e => sprint other e.1 = sprint other k) = some e := by
    rw [← Option.isSome_iff_exists, List.find?_isSome]
    exact ⟨(k, v), by simpa using he, by simp⟩
  obtain ⟨e, hf⟩ := hf
  rw [hf]
  have h1 : e ∈ m := by simpa using List.mem_of_find?_eq_some hf
  have h2 : sprint other e.1 = sprint other k := by simpa using List.find?_some hf
  obtain ⟨i, hi, rfl⟩ := List.mem_iff_getElem.1 h1
  obtain ⟨j, hj, hjv⟩ := List.mem_iff_getElem.1 he
  rw [List.pairwise_iff_getElem] at h
  rcases Nat.lt_trichotomy i j with hl | hl | hl
  · exact absurd (by rw [hjv]; exact h2) (h i j hi hj hl)
  · subst hl; rw [hjv]
  · exact absurd (by rw [hjv]; exact h2.symm) (h j i hj hi hl)

theorem sameKind (y : Yaml) : SameKind y (mmap other y) := by
  cases y with
  | null => exact .null
  | bool b => exact .bool
  | num n => exact .num
  | str s => exact .str
  | seq l => exact .seq (mmapList_length l).symm
  | map m => exact .map

theorem yamlAt_get {y : Yaml} {l : Loc} {z : Yaml} (ha : KeysApart other y) (h : YamlAt other y l z) :
    getAt (mmap other y) l = some (mmap other z) := by
  induction h with
  | here => rfl
  | @key m k s v l z he hs _ ih =>
    obtain ⟨h1, h2⟩ := apart_map.1 ha
    rw [mmap, getAt, child, ← keyText_iff.1 hs, lookup_apart h1 he]
    exact ih (h2 _ he)
  | @idx xs n v l z hn _ ih =>
    rw [mmap, getAt, child, mmapList_get, hn]
    exact ih (apart_seq.1 ha _ (List.mem_of_getElem? hn))

theorem get_yamlAt {l : Loc} : ∀ {y : Yaml} {j : Json}, getAt (mmap other y) l = some j → ∃ z, YamlAt other y l z ∧ j = mmap other z := by
  induction l with
  | nil => intro y j h; injection h with h; exact ⟨y, .here _, h.symm⟩
  | cons st l ih =>
    intro y j h
    rw [getAt] at h
    cases hc : child (mmap other y) st with
    | none => rw [hc] at h; cases h
    | some c =>
      rw [hc] at h
      cases y with
      | map m =>
        rw [mmap] at hc
        cases st with
        | idx n => cases hc
        | key s =>
          rw [child] at hc
          rcases mmapMap_mem m [] hc with ⟨e, he, hs, rfl⟩ | hc
          · obtain ⟨z, hz, rfl⟩ := ih h
            exact ⟨z, .key he (keyText_iff.2 hs) hz, rfl⟩
          · cases hc
      | seq xs =>
        rw [mmap] at hc
        cases st with
        | key s => cases hc
        | idx n =>
          rw [child, mmapList_get] at hc
          cases hn : xs[n]? with
          | none => rw [hn] at hc; cases hc
          | some v =>
            rw [hn] at hc; injection hc with hc; subst hc
            obtain ⟨z, hz, rfl⟩ := ih h
            exact ⟨z, .idx hn hz, rfl⟩
      | _ => rw [mmap] at hc; cases st <;> cases hc

theorem mmap_obj_ext {m n : List (Key × Yaml)} (h : ∀ s, Obj.lookup s (mmapMap other m []) = Obj.lookup s (mmapMap other n [])) :
    mmap other (.map m) = mmap other (.map n) := by
  rw [mmap, mmap, Obj.ext_lookup (mmapMap_sorted m [] trivial) (mmapMap_sorted n [] trivial) h]

theorem reorder_same {a b : Yaml} (h : YReorder a b) : KeysApart other a → KeysApart other b ∧ mmap other a = mmap other b := by
  induction h with
  | refl => exact fun h => ⟨h, rfl⟩
  | trans _ _ ih ih' => exact fun h => ⟨(ih' (ih h).1).1, (ih h).2.trans (ih' (ih h).1).2⟩
  | @shuffle m n hp =>
    intro ha
    obtain ⟨h1, h2⟩ := apart_map.1 ha
    have h1' : n.Pairwise fun a b => sprint other a.1 ≠ sprint other b.1 := hp.pairwise h1 fun h => h.symm
    refine ⟨apart_map.2 ⟨h1', fun e he => h2 e (hp.mem_iff.2 he)⟩, mmap_obj_ext fun s => ?_⟩
    cases hs : Obj.lookup s (mmapMap other m []) with
    | some j =>
      rcases mmapMap_mem m [] hs with ⟨e, he, rfl, rfl⟩ | h
      · exact (lookup_apart h1' (hp.mem_iff.1 he)).symm
      · cases h
    | none =>
      cases hs' : Obj.lookup s (mmapMap other n []) with
      | none => rfl
      | some j =>
        rcases mmapMap_mem n [] hs' with ⟨e, he, rfl, rfl⟩ | h
        · rw [lookup_apart h1 (hp.mem_iff.2 he)] at hs; cases hs
        · cases h
  | @member v w pre post k _ ih =>
    intro ha
    obtain ⟨h1, h2⟩ := apart_map.1 ha
    obtain ⟨hw, hv⟩ := ih (h2 (k, v) (by simp))
    have key : ∀ (l : List (Key × Yaml)) (acc : Obj), mmapMap other (pre ++ (k, v) :: l) acc = mmapMap other (pre ++ (k, w) :: l) acc := by
      intro l
      clear h1 h2 ha
      induction pre with
      | nil => intro acc; simp only [List.nil_append, mmapMap, hv]
      | cons e t ih => intro acc; obtain ⟨k', v'⟩ := e; simp only [List.cons_append, mmapMap]; exact ih _
    refine ⟨apart_map.2 ⟨?_, ?_⟩, ?_⟩
    · have e : ∀ l : List (Key × Yaml), (l.Pairwise fun a b => sprint other a.1 ≠ sprint other b.1) ↔ (l.map fun e => sprint other e.1).Pairwise (· ≠ ·) := by
        intro l; rw [List.pairwise_map]
      rw [e] at h1 ⊢
      simpa using h1
    · intro e he
      rcases List.mem_append.1 he with he | he
      · exact h2 e (by simp [he])
      · rcases List.mem_cons.1 he with rfl | he
        · exact hw
        · exact h2 e (by simp [he])
    · rw [mmap, mmap, key]
  | @elem v w pre post _ ih =>
    intro ha
    have h2 := apart_seq.1 ha
    obtain ⟨hw, hv⟩ := ih (h2 v (by simp))
    refine ⟨apart_seq.2 ?_, ?_⟩
    · intro e he
      rcases List.mem_append.1 he with he | he
      · exact h2 e (by simp [he])
      · rcases List.mem_cons.1 he with rfl | he
        · exact hw
        · exact h2 e (by simp [he])
    · rw [mmap, mmap, mmapList_eq, mmapList_eq]; simp [hv]

/-! ### Paths -/

theorem fileName_name {n : Str} (h : FileName n) : Cli.Name n := h

theorem pathOfNames_split (ds : List Str) (h : ∀ d ∈ ds, (47 : UInt8) ∉ d) : Str.split 47 (pathOfNames ds) = [] :: ds := by
  induction ds with
  | nil => rfl
  | cons d t ih =>
    have e : pathOfNames (d :: t) = 47 :: (d ++ pathOfNames t) := rfl
    rw [e, Str.split, if_pos rfl]
    congr 1
    have hd := h d (by simp)
    have ih := ih fun x hx => h x (by simp [hx])
    clear e h
    induction d with
    | nil => exact ih
    | cons c d ihd =>
      have hc : c ≠ 47 := fun e => hd (by simp [e])
      rw [List.cons_append, Str.split, if_neg hc, ihd (fun e => hd (by simp [e]))]

theorem fold_names : ∀ (l st : List Str), (∀ d ∈ l, d = [] ∨ FileName d) →
    l.foldl (Cli.cleanStep true) st = st ++ l.filter (· ≠ [])
  | [], st, _ => by simp
  | d :: t, st, h => by
    rw [List.foldl_cons, fold_names t _ fun x hx => h x (by simp [hx])]
    by_cases hd : d = []
    · simp [hd, Cli.cleanStep]
    · obtain ⟨h1, h2, h3, h4⟩ := (h d (by simp)).resolve_left hd
      simp [Cli.cleanStep, h1, h2, h3]

theorem join_pathOfNames : ∀ (es : List Str), es ≠ [] → 47 :: Str.join 47 es = pathOfNames es
  | [], h => absurd rfl h
  | [x], _ => by simp [Str.join, pathOfNames]
  | x :: y :: r, _ => by
    have ih := join_pathOfNames (y :: r) (by simp)
    rw [Str.join]
    show 47 :: (x ++ 47 :: Str.join 47 (y :: r)) = 47 :: (x ++ pathOfNames (y :: r))
    rw [ih]

theorem pathOfNames_append (a b : List Str) : pathOfNames (a ++ b) = pathOfNames a ++ pathOfNames b := by
  simp [pathOfNames]

theorem pathOfNames_abs {ds : List Str} (h : ds ≠ []) : AbsPath (pathOfNames ds) := by
  cases ds with
  | nil => exact absurd rfl h
  | cons d t => exact ⟨d ++ pathOfNames t, rfl⟩

theorem names_ne {l : List Str} (h : ∀ d ∈ l, FileName d) : l.filter (· ≠ []) = l := by
  rw [List.filter_eq_self]; intro d hd; simpa using (h d hd).1

/-- Joining a plain directory and a path below it. -/
theorem join2_below {ds rest : List Str} (hne : ds ≠ []) (hd : ∀ d ∈ ds, FileName d) (hr : ∀ d ∈ rest, FileName d) :
    Cli.join2 (pathOfNames ds) (pathOfNames rest) = pathOfNames (ds ++ rest) := by
  have habs := pathOfNames_abs hne
  have hn : pathOfNames ds ≠ [] := by obtain ⟨t, ht⟩ := habs; rw [ht]; simp
  rw [Cli.join2, if_pos hn, Cli.clean]
  have ha : Cli.isAbs (pathOfNames ds ++ 47 :: pathOfNames rest) = true := by
    rw [Cli.isAbs_iff]; obtain ⟨t, ht⟩ := habs; exact ⟨_, by rw [ht]; rfl⟩
  rw [ha]
  simp only [if_true]
  rw [Cli.split_append, pathOfNames_split ds fun d h => (hd d h).2.2.2, pathOfNames_split rest fun d h => (hr d h).2.2.2,
    fold_names _ _ (by
      intro d h
      simp only [List.mem_append, List.mem_cons] at h
      rcases h with (h | h) | (h | h)
      · exact .inl h
      · exact .inr (hd d h)
      · exact .inl h
      · exact .inr (hr d h))]
  simp only [List.nil_append, List.filter_append, ne_eq, not_true_eq_false, decide_false, Bool.false_eq_true, not_false_eq_true,
    List.filter_cons_of_neg]
  rw [show (fun x : Str => decide (¬ x = [])) = (fun x => decide (x ≠ [])) from rfl, names_ne hd, names_ne hr]
  exact join_pathOfNames _ (by simp [hne])

theorem join2_name {ds : List Str} {n : Str} (hne : ds ≠ []) (hd : ∀ d ∈ ds, FileName d) (hn : FileName n) :
    Cli.join2 (pathOfNames ds) n = pathOfNames (ds ++ [n]) := by
  have habs := pathOfNames_abs hne
  have h0 : pathOfNames ds ≠ [] := by obtain ⟨t, ht⟩ := habs; rw [ht]; simp
  rw [Cli.join2, if_pos h0, Cli.clean]
  have ha : Cli.isAbs (pathOfNames ds ++ 47 :: n) = true := by
    rw [Cli.isAbs_iff]; obtain ⟨t, ht⟩ := habs; exact ⟨_, by rw [ht]; rfl⟩
  rw [ha]
  simp only [if_true]
  have e : pathOfNames ds ++ 47 :: n = pathOfNames (ds ++ [n]) := by rw [pathOfNames_append]; simp [pathOfNames]
  have hall : ∀ d ∈ ds ++ [n], FileName d := by
    intro d h; rcases List.mem_append.1 h with h | h
    · exact hd d h
    · rw [List.mem_singleton.1 h]; exact hn
  rw [e, pathOfNames_split _ fun d h => (hall d h).2.2.2, fold_names _ _ (by
    intro d h; rcases List.mem_cons.1 h with h | h
    · exact .inl h
    · exact .inr (hall d h))]
  have : ([] :: (ds ++ [n])).filter (fun x : Str => decide (x ≠ [])) = ds ++ [n] := by
    rw [List.filter_cons_of_neg (by simp), names_ne hall]
  rw [this, List.nil_append]
  exact join_pathOfNames _ (by simp)

theorem pathOfNames_snoc (ds : List Str) (n : Str) : pathOfNames (ds ++ [n]) = pathOfNames ds ++ 47 :: n := by
  rw [pathOfNames_append]; simp [pathOfNames]

theorem hasMeta_iff {p : Str} : hasMeta p = false ↔ NoPattern p := by
  unfold hasMeta NoPattern
  rw [List.any_eq_false]
  constructor
  · intro h c hc; have := h c hc; simpa [Bool.or_eq_true, and_assoc] using this
  · intro h c hc; have := h c hc; simpa [Bool.or_eq_true, and_assoc] using this

theorem noPattern_append {a b : Str} : NoPattern (a ++ b) ↔ NoPattern a ∧ NoPattern b := by
  unfold NoPattern
  constructor
  · intro h; exact ⟨fun c hc => h c (by simp [hc]), fun c hc => h c (by simp [hc])⟩
  · rintro ⟨h, h'⟩ c hc; rcases List.mem_append.1 hc with hc | hc
    · exact h c hc
    · exact h' c hc

theorem glob_plain {fs : FS} {dir n : Str} (hd : PlainDir dir) (hp : NoPattern dir) (hn : FileName n) (hm : NoPattern n) :
    glob fs (Cli.join2 dir n) = .ok (if fs.lstat (dir ++ 47 :: n) then [dir ++ 47 :: n] else []) := by
  obtain ⟨ds, hne, hds, rfl⟩ := hd
  have : hasMeta (pathOfNames ds ++ 47 :: n) = false := by
    rw [hasMeta_iff, noPattern_append]
    refine ⟨hp, ?_⟩
    intro c hc; rcases List.mem_cons.1 hc with rfl | hc
    · decide
    · exact hm c hc
  rw [join2_name hne hds hn, pathOfNames_snoc, glob, if_pos this]

theorem glob_star {fs : FS} {dir suf : Str} (hd : PlainDir dir) (hp : NoPattern dir) (hs : NoPattern suf) (h47 : (47 : UInt8) ∉ suf)
    (hnames : ∀ n ∈ fs.names dir, FileName n) :
    glob fs (Cli.join2 dir (42 :: suf)) =
      .ok (((Pkgs.sortStrs (fs.names dir)).filter fun n => suf.isSuffixOf n).map fun n => dir ++ 47 :: n) := by
  obtain ⟨ds, hne, hds, rfl⟩ := hd
  have hn : FileName (42 :: suf) := by
    refine ⟨by simp, ?_, ?_, ?_⟩
    · intro e; injection e with e; exact absurd e (by decide)
    · intro e; injection e with e; exact absurd e (by decide)
    · simp [h47]
  have hm : ¬ hasMeta (pathOfNames ds ++ 47 :: 42 :: suf) = false := by
    simp [hasMeta]
  have hu := Cli.upToSlash_spec (a := pathOfNames ds) hn.2.2.2
  have h0 : pathOfNames ds ++ [47] ≠ [] := by simp
  have h1 : pathOfNames ds ++ [47] ≠ b!"/" := by
    obtain ⟨t, ht⟩ := pathOfNames_abs hne; rw [ht]; intro e
    have := congrArg List.length e
    simp at this
  rw [join2_name hne hds hn, pathOfNames_snoc, glob, if_neg hm, hu]
  simp only [cleanGlobPath, h0, h1, if_false, List.dropLast_concat]
  rw [if_neg (by rw [hasMeta_iff.2 hp]; simp)]
  have hdrop : (pathOfNames ds ++ 47 :: 42 :: suf).drop (pathOfNames ds ++ [47]).length = 42 :: suf := by
    rw [show pathOfNames ds ++ 47 :: 42 :: suf = (pathOfNames ds ++ [47]) ++ (42 :: suf) by simp]
    exact List.drop_left
  rw [hdrop]
  have hmatch : matchName fs (42 :: suf) = fun n => suf.isSuffixOf n := by
    funext n; simp [matchName, hasMeta_iff.2 hs]
  rw [hmatch]
  congr 1
  apply List.map_congr_left
  intro n hn
  have := (List.mem_filter.1 hn).1
  rw [join2_name hne hds (hnames n ((Pkgs.sortStrs_perm _).mem_iff.1 this)), pathOfNames_snoc]

/-! ### Extensions -/

theorem takeWhile_append_stop {α : Type} {p : α → Bool} {a : List α} {c : α} {b : List α} (h : ∀ x ∈ a, p x = true) (hc : p c = false) :
    (a ++ c :: b).takeWhile p = a := by
  induction a with
  | nil => simp [hc]
  | cons x t ih => simp [h x (by simp), ih fun y hy => h y (by simp [hy])]

theorem takeWhile_all {α : Type} {p : α → Bool} {a : List α} (h : ∀ x ∈ a, p x = true) : a.takeWhile p = a := by
  induction a with
  | nil => rfl
  | cons x t ih => simp [h x (by simp), ih fun y hy => h y (by simp [hy])]

theorem mem_takeWhile {α : Type} {p : α → Bool} {a : List α} {x : α} (h : x ∈ a.takeWhile p) : p x = true := by
  induction a with
  | nil => cases h
  | cons y t ih =>
    rw [List.takeWhile_cons] at h
    split at h
    · rcases List.mem_cons.1 h with rfl | h
      · assumption
      · exact ih h
    · cases h

theorem lastElem_take {p n : Str} (h : LastElem p n) : p.reverse.takeWhile (· ≠ 47) = n.reverse := by
  obtain ⟨h47, rfl | ⟨d, rfl⟩⟩ := h
  · apply takeWhile_all
    intro x hx; simp; rintro rfl; exact h47 (by simpa using hx)
  · rw [show (d ++ 47 :: n).reverse = n.reverse ++ 47 :: d.reverse by simp]
    apply takeWhile_append_stop
    · intro x hx; simp; rintro rfl; exact h47 (by simpa using hx)
    · simp

theorem ext_iff {p n suf : Str} (h : LastElem p n) (hs : (46 : UInt8) ∉ suf) : ext p = 46 :: suf ↔ EndsWith n (46 :: suf) := by
  rw [ext, lastElem_take h]
  constructor
  · intro he
    by_cases hd : (46 : UInt8) ∈ n.reverse
    · simp only [hd, if_true] at he
      rw [List.reverse_append, List.reverse_singleton, List.singleton_append] at he
      injection he with _ he
      obtain ⟨x, y, hxy⟩ := List.append_of_mem hd
      have h2 : n.reverse = n.reverse.takeWhile (· ≠ 46) ++ n.reverse.dropWhile (· ≠ 46) := (List.takeWhile_append_dropWhile).symm
      have h3 : ∃ r, n.reverse.dropWhile (· ≠ 46) = 46 :: r := by
        cases hc : n.reverse.dropWhile (· ≠ 46) with
        | nil =>
          rw [hc, List.append_nil] at h2
          rw [h2] at hd
          have := mem_takeWhile hd
          simp at this
        | cons c r =>
          have := List.head?_dropWhile_not (fun x : UInt8 => decide (x ≠ 46)) n.reverse
          rw [hc] at this
          simp at this
          exact ⟨r, by rw [this]⟩
      obtain ⟨r, hr⟩ := h3
      refine ⟨r.reverse, ?_⟩
      have := congrArg List.reverse h2
      rw [List.reverse_reverse, List.reverse_append, hr, he] at this
      rw [this]; simp
    · simp only [hd, if_false] at he; cases he
  · rintro ⟨a, rfl⟩
    have h1 : (a ++ 46 :: suf).reverse = suf.reverse ++ 46 :: a.reverse := by simp
    rw [h1]
    have h2 : (46 : UInt8) ∈ suf.reverse ++ 46 :: a.reverse := by simp
    simp only [h2, if_true]
    rw [takeWhile_append_stop (by intro x hx; simp; rintro rfl; exact hs (by simpa using hx)) (by simp)]
    simp

end Oapi.Read
