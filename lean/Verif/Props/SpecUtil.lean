import Verif.Model.SpecUtil
import Verif.Proofs.Pkgs
import Verif.Proofs.HostName

/-! C59–C62, C66: the builders of the specification package. -/
namespace Oapi.Props
open SpecUtil Pkgs

/-! ### C59 -/

theorem dropRepeats_spec (l : List Str) : ∀ p, Ordered (p :: l) →
    (p :: dropRepeats p l).Pairwise (fun x y => Str.lt x y = true) ∧ ∀ x, x ∈ p :: dropRepeats p l ↔ x ∈ p :: l := by
  induction l with
  | nil => intro p _; simp [dropRepeats]
  | cons a t ih =>
    intro p h
    have ht : Ordered (a :: t) := (List.pairwise_cons.1 h).2
    have hpa : Str.lt a p = false := (List.pairwise_cons.1 h).1 a (by simp)
    obtain ⟨h1, h2⟩ := ih a ht
    rw [dropRepeats]
    by_cases e : p = a
    · subst e
      rw [if_neg (by simp)]
      refine ⟨h1, fun x => ?_⟩
      rw [h2 x]; simp
    · rw [if_pos e]
      have hlt : Str.lt p a = true := Str.lt_tri (fun q => e q.symm) hpa
      refine ⟨?_, fun x => ?_⟩
      · rw [List.pairwise_cons]
        refine ⟨?_, h1⟩
        intro y hy
        rcases List.mem_cons.1 hy with rfl | hy
        · exact hlt
        · exact Str.lt_trans hlt ((List.pairwise_cons.1 h1).1 y hy)
      · rw [List.mem_cons, h2 x, List.mem_cons (a := x) (b := p)]

/-- Removing duplicates gives a strictly increasing list with the same elements. -/
theorem C59_removeDuplicates (l : List Str) :
    (removeDuplicates l).Pairwise (fun x y => Str.lt x y = true) ∧ ∀ x, x ∈ removeDuplicates l ↔ x ∈ l := by
  unfold removeDuplicates
  by_cases h : l.length ≤ 1
  · rw [if_pos h]
    refine ⟨?_, fun _ => Iff.rfl⟩
    match l, h with
    | [], _ => exact .nil
    | [a], _ => simp
  · rw [if_neg h]
    have hp := sortStrs_perm l
    have ho := sortStrs_ordered l
    cases hs : sortStrs l with
    | nil =>
      rw [hs] at hp
      have := hp.symm.eq_nil
      subst this
      simp at h
    | cons a t =>
      rw [hs] at ho hp
      obtain ⟨h1, h2⟩ := dropRepeats_spec t a ho
      exact ⟨h1, fun x => by rw [h2 x]; exact hp.mem_iff⟩

theorem mem_removeDuplicates {l : List Str} {x : Str} : x ∈ removeDuplicates l ↔ x ∈ l := (C59_removeDuplicates l).2 x

theorem nodup_removeDuplicates (l : List Str) : (removeDuplicates l).Nodup := by
  refine (C59_removeDuplicates l).1.imp ?_
  intro a b h e
  subst e
  rw [Str.lt_irrefl] at h
  cases h

/-- The result depends only on the set of elements: two lists with the same elements give the same result. -/
theorem C59_removeDuplicates_set {a b : List Str} (h : ∀ x, x ∈ a ↔ x ∈ b) : removeDuplicates a = removeDuplicates b := by
  have hp : (removeDuplicates a).Perm (removeDuplicates b) := by
    refine (List.perm_ext_iff_of_nodup (nodup_removeDuplicates a) (nodup_removeDuplicates b)).2 fun x => ?_
    rw [mem_removeDuplicates, mem_removeDuplicates, h]
  refine ordered_unique ?_ ?_ hp
  · exact (C59_removeDuplicates a).1.imp fun h => Str.lt_asymm h
  · exact (C59_removeDuplicates b).1.imp fun h => Str.lt_asymm h

theorem allParts_ok (l : List Str) : ∀ ps, (∀ v ∈ l, (Url.Parse v).isSome) → ∃ ps', allParts l ps = .ok ps' := by
  induction l with
  | nil => intro ps _; exact ⟨ps, rfl⟩
  | cons v t ih =>
    intro ps h
    have hv := h v (by simp)
    rw [allParts]
    cases hu : Url.Parse v with
    | none => rw [hu] at hv; cases hv
    | some u =>
      have : addParts ps v = .ok ⟨if Url.hostname u ≠ [] then ps.hosts ++ [Url.hostname u] else ps.hosts,
          if u.path ≠ [] then ps.paths ++ [u.path] else ps.paths,
          if port u ≠ [] then ps.ports ++ [b!":" ++ port u] else ps.ports⟩ := by
        rw [addParts, hu]
      rw [this]
      exact ih _ fun w hw => h w (by simp [hw])

theorem allParts_err (l : List Str) : ∀ ps, (∃ v ∈ l, Url.Parse v = none) → ∃ e, allParts l ps = .err e := by
  induction l with
  | nil => intro ps ⟨v, hv, _⟩; cases hv
  | cons v t ih =>
    intro ps h
    rw [allParts]
    cases hu : Url.Parse v with
    | none => refine ⟨.syntaxErr, ?_⟩; rw [addParts, hu]
    | some u =>
      obtain ⟨w, hw, hwn⟩ := h
      rcases List.mem_cons.1 hw with rfl | hw
      · rw [hu] at hwn; cases hwn
      · have := ih
        have hx : ∃ ps', addParts ps v = .ok ps' := by rw [addParts, hu]; exact ⟨_, rfl⟩
        obtain ⟨ps', hx⟩ := hx
        rw [hx]
        exact ih ps' ⟨w, hw, hwn⟩

/-- What the loop collects. -/
theorem allParts_mem (l : List Str) : ∀ ps ps', allParts l ps = .ok ps' →
    (∀ x, x ∈ ps'.hosts ↔ x ∈ ps.hosts ∨ (x ≠ [] ∧ ∃ v ∈ l, ∃ u, Url.Parse v = some u ∧ x = Url.hostname u)) ∧
    (∀ x, x ∈ ps'.paths ↔ x ∈ ps.paths ∨ (x ≠ [] ∧ ∃ v ∈ l, ∃ u, Url.Parse v = some u ∧ x = u.path)) ∧
    (∀ x, x ∈ ps'.ports ↔ x ∈ ps.ports ∨ (∃ v ∈ l, ∃ u, Url.Parse v = some u ∧ port u ≠ [] ∧ x = b!":" ++ port u)) := by
  induction l with
  | nil =>
    intro ps ps' h
    cases h
    simp
  | cons v t ih =>
    intro ps ps' h
    rw [allParts] at h
    cases hu : Url.Parse v with
    | none => rw [addParts, hu] at h; cases h
    | some u =>
      rw [addParts, hu] at h
      obtain ⟨h1, h2, h3⟩ := ih _ _ h
      refine ⟨fun x => ?_, fun x => ?_, fun x => ?_⟩
      · rw [h1 x]
        by_cases hh : Url.hostname u = []
        · simp only [hh, ne_eq, not_true, ↓reduceIte]
          constructor
          · rintro (h | ⟨hx, w, hw, q⟩)
            · exact .inl h
            · exact .inr ⟨hx, w, by simp [hw], q⟩
          · rintro (h | ⟨hx, w, hw, u', hu', q⟩)
            · exact .inl h
            · rcases List.mem_cons.1 hw with rfl | hw
              · rw [hu] at hu'; cases hu'; rw [hh] at q; exact absurd q hx
              · exact .inr ⟨hx, w, hw, u', hu', q⟩
        · simp only [hh, ne_eq, not_false_eq_true, ↓reduceIte, List.mem_append, List.mem_singleton]
          constructor
          · rintro ((h | rfl) | ⟨hx, w, hw, q⟩)
            · exact .inl h
            · exact .inr ⟨hh, v, by simp, u, hu, rfl⟩
            · exact .inr ⟨hx, w, by simp [hw], q⟩
          · rintro (h | ⟨hx, w, hw, u', hu', q⟩)
            · exact .inl (.inl h)
            · rcases List.mem_cons.1 hw with rfl | hw
              · rw [hu] at hu'; cases hu'; exact .inl (.inr q)
              · exact .inr ⟨hx, w, hw, u', hu', q⟩
      · rw [h2 x]
        by_cases hh : u.path = []
        · simp only [hh, ne_eq, not_true, ↓reduceIte]
          constructor
          · rintro (h | ⟨hx, w, hw, q⟩)
            · exact .inl h
            · exact .inr ⟨hx, w, by simp [hw], q⟩
          · rintro (h | ⟨hx, w, hw, u', hu', q⟩)
            · exact .inl h
            · rcases List.mem_cons.1 hw with rfl | hw
              · rw [hu] at hu'; cases hu'; rw [hh] at q; exact absurd q hx
              · exact .inr ⟨hx, w, hw, u', hu', q⟩
        · simp only [hh, ne_eq, not_false_eq_true, ↓reduceIte, List.mem_append, List.mem_singleton]
          constructor
          · rintro ((h | rfl) | ⟨hx, w, hw, q⟩)
            · exact .inl h
            · exact .inr ⟨hh, v, by simp, u, hu, rfl⟩
            · exact .inr ⟨hx, w, by simp [hw], q⟩
          · rintro (h | ⟨hx, w, hw, u', hu', q⟩)
            · exact .inl (.inl h)
            · rcases List.mem_cons.1 hw with rfl | hw
              · rw [hu] at hu'; cases hu'; exact .inl (.inr q)
              · exact .inr ⟨hx, w, hw, u', hu', q⟩
      · rw [h3 x]
        by_cases hh : port u = []
        · simp only [hh, ne_eq, not_true, ↓reduceIte]
          constructor
          · rintro (h | ⟨w, hw, q⟩)
            · exact .inl h
            · exact .inr ⟨w, by simp [hw], q⟩
          · rintro (h | ⟨w, hw, u', hu', q, e⟩)
            · exact .inl h
            · rcases List.mem_cons.1 hw with rfl | hw
              · rw [hu] at hu'; cases hu'; exact absurd hh q
              · exact .inr ⟨w, hw, u', hu', q, e⟩
        · simp only [hh, ne_eq, not_false_eq_true, ↓reduceIte, List.mem_append, List.mem_singleton]
          constructor
          · rintro ((h | rfl) | ⟨w, hw, q⟩)
            · exact .inl h
            · exact .inr ⟨v, by simp, u, hu, hh, rfl⟩
            · exact .inr ⟨w, by simp [hw], q⟩
          · rintro (h | ⟨w, hw, u', hu', q, e⟩)
            · exact .inl (.inl h)
            · rcases List.mem_cons.1 hw with rfl | hw
              · rw [hu] at hu'; cases hu'; exact .inl (.inr e)
              · exact .inr ⟨w, hw, u', hu', q, e⟩

theorem mkVar_schemes : mkVar [b!"http://", b!"https://"] = .ok ⟨[b!"http://", b!"https://"], b!"http://"⟩ := rfl

theorem mkVar_ok {l : List Str} {x : Str} (h : x ∈ l) : ∃ d, mkVar (removeDuplicates l) = .ok ⟨removeDuplicates l, d⟩ ∧ d ∈ removeDuplicates l := by
  have hx : x ∈ removeDuplicates l := mem_removeDuplicates.2 h
  cases hr : removeDuplicates l with
  | nil => rw [hr] at hx; cases hx
  | cons a t => exact ⟨a, rfl, by simp⟩

/-- `NewServers` fails exactly when one of the URIs cannot be parsed; it never panics. -/
theorem C59_fails_iff (uris : List Str) :
    ((∃ e, newServers uris = .err e) ↔ ∃ v ∈ uris, Url.Parse v = none) ∧ newServers uris ≠ .panic := by
  have hslash : (Url.Parse b!"/").isSome = true := by decide
  by_cases h : ∃ v ∈ uris, Url.Parse v = none
  · obtain ⟨v, hv, hn⟩ := h
    obtain ⟨e, he⟩ := allParts_err (removeDuplicates (uris ++ [b!"/"])) ⟨[b!"localhost"], [b!"/"], [[]]⟩
      ⟨v, mem_removeDuplicates.2 (by simp [hv]), hn⟩
    have : newServers uris = .err e := by simp [newServers, he]
    rw [this]
    exact ⟨⟨fun _ => ⟨v, hv, hn⟩, fun _ => ⟨e, rfl⟩⟩, by simp⟩
  · have hall : ∀ v ∈ removeDuplicates (uris ++ [b!"/"]), (Url.Parse v).isSome := by
      intro v hv
      rw [mem_removeDuplicates, List.mem_append, List.mem_singleton] at hv
      rcases hv with hv | rfl
      · cases hp : Url.Parse v with
        | none => exact absurd ⟨v, hv, hp⟩ h
        | some u => rfl
      · exact hslash
    obtain ⟨ps, hps⟩ := allParts_ok _ ⟨[b!"localhost"], [b!"/"], [[]]⟩ hall
    obtain ⟨m1, m2, m3⟩ := allParts_mem _ _ _ hps
    obtain ⟨a, ha, _⟩ := mkVar_ok ((m1 b!"localhost").2 (.inl (by simp)))
    obtain ⟨b, hb, _⟩ := mkVar_ok ((m2 b!"/").2 (.inl (by simp)))
    obtain ⟨c, hc, _⟩ := mkVar_ok ((m3 []).2 (.inl (by simp)))
    have : ∃ l, newServers uris = .ok l := by
      simp [newServers, hps, ha, hb, hc, mkVar_schemes, pure]
    obtain ⟨l, hl⟩ := this
    rw [hl]
    refine ⟨⟨?_, fun h' => absurd h' h⟩, by simp⟩
    rintro ⟨e, he⟩
    cases he

/-- On success the result is one plain server for every given URI and for "/", each once and in increasing order, followed by
one templated server with the variables scheme, host, port and path; every default is one of the values of its variable, and
the values are exactly the hosts (and localhost), paths (and "/") and ports (and the empty one) of the URIs. -/
theorem C59_newServers (uris : List Str) (ss : List Server) (h : newServers uris = .ok ss) :
    ∃ (urls : List Str) (sch host port_ path : ServerVariable),
      ss = urls.map (fun v => { url := v }) ++
        [{ url := b!"{scheme}{host}{port}{path}",
           variables := [(b!"scheme", sch), (b!"host", host), (b!"port", port_), (b!"path", path)] }] ∧
      urls.Pairwise (fun x y => Str.lt x y = true) ∧ (∀ x, x ∈ urls ↔ x ∈ uris ∨ x = b!"/") ∧
      (∀ sv ∈ [sch, host, port_, path], sv.default ∈ sv.enum ∧ sv.enum.Pairwise (fun x y => Str.lt x y = true)) ∧
      (∀ x, x ∈ sch.enum ↔ x = b!"http://" ∨ x = b!"https://") ∧
      (∀ x, x ∈ host.enum ↔ x = b!"localhost" ∨ (x ≠ [] ∧ ∃ v ∈ urls, ∃ u, Url.Parse v = some u ∧ Spec.HostName u.host x)) ∧
      (∀ x, x ∈ path.enum ↔ x = b!"/" ∨ (x ≠ [] ∧ ∃ v ∈ urls, ∃ u, Url.Parse v = some u ∧ x = u.path)) ∧
      (∀ x, x ∈ port_.enum ↔ x = [] ∨ ∃ v ∈ urls, ∃ u c ds, Url.Parse v = some u ∧ Spec.HasPort u.host c ds ∧ ds ≠ [] ∧ x = b!":" ++ ds) := by
  have hne : ¬ ∃ v ∈ uris, Url.Parse v = none := by
    intro hn
    obtain ⟨e, he⟩ := (C59_fails_iff uris).1.2 hn
    rw [he] at h; cases h
  cases hps : allParts (removeDuplicates (uris ++ [b!"/"])) ⟨[b!"localhost"], [b!"/"], [[]]⟩ with
  | err e => simp [newServers, hps] at h
  | panic => simp [newServers, hps] at h
  | ok ps =>
    obtain ⟨m1, m2, m3⟩ := allParts_mem _ _ _ hps
    obtain ⟨a, ha, ha'⟩ := mkVar_ok ((m1 b!"localhost").2 (.inl (by simp)))
    obtain ⟨b, hb, hb'⟩ := mkVar_ok ((m2 b!"/").2 (.inl (by simp)))
    obtain ⟨c, hc, hc'⟩ := mkVar_ok ((m3 []).2 (.inl (by simp)))
    simp [newServers, hps, ha, hb, hc, mkVar_schemes, pure] at h
    refine ⟨removeDuplicates (uris ++ [b!"/"]), ⟨[b!"http://", b!"https://"], b!"http://"⟩, ⟨removeDuplicates ps.hosts, a⟩,
      ⟨removeDuplicates ps.ports, c⟩, ⟨removeDuplicates ps.paths, b⟩, h.symm, (C59_removeDuplicates _).1, ?_, ?_, ?_, ?_, ?_, ?_⟩
    · intro x; rw [mem_removeDuplicates]; simp
    · intro sv hsv
      simp only [List.mem_cons, List.not_mem_nil, or_false] at hsv
      rcases hsv with rfl | rfl | rfl | rfl
      · exact ⟨by decide, by decide⟩
      · exact ⟨ha', (C59_removeDuplicates _).1⟩
      · exact ⟨hc', (C59_removeDuplicates _).1⟩
      · exact ⟨hb', (C59_removeDuplicates _).1⟩
    · intro x; simp
    · intro x; rw [mem_removeDuplicates, m1 x]; simp [← Url.hostname_iff, eq_comm]
    · intro x; rw [mem_removeDuplicates, m2 x]; simp
    · intro x
      rw [mem_removeDuplicates, m3 x]
      simp only [List.mem_singleton]
      refine or_congr_right ⟨?_, ?_⟩
      · rintro ⟨v, hv, u, hu, h1, rfl⟩
        obtain ⟨h2, c, hc⟩ := Url.port_iff.1 ⟨h1, rfl⟩
        exact ⟨v, hv, u, c, _, hu, hc, h2, rfl⟩
      · rintro ⟨v, hv, u, c, ds, hu, hc, h2, rfl⟩
        obtain ⟨h1, h3⟩ := Url.port_iff.2 ⟨h2, c, hc⟩
        exact ⟨v, hv, u, hu, h1, by rw [h3]⟩

/-- The order and the repetitions of the URIs do not matter. -/
theorem C59_newServers_set {a b : List Str} (h : ∀ x, x ∈ a ↔ x ∈ b) : newServers a = newServers b := by
  have : removeDuplicates (a ++ [b!"/"]) = removeDuplicates (b ++ [b!"/"]) := by
    refine C59_removeDuplicates_set fun x => ?_
    simp [h x]
  simp only [newServers, this]

/-- A slice handed over without spare capacity is left alone. -/
theorem C59_caller_kept (uris : List Str) : callerAfter uris uris.length = uris := by
  unfold callerAfter
  rw [if_neg]
  omega

/-- With spare capacity a caller's slice is overwritten: it afterwards holds the smallest of its elements and "/" in
increasing order. -/
theorem C59_caller_sorted (uris : List Str) (cap : Nat) (h : uris.length < cap) (hne : uris ≠ []) :
    Ordered (callerAfter uris cap) ∧ ∀ x ∈ callerAfter uris cap, x ∈ uris ∨ x = b!"/" := by
  have hl : 0 < uris.length := by cases uris with | nil => exact absurd rfl hne | cons => simp
  unfold callerAfter
  rw [if_pos ⟨by omega, by omega⟩]
  refine ⟨(sortStrs_ordered _).sublist (List.take_sublist _ _), fun x hx => ?_⟩
  have := (sortStrs_perm _).mem_iff.1 ((List.take_sublist _ _).subset hx)
  simpa using this

example : callerAfter [b!"https://b.org", b!"https://a.org"] 3 = [b!"/", b!"https://a.org"] := by decide
example : removeDuplicates [b!"b", b!"a", b!"b"] = [b!"a", b!"b"] := by decide
example : newServers [b!"https://a.org:80/x", b!"https://a.org:80/x"] = .ok
    [{ url := b!"/" }, { url := b!"https://a.org:80/x" },
     { url := b!"{scheme}{host}{port}{path}",
       variables := [(b!"scheme", ⟨[b!"http://", b!"https://"], b!"http://"⟩), (b!"host", ⟨[b!"a.org", b!"localhost"], b!"a.org"⟩),
         (b!"port", ⟨[[], b!":80"], []⟩), (b!"path", ⟨[b!"/", b!"/x"], b!"/"⟩)] }] := by decide
example : ∃ e, newServers [b!":"] = .err e := ⟨.syntaxErr, by decide⟩

/-! ### C60 -/
section
variable {H M L : Type}

/-- A header that is added is there afterwards, all other headers, the contents, links and description are as before. -/
theorem C60_addHeader (r : Response H M L) (name : Str) (h : H) :
    ∃ r', addHeader r name (some h) = .ok r' ∧ r'.headers.get name = some (some h) ∧
      (∀ k, k ≠ name → r'.headers.get k = r.headers.get k) ∧ r'.content = r.content ∧ r'.links = r.links ∧
      r'.description = r.description := by
  cases r with
  | mk d hs cs ls =>
    cases hs <;> exact ⟨_, rfl, by simp [GMap.get], fun k hk => by simp [GMap.get, hk], rfl, rfl, rfl⟩

/-- The same for contents. -/
theorem C60_addContent (r : Response H M L) (name : Str) (c : M) :
    ∃ r', addContent r name (some c) = .ok r' ∧ r'.content.get name = some (some c) ∧
      (∀ k, k ≠ name → r'.content.get k = r.content.get k) ∧ r'.headers = r.headers ∧ r'.links = r.links ∧
      r'.description = r.description := by
  cases r with
  | mk d hs cs ls =>
    cases cs <;> exact ⟨_, rfl, by simp [GMap.get], fun k hk => by simp [GMap.get, hk], rfl, rfl, rfl⟩

/-- The same for links. -/
theorem C60_addLink (r : Response H M L) (name : Str) (l : L) :
    ∃ r', addLink r name (some l) = .ok r' ∧ r'.links.get name = some (some l) ∧
      (∀ k, k ≠ name → r'.links.get k = r.links.get k) ∧ r'.headers = r.headers ∧ r'.content = r.content ∧
      r'.description = r.description := by
  cases r with
  | mk d hs cs ls =>
    cases ls <;> exact ⟨_, rfl, by simp [GMap.get], fun k hk => by simp [GMap.get, hk], rfl, rfl, rfl⟩

/-- A nil header, a nil content and a nil link all do the same: they remove the *header* of that name and nothing else. -/
theorem C60_nil_removes_header (r : Response H M L) (name : Str) :
    ∃ r', addHeader r name none = .ok r' ∧ addContent r name none = .ok r' ∧ addLink r name none = .ok r' ∧
      r'.headers.get name = none ∧ (∀ k, k ≠ name → r'.headers.get k = r.headers.get k) ∧
      r'.content = r.content ∧ r'.links = r.links ∧ r'.description = r.description := by
  refine ⟨removeHeader r name, rfl, rfl, rfl, ?_, ?_, rfl, rfl, rfl⟩
  · cases r with
    | mk d hs cs ls => cases hs <;> simp [removeHeader, GMap.get, GMap.del]
  · intro k hk
    cases r with
    | mk d hs cs ls => cases hs <;> simp [removeHeader, GMap.get, GMap.del, hk]

/-- So passing nil never removes a content: what was there is still there. -/
theorem C60_nil_content_stays (r r' : Response H M L) (name : Str) (h : addContent r name none = .ok r') :
    r'.content.get name = r.content.get name := by
  cases h; rfl

/-- The remove functions remove exactly the named entry of their own map. -/
theorem C60_remove (r : Response H M L) (name : Str) :
    ((removeContent r name).content.get name = none ∧ ∀ k, k ≠ name → (removeContent r name).content.get k = r.content.get k) ∧
    ((removeLink r name).links.get name = none ∧ ∀ k, k ≠ name → (removeLink r name).links.get k = r.links.get k) ∧
    ((removeHeader r name).headers.get name = none ∧ ∀ k, k ≠ name → (removeHeader r name).headers.get k = r.headers.get k) ∧
    (removeContent r name).headers = r.headers ∧ (removeContent r name).links = r.links ∧
    (removeLink r name).headers = r.headers ∧ (removeLink r name).content = r.content ∧
    (removeHeader r name).content = r.content ∧ (removeHeader r name).links = r.links := by
  cases r with
  | mk d hs cs ls =>
    refine ⟨⟨?_, ?_⟩, ⟨?_, ?_⟩, ⟨?_, ?_⟩, rfl, rfl, rfl, rfl, rfl, rfl⟩
    · cases cs <;> simp [removeContent, GMap.get, GMap.del]
    · intro k hk; cases cs <;> simp [removeContent, GMap.get, GMap.del, hk]
    · cases ls <;> simp [removeLink, GMap.get, GMap.del]
    · intro k hk; cases ls <;> simp [removeLink, GMap.get, GMap.del, hk]
    · cases hs <;> simp [removeHeader, GMap.get, GMap.del]
    · intro k hk; cases hs <;> simp [removeHeader, GMap.get, GMap.del, hk]

example : ∃ r' : Response Nat Nat Nat, addContent (newResponse b!"text/plain" 7) b!"text/plain" none = .ok r' ∧
    r'.content.get b!"text/plain" = some (some 7) := ⟨_, rfl, by decide⟩
end

/-! ### C61 -/

/-- The eight methods in the order in which OpenAPI documents list them. -/
def methodsOf {Op : Type} (s : PathItem Op) : List (Str × Option Op) :=
  [(b!"get", s.get), (b!"put", s.put), (b!"post", s.post), (b!"delete", s.delete), (b!"options", s.options),
   (b!"head", s.head), (b!"patch", s.patch), (b!"trace", s.trace)]

theorem foldl_ops {Op : Type} (l : List (Option Op)) : ∀ acc : List Op,
    l.foldl pushOp acc = acc ++ l.filterMap id := by
  induction l with
  | nil => intro acc; simp
  | cons a t ih =>
    intro acc
    cases a with
    | none => simpa [pushOp] using ih acc
    | some o => simp [pushOp, ih, List.append_assoc]

/-- `Operations` returns the operations that are there, in the order of the eight methods. -/
theorem C61_operations {Op : Type} (s : PathItem Op) : operations s = (methodsOf s).filterMap Prod.snd := by
  rw [operations, foldl_ops]
  simp [methodsOf, List.filterMap]

/-- Each operation is listed exactly as often as it is set: the number of operations is the number of non-nil methods. -/
theorem C61_count {Op : Type} (s : PathItem Op) :
    (operations s).length = ((methodsOf s).filter fun e => e.2.isSome).length := by
  rw [C61_operations]
  induction methodsOf s with
  | nil => rfl
  | cons a t ih =>
    rcases a with ⟨k, _ | o⟩
    · simpa using ih
    · simpa using ih

example : operations ({ post := some 3, get := some 1, trace := some 8 } : PathItem Nat) = [1, 3, 8] := by decide

/-! ### C62 -/

/-- A value decoded into a fresh union and encoded again is the same, the empty string excepted. -/
theorem C62_encode_decode (j : Json) (h : j ≠ .str []) : (AnyOrExpr.decodeInto {} j).encode = j := by
  cases j with
  | str s =>
    have : s ≠ [] := fun e => h (by rw [e])
    simp [AnyOrExpr.decodeInto, AnyOrExpr.encode, this]
  | _ => rfl

/-- The empty string becomes null. -/
theorem C62_empty_string : (AnyOrExpr.decodeInto {} (.str [])).encode = .null := rfl

/-- Decoding the encoding of a value that came from decoding a non-empty value gives that value again. -/
theorem C62_decode_encode (j : Json) (h : j ≠ .str []) :
    AnyOrExpr.decodeInto {} (AnyOrExpr.decodeInto {} j).encode = AnyOrExpr.decodeInto {} j := by
  rw [C62_encode_decode j h]

/-- And for the empty string it does not: the value after a round trip is null, which is a different value. -/
theorem C62_empty_differs : AnyOrExpr.decodeInto {} (AnyOrExpr.decodeInto {} (.str [])).encode ≠ AnyOrExpr.decodeInto {} (.str []) := by
  intro h
  have := congrArg AnyOrExpr.any h
  cases this

/-- Decoding into a value that already held an expression does not replace it by a later non-string value: the old expression
is what is encoded. -/
theorem C62_stale_expression (m : AnyOrExpr) (hm : m.expressions ≠ []) (j : Json) (h : ∀ s, j ≠ .str s) :
    (m.decodeInto j).encode = .str m.expressions := by
  cases j with
  | str s => exact absurd rfl (h s)
  | _ => simp [AnyOrExpr.decodeInto, AnyOrExpr.encode, hm]

example : (AnyOrExpr.decodeInto {} (.str b!"$url")).encode = .str b!"$url" := rfl

/-! ### C66 -/

/-- None of the four OAuth2 constructors ever returns: the flow they write to is a nil pointer. -/
theorem C66_oauth2_panics (a t : Str) :
    oauth2Implicit a = .panic ∧ oauth2Password t = .panic ∧ oauth2AuthorizationCode t = .panic ∧ oauth2ClientCredentials a t = .panic :=
  ⟨rfl, rfl, rfl, rfl⟩

/-- The other security scheme constructors never panic and set exactly the documented fields. -/
theorem C66_others (f n v : Str) :
    basicAuth = .ok { type := b!"http", scheme := b!"basic" } ∧
    bearerAuth f = .ok { type := b!"http", scheme := b!"bearer", bearerFormat := f } ∧
    apiKeyAuth n v = .ok { type := b!"apiKey", name := n, in_ := v } := ⟨rfl, rfl, rfl⟩

end Oapi.Props
