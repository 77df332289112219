import Verif.Model.Values
import Verif.Props.Main

/-! C102: request bodies, responses, headers and XML objects built by chains of calls. -/
namespace Oapi.Props
open SpecUtil Values

variable {S H M L : Type}

theorem lastOf_cons {α β : Type} (g : α → Option β) (o : α) (os : List α) (d : β) :
    (lastOf g (o :: os)).getD d = (lastOf g os).getD ((g o).getD d) := by
  show ((lastOf g os).orElse fun _ => g o).getD d = _
  cases lastOf g os <;> rfl

/-- What a call says about the header of a name: `some (some h)` that it is `h`, `some none` that there is none.  A nil content or link says
that there is no header. -/
def saysHeader (k : Str) : ROp H M L → Option (Option H)
  | .addHeader n h => if n = k then some h else none
  | .removeHeader n => if n = k then some none else none
  | .addContent n none => if n = k then some none else none
  | .addLink n none => if n = k then some none else none
  | _ => none

/-- What a call says about the content of a name. -/
def saysContent (k : Str) : ROp H M L → Option (Option M)
  | .addContent n (some c) => if n = k then some (some c) else none
  | .removeContent n => if n = k then some none else none
  | _ => none

/-- What a call says about the link of a name. -/
def saysLink (k : Str) : ROp H M L → Option (Option L)
  | .addLink n (some l) => if n = k then some (some l) else none
  | .removeLink n => if n = k then some none else none
  | _ => none

/-- What a call says about the description. -/
def saysText : ROp H M L → Option Str
  | .withDescription d => some d
  | _ => none

/-- An entry of one of the maps, a nil pointer in it counting as none. -/
def entry {V : Type} (m : GMap V) (k : Str) : Option V := (m.get k).getD none

theorem apply_ok (r : Response H M L) (o : ROp H M L) : ∃ r', applyResponse r o = .ok r' ∧
    (∀ k, entry r'.headers k = (saysHeader k o).getD (entry r.headers k)) ∧
    (∀ k, entry r'.content k = (saysContent k o).getD (entry r.content k)) ∧
    (∀ k, entry r'.links k = (saysLink k o).getD (entry r.links k)) ∧
    r'.description = (saysText o).getD r.description := by
  have del {V : Type} (m : GMap V) (n k : Str) : entry (m.del n) k = (if n = k then some none else none : Option (Option V)).getD (entry m k) := by
    cases m with
    | none => by_cases h : n = k <;> simp [entry, GMap.del, GMap.get, h]
    | some f =>
      by_cases h : n = k
      · subst h; simp [entry, GMap.del, GMap.get]
      · have : ¬ k = n := fun e => h e.symm
        simp [entry, GMap.del, GMap.get, h, this]
  have set {V : Type} (m : GMap V) (n : Str) (v : V) : ∃ m', (m.ensure).set n (some v) = .ok m' ∧
      ∀ k, entry m' k = (if n = k then some (some v) else none : Option (Option V)).getD (entry m k) := by
    cases m with
    | none =>
      refine ⟨_, rfl, fun k => ?_⟩
      by_cases h : n = k
      · subst h; simp [entry, GMap.get]
      · have : ¬ k = n := fun e => h e.symm
        simp [entry, GMap.get, h, this]
    | some f =>
      refine ⟨_, rfl, fun k => ?_⟩
      by_cases h : n = k
      · subst h; simp [entry, GMap.get]
      · have : ¬ k = n := fun e => h e.symm
        simp [entry, GMap.get, h, this]
  cases o with
  | withDescription d => exact ⟨_, rfl, fun _ => rfl, fun _ => rfl, fun _ => rfl, rfl⟩
  | removeHeader n => exact ⟨_, rfl, del _ n, fun _ => rfl, fun _ => rfl, rfl⟩
  | removeContent n => exact ⟨_, rfl, fun _ => rfl, del _ n, fun _ => rfl, rfl⟩
  | removeLink n => exact ⟨_, rfl, fun _ => rfl, fun _ => rfl, del _ n, rfl⟩
  | addHeader n h =>
    cases h with
    | none => exact ⟨_, rfl, del _ n, fun _ => rfl, fun _ => rfl, rfl⟩
    | some h =>
      obtain ⟨m', h1, h2⟩ := set r.headers n h
      exact ⟨{ r with headers := m' }, by simp only [applyResponse, SpecUtil.addHeader, h1], h2, fun _ => rfl, fun _ => rfl, rfl⟩
  | addContent n c =>
    cases c with
    | none => exact ⟨_, rfl, del _ n, fun _ => rfl, fun _ => rfl, rfl⟩
    | some c =>
      obtain ⟨m', h1, h2⟩ := set r.content n c
      exact ⟨{ r with content := m' }, by simp only [applyResponse, SpecUtil.addContent, h1], fun _ => rfl, h2, fun _ => rfl, rfl⟩
  | addLink n l =>
    cases l with
    | none => exact ⟨_, rfl, del _ n, fun _ => rfl, fun _ => rfl, rfl⟩
    | some l =>
      obtain ⟨m', h1, h2⟩ := set r.links n l
      exact ⟨{ r with links := m' }, by simp only [applyResponse, SpecUtil.addLink, h1], fun _ => rfl, fun _ => rfl, h2, rfl⟩

theorem chain_ok (r : Response H M L) (os : List (ROp H M L)) : ∃ r', runResponse r os = .ok r' ∧
    (∀ k, entry r'.headers k = (lastOf (saysHeader k) os).getD (entry r.headers k)) ∧
    (∀ k, entry r'.content k = (lastOf (saysContent k) os).getD (entry r.content k)) ∧
    (∀ k, entry r'.links k = (lastOf (saysLink k) os).getD (entry r.links k)) ∧
    r'.description = (lastOf saysText os).getD r.description := by
  induction os generalizing r with
  | nil => exact ⟨r, rfl, fun _ => rfl, fun _ => rfl, fun _ => rfl, rfl⟩
  | cons o os ih =>
    obtain ⟨r₁, h0, h1, h2, h3, h4⟩ := apply_ok r o
    obtain ⟨r', g0, g1, g2, g3, g4⟩ := ih r₁
    refine ⟨r', by simp only [runResponse, h0, g0], fun k => ?_, fun k => ?_, fun k => ?_, ?_⟩
    · rw [g1, h1, lastOf_cons]
    · rw [g2, h2, lastOf_cons]
    · rw [g3, h3, lastOf_cons]
    · rw [g4, h4, lastOf_cons]

/-- **C102** (responses): a response built by JSONResponse, XMLResponse, … and any chain of calls, which never crashes, has for each name the header,
the content and the link that the last call about it says, and the description of the last WithDescription; else no header and no link, for the
media type of the constructor the content with the given schema and nothing else, and no other content. -/
theorem C102_response (t : Mime) (schema : Option S) (os : List (ROp H (Media S) L)) :
    ∃ r : Response H (Media S) L, runResponse (response t schema) os = .ok r ∧
      (∀ k, entry r.headers k = (lastOf (saysHeader k) os).getD none) ∧
      (∀ k, entry r.content k = (lastOf (saysContent k) os).getD (if k = mimeText t then some ⟨schema, false⟩ else none)) ∧
      (∀ k, entry r.links k = (lastOf (saysLink k) os).getD none) ∧
      r.description = (lastOf saysText os).getD [] := by
  obtain ⟨r, h0, h1, h2, h3, h4⟩ := chain_ok (response t schema : Response H (Media S) L) os
  refine ⟨r, h0, h1, fun k => (h2 k).trans ?_, h3, h4⟩
  have : entry (response t schema : Response H (Media S) L).content k = if k = mimeText t then some ⟨schema, false⟩ else none := by
    by_cases h : k = mimeText t <;> simp [entry, response, newResponse, GMap.get, h]
  rw [this]

/-- **C102** (contents are never removed by nil): in a chain without RemoveContent the content of the constructor's media type is there to the end;
passing nil to AddContent does not remove it. -/
theorem C102_nil_content_stays (t : Mime) (schema : Option S) (os : List (ROp H (Media S) L)) (h : .removeContent (mimeText t) ∉ os) :
    ∃ r : Response H (Media S) L, runResponse (response t schema) os = .ok r ∧ (entry r.content (mimeText t)).isSome := by
  obtain ⟨r, h0, _, h2, _, _⟩ := C102_response t schema os
  refine ⟨r, h0, ?_⟩
  rw [h2, if_pos rfl]
  have gen : ∀ (os : List (ROp H (Media S) L)) (d : Option (Media S)), d.isSome → .removeContent (mimeText t) ∉ os →
      ((lastOf (saysContent (mimeText t)) os).getD d).isSome := by
    intro os
    induction os with
    | nil => exact fun d h _ => h
    | cons o os ih =>
      intro d hd hn
      rw [lastOf_cons]
      refine ih _ ?_ (fun hx => hn (List.mem_cons_of_mem _ hx))
      cases o with
      | addContent n c =>
        cases c with
        | none => exact hd
        | some c =>
          simp only [saysContent]
          split
          · rfl
          · exact hd
      | removeContent n =>
        simp only [saysContent]
        split
        · rename_i e; exact absurd (e ▸ List.mem_cons_self) hn
        · exact hd
      | _ => exact hd
  exact gen os _ rfl h

/-- **C102** (request bodies): JSONRequestBody, XMLRequestBody, … give a body whose only content is the given schema under that media type; it is
not required and has no description. -/
theorem C102_request_body (t : Mime) (schema : Option S) :
    (∀ k, entry (requestBody t schema).content k = if k = mimeText t then some ⟨schema, false⟩ else none) ∧
    (requestBody t schema).required = false ∧ (requestBody t schema).description = [] := by
  refine ⟨fun k => ?_, rfl, rfl⟩
  by_cases h : k = mimeText t <;> simp [entry, requestBody, newRequestBody, GMap.get, h]

/-- **C102** (media types): the six constructors are for six different media types. -/
theorem C102_media_types : ∀ t t' : Mime, mimeText t = mimeText t' → t = t' := by
  intro t t'; cases t <;> cases t' <;> decide

/-- What a call says about the fields of a header. -/
def saysHDescription : HOp → Option Str
  | .withDescription d => some d
  | _ => none
def saysHEmpty : HOp → Option Bool
  | .allowsEmptyValues => some true
  | .noEmptyValues => some false
  | _ => none

/-- **C102** (headers): after any chain of calls the description and the empty-value flag are those of the last call about them; the header is
required exactly if it was and AsOptional was not called (no call makes it required); nothing else changes. -/
theorem C102_header {R : Type} (h : Header R) (os : List HOp) :
    let h' := os.foldl applyHeader h
    h'.description = (lastOf saysHDescription os).getD h.description ∧
    h'.allowEmptyValue = (lastOf saysHEmpty os).getD h.allowEmptyValue ∧
    (h'.required = true ↔ h.required = true ∧ .asOptional ∉ os) ∧ h'.rest = h.rest := by
  induction os generalizing h with
  | nil => exact ⟨rfl, rfl, by simp, rfl⟩
  | cons o os ih =>
    obtain ⟨h1, h2, h3, h4⟩ := ih (applyHeader h o)
    simp only [List.foldl_cons]
    refine ⟨?_, ?_, ?_, ?_⟩
    · rw [h1, lastOf_cons]; cases o <;> rfl
    · rw [h2, lastOf_cons]; cases o <;> rfl
    · rw [h3]; cases o <;> simp [applyHeader]
    · rw [h4]; cases o <;> rfl

/-- What a call says about the fields of an XML object. -/
def saysXName : XOp → Option Str
  | .withName s => some s
  | _ => none
def saysXNamespace : XOp → Option Str
  | .withNamespace s => some s
  | _ => none
def saysXPrefix : XOp → Option Str
  | .withPrefix s => some s
  | _ => none
def saysXAttribute : XOp → Option Bool
  | .asAttribute => some true
  | .asElement => some false
  | _ => none
def saysXWrapped : XOp → Option Bool
  | .asWrapped => some true
  | .asUnwrapped => some false
  | _ => none

/-- **C102** (XML objects): after any chain of calls each field is that of the last call about it, else what it was. -/
theorem C102_xml (x : XML) (os : List XOp) :
    let x' := os.foldl applyXML x
    x'.name = (lastOf saysXName os).getD x.name ∧ x'.namespace_ = (lastOf saysXNamespace os).getD x.namespace_ ∧
    x'.prefix_ = (lastOf saysXPrefix os).getD x.prefix_ ∧ x'.attribute_ = (lastOf saysXAttribute os).getD x.attribute_ ∧
    x'.wrapped = (lastOf saysXWrapped os).getD x.wrapped := by
  induction os generalizing x with
  | nil => exact ⟨rfl, rfl, rfl, rfl, rfl⟩
  | cons o os ih =>
    obtain ⟨h1, h2, h3, h4, h5⟩ := ih (applyXML x o)
    simp only [List.foldl_cons, lastOf_cons]
    refine ⟨h1.trans ?_, h2.trans ?_, h3.trans ?_, h4.trans ?_, h5.trans ?_⟩ <;> cases o <;> rfl

/-! Concrete chains. -/
example : ∃ r : Response Nat (Media Nat) Nat, runResponse (response .json (some 7))
    [.addHeader b!"X" (some 1), .addContent b!"text/plain" (some ⟨some 8, false⟩), .addContent b!"application/json" none, .addContent b!"X" none,
     .withDescription b!"d", .addLink b!"l" (some 3)] = .ok r ∧
    entry r.headers b!"X" = none ∧ entry r.content b!"application/json" = some ⟨some 7, false⟩ ∧ entry r.content b!"text/plain" = some ⟨some 8, false⟩ ∧
    entry r.links b!"l" = some 3 ∧ r.description = b!"d" := by
  obtain ⟨r, h0, h1, h2, h3, h4⟩ := C102_response (H := Nat) (L := Nat) .json (some 7)
    [.addHeader b!"X" (some 1), .addContent b!"text/plain" (some ⟨some 8, false⟩), .addContent b!"application/json" none, .addContent b!"X" none,
     .withDescription b!"d", .addLink b!"l" (some 3)]
  exact ⟨r, h0, (h1 _).trans (by decide), (h2 _).trans (by decide), (h2 _).trans (by decide), (h3 _).trans (by decide), h4.trans (by decide)⟩
example : ([HOp.withDescription b!"a", .asOptional, .withDescription b!"b"].foldl applyHeader ({ required := true, rest := () } : Header Unit)).description = b!"b" :=
  (C102_header ({ required := true, rest := () } : Header Unit) _).1
example : ([XOp.asWrapped, .withName b!"n", .asUnwrapped].foldl applyXML {}).wrapped = false := (C102_xml {} _).2.2.2.2

end Oapi.Props
