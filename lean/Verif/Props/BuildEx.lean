import Verif.Props.Build

/- Concrete heaps and chains of calls for C85–C87. -/
namespace Oapi.Props.BuildEx

open Oapi.Props Oapi.Build Oapi.Spec.Build

/-- Array 1 holds three names with capacity 4; array 2 the shared date example; map 3 one property. Schemas 5 and 6 share array 1 and map 3,
schemas 7 and 8 are dates, schema 9 is blank. -/
def w : World Int where
  schemas := fun i =>
    if i = 5 then { title := b!"a", properties := some 3, required := ⟨1, 1⟩ }
    else if i = 6 then { title := b!"b", properties := some 3, required := ⟨1, 3⟩ }
    else if i = 7 then construct ⟨2, 4⟩ .date
    else if i = 8 then construct ⟨2, 4⟩ .dateTime
    else {}
  maps := fun i k => if i = 3 ∧ k = b!"id" then some (some 9) else none
  docs := fun _ => ([], [])
  xmls := fun _ => {}
  strs := fun i => if i = 1 then [b!"x", b!"y", b!"z", b!""] else []
  refs := fun _ => []
  bytes := fun i => if i = 2 then b!"\"T\"." else []
  next := 10

theorem ok5 : SchOK w 5 := ⟨by decide, by decide, by decide, ⟨by decide, by decide⟩, ⟨by decide, by decide⟩, ⟨by decide, by decide⟩,
  ⟨by decide, by decide⟩, ⟨by decide, by decide⟩, ⟨by decide, by decide⟩⟩

theorem ok6 : SchOK w 6 := ⟨by decide, by decide, by decide, ⟨by decide, by decide⟩, ⟨by decide, by decide⟩, ⟨by decide, by decide⟩,
  ⟨by decide, by decide⟩, ⟨by decide, by decide⟩, ⟨by decide, by decide⟩⟩

theorem ok7 : SchOK w 7 := ⟨by decide, by decide, by decide, ⟨by decide, by decide⟩, ⟨by decide, by decide⟩, ⟨by decide, by decide⟩,
  ⟨by decide, by decide⟩, ⟨by decide, by decide⟩, ⟨by decide, by decide⟩⟩

theorem ok9 : SchOK w 9 := ⟨by decide, by decide, by decide, ⟨by decide, by decide⟩, ⟨by decide, by decide⟩, ⟨by decide, by decide⟩,
  ⟨by decide, by decide⟩, ⟨by decide, by decide⟩, ⟨by decide, by decide⟩⟩

/-- A chain that sets things twice, on the blank schema. -/
def chain : List (Op Int) :=
  [.title b!"first", .type b!"string" b!"date", .title b!"second", .required ⟨1, 2⟩, .format b!"date-time", .addRequired [b!"w"] 1,
   .property b!"p" (some 5), .externalDocs b!"d" b!"", .xmlName b!"n", .asWrappedXML, .externalDocs [] []]

theorem chain_ok : ∀ o ∈ chain, ArgsOK w o := by
  intro o ho
  simp only [chain, List.mem_cons, List.not_mem_nil, or_false] at ho
  rcases ho with rfl | rfl | rfl | rfl | rfl | rfl | rfl | rfl | rfl | rfl | rfl <;> first | trivial | exact ⟨by decide, by decide⟩

/-- The last title wins. -/
example : look (run w 9 chain) 9 .title = .text b!"second" := by
  refine C85_last_call_wins ok9 [.title b!"first", .type b!"string" b!"date"] _ (.title b!"second") chain_ok (.title _) ?_
  rintro o ho ⟨w', s', v, hs⟩
  simp only [List.mem_cons, List.not_mem_nil, or_false] at ho
  rcases ho with rfl | rfl | rfl | rfl | rfl | rfl | rfl | rfl <;> cases hs

/-- The later WithFormat replaces the format given with the type, the type stays. -/
example : look (run w 9 chain) 9 .format = .text b!"date-time" ∧ look (run w 9 chain) 9 .type = .text b!"string" ∧
    look (run w 9 chain) 9 .docsPresent = .flag false ∧ look (run w 9 chain) 9 .xmlName = .text b!"n" ∧
    look (run w 9 chain) 9 .xmlWrapped = .flag true ∧ look (run w 9 chain) 9 (.property b!"p") = .entry (some (some 5)) := ⟨rfl, rfl, rfl, rfl, rfl, rfl⟩

/-- AddRequired after WithRequired appends; here into the array of the slice handed over, of which schema 6 has the first three. -/
example : look (run w 9 chain) 9 .required = .texts [b!"x", b!"y", b!"w"] ∧ look (run w 9 chain) 6 .required = .texts [b!"x", b!"y", b!"w"] ∧
    look w 6 .required = .texts [b!"x", b!"y", b!"z"] := ⟨rfl, rfl, rfl⟩

/-- The same from the theorem on sharing. -/
example : look (apply w 5 (.addRequired [b!"w"] 0)) 6 .required = .texts [b!"x", b!"w", b!"z"] :=
  C86_shared_required w 5 6 (by decide) [b!"w"] 0 rfl (by decide)

/-- Schemas 5 and 7 share nothing: a chain on 5 is not seen through 7. -/
theorem apart57 : Apart w 5 7 := ⟨by decide, by decide, by decide, by decide, .inl (by decide), .inr (by decide), .inr (by decide), .inr (by decide)⟩

example (f : Field) : look (run w 5 [.title b!"t", .property b!"q" none, .addRequired [b!"u"] 2, .externalDocs b!"d" b!"u"]) 7 f = look w 7 f := by
  refine C86_independent ok5 ok7 apart57 _ ?_ f
  intro o ho
  simp only [List.mem_cons, List.not_mem_nil, or_false] at ho
  rcases ho with rfl | rfl | rfl | rfl <;> exact ⟨trivial, trivial⟩

/-- Schemas 5 and 6 share a map: a property set on 5 appears on 6. -/
example : look (run w 5 [.properties (some 3), .property b!"q" (some 8)]) 6 (.property b!"q") = .entry (some (some 8)) ∧
    look w 6 (.property b!"q") = .entry none := ⟨C86_shared_map w 5 6 3 b!"q" (some 8), rfl⟩

/-- Decoding a null example into one date schema ruins the example of the other and of dates made later. -/
example : look (decodeExample w 7 b!"1" 0) 8 .example_ = .raw b!"1T\"." ∧ look w 8 .example_ = .raw b!"\"T\"." :=
  ⟨(C86_decode_overwrites_dates w ⟨2, 4⟩ 7 b!"1" 0 ⟨by decide, by decide⟩ rfl (by decide)).1 8 (by decide) rfl, rfl⟩

/-- Required names collected over a chain. -/
example : look (run w 5 [.addRequired [b!"u"] 0, .title b!"t", .addRequired [b!"v", b!"w", b!"q"] 0]) 5 .required =
    .texts [b!"x", b!"u", b!"v", b!"w", b!"q"] := by
  refine C85_required_collects ok5 [b!"x"] rfl _ ?_ ?_
  · intro o ho
    simp only [List.mem_cons, List.not_mem_nil, or_false] at ho
    rcases ho with rfl | rfl | rfl <;> trivial
  · rintro o ho ⟨w', s', v, hs⟩
    simp only [List.mem_cons, List.not_mem_nil, or_false] at ho
    rcases ho with rfl | rfl | rfl
    · exact ⟨_, _, rfl⟩
    · cases hs
    · exact ⟨_, _, rfl⟩

example : (runParam (newParam .path b!"id" (some 5)) [.withDescription b!"d", .withName b!"key"]).required = true :=
  (C87_required .path b!"id" (some 5) _).2 ⟨rfl, by decide⟩

example : (runParam (newParam .path b!"id" none) [.asOptional]).required = false ∧ (runParam (newParam .path b!"id" none) [.asOptional]).loc = b!"path" := ⟨rfl, rfl⟩

end Oapi.Props.BuildEx
