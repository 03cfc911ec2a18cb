import Verif.Props.EndToEnd

/-!
# Property C81 at the level of the profiler: values of foreign types as names of events
-/

namespace Verif.Props

open Verif Verif.Mm Verif.Spec Verif.Decode

/-- **C81** (profiler). A value of one of the program's own types that writes its text, the terminator and anything after it, passed to the profiler's `alloc_string`:
its id denotes the text, and is shown as the text. With it all theorems about what tools show (C29, C62, C63) hold for events that are named by such values. -/
theorem C81_profile_shown (start pid : Nat) (args : List String) (counter : CounterKind) (calls : List ProfCall) (text : String) (junk : Bytes) (id : StringId)
    (h : (ProfCall.allocForeign (utf8 text ++ 0xFF :: junk), .ok (some id)) ∈ calls.zip (profOutcomes (metadataText start pid args counter) calls)) :
    Means (profileLog start pid args counter calls) id text ∧ Shown (profileLog start pid args counter calls) id text := by
  have hal : Allocated (profileLog start pid args counter calls) id [.value text] :=
    ⟨.custom _ (fun _ => .ok (utf8 text ++ 0xFF :: junk)), ⟨junk, by simp [encText, encComponent]⟩,
      List.mem_cons_of_mem _ (List.mem_filterMap.mpr ⟨_, h, rfl⟩)⟩
  refine ⟨entry_means (.inl hal) (reads_str _ _), ?_⟩
  refine C29_shown_in_full start pid args counter calls id _ text (.inl hal) (reads_str _ text) (.inl ?_)
  simp [leadingRef]

/-- **C81** (profiler). Such a value may also refer to other strings, in the documented encoding: it denotes what the library's own string with the same
components would denote. -/
theorem C81_profile_composite (md : String) (calls : List ProfCall) (cs : List StringComponent) (junk : Bytes) (id : StringId) (s : String)
    (h : (ProfCall.allocForeign (encText cs ++ junk), .ok (some id)) ∈ calls.zip (profOutcomes md calls)) (hr : Reads (stringLog md calls) cs s) :
    Means (stringLog md calls) id s :=
  entry_means (.inl ⟨.custom _ (fun _ => .ok (encText cs ++ junk)), ⟨junk, rfl⟩, List.mem_cons_of_mem _ (List.mem_filterMap.mpr ⟨_, h, rfl⟩)⟩) hr

/-- A session that names its events by values of its own types: the kind is the text `K` with three more bytes after the terminator, the id a reference to a string
of the library. -/
def foreignSession : Session :=
  { start := 1000, pid := 42, args := ["rustc", "a.rs"], counter := .wallTime
    calls := [.allocForeign [0x4B, 0xFF, 1, 2, 0xFE], .allocString (.str "type_of"), .allocForeign (encText [.ref 100000188, .value "!"]),
      .start 0 100000183 100000196 7 10, .allocForeign [], .finish 0 500] }

theorem foreignSession_recorded : recorded foreignSession.calls = [⟨100000183, 100000196, 7, .interval 10 500⟩] := by decide +kernel

theorem foreignSession_outcomes : profOutcomes exMetadata foreignSession.calls =
    [.ok (some 100000183), .ok (some 100000188), .ok (some 100000196), .ok none, .ok (some 100000207), .ok none] := by decide +kernel

/-- Non-vacuity: the session is readable, and its event is shown under the names its own types wrote. -/
example : foreignSession.Readable ∧ Means foreignSession.log 100000183 "K" ∧ Means foreignSession.log 100000196 "type_of!" := by
  have hz : foreignSession.calls.zip (profOutcomes exMetadata foreignSession.calls) = foreignSession.calls.zip
      [.ok (some 100000183), .ok (some 100000188), .ok (some 100000196), .ok none, .ok (some 100000207), .ok none] := by rw [foreignSession_outcomes]
  have k := (C81_profile_shown 1000 42 ["rustc", "a.rs"] .wallTime foreignSession.calls "K" [1, 2, 0xFE] 100000183 (by
    show _ ∈ foreignSession.calls.zip (profOutcomes exMetadata foreignSession.calls)
    rw [hz]; exact .head _)).1
  have t : Allocated foreignSession.log 100000188 [.value "type_of"] := by
    refine ⟨.table (.alloc (.str "type_of")), rfl, List.mem_cons_of_mem _ (List.mem_filterMap.mpr ⟨(.allocString (.str "type_of"), .ok (some 100000188)), ?_, rfl⟩)⟩
    show _ ∈ foreignSession.calls.zip (profOutcomes exMetadata foreignSession.calls)
    rw [hz]; exact .tail _ (.head _)
  have r : Reads foreignSession.log [.ref 100000188, .value "!"] "type_of!" :=
    Reads.entry (.inl t) (reads_str _ "type_of") (Reads.value (s := "!") .nil)
  have i : Means foreignSession.log 100000196 "type_of!" := C81_profile_composite exMetadata foreignSession.calls _ [] 100000196 _ (by
    rw [hz, List.append_nil]; exact .tail _ (.tail _ (.head _))) r
  refine ⟨⟨by decide, by decide, by decide, ?_, ?_⟩, k, i⟩
  · rw [foreignSession_recorded]
    intro r hr
    rw [List.mem_singleton.mp hr]
    exact ⟨_, k⟩
  · rw [foreignSession_recorded]
    intro r hr
    rw [List.mem_singleton.mp hr]
    exact ⟨_, i⟩

end Verif.Props
