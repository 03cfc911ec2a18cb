import Verif.Proofs.ProfPanics
import Verif.Props.Crash

/-!
# C82, continued: a profiler given values whose `serialize` panics
-/

namespace Verif.Props

open Verif Verif.Mm Verif.Spec Verif.Decode Verif.Conc Verif.Json

/-- A string, a value of which three bytes are written when it panics, an event, another string. -/
def exProfPanics : List ProfAct :=
  [.call (.allocString (.str "ab")), .panics (.panic "user") [120, 121, 0], .call (.instant 100000001 100000001 7 5), .call (.allocString (.str "cd"))]

/-- **C82** (profiler: answers). A program that catches panics of its own `SerializableString`s gets, for all other calls on the profiler, exactly the answers (string
ids included) it would get without the calls that panicked; those panic with the value's own panic. -/
theorem C82_profiler_answers (md : String) (acts : List ProfAct) :
    (runActs acts (profInit md)).1.length = acts.length ∧
    callAnswers acts (runActs acts (profInit md)).1 = profOutcomes md (callsOf acts) ∧
    ∀ (k : Nat) (e : Fault) (part : Bytes), acts[k]? = some (.panics e part) → (runActs acts (profInit md)).1[k]? = some (.error e) := by
  obtain ⟨g, g', _, _, _, h3, h4, h5⟩ := (alike_init md).run acts
  exact ⟨h4, h3, h5⟩

example : callsOf exProfPanics = [.allocString (.str "ab"), .instant 100000001 100000001 7 5, .allocString (.str "cd")] ∧
    (runActs exProfPanics (profInit "m")).1 = [.ok (some 100000013), .error (.panic "user"), .ok none, .ok (some 100000016)] ∧
    profOutcomes "m" (callsOf exProfPanics) = [.ok (some 100000013), .ok none, .ok (some 100000016)] := by
  refine ⟨rfl, ?_, ?_⟩ <;> decide +kernel

/-- **C82** (profiler: streams). The events and the index of its file are exactly those of the file without the calls that panicked. The string data is that
of the file without them, with what the panicking values had written (if they asked for at most a page) inserted. -/
theorem C82_profiler_streams (md : String) (acts : List ProfAct) : ∃ (store store' : Bytes) (m m' : Streams),
    savedActs md acts = utf8 "MMPD" ++ [9, 0, 0, 0] ++ store ∧ savedFile md (callsOf acts) = utf8 "MMPD" ++ [9, 0, 0, 0] ++ store' ∧
    splitStreams store = .ok m ∧ splitStreams store' = .ok m' ∧
    m .events = m' .events ∧ m .stringIndex = m' .stringIndex ∧
    m .stringData = some (utf8 "MMSD" ++ [9, 0, 0, 0] ++ utf8 md ++ [0xFF] ++ acts.flatMap textLeft) ∧
    m' .stringData = some (utf8 "MMSD" ++ [9, 0, 0, 0] ++ utf8 md ++ [0xFF] ++ ((callsOf acts).map ProfAct.call).flatMap textLeft) := by
  obtain ⟨pages, pages', f1, f2, b, b', e0, e2, d, d'⟩ := acts_pages md acts
  have key : ∀ (ps : List Page) (t : PageTag), (∀ p ∈ ps, 0 < p.body.length ∧ p.body.length ≤ 262144) →
      mergePages (fun _ => none) ps t = if streamOf t ps = [] then none else some (streamOf t ps) := by
    intro ps t hb
    rw [mergePages_none]
    by_cases h : ∃ p ∈ ps, p.tag = t
    · obtain ⟨p, hp, ht⟩ := h
      have : streamOf t ps ≠ [] := by
        intro hn
        simp only [streamOf, List.flatMap_eq_nil_iff, List.mem_filter, decide_eq_true_eq] at hn
        have h0 := (hb p hp).1
        rw [hn p ⟨hp, ht⟩] at h0
        exact absurd h0 (by simp)
      rw [if_pos ⟨p, hp, ht⟩, if_neg this]
    · have : streamOf t ps = [] := by
        simp only [streamOf, List.flatMap_eq_nil_iff, List.mem_filter, decide_eq_true_eq]
        exact fun p hp => absurd ⟨p, hp.1, hp.2⟩ h
      rw [if_neg h, if_pos this]
  have hm : fileHeader magicStringData ++ encText [.value md] = utf8 "MMSD" ++ [9, 0, 0, 0] ++ utf8 md ++ [0xFF] := by
    have : encText [.value md] = utf8 md ++ [0xFF] := by simp [encText, encComponent]
    rw [this, ← List.append_assoc]
    rfl
  refine ⟨storeOf pages, storeOf pages', mergePages (fun _ => none) pages, mergePages (fun _ => none) pages', f1.trans rfl, f2.trans rfl,
    splitStreams_storeOf _ fun p hp => split_of_writer (b p hp), splitStreams_storeOf _ fun p hp => split_of_writer (b' p hp), ?_, ?_, ?_, ?_⟩
  · rw [key _ _ b, key _ _ b', e0]
  · rw [key _ _ b, key _ _ b', e2]
  · rw [key _ _ b, d, hm, if_neg (by simp)]
  · rw [key _ _ b', d', hm, if_neg (by simp)]

example : exProfPanics.flatMap textLeft = [97, 98, 0xFF, 120, 121, 0, 99, 100, 0xFF] ∧
    ((callsOf exProfPanics).map ProfAct.call).flatMap textLeft = [97, 98, 0xFF, 99, 100, 0xFF] := by decide +kernel

theorem harmless_text (acts : List ProfAct) (h : ∀ e part, ProfAct.panics e part ∈ acts → part = [] ∨ 262144 < part.length) :
    acts.flatMap textLeft = ((callsOf acts).map ProfAct.call).flatMap textLeft := by
  induction acts with
  | nil => rfl
  | cons a acts ih =>
    have ih := ih fun e part hm => h e part (List.mem_cons_of_mem _ hm)
    cases a with
    | call c =>
      have : callsOf (.call c :: acts) = c :: callsOf acts := rfl
      rw [this, List.map_cons, List.flatMap_cons, List.flatMap_cons, ih]
    | panics e part =>
      have : callsOf (.panics e part :: acts) = callsOf acts := rfl
      rw [this, List.flatMap_cons, ih]
      have : textLeft (.panics e part) = [] := by
        rcases h e part List.mem_cons_self with rfl | hp
        · rfl
        · simp only [textLeft]
          rw [if_neg (by omega)]
      rw [this, List.nil_append]

/-- **C82** (profiler: when nothing is lost). If the values that panicked had asked for no space, or for more than a page, the file reads like the one without them. -/
theorem C82_profiler_harmless (md : String) (acts : List ProfAct) (h : ∀ e part, ProfAct.panics e part ∈ acts → part = [] ∨ 262144 < part.length) :
    ReadsLike (savedActs md acts) (savedFile md (callsOf acts)) := by
  obtain ⟨store, store', m, m', f, f', s, s', e0, e2, d, d'⟩ := C82_profiler_streams md acts
  rw [f, f']
  rw [harmless_text acts h, ← d'] at d
  exact readsLike_store s s' e0 d e2

example : ∀ e part, ProfAct.panics e part ∈ [.call (.allocString (.str "ab")), .panics (.panic "user") [], .call (.allocString (.str "cd"))] →
    part = [] ∨ 262144 < part.length := by
  intro e part h
  simp at h
  exact .inl h.2

theorem callsOf_calls (calls : List ProfCall) : callsOf (calls.map ProfAct.call) = calls := by
  induction calls with
  | nil => rfl
  | cons c calls ih =>
    have : callsOf ((c :: calls).map ProfAct.call) = c :: callsOf (calls.map ProfAct.call) := rfl
    rw [this, ih]

theorem callsOf_append (a b : List ProfAct) : callsOf (a ++ b) = callsOf a ++ callsOf b := by simp [callsOf]

theorem runs_append (a b : List ProfCall) : ∀ s, (runProf (a ++ b) s).1 = (runProf a s).1 ++ (runProf b (runProf a s).2).1 := by
  induction a with
  | nil => intro s; rfl
  | cons c a ih => intro s; simp only [List.cons_append, runProf, ih]

theorem runs_length (a : List ProfCall) : ∀ s, (runProf a s).1.length = a.length := by
  induction a with
  | nil => intro s; rfl
  | cons c a ih => intro s; simp only [runProf, List.length_cons, ih]

theorem stringLog_append (md : String) (a b : List ProfCall) : ∃ X, stringLog md (a ++ b) = stringLog md a ++ X := by
  unfold stringLog profOutcomes
  rw [runs_append, List.zip_append (runs_length _ _).symm, List.filterMap_append, ← List.cons_append]
  exact ⟨_, rfl⟩

/-- **C82** (profiler: what can be relied on). Whatever happens after the first value that panics: the file opens and shows the metadata and all events, before and
after it, with their threads and values; the strings stored before it, and everything made of them, read as ever. -/
theorem C82_profiler_shows (start pid : Nat) (hs : start < 2 ^ 64) (hp : pid < 2 ^ 32) (args : List String) (plain : PlainArgs args) (counter : CounterKind)
    (before : List ProfCall) (rest : List ProfAct) :
    ShowsEvents start pid args counter (before ++ callsOf rest) (savedActs (metadataText start pid args counter) (before.map ProfAct.call ++ rest))
      (strings (stringLog (metadataText start pid args counter) before)).length := by
  generalize hmd : metadataText start pid args counter = md at *
  obtain ⟨pages, pages', f1, f2, b, b', e0, e2, d, _⟩ := acts_pages md (before.map ProfAct.call ++ rest)
  rw [callsOf_append, callsOf_calls] at f2
  generalize hcalls : before ++ callsOf rest = calls at *
  obtain ⟨qs, raws, P⟩ := parts_exist md calls
  have hq : pages' = qs := storeOf_inj (fun p hp => split_of_writer (b' p hp)) (fun p hp => split_of_writer (P.bodies p hp))
    (List.append_cancel_left (f2.symm.trans P.file))
  subst hq
  obtain ⟨pages1, pages1', _, g2, _, c', _, _, _, d1⟩ := acts_pages md (before.map ProfAct.call)
  rw [callsOf_calls] at g2 d1
  obtain ⟨qs1, raws1, P1⟩ := parts_exist md before
  have hq1 : pages1' = qs1 := storeOf_inj (fun p hp => split_of_writer (c' p hp)) (fun p hp => split_of_writer (P1.bodies p hp))
    (List.append_cancel_left (g2.symm.trans P1.file))
  subst hq1
  have hpre : streamOf .stringData pages1' <+: streamOf .stringData pages := by
    rw [d, d1, List.flatMap_append, ← List.append_assoc]
    exact List.prefix_append _ _
  have grow : ∀ {X : Bytes} {a : Nat}, X <+: (streamOf .stringData pages1').drop a → X <+: (streamOf .stringData pages).drop a := by
    intro X a h
    obtain ⟨E, hE⟩ := hpre
    rw [← hE, List.drop_append]
    exact h.trans (List.prefix_append _ _)
  obtain ⟨L, hL, tab⟩ := P1.table
  have hstr : strings (stringLog md before) = strings L := by rw [← hL, strings_filter]
  have htake : (strings (stringLog md calls)).take (strings (stringLog md before)).length = strings (stringLog md before) := by
    obtain ⟨X, hX⟩ : ∃ X, stringLog md calls = stringLog md before ++ X := by
      rw [← hcalls]
      exact stringLog_append md before _
    rw [hX]
    unfold strings
    rw [List.filterMap_append, List.take_left]
  let maps := mappings (stringLog md calls)
  have rel : TabRel (remaining md calls (strings (stringLog md before)).length maps.length) ⟨streamOf .stringData pages, collectMap (cutIndex maps)⟩ := by
    unfold remaining
    rw [htake, show (mappings (stringLog md calls)).take maps.length = maps from List.take_length]
    refine remaining_rel P.maps ?_ (grow (metadata_there P1))
    intro s hsm cs junk hcs
    rw [hstr] at hsm
    obtain ⟨a, h1, h2, h3⟩ := stored_at tab hsm hcs
    exact ⟨a, h1, h2, grow h3⟩
  have hmeta : ToString ⟨streamOf .stringData pages, collectMap (cutIndex maps)⟩ 100000001 (utf8 md) := by
    have hb : Bound (remaining md calls (strings (stringLog md before)).length maps.length) 100000001 (.text [.value md]) := by
      unfold remaining
      rw [show (mappings (stringLog md calls)).take maps.length = maps from List.take_length]
      rcases tableOf_index md ((strings (stringLog md calls)).take (strings (stringLog md before)).length) maps P.maps 100000001 with ⟨h, _⟩ | ⟨a, h1, ⟨c, _, _, h4⟩ | ⟨h, _⟩⟩
      · rw [cutIndex_metadata P.maps] at h; simp at h
      · exact absurd h4 (by decide)
      · exact h
    exact toStr_entry rel (.inr (.inr hb)) (by
        have := Reads.value (s := md) (Reads.nil (log := remaining md calls (strings (stringLog md before)).length maps.length))
        simpa using this) (fun _ _ => short_safe (.inl (head_ne_ref md)))
  have hev : streamOf .events pages = fileHeader magicEventStream ++ raws.flatMap RawEvent.serialize := e0.trans P.events
  have heq : ∀ (diag : Option String) (fuel : Nat), EventDecoder.new diag fuel (savedActs md (before.map ProfAct.call ++ rest)) =
      ((⟨streamOf .stringData pages, collectMap (cutIndex maps)⟩ : StringTable).toStr fuel 100000001).bind fun text =>
        (parseMetadata text).map fun m => ⟨streamOf .events pages, ⟨streamOf .stringData pages, collectMap (cutIndex maps)⟩, m⟩ := by
    intro diag fuel
    rw [f1]
    have := C66_opens (diag := diag) fuel (fileHeader magicTopLevel ++ storeOf pages) pages
      (fun p hp => ⟨(b p hp).1, by have := (b p hp).2; omega⟩) (by unfold Headed; rw [header_top]) (raws.flatMap RawEvent.serialize)
      (encText [.value md] ++ (before.map ProfAct.call ++ rest).flatMap textLeft) (cutEntries maps)
      (by unfold Headed; rw [hev, header_events]) (by unfold Headed; rw [d, header_data, List.append_assoc])
      (by unfold Headed; rw [e2, P.index, header_index, cutEntries_bytes, List.append_assoc])
    rw [cutEntries_index] at this
    exact this
  refine ⟨⟨streamOf .events pages, ⟨streamOf .stringData pages, collectMap (cutIndex maps)⟩, ⟨start, pid, utf8 (commandLine args)⟩⟩, ?_, rfl, ?_, ?_, ?_⟩
  · obtain ⟨n, hn⟩ := hmeta
    refine ⟨n, fun diag fuel hf => ?_⟩
    rw [heq, hn fuel hf]
    simp only [Except.bind]
    rw [← hmd, parseMetadata_record start pid args counter hs hp, if_pos plain]
    rfl
  · obtain ⟨hnum, _⟩ := rawEvent_of ⟨streamOf .events pages, ⟨streamOf .stringData pages, collectMap (cutIndex maps)⟩,
      ⟨start, pid, utf8 (commandLine args)⟩⟩ raws hev
    rw [hnum, P.enc.length_eq]
  · intro x r hr
    have := events_shown rel ⟨start, pid, utf8 (commandLine args)⟩ raws (recorded calls) P.enc x r hr
    rw [← hev] at this
    rw [hmd]
    exact this
  · intro id s h
    rw [hmd] at h
    exact shown_toStr rel h

/-- A string stored before the panic, an event after it that uses this string. -/
example : ∃ md, md = metadataText 5 6 ["rustc"] .wallTime ∧
    (strings (stringLog md [.allocString (.str "ab")])).length = 1 ∧
    recorded ([.allocString (.str "ab")] ++ callsOf [.panics (.panic "user") [120, 121, 0], .call (.instant 100000100 100000100 7 5)]) =
      [⟨100000100, 100000100, 7, .instant 5⟩] := by
  refine ⟨_, rfl, ?_, ?_⟩ <;> decide +kernel

end Verif.Props
