import Verif.Proofs.Builder
import Verif.Props.Decoder

/-! # Property C33: the in-memory builder -/

namespace Verif.Props
open Verif Verif.Mm Verif.Spec Verif.Decode Verif.Json

theorem builder_start : ((profInit builderMetadata).world.sinks 1).addr = 64 := by decide +kernel

theorem new_eq (md : String) : newProfiler md World.init = (.ok (), (profInit md).world) :=
  Prod.ext (newProfiler_inv md).1 (by simp only [profInit])

theorem builder_meta : parseMetadata (utf8 builderMetadata) = .ok ⟨0, 0, utf8 "test cmd"⟩ := by decide +kernel

/-- **C33.** For every build script whose values are in range, whose labels are proper texts and whose texts fit the address
space, the built profile opens, has the fixed metadata, and contains exactly the events asked for — those of a closure
before the interval they are nested in — each with its kind, label, no arguments, thread and times. -/
theorem C33_built_profile (script : List Build) (hr : ∀ a ∈ askedAll script, InRange a.what) (hl : ∀ a ∈ askedAll script, TextOk a.label)
    (hsize : textBytes (askedAll script) < 2 ^ 63) :
    ∃ d, (∃ n, ∀ fuel, n ≤ fuel → buildProfile fuel script = .ok d) ∧ d.metadata = ⟨0, 0, utf8 "test cmd"⟩ ∧
      d.numEvents = .ok (askedAll script).length ∧
      ∀ i a, (askedAll script)[i]? = some a →
        d.decodeLightweight i = .ok ⟨i, a.thread, seen 0 a.what⟩ ∧
        ∃ n, ∀ fuel, n ≤ fuel → d.decodeFull fuel i = .ok ⟨utf8 a.kind, utf8 a.label, [], seen 0 a.what, a.thread⟩ := by
  obtain ⟨hok, hinv⟩ := newProfiler_inv builderMetadata
  have hnew : builderNew World.init = (.ok (), (profInit builderMetadata).world) := by rw [builderNew, new_eq]
  have haddr := builder_start
  have hbig : (2 : Nat) ^ 63 + 64 + 100000003 < 2 ^ 64 := by decide
  obtain ⟨o1, _⟩ := runAll_outcome script hinv.w (by rw [haddr]; omega)
  obtain ⟨r1, tl', recs', i1, f1, b1, _⟩ := o1 hr
  simp only [Ledger.empty, List.nil_append] at i1
  generalize hw : Build.runAll script (profInit builderMetadata).world = res at *
  obtain ⟨r, w⟩ := res
  simp only at r1 i1
  subst r1
  obtain ⟨L, h, raws, si, hf, he, hraws⟩ := i1
  obtain ⟨t, ht, hd, hrel⟩ := si.tab.rel
  have rel := hrel.filter
  rw [hf] at rel
  have ev : written 0 h = fileHeader magicEventStream ++ raws.flatMap RawEvent.serialize := by rw [si.events, he]
  -- the bytes
  have hg0 := si.good
  have hs0 := si.sinks
  have e0 := intoBytes_run h hg0 hs0 0 (by decide)
  have hg1 : AllGood (h ++ [(0, .drop)]) := allGood_snoc hg0 trivial
  have hs1 := sinks_snoc hs0 (show 0 ≤ 2 by decide) SinkCall.drop
  have e1 := intoBytes_run _ hg1 hs1 1 (by decide)
  have hg2 : AllGood (h ++ [(0, .drop)] ++ [(1, .drop)]) := allGood_snoc hg1 trivial
  have hs2 := sinks_snoc hs1 (show 1 ≤ 2 by decide) SinkCall.drop
  have e2 := intoBytes_run _ hg2 hs2 2 (by decide)
  rw [written_snoc_other (by decide)] at e1
  rw [written_snoc_other (by decide), written_snoc_other (by decide)] at e2
  rw [← si.world] at e0
  -- the metadata
  have hb : Bound ([(SessionOp.table (.allocMetadata (.str builderMetadata)), .ok none)] ++ tl') 100000001 (.text [.value builderMetadata]) := by
    refine ⟨[], _, _, rfl, ?_, fun y hy => b1 y hy _⟩
    simp [binds, components]
  obtain ⟨n, hn⟩ := toStr_entry rel (.inr (.inr hb)) (reads_str _ builderMetadata) (fun _ _ => short_safe (.inl (head_ne_ref builderMetadata)))
  have hv0 := (C11_write_then_verify (diag := none) (stream := "event") magicEventStream (raws.flatMap RawEvent.serialize) rfl).1
  obtain ⟨hnum, hraw⟩ := rawEvent_of ⟨written 0 h, t, ⟨0, 0, utf8 "test cmd"⟩⟩ raws ev
  refine ⟨⟨written 0 h, t, ⟨0, 0, utf8 "test cmd"⟩⟩, ⟨n, fun fuel hfu => ?_⟩, rfl, ?_, ?_⟩
  · unfold buildProfile
    rw [Act.bind_ok hnew, Act.bind_ok hw]
    unfold intoProfilingData
    rw [Act.bind_ok e0, Act.bind_ok e1, Act.bind_ok e2]
    have hsp := split_of_new (fuel := fuel) (E := written 0 h) (ht none) (utf8 builderMetadata) (hn fuel hfu) (by rw [ev]; exact hv0)
    rw [builder_meta] at hsp
    rw [hsp]
    rfl
  · rw [hnum, hraws.length_eq, f1.length_eq]
  · intro i a hia
    obtain ⟨r, hri, d1, d2, d3, d4⟩ := forall2_get f1 i a hia
    obtain ⟨e, hei, g1, g2, g3, g4⟩ := forall2_get hraws i r hri
    have hre := hraw i e hei
    constructor
    · unfold EventDecoder.decodeLightweight
      rw [hre]
      simp only [bind, Except.bind, g3, g4, d3, d4]
    · obtain ⟨n1, hn1⟩ := toStr_entry rel (.inl d1) (reads_str _ a.kind) (fun _ _ => short_safe (.inl (head_ne_ref a.kind)))
      obtain ⟨n2, hn2⟩ := toStr_entry rel (.inl d2) (reads_str _ a.label) (fun _ _ => short_safe (.inl (head_ne_ref a.label)))
      refine ⟨max n1 n2, fun fuel hfu => ?_⟩
      unfold EventDecoder.decodeFull
      rw [hre]
      simp only [bind, Except.bind, g1, g2, g3, g4, d3, d4]
      rw [hn2 fuel (by omega)]
      simp only []
      rw [show parseEventId (utf8 a.label) = .ok (utf8 a.label, []) from parse_ok (as := []) (hl a (List.mem_of_getElem? hia)) (by simp)]
      simp only []
      rw [hn1 fuel (by omega)]

/-- **C33.** A script with a value out of range (or an interval that ends before it starts) panics; it never yields a wrong
profile. -/
theorem C33_bad_values_panic (script : List Build) (hr : ∃ a ∈ askedAll script, ¬ InRange a.what)
    (hsize : textBytes (askedAll script) < 2 ^ 63) (fuel : Nat) : ∃ why, buildProfile fuel script = .error (.panic why) := by
  obtain ⟨hok, hinv⟩ := newProfiler_inv builderMetadata
  have hnew : builderNew World.init = (.ok (), (profInit builderMetadata).world) := by rw [builderNew, new_eq]
  have haddr := builder_start
  have hbig : (2 : Nat) ^ 63 + 64 + 100000003 < 2 ^ 64 := by decide
  obtain ⟨_, o2⟩ := runAll_outcome script hinv.w (by rw [haddr]; omega)
  obtain ⟨why, h⟩ := o2 hr
  refine ⟨why, ?_⟩
  unfold buildProfile
  rw [Act.bind_ok hnew, Act.bind_apply]
  cases hc : Build.runAll script (profInit builderMetadata).world with
  | mk r w => rw [hc] at h; simp only at h; subst h; rfl

/-- A nested script. -/
def exScript : List Build :=
  [.interval "Query" "q1" 1 100 300 [.interval "Query" "q2" 1 150 200 [], .instant "Hit" "q3" 1 250], .integer "ArtifactSize" "a" 1 42]

example : (askedAll exScript).map (fun a => (a.label, a.what)) =
    [("q2", .interval 150 200), ("q3", .instant 250), ("q1", .interval 100 300), ("a", .integer 42)] := by decide

example : ∃ d, (∃ n, ∀ fuel, n ≤ fuel → buildProfile fuel exScript = .ok d) ∧ d.numEvents = .ok 4 ∧
    ∃ n, ∀ fuel, n ≤ fuel → d.decodeFull fuel 2 = .ok ⟨utf8 "Query", utf8 "q1", [], .timestamp (.interval 100 300), 1⟩ := by
  obtain ⟨d, h1, _, h3, h4⟩ := C33_built_profile exScript (by decide) (by decide) (by decide)
  exact ⟨d, h1, h3, (h4 2 _ rfl).2⟩

end Verif.Props
