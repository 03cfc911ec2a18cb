import Verif.Proofs.Crox
import Verif.Proofs.Json
import Verif.Model.Tools
import Verif.Props.Analysis
import Verif.Props.Decoder

/-! # Properties C43 to C45: crox -/

namespace Verif.Props
open Verif Verif.Mm Verif.Spec Verif.Decode Verif.Analyze Verif.Crox

/-! ## C43 -/

/-- **C43.** With `--collapse-threads`, however ties are sorted, no panic occurs, exactly the threads with a timestamp get a
lane, each gets one, and two threads on one lane have no moment in common. -/
theorem C43_lanes_apart (sortEnds sortStarts : List (Nat × UInt32) → List (Nat × UInt32)) (hE : SortsByTime sortEnds)
    (hS : SortsByTime sortStarts) (es : List LightweightEvent) :
    ∃ m, laneMapping true sortEnds sortStarts es = .ok m ∧ (m.map (·.1)).Nodup ∧ (∀ t, t ∈ m.map (·.1) ↔ Timed t es) ∧
      ∀ a b v, (a, v) ∈ m → (b, v) ∈ m → a ≠ b → Apart es a b := by
  obtain ⟨m, cur, P, C, hm, hi, hP⟩ := lanes_ok (es := es) hE hS
  refine ⟨m, hm, hi.keysNodup, fun t => by rw [hi.keys, hP], ?_⟩
  intro a b v ha hb hab
  have h1 := (hi.keys a).1 (List.mem_map.2 ⟨_, ha, rfl⟩)
  have h2 := (hi.keys b).1 (List.mem_map.2 ⟨_, hb, rfl⟩)
  exact hi.apart a h1 b h2 hab (by rw [lookup_of_mem hi.keysNodup ha, lookup_of_mem hi.keysNodup hb])

/-- **C43.** Without the flag every thread keeps its own id. -/
theorem C43_identity (sortEnds sortStarts : List (Nat × UInt32) → List (Nat × UInt32)) (es : List LightweightEvent) :
    ∃ m, laneMapping false sortEnds sortStarts es = .ok m ∧ ∀ t : UInt32, (lookup t m).getD t.toNat = t.toNat :=
  ⟨[], rfl, fun _ => rfl⟩

/-! ## C44 -/

/-- **C44.** The lanes used are `0 .. k-1`, where `k` is the largest number of threads active at one moment, and no valid
assignment of lanes uses fewer. -/
theorem C44_fewest_lanes (sortEnds sortStarts : List (Nat × UInt32) → List (Nat × UInt32)) (hE : SortsByTime sortEnds)
    (hS : SortsByTime sortStarts) (es : List LightweightEvent) :
    ∃ m k, laneMapping true sortEnds sortStarts es = .ok m ∧ (∀ v, v ∈ m.map (·.2) ↔ v < k) ∧
      (k = 0 ∨ ∃ (s : Nat) (W : List UInt32), W.Nodup ∧ W.length = k ∧ ∀ t ∈ W, ActiveAt es s t) ∧
      (∀ (s : Nat) (W : List UInt32), W.Nodup → (∀ t ∈ W, ActiveAt es s t) → W.length ≤ k) ∧
      ∀ (lane : UInt32 → Nat) (n : Nat), ValidLanes es lane → (∀ t, Timed t es → lane t < n) → k ≤ n := by
  obtain ⟨m, cur, P, C, hm, hi, hP⟩ := lanes_ok (es := es) hE hS
  have pigeon : ∀ (lane : UInt32 → Nat) (n s : Nat) (W : List UInt32), ValidLanes es lane → (∀ t, Timed t es → lane t < n) →
      W.Nodup → (∀ t ∈ W, ActiveAt es s t) → W.length ≤ n := by
    intro lane n s W hv hn hW hA
    have hinj : ∀ a ∈ W, ∀ b ∈ W, lane a = lane b → a = b := by
      intro a ha b hb hl
      by_contra hne
      have h1 := hA a ha
      have h2 := hA b hb
      rcases hv a b h1.1 h2.1 hne hl with h | h
      · have := h1.2; have := h2.2; omega
      · have := h1.2; have := h2.2; omega
    have hnd : (W.map lane).Nodup := List.Nodup.map_on (fun a ha b hb h => hinj a ha b hb h) hW
    have hsub : (W.map lane) ⊆ List.range n := by
      intro x hx
      obtain ⟨t, ht, rfl⟩ := List.mem_map.1 hx
      exact List.mem_range.2 (hn t (hA t ht).1)
    have := (hnd.subperm hsub).length_le
    simpa using this
  have hbusy : cur = 0 ∨ ∃ (s : Nat) (W : List UInt32), W.Nodup ∧ W.length = cur ∧ ∀ t ∈ W, ActiveAt es s t := by
    rcases hi.busy with h | ⟨s, W, h1, h2, h3⟩
    · exact Or.inl h
    · exact Or.inr ⟨s, W, h1, h2, fun w hw => ⟨(hP w).1 (h3 w hw).1, (h3 w hw).2⟩⟩
  refine ⟨m, cur, hm, ?_, hbusy, ?_, ?_⟩
  · intro v
    constructor
    · intro h
      obtain ⟨⟨t, v'⟩, hx, rfl⟩ := List.mem_map.1 h
      exact hi.small t v' (lookup_of_mem hi.keysNodup hx)
    · intro h
      obtain ⟨t, ht⟩ := hi.full v h
      exact List.mem_map.2 ⟨_, mem_of_lookup ht, rfl⟩
  · intro s W hW hA
    have hk : ∀ t, Timed t es → ∃ v, lookup t m = some v := by
      intro t ht
      have := (hi.keys t).2 ((hP t).2 ht)
      rw [← lookup_isSome] at this
      exact Option.isSome_iff_exists.1 this
    refine pigeon (fun t => (lookup t m).getD 0) cur s W ?_ ?_ hW hA
    · intro a b ha hb hab hl
      obtain ⟨v, hv⟩ := hk a ha
      obtain ⟨w, hw⟩ := hk b hb
      simp only [hv, hw, Option.getD_some] at hl
      exact hi.apart a ((hP a).2 ha) b ((hP b).2 hb) hab (by rw [hv, hw, hl])
    · intro t ht
      obtain ⟨v, hv⟩ := hk t ht
      simp only [hv, Option.getD_some]
      exact hi.small t v hv
  · intro lane n hv hn
    rcases hbusy with h | ⟨s, W, h1, h2, h3⟩
    · omega
    · have := pigeon lane n s W hv hn h1 h3
      omega

/-! ## C45 -/

theorem numberArgs_zip (i : Nat) (as : List Bytes) :
    numberArgs i as = ((List.range' i as.length).zip as).map fun x => (utf8 ("arg" ++ decimal x.1), x.2) := by
  induction as generalizing i with
  | nil => rfl
  | cons a as ih => simp [numberArgs, ih, List.range'_succ]

/-- **C45.** If no interval is reversed, crox emits, in the order of the profile, one complete event for each interval of at
least the minimum duration and nothing else; each with the label, the kind, the start and the length in whole microseconds, the
process id, the lane of its thread or the thread id, and the arguments numbered from `arg0`, if there are any. -/
theorem C45_emits (minimum : Option Nat) (pid : Nat) (lanes : List (UInt32 × Nat)) (es : List Event) (hf : ∀ e ∈ es, Forward e) :
    croxEvents minimum pid lanes es =
      .ok ((es.filter (longEnough minimum)).map (croxRecord pid fun t => (lookup t lanes).getD t.toNat)) := by
  induction es with
  | nil => rfl
  | cons e es ih =>
    have ih' := ih fun x hx => hf x (by simp [hx])
    have hfe := hf e (by simp)
    have hone : croxEvent minimum pid lanes e.threadId e.payload (.ok e) = .ok (if longEnough minimum e then
        some (croxRecord pid (fun t => (lookup t lanes).getD t.toNat) e) else none) := by
      obtain ⟨kind, label, args, payload, thread⟩ := e
      cases payload with
      | integer v => rfl
      | timestamp t =>
        cases t with
        | instant t => rfl
        | interval s t =>
          have hst : s ≤ t := hfe s t rfl
          have harg : getArgs args = if args.length = 0 then none
              else some ((List.range args.length).zip args |>.map fun x => (utf8 ("arg" ++ decimal x.1), x.2)) := by
            unfold getArgs
            rw [numberArgs_zip, List.range_eq_range']
            cases args <;> simp
          simp only [croxEvent, duration, if_pos hst, unwrap, bind, Except.bind, harg, asMicros_eq]
          unfold longEnough croxRecord isInterval len times
          simp only [Option.isSome_some, Bool.true_and, Option.map_some, Option.getD_some]
          cases minimum with
          | none => simp
          | some mn =>
            by_cases hm : mn * 1000 ≤ t - s
            · have h1 : ¬ (t - s) / 1000 < mn := by omega
              simp [hm, h1]
            · have h1 : (t - s) / 1000 < mn := by omega
              simp [hm, h1]
    simp only [croxEvents, hone, ih', bind, Except.bind]
    by_cases hl : longEnough minimum e = true
    · simp [hl]
    · simp [hl]

/-- **C45.** An interval that ends before it starts makes crox panic, and nothing else does. -/
theorem C45_panics_iff (minimum : Option Nat) (pid : Nat) (lanes : List (UInt32 × Nat)) (es : List Event) :
    (∃ f, croxEvents minimum pid lanes es = .error f) ↔ ∃ e ∈ es, ∃ s t, times e = some (s, t) ∧ t < s := by
  constructor
  · rintro ⟨f, h⟩
    by_contra hc
    rw [C45_emits minimum pid lanes es ?_] at h
    · cases h
    · intro e he s t ht
      by_contra hlt
      exact hc ⟨e, he, s, t, ht, by omega⟩
  · rintro ⟨e, he, s, t, ht, hlt⟩
    induction es with
    | nil => simp at he
    | cons x es ih =>
      cases hx : croxEvent minimum pid lanes x.threadId x.payload (.ok x) with
      | error f => exact ⟨f, by simp only [croxEvents, hx, bind, Except.bind]⟩
      | ok y =>
        rcases List.mem_cons.1 he with rfl | he
        · exfalso
          obtain ⟨kind, label, args, payload, thread⟩ := e
          unfold times at ht
          simp only at ht
          split at ht
          · cases ht
            simp only [croxEvent, duration, if_neg (Nat.not_le.2 hlt), unwrap, bind, Except.bind] at hx
            cases hx
          · cases ht
        · obtain ⟨f, hf⟩ := ih he
          exact ⟨f, by simp only [croxEvents, hx, hf, bind, Except.bind]⟩

/-- **C45.** The names of the arguments are distinct, so collecting them into a map loses none. -/
theorem C45_args_distinct (pid : Nat) (lane : UInt32 → Nat) (e : Event) (l : List (Bytes × Bytes))
    (h : (croxRecord pid lane e).args = some l) : (l.map (·.1)).Nodup ∧ l.map (·.2) = e.additionalData := by
  unfold croxRecord at h
  simp only at h
  split at h
  · cases h
  · cases h
    constructor
    · rw [List.map_map]
      have h1 : ((List.range e.additionalData.length).zip e.additionalData).map ((fun x => x.1) ∘ fun x => (utf8 ("arg" ++ decimal x.1), x.2)) =
          (((List.range e.additionalData.length).zip e.additionalData).map (·.1)).map (fun i => utf8 ("arg" ++ decimal i)) := by
        rw [List.map_map]; rfl
      rw [h1, List.map_fst_zip (by simp)]
      apply List.Nodup.map _ List.nodup_range
      intro a b hab
      simp only [utf8_append] at hab
      have h2 := List.append_cancel_left hab
      have ha := Json.parseNum_decimal a []
      have hb := Json.parseNum_decimal b []
      rw [h2, hb] at ha
      simpa using ha.symm
    · rw [List.map_map]
      have : ((fun x : Bytes × Bytes => x.2) ∘ fun x : Nat × Bytes => (utf8 ("arg" ++ decimal x.1), x.2)) = (·.2) := rfl
      rw [this, List.map_snd_zip (by simp)]

theorem prefix_at {pat s : Bytes} {i : Nat} : (s.drop i).take pat.length = pat ↔
    ∃ b r, s = b ++ pat ++ r ∧ b.length = min i s.length := by
  constructor
  · intro h
    refine ⟨s.take i, (s.drop i).drop pat.length, ?_, by rw [List.length_take]⟩
    rw [List.append_assoc]
    conv_lhs => rw [← List.take_append_drop i s]
    congr 1
    conv_lhs => rw [← List.take_append_drop pat.length (s.drop i), h]
  · rintro ⟨b, r, rfl, hb⟩
    by_cases hi : i ≤ (b ++ pat ++ r).length
    · rw [Nat.min_eq_left hi] at hb
      subst hb
      simp
    · have h1 : b.length = (b ++ pat ++ r).length := by rw [hb]; omega
      simp only [List.length_append] at h1
      have h2 : pat = [] := List.eq_nil_of_length_eq_zero (by omega)
      subst h2
      simp

/-- The search on the command line, with any pattern. -/
theorem first_occurrence {pat s : Bytes} {i : Nat} (h : findSub pat s = some i) :
    s = s.take i ++ pat ++ s.drop (i + pat.length) ∧ i ≤ s.length ∧ ∀ b r, s = b ++ pat ++ r → i ≤ b.length := by
  obtain ⟨h1, h2, h3⟩ := findSub_some h
  refine ⟨?_, by omega, ?_⟩
  · rw [List.append_assoc]
    conv_lhs => rw [← List.take_append_drop i s]
    congr 1
    conv_lhs => rw [← List.take_append_drop pat.length (s.drop i), h2, List.drop_drop]
  · intro b r hb
    by_contra hlt
    refine h3 b.length (by omega) ?_
    rw [prefix_at]
    exact ⟨b, r, hb, by rw [hb]; simp⟩

/-- **C45.** The process is named after the text between the first ` --crate-name ` and the next space, and only if the command
line contains that option. -/
theorem C45_crate_name (cmd : Bytes) :
    (∀ name, crateName cmd = some name ↔ NamesCrate cmd name) ∧
    (crateName cmd = none ↔ ¬ ∃ b r, cmd = b ++ utf8 " --crate-name " ++ r) := by
  have hlen : (utf8 " --crate-name ").length = 14 := by decide +kernel
  have hsp : utf8 " " = [0x20] := by decide +kernel
  unfold crateName NamesCrate
  rw [hsp]
  generalize utf8 " --crate-name " = pat at hlen
  have hcut : ∀ last : Bytes, last = last.take ((findSub [0x20] last).getD last.length) ++ last.drop ((findSub [0x20] last).getD last.length) ∧
      0x20 ∉ last.take ((findSub [0x20] last).getD last.length) ∧
      (last.drop ((findSub [0x20] last).getD last.length) = [] ∨ (last.drop ((findSub [0x20] last).getD last.length)).head? = some 0x20) := by
    intro last
    refine ⟨(List.take_append_drop _ _).symm, ?_, ?_⟩
    · intro hm
      obtain ⟨b, r, hbr⟩ := List.append_of_mem hm
      have hl : last = b ++ [0x20] ++ (r ++ last.drop ((findSub [0x20] last).getD last.length)) := by
        conv_lhs => rw [← List.take_append_drop ((findSub [0x20] last).getD last.length) last, hbr]
        simp
      cases hf : findSub [0x20] last with
      | none => exact findSub_none hf b.length (by rw [hl]; simp) (prefix_at.2 ⟨b, _, hl, by rw [hl]; simp⟩)
      | some i =>
        have := (first_occurrence hf).2.2 b _ hl
        have h2 := congrArg List.length hbr
        rw [hf] at h2
        simp only [Option.getD_some, List.length_take, List.length_append, List.length_cons] at h2
        omega
    · cases hf : findSub [0x20] last with
      | none => left; simp
      | some i =>
        right
        have := (findSub_some hf).2.1
        simp only [Option.getD_some]
        cases hd : last.drop i with
        | nil => rw [hd] at this; simp at this
        | cons a l => rw [hd] at this; simp at this; simp [this]
  constructor
  · intro name
    cases hf : findSub pat cmd with
    | none =>
      simp only [Option.map_none, reduceCtorEq, false_iff]
      rintro ⟨before, rest, hc, -⟩
      have hc' : cmd = before ++ pat ++ (name ++ rest) := by rw [hc]; simp
      exact findSub_none hf before.length (by rw [hc']; simp) (prefix_at.2 ⟨_, _, hc', by rw [hc']; simp⟩)
    | some i =>
      obtain ⟨h1, h2, h3⟩ := first_occurrence hf
      simp only [Option.map_some, Option.some.injEq]
      rw [hlen] at h1
      obtain ⟨c1, c2, c3⟩ := hcut (cmd.drop (i + 14))
      constructor
      · rintro rfl
        refine ⟨cmd.take i, _, ?_, ?_, c2, c3⟩
        · conv_lhs => rw [h1, c1]
          simp only [List.append_assoc]
        · intro b r hb
          have := h3 b r hb
          rw [List.length_take]
          omega
      · rintro ⟨before, rest, hc, hmin, hns, hrest⟩
        have hb1 : i ≤ before.length := h3 before (name ++ rest) (by rw [hc]; simp)
        have hb2 := hmin _ _ h1
        rw [List.length_take] at hb2
        have hbi : before.length = i := by omega
        have hd : cmd.drop (i + 14) = name ++ rest := by
          rw [hc, ← hbi, ← hlen]
          simp
        rw [hd] at c1 c2 c3 ⊢
        generalize (findSub [0x20] (name ++ rest)).getD (name ++ rest).length = n at c1 c2 c3
        -- both cuts are before the first space
        have key : ∀ A B C D : Bytes, A ++ B = C ++ D → 0x20 ∉ A → 0x20 ∉ C → (B = [] ∨ B.head? = some 0x20) →
            (D = [] ∨ D.head? = some 0x20) → A = C := by
          intro A
          induction A with
          | nil =>
            intro B C D h _ hC hB hD
            cases C with
            | nil => rfl
            | cons c C =>
              simp only [List.nil_append, List.cons_append] at h
              subst h
              simp at hB
              subst hB
              simp at hC
          | cons a A ih =>
            intro B C D h hA hC hB hD
            cases C with
            | nil =>
              simp only [List.nil_append, List.cons_append] at h
              subst h
              simp at hD
              subst hD
              simp at hA
            | cons c C =>
              simp only [List.cons_append, List.cons.injEq] at h
              rw [h.1, ih B C D h.2 (fun hh => hA (by simp [hh])) (fun hh => hC (by simp [hh])) hB hD]
        exact (key _ _ _ _ c1 hns c2 hrest c3).symm
  · cases hf : findSub pat cmd with
    | none =>
      simp only [Option.map_none, true_iff]
      rintro ⟨b, r, hc⟩
      exact findSub_none hf b.length (by rw [hc]; simp) (prefix_at.2 ⟨_, _, hc, by rw [hc]; simp⟩)
    | some i =>
      simp only [Option.map_some, reduceCtorEq, false_iff, not_not]
      exact ⟨_, _, (first_occurrence hf).1⟩

/-- A profile whose full and lightweight events agree (C28: all of the current format). -/
theorem croxLoop_events (p : ProfilingData) (opt : Opt) (lanes : List (UInt32 × Nat)) (out : List CroxEvent) (es : List Event)
    (hag : ∀ i l e, p.decodeLightweight i = .ok l → p.decodeFull l.eventIndex = .ok e → l = ⟨i, e.threadId, e.payload⟩) (i k : Nat)
    (h : collectFrom p.itemFull i k = .ok es) (ho : croxEvents opt.minimumDuration p.metadata.processId lanes es = .ok out) :
    Tools.croxLoop p opt lanes i k = (out, .ok ()) := by
  induction k generalizing i es out with
  | zero =>
    simp only [collectFrom, Except.ok.injEq] at h
    subst h
    simp only [croxEvents, Except.ok.injEq] at ho
    subst ho
    rfl
  | succ k ih =>
    simp only [collectFrom, bind, Except.bind] at h
    split at h
    · cases h
    · rename_i e he
      split at h
      · cases h
      · rename_i es' hes
        cases h
        simp only [croxEvents, bind, Except.bind] at ho
        split at ho
        · cases ho
        · rename_i x hx
          split at ho
          · cases ho
          · rename_i xs hxs
            cases ho
            simp only [ProfilingData.itemFull, bind, Except.bind] at he
            split at he
            · cases he
            · rename_i l hl
              obtain rfl := hag i l e hl he
              simp only [Tools.croxLoop, bind, Except.bind, hl, he, hx, ih xs es' (i + 1) hes hxs]

/-- **C45.** One profile all of whose events can be decoded (its full and lightweight events agree, as C28 shows of every profile of
the current format): crox emits the records of the intervals that are long enough, in order, then the name of the process if there is
one and its start time; with the flag the lanes of C43 are used, without it the thread ids. -/
theorem C45_profile (opt : Opt) (sortEnds sortStarts : List (Nat × UInt32) → List (Nat × UInt32))
    (hE : SortsByTime sortEnds) (hS : SortsByTime sortStarts) (les : List LightweightEvent) :
    ∃ lane, (opt.collapseThreads = true → ValidLanes les lane) ∧ (opt.collapseThreads = false → ∀ t, lane t = t.toNat) ∧
      ∀ (env : Tools.Env) (stem : Bytes) (p : ProfilingData) (es : List Event),
        Paths.openProfile env.v8New env.fuel env.files stem = .ok p → p.lightEvents = .ok les → p.fullEvents = .ok es →
        (∀ i l e, p.decodeLightweight i = .ok l → p.decodeFull l.eventIndex = .ok e → l = ⟨i, e.threadId, e.payload⟩) →
        (∀ e ∈ es, Forward e) → p.metadata.startTime < 2 ^ 64 →
        Tools.croxTool env opt sortEnds sortStarts stem =
          ((es.filter (longEnough opt.minimumDuration)).map (croxRecord p.metadata.processId lane),
            .ok (p.metadata.processId, (crateName p.metadata.cmd).map (fun n => (p.metadata.processId, n)), p.metadata.startTime / 1000)) := by
  have hgo : ∀ lanes, Crox.laneMapping opt.collapseThreads sortEnds sortStarts les = .ok lanes →
      ∀ (env : Tools.Env) (stem : Bytes) (p : ProfilingData) (es : List Event),
        Paths.openProfile env.v8New env.fuel env.files stem = .ok p → p.lightEvents = .ok les → p.fullEvents = .ok es →
        (∀ i l e, p.decodeLightweight i = .ok l → p.decodeFull l.eventIndex = .ok e → l = ⟨i, e.threadId, e.payload⟩) →
        (∀ e ∈ es, Forward e) → p.metadata.startTime < 2 ^ 64 →
        Tools.croxTool env opt sortEnds sortStarts stem =
          ((es.filter (longEnough opt.minimumDuration)).map (croxRecord p.metadata.processId fun t => (lookup t lanes).getD t.toNat),
            .ok (p.metadata.processId, (crateName p.metadata.cmd).map (fun n => (p.metadata.processId, n)), p.metadata.startTime / 1000)) := by
    intro lanes hlm env stem p es hp hl hes hag hf hst
    have hs : p.metadata.startTime / 1000 % 2 ^ 64 = p.metadata.startTime / 1000 := Nat.mod_eq_of_lt (by omega)
    have hlanes : Tools.croxLanes opt sortEnds sortStarts p = .ok lanes := by
      unfold Tools.croxLanes
      cases hc : opt.collapseThreads with
      | false =>
        rw [hc] at hlm
        simp only [laneMapping, Bool.false_eq_true, if_false] at hlm ⊢
        exact hlm
      | true => rw [hc] at hlm; simp only [if_true, hl, bind, Except.bind, hlm]
    unfold ProfilingData.fullEvents at hes
    cases hn : p.numEvents with
    | error f => rw [hn] at hes; cases hes
    | ok n =>
      rw [hn] at hes
      have hlp := croxLoop_events p opt lanes _ es hag 0 n hes (C45_emits opt.minimumDuration _ lanes es hf)
      simp only [Tools.croxTool, hp, Tools.croxBody, hlanes, hn, hlp, processName, sortIndex, hs]
  cases hc : opt.collapseThreads with
  | false =>
    rw [hc] at hgo
    refine ⟨fun t => t.toNat, by simp, by simp, ?_⟩
    exact hgo [] (by simp only [laneMapping, Bool.false_eq_true, if_false])
  | true =>
    rw [hc] at hgo
    obtain ⟨m, hm, hnd, hk, hap⟩ := C43_lanes_apart sortEnds sortStarts hE hS les
    refine ⟨fun t => (lookup t m).getD t.toNat, ?_, by simp, hgo m hm⟩
    · intro _ a b ha hb hab hl
      have h1 := (hk a).2 ha
      have h2 := (hk b).2 hb
      rw [← lookup_isSome] at h1 h2
      obtain ⟨v, hv⟩ := Option.isSome_iff_exists.1 h1
      obtain ⟨w, hw⟩ := Option.isSome_iff_exists.1 h2
      simp only [hv, hw, Option.getD_some] at hl
      subst hl
      exact hap a b v (mem_of_lookup hv) (mem_of_lookup hw) hab

/-- **C45.** The texts of an event are only looked at if it is an interval of at least the minimum
duration: two profiles that differ in other texts only give the same output. -/
theorem C45_other_texts_unread (opt : Opt) (sortEnds sortStarts : List (Nat × UInt32) → List (Nat × UInt32)) (p q : ProfilingData)
    (hm : p.metadata = q.metadata) (hn : p.numEvents = q.numEvents) (hl : p.decodeLightweight = q.decodeLightweight)
    (hd : ∀ i l s t, p.decodeLightweight i = .ok l → l.payload = .timestamp (.interval s t) → s ≤ t →
      (∀ m, opt.minimumDuration = some m → m * 1000 ≤ t - s) → p.decodeFull l.eventIndex = q.decodeFull l.eventIndex) :
    Tools.croxBody opt sortEnds sortStarts p = Tools.croxBody opt sortEnds sortStarts q := by
  have hlanes : Tools.croxLanes opt sortEnds sortStarts p = Tools.croxLanes opt sortEnds sortStarts q := by
    unfold Tools.croxLanes ProfilingData.lightEvents
    rw [hn, hl]
  have hloop : ∀ lanes k i, Tools.croxLoop p opt lanes i k = Tools.croxLoop q opt lanes i k := by
    intro lanes k
    induction k with
    | zero => intro i; rfl
    | succ k ih =>
      intro i
      have : (do let ev ← p.decodeLightweight i
                 Crox.croxEvent opt.minimumDuration p.metadata.processId lanes ev.threadId ev.payload (p.decodeFull ev.eventIndex)) =
          (do let ev ← q.decodeLightweight i
              Crox.croxEvent opt.minimumDuration q.metadata.processId lanes ev.threadId ev.payload (q.decodeFull ev.eventIndex)) := by
        rw [← hl, ← hm]
        cases he : p.decodeLightweight i with
        | error f => rfl
        | ok l =>
          simp only [bind, Except.bind, croxEvent]
          split
          · rename_i s t hpl
            by_cases hst : s ≤ t
            · simp only [hpl, duration, if_pos hst, unwrap]
              cases hmin : opt.minimumDuration with
              | none =>
                simp only [Bool.false_eq_true, if_false]
                rw [hd i l s t he hpl hst (by simp [hmin])]
              | some mn =>
                simp only
                by_cases hlt : (t - s) / 1000 < mn
                · simp only [hlt, decide_true, if_true]
                · simp only [hlt, decide_false, Bool.false_eq_true, if_false]
                  rw [hd i l s t he hpl hst (by intro m hm'; rw [hmin] at hm'; cases hm'; omega)]
            · simp only [hpl, duration, if_neg hst, unwrap]
          · rfl
      simp only [Tools.croxLoop, this, ih]
  unfold Tools.croxBody
  rw [hlanes, hn]
  cases Tools.croxLanes opt sortEnds sortStarts q with
  | error f => rfl
  | ok lanes =>
    cases q.numEvents with
    | error f => rfl
    | ok n => exact hloop lanes n 0

/-! ## Concrete cases -/

/-- Three threads, two of which overlap; the third begins after the first has ended. -/
def exThreads : List LightweightEvent :=
  [⟨0, 7, .timestamp (.interval 10 20)⟩, ⟨1, 9, .timestamp (.interval 15 40)⟩, ⟨2, 5, .integer 3⟩, ⟨3, 8, .timestamp (.interval 22 30)⟩,
   ⟨4, 8, .timestamp (.instant 35)⟩]

example : SortsByTime (fun l => l.insertionSort (fun a b => a.1 ≤ b.1)) := sorts_insertion

example : laneMapping true (fun l => l.insertionSort (fun a b => a.1 ≤ b.1)) (fun l => l.insertionSort (fun a b => a.1 ≤ b.1))
    exThreads = .ok [(7, 0), (9, 1), (8, 0)] := by decide +kernel

example : Apart exThreads 7 8 ∧ ¬ Apart exThreads 7 9 ∧ ActiveAt exThreads 17 7 ∧ ActiveAt exThreads 17 9 := by
  refine ⟨by unfold Apart; decide +kernel, by unfold Apart; decide +kernel, ⟨⟨_, List.mem_cons_self .., rfl, rfl⟩, by decide +kernel⟩,
    ⟨⟨_, List.mem_cons_of_mem _ (List.mem_cons_self ..), rfl, rfl⟩, by decide +kernel⟩⟩

example : croxEvents (some 2) 4242 [(0, 3)] [ev "Query" "a" 0 5000 6999, ev "Query" "b" 0 5000 7000, ⟨utf8 "k", utf8 "c", [utf8 "x", utf8 "y"], .timestamp (.interval 1 5001), 1⟩] =
    .ok [⟨utf8 "b", utf8 "Query", 5, 2, 4242, 3, none⟩,
         ⟨utf8 "c", utf8 "k", 0, 5, 4242, 1, some [(utf8 "arg0", utf8 "x"), (utf8 "arg1", utf8 "y")]⟩] := by decide +kernel

example : crateName (utf8 "rustc --crate-name foo --edition 2021") = some (utf8 "foo") ∧ crateName (utf8 "rustc --crate-name foo") = some (utf8 "foo") ∧
    crateName (utf8 "rustc x.rs") = none := by decide +kernel

example : ∃ f, croxEvents none 1 [] [ev "Query" "a" 0 5 4] = .error f := ⟨_, rfl⟩

end Verif.Props
