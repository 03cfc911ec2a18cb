import Verif.Proofs.ContainerMore
import Mathlib.Data.List.Forall2

/-!
# Properties C01–C07, C09, C10: the paged container

All theorems quantify over arbitrary histories (any number of calls on any sinks, any payload sizes).
-/

namespace Verif.Props

open Verif Verif.Mm Verif.Spec

/-- The stream with tag `t` recovered from a store by `split_streams` is `b` (a missing stream is empty). -/
def Recovers (data : Bytes) (t : PageTag) (b : Bytes) : Prop :=
  ∃ m, splitStreams data = .ok m ∧ (m t).getD [] = b

/-! ### C01 -/

/-- **C01.** After any history, splitting the store returns, for the tag of every sink that was flushed (or
dropped) last and whose tag no other used sink has, exactly the concatenation of what was written to it; the
stream is absent iff nothing was written. -/
theorem C01_split_recovers_streams (tagOf : Nat → PageTag) (h : History) (hg : AllGood h) :
    ∃ m, splitStreams (storeAfter tagOf h) = .ok m ∧
      ∀ i, TagUnshared tagOf i h → Flushed i h →
        m (tagOf i) = if written i h = [] then none else some (written i h) := by
  obtain ⟨pages, inv, _⟩ := run_inv tagOf h hg
  refine ⟨mergePages (fun _ => none) pages, ?_, ?_⟩
  · have : storeAfter tagOf h = storeOf pages := by simp [storeAfter, inv.store]
    rw [this]
    exact splitStreams_storeOf pages (fun p hp => split_of_writer (inv.bodies p hp))
  · intro i hun hfl
    have hbuf := flushed_buffer tagOf h hg i hfl
    have hc := inv.content i hun
    rw [hbuf, List.append_nil] at hc
    rw [mergePages_none]
    by_cases hex : ∃ p ∈ pages, p.tag = tagOf i
    · obtain ⟨p, hp, ht⟩ := hex
      have hne : written i h ≠ [] := by
        rw [← hc]
        intro hnil
        have hb := (inv.bodies p hp).1
        have hmem : p ∈ pages.filter (fun q => q.tag = tagOf i) := by simp [hp, ht]
        simp only [streamOf, List.flatMap_eq_nil_iff] at hnil
        rw [hnil p hmem] at hb
        simp at hb
      rw [if_pos ⟨p, hp, ht⟩, if_neg hne, hc]
    · rw [if_neg hex]
      have : written i h = [] := by
        rw [← hc]
        simp only [streamOf]
        rw [List.filter_eq_nil_iff.mpr]
        · rfl
        · intro q hq hqt; exact hex ⟨q, hq, by simpa using hqt⟩
      rw [if_pos this]

/-- **C01** (data still in a buffer): without a final flush the recovered stream is a prefix of what was
written, the missing part being at most one page. -/
theorem C01_unflushed_is_prefix (tagOf : Nat → PageTag) (h : History) (hg : AllGood h) (i : Nat)
    (hun : TagUnshared tagOf i h) :
    ∃ b rest, Recovers (storeAfter tagOf h) (tagOf i) b ∧ b ++ rest = written i h ∧ rest.length ≤ 262144 := by
  obtain ⟨pages, inv, _⟩ := run_inv tagOf h hg
  refine ⟨_, _, ⟨_, ?_, mergePages_getD pages (tagOf i)⟩, inv.content i hun, inv.buf i⟩
  have : storeAfter tagOf h = storeOf pages := by simp [storeAfter, inv.store]
  rw [this]
  exact splitStreams_storeOf pages (fun p hp => split_of_writer (inv.bodies p hp))

/-- Tag assignment used in examples: sinks 0, 1, 2 have the three tags. -/
def exTags : Nat → PageTag
  | 0 => .events
  | 1 => .stringData
  | _ => .stringIndex

/-- A history with small, callback, large (multi-page) and flush calls on two sinks. -/
def exHistory : History :=
  [(0, .writeBytes [1, 2]), (1, .writeAtomic 3 (fun _ => .ok [7, 8, 9])), (0, .stdWrite (List.replicate 600000 5)),
   (1, .stdFlush), (1, .writeBytes [4]), (0, .drop), (1, .drop)]

/-- Non-vacuity: the example history meets all hypotheses of `C01_split_recovers_streams` for sinks 0 and 1. -/
example : AllGood exHistory ∧ TagUnshared exTags 0 exHistory ∧ Flushed 0 exHistory ∧
    TagUnshared exTags 1 exHistory ∧ Flushed 1 exHistory ∧ (written 0 exHistory).length = 600002 := by
  refine ⟨?_, ?_, ?_, ?_, ?_, ?_⟩
  · simp [AllGood, exHistory, Good, -List.reduceReplicate]
  · simp [TagUnshared, exHistory, exTags, -List.reduceReplicate]
  · right
    exact ⟨exHistory.take 5, .drop, [(1, .drop)], rfl, trivial, by simp⟩
  · simp [TagUnshared, exHistory, exTags, -List.reduceReplicate]
  · right
    exact ⟨exHistory.take 6, .drop, [], rfl, trivial, by simp⟩
  · simp [written, exHistory, payload, -List.reduceReplicate]

/-! ### C02 -/

/-- **C02.** The `k`-th call, if it is a write, succeeds and returns the number of bytes written to this sink
before it (whether or not other sinks share the tag). -/
theorem C02_returned_address (tagOf : Nat → PageTag) (h1 h2 : History) (i : Nat) (c : SinkCall)
    (hg : AllGood (h1 ++ (i, c) :: h2)) (hc : ReturnsAddr c) :
    (outcomes tagOf (h1 ++ (i, c) :: h2))[h1.length]? = some (.ok (some (written i h1).length)) := by
  have hg1 : AllGood h1 := fun x hx => hg x (by simp [hx])
  obtain ⟨pages, inv, _⟩ := run_inv tagOf h1 hg1
  obtain ⟨r, w', new, hcall, _, hret, _⟩ := inv.step i c (hg (i, c) (by simp))
  rw [outcome_at, hcall, hret hc]

/-- **C02.** Reading the recovered stream at the returned address gives back exactly the bytes of that call,
whatever happens afterwards. -/
theorem C02_address_locates_data (tagOf : Nat → PageTag) (h1 h2 : History) (i : Nat) (c : SinkCall)
    (hg : AllGood (h1 ++ (i, c) :: h2)) (hc : ReturnsAddr c)
    (hun : TagUnshared tagOf i (h1 ++ (i, c) :: h2)) (hfl : Flushed i (h1 ++ (i, c) :: h2)) :
    ∃ a stream, (outcomes tagOf (h1 ++ (i, c) :: h2))[h1.length]? = some (.ok (some a)) ∧
      Recovers (storeAfter tagOf (h1 ++ (i, c) :: h2)) (tagOf i) stream ∧
      (stream.drop a).take (payload c).length = payload c := by
  refine ⟨_, written i (h1 ++ (i, c) :: h2), C02_returned_address tagOf h1 h2 i c hg hc, ?_, ?_⟩
  · obtain ⟨m, hm, hs⟩ := C01_split_recovers_streams tagOf _ hg
    refine ⟨m, hm, ?_⟩
    rw [hs i hun hfl]
    split
    · rename_i h; rw [h]; rfl
    · rfl
  · rw [written_append, written_cons, written_single_same, List.drop_left, List.take_left]

example : ∃ h1 c h2, exHistory = h1 ++ (1, c) :: h2 ∧ ReturnsAddr c ∧ (written 1 h1).length = 3 ∧ payload c = [4] :=
  ⟨exHistory.take 4, .writeBytes [4], exHistory.drop 5, rfl, trivial, by simp [exHistory, written, payload, -List.reduceReplicate], rfl⟩

/-! ### C03 -/

/-- **C03.** After any history the store is a sequence of pages in the documented layout, each non-empty and at
most 256 KiB, and no call has panicked. -/
theorem C03_pages_wellformed (tagOf : Nat → PageTag) (h : History) (hg : AllGood h) :
    (∃ pages, storeAfter tagOf h = storeOf pages ∧ ∀ p ∈ pages, 0 < p.body.length ∧ p.body.length ≤ 262144) ∧
    ∀ r ∈ outcomes tagOf h, IsOk r := by
  obtain ⟨pages, inv, hok⟩ := run_inv tagOf h hg
  exact ⟨⟨pages, by simp [storeAfter, inv.store], inv.bodies⟩, hok⟩

/-- The layout is the documented one. -/
example : storeOf [⟨.stringData, [65, 66, 67]⟩, ⟨.events, [1]⟩] = [1, 3, 0, 0, 0, 65, 66, 67, 0, 1, 0, 0, 0, 1] := by
  decide

/-! ### C04 -/

/-- **C04.** The store only ever grows at its end. -/
theorem C04_append_only (tagOf : Nat → PageTag) (h h2 : History) (hg : AllGood (h ++ h2)) :
    storeAfter tagOf h <+: storeAfter tagOf (h ++ h2) := by
  have hg1 : AllGood h := fun x hx => hg x (by simp [hx])
  have hg2 : AllGood h2 := fun x hx => hg x (by simp [hx])
  obtain ⟨pages, inv, _⟩ := run_inv tagOf h hg1
  obtain ⟨more, inv2, _⟩ := inv.exec h2 hg2
  have e : (World.exec tagOf h2 (run tagOf h).2).2 = (run tagOf (h ++ h2)).2 := by
    simp [run, exec_append]
  rw [e] at inv2
  simp only [storeAfter, inv.store, inv2.store, storeOf_append]
  exact List.prefix_append _ _

/-- **C04.** If the store is cut at any byte, splitting it panics, unless the cut falls between two pages; then
every recovered stream is a prefix of the stream of the complete store. -/
theorem C04_crash_prefix (tagOf : Nat → PageTag) (h : History) (hg : AllGood h) (n : Nat) :
    ∃ pages m, storeAfter tagOf h = storeOf pages ∧ splitStreams (storeAfter tagOf h) = .ok m ∧
      ((IsPanic (splitStreams ((storeAfter tagOf h).take n)) ∧
          ∀ k, (storeAfter tagOf h).take n ≠ storeOf (pages.take k)) ∨
       ∃ k m', (storeAfter tagOf h).take n = storeOf (pages.take k) ∧
          splitStreams ((storeAfter tagOf h).take n) = .ok m' ∧ ∀ t, (m' t).getD [] <+: (m t).getD []) := by
  obtain ⟨pages, inv, _⟩ := run_inv tagOf h hg
  have hs : storeAfter tagOf h = storeOf pages := by simp [storeAfter, inv.store]
  have hsp : ∀ p ∈ pages, SplitPage p := fun p hp => split_of_writer (inv.bodies p hp)
  refine ⟨pages, _, hs, by rw [hs]; exact splitStreams_storeOf pages hsp, ?_⟩
  rcases splitLoop_total _ ((storeAfter tagOf h).take n) (fun _ => none) (Nat.le_refl _) with
    ⟨ps, hps, hdata, hres⟩ | hpan
  · right
    have hpre : ps <+: pages := by
      apply storeOf_prefix hps hsp
      rw [← hdata, ← hs]
      exact List.take_prefix _ _
    refine ⟨ps.length, _, ?_, hres, ?_⟩
    · rw [hdata, ← List.prefix_iff_eq_take.mp hpre]
    · intro t
      rw [mergePages_getD, mergePages_getD]
      exact streamOf_prefix hpre t
  · left
    refine ⟨hpan, ?_⟩
    intro k hk
    have : splitStreams ((storeAfter tagOf h).take n) = .ok (mergePages (fun _ => none) (pages.take k)) := by
      rw [hk]
      exact splitStreams_storeOf _ (fun p hp => hsp p (List.mem_of_mem_take hp))
    have hpan' : IsPanic (splitStreams ((storeAfter tagOf h).take n)) := hpan
    rw [this] at hpan'
    exact hpan'

/-- **C04.** In particular what is recovered after a crash at any byte is a prefix of what the program wrote. -/
theorem C04_crash_written_prefix (tagOf : Nat → PageTag) (h : History) (hg : AllGood h) (n : Nat) (i : Nat)
    (hun : TagUnshared tagOf i h) (m' : Streams) (hm : splitStreams ((storeAfter tagOf h).take n) = .ok m') :
    (m' (tagOf i)).getD [] <+: written i h := by
  obtain ⟨pages, m, _, hm0, hcase⟩ := C04_crash_prefix tagOf h hg n
  obtain ⟨b, rest, ⟨m2, hm2, hb⟩, hw, _⟩ := C01_unflushed_is_prefix tagOf h hg i hun
  rw [hm0] at hm2
  injection hm2 with hm2
  subst hm2
  rcases hcase with ⟨hp, _⟩ | ⟨k, m'', _, hm'', hpre⟩
  · rw [hm] at hp; exact hp.elim
  · rw [hm] at hm''
    injection hm'' with hm''
    subst hm''
    have := hpre (tagOf i)
    rw [hb] at this
    exact this.trans ⟨rest, hw⟩

/-- Both cases of `C04_crash_prefix` occur. -/
example : IsPanic (splitStreams ((storeOf [⟨.events, [1, 2]⟩, ⟨.events, [3]⟩]).take 9)) ∧
    IsOk (splitStreams ((storeOf [⟨.events, [1, 2]⟩, ⟨.events, [3]⟩]).take 7)) := by
  decide

/-! ### C05 -/

/-- Two calls on the same sink that hand over the same bytes (through `write_atomic`, `write_bytes_atomic` or the
`std::io::Write` adapter), or both flush. -/
def Interchangeable (x y : Nat × SinkCall) : Prop :=
  x.1 = y.1 ∧ payload x.2 = payload y.2 ∧ (Flushes x.2 ↔ Flushes y.2)

theorem written_interchange {h h' : History} (hr : List.Forall₂ Interchangeable h h') (i : Nat) :
    written i h = written i h' := by
  induction hr with
  | nil => rfl
  | @cons x y h h' hxy _ ih =>
    obtain ⟨j, c⟩ := x
    obtain ⟨j', c'⟩ := y
    obtain ⟨h1, h2, _⟩ := hxy
    simp only at h1 h2
    subst h1
    rw [written_cons i j c h, written_cons i j c' h', ih]
    by_cases hj : j = i
    · subst hj; rw [written_single_same, written_single_same, h2]
    · rw [written_single_other hj, written_single_other hj]

theorem mem_interchange {h h' : History} (hr : List.Forall₂ Interchangeable h h') :
    ∀ x ∈ h, ∃ y ∈ h', Interchangeable x y := by
  induction hr with
  | nil => simp
  | cons hxy _ ih =>
    intro z hz
    rcases List.mem_cons.mp hz with rfl | hz
    · exact ⟨_, by simp, hxy⟩
    · obtain ⟨y, hy, hzy⟩ := ih z hz
      exact ⟨y, by simp [hy], hzy⟩

theorem interchange_symm {h h' : History} (hr : List.Forall₂ Interchangeable h h') :
    List.Forall₂ Interchangeable h' h := by
  induction hr with
  | nil => exact .nil
  | cons hxy _ ih => exact .cons ⟨hxy.1.symm, hxy.2.1.symm, hxy.2.2.symm⟩ ih

theorem flushed_interchange {h h' : History} (hr : List.Forall₂ Interchangeable h h') (i : Nat)
    (hf : Flushed i h) : Flushed i h' := by
  rcases hf with hf | ⟨h1, c, h2, rfl, hfl, hno⟩
  · left
    intro y hy
    obtain ⟨x, hx, hxy⟩ := mem_interchange (interchange_symm hr) y hy
    rw [hxy.1]; exact hf x hx
  · right
    induction h1 generalizing h' with
    | nil =>
      cases hr with
      | @cons _ y _ t hxy htl =>
        obtain ⟨j, c'⟩ := y
        have hj : i = j := hxy.1
        subst hj
        refine ⟨[], c', t, rfl, hxy.2.2.mp hfl, ?_⟩
        intro y hy
        obtain ⟨x, hx, hxy⟩ := mem_interchange (interchange_symm htl) y hy
        rw [hxy.1]; exact hno x hx
    | cons a h1 ih =>
      cases hr with
      | @cons _ y _ t hxy htl =>
        obtain ⟨g1, c', g2, hg, hfl', hno'⟩ := ih htl
        exact ⟨y :: g1, c', g2, by rw [hg]; rfl, hfl', hno'⟩

/-- **C05.** Replacing calls by interchangeable ones anywhere in a history changes neither the recovered stream
of any sink nor the address returned at any position where both versions return one. -/
theorem C05_write_paths_interchangeable (tagOf : Nat → PageTag) (h h' : History)
    (hr : List.Forall₂ Interchangeable h h') (hg : AllGood h) (hg' : AllGood h') :
    (∀ i, TagUnshared tagOf i h → Flushed i h →
      ∃ b, Recovers (storeAfter tagOf h) (tagOf i) b ∧ Recovers (storeAfter tagOf h') (tagOf i) b) ∧
    (∀ (k a a' : Nat), (outcomes tagOf h)[k]? = some (.ok (some a)) → (outcomes tagOf h')[k]? = some (.ok (some a')) →
      a = a') := by
  constructor
  · intro i hun hfl
    obtain ⟨m, hm, hs⟩ := C01_split_recovers_streams tagOf h hg
    obtain ⟨m', hm', hs'⟩ := C01_split_recovers_streams tagOf h' hg'
    have hun' : TagUnshared tagOf i h' := by
      intro y hy ht
      obtain ⟨x, hx, hxy⟩ := mem_interchange (interchange_symm hr) y hy
      rw [hxy.1] at ht ⊢
      exact hun x hx ht
    refine ⟨written i h, ⟨m, hm, ?_⟩, ⟨m', hm', ?_⟩⟩
    · rw [hs i hun hfl]; split <;> simp_all
    · rw [hs' i hun' (flushed_interchange hr i hfl), ← written_interchange hr i]; split <;> simp_all
  · have key : ∀ (h h' : History), List.Forall₂ Interchangeable h h' → ∀ (p p' : History), AllGood (p ++ h) →
        AllGood (p' ++ h') → (∀ i, written i p = written i p') → ∀ (k a a' : Nat),
        (World.exec tagOf h (run tagOf p).2).1[k]? = some (.ok (some a)) →
        (World.exec tagOf h' (run tagOf p').2).1[k]? = some (.ok (some a')) → a = a' := by
      intro h h' hr
      induction hr with
      | nil => intro p p' _ _ _ k a a' h1; simp [World.exec] at h1
      | @cons x y h h' hxy hr ih =>
        intro p p' hg hg' hw k a a' h1 h2
        obtain ⟨i, c⟩ := x
        obtain ⟨i', c'⟩ := y
        have hii : i = i' := hxy.1
        subst hii
        obtain ⟨pages, inv, _⟩ := run_inv tagOf p (fun x hx => hg x (by simp [hx]))
        obtain ⟨pages', inv', _⟩ := run_inv tagOf p' (fun x hx => hg' x (by simp [hx]))
        obtain ⟨r, w1, _, hc1, _, hret, _⟩ := inv.step i c (hg (i, c) (by simp))
        obtain ⟨r', w1', _, hc1', _, hret', _⟩ := inv'.step i c' (hg' (i, c') (by simp))
        have e1 : w1 = (run tagOf (p ++ [(i, c)])).2 := by
          have hc1' : World.call tagOf i c (World.exec tagOf p World.init).2 = (.ok r, w1) := hc1
          simp [run, exec_append, World.exec, hc1']
        have e1' : w1' = (run tagOf (p' ++ [(i, c')])).2 := by
          have hc1'' : World.call tagOf i c' (World.exec tagOf p' World.init).2 = (.ok r', w1') := hc1'
          simp [run, exec_append, World.exec, hc1'']
        simp only [World.exec, hc1, hc1'] at h1 h2
        cases k with
        | succ k =>
          simp only [List.getElem?_cons_succ] at h1 h2
          rw [e1] at h1
          rw [e1'] at h2
          refine ih (p ++ [(i, c)]) (p' ++ [(i, c')]) (by simpa using hg) (by simpa using hg') ?_ k a a' h1 h2
          intro j
          rw [written_append, written_append, hw j]
          congr 1
          exact written_interchange (.cons hxy .nil) j
        | zero =>
          simp only [List.getElem?_cons_zero, Option.some.injEq, Except.ok.injEq] at h1 h2
          have hA : ReturnsAddr c := by
            cases c <;> simp only [ReturnsAddr]
            all_goals
              simp only [World.call, SinkCall.run, Act.bind_apply] at hc1
              split at hc1 <;> simp_all
          have hA' : ReturnsAddr c' := by
            cases c' <;> simp only [ReturnsAddr]
            all_goals
              simp only [World.call, SinkCall.run, Act.bind_apply] at hc1'
              split at hc1' <;> simp_all
          rw [hret hA] at h1
          rw [hret' hA'] at h2
          rw [← Option.some.inj h1, ← Option.some.inj h2, hw i]
    exact key h h' hr [] [] hg hg' (fun _ => rfl)

/-- Non-vacuity: a callback write, a byte write and an adapter write of the same 200 bytes are interchangeable. -/
example : List.Forall₂ Interchangeable
    [(0, .writeAtomic 200 (fun _ => .ok (List.replicate 200 9))), (0, .drop)]
    [(0, .writeBytes (List.replicate 200 9)), (0, .stdFlush)] :=
  .cons ⟨rfl, rfl, Iff.rfl⟩ (.cons ⟨rfl, rfl, ⟨fun _ => trivial, fun _ => trivial⟩⟩ .nil)

/-! ### C06 -/

/-- **C06.** The bytes of any record written atomically (at most a page through `write_atomic`, at most 128 bytes
through `write_bytes_atomic`) lie inside a single page of the final store, at the stream position given by the
returned address. -/
theorem C06_record_in_one_page (tagOf : Nat → PageTag) (h1 h2 : History) (i : Nat) (c : SinkCall)
    (hg : AllGood (h1 ++ (i, c) :: h2)) (hun : TagUnshared tagOf i (h1 ++ (i, c) :: h2))
    (hfl : Flushed i (h1 ++ (i, c) :: h2)) (hc : AtomicRecord c) (hne : payload c ≠ []) :
    ∃ before p after x y, storeAfter tagOf (h1 ++ (i, c) :: h2) = storeOf (before ++ p :: after) ∧
      p.tag = tagOf i ∧ p.body = x ++ payload c ++ y ∧
      (streamOf (tagOf i) before).length + x.length = (written i h1).length := by
  have hg1 : AllGood h1 := fun x hx => hg x (by simp [hx])
  have hg2 : AllGood h2 := fun x hx => hg x (by simp [hx])
  obtain ⟨pages, inv, _⟩ := run_inv tagOf h1 hg1
  obtain ⟨r, w', new, hcall, hinv, _, _, he, _, hat⟩ := inv.step i c (hg (i, c) (by simp))
  have hun1 : TagUnshared tagOf i h1 := fun x hx => hun x (by simp [hx])
  have hcont := inv.content i hun1
  have hloc : Located (tagOf i) (written i h1).length (payload c) (pages ++ new.map (Page.mk (tagOf i)))
      (w'.sinks i).buffer := by
    left
    rcases hat hc with ⟨hn, hb⟩ | ⟨hn, hb⟩
    · refine ⟨(run tagOf h1).2.sinks i |>.buffer, [], by rw [hb]; simp, ?_⟩
      rw [hn, ← hcont]; simp
    · refine ⟨[], [], by rw [hb]; simp, ?_⟩
      rw [hn, ← hcont, streamOf_append, streamOf_map_same]; simp
  obtain ⟨pages', inv', hloc'⟩ := located_exec hne h2 hinv hg2 (by simpa using hun) hloc
  have hcall' : World.call tagOf i c (World.exec tagOf h1 World.init).2 = (.ok r, w') := hcall
  have e : (World.exec tagOf h2 w').2 = (run tagOf (h1 ++ (i, c) :: h2)).2 := by
    simp [run, exec_append, World.exec, hcall']
  rw [e] at inv' hloc'
  have hbuf := flushed_buffer tagOf _ hg i hfl
  rcases hloc' with ⟨x, y, hb, _⟩ | ⟨before, p, after, x, y, hpg, ht, hbody, ha⟩
  · rw [hbuf] at hb
    exact absurd hb.symm (by simp [hne])
  · exact ⟨before, p, after, x, y, by simp [storeAfter, inv'.store, hpg], ht, hbody, ha⟩

/-- **C06.** If everything written to a sink comes in atomic records whose sizes are multiples of `k` (event
records: 32 bytes) then every page of that sink's tag holds a whole number of records. -/
theorem C06_pages_hold_whole_records (tagOf : Nat → PageTag) (h : History) (hg : AllGood h) (i k : Nat)
    (hun : TagUnshared tagOf i h)
    (hrec : ∀ c, (i, c) ∈ h → AtomicRecord c ∧ k ∣ (payload c).length) :
    ∃ pages, storeAfter tagOf h = storeOf pages ∧ ∀ p ∈ pages, p.tag = tagOf i → k ∣ p.body.length := by
  have key : ∀ (h2 : History) (hh : History) (w : World) (pages : List Page), WInv tagOf hh w pages → AllGood h2 →
      TagUnshared tagOf i h2 → (∀ c, (i, c) ∈ h2 → AtomicRecord c ∧ k ∣ (payload c).length) →
      k ∣ (w.sinks i).buffer.length → (∀ p ∈ pages, p.tag = tagOf i → k ∣ p.body.length) →
      ∃ pages', (World.exec tagOf h2 w).2.store.data = storeOf pages' ∧
        ∀ p ∈ pages', p.tag = tagOf i → k ∣ p.body.length := by
    intro h2
    induction h2 with
    | nil => intro hh w pages inv _ _ _ _ hp; exact ⟨pages, by simp [World.exec, inv.store], hp⟩
    | cons x h2 ih =>
      intro hh w pages inv hg hun hrec hb hp
      obtain ⟨j, c⟩ := x
      obtain ⟨r, w', new, hcall, hinv, _, _, he, hoth, hat⟩ := inv.step j c (hg (j, c) (by simp))
      simp only [World.exec, hcall]
      refine ih _ w' _ hinv (fun x hx => hg x (by simp [hx])) (fun x hx => hun x (by simp [hx]))
        (fun c hc => hrec c (by simp [hc])) ?_ ?_
      · by_cases hj : j = i
        · subst hj
          obtain ⟨ha, hk⟩ := hrec c (by simp)
          rcases hat ha with ⟨_, hb'⟩ | ⟨_, hb'⟩
          · rw [hb', List.length_append]; exact Nat.dvd_add hb hk
          · rw [hb']; exact hk
        · rw [hoth i (Ne.symm hj)]; exact hb
      · intro p hpm ht
        rcases List.mem_append.mp hpm with hpm | hpm
        · exact hp p hpm ht
        · obtain ⟨b, hbm, rfl⟩ := List.mem_map.mp hpm
          have hj : j = i := hun (j, c) (by simp) ht
          subst hj
          obtain ⟨ha, _⟩ := hrec c (by simp)
          rcases hat ha with ⟨hn, _⟩ | ⟨hn, _⟩
          · rw [hn] at hbm; simp at hbm
          · rw [hn] at hbm
            simp only [List.mem_singleton] at hbm
            subst hbm; exact hb
  have := key h [] World.init [] (WInv.init tagOf) hg hun hrec (by simp [World.init]) (by simp)
  simpa [storeAfter, run] using this

example : ∀ c, (0, c) ∈ ([(0, .writeAtomic 32 (fun _ => .ok (List.replicate 32 1))), (1, .writeBytes [1]), (0, .drop)] : History) →
    AtomicRecord c ∧ 32 ∣ (payload c).length := by
  intro c hc
  simp at hc
  rcases hc with rfl | rfl <;> simp [AtomicRecord, payload]

/-! ### C07 -/

/-- **C07.** `split_streams` returns normally iff the input is a concatenation of pages with a known tag and a
non-empty body (whose size fits the 32-bit size field); the result maps each occurring tag to the concatenation
of its page bodies in order. -/
theorem C07_split_accepts_iff (data : Bytes) (m : Streams) :
    splitStreams data = .ok m ↔
      ∃ pages, (∀ p ∈ pages, 0 < p.body.length ∧ p.body.length < 4294967296) ∧ data = storeOf pages ∧
        ∀ t, m t = if ∃ p ∈ pages, p.tag = t then some (streamOf t pages) else none := by
  constructor
  · intro h
    rcases splitLoop_total _ data (fun _ => none) (Nat.le_refl _) with ⟨pages, hp, hdata, hres⟩ | hpan
    · refine ⟨pages, hp, hdata, ?_⟩
      have : splitStreams data = .ok (mergePages (fun _ => none) pages) := hres
      rw [h] at this
      injection this with this
      subst this
      exact mergePages_none pages
    · have hpan' : IsPanic (splitStreams data) := hpan
      rw [h] at hpan'
      exact hpan'.elim
  · rintro ⟨pages, hp, rfl, hm⟩
    rw [splitStreams_storeOf pages hp]
    congr 1
    funext t
    rw [hm, mergePages_none]

/-- **C07.** Every other input panics; `split_streams` never reports an error value. -/
theorem C07_split_otherwise_panics (data : Bytes)
    (h : ¬ ∃ pages, (∀ p ∈ pages, 0 < p.body.length ∧ p.body.length < 4294967296) ∧ data = storeOf pages) :
    IsPanic (splitStreams data) := by
  rcases splitLoop_total _ data (fun _ => none) (Nat.le_refl _) with ⟨pages, hp, hdata, _⟩ | hpan
  · exact absurd ⟨pages, hp, hdata⟩ h
  · exact hpan

/-- **C07.** The decomposition into pages is unique. -/
theorem C07_pages_unique (a b : List Page)
    (ha : ∀ p ∈ a, 0 < p.body.length ∧ p.body.length < 4294967296)
    (hb : ∀ p ∈ b, 0 < p.body.length ∧ p.body.length < 4294967296) (h : storeOf a = storeOf b) : a = b :=
  storeOf_inj ha hb h

/-- Malformed inputs exist of every sort: unknown tag, short header, zero size, short body. -/
example : IsPanic (splitStreams [3, 1, 0, 0, 0, 7]) ∧ IsPanic (splitStreams [0, 1, 0]) ∧
    IsPanic (splitStreams [0, 0, 0, 0, 0]) ∧ IsPanic (splitStreams [0, 2, 0, 0, 0, 7]) ∧
    IsOk (splitStreams [0, 1, 0, 0, 0, 7]) := by decide

/-! ### C09 -/

/-- **C09.** Failures are loud: as long as every call returns normally, outcomes and store are those of a run without I/O
errors, whatever the I/O errors may be later. -/
theorem C09_failure_is_loud (tagOf : Nat → PageTag) (h : History) (faults : List (Option Nat))
    (hok : ∀ r ∈ (World.exec tagOf h (World.init faults)).1, IsOk r) :
    (World.exec tagOf h (World.init faults)).1 = outcomes tagOf h ∧
    (World.exec tagOf h (World.init faults)).2.store.data = storeAfter tagOf h := by
  have hh := exec_healthy tagOf h (World.init faults) hok
  have hi : (World.init faults).healthy = World.init := rfl
  rw [hi] at hh
  unfold outcomes storeAfter run
  rw [hh]
  exact ⟨rfl, rfl⟩

/-- **C09.** The store is append-only: whatever fails, bytes that have reached the store are never changed. -/
theorem C09_never_overwrites (tagOf : Nat → PageTag) (h h2 : History) (faults : List (Option Nat)) :
    (World.exec tagOf h (World.init faults)).2.store.data <+: (World.exec tagOf (h ++ h2) (World.init faults)).2.store.data := by
  rw [exec_append]
  show (World.exec tagOf h (World.init faults)).2.store.data <+: (World.exec tagOf h2 (World.exec tagOf h (World.init faults)).2).2.store.data
  generalize (World.exec tagOf h (World.init faults)).2 = w
  induction h2 generalizing w with
  | nil => exact List.prefix_rfl
  | cons x h2 ih =>
    obtain ⟨i, c⟩ := x
    simp only [World.exec]
    exact List.IsPrefix.trans (l₂ := (World.call tagOf i c w).2.store.data) ((Sim.run (tagOf i) c).mono ⟨w.sinks i, w.store⟩) (ih _)

/-- **C09.** What had been stored before the first failure stays readable: however the process goes on (further I/O errors,
panicking callbacks, drops), if the store can still be split, every stream begins with what it had before the failure. -/
theorem C09_stored_data_stays_first (tagOf : Nat → PageTag) (h h2 : History) (faults : List (Option Nat))
    (hok : ∀ r ∈ (World.exec tagOf h (World.init faults)).1, IsOk r) (m0 m : Streams)
    (h0 : splitStreams (storeAfter tagOf h) = .ok m0)
    (hm : splitStreams (World.exec tagOf (h ++ h2) (World.init faults)).2.store.data = .ok m) (t : PageTag) :
    (m0 t).getD [] <+: (m t).getD [] := by
  have hp := C09_never_overwrites tagOf h h2 faults
  rw [(C09_failure_is_loud tagOf h faults hok).2] at hp
  obtain ⟨p0, g0, e0, f0⟩ := (C07_split_accepts_iff _ _).mp h0
  obtain ⟨p1, g1, e1, f1⟩ := (C07_split_accepts_iff _ _).mp hm
  rw [e0, e1] at hp
  have hpre := streamOf_prefix (storeOf_prefix g0 g1 hp) t
  have key : ∀ (ps : List Page) (m : Streams), m t = (if ∃ p ∈ ps, p.tag = t then some (streamOf t ps) else none) →
      (m t).getD [] = streamOf t ps := by
    intro ps m hm
    rw [hm]
    split
    · rfl
    · rename_i hn
      simp only [Option.getD_none, streamOf]
      rw [List.filter_eq_nil_iff.mpr]
      · rfl
      · intro p hp
        simpa using fun he => hn ⟨p, hp, he⟩
  rw [key p0 m0 (f0 t), key p1 m (f1 t)]
  exact hpre

/-- **C09.** A flush (or drop) whose first write fails before any byte is written loses nothing: it panics, and neither the
sinks nor the store have changed, so flushing again later writes the same page.  (With nothing buffered it writes nothing
and returns normally.) -/
theorem C09_clean_failure_loses_nothing (tagOf : Nat → PageTag) (h : History) (i : Nat) (c : SinkCall) (hc : Flushes c)
    (faults fs : List (Option Nat)) (hg : AllGood h)
    (hok : ∀ r ∈ (World.exec tagOf h (World.init faults)).1, IsOk r)
    (next : (World.exec tagOf h (World.init faults)).2.store.faults = some 0 :: fs) :
    let w := (World.exec tagOf h (World.init faults)).2
    let after := World.call tagOf i c w
    (∀ j, after.2.sinks j = w.sinks j) ∧ after.2.store.data = w.store.data ∧
      (IsPanic after.1 ∧ after.2.store.faults = fs ∨ IsOk after.1 ∧ after.2.store.faults = some 0 :: fs) := by
  intro w after
  have hh := exec_healthy tagOf h (World.init faults) hok
  have hi : (World.init faults).healthy = World.init := rfl
  rw [hi] at hh
  obtain ⟨pages, inv, _⟩ := run_inv tagOf h hg
  have hlen : (w.sinks i).buffer.length ≤ 262144 := by
    have := inv.buf i
    unfold run at this
    rw [hh] at this
    exact this
  have hflush : flushBuffer (tagOf i) ⟨w.sinks i, w.store⟩ =
      if (w.sinks i).buffer = [] then (.ok (), ⟨w.sinks i, w.store⟩)
      else (.error (.panic "write_all failed"), ⟨w.sinks i, ⟨w.store.data, fs⟩⟩) := by
    have hf : w.store.faults = some 0 :: fs := next
    generalize w.store = st at hf
    generalize hs : w.sinks i = s at hlen
    obtain ⟨buf, addr⟩ := s
    obtain ⟨data, flts⟩ := st
    simp only at hf hlen
    subst hf
    unfold flushBuffer
    rw [Act.bind_ok (Act.get_apply _)]
    cases buf with
    | nil => rfl
    | cons x xs =>
      have hb' : (x :: xs).length ≤ maxPageSize := hlen
      have hpos : (x :: xs).length > 0 := by simp
      simp only [reduceCtorEq, if_false]
      apply Act.bind_error
      simp only [writePage, hpos, if_true]
      rw [Act.bind_ok (Act.assert_true hb')]
      simp [Act.bind_apply, onStore, Store.writeAll]
  have hrun : c.run (tagOf i) ⟨w.sinks i, w.store⟩ =
      if (w.sinks i).buffer = [] then (.ok none, ⟨w.sinks i, w.store⟩)
      else (.error (.panic "write_all failed"), ⟨w.sinks i, ⟨w.store.data, fs⟩⟩) := by
    cases c with
    | stdFlush =>
      simp only [SinkCall.run, Act.bind_apply, hflush]
      by_cases hb : (w.sinks i).buffer = []
      · simp only [if_pos hb]; rfl
      · simp only [if_neg hb]
    | drop =>
      simp only [SinkCall.run, Act.bind_apply, hflush]
      by_cases hb : (w.sinks i).buffer = []
      · simp only [if_pos hb]; rfl
      · simp only [if_neg hb]
    | _ => exact hc.elim
  have hafter : after = ((c.run (tagOf i) ⟨w.sinks i, w.store⟩).1,
      { sinks := fun j => if j = i then (c.run (tagOf i) ⟨w.sinks i, w.store⟩).2.inner else w.sinks j,
        store := (c.run (tagOf i) ⟨w.sinks i, w.store⟩).2.store }) := rfl
  rw [hafter, hrun]
  by_cases hb : (w.sinks i).buffer = []
  · simp only [if_pos hb]
    refine ⟨fun j => ?_, trivial, .inr ⟨trivial, next⟩⟩
    split
    · rename_i hj; rw [hj]
    · rfl
  · simp only [if_neg hb]
    refine ⟨fun j => ?_, trivial, .inl ⟨trivial, trivial⟩⟩
    split
    · rename_i hj; rw [hj]
    · rfl

/-- The hypotheses are met: the first write after one buffered byte string fails cleanly. -/
example : (∀ r ∈ (World.exec exTags [(0, .writeBytes [1, 2])] (World.init [some 0])).1, IsOk r) ∧
    (World.exec exTags [(0, .writeBytes [1, 2])] (World.init [some 0])).2.store.faults = some 0 :: [] ∧
    IsPanic (World.call exTags 0 .stdFlush (World.exec exTags [(0, .writeBytes [1, 2])] (World.init [some 0])).2).1 := by decide

/-- **C09.** If the process stops at the first call that fails (I/O errors may strike any write after any number of bytes,
and callbacks may panic), what is on disk is a prefix of what a run without I/O errors would have written. -/
theorem C09_first_failure_prefix (tagOf : Nat → PageTag) (h : History) (i : Nat) (c : SinkCall)
    (faults : List (Option Nat))
    (hok : ∀ r ∈ (World.exec tagOf h (World.init faults)).1, IsOk r) :
    (World.exec tagOf (h ++ [(i, c)]) (World.init faults)).2.store.data <+: storeAfter tagOf (h ++ [(i, c)]) :=
  fault_prefix tagOf h i c faults hok

/-- **C09.** With at most prefixes on disk, splitting never yields wrong bytes: it fails or gives a prefix. -/
theorem C09_first_failure_reads_prefix (tagOf : Nat → PageTag) (h : History) (i : Nat) (c : SinkCall)
    (faults : List (Option Nat)) (hg : AllGood (h ++ [(i, c)]))
    (hok : ∀ r ∈ (World.exec tagOf h (World.init faults)).1, IsOk r) (j : Nat)
    (hun : TagUnshared tagOf j (h ++ [(i, c)])) (m : Streams)
    (hm : splitStreams (World.exec tagOf (h ++ [(i, c)]) (World.init faults)).2.store.data = .ok m) :
    (m (tagOf j)).getD [] <+: written j (h ++ [(i, c)]) := by
  have hp := fault_prefix tagOf h i c faults hok
  rw [List.prefix_iff_eq_take.mp hp] at hm
  exact C04_crash_written_prefix tagOf (h ++ [(i, c)]) hg _ j hun m hm

/-- A history in which flushing fails after one body byte, and the sink is then dropped (which flushes again). -/
def exFaultHistory : History := [(0, .writeBytes [0, 1, 0, 0, 0, 7]), (0, .stdFlush), (0, .drop)]

/-- Non-vacuity of the prefix theorem: the first call succeeds, the second (the flush) fails. -/
example : (∀ r ∈ (World.exec exTags [(0, .writeBytes [0, 1, 0, 0, 0, 7])] (World.init [none, none, some 1])).1, IsOk r) ∧
    IsPanic ((World.call exTags 0 .stdFlush
      (World.exec exTags [(0, .writeBytes [0, 1, 0, 0, 0, 7])] (World.init [none, none, some 1])).2).1) := by
  decide

/-- **C09 (negation).** The full claim is false: after one transient I/O error the drop writes the page again
behind the torn one, the store splits without complaint, and the recovered stream is not what was written, nor a
prefix of it. -/
theorem C09_io_failure_corrupts :
    ∃ m, splitStreams (World.exec exTags exFaultHistory (World.init [none, none, some 1])).2.store.data = .ok m ∧
      (m (exTags 0)).getD [] = [0, 0, 6, 0, 0, 0, 7] ∧
      ¬ (m (exTags 0)).getD [] <+: written 0 exFaultHistory := by
  have hd : (World.exec exTags exFaultHistory (World.init [none, none, some 1])).2.store.data =
      storeOf [⟨.events, [0, 0, 6, 0, 0, 0]⟩, ⟨.events, [7]⟩] := by decide
  refine ⟨mergePages (fun _ => none) [⟨.events, [0, 0, 6, 0, 0, 0]⟩, ⟨.events, [7]⟩], ?_, ?_, ?_⟩
  · rw [hd]
    exact splitStreams_storeOf _ (by simp [SplitPage])
  · rw [mergePages_getD]; decide
  · rw [mergePages_getD]; decide

/-- **C09 (negation, callbacks).** If a `write_atomic` callback panics and the program goes on, later returned
addresses no longer locate the data: the buffer has grown but the address counter has not. -/
theorem C09_callback_panic_desynchronises :
    (outcomes exTags [(0, .writeAtomic 2 (fun _ => .error (.panic "user", [3, 0]))), (0, .writeBytes [5]), (0, .drop)])[1]? =
        some (.ok (some 0)) ∧
      storeAfter exTags [(0, .writeAtomic 2 (fun _ => .error (.panic "user", [3, 0]))), (0, .writeBytes [5]), (0, .drop)] =
        storeOf [⟨.events, [3, 0, 5]⟩] := by
  decide

/-! ### C10 -/

/-- **C10.** Sinks with their own tag are independent: what is recovered for a sink, and the addresses it
returned, depend only on the calls made on that sink. -/
theorem C10_sinks_independent (tagOf : Nat → PageTag) (h h' : History) (i : Nat) (hg : AllGood h) (hg' : AllGood h')
    (hsame : h.filter (fun x => x.1 = i) = h'.filter (fun x => x.1 = i))
    (hun : TagUnshared tagOf i h) (hun' : TagUnshared tagOf i h') (hfl : Flushed i h) (hfl' : Flushed i h') :
    ∃ b, Recovers (storeAfter tagOf h) (tagOf i) b ∧ Recovers (storeAfter tagOf h') (tagOf i) b := by
  obtain ⟨m, hm, hs⟩ := C01_split_recovers_streams tagOf h hg
  obtain ⟨m', hm', hs'⟩ := C01_split_recovers_streams tagOf h' hg'
  have hw : written i h = written i h' := by simp only [written, hsame]
  refine ⟨written i h, ⟨m, hm, ?_⟩, ⟨m', hm', ?_⟩⟩
  · rw [hs i hun hfl]; split <;> simp_all
  · rw [hs' i hun' hfl', ← hw]; split <;> simp_all

/-- **C10 (hazard).** Two sinks created with the same tag: the second sink's first write returns address 0, but
the recovered stream has other data there. -/
theorem C10_shared_tag_addresses_wrong :
    ∃ h : History, AllGood h ∧ (∀ i, Flushed i h) ∧
      (outcomes (fun _ => .events) h)[1]? = some (.ok (some 0)) ∧ h[1]? = some (1, .writeBytes [2]) ∧
      Recovers (storeAfter (fun _ => .events) h) .events [1, 2] := by
  refine ⟨[(0, .writeBytes [1]), (1, .writeBytes [2]), (0, .drop), (1, .drop)], ?_, ?_, by decide, rfl, ?_⟩
  · simp [AllGood, Good]
  · intro i
    by_cases h0 : i = 0
    · subst h0
      right
      exact ⟨[(0, .writeBytes [1]), (1, .writeBytes [2])], .drop, [(1, .drop)], rfl, trivial, by simp⟩
    · by_cases h1 : i = 1
      · subst h1
        right
        exact ⟨[(0, .writeBytes [1]), (1, .writeBytes [2]), (0, .drop)], .drop, [], rfl, trivial, by simp⟩
      · left
        simp [Ne.symm h0, Ne.symm h1]
  · have hd : storeAfter (fun _ => .events) [(0, .writeBytes [1]), (1, .writeBytes [2]), (0, .drop), (1, .drop)] =
        storeOf [⟨.events, [1]⟩, ⟨.events, [2]⟩] := by decide
    refine ⟨_, by rw [hd]; exact splitStreams_storeOf _ (by simp [SplitPage]), ?_⟩
    rw [mergePages_getD]; decide

end Verif.Props
