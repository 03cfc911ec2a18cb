import Mathlib.Tactic.Tauto
import Verif.Proofs.Mmedit
import Verif.Model.Profiler
import Verif.Props.Header

/-! # C55: `mmedit truncate` -/

namespace Verif.Props

open Verif Verif.Mm Verif.Mmedit Verif.Spec

/-- A top-level file header (eight bytes) for a version of the format. -/
def VersionHeader (v : Nat) (h : Bytes) : Prop := h = [0x4D, 0x4D, 0x50, 0x44, UInt8.ofNat v, 0, 0, 0]

/-- A page that can be stored: not empty and with a 32-bit size. -/
def Storable (p : Page) : Prop := p.body ≠ [] ∧ p.body.length < 2 ^ 32

theorem storable_split {p : Page} (h : Storable p) : SplitPage p := ⟨List.length_pos_iff.2 h.1, h.2⟩

theorem split_storable {p : Page} (h : SplitPage p) : Storable p := ⟨List.length_pos_iff.1 h.1, h.2⟩

theorem truncate_old {v : Nat} {h : Bytes} (hv : v = 7 ∨ v = 8) (hh : VersionHeader v h) (rest : Bytes) :
    truncate (h ++ rest) = truncateLoop rest.length rest h false := by
  unfold VersionHeader at hh
  have hr : readFileHeader none "top-level" (h ++ rest) magicTopLevel = .ok v := by
    subst hh
    have hm : magicTopLevel = [0x4D, 0x4D, 0x50, 0x44] := by decide +kernel
    unfold readFileHeader fileHeaderSize
    rw [hm]
    rcases hv with rfl | rfl <;> simp [fromLe]
  have h8 : h.length = 8 := by rw [hh]; rfl
  unfold truncate
  rw [hr]
  simp only [fileHeaderSize]
  rw [if_neg (by omega), ← h8, List.drop_left, List.take_left]

/-- **C55.** A file of version 7 or 8 is copied without all event pages but the first: header, string pages and their order are
untouched. -/
theorem C55_truncates (v : Nat) (hv : v = 7 ∨ v = 8) (h : Bytes) (hh : VersionHeader v h) :
    (∀ pages : List Page, (∀ p ∈ pages, Storable p) → (∀ p ∈ pages, p.tag ≠ .events) →
      truncate (h ++ storeOf pages) = .ok (h ++ storeOf pages)) ∧
    (∀ (a b : List Page) (e : Page), (∀ p ∈ a ++ e :: b, Storable p) → (∀ p ∈ a, p.tag ≠ .events) → e.tag = .events →
      truncate (h ++ storeOf (a ++ e :: b)) = .ok (h ++ storeOf (a ++ e :: b.filter fun p => p.tag ≠ .events))) := by
  constructor
  · intro pages hp hn
    rw [truncate_old hv hh, truncateLoop_pages pages (fun p h => storable_split (hp p h)) _ (storeOf_length_ge pages), keep_none _ hn]
  · intro a b e hp ha he
    rw [truncate_old hv hh, truncateLoop_pages _ (fun p h => storable_split (hp p h)) _ (storeOf_length_ge _), keep_first a b e ha he]

/-- **C55.** Whatever follows the header of a version 7 or 8 file: if the pages cannot be split, truncating panics, and otherwise it
succeeds; splitting the result gives the same string streams, and of the events a prefix. -/
theorem C55_streams (v : Nat) (hv : v = 7 ∨ v = 8) (h : Bytes) (hh : VersionHeader v h) (rest : Bytes) :
    (∃ out m m', truncate (h ++ rest) = .ok (h ++ out) ∧ splitStreams rest = .ok m ∧ splitStreams out = .ok m' ∧
      m' .stringData = m .stringData ∧ m' .stringIndex = m .stringIndex ∧ (m' .events = none ↔ m .events = none) ∧
      (m' .events).getD [] <+: (m .events).getD []) ∨
    (IsPanic (truncate (h ++ rest)) ∧ IsPanic (splitStreams rest)) := by
  rw [truncate_old hv hh]
  rcases truncateLoop_total rest.length rest h false (Nat.le_refl _) with ⟨pages, hp, rfl⟩ | hpan
  · left
    have hk : ∀ p ∈ keep false pages, SplitPage p := fun p hpm => hp p (keep_mem hpm)
    refine ⟨storeOf (keep false pages), _, _, truncateLoop_pages pages hp _ (storeOf_length_ge pages) h false,
      splitStreams_storeOf pages hp, splitStreams_storeOf _ hk, ?_⟩
    by_cases hev : ∀ p ∈ pages, p.tag ≠ .events
    · rw [keep_none _ hev]
      exact ⟨rfl, rfl, Iff.rfl, List.prefix_refl _⟩
    · have hex : ∃ (a : List Page) (e : Page) (b : List Page), pages = a ++ e :: b ∧ (∀ p ∈ a, p.tag ≠ .events) ∧ e.tag = .events := by
        clear hp hk
        induction pages with
        | nil => simp at hev
        | cons p ps ih =>
          by_cases hpe : p.tag = .events
          · exact ⟨[], p, ps, rfl, by simp, hpe⟩
          · have : ¬ ∀ q ∈ ps, q.tag ≠ .events := by
              intro hq; apply hev
              intro q hqm
              rcases List.mem_cons.1 hqm with rfl | hqm
              · exact hpe
              · exact hq q hqm
            obtain ⟨a, e, b, rfl, ha, he⟩ := ih this
            refine ⟨p :: a, e, b, rfl, ?_, he⟩
            intro q hqm
            rcases List.mem_cons.1 hqm with rfl | hqm
            · exact hpe
            · exact ha q hqm
      obtain ⟨a, e, b, rfl, ha, he⟩ := hex
      have hs : ∀ t, t ≠ .events → mergePages (fun _ => none) (keep false (a ++ e :: b)) t =
          mergePages (fun _ => none) (a ++ e :: b) t := by
        intro t ht
        rw [mergePages_none, mergePages_none, keep_streams _ _ _ ht]
        have : (∃ p ∈ keep false (a ++ e :: b), p.tag = t) ↔ ∃ p ∈ a ++ e :: b, p.tag = t := by
          rw [keep_first a b e ha he]
          constructor
          · rintro ⟨p, hpm, hpt⟩
            simp only [List.mem_append, List.mem_cons, List.mem_filter] at hpm ⊢
            exact ⟨p, by tauto, hpt⟩
          · rintro ⟨p, hpm, hpt⟩
            simp only [List.mem_append, List.mem_cons, List.mem_filter] at hpm ⊢
            have : p.tag ≠ .events := by rw [hpt]; exact ht
            refine ⟨p, ?_, hpt⟩
            rcases hpm with h | h | h
            · exact Or.inl h
            · exact Or.inr (Or.inl h)
            · exact Or.inr (Or.inr ⟨h, by simpa using this⟩)
        simp only [this]
      refine ⟨hs _ (by decide), hs _ (by decide), ?_, ?_⟩
      · rw [mergePages_none, mergePages_none, keep_first a b e ha he,
          if_pos ⟨e, by simp, he⟩, if_pos ⟨e, by simp, he⟩]
        simp
      · rw [mergePages_getD, mergePages_getD, keep_first a b e ha he]
        have hf : ∀ l : List Page, (∀ p ∈ l, p.tag ≠ .events) → streamOf .events l = [] := by
          intro l hl
          unfold streamOf
          rw [List.filter_eq_nil_iff.2]
          · rfl
          · intro p hpm; simpa using hl p hpm
        have hsplit : ∀ x y, streamOf .events (x ++ e :: y) = streamOf .events x ++ (e.body ++ streamOf .events y) := by
          intro x y; simp [streamOf, he]
        rw [hsplit, hsplit, hf a ha, hf (b.filter _) (by intro p hp; simpa using (List.mem_filter.1 hp).2)]
        simp
  · right
    refine ⟨hpan, ?_⟩
    rcases splitLoop_total rest.length rest (fun _ => none) (Nat.le_refl _) with ⟨pages, hp, rfl, -⟩ | h
    · exfalso
      rw [truncateLoop_pages pages hp _ (storeOf_length_ge pages)] at hpan
      exact hpan.elim
    · exact h

/-- **C55.** Truncating twice is truncating once. -/
theorem C55_idempotent (file out : Bytes) (h : truncate file = .ok out) : truncate out = .ok out := by
  unfold truncate at h
  cases hr : readFileHeader none "top-level" file magicTopLevel with
  | error e => rw [hr] at h; simp at h
  | ok v =>
    rw [hr] at h
    simp only at h
    split at h
    · simp at h
    next hv =>
    have h8 : 8 ≤ file.length := by
      unfold readFileHeader fileHeaderSize at hr
      split at hr
      · simp at hr
      · omega
    rcases truncateLoop_total (file.drop fileHeaderSize).length (file.drop fileHeaderSize) (file.take fileHeaderSize) false (Nat.le_refl _) with
      ⟨pages, hp, hd⟩ | hpan
    · rw [hd, truncateLoop_pages pages hp _ (storeOf_length_ge pages)] at h
      have h := Except.ok.inj h
      have hk : ∀ p ∈ keep false pages, SplitPage p := fun p hpm => hp p (keep_mem hpm)
      have hl : (file.take fileHeaderSize).length = 8 := by
        rw [List.length_take]; unfold fileHeaderSize; omega
      have h1 : out.take fileHeaderSize = file.take fileHeaderSize := by
        rw [← h]
        show List.take 8 _ = _
        rw [← hl, List.take_left]
      have h2 : out.drop fileHeaderSize = storeOf (keep false pages) := by
        rw [← h]
        show List.drop 8 _ = _
        rw [← hl, List.drop_left]
      have hr' : readFileHeader none "top-level" out magicTopLevel = .ok v := by
        unfold readFileHeader at hr ⊢
        have e4 : out.take 4 = file.take 4 := by
          have : ∀ l : Bytes, l.take 4 = (l.take 8).take 4 := fun l => by rw [List.take_take]; rfl
          rw [this out, this file]
          exact congrArg _ h1
        have e8 : out.take 8 = file.take 8 := h1
        have el : ¬ out.length < fileHeaderSize := by
          have := congrArg List.length h1
          rw [List.length_take, hl] at this
          unfold fileHeaderSize at this ⊢
          omega
        rw [if_neg el, e4, e8]
        rwa [if_neg (by unfold fileHeaderSize; omega)] at hr
      unfold truncate
      rw [hr']
      simp only
      rw [if_neg hv, h1, h2, truncateLoop_pages _ hk _ (storeOf_length_ge _), keep_keep, h]
    · rw [h] at hpan
      exact hpan.elim

/-- **C55.** Files of any other version are refused with an error that names the version (not a panic), whatever they hold; so is
every file written by the current profiler. -/
theorem C55_other_versions (b0 b1 b2 b3 : UInt8) (rest : Bytes) (v : Nat)
    (hv : v = b0.toNat + 256 * b1.toNat + 65536 * b2.toNat + 16777216 * b3.toNat) (ho : v ≠ 7 ∧ v ≠ 8) :
    truncate (utf8 "MMPD" ++ [b0, b1, b2, b3] ++ rest) = .error (.err ("File version " ++ toString v ++ " is not support")) := by
  have hr : readFileHeader none "top-level" (utf8 "MMPD" ++ [b0, b1, b2, b3] ++ rest) magicTopLevel = .ok v := by
    have hm : magicTopLevel = utf8 "MMPD" := by decide
    rw [C11_read_iff _ magicTopLevel v rfl, hm]
    exact ⟨b0, b1, b2, b3, rest, rfl, by omega⟩
  unfold truncate
  rw [hr]
  simp only
  rw [if_pos (by omega)]
  rfl

theorem C55_current_files_refused (metadata : String) (calls : List ProfCall) :
    truncate (savedFile metadata calls) = .error (.err "File version 9 is not support") := by
  have h : readFileHeader none "top-level" (savedFile metadata calls) magicTopLevel = .ok 9 := by
    unfold savedFile
    exact (C11_write_then_verify _ _ (by decide +kernel)).2.1
  unfold truncate
  rw [h]
  simp only
  rw [if_pos (by omega)]
  exact congrArg (fun s => Except.error (Fault.err s)) (by decide +kernel)

/-- A version 8 file with two event pages and two string pages. -/
def exOldFile : List Page := [⟨.stringData, [1, 2]⟩, ⟨.events, [3]⟩, ⟨.stringIndex, [4]⟩, ⟨.events, [5, 6]⟩, ⟨.stringData, [7]⟩]

example : VersionHeader 8 [0x4D, 0x4D, 0x50, 0x44, 8, 0, 0, 0] ∧ (∀ p ∈ exOldFile, Storable p) ∧
    truncate ([0x4D, 0x4D, 0x50, 0x44, 8, 0, 0, 0] ++ storeOf exOldFile) =
      .ok ([0x4D, 0x4D, 0x50, 0x44, 8, 0, 0, 0, 1, 2, 0, 0, 0, 1, 2, 0, 1, 0, 0, 0, 3, 2, 1, 0, 0, 0, 4, 1, 1, 0, 0, 0, 7]) := by
  refine ⟨rfl, ?_, by decide +kernel⟩
  intro p hp
  simp only [exOldFile, List.mem_cons, List.not_mem_nil, or_false] at hp
  rcases hp with rfl | rfl | rfl | rfl | rfl <;> exact ⟨by decide, by decide⟩

end Verif.Props
