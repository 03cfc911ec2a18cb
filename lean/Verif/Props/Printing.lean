import Verif.Proofs.Printing
import Verif.Proofs.Decimal
import Verif.Props.Diff
import Verif.Props.Summarize
import Mathlib.Data.List.Forall2
import Mathlib.Tactic.FieldSimp
import Mathlib.Tactic.Linarith
import Mathlib.Algebra.Order.AbsoluteValue.Basic
import Mathlib.Tactic.Push

/-! # C74: the numbers in the tables that are printed -/

namespace Verif.Props

open Verif Verif.Mm Verif.Analyze Verif.Diff Verif.Spec Verif.Proofs Verif.Print Verif.Summarize

/-! ## Durations -/

/-- **C74.** A duration printed without a precision, as the total is, is read back exactly, whatever it is. -/
theorem C74_durations_exact (n : Nat) : readDuration (durationDebug none n) = some (n : ℚ) := by
  have gen : ∀ {unit : Bytes} {J : Nat}, UnitPower unit J → ∀ int frac div, frac < 10 ^ J → (J = 0 ∨ div = 10 ^ (J - 1)) →
      int * 10 ^ J + frac = n → durationDebug none n = fmtDecimal none int frac div unit → readDuration (durationDebug none n) = some (n : ℚ) := by
    intro unit J hu int frac div hf hd hn he
    rw [he, fmt_exact hu int frac div hf hd, hn]
  by_cases g1 : n ≥ 1000000000
  · refine gen (J := 9) (unit := utf8 "s") (by simp [UnitPower]) (n / 1000000000) (n % 1000000000) 100000000 (by omega) (by decide) (by omega) ?_
    unfold durationDebug; rw [if_pos g1]
  · by_cases g2 : n ≥ 1000000
    · refine gen (J := 6) (unit := utf8 "ms") (by simp [UnitPower]) (n / 1000000) (n % 1000000) 100000 (by omega) (by decide) (by omega) ?_
      unfold durationDebug; rw [if_neg g1, if_pos g2]
    · by_cases g3 : n ≥ 1000
      · refine gen (J := 3) (unit := utf8 "µs") (by simp [UnitPower]) (n / 1000) (n % 1000) 100 (by omega) (by decide) (by omega) ?_
        unfold durationDebug; rw [if_neg g1, if_neg g2, if_pos g3]
      · refine gen (J := 0) (unit := utf8 "ns") (by simp [UnitPower]) n 0 1 (by decide) (by decide) (by omega) ?_
        unfold durationDebug; rw [if_neg g1, if_neg g2, if_neg g3]

example : durationDebug none 1234567890 = utf8 "1.23456789s" ∧ durationDebug none 1500 = utf8 "1.5µs" ∧ durationDebug none 0 = utf8 "0ns" := by
  decide +kernel

theorem two_decimals (n : Nat) :
    ∃ N : Nat, readDuration (durationDebug (some 2) n) = some ((N : ℚ) / 100 * shownUnit n) ∧
      2 * (N * shownUnit n) ≤ 2 * (n * 100) + shownUnit n ∧ 2 * (n * 100) ≤ 2 * (N * shownUnit n) + shownUnit n ∧
      (2 * (N * shownUnit n) = 2 * (n * 100) + shownUnit n ∨ 2 * (n * 100) = 2 * (N * shownUnit n) + shownUnit n → N % 2 = 0) := by
  have gen : ∀ {unit : Bytes} {J : Nat}, UnitPower unit J → ∀ int frac div, frac < 10 ^ J → (J = 0 ∨ div = 10 ^ (J - 1)) →
      int * 10 ^ J + frac = n → shownUnit n = 10 ^ J → durationDebug (some 2) n = fmtDecimal (some 2) int frac div unit →
      ∃ N : Nat, readDuration (durationDebug (some 2) n) = some ((N : ℚ) / 100 * shownUnit n) ∧
      2 * (N * shownUnit n) ≤ 2 * (n * 100) + shownUnit n ∧ 2 * (n * 100) ≤ 2 * (N * shownUnit n) + shownUnit n ∧
      (2 * (N * shownUnit n) = 2 * (n * 100) + shownUnit n ∨ 2 * (n * 100) = 2 * (N * shownUnit n) + shownUnit n → N % 2 = 0) := by
    intro unit J hu int frac div hf hd hn hs he
    obtain ⟨N, h1, h2, h3, h4⟩ := fmt_rounded hu 2 (by decide) int frac div hf hd
    have e100 : (10 : Nat) ^ 2 = 100 := rfl
    have e100' : (10 : ℚ) ^ 2 = 100 := by norm_num
    rw [hn, e100] at h2 h3 h4
    rw [e100'] at h1
    rw [hs]
    refine ⟨N, ?_, h2, h3, h4⟩
    rw [he, h1]
    push_cast
    rfl
  by_cases g1 : n ≥ 1000000000
  · refine gen (J := 9) (unit := utf8 "s") (by simp [UnitPower]) (n / 1000000000) (n % 1000000000) 100000000 (by omega) (by decide)
      (by omega) (by unfold shownUnit; rw [if_neg (by omega), if_neg (by omega), if_neg (by omega)]; norm_num) ?_
    unfold durationDebug; rw [if_pos g1]
  · by_cases g2 : n ≥ 1000000
    · refine gen (J := 6) (unit := utf8 "ms") (by simp [UnitPower]) (n / 1000000) (n % 1000000) 100000 (by omega) (by decide)
        (by omega) (by unfold shownUnit; rw [if_neg (by omega), if_neg (by omega), if_pos (by omega)]; norm_num) ?_
      unfold durationDebug; rw [if_neg g1, if_pos g2]
    · by_cases g3 : n ≥ 1000
      · refine gen (J := 3) (unit := utf8 "µs") (by simp [UnitPower]) (n / 1000) (n % 1000) 100 (by omega) (by decide)
          (by omega) (by unfold shownUnit; rw [if_neg (by omega), if_pos (by omega)]; norm_num) ?_
        unfold durationDebug; rw [if_neg g1, if_neg g2, if_pos g3]
      · refine gen (J := 0) (unit := utf8 "ns") (by simp [UnitPower]) n 0 1 (by decide) (by decide)
          (by omega) (by unfold shownUnit; rw [if_pos (by omega)]; norm_num) ?_
        unfold durationDebug; rw [if_neg g1, if_neg g2, if_neg g3]

theorem shownUnit_pos (n : Nat) : 0 < shownUnit n := by unfold shownUnit; split_ifs <;> decide

/-- **C74.** A duration in the table is shown with two decimals of the largest unit not longer than it, and what is read is the nearest such
number to the duration; of two equally near, the even one. -/
theorem C74_two_decimals (n : Nat) :
    ∃ hundredths : Nat, readDuration (durationDebug (some 2) n) = some ((hundredths : ℚ) / 100 * shownUnit n) ∧
      |(hundredths : ℚ) / 100 * shownUnit n - n| ≤ (shownUnit n : ℚ) / 200 ∧
      (|(hundredths : ℚ) / 100 * shownUnit n - n| = (shownUnit n : ℚ) / 200 → hundredths % 2 = 0) := by
  obtain ⟨N, h1, h2, h3, h4⟩ := two_decimals n
  have hp := shownUnit_pos n
  have h2' : 2 * ((N : ℚ) * shownUnit n) ≤ 2 * (n * 100) + shownUnit n := by exact_mod_cast h2
  have h3' : 2 * ((n : ℚ) * 100) ≤ 2 * (N * shownUnit n) + shownUnit n := by exact_mod_cast h3
  refine ⟨N, h1, ?_, ?_⟩
  · rw [abs_le]
    constructor <;> linarith
  · intro h
    apply h4
    rcases abs_cases ((N : ℚ) / 100 * shownUnit n - n) with ⟨e, _⟩ | ⟨e, _⟩
    · left
      rw [e] at h
      have : 2 * ((N : ℚ) * shownUnit n) = 2 * (n * 100) + shownUnit n := by linarith
      exact_mod_cast this
    · right
      rw [e] at h
      have : 2 * ((n : ℚ) * 100) = 2 * (N * shownUnit n) + shownUnit n := by linarith
      exact_mod_cast this

example : durationDebug (some 2) 1234567890 = utf8 "1.23s" ∧ durationDebug (some 2) 999999 = utf8 "1000.00µs" ∧
    durationDebug (some 2) 1005 = utf8 "1.00µs" ∧ durationDebug (some 2) 1015 = utf8 "1.02µs" ∧ durationDebug (some 2) 7 = utf8 "7.00ns" ∧
    durationDebug (some 2) 59999999999 = utf8 "60.00s" := by
  decide +kernel

theorem shownUnit_cases (n : Nat) :
    (shownUnit n = 1 ∧ n < 1000) ∨ (shownUnit n = 1000 ∧ 1000 ≤ n ∧ n < 1000000) ∨
    (shownUnit n = 1000000 ∧ 1000000 ≤ n ∧ n < 1000000000) ∨ (shownUnit n = 1000000000 ∧ 1000000000 ≤ n) := by
  unfold shownUnit
  split_ifs <;> omega

/-- **C74.** Rounding keeps the order: a row with less time never shows more. -/
theorem C74_order (a b : Nat) (h : a ≤ b) :
    ∃ p q : ℚ, readDuration (durationDebug (some 2) a) = some p ∧ readDuration (durationDebug (some 2) b) = some q ∧ p ≤ q := by
  obtain ⟨N, n1, n2, n3, n4⟩ := two_decimals a
  obtain ⟨M, m1, m2, m3, m4⟩ := two_decimals b
  refine ⟨_, _, n1, m1, ?_⟩
  have key : N * shownUnit a ≤ M * shownUnit b := by
    rcases shownUnit_cases a with ⟨ea, ha⟩ | ⟨ea, ha, ha'⟩ | ⟨ea, ha, ha'⟩ | ⟨ea, ha⟩ <;>
      rcases shownUnit_cases b with ⟨eb, hb⟩ | ⟨eb, hb, hb'⟩ | ⟨eb, hb, hb'⟩ | ⟨eb, hb⟩ <;>
      rw [ea] at n2 n3 n4 ⊢ <;> rw [eb] at m2 m3 m4 ⊢ <;> omega
  have key' : (N : ℚ) * shownUnit a ≤ M * shownUnit b := by exact_mod_cast key
  linarith

example : durationDebug (some 2) 999994 = utf8 "999.99µs" ∧ durationDebug (some 2) 999999 = utf8 "1000.00µs" ∧
    durationDebug (some 2) 1000000 = utf8 "1.00ms" := by decide +kernel

/-! ## Whole numbers and signs -/

theorem readSigned_signedDebug (p : Option Nat) (d : SignedDuration) : readSigned (signedDebug p d) = some ((signed d : Int) : ℚ) := by
  have e1 : utf8 "+" = [0x2B] := by decide +kernel
  have e2 : utf8 "-" = [0x2D] := by decide +kernel
  unfold signedDebug signed
  cases hd : d.isPositive with
  | true =>
    rw [if_pos rfl, e1]
    simp only [List.singleton_append, readSigned, C74_durations_exact, if_true]
    rfl
  | false =>
    rw [if_neg (by decide), e2]
    simp only [List.singleton_append, readSigned, C74_durations_exact, Option.map_some]
    congr 1

theorem readInt_decimal (n : Nat) : readInt (utf8 (decimal n)) = some (n : Int) ∧
    readInt (0x2B :: utf8 (decimal n)) = some (n : Int) ∧ readInt (0x2D :: utf8 (decimal n)) = some (-(n : Int)) := by
  obtain ⟨h1, h2, h3⟩ := decimal_numerals n
  have hall : (utf8 (decimal n)).all isNumeral = true := List.all_eq_true.2 h1
  generalize utf8 (decimal n) = t at *
  refine ⟨?_, ?_, ?_⟩
  · cases t with
    | nil => exact absurd rfl h3
    | cons b t =>
      have hb := h1 b (by simp)
      have b1 : b ≠ 0x2B := by rintro rfl; revert hb; decide
      have b2 : b ≠ 0x2D := by rintro rfl; revert hb; decide
      unfold readInt
      simp only [b1, b2, hall, List.cons.injEq, false_and, imp_self, implies_true]
      simp [h2]
  · unfold readInt
    simp only
    rw [if_neg (by simp [hall, h3]), h2]
    rfl
  · unfold readInt
    simp only
    rw [if_neg (by simp [hall, h3]), h2]

theorem readInt_intText (n : Int) : readInt (intText n) = some n := by
  have e2 : utf8 "-" = [0x2D] := by decide +kernel
  unfold intText
  split
  · rw [e2, List.singleton_append, (readInt_decimal _).2.2]
    congr 1; omega
  · rw [(readInt_decimal _).1]
    congr 1; omega

theorem readInt_plusText (n : Int) : readInt (plusText n) = some n := by
  have e1 : utf8 "+" = [0x2B] := by decide +kernel
  have e2 : utf8 "-" = [0x2D] := by decide +kernel
  unfold plusText
  split
  · rw [e2, List.singleton_append, (readInt_decimal _).2.2]
    congr 1; omega
  · rw [e1, List.singleton_append, (readInt_decimal _).2.1]
    congr 1; omega

end Verif.Props

namespace Verif.Spec

open Verif Verif.Mm Verif.Analyze Verif.Diff Verif.Summarize

/-- The text of a cell shows a value: durations up to half a hundredth of their unit, everything else exactly. -/
def CellShows {F : Type} (pct : F → Bytes) : Cell F → Bytes → Prop
  | .text b, t => t = b
  | .duration n, t => ∃ q, readDuration t = some q ∧ |q - n| ≤ (shownUnit n : ℚ) / 200
  | .percent x, t => t = pct x
  | .count n, t => readInt t = some (n : Int)

/-- A row of `summarize diff` shows the differences of an item. -/
structure RowShows (base change : List (Bytes × QueryData)) (l : Bytes) (row : List Bytes) : Prop where
  cells : ∃ selfTime selfPct time timePct count hits blocked load hashing : Bytes,
    row = [l, selfTime, selfPct ++ utf8 "%", time, timePct ++ utf8 "%", count, hits, blocked, load, hashing] ∧
    readSigned selfTime = some ((delta (·.selfTime) l base change : Int) : ℚ) ∧
    readSigned time = some ((delta (·.time) l base change : Int) : ℚ) ∧
    readInt count = some (delta (·.invocationCount) l base change) ∧
    readInt hits = some (delta (·.numberOfCacheHits) l base change) ∧
    readSigned blocked = some ((delta (·.blockedTime) l base change : Int) : ℚ) ∧
    readSigned load = some ((delta (·.incrementalLoadTime) l base change : Int) : ℚ) ∧
    readSigned hashing = some ((delta (·.incrementalHashingTime) l base change : Int) : ℚ)

end Verif.Spec

namespace Verif.Props

open Verif Verif.Mm Verif.Analyze Verif.Diff Verif.Spec Verif.Proofs Verif.Print Verif.Summarize

/-! ## `summarize summarize` -/

/-- **C74.** What `summarize` prints: first the titles, then one row for every item not below the limit, by decreasing self time, showing
under every title the value it promises; the total exactly; the sizes of the artifacts exactly. -/
theorem C74_summarize {F : Type} (fl : Float64 F) (hm : Monotone fl) (pct : F → Bytes) (above : F) (r : Results) (o : Output F)
    (h : summarize fl above r = some o) :
    (∃ shown : List (Bytes × QueryData), shown.Perm (r.queryData.filter fun x => !fl.lt (fl.percent x.2.selfTime r.totalTime) above) ∧
      shown.Pairwise (fun l r => r.2.selfTime ≤ l.2.selfTime) ∧
      ∃ rows, (summaryPrinted pct o).1 = o.titles :: rows ∧
        List.Forall₂ (fun x row => List.Forall₂ (fun title t => CellShows pct (cellFor fl r.totalTime x title) t) o.titles row) shown rows) ∧
    (∃ t rest, (summaryPrinted pct o).2.1 = (utf8 "Total cpu time: " ++ t) :: rest ∧ readDuration t = some (r.totalTime : ℚ)) ∧
    (∃ rows, (summaryPrinted pct o).2.2 = [utf8 "Item", utf8 "Artifact Size"] :: rows ∧
      List.Forall₂ (fun a row => ∃ n, row = [a.1, n ++ utf8 " bytes"] ∧ readInt n = some (a.2 : Int)) r.artifactSizes rows) := by
  obtain ⟨shown, h1, h2, h3, -, h5, h6⟩ := C54_rows fl hm above r o h
  have cell : ∀ c : Cell F, CellShows pct c (cellText pct c) := by
    intro c
    cases c with
    | text b => rfl
    | duration n =>
      obtain ⟨N, e1, e2, -⟩ := C74_two_decimals n
      exact ⟨_, e1, e2⟩
    | percent x => rfl
    | count n => exact (readInt_decimal n).1
  refine ⟨⟨shown, h1, h2, _, rfl, ?_⟩, ⟨_, _, rfl, ?_⟩, ⟨_, rfl, ?_⟩⟩
  · rw [h3, List.map_map, List.forall₂_map_right_iff, List.forall₂_same]
    intro x _
    rw [Function.comp, List.map_map, List.forall₂_map_right_iff, List.forall₂_same]
    intro title _
    exact cell _
  · rw [h5]; exact C74_durations_exact _
  · rw [h6, List.forall₂_map_right_iff, List.forall₂_same]
    intro a _
    exact ⟨_, rfl, (readInt_decimal a.2).1⟩

example : (summarize exactPercent 20 exResults).map (fun o => (summaryPrinted (fun _ => utf8 "?") o).1) =
    some [[utf8 "Item", utf8 "Self time", utf8 "% of total time", utf8 "Time", utf8 "Item count", utf8 "Cache hits"],
      [utf8 "b", utf8 "7.00ns", utf8 "?", utf8 "7.00ns", utf8 "4", utf8 "3"],
      [utf8 "a", utf8 "2.00ns", utf8 "?", utf8 "9.00ns", utf8 "1", utf8 "0"]] := by decide +kernel

/-! ## `summarize diff` -/

/-- **C74.** What `summarize diff` prints for any two results of modest size: ten titles; exactly one row for every label of either that contains
no excluded text, from which the differences of times, counts and hits are read back exactly; the difference of the totals; one row for
every artifact, from which the difference of sizes is read back exactly. -/
theorem C74_diff (checks : Bool) (order : List Bytes → List Bytes) (ho : ∀ l, (order l).Perm l) (base change : Results)
    (hb : Modest base) (hc : Modest change) (pct : Change → Bytes) (exclude : List Bytes) :
    ∃ r, calculateDiff checks order base change = .ok r ∧
      (∃ (labels : List Bytes) (rows : List (List Bytes)), (diffPrinted pct exclude r).1 =
          [utf8 "Item", utf8 "Self Time", utf8 "Self Time Change", utf8 "Time", utf8 "Time Change", utf8 "Item count", utf8 "Cache hits",
            utf8 "Blocked time", utf8 "Incremental load time", utf8 "Incremental hashing time"] :: rows ∧
        labels.Nodup ∧
        (∀ l, l ∈ labels ↔ (l ∈ base.queryData.map (·.1) ∨ l ∈ change.queryData.map (·.1)) ∧ ∀ e ∈ exclude, ¬ e <:+: l) ∧
        labels.Pairwise (fun a b => (delta (·.selfTime) b base.queryData change.queryData).natAbs ≤
          (delta (·.selfTime) a base.queryData change.queryData).natAbs) ∧
        List.Forall₂ (RowShows base.queryData change.queryData) labels rows) ∧
      (∃ t, (diffPrinted pct exclude r).2.1 = utf8 "Total cpu time: " ++ t ∧
        readSigned t = some ((change.totalTime : ℚ) - base.totalTime)) ∧
      (∃ (labels : List Bytes) (rows : List (List Bytes)), (diffPrinted pct exclude r).2.2 = [utf8 "Item", utf8 "Artifact Size Change"] :: rows ∧
        labels.Nodup ∧
        (∀ l, l ∈ labels ↔ (l ∈ base.artifactSizes.map (·.1) ∨ l ∈ change.artifactSizes.map (·.1)) ∧ ∀ e ∈ exclude, ¬ e <:+: l) ∧
        List.Forall₂ (fun l row => ∃ n, row = [l, n ++ utf8 " bytes"] ∧
          readInt n = some (delta id l base.artifactSizes change.artifactSizes)) labels rows) := by
  obtain ⟨r, h1, h2⟩ := C50_difference checks order ho base change hb hc
  obtain ⟨e1, e2⟩ := C60_excluded exclude r
  have s1 : (shownRows exclude r).1.Sublist r.queryData := by rw [e1]; exact List.filter_sublist
  have s2 : (shownRows exclude r).2.Sublist r.artifactSizes := by rw [e2]; exact List.filter_sublist
  have s3 : ∀ q, q ∈ (shownRows exclude r).1 ↔ q ∈ r.queryData ∧ ∀ e ∈ exclude, ¬ e <:+: q.label := by
    intro q; rw [e1, List.mem_filter, decide_eq_true_eq]
  have s4 : ∀ a, a ∈ (shownRows exclude r).2 ↔ a ∈ r.artifactSizes ∧ ∀ e ∈ exclude, ¬ e <:+: a.label := by
    intro a; rw [e2, List.mem_filter, decide_eq_true_eq]
  refine ⟨r, h1, ⟨(shownRows exclude r).1.map (·.label), _, rfl, h2.distinct.sublist (s1.map _), ?_, ?_, ?_⟩, ⟨_, rfl, ?_⟩,
    ⟨(shownRows exclude r).2.map (·.label), _, rfl, h2.artifactsDistinct.sublist (s2.map _), ?_, ?_⟩⟩
  · intro l
    rw [← h2.labels]
    simp only [List.mem_map, s3]
    constructor
    · rintro ⟨q, ⟨hq, he⟩, rfl⟩
      exact ⟨⟨q, hq, rfl⟩, he⟩
    · rintro ⟨⟨q, hq, rfl⟩, he⟩
      exact ⟨q, ⟨hq, he⟩, rfl⟩
  · rw [List.pairwise_map]
    refine (h2.sorted.sublist s1).imp_of_mem ?_
    intro a b ha hb' hab
    rw [← (h2.rows a (s1.subset ha)).selfTime, ← (h2.rows b (s1.subset hb')).selfTime]
    exact hab
  · rw [List.forall₂_map_right_iff, List.forall₂_map_left_iff, List.forall₂_same]
    intro q hq
    have g := h2.rows q (s1.subset hq)
    refine ⟨⟨_, _, _, _, _, _, _, _, _, rfl, ?_, ?_, ?_, ?_, ?_, ?_, ?_⟩⟩
    · rw [readSigned_signedDebug, g.selfTime]
    · rw [readSigned_signedDebug, g.time]
    · rw [readInt_plusText, g.count]
    · rw [readInt_plusText, g.hits]
    · rw [readSigned_signedDebug, g.blocked]
    · rw [readSigned_signedDebug, g.load]
    · rw [readSigned_signedDebug, g.hashing]
  · rw [readSigned_signedDebug, h2.total]
    push_cast
    rfl
  · intro l
    rw [← h2.artifactLabels]
    simp only [List.mem_map, s4]
    constructor
    · rintro ⟨q, ⟨hq, he⟩, rfl⟩
      exact ⟨⟨q, hq, rfl⟩, he⟩
    · rintro ⟨⟨q, hq, rfl⟩, he⟩
      exact ⟨q, ⟨hq, he⟩, rfl⟩
  · rw [List.forall₂_map_right_iff, List.forall₂_map_left_iff, List.forall₂_same]
    intro a ha
    exact ⟨_, rfl, by rw [readInt_intText, h2.artifacts a (s2.subset ha)]⟩

/-- **C74** (how whole numbers look): decimal, without leading zeros; the changes of counts always with a sign, a change of nothing being "+0"; the changes of sizes with
a sign only if they are negative. -/
theorem C74_whole_numbers :
    (∀ (pct : Change → Bytes) (q : QueryDataDiff), (diffRow pct q)[5]? = some (utf8 (if 0 ≤ q.invocationCount then "+" ++ toString q.invocationCount else toString q.invocationCount)) ∧
      (diffRow pct q)[6]? = some (utf8 (if 0 ≤ q.numberOfCacheHits then "+" ++ toString q.numberOfCacheHits else toString q.numberOfCacheHits))) ∧
    (∀ a : ArtifactSizeDiff, diffArtifactRow a = [a.label, utf8 (toString a.sizeChange ++ " bytes")]) ∧
    (∀ (F : Type) (pct : F → Bytes) (n : Nat), cellText pct (.count n) = utf8 (toString n)) := by
  have hneg : ∀ n : Int, n < 0 → toString n = "-" ++ toString n.natAbs := by
    intro n hn
    obtain ⟨m, rfl⟩ : ∃ m : Nat, n = Int.negSucc m := ⟨n.natAbs - 1, by omega⟩
    rfl
  have hpos : ∀ n : Int, 0 ≤ n → toString n = toString n.natAbs := by
    intro n hn
    obtain ⟨m, rfl⟩ : ∃ m : Nat, n = Int.ofNat m := ⟨n.toNat, by simp; omega⟩
    rfl
  have hp : ∀ n : Int, plusText n = utf8 (if 0 ≤ n then "+" ++ toString n else toString n) := by
    intro n
    unfold plusText
    by_cases hn : n < 0
    · rw [if_pos hn, if_neg (by omega), hneg n hn, utf8_append, decimal_eq_toString]
    · rw [if_neg hn, if_pos (by omega), hpos n (by omega), utf8_append, decimal_eq_toString]
  have hi : ∀ n : Int, intText n = utf8 (toString n) := by
    intro n
    unfold intText
    by_cases hn : n < 0
    · rw [if_pos hn, hneg n hn, utf8_append, decimal_eq_toString]
    · rw [if_neg hn, hpos n (by omega), decimal_eq_toString]
  refine ⟨fun pct q => ⟨?_, ?_⟩, fun a => ?_, fun F pct n => ?_⟩
  · rw [← hp]; rfl
  · rw [← hp]; rfl
  · rw [utf8_append, ← hi]; rfl
  · rw [← decimal_eq_toString]; rfl

example : plusText 0 = utf8 "+0" ∧ plusText (-70) = utf8 "-70" ∧ intText 0 = utf8 "0" ∧ intText 1050 = utf8 "1050" ∧ intText (-3) = utf8 "-3" := by
  decide +kernel

/-- **C74.** The precision asked for in `summarize diff` has no effect: a change of one second and one nanosecond is shown with nine decimals,
where `summarize` shows two. -/
theorem C74_precision_ignored (p : Option Nat) :
    signedDebug p ⟨1000000001, true⟩ = utf8 "+1.000000001s" ∧ durationDebug (some 2) 1000000001 = utf8 "1.00s" := by
  have : signedDebug p ⟨1000000001, true⟩ = signedDebug none ⟨1000000001, true⟩ := rfl
  rw [this]
  decide +kernel

example : (calculateDiff true List.reverse exBase exChange).map (fun r => diffPrinted (fun _ => utf8 "?") [utf8 "ne"] r) =
    .ok ([diffTitles, [utf8 "a", utf8 "-15ns", utf8 "?%", utf8 "-10ns", utf8 "?%", utf8 "+1", utf8 "+0", utf8 "+0ns", utf8 "+0ns", utf8 "+0ns"]],
      utf8 "Total cpu time: +10ns", [[utf8 "Item", utf8 "Artifact Size Change"], [utf8 "o", utf8 "20 bytes"], [utf8 "p", utf8 "1 bytes"]]) := by
  decide +kernel

end Verif.Props
