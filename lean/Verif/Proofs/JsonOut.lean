import Verif.Model.JsonOut
import Verif.Proofs.JsonText
import Mathlib.Data.List.Forall2

/-!
# What the JSON writer writes is JSON and says what it was given
-/

namespace Verif.Json

open Verif Verif.Mm Verif.Spec Verif.Analyze

/-! ## Strings and numbers -/

theorem control_escape : ∀ n, n < 32 → hexNum 0x30 0x30 (hexOut (n / 16)) (hexOut (n % 16)) = some n ∧
    String.utf8EncodeChar (Char.ofNat n) = [UInt8.ofNat n] := by decide

theorem escapeByte_chars (b : UInt8) {t s : Bytes} (h : JsonChars t s) : JsonChars (escapeByte b ++ t) (b :: s) := by
  unfold escapeByte
  split
  · rename_i hb; subst hb; exact .escape (by decide) h
  split
  · rename_i hb; subst hb; exact .escape (by decide) h
  split
  · rename_i hb; subst hb; exact .escape (by decide) h
  split
  · rename_i hb; subst hb; exact .escape (by decide) h
  split
  · rename_i hb; subst hb; exact .escape (by decide) h
  split
  · rename_i hb; subst hb; exact .escape (by decide) h
  split
  · rename_i hb; subst hb; exact .escape (by decide) h
  rename_i h1 h2 _ _ _ _ _
  split
  · rename_i hb
    have hn : b.toNat < 32 := by
      rw [UInt8.lt_iff_toNat_lt] at hb
      exact hb
    obtain ⟨e1, e2⟩ := control_escape _ hn
    have := JsonChars.unicode ((hexNum_iff _ _ _ _ _).mp e1) (by omega) h
    rw [e2, UInt8.ofNat_toNat] at this
    exact this
  · rename_i hb
    exact .plain (by assumption) (by assumption) (by simpa using hb) h

theorem quote_chars (s : Bytes) : JsonChars (s.flatMap escapeByte) s := by
  induction s with
  | nil => exact .done
  | cons b s ih => rw [List.flatMap_cons]; exact escapeByte_chars b ih

theorem decimal_number (n : Nat) : JsonNumber (utf8 (decimal n)) (.num n) := by
  have hd : Digits (utf8 (decimal n)) := by
    rw [utf8_decimal]
    exact ⟨dig_ne _ _, fun c hc => (isDigit_iff c).mp (isDigit_dig _ _ c hc)⟩
  have hi : JsonInt (utf8 (decimal n)) := by
    refine ⟨hd, ?_⟩
    rw [utf8_decimal]
    by_cases h : (dig (n + 1) n).head? = some 0x30
    · left
      rw [dig_head _ _ (by omega) h]
      rfl
    · exact .inr h
  have := JsonNumber.plain hi
  rw [← digitsValue_numeral, utf8_decimal, digitsValue_dig _ _ (by omega)] at this
  rw [utf8_decimal]
  exact this

/-! ## Values -/

/-- Values whose numbers are numbers. -/
inductive Writable : Value → Prop
  | null : Writable .null
  | bool (b : Bool) : Writable (.bool b)
  | num (n : Nat) : Writable (.num n)
  | real {t : Bytes} : JsonNumber t (.real t) → Writable (.real t)
  | str (s : Bytes) : Writable (.str s)
  | arr {vs : List Value} : (∀ v ∈ vs, Writable v) → Writable (.arr vs)
  | obj {fs : List (Bytes × Value)} : (∀ f ∈ fs, Writable f.2) → Writable (.obj fs)

theorem renderElems_text (v : Value) (vs : List Value) (h : ∀ x ∈ v :: vs, JsonText (render x) x) : JsonElems (renderElems (v :: vs)) (v :: vs) := by
  induction vs generalizing v with
  | nil =>
    have := JsonElems.one JsonWs.nil (h v (by simp)) JsonWs.nil
    simpa [renderElems] using this
  | cons w vs ih =>
    have := JsonElems.more JsonWs.nil (h v (by simp)) JsonWs.nil (ih w fun x hx => h x (by simp [hx]))
    simpa [renderElems] using this

theorem renderMembers_text (g : Bytes × Value) (fs : List (Bytes × Value)) (h : ∀ x ∈ g :: fs, JsonText (render x.2) x.2) :
    JsonMembers (renderMembers (g :: fs)) (g :: fs) := by
  induction fs generalizing g with
  | nil =>
    obtain ⟨k, v⟩ := g
    have := JsonMembers.one JsonWs.nil (quote_chars k) JsonWs.nil JsonWs.nil (h (k, v) (by simp)) JsonWs.nil
    simpa [renderMembers, quote] using this
  | cons w fs ih =>
    obtain ⟨k, v⟩ := g
    have := JsonMembers.more JsonWs.nil (quote_chars k) JsonWs.nil JsonWs.nil (h (k, v) (by simp)) JsonWs.nil (ih w fun x hx => h x (by simp [hx]))
    simpa [renderMembers, quote] using this

theorem render_text {v : Value} (h : Writable v) : JsonText (render v) v := by
  induction h with
  | null => exact .null
  | bool b => cases b; exacts [.false, .true]
  | num n => rw [render]; exact .number (decimal_number n)
  | real h => rw [render]; exact .number h
  | str s => rw [render]; exact .string (quote_chars s)
  | @arr vs _ ih =>
    rw [render]
    cases vs with
    | nil => exact .emptyArr JsonWs.nil
    | cons v vs => exact .arr (renderElems_text v vs ih)
  | @obj fs _ ih =>
    rw [render]
    cases fs with
    | nil => exact .emptyObj JsonWs.nil
    | cons v vs => exact .obj (renderMembers_text v vs ih)

theorem render_document {v : Value} (h : Writable v) : JsonDocument (render v) v :=
  ⟨[], render v, [], by simp, JsonWs.nil, JsonWs.nil, render_text h⟩

/-! ## A file without its closing bracket -/

theorem renderElems_last (vs : List Value) (h : ∀ v ∈ vs, ∃ fs, v = .obj fs) : (0x5B :: renderElems vs).getLast? = some 0x5B ∨
    (0x5B :: renderElems vs).getLast? = some 0x7D := by
  cases vs with
  | nil => exact .inl rfl
  | cons v vs =>
    right
    have key : ∀ (vs : List Value) (v : Value), (∀ x ∈ v :: vs, ∃ fs, x = .obj fs) → ∃ r, renderElems (v :: vs) = r ++ [0x7D] := by
      intro vs
      induction vs with
      | nil =>
        intro v hv
        obtain ⟨fs, rfl⟩ := hv v (by simp)
        exact ⟨0x7B :: renderMembers fs, by simp [renderElems, render]⟩
      | cons w vs ih =>
        intro v hv
        obtain ⟨r, hr⟩ := ih w fun x hx => hv x (by simp [hx])
        exact ⟨render v ++ 0x2C :: r, by rw [renderElems, hr]; simp⟩
    obtain ⟨r, hr⟩ := key vs v h
    rw [hr, ← List.cons_append, List.getLast?_append]
    rfl

theorem document_last {r : Bytes} {v : Value} (h : JsonDocument (0x5B :: r) v) :
    ∃ c, (0x5B :: r).getLast? = some c ∧ (c = 0x5D ∨ isWs c = true) := by
  obtain ⟨w, t, w', e, hw, hw', ht⟩ := h
  have hw0 : w = [] := by
    cases w with
    | nil => rfl
    | cons c w =>
      cases e
      exact absurd (hw 0x5B (by simp)) (by decide)
  subst hw0
  rw [List.nil_append] at e
  obtain ⟨c, t', e', _⟩ := text_head ht
  have hc : c = 0x5B := by
    rw [e'] at e
    cases e
    rfl
  subst hc
  have hlast : ∃ q, t = q ++ [0x5D] := by
    cases ht with
    | null => cases e'
    | true => cases e'
    | false => cases e'
    | string _ => cases e'
    | emptyObj _ => cases e'
    | obj _ => cases e'
    | @emptyArr u _ => exact ⟨0x5B :: u, by simp⟩
    | @arr m vs _ => exact ⟨0x5B :: m, by simp⟩
    | number hn =>
      obtain ⟨c, r', e'', hc⟩ := number_head hn
      rw [e'] at e''
      cases e''
      exact absurd hc (by decide)
  obtain ⟨q, rfl⟩ := hlast
  rw [e]
  induction w' using List.reverseRecOn with
  | nil => exact ⟨0x5D, by simp, .inl rfl⟩
  | append_singleton A c _ =>
    exact ⟨c, by rw [← List.append_assoc, List.getLast?_append]; rfl, .inr ((isWs_iff c).mpr (hw' c (by simp)))⟩

theorem unclosed_not_json (vs : List Value) (h : ∀ v ∈ vs, ∃ fs, v = .obj fs) (v : Value) : ¬ JsonDocument (0x5B :: renderElems vs) v := by
  intro hd
  obtain ⟨c, hc, hc'⟩ := document_last hd
  rcases renderElems_last vs h with h' | h' <;> rw [h'] at hc <;> cases hc <;> exact absurd hc' (by decide)

/-! ## Reading the results back -/

theorem filter_key (fs : List (Bytes × Value)) (hn : (fs.map (·.1)).Nodup) (f : Bytes × Value) (hf : f ∈ fs) : fieldValues f.1 fs = [f.2] := by
  unfold fieldValues
  induction fs with
  | nil => cases hf
  | cons g fs ih =>
    rw [List.map_cons, List.nodup_cons] at hn
    rcases List.mem_cons.mp hf with rfl | hf'
    · rw [List.filter_cons_of_pos (by simp), List.map_cons]
      have : fs.filter (fun x => decide (x.1 = f.1)) = [] := by
        rw [List.filter_eq_nil_iff]
        intro x hx hc
        exact hn.1 (List.mem_map.mpr ⟨x, hx, by simpa using hc⟩)
      rw [this]
      rfl
    · have hne : g.1 ≠ f.1 := fun hc => hn.1 (hc ▸ List.mem_map.mpr ⟨f, hf', rfl⟩)
      rw [List.filter_cons_of_neg (by simpa using hne)]
      exact ih hn.2 hf'

theorem mapM_of_pairs {α β : Type} {f : α → Option β} (l : List (α × β)) (h : ∀ x ∈ l, f x.1 = some x.2) : (l.map (·.1)).mapM f = some (l.map (·.2)) := by
  induction l with
  | nil => rfl
  | cons x l ih =>
    rw [List.map_cons, List.mapM_cons, h x (by simp), ih fun y hy => h y (by simp [hy])]
    rfl

/-- A struct written member by member is read back. -/
theorem structOf_written (fs : List (Bytes × Value)) (hn : (fs.map (·.1)).Nodup) (hv : ∀ n ∈ fs.map (·.1), validUtf8 n = true) :
    structOf (fs.map (·.1)) (.obj fs) = some (fs.map (·.2)) := by
  rw [structOf, if_pos]
  · apply mapM_of_pairs
    intro x hx
    rw [filter_key fs hn x hx]
  · rw [List.all_eq_true]
    exact fun f hf => hv f.1 (List.mem_map.mpr ⟨f, hf, rfl⟩)

theorem duration_names : [utf8 "secs", utf8 "nanos"].Nodup ∧ ∀ n ∈ [utf8 "secs", utf8 "nanos"], validUtf8 n = true := by decide +kernel

theorem durationOf_value {d : Nat} (h : d / 1000000000 < 2 ^ 64) : durationOf (durationValue d) = some d := by
  have hany : ([(utf8 "secs", Value.num (d / 1000000000)), (utf8 "nanos", .num (d % 1000000000))] : List (Bytes × Value)).any
      (fun f => f.1 ≠ utf8 "secs" && f.1 ≠ utf8 "nanos") = false := by
    simp
  unfold durationOf durationValue
  simp only []
  rw [if_neg (by rw [hany]; decide)]
  unfold durationOf.go
  rw [show structOf [utf8 "secs", utf8 "nanos"] (.obj [(utf8 "secs", .num (d / 1000000000)), (utf8 "nanos", .num (d % 1000000000))]) =
    some [.num (d / 1000000000), .num (d % 1000000000)] from structOf_written [(utf8 "secs", .num (d / 1000000000)), (utf8 "nanos", .num (d % 1000000000))]
      duration_names.1 duration_names.2]
  simp only []
  have h1 : d % 1000000000 < 1000000000 := Nat.mod_lt _ (by decide)
  rw [if_pos ⟨h, by omega, by omega⟩]
  congr 1
  omega

theorem natOf_num {n : Nat} (h : n < 2 ^ 64) : natOf (.num n) = some n := by rw [natOf, if_pos h]

theorem textOf_str {s : Bytes} (h : validUtf8 s = true) : textOf (.str s) = some s := by rw [textOf, if_pos h]

/-- What `Duration`, `usize` and `String` can hold. -/
def FitsQuery (q : Bytes × QueryData) : Prop :=
  validUtf8 q.1 = true ∧ q.2.time / 1000000000 < 2 ^ 64 ∧ q.2.selfTime / 1000000000 < 2 ^ 64 ∧ q.2.numberOfCacheMisses < 2 ^ 64 ∧
  q.2.numberOfCacheHits < 2 ^ 64 ∧ q.2.invocationCount < 2 ^ 64 ∧ q.2.blockedTime / 1000000000 < 2 ^ 64 ∧
  q.2.incrementalLoadTime / 1000000000 < 2 ^ 64 ∧ q.2.incrementalHashingTime / 1000000000 < 2 ^ 64

def queryNames : List Bytes := [utf8 "label", utf8 "time", utf8 "self_time", utf8 "number_of_cache_misses", utf8 "number_of_cache_hits",
  utf8 "invocation_count", utf8 "blocked_time", utf8 "incremental_load_time", utf8 "incremental_hashing_time"]

theorem query_names : queryNames.Nodup ∧ ∀ n ∈ queryNames, validUtf8 n = true := by decide +kernel

theorem queryOf_value {q : Bytes × QueryData} (h : FitsQuery q) : queryOf (queryValue q) = some q := by
  obtain ⟨h0, h1, h2, h3, h4, h5, h6, h7, h8⟩ := h
  unfold queryOf
  have := structOf_written [(utf8 "label", .str q.1), (utf8 "time", durationValue q.2.time), (utf8 "self_time", durationValue q.2.selfTime),
    (utf8 "number_of_cache_misses", .num q.2.numberOfCacheMisses), (utf8 "number_of_cache_hits", .num q.2.numberOfCacheHits),
    (utf8 "invocation_count", .num q.2.invocationCount), (utf8 "blocked_time", durationValue q.2.blockedTime),
    (utf8 "incremental_load_time", durationValue q.2.incrementalLoadTime),
    (utf8 "incremental_hashing_time", durationValue q.2.incrementalHashingTime)] query_names.1 query_names.2
  simp only [List.map_cons, List.map_nil] at this
  rw [queryValue, this]
  simp only [textOf_str h0, durationOf_value h1, durationOf_value h2, natOf_num h3, natOf_num h4, natOf_num h5, durationOf_value h6,
    durationOf_value h7, durationOf_value h8, bind, Option.bind]

theorem artifact_names : [utf8 "label", utf8 "value"].Nodup ∧ ∀ n ∈ [utf8 "label", utf8 "value"], validUtf8 n = true := by decide +kernel

theorem artifactOf_value {a : Bytes × Nat} (h : validUtf8 a.1 = true) (h' : a.2 < 2 ^ 64) : artifactOf (artifactValue a) = some a := by
  unfold artifactOf
  have := structOf_written [(utf8 "label", .str a.1), (utf8 "value", .num a.2)] artifact_names.1 artifact_names.2
  simp only [List.map_cons, List.map_nil] at this
  rw [artifactValue, this]
  simp only [textOf_str h, natOf_num h', bind, Option.bind]

theorem mapM_map {α β : Type} {f : β → Option α} {g : α → β} (l : List α) (h : ∀ x ∈ l, f (g x) = some x) : (l.map g).mapM f = some l := by
  induction l with
  | nil => rfl
  | cons x l ih =>
    rw [List.map_cons, List.mapM_cons, h x (by simp), ih fun y hy => h y (by simp [hy])]
    rfl

theorem results_names : [utf8 "query_data", utf8 "artifact_sizes", utf8 "total_time"].Nodup ∧
    ∀ n ∈ [utf8 "query_data", utf8 "artifact_sizes", utf8 "total_time"], validUtf8 n = true := by decide +kernel

theorem resultsOf_value {r : Results} (hq : ∀ q ∈ r.queryData, FitsQuery q) (ha : ∀ a ∈ r.artifactSizes, validUtf8 a.1 = true ∧ a.2 < 2 ^ 64)
    (ht : r.totalTime / 1000000000 < 2 ^ 64) : resultsOf (resultsValue r) = some r := by
  unfold resultsOf
  have := structOf_written [(utf8 "query_data", .arr (r.queryData.map queryValue)), (utf8 "artifact_sizes", .arr (r.artifactSizes.map artifactValue)),
    (utf8 "total_time", durationValue r.totalTime)] results_names.1 results_names.2
  simp only [List.map_cons, List.map_nil] at this
  rw [resultsValue, this]
  simp only [listOf, mapM_map r.queryData fun q hq' => queryOf_value (hq q hq'),
    mapM_map r.artifactSizes fun a ha' => artifactOf_value (ha a ha').1 (ha a ha').2, durationOf_value ht, bind, Option.bind]

theorem writable_duration (d : Nat) : Writable (durationValue d) :=
  .obj (by simp only [List.forall_mem_cons]; exact ⟨.num _, .num _, fun _ h => by cases h⟩)

theorem writable_results (r : Results) : Writable (resultsValue r) := by
  refine .obj ?_
  simp only [List.forall_mem_cons]
  refine ⟨.arr ?_, .arr ?_, writable_duration _, fun _ h => by cases h⟩
  · intro v hv
    obtain ⟨q, _, rfl⟩ := List.mem_map.mp hv
    refine .obj ?_
    simp only [List.forall_mem_cons]
    exact ⟨.str _, writable_duration _, writable_duration _, .num _, .num _, .num _, writable_duration _, writable_duration _, writable_duration _,
      fun _ h => by cases h⟩
  · intro v hv
    obtain ⟨q, _, rfl⟩ := List.mem_map.mp hv
    refine .obj ?_
    simp only [List.forall_mem_cons]
    exact ⟨.str _, .num _, fun _ h => by cases h⟩

end Verif.Json
