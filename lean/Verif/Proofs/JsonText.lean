import Verif.Spec.JsonText
import Verif.Proofs.Json
import Mathlib.Data.List.Induction

/-!
# The JSON reader accepts exactly the JSON grammar
-/

namespace Verif.Json

open Verif Verif.Mm Verif.Spec

/-! ## White space, digits, numbers -/

theorem isWs_iff (c : UInt8) : isWs c = true ↔ c = 0x20 ∨ c = 0x09 ∨ c = 0x0A ∨ c = 0x0D := by
  simp only [isWs, Bool.or_eq_true, decide_eq_true_eq]
  tauto

theorem skipWs_append {w : Bytes} (h : JsonWs w) (R : Bytes) : skipWs (w ++ R) = skipWs R := by
  induction w with
  | nil => rfl
  | cons c w ih =>
    rw [List.cons_append, skipWs, if_pos ((isWs_iff c).mpr (h c (by simp)))]
    exact ih fun x hx => h x (by simp [hx])

theorem skipWs_ws {w : Bytes} (h : JsonWs w) : skipWs w = [] := by
  have := skipWs_append h []
  rwa [List.append_nil] at this

theorem skipWs_cons {c : UInt8} {R : Bytes} (h : isWs c = false) : skipWs (c :: R) = c :: R := by
  rw [skipWs, if_neg (by simp [h])]

theorem skipWs_spec (b : Bytes) : ∃ w, b = w ++ skipWs b ∧ JsonWs w := by
  induction b with
  | nil => exact ⟨[], rfl, fun _ h => by cases h⟩
  | cons c b ih =>
    by_cases h : isWs c = true
    · obtain ⟨w, e, hw⟩ := ih
      refine ⟨c :: w, ?_, ?_⟩
      · rw [skipWs, if_pos h, List.cons_append, ← e]
      · intro x hx
        rcases List.mem_cons.mp hx with rfl | hx
        · exact (isWs_iff _).mp h
        · exact hw x hx
    · exact ⟨[], by rw [skipWs, if_neg h]; rfl, fun _ h => by cases h⟩

theorem JsonWs.append {a b : Bytes} (ha : JsonWs a) (hb : JsonWs b) : JsonWs (a ++ b) := by
  intro x hx
  rcases List.mem_append.mp hx with h | h
  · exact ha x h
  · exact hb x h

theorem JsonWs.nil : JsonWs [] := fun _ h => by cases h

theorem isDigit_iff (c : UInt8) : isDigit c = true ↔ 0x30 ≤ c ∧ c ≤ 0x39 := by
  simp only [isDigit, Bool.and_eq_true, decide_eq_true_eq]

theorem digitsValue_numeral (ds : Bytes) : digitsValue ds = numeral ds := by
  induction ds using List.reverseRecOn with
  | nil => rfl
  | append_singleton A d ih =>
    rw [digitsValue_append, ih, numeral, numeral, List.reverse_append, List.reverse_singleton, List.singleton_append, List.map_cons, Nat.ofDigits_cons]
    omega

/-- What may follow a number. -/
def Stops (R : Bytes) : Prop := ∀ c ∈ R.head?, isDigit c = false ∧ c ≠ 0x2E ∧ c ≠ 0x65 ∧ c ≠ 0x45

theorem takeWhile_digits {ds R : Bytes} (h : Digits ds) (hR : ∀ c ∈ R.head?, isDigit c = false) :
    (ds ++ R).takeWhile isDigit = ds ∧ (ds ++ R).dropWhile isDigit = R := by
  have hd : ∀ c ∈ ds, isDigit c = true := fun c hc => (isDigit_iff c).mpr (h.2 c hc)
  cases R with
  | nil =>
    rw [List.append_nil]
    exact takeWhile_all hd
  | cons c R => exact takeWhile_append hd (hR c rfl)

theorem takeWhile_spec (b : Bytes) : b = b.takeWhile isDigit ++ b.dropWhile isDigit ∧
    (b.takeWhile isDigit ≠ [] → Digits (b.takeWhile isDigit)) := by
  refine ⟨(List.takeWhile_append_dropWhile).symm, fun h => ⟨h, fun c hc => (isDigit_iff c).mp ?_⟩⟩
  induction b with
  | nil => cases hc
  | cons a b ih =>
    rw [List.takeWhile_cons] at hc
    split at hc
    · rename_i ha
      rcases List.mem_cons.mp hc with rfl | hc
      · exact ha
      · exact ih (List.ne_nil_of_mem hc) hc
    · cases hc

theorem parseFrac_complete {frac R : Bytes} (h : JsonFrac frac) (hR : ∀ c ∈ R.head?, isDigit c = false ∧ c ≠ 0x2E) :
    parseFrac (frac ++ R) = some (frac, R) := by
  rcases h with rfl | ⟨ds, hd, rfl⟩
  · cases R with
    | nil => rfl
    | cons c R => rw [List.nil_append, parseFrac, if_neg (hR c rfl).2]
  · have := takeWhile_digits hd (R := R) fun c hc => (hR c hc).1
    rw [List.cons_append, parseFrac, if_pos rfl, this.1, this.2, if_neg hd.1]

theorem parseExp_complete {exp R : Bytes} (h : JsonExp exp) (hR : Stops R) : parseExp (exp ++ R) = some (exp, R) := by
  rcases h with rfl | ⟨e, sign, ds, he, hs, hd, rfl⟩
  · cases R with
    | nil => rfl
    | cons c R =>
      rw [List.nil_append, parseExp, if_neg]
      have := hR c rfl
      rintro (h | h)
      · exact this.2.2.1 h
      · exact this.2.2.2 h
  · have ht := takeWhile_digits hd (R := R) fun c hc => (hR c hc).1
    have hsig : parseSign (sign ++ (ds ++ R)) = (sign, ds ++ R) := by
      rcases hs with rfl | rfl | rfl
      · cases ds with
        | nil => exact absurd rfl hd.1
        | cons d ds =>
          rw [List.nil_append, List.cons_append, parseSign, if_neg]
          have := hd.2 d (by simp)
          rintro (rfl | rfl) <;> exact absurd this (by decide)
      · rfl
      · rfl
    rw [List.cons_append, List.append_assoc, parseExp, if_pos he, hsig]
    simp only [ht.1, ht.2]
    rw [if_neg hd.1]

theorem head_digits {ds R : Bytes} (h : Digits ds) : ∃ c r, ds ++ R = c :: r ∧ 0x30 ≤ c ∧ c ≤ 0x39 := by
  cases ds with
  | nil => exact absurd rfl h.1
  | cons d ds => exact ⟨d, ds ++ R, rfl, h.2 d (by simp)⟩

theorem parseNum_parts {minus ds frac exp R : Bytes} (hm : minus = [] ∨ minus = [0x2D]) (hi : JsonInt ds) (hf : JsonFrac frac) (he : JsonExp exp)
    (hR : Stops R) : parseNum (minus ++ ds ++ frac ++ exp ++ R) =
      some (if minus = [] ∧ frac = [] ∧ exp = [] then .num (numeral ds) else .real (minus ++ ds ++ frac ++ exp), R) := by
  have hmin : parseMinus (minus ++ (ds ++ (frac ++ (exp ++ R)))) = (minus, ds ++ (frac ++ (exp ++ R))) := by
    rcases hm with rfl | rfl
    · obtain ⟨c, r, e, h1, h2⟩ := head_digits (R := frac ++ (exp ++ R)) hi.1
      rw [List.nil_append, e, parseMinus, if_neg]
      rintro rfl
      exact absurd h1 (by decide)
    · rfl
  have h1 : ∀ c ∈ (exp ++ R).head?, isDigit c = false ∧ c ≠ 0x2E := by
    rcases he with rfl | ⟨e, sign, ds, he, _, _, rfl⟩
    · exact fun c hc => ⟨(hR c hc).1, (hR c hc).2.1⟩
    · intro c hc
      cases hc
      rcases he with rfl | rfl <;> decide
  have h2 : ∀ c ∈ (frac ++ (exp ++ R)).head?, isDigit c = false := by
    rcases hf with rfl | ⟨ds, _, rfl⟩
    · exact fun c hc => (h1 c hc).1
    · intro c hc
      cases hc
      decide
  have ht := takeWhile_digits hi.1 h2
  simp only [List.append_assoc]
  unfold parseNum
  simp only [hmin, ht.1, ht.2, parseFrac_complete hf h1, parseExp_complete he hR]
  rw [if_neg hi.1.1, if_neg]
  · rw [digitsValue_numeral]
    split
    · rfl
    · simp only [List.append_assoc]
  · rintro ⟨h0, h3⟩
    rcases hi.2 with rfl | h
    · exact h3 rfl
    · exact h h0

theorem parseNum_complete {t : Bytes} {v : Value} (h : JsonNumber t v) {R : Bytes} (hR : Stops R) : parseNum (t ++ R) = some (v, R) := by
  cases h with
  | plain hi =>
    have := parseNum_parts (.inl rfl) hi (.inl rfl) (.inl rfl) hR
    simpa using this
  | @other minus ds frac exp hm hi hf he hne =>
    rw [parseNum_parts hm hi hf he hR, if_neg]
    rintro ⟨rfl, rfl, rfl⟩
    exact hne rfl

theorem parseMinus_spec (b : Bytes) : b = (parseMinus b).1 ++ (parseMinus b).2 ∧ ((parseMinus b).1 = [] ∨ (parseMinus b).1 = [0x2D]) := by
  cases b with
  | nil => exact ⟨rfl, .inl rfl⟩
  | cons c r =>
    rw [parseMinus]
    split
    · rename_i h
      subst h
      exact ⟨rfl, .inr rfl⟩
    · exact ⟨rfl, .inl rfl⟩

theorem parseSign_spec (b : Bytes) : b = (parseSign b).1 ++ (parseSign b).2 ∧
    ((parseSign b).1 = [] ∨ (parseSign b).1 = [0x2B] ∨ (parseSign b).1 = [0x2D]) := by
  cases b with
  | nil => exact ⟨rfl, .inl rfl⟩
  | cons c r =>
    rw [parseSign]
    split
    · rename_i h
      rcases h with rfl | rfl
      · exact ⟨rfl, .inr (.inl rfl)⟩
      · exact ⟨rfl, .inr (.inr rfl)⟩
    · exact ⟨rfl, .inl rfl⟩

theorem parseFrac_sound {b frac r : Bytes} (h : parseFrac b = some (frac, r)) : b = frac ++ r ∧ JsonFrac frac := by
  cases b with
  | nil => cases h; exact ⟨rfl, .inl rfl⟩
  | cons c b =>
    rw [parseFrac] at h
    split at h
    · rename_i hc
      subst hc
      split at h
      · cases h
      · rename_i hn
        cases h
        obtain ⟨e, hd⟩ := takeWhile_spec b
        exact ⟨by rw [List.cons_append, ← e], .inr ⟨_, hd hn, rfl⟩⟩
    · cases h
      exact ⟨rfl, .inl rfl⟩

theorem parseExp_sound {b exp r : Bytes} (h : parseExp b = some (exp, r)) : b = exp ++ r ∧ JsonExp exp := by
  cases b with
  | nil => cases h; exact ⟨rfl, .inl rfl⟩
  | cons c b =>
    rw [parseExp] at h
    split at h
    · rename_i hc
      split at h
      · cases h
      · rename_i hn
        cases h
        obtain ⟨e1, hs⟩ := parseSign_spec b
        obtain ⟨e, hd⟩ := takeWhile_spec (parseSign b).2
        refine ⟨?_, .inr ⟨c, _, _, hc, hs, hd hn, rfl⟩⟩
        rw [List.cons_append, List.append_assoc, ← e, ← e1]
    · cases h
      exact ⟨rfl, .inl rfl⟩

theorem parseNum_sound {b r : Bytes} {v : Value} (h : parseNum b = some (v, r)) : ∃ t, b = t ++ r ∧ JsonNumber t v := by
  unfold parseNum at h
  simp only [] at h
  obtain ⟨e0, hm⟩ := parseMinus_spec b
  obtain ⟨e1, hd⟩ := takeWhile_spec (parseMinus b).2
  split at h
  · cases h
  rename_i hn
  split at h
  · cases h
  rename_i hz
  split at h
  · cases h
  rename_i frac rest hf
  split at h
  · cases h
  rename_i exp rest' he
  obtain ⟨e2, hf⟩ := parseFrac_sound hf
  obtain ⟨e3, hexp⟩ := parseExp_sound he
  have hi : JsonInt ((parseMinus b).2.takeWhile isDigit) := by
    refine ⟨hd hn, ?_⟩
    by_cases h0 : ((parseMinus b).2.takeWhile isDigit).head? = some 0x30
    · left
      have hl : ((parseMinus b).2.takeWhile isDigit).length = 1 := by
        by_contra hc
        exact hz ⟨h0, hc⟩
      obtain ⟨x, hx⟩ := List.length_eq_one_iff.mp hl
      rw [hx] at h0 ⊢
      simp only [List.head?_cons, Option.some.injEq] at h0
      rw [h0]
    · exact .inr h0
  have e : b = (parseMinus b).1 ++ (parseMinus b).2.takeWhile isDigit ++ frac ++ exp ++ rest' := by
    rw [List.append_assoc, ← e3, List.append_assoc, ← e2, List.append_assoc, ← e1, ← e0]
  split at h
  · rename_i hall
    obtain ⟨hm0, rfl, rfl⟩ := hall
    cases h
    refine ⟨(parseMinus b).2.takeWhile isDigit, ?_, ?_⟩
    · rw [hm0] at e
      simpa using e
    · rw [digitsValue_numeral]
      exact .plain hi
  · rename_i hall
    cases h
    refine ⟨_, e, .other hm hi hf hexp fun hc => hall ?_⟩
    simp only [List.append_eq_nil_iff] at hc
    exact ⟨hc.1.1, hc.1.2, hc.2⟩

/-! ## Strings -/

theorem u8_eq {a : UInt8} {n : Nat} (h : a.toNat = n) : a = UInt8.ofNat n := by
  rw [← h, UInt8.ofNat_toNat]

theorem hexVal_iff (a : UInt8) (k : Nat) : hexVal a = some k ↔ Hex a k := by
  constructor
  · intro h
    unfold hexVal at h
    split at h
    · rename_i hc
      simp only [Bool.and_eq_true, decide_eq_true_eq, UInt8.le_iff_toNat_le] at hc
      have h1 : (0x30 : UInt8).toNat = 48 := rfl
      have h2 : (0x39 : UInt8).toNat = 57 := rfl
      simp only [Option.some.injEq] at h
      rw [show a = UInt8.ofNat (0x30 + k) from u8_eq (by omega)]
      exact .digit k (by omega)
    · split at h
      · rename_i hc
        simp only [Bool.and_eq_true, decide_eq_true_eq, UInt8.le_iff_toNat_le] at hc
        have h1 : (0x61 : UInt8).toNat = 97 := rfl
        have h2 : (0x66 : UInt8).toNat = 102 := rfl
        simp only [Option.some.injEq] at h
        obtain ⟨j, rfl⟩ : ∃ j, k = 10 + j := ⟨k - 10, by omega⟩
        rw [show a = UInt8.ofNat (0x61 + j) from u8_eq (by omega)]
        exact .lower j (by omega)
      · split at h
        · rename_i hc
          simp only [Bool.and_eq_true, decide_eq_true_eq, UInt8.le_iff_toNat_le] at hc
          have h1 : (0x41 : UInt8).toNat = 65 := rfl
          have h2 : (0x46 : UInt8).toNat = 70 := rfl
          simp only [Option.some.injEq] at h
          obtain ⟨j, rfl⟩ : ∃ j, k = 10 + j := ⟨k - 10, by omega⟩
          rw [show a = UInt8.ofNat (0x41 + j) from u8_eq (by omega)]
          exact .upper j (by omega)
        · cases h
  · intro h
    cases h with
    | digit k hk => revert k; decide
    | lower k hk => exact (by decide : ∀ k, k < 6 → hexVal (UInt8.ofNat (0x61 + k)) = some (10 + k)) _ hk
    | upper k hk => exact (by decide : ∀ k, k < 6 → hexVal (UInt8.ofNat (0x41 + k)) = some (10 + k)) _ hk

theorem hexNum_iff (a b c d : UInt8) (n : Nat) : hexNum a b c d = some n ↔ Hex4 [a, b, c, d] n := by
  constructor
  · intro h
    unfold hexNum at h
    split at h
    · rename_i k l m o h1 h2 h3 h4
      simp only [Option.some.injEq] at h
      exact ⟨a, b, c, d, k, l, m, o, rfl, (hexVal_iff _ _).mp h1, (hexVal_iff _ _).mp h2, (hexVal_iff _ _).mp h3, (hexVal_iff _ _).mp h4, by omega⟩
    · cases h
  · rintro ⟨a', b', c', d', k, l, m, o, e, h1, h2, h3, h4, rfl⟩
    simp only [List.cons.injEq] at e
    obtain ⟨rfl, rfl, rfl, rfl, _⟩ := e
    unfold hexNum
    rw [(hexVal_iff _ _).mpr h1, (hexVal_iff _ _).mpr h2, (hexVal_iff _ _).mpr h3, (hexVal_iff _ _).mpr h4]
    simp only [Option.some.injEq]
    omega

theorem hex4_list {h : Bytes} {n : Nat} (hh : Hex4 h n) : ∃ a b c d, h = [a, b, c, d] ∧ hexNum a b c d = some n := by
  obtain ⟨a, b, c, d, k, l, m, o, e, r⟩ := hh
  refine ⟨a, b, c, d, e, (hexNum_iff _ _ _ _ _).mpr ?_⟩
  exact ⟨a, b, c, d, k, l, m, o, rfl, r⟩

theorem simpleEscape_iff (e x : UInt8) : simpleEscape e = some x ↔
    (e, x) ∈ ([(0x22, 0x22), (0x5C, 0x5C), (0x2F, 0x2F), (0x62, 0x08), (0x66, 0x0C), (0x6E, 0x0A), (0x72, 0x0D), (0x74, 0x09)] : List (UInt8 × UInt8)) := by
  constructor
  · intro h
    unfold simpleEscape at h
    iterate 8
      split at h
      · rename_i he
        subst he
        cases h
        decide
    cases h
  · intro h
    simp only [List.mem_cons, Prod.mk.injEq, List.not_mem_nil, or_false] at h
    rcases h with ⟨rfl, rfl⟩ | ⟨rfl, rfl⟩ | ⟨rfl, rfl⟩ | ⟨rfl, rfl⟩ | ⟨rfl, rfl⟩ | ⟨rfl, rfl⟩ | ⟨rfl, rfl⟩ | ⟨rfl, rfl⟩ <;> rfl

theorem parseStr_complete {t s : Bytes} (h : JsonChars t s) (R : Bytes) : parseStr (t ++ 0x22 :: R) = some (s, R) := by
  induction h with
  | done => exact parseStr_quote R
  | plain h1 h2 h3 _ ih =>
    rw [List.cons_append, parseStr_char _ h1 h2 (by simpa using h3), ih]
    rfl
  | @escape e x t s he _ ih =>
    have hx := (simpleEscape_iff e x).mpr he
    rw [List.cons_append, List.cons_append, parseStr_esc _ _ hx, ih]
    · rfl
    · rintro rfl
      have h0 : simpleEscape 0x75 = none := rfl
      rw [h0] at hx
      cases hx
  | @unicode h n t s hh hn _ ih =>
    obtain ⟨a, b, c, d, rfl, he⟩ := hex4_list hh
    rw [List.cons_append, List.cons_append, List.append_assoc, parseStr.eq_def]
    simp only [List.cons_append, List.nil_append]
    rw [if_neg (by decide), if_pos trivial, if_pos trivial]
    simp only [he]
    rw [if_neg (by omega), if_neg (by omega), ih]
    rfl
  | @pair h h' n m t s hh hn hh' hm _ ih =>
    obtain ⟨a, b, c, d, rfl, he⟩ := hex4_list hh
    obtain ⟨a', b', c', d', rfl, he'⟩ := hex4_list hh'
    simp only [List.cons_append, List.nil_append]
    rw [parseStr.eq_def]
    simp only []
    rw [if_neg (by decide), if_pos trivial, if_pos trivial]
    simp only [he]
    rw [if_pos (by omega), if_pos ⟨trivial, trivial⟩]
    simp only [he']
    rw [if_pos (by omega), ih]
    have e1 : 0xD800 + n - 0xD800 = n := Nat.add_sub_cancel_left _ _
    have e2 : 0xDC00 + m - 0xDC00 = m := Nat.add_sub_cancel_left _ _
    rw [e1, e2]
    rfl

theorem push_some {p s r : Bytes} {o : Option (Bytes × Bytes)} (h : push p o = some (s, r)) : ∃ s', o = some (s', r) ∧ s = p ++ s' := by
  cases o with
  | none => cases h
  | some x =>
    obtain ⟨s', r'⟩ := x
    simp only [push, Option.some.injEq, Prod.mk.injEq] at h
    obtain ⟨h1, rfl⟩ := h
    exact ⟨s', rfl, h1.symm⟩

theorem parseStr_sound : ∀ (n : Nat) (b s r : Bytes), b.length ≤ n → parseStr b = some (s, r) → ∃ t, b = t ++ 0x22 :: r ∧ JsonChars t s := by
  intro n
  induction n with
  | zero =>
    intro b s r hl h
    rw [List.length_eq_zero_iff.mp (Nat.le_zero.mp hl)] at h
    cases h
  | succ n ih =>
    intro b s r hl h
    cases b with
    | nil => cases h
    | cons b rest =>
      rw [parseStr.eq_def] at h
      simp only [] at h
      split at h
      · rename_i hb
        subst hb
        cases h
        exact ⟨[], rfl, .done⟩
      rename_i hb
      split at h
      · rename_i hb'
        subst hb'
        split at h
        · cases h
        rename_i e rest'
        split at h
        · rename_i he
          subst he
          split at h
          · rename_i a b c d rest''
            split at h
            · cases h
            rename_i n hx
            split at h
            · rename_i hsur
              split at h
              · rename_i x y a' b' c' d' tail
                split at h
                · rename_i hxy
                  obtain ⟨rfl, rfl⟩ := hxy
                  split at h
                  · cases h
                  rename_i m hy
                  split at h
                  · rename_i hlow
                    obtain ⟨s', h1, hs⟩ := push_some h
                    obtain ⟨t, e, ht⟩ := ih tail s' r (by simp only [List.length_cons] at hl ⊢; omega) h1
                    have := JsonChars.pair (h := [a, b, c, d]) (h' := [a', b', c', d']) (n := n - 0xD800) (m := m - 0xDC00)
                      ((hexNum_iff _ _ _ _ _).mp (by rw [hx]; exact congrArg some (by omega))) (by omega) ((hexNum_iff _ _ _ _ _).mp (by rw [hy]; exact congrArg some (by omega))) (by omega) ht
                    rw [hs]
                    exact ⟨_, by rw [e]; rfl, this⟩
                  · cases h
                · cases h
              · cases h
            · rename_i hsur
              split at h
              · cases h
              · rename_i hlow
                obtain ⟨s', h1, rfl⟩ := push_some h
                obtain ⟨t, e, ht⟩ := ih rest'' s' r (by simp only [List.length_cons] at hl ⊢; omega) h1
                have := JsonChars.unicode (h := [a, b, c, d]) (n := n) ((hexNum_iff _ _ _ _ _).mp hx) (by omega) ht
                exact ⟨_, by rw [e]; rfl, this⟩
          · cases h
        · split at h
          · rename_i x hx
            obtain ⟨s', h1, rfl⟩ := push_some h
            obtain ⟨t, e, ht⟩ := ih rest' s' r (by simp only [List.length_cons] at hl ⊢; omega) h1
            exact ⟨_, by rw [e]; rfl, JsonChars.escape ((simpleEscape_iff _ _).mp hx) ht⟩
          · cases h
      rename_i hb2
      split at h
      · cases h
      · rename_i hb3
        obtain ⟨s', h1, rfl⟩ := push_some h
        obtain ⟨t, e, ht⟩ := ih rest s' r (by simp only [List.length_cons] at hl ⊢; omega) h1
        exact ⟨_, by rw [e]; rfl, JsonChars.plain hb hb2 (by simpa using hb3) ht⟩

theorem number_head {t : Bytes} {v : Value} (h : JsonNumber t v) : ∃ c r, t = c :: r ∧ (c = 0x2D ∨ (0x30 ≤ c ∧ c ≤ 0x39)) := by
  cases h with
  | plain hi =>
    obtain ⟨c, r, e, h1, h2⟩ := head_digits (R := []) hi.1
    rw [List.append_nil] at e
    exact ⟨c, r, e, .inr ⟨h1, h2⟩⟩
  | @other minus ds frac exp hm hi _ _ _ =>
    rcases hm with rfl | rfl
    · obtain ⟨c, r, e, h1, h2⟩ := head_digits (R := frac ++ exp) hi.1
      exact ⟨c, r, by rw [List.nil_append, List.append_assoc, e], .inr ⟨h1, h2⟩⟩
    · exact ⟨_, _, rfl, .inl rfl⟩

theorem numHead {c : UInt8} (hc : c = 0x2D ∨ (0x30 ≤ c ∧ c ≤ 0x39)) :
    isWs c = false ∧ c ≠ 0x5D ∧ c ≠ 0x7D ∧ c ≠ 0x22 ∧ c ≠ 0x7B ∧ c ≠ 0x5B ∧ c ≠ 0x74 ∧ c ≠ 0x66 ∧ c ≠ 0x6E := by
  refine ⟨?_, ?_, ?_, ?_, ?_, ?_, ?_, ?_, ?_⟩
  · rw [Bool.eq_false_iff]
    intro h
    rcases (isWs_iff c).mp h with rfl | rfl | rfl | rfl <;> exact absurd hc (by decide)
  all_goals (rintro rfl; exact absurd hc (by decide))

/-! ## Values -/

/-- The first byte of a value. -/
theorem text_head {t : Bytes} {v : Value} (h : JsonText t v) : ∃ c r, t = c :: r ∧ isWs c = false ∧ c ≠ 0x5D ∧ c ≠ 0x7D := by
  cases h with
  | null => exact ⟨_, _, rfl, by decide, by decide, by decide⟩
  | true => exact ⟨_, _, rfl, by decide, by decide, by decide⟩
  | false => exact ⟨_, _, rfl, by decide, by decide, by decide⟩
  | string _ => exact ⟨_, _, rfl, by decide, by decide, by decide⟩
  | emptyArr _ => exact ⟨_, _, rfl, by decide, by decide, by decide⟩
  | arr _ => exact ⟨_, _, rfl, by decide, by decide, by decide⟩
  | emptyObj _ => exact ⟨_, _, rfl, by decide, by decide, by decide⟩
  | obj _ => exact ⟨_, _, rfl, by decide, by decide, by decide⟩
  | number h =>
    obtain ⟨c, r, e, hc⟩ := number_head h
    have := numHead hc
    exact ⟨c, r, e, this.1, this.2.1, this.2.2.1⟩

theorem stops_cons {c : UInt8} {R : Bytes} (h : c = 0x2C ∨ c = 0x5D ∨ c = 0x7D) : Stops (c :: R) := by
  intro x hx
  cases hx
  rcases h with rfl | rfl | rfl <;> decide

theorem stops_ws {w R : Bytes} (h : JsonWs w) (hR : Stops R) : Stops (w ++ R) := by
  cases w with
  | nil => exact hR
  | cons c w =>
    intro x hx
    cases hx
    rcases h c (by simp) with rfl | rfl | rfl | rfl <;> decide

theorem stops_nil : Stops [] := by
  intro x hx
  cases hx

theorem elems_head {e : Bytes} {vs : List Value} (h : JsonElems e vs) (R : Bytes) : ∃ w c r, e ++ R = w ++ c :: r ∧ JsonWs w ∧ isWs c = false ∧ c ≠ 0x5D := by
  cases h with
  | @one w t w' v h1 h2 h3 =>
    obtain ⟨c, r, rfl, hc, hc', _⟩ := text_head h2
    exact ⟨w, c, r ++ w' ++ R, by simp, h1, hc, hc'⟩
  | @more w t w' v e vs h1 h2 h3 _ =>
    obtain ⟨c, r, rfl, hc, hc', _⟩ := text_head h2
    exact ⟨w, c, r ++ w' ++ 0x2C :: e ++ R, by simp, h1, hc, hc'⟩

theorem members_head {e : Bytes} {fs : List (Bytes × Value)} (h : JsonMembers e fs) (R : Bytes) : ∃ w r, e ++ R = w ++ 0x22 :: r ∧ JsonWs w := by
  cases h with
  | one h1 => exact ⟨_, _, by rw [List.append_assoc]; rfl, h1⟩
  | more h1 => exact ⟨_, _, by rw [List.append_assoc]; rfl, h1⟩

theorem parseValue_skip {w : Bytes} (h : JsonWs w) (f : Nat) (b : Bytes) : parseValue f (w ++ b) = parseValue f b := by
  cases f with
  | zero => rfl
  | succ f => rw [parseValue, parseValue, skipWs_append h]

theorem parseMembers_skip {w : Bytes} (h : JsonWs w) {f : Nat} {b : Bytes} : parseMembers f (w ++ b) = parseMembers f b := by
  cases f with
  | zero => rfl
  | succ f => rw [parseMembers, parseMembers, skipWs_append h]

theorem parseElems_skip {w : Bytes} (h : JsonWs w) {f : Nat} {b : Bytes} : parseElems f (w ++ b) = parseElems f b := by
  cases f with
  | zero => rfl
  | succ f => rw [parseElems, parseElems, parseValue_skip h]

theorem complete (n : Nat) :
    (∀ t v, t.length ≤ n → JsonText t v → ∀ f w R, t.length ≤ f → JsonWs w → Stops R → parseValue f (w ++ (t ++ R)) = some (v, R)) ∧
    (∀ e vs, e.length ≤ n → JsonElems e vs → ∀ f R, e.length + 1 ≤ f → parseElems f (e ++ 0x5D :: R) = some (vs, R)) ∧
    (∀ e fs, e.length ≤ n → JsonMembers e fs → ∀ f R, e.length + 1 ≤ f → parseMembers f (e ++ 0x7D :: R) = some (fs, R)) := by
  induction n with
  | zero =>
    refine ⟨?_, ?_, ?_⟩
    · intro t v hl h
      obtain ⟨c, r, rfl, _⟩ := text_head h
      simp at hl
    · intro e vs hl h
      obtain ⟨w, c, r, he, _⟩ := elems_head h []
      rw [List.append_nil] at he
      rw [he] at hl
      simp at hl
    · intro e fs hl h
      obtain ⟨w, r, he, _⟩ := members_head h []
      rw [List.append_nil] at he
      rw [he] at hl
      simp at hl
  | succ n ih =>
    obtain ⟨ih1, ih2, ih3⟩ := ih
    have val : ∀ t v, t.length ≤ n + 1 → JsonText t v → ∀ f w R, t.length ≤ f → JsonWs w → Stops R → parseValue f (w ++ (t ++ R)) = some (v, R) := by
      intro t v hl h f w R hf hw hR
      obtain ⟨c, r, e, hc, _⟩ := text_head h
      cases f with
      | zero => rw [e] at hf; simp at hf
      | succ f =>
        have hsk : skipWs (w ++ (t ++ R)) = c :: (r ++ R) := by
          rw [skipWs_append hw, e, List.cons_append, skipWs_cons hc]
        rw [parseValue, hsk]
        simp only []
        cases h with
        | null => cases e; rfl
        | true => cases e; rfl
        | false => cases e; rfl
        | number hn =>
          obtain ⟨c', r', e', hc'⟩ := number_head hn
          rw [e] at e'
          cases e'
          obtain ⟨_, _, _, w1, w2, w3, w4, w5, w6⟩ := numHead hc'
          rw [if_neg w1, if_neg w2, if_neg w3, if_neg w4, if_neg w5, if_neg w6, ← List.cons_append, ← e]
          exact parseNum_complete hn hR
        | @string t s hs =>
          cases e
          rw [if_pos rfl, List.append_assoc, List.singleton_append, parseStr_complete hs]
        | @emptyArr w' hw' =>
          cases e
          rw [if_neg (by decide), if_neg (by decide), if_pos rfl, List.append_assoc, skipWs_append hw', List.singleton_append, skipWs_cons (by decide)]
          simp only []
          rw [if_pos trivial]
        | @arr e' vs he =>
          cases e
          rw [if_neg (by decide), if_neg (by decide), if_pos rfl, List.append_assoc, List.singleton_append]
          obtain ⟨w', d, r', e1, hw', hd, hd'⟩ := elems_head he (0x5D :: R)
          rw [e1, skipWs_append hw', skipWs_cons hd]
          simp only []
          rw [if_neg hd']
          simp only [List.length_cons, List.length_append, List.length_nil] at hl hf
          have := ih2 e' vs (by omega) he f R (by omega)
          rw [e1, parseElems_skip hw'] at this
          rw [this]
        | @emptyObj w' hw' =>
          cases e
          rw [if_neg (by decide), if_pos rfl, List.append_assoc, skipWs_append hw', List.singleton_append, skipWs_cons (by decide)]
          simp only []
          rw [if_pos trivial]
        | @obj e' fs he =>
          cases e
          rw [if_neg (by decide), if_pos rfl, List.append_assoc, List.singleton_append]
          obtain ⟨w', r', e1, hw'⟩ := members_head he (0x7D :: R)
          rw [e1, skipWs_append hw', skipWs_cons (by decide)]
          simp only []
          rw [if_neg (by decide)]
          simp only [List.length_cons, List.length_append, List.length_nil] at hl hf
          have := ih3 e' fs (by omega) he f R (by omega)
          rw [e1, parseMembers_skip hw'] at this
          rw [this]
    refine ⟨val, ?_, ?_⟩
    · intro e vs hl h f R hf
      cases f with
      | zero => omega
      | succ f =>
        cases h with
        | @one w t w' v hw ht hw' =>
          simp only [List.length_append] at hl hf
          have := val t v (by omega) ht f w (w' ++ 0x5D :: R) (by omega) hw (stops_ws hw' (stops_cons (by simp)))
          rw [List.append_assoc, List.append_assoc, parseElems, this]
          simp only []
          rw [skipWs_append hw', skipWs_cons (by decide)]
          simp only []
          rw [if_pos trivial]
        | @more w t w' v e vs hw ht hw' he =>
          simp only [List.length_append, List.length_cons] at hl hf
          have := val t v (by omega) ht f w (w' ++ 0x2C :: (e ++ 0x5D :: R)) (by omega) hw (stops_ws hw' (stops_cons (by simp)))
          have e1 : w ++ t ++ w' ++ 0x2C :: e ++ 0x5D :: R = w ++ (t ++ (w' ++ 0x2C :: (e ++ 0x5D :: R))) := by simp
          rw [e1, parseElems, this]
          simp only []
          rw [skipWs_append hw', skipWs_cons (by decide)]
          simp only []
          rw [if_neg (by decide), if_pos trivial, ih2 e vs (by omega) he f R (by omega)]
    · intro e fs hl h f R hf
      cases f with
      | zero => omega
      | succ f =>
        cases h with
        | @one w k key w1 w2 t v w' hw hk hw1 hw2 ht hw' =>
          simp only [List.length_append, List.length_cons] at hl hf
          have := val t v (by omega) ht f w2 (w' ++ 0x7D :: R) (by omega) hw2 (stops_ws hw' (stops_cons (by simp)))
          have e1 : w ++ 0x22 :: (k ++ 0x22 :: (w1 ++ 0x3A :: (w2 ++ t ++ w'))) ++ 0x7D :: R =
              w ++ (0x22 :: (k ++ 0x22 :: (w1 ++ 0x3A :: (w2 ++ (t ++ (w' ++ 0x7D :: R)))))) := by simp
          rw [e1, parseMembers, skipWs_append hw, skipWs_cons (by decide)]
          simp only []
          rw [if_neg (by simp), parseStr_complete hk]
          simp only []
          rw [skipWs_append hw1, skipWs_cons (by decide)]
          simp only []
          rw [if_neg (by simp), this]
          simp only []
          rw [skipWs_append hw', skipWs_cons (by decide)]
          simp only []
          rw [if_pos trivial]
        | @more w k key w1 w2 t v w' e fs hw hk hw1 hw2 ht hw' he =>
          simp only [List.length_append, List.length_cons] at hl hf
          have := val t v (by omega) ht f w2 (w' ++ 0x2C :: (e ++ 0x7D :: R)) (by omega) hw2 (stops_ws hw' (stops_cons (by simp)))
          have e1 : w ++ 0x22 :: (k ++ 0x22 :: (w1 ++ 0x3A :: (w2 ++ t ++ w' ++ 0x2C :: e))) ++ 0x7D :: R =
              w ++ (0x22 :: (k ++ 0x22 :: (w1 ++ 0x3A :: (w2 ++ (t ++ (w' ++ 0x2C :: (e ++ 0x7D :: R))))))) := by simp
          rw [e1, parseMembers, skipWs_append hw, skipWs_cons (by decide)]
          simp only []
          rw [if_neg (by simp), parseStr_complete hk]
          simp only []
          rw [skipWs_append hw1, skipWs_cons (by decide)]
          simp only []
          rw [if_neg (by simp), this]
          simp only []
          rw [skipWs_append hw', skipWs_cons (by decide)]
          simp only []
          rw [if_neg (by decide), if_pos trivial, ih3 e fs (by omega) he f R (by omega)]

theorem stripPrefix_some {p b r : Bytes} (h : stripPrefix p b = some r) : b = p ++ r := by
  induction p generalizing b with
  | nil => cases h; rfl
  | cons c p ih =>
    cases b with
    | nil => cases h
    | cons d b =>
      rw [stripPrefix] at h
      split at h
      · rename_i hc
        subst hc
        rw [ih h]
        rfl
      · cases h

theorem JsonElems.skip {w e : Bytes} {vs : List Value} (h : JsonWs w) (he : JsonElems e vs) : JsonElems (w ++ e) vs := by
  cases he with
  | one h1 h2 h3 => rw [← List.append_assoc, ← List.append_assoc]; exact .one (JsonWs.append h h1) h2 h3
  | more h1 h2 h3 h4 =>
    rw [← List.append_assoc, ← List.append_assoc, ← List.append_assoc]; exact .more (JsonWs.append h h1) h2 h3 h4

theorem JsonMembers.skip {w e : Bytes} {fs : List (Bytes × Value)} (h : JsonWs w) (he : JsonMembers e fs) : JsonMembers (w ++ e) fs := by
  cases he with
  | one h1 h2 h3 h4 h5 h6 => rw [← List.append_assoc]; exact .one (JsonWs.append h h1) h2 h3 h4 h5 h6
  | more h1 h2 h3 h4 h5 h6 h7 => rw [← List.append_assoc]; exact .more (JsonWs.append h h1) h2 h3 h4 h5 h6 h7

theorem sound (f : Nat) :
    (∀ b v r, parseValue f b = some (v, r) → ∃ w t, b = w ++ (t ++ r) ∧ JsonWs w ∧ JsonText t v) ∧
    (∀ b vs r, parseElems f b = some (vs, r) → ∃ e, b = e ++ 0x5D :: r ∧ JsonElems e vs) ∧
    (∀ b fs r, parseMembers f b = some (fs, r) → ∃ e, b = e ++ 0x7D :: r ∧ JsonMembers e fs) := by
  induction f with
  | zero =>
    refine ⟨?_, ?_, ?_⟩ <;> intro b v r h
    · rw [parseValue] at h; cases h
    · rw [parseElems] at h; cases h
    · rw [parseMembers] at h; cases h
  | succ f ih =>
    obtain ⟨ih1, ih2, ih3⟩ := ih
    refine ⟨?_, ?_, ?_⟩
    · intro b v r h
      obtain ⟨w, e, hw⟩ := skipWs_spec b
      rw [parseValue] at h
      split at h
      · cases h
      rename_i c rest hsk
      rw [hsk] at e
      split at h
      · rename_i hc
        subst hc
        split at h
        · rename_i s r' hs
          cases h
          obtain ⟨t, e', ht⟩ := parseStr_sound _ _ _ _ (Nat.le_refl _) hs
          exact ⟨w, 0x22 :: (t ++ [0x22]), by rw [e, e']; simp, hw, .string ht⟩
        · cases h
      split at h
      · rename_i _ hc
        subst hc
        obtain ⟨w', e', hw'⟩ := skipWs_spec rest
        split at h
        · cases h
        rename_i d r' hsk'
        rw [hsk'] at e'
        split at h
        · rename_i hd
          subst hd
          cases h
          exact ⟨w, 0x7B :: (w' ++ [0x7D]), by rw [e, e']; simp, hw, .emptyObj hw'⟩
        · split at h
          · rename_i fs r'' hm
            cases h
            obtain ⟨m, e'', hm⟩ := ih3 _ _ _ hm
            exact ⟨w, 0x7B :: (w' ++ m ++ [0x7D]), by rw [e, e', e'']; simp, hw, .obj (JsonMembers.skip hw' hm)⟩
          · cases h
      split at h
      · rename_i _ _ hc
        subst hc
        obtain ⟨w', e', hw'⟩ := skipWs_spec rest
        split at h
        · cases h
        rename_i d r' hsk'
        rw [hsk'] at e'
        split at h
        · rename_i hd
          subst hd
          cases h
          exact ⟨w, 0x5B :: (w' ++ [0x5D]), by rw [e, e']; simp, hw, .emptyArr hw'⟩
        · split at h
          · rename_i fs r'' hm
            cases h
            obtain ⟨m, e'', hm⟩ := ih2 _ _ _ hm
            exact ⟨w, 0x5B :: (w' ++ m ++ [0x5D]), by rw [e, e', e'']; simp, hw, .arr (JsonElems.skip hw' hm)⟩
          · cases h
      split at h
      · rename_i _ _ _ hc
        subst hc
        obtain ⟨r', h1, h2⟩ := Option.map_eq_some_iff.mp h
        cases h2
        exact ⟨w, _, by rw [e, stripPrefix_some h1]; rfl, hw, .true⟩
      split at h
      · rename_i _ _ _ _ hc
        subst hc
        obtain ⟨r', h1, h2⟩ := Option.map_eq_some_iff.mp h
        cases h2
        exact ⟨w, _, by rw [e, stripPrefix_some h1]; rfl, hw, .false⟩
      split at h
      · rename_i _ _ _ _ _ hc
        subst hc
        obtain ⟨r', h1, h2⟩ := Option.map_eq_some_iff.mp h
        cases h2
        exact ⟨w, _, by rw [e, stripPrefix_some h1]; rfl, hw, .null⟩
      · obtain ⟨t, e', ht⟩ := parseNum_sound h
        exact ⟨w, t, by rw [e, e'], hw, .number ht⟩
    · intro b vs r h
      rw [parseElems] at h
      split at h
      · cases h
      rename_i v r1 hv
      obtain ⟨w, t, e, hw, ht⟩ := ih1 _ _ _ hv
      obtain ⟨w', e', hw'⟩ := skipWs_spec r1
      split at h
      · cases h
      rename_i c r2 hsk
      rw [hsk] at e'
      split at h
      · rename_i hc
        subst hc
        cases h
        exact ⟨w ++ t ++ w', by rw [e, e']; simp, .one hw ht hw'⟩
      split at h
      · rename_i _ hc
        subst hc
        split at h
        · rename_i vs' r3 hm
          cases h
          obtain ⟨m, e'', hm⟩ := ih2 _ _ _ hm
          exact ⟨w ++ t ++ w' ++ 0x2C :: m, by rw [e, e', e'']; simp, .more hw ht hw' hm⟩
        · cases h
      · cases h
    · intro b fs r h
      obtain ⟨w, e, hw⟩ := skipWs_spec b
      rw [parseMembers] at h
      split at h
      · cases h
      rename_i c rest hsk
      rw [hsk] at e
      split at h
      · cases h
      rename_i hc
      have hc : c = 0x22 := by simpa using hc
      subst hc
      split at h
      · cases h
      rename_i key r1 hs
      obtain ⟨k, e1, hk⟩ := parseStr_sound _ _ _ _ (Nat.le_refl _) hs
      obtain ⟨w1, e2, hw1⟩ := skipWs_spec r1
      split at h
      · cases h
      rename_i c r2 hsk
      rw [hsk] at e2
      split at h
      · cases h
      rename_i hc
      have hc : c = 0x3A := by simpa using hc
      subst hc
      split at h
      · cases h
      rename_i v r3 hv
      obtain ⟨w2, t, e3, hw2, ht⟩ := ih1 _ _ _ hv
      obtain ⟨w', e4, hw'⟩ := skipWs_spec r3
      split at h
      · cases h
      rename_i c r4 hsk
      rw [hsk] at e4
      split at h
      · rename_i hc
        subst hc
        cases h
        exact ⟨w ++ 0x22 :: (k ++ 0x22 :: (w1 ++ 0x3A :: (w2 ++ t ++ w'))), by rw [e, e1, e2, e3, e4]; simp, .one hw hk hw1 hw2 ht hw'⟩
      split at h
      · rename_i _ hc
        subst hc
        split at h
        · rename_i fs' r5 hm
          cases h
          obtain ⟨m, e5, hm⟩ := ih3 _ _ _ hm
          exact ⟨w ++ 0x22 :: (k ++ 0x22 :: (w1 ++ 0x3A :: (w2 ++ t ++ w' ++ 0x2C :: m))), by rw [e, e1, e2, e3, e4, e5]; simp,
            .more hw hk hw1 hw2 ht hw' hm⟩
        · cases h
      · cases h

/-- The reader accepts exactly the JSON documents, and reads what they say. -/
theorem parseDocument_iff (b : Bytes) (v : Value) : parseDocument b = some v ↔ JsonDocument b v := by
  constructor
  · intro h
    unfold parseDocument at h
    split at h
    · rename_i v' r hv
      split at h
      · rename_i hr
        cases h
        obtain ⟨w, t, e, hw, ht⟩ := (sound _).1 _ _ _ hv
        obtain ⟨w', e', hw'⟩ := skipWs_spec r
        rw [hr, List.append_nil] at e'
        exact ⟨w, t, r, by rw [e, List.append_assoc], hw, e' ▸ hw', ht⟩
      · cases h
    · cases h
  · rintro ⟨w, t, w', rfl, hw, hw', ht⟩
    unfold parseDocument
    have hst : Stops w' := by
      have := stops_ws hw' stops_nil
      rwa [List.append_nil] at this
    have := (complete t.length).1 t v (Nat.le_refl _) ht ((w ++ t ++ w').length + 1) w w' (by simp; omega) hw hst
    rw [← List.append_assoc] at this
    rw [this]
    simp only [skipWs_ws hw', if_true]

/-- A text says at most one thing. -/
theorem document_unique {b : Bytes} {v v' : Value} (h : JsonDocument b v) (h' : JsonDocument b v') : v = v' := by
  have := (parseDocument_iff b v).mpr h
  rw [(parseDocument_iff b v').mpr h'] at this
  exact (Option.some.inj this).symm

end Verif.Json
