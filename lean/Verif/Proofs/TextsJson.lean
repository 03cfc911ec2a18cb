import Verif.Proofs.Texts

/-! # Texts through the JSON reader and writer -/

namespace Verif.Proofs

open Verif Verif.Mm Verif.Json Verif.Decode Verif.Spec

theorem skipWs_text {l : Bytes} (h : IsText l) : IsText (skipWs l) := by
  induction l with
  | nil => exact h
  | cons b l ih =>
    rw [skipWs]
    split
    · rename_i hb
      apply ih
      refine isText_tail ?_ h
      simp only [isWs, Bool.or_eq_true, decide_eq_true_eq] at hb
      rcases hb with ((rfl | rfl) | rfl) | rfl <;> decide
    · exact h

theorem digit_ascii {b : UInt8} (h : isDigit b = true) : b < 0x80 := by
  simp only [isDigit, Bool.and_eq_true, decide_eq_true_eq, UInt8.le_iff_toNat_le] at h
  rw [UInt8.lt_iff_toNat_lt]
  simp at *
  omega

theorem takeWhile_digits (l : Bytes) : ∀ b ∈ l.takeWhile isDigit, b < 0x80 := by
  intro b hb
  have := List.all_takeWhile (p := isDigit) (l := l)
  rw [List.all_eq_true] at this
  exact digit_ascii (this b hb)

theorem dropWhile_digits {l : Bytes} (h : IsText l) : IsText (l.dropWhile isDigit) := by
  apply isText_rest (takeWhile_digits l)
  rw [List.takeWhile_append_dropWhile]
  exact h

theorem stripPrefix_text {p l r : Bytes} (hp : ∀ b ∈ p, b < 0x80) (hl : IsText l) (h : stripPrefix p l = some r) : IsText r := by
  induction p generalizing l with
  | nil => rw [stripPrefix] at h; injection h with h; exact h ▸ hl
  | cons x p ih =>
    cases l with
    | nil => rw [stripPrefix] at h; cases h
    | cons b l =>
      rw [stripPrefix] at h
      split at h
      · rename_i hx
        exact ih (fun y hy => hp y (by simp [hy])) (isText_tail (hx ▸ hp x (by simp)) hl) h
      · cases h

theorem push_some {p : Bytes} {o : Option (Bytes × Bytes)} {s r : Bytes} (h : push p o = some (s, r)) :
    ∃ s', o = some (s', r) ∧ s = p ++ s' := by
  cases o with
  | none => cases h
  | some q =>
    obtain ⟨a, b⟩ := q
    simp only [push, Option.some.injEq, Prod.mk.injEq] at h
    exact ⟨a, by rw [h.2], h.1.symm⟩

theorem hexVal_ascii {b : UInt8} {n : Nat} (h : hexVal b = some n) : b < 0x80 := by
  unfold hexVal at h
  rw [UInt8.lt_iff_toNat_lt]
  split at h
  · rename_i hb
    simp only [Bool.and_eq_true, decide_eq_true_eq, UInt8.le_iff_toNat_le] at hb
    simp at *; omega
  · split at h
    · rename_i hb
      simp only [Bool.and_eq_true, decide_eq_true_eq, UInt8.le_iff_toNat_le] at hb
      simp at *; omega
    · split at h
      · rename_i hb
        simp only [Bool.and_eq_true, decide_eq_true_eq, UInt8.le_iff_toNat_le] at hb
        simp at *; omega
      · cases h

theorem hexNum_ascii {a b c d : UInt8} {n : Nat} (h : hexNum a b c d = some n) : a < 0x80 ∧ b < 0x80 ∧ c < 0x80 ∧ d < 0x80 := by
  unfold hexNum at h
  split at h
  · rename_i h1 h2 h3 h4
    exact ⟨hexVal_ascii h1, hexVal_ascii h2, hexVal_ascii h3, hexVal_ascii h4⟩
  · cases h

theorem simpleEscape_ascii {e x : UInt8} (h : simpleEscape e = some x) : e < 0x80 ∧ x < 0x80 := by
  unfold simpleEscape at h
  repeat' split at h
  all_goals first
    | (cases h; done)
    | (injection h with h; subst h; rename_i he; subst he; decide)

theorem parseStr_pass (w r : Bytes) (hw : ∀ b ∈ w, ¬ b < 0x80) : parseStr (w ++ r) = push w (parseStr r) := by
  induction w with
  | nil =>
    cases h : parseStr r with
    | none => simp [push, h]
    | some q => simp [push, h]
  | cons b w ih =>
    have hb := hw b (by simp)
    have n1 : b ≠ 0x22 := by rintro rfl; exact hb (by decide)
    have n2 : b ≠ 0x5C := by rintro rfl; exact hb (by decide)
    have n3 : ¬ b < 0x20 := by
      intro h
      apply hb
      rw [UInt8.lt_iff_toNat_lt] at *
      simp at *
      omega
    rw [List.cons_append, parseStr.eq_def]
    simp only []
    rw [if_neg n1, if_neg n2, if_neg n3, ih fun x hx => hw x (by simp [hx])]
    cases parseStr r with
    | none => rfl
    | some q => simp [push]

theorem isText_codePoint (n : Nat) : IsText (codePoint n) := isText_char _

theorem parseStr_text : ∀ (n : Nat) (l : Bytes), l.length ≤ n → IsText l → ∀ s r, parseStr l = some (s, r) → IsText s ∧ IsText r
  | 0, l, hn, _, s, r, h => by
    cases l with
    | nil => rw [parseStr] at h; cases h
    | cons => simp at hn
  | n + 1, l, hn, hl, s, r, h => by
    rcases isText_cases hl with rfl | ⟨b, rest, rfl, hb, hr⟩ | ⟨w, rest, rfl, hne, hw, hwt, hr⟩
    · rw [parseStr] at h; cases h
    · have hlen : rest.length ≤ n := by simpa using hn
      rw [parseStr.eq_def] at h
      simp only [] at h
      split at h
      · simp only [Option.some.injEq, Prod.mk.injEq] at h
        rw [← h.1, ← h.2]
        exact ⟨isText_nil, hr⟩
      · split at h
        · split at h
          · cases h
          · rename_i e rest'
            split at h
            · rename_i he
              subst he
              have hr' : IsText rest' := isText_tail (by decide) hr
              split at h
              · rename_i x1 x2 x3 x4 rest''
                split at h
                · cases h
                · rename_i k hk
                  obtain ⟨a1, a2, a3, a4⟩ := hexNum_ascii hk
                  have hr'' : IsText rest'' := isText_tail a4 (isText_tail a3 (isText_tail a2 (isText_tail a1 hr')))
                  split at h
                  · split at h
                    · rename_i x y b1 b2 b3 b4 tail
                      split at h
                      · rename_i hxy
                        split at h
                        · cases h
                        · rename_i m hm
                          obtain ⟨c1, c2, c3, c4⟩ := hexNum_ascii hm
                          split at h
                          · generalize hcp : codePoint (0x10000 + (k - 0xD800) * 0x400 + (m - 0xDC00)) = cp at h
                            have hcpt : IsText cp := hcp ▸ isText_codePoint _
                            obtain ⟨s', h', rfl⟩ := push_some h
                            have ht : IsText tail := by
                              refine isText_tail c4 (isText_tail c3 (isText_tail c2 (isText_tail c1 (isText_tail (b := y) ?_ (isText_tail (b := x) ?_ hr'')))))
                              · rw [hxy.2]; exact (by decide : (0x75 : UInt8) < 0x80)
                              · rw [hxy.1]; exact (by decide : (0x5C : UInt8) < 0x80)
                            have := parseStr_text n tail (by simp at hlen; omega) ht s' r h'
                            exact ⟨isText_append hcpt this.1, this.2⟩
                          · cases h
                      · cases h
                    · cases h
                  · split at h
                    · cases h
                    · obtain ⟨s', h', rfl⟩ := push_some h
                      have := parseStr_text n rest'' (by simp at hlen; omega) hr'' s' r h'
                      exact ⟨isText_append (isText_codePoint _) this.1, this.2⟩
              · cases h
            · split at h
              · rename_i x hx
                obtain ⟨s', h', rfl⟩ := push_some h
                obtain ⟨ha, hxa⟩ := simpleEscape_ascii hx
                have := parseStr_text n rest' (by simp at hlen; omega) (isText_tail ha hr) s' r h'
                exact ⟨isText_append (isText_ascii hxa) this.1, this.2⟩
              · cases h
        · split at h
          · cases h
          · obtain ⟨s', h', rfl⟩ := push_some h
            have := parseStr_text n rest hlen hr s' r h'
            exact ⟨isText_append (isText_ascii hb) this.1, this.2⟩
    · rw [parseStr_pass w rest hw] at h
      obtain ⟨s', h', rfl⟩ := push_some h
      have hpos := List.length_pos_iff.2 hne
      have := parseStr_text n rest (by simp at hn; omega) hr s' r h'
      exact ⟨isText_append hwt this.1, this.2⟩

theorem parseFrac_text {l f r : Bytes} (hl : IsText l) (h : parseFrac l = some (f, r)) : IsText f ∧ IsText r := by
  unfold parseFrac at h
  split at h
  · simp only [Option.some.injEq, Prod.mk.injEq] at h
    rw [← h.1, ← h.2]; exact ⟨isText_nil, isText_nil⟩
  · rename_i c rest
    split at h
    · rename_i hc
      subst hc
      have hr := isText_tail (by decide) hl
      split at h
      · cases h
      · simp only [Option.some.injEq, Prod.mk.injEq] at h
        rw [← h.1, ← h.2]
        exact ⟨isText_cons_ascii (by decide) (isText_allAscii (takeWhile_digits _)), dropWhile_digits hr⟩
    · simp only [Option.some.injEq, Prod.mk.injEq] at h
      rw [← h.1, ← h.2]; exact ⟨isText_nil, hl⟩

theorem parseSign_text {l : Bytes} (hl : IsText l) : IsText (parseSign l).1 ∧ IsText (parseSign l).2 := by
  unfold parseSign
  split
  · exact ⟨isText_nil, isText_nil⟩
  · rename_i c r
    split
    · rename_i hc
      have ha : c < 0x80 := by rcases hc with rfl | rfl <;> decide
      exact ⟨isText_ascii ha, isText_tail ha hl⟩
    · exact ⟨isText_nil, hl⟩

theorem parseMinus_text {l : Bytes} (hl : IsText l) : IsText (parseMinus l).1 ∧ IsText (parseMinus l).2 := by
  unfold parseMinus
  split
  · exact ⟨isText_nil, isText_nil⟩
  · rename_i c r
    split
    · rename_i hc
      subst hc
      exact ⟨isText_ascii (by decide), isText_tail (by decide) hl⟩
    · exact ⟨isText_nil, hl⟩

theorem parseExp_text {l f r : Bytes} (hl : IsText l) (h : parseExp l = some (f, r)) : IsText f ∧ IsText r := by
  unfold parseExp at h
  split at h
  · simp only [Option.some.injEq, Prod.mk.injEq] at h
    rw [← h.1, ← h.2]; exact ⟨isText_nil, isText_nil⟩
  · rename_i c rest
    split at h
    · rename_i hc
      have ha : c < 0x80 := by rcases hc with rfl | rfl <;> decide
      have hr := isText_tail ha hl
      split at h
      · cases h
      · simp only [Option.some.injEq, Prod.mk.injEq] at h
        rw [← h.1, ← h.2]
        exact ⟨isText_cons_ascii ha (isText_append (parseSign_text hr).1 (isText_allAscii (takeWhile_digits _))),
          dropWhile_digits (parseSign_text hr).2⟩
    · simp only [Option.some.injEq, Prod.mk.injEq] at h
      rw [← h.1, ← h.2]; exact ⟨isText_nil, hl⟩

theorem parseNum_text {l r : Bytes} {v : Value} (hl : IsText l) (h : parseNum l = some (v, r)) : AllText v ∧ IsText r := by
  unfold parseNum at h
  have hm := parseMinus_text hl
  simp only [] at h
  split at h
  · cases h
  · split at h
    · cases h
    · split at h
      · cases h
      · rename_i frac rest hf
        have hf' := parseFrac_text (dropWhile_digits hm.2) hf
        split at h
        · cases h
        · rename_i exp rest' he
          have he' := parseExp_text hf'.2 he
          split at h
          · simp only [Option.some.injEq, Prod.mk.injEq] at h
            rw [← h.1, ← h.2]
            exact ⟨.num _, he'.2⟩
          · simp only [Option.some.injEq, Prod.mk.injEq] at h
            rw [← h.1, ← h.2]
            exact ⟨.real (isText_append (isText_append (isText_append hm.1 (isText_allAscii (takeWhile_digits _))) hf'.1) he'.1), he'.2⟩

mutual
theorem parseValue_text (fuel : Nat) (l : Bytes) (hl : IsText l) (v : Value) (r : Bytes) (h : parseValue fuel l = some (v, r)) :
    AllText v ∧ IsText r := by
  match fuel with
  | 0 => rw [parseValue] at h; cases h
  | fuel + 1 =>
    rw [parseValue] at h
    have hs := skipWs_text hl
    split at h
    · cases h
    · rename_i c rest he
      rw [he] at hs
      split at h
      · rename_i hc
        subst hc
        split at h
        · rename_i s r' hp
          simp only [Option.some.injEq, Prod.mk.injEq] at h
          rw [← h.1, ← h.2]
          have := parseStr_text _ _ (Nat.le_refl _) (isText_tail (by decide) hs) _ _ hp
          exact ⟨.str this.1, this.2⟩
        · cases h
      · split at h
        · rename_i hc
          subst hc
          have hs' := skipWs_text (isText_tail (by decide) hs)
          split at h
          · cases h
          · rename_i d r' he'
            rw [he'] at hs'
            split at h
            · rename_i hd
              subst hd
              simp only [Option.some.injEq, Prod.mk.injEq] at h
              rw [← h.1, ← h.2]
              exact ⟨.obj (by simp) (by simp), isText_tail (by decide) hs'⟩
            · split at h
              · rename_i fs r'' hp
                simp only [Option.some.injEq, Prod.mk.injEq] at h
                rw [← h.1, ← h.2]
                obtain ⟨h1, h2, h3⟩ := parseMembers_text fuel _ hs' _ _ hp
                exact ⟨.obj h1 h2, h3⟩
              · cases h
        · split at h
          · rename_i hc
            subst hc
            have hs' := skipWs_text (isText_tail (by decide) hs)
            split at h
            · cases h
            · rename_i d r' he'
              rw [he'] at hs'
              split at h
              · rename_i hd
                subst hd
                simp only [Option.some.injEq, Prod.mk.injEq] at h
                rw [← h.1, ← h.2]
                exact ⟨.arr (by simp), isText_tail (by decide) hs'⟩
              · split at h
                · rename_i fs r'' hp
                  simp only [Option.some.injEq, Prod.mk.injEq] at h
                  rw [← h.1, ← h.2]
                  obtain ⟨h1, h3⟩ := parseElems_text fuel _ hs' _ _ hp
                  exact ⟨.arr h1, h3⟩
                · cases h
          · have lit : ∀ (p : Bytes) (w : Value), (∀ b ∈ p, b < 0x80) → AllText w → c < 0x80 →
                (stripPrefix p rest).map (fun r => (w, r)) = some (v, r) → AllText v ∧ IsText r := by
              intro p w hp hw hc hm
              simp only [Option.map_eq_some_iff, Prod.mk.injEq] at hm
              obtain ⟨r', h1, h2, h3⟩ := hm
              rw [← h2, ← h3]
              exact ⟨hw, stripPrefix_text hp (isText_tail hc hs) h1⟩
            split at h
            · rename_i hc
              exact lit _ _ (by decide) (.bool _) (by rw [hc]; decide) h
            · split at h
              · rename_i hc
                exact lit _ _ (by decide) (.bool _) (by rw [hc]; decide) h
              · split at h
                · rename_i hc
                  exact lit _ _ (by decide) .null (by rw [hc]; decide) h
                · exact parseNum_text hs h
theorem parseMembers_text (fuel : Nat) (l : Bytes) (hl : IsText l) (fs : List (Bytes × Value)) (r : Bytes)
    (h : parseMembers fuel l = some (fs, r)) : (∀ f ∈ fs, IsText f.1) ∧ (∀ f ∈ fs, AllText f.2) ∧ IsText r := by
  match fuel with
  | 0 => rw [parseMembers] at h; cases h
  | fuel + 1 =>
    rw [parseMembers] at h
    have hs := skipWs_text hl
    split at h
    · cases h
    · rename_i c rest he
      rw [he] at hs
      split at h
      · cases h
      · rename_i hc
        simp only [ne_eq, Decidable.not_not] at hc
        subst hc
        split at h
        · cases h
        · rename_i key r1 hk
          obtain ⟨k1, k2⟩ := parseStr_text _ _ (Nat.le_refl _) (isText_tail (by decide) hs) _ _ hk
          have hs1 := skipWs_text k2
          split at h
          · cases h
          · rename_i c1 r2 he1
            rw [he1] at hs1
            split at h
            · cases h
            · rename_i hc
              simp only [ne_eq, Decidable.not_not] at hc
              subst hc
              split at h
              · cases h
              · rename_i v r3 hv
                obtain ⟨v1, v2⟩ := parseValue_text fuel _ (isText_tail (by decide) hs1) _ _ hv
                have hs2 := skipWs_text v2
                split at h
                · cases h
                · rename_i c2 r4 he2
                  rw [he2] at hs2
                  split at h
                  · rename_i hc
                    subst hc
                    simp only [Option.some.injEq, Prod.mk.injEq] at h
                    rw [← h.1, ← h.2]
                    refine ⟨?_, ?_, isText_tail (by decide) hs2⟩ <;> intro f hf <;> rw [List.mem_singleton] at hf <;> subst hf
                    · exact k1
                    · exact v1
                  · split at h
                    · rename_i hc
                      subst hc
                      split at h
                      · rename_i fs' r5 hm
                        simp only [Option.some.injEq, Prod.mk.injEq] at h
                        rw [← h.1, ← h.2]
                        obtain ⟨m1, m2, m3⟩ := parseMembers_text fuel _ (isText_tail (by decide) hs2) _ _ hm
                        refine ⟨?_, ?_, m3⟩ <;> intro f hf <;> rcases List.mem_cons.1 hf with rfl | hf
                        · exact k1
                        · exact m1 f hf
                        · exact v1
                        · exact m2 f hf
                      · cases h
                    · cases h
theorem parseElems_text (fuel : Nat) (l : Bytes) (hl : IsText l) (vs : List Value) (r : Bytes)
    (h : parseElems fuel l = some (vs, r)) : (∀ v ∈ vs, AllText v) ∧ IsText r := by
  match fuel with
  | 0 => rw [parseElems] at h; cases h
  | fuel + 1 =>
    rw [parseElems] at h
    split at h
    · cases h
    · rename_i v r3 hv
      obtain ⟨v1, v2⟩ := parseValue_text fuel _ hl _ _ hv
      have hs2 := skipWs_text v2
      split at h
      · cases h
      · rename_i c2 r4 he2
        rw [he2] at hs2
        split at h
        · rename_i hc
          subst hc
          simp only [Option.some.injEq, Prod.mk.injEq] at h
          rw [← h.1, ← h.2]
          refine ⟨?_, isText_tail (by decide) hs2⟩
          intro f hf
          rw [List.mem_singleton] at hf
          exact hf ▸ v1
        · split at h
          · rename_i hc
            subst hc
            split at h
            · rename_i vs' r5 hm
              simp only [Option.some.injEq, Prod.mk.injEq] at h
              rw [← h.1, ← h.2]
              obtain ⟨m1, m3⟩ := parseElems_text fuel _ (isText_tail (by decide) hs2) _ _ hm
              refine ⟨?_, m3⟩
              intro f hf
              rcases List.mem_cons.1 hf with rfl | hf
              · exact v1
              · exact m1 f hf
            · cases h
          · cases h
end

theorem parseDocument_text {l : Bytes} (hl : IsText l) {v : Value} (h : parseDocument l = some v) : AllText v := by
  unfold parseDocument at h
  split at h
  · rename_i w r hp
    split at h
    · injection h with h
      exact h ▸ (parseValue_text _ _ hl _ _ hp).1
    · cases h
  · cases h

theorem fieldValues_text {name : Bytes} {fs : List (Bytes × Value)} (h : ∀ f ∈ fs, AllText f.2) : ∀ v ∈ fieldValues name fs, AllText v := by
  intro v hv
  simp only [fieldValues, List.mem_map, List.mem_filter] at hv
  obtain ⟨f, ⟨hf, _⟩, rfl⟩ := hv
  exact h f hf

theorem metadataOf_text {v : Value} (hv : AllText v) {m : Metadata} (h : metadataOf v = some m) : IsText m.cmd := by
  unfold metadataOf at h
  split at h
  · rename_i fs
    cases hv with
    | obj _ hfs =>
      split at h
      · rename_i s p c h1 h2 h3
        split at h
        · injection h with h
          rw [← h]
          have := fieldValues_text (name := utf8 "cmd") hfs (.str c) (by rw [h3]; simp)
          cases this with
          | str hc => exact hc
        · cases h
      · cases h
  · rename_i s p c
    split at h
    · injection h with h
      rw [← h]
      cases hv with
      | arr hvs =>
        have := hvs (.str c) (by simp)
        cases this with
        | str hc => exact hc
    · cases h
  · cases h

theorem parseMetadata_text {l : Bytes} (hl : IsText l) {m : Metadata} (h : parseMetadata l = .ok m) : IsText m.cmd := by
  unfold parseMetadata at h
  split at h
  · cases h
  · rename_i v hv
    split at h
    · rename_i m' hm
      injection h with h
      exact h ▸ metadataOf_text (parseDocument_text hl hv) hm
    · cases h

/-! ## The writer -/

theorem hexOut_ascii (n : Nat) (h : n < 16) : hexOut n < 0x80 := by
  unfold hexOut
  rw [UInt8.lt_iff_toNat_lt]
  split <;> rw [u8_ofNat_toNat_lt (by omega)] <;> simp <;> omega

theorem escapeByte_ascii {b : UInt8} (hb : b < 0x80) : ∀ x ∈ escapeByte b, x < 0x80 := by
  intro x hx
  unfold escapeByte at hx
  repeat' split at hx
  all_goals simp only [List.mem_cons, List.not_mem_nil, or_false] at hx
  all_goals first
    | (rcases hx with rfl | rfl <;> decide)
    | (have := b.toNat_lt
       rcases hx with rfl | rfl | rfl | rfl | rfl | rfl <;> first | decide | exact hexOut_ascii _ (by omega))
    | exact hx ▸ hb

theorem escapeByte_other {b : UInt8} (hb : ¬ b < 0x80) : escapeByte b = [b] := by
  have ne : ∀ k : UInt8, k < 0x80 → b ≠ k := by rintro k hk rfl; exact hb hk
  unfold escapeByte
  rw [if_neg (ne _ (by decide)), if_neg (ne _ (by decide)), if_neg (ne _ (by decide)), if_neg (ne _ (by decide)), if_neg (ne _ (by decide)),
    if_neg (ne _ (by decide)), if_neg (ne _ (by decide)), if_neg]
  intro h
  apply hb
  rw [UInt8.lt_iff_toNat_lt] at *
  simp at *
  omega

theorem escape_text : ∀ (n : Nat) (l : Bytes), l.length ≤ n → IsText l → IsText (l.flatMap escapeByte)
  | 0, l, hn, _ => by
    cases l with
    | nil => exact isText_nil
    | cons => simp at hn
  | n + 1, l, hn, hl => by
    rcases isText_cases hl with rfl | ⟨b, rest, rfl, hb, hr⟩ | ⟨w, rest, rfl, hne, hw, hwt, hr⟩
    · exact isText_nil
    · rw [List.flatMap_cons]
      exact isText_append (isText_allAscii (escapeByte_ascii hb)) (escape_text n rest (by simpa using hn) hr)
    · rw [List.flatMap_append]
      have e : w.flatMap escapeByte = w := by
        clear hn hl hne hwt
        induction w with
        | nil => rfl
        | cons b w ih => rw [List.flatMap_cons, escapeByte_other (hw b (by simp)), ih fun x hx => hw x (by simp [hx])]; rfl
      rw [e]
      have hpos := List.length_pos_iff.2 hne
      exact isText_append hwt (escape_text n rest (by simp at hn; omega) hr)

theorem quote_text {s : Bytes} (h : IsText s) : IsText (quote s) :=
  isText_cons_ascii (by decide) (isText_append (escape_text _ _ (Nat.le_refl _) h) (isText_ascii (by decide)))

mutual
theorem render_text (v : Value) (h : AllText v) : IsText (render v) := by
  match v with
  | .null => rw [render]; exact isText_allAscii (by decide)
  | .bool true => rw [render]; exact isText_allAscii (by decide)
  | .bool false => rw [render]; exact isText_allAscii (by decide)
  | .num n => rw [render]; exact isText_utf8 _
  | .real t => rw [render]; cases h with | real h => exact h
  | .str s => rw [render]; cases h with | str h => exact quote_text h
  | .arr vs =>
    rw [render]
    cases h with
    | arr h => exact isText_cons_ascii (by decide) (isText_append (renderElems_text vs h) (isText_ascii (by decide)))
  | .obj fs =>
    rw [render]
    cases h with
    | obj hk h => exact isText_cons_ascii (by decide) (isText_append (renderMembers_text fs hk h) (isText_ascii (by decide)))
theorem renderElems_text (vs : List Value) (h : ∀ v ∈ vs, AllText v) : IsText (renderElems vs) := by
  match vs with
  | [] => rw [renderElems]; exact isText_nil
  | [v] => rw [renderElems]; exact render_text v (h v (by simp))
  | v :: w :: vs =>
    rw [renderElems]
    exact isText_append (render_text v (h v (by simp)))
      (isText_cons_ascii (by decide) (renderElems_text (w :: vs) fun x hx => h x (List.mem_cons_of_mem _ hx)))
theorem renderMembers_text (fs : List (Bytes × Value)) (hk : ∀ f ∈ fs, IsText f.1) (h : ∀ f ∈ fs, AllText f.2) : IsText (renderMembers fs) := by
  match fs with
  | [] => rw [renderMembers]; exact isText_nil
  | [(k, v)] =>
    rw [renderMembers]
    exact isText_append (quote_text (hk (k, v) (by simp))) (isText_cons_ascii (by decide) (render_text v (h (k, v) (by simp))))
  | (k, v) :: g :: fs =>
    rw [renderMembers]
    exact isText_append (quote_text (hk (k, v) (by simp))) (isText_cons_ascii (by decide)
      (isText_append (render_text v (h (k, v) (by simp))) (isText_cons_ascii (by decide)
        (renderMembers_text (g :: fs) (fun x hx => hk x (List.mem_cons_of_mem _ hx)) fun x hx => h x (List.mem_cons_of_mem _ hx)))))
end

end Verif.Proofs
