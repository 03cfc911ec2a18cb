import Verif.Model.Path
import Verif.Spec.Path
import Mathlib.Data.List.TakeWhile

/-! # Proofs about file names -/

namespace Verif.Proofs

open Verif Verif.Mm Verif.Paths Verif.Spec

theorem skipBack_slash (l : Bytes) : skipBack (slash :: l) = skipBack l := by
  cases l with
  | nil => rfl
  | cons b l => simp [skipBack]

theorem skipBack_dotSlash (l : Bytes) : skipBack (dot :: slash :: l) = skipBack l := by
  simp [skipBack, slash, dot]

theorem skipBack_trailing {t : Bytes} (h : Trailing t) (x : Bytes) : skipBack ((x ++ t).reverse) = skipBack x.reverse := by
  induction h with
  | nil => simp
  | @sep t _ ih =>
    rw [← List.append_assoc, List.reverse_append]
    exact (skipBack_slash _).trans ih
  | @cur t _ ih =>
    rw [← List.append_assoc, List.reverse_append]
    exact (skipBack_dotSlash _).trans ih

theorem trailing_cons_slash {t : Bytes} (h : Trailing t) : Trailing (0x2F :: t) := by
  induction h with
  | nil => exact Trailing.sep .nil
  | sep _ ih => exact Trailing.sep ih
  | cur _ ih => exact Trailing.cur ih

theorem skipBack_split : ∀ (n : Nat) (l : Bytes), l.length ≤ n → ∃ t, Trailing t ∧ l = t.reverse ++ skipBack l
  | _, [], _ => ⟨[], .nil, rfl⟩
  | _, [b], _ => by
    by_cases hb : b = slash
    · exact ⟨[0x2F], Trailing.sep .nil, by simp [skipBack, hb, slash]⟩
    · exact ⟨[], .nil, by simp [skipBack, hb]⟩
  | 0, _ :: _ :: _, h => by simp at h
  | n + 1, b :: c :: r, h => by
    by_cases hb : b = slash
    · obtain ⟨t, ht, he⟩ := skipBack_split n (c :: r) (by simp at h ⊢; omega)
      refine ⟨t ++ [0x2F], Trailing.sep ht, ?_⟩
      rw [hb, skipBack_slash]
      simp only [List.reverse_append, List.reverse_cons, List.reverse_nil, List.nil_append, List.cons_append]
      rw [← he]; rfl
    · by_cases hd : b = dot ∧ c = slash
      · obtain ⟨t, ht, he⟩ := skipBack_split n r (by simp at h; omega)
        refine ⟨t ++ [0x2F, 0x2E], Trailing.cur ht, ?_⟩
        rw [hd.1, hd.2, skipBack_dotSlash]
        simp only [List.reverse_append, List.reverse_cons, List.reverse_nil, List.nil_append, List.cons_append]
        rw [← he]; rfl
      · refine ⟨[], .nil, ?_⟩
        have : skipBack (b :: c :: r) = b :: c :: r := by simp only [skipBack, if_neg hb, if_neg hd]
        simp [this]

theorem skipBack_head : ∀ (n : Nat) (l : Bytes), l.length ≤ n → (skipBack l).head? ≠ some slash
  | _, [], _ => by simp [skipBack]
  | _, [b], _ => by
    by_cases hb : b = slash
    · simp [skipBack, hb]
    · simp [skipBack, hb]
  | 0, _ :: _ :: _, h => by simp at h
  | n + 1, b :: c :: r, h => by
    by_cases hb : b = slash
    · rw [hb, skipBack_slash]; exact skipBack_head n _ (by simp at h ⊢; omega)
    · by_cases hd : b = dot ∧ c = slash
      · rw [hd.1, hd.2, skipBack_dotSlash]; exact skipBack_head n _ (by simp at h; omega)
      · simp only [skipBack, if_neg hb, if_neg hd]; simpa using hb

theorem skipBack_id {l : Bytes} (h1 : l.head? ≠ some slash) (h2 : ∀ r, l ≠ dot :: slash :: r) : skipBack l = l := by
  match l with
  | [] => rfl
  | [b] => simp at h1; simp [skipBack, h1]
  | b :: c :: r =>
    have hb : ¬ b = slash := by simpa using h1
    have hd : ¬ (b = dot ∧ c = slash) := by rintro ⟨rfl, rfl⟩; exact h2 r rfl
    simp only [skipBack, if_neg hb, if_neg hd]

theorem takeWhile_dropWhile_append {α : Type} (p : α → Bool) (a b : List α) (ha : ∀ x ∈ a, p x = true)
    (hb : ∀ x, b.head? = some x → p x = false) : (a ++ b).takeWhile p = a ∧ (a ++ b).dropWhile p = b := by
  induction a with
  | nil =>
    cases b with
    | nil => exact ⟨rfl, rfl⟩
    | cons x b => simp [hb x rfl]
  | cons x a ih =>
    obtain ⟨h1, h2⟩ := ih fun y hy => ha y (by simp [hy])
    simp [ha x (by simp), h1, h2]

theorem fileName_iff (p dir name : Bytes) : fileName p = some (dir, name) ↔ Names p dir name := by
  constructor
  · intro h
    unfold fileName at h
    simp only at h
    split at h
    · cases h
    · next hn =>
      simp only [not_or] at hn
      simp only [Option.some.injEq, Prod.mk.injEq] at h
      obtain ⟨hd, hname⟩ := h
      rw [hname] at hn
      obtain ⟨t, ht, he⟩ := skipBack_split _ p.reverse (Nat.le_refl _)
      have hsplit := List.takeWhile_append_dropWhile (p := fun b => decide (b ≠ slash)) (l := skipBack p.reverse)
      refine ⟨⟨t, ht, ?_⟩, ?_, ?_, hn.1, hn.2.1, hn.2.2⟩
      · have := congrArg List.reverse he
        rw [List.reverse_reverse, List.reverse_append, List.reverse_reverse, ← hsplit, List.reverse_append, hd, hname] at this
        exact this
      · by_cases hz : dir = []
        · exact Or.inl hz
        · refine Or.inr ?_
          rw [← hd, List.getLast?_reverse]
          rw [← hd] at hz
          have hz' : (skipBack p.reverse).dropWhile (fun b => decide (b ≠ slash)) ≠ [] := by simpa using hz
          have := List.head?_dropWhile_not (fun b => decide (b ≠ slash)) (skipBack p.reverse)
          cases hh : ((skipBack p.reverse).dropWhile (fun b => decide (b ≠ slash))).head? with
          | none => simp at hh; exact absurd (by simpa using hh) hz'
          | some x => rw [hh] at this; simp at this; rw [this]; rfl
      · intro hm
        rw [← hname, List.mem_reverse] at hm
        have := List.mem_takeWhile_imp hm
        simp [slash] at this
  · rintro ⟨⟨t, ht, rfl⟩, hdir, hslash, h1, h2, h3⟩
    have e : skipBack ((dir ++ name ++ t).reverse) = name.reverse ++ dir.reverse := by
      rw [skipBack_trailing ht, skipBack_id, List.reverse_append]
      · rw [List.reverse_append]
        cases hr : name.reverse with
        | nil => simp at hr; exact absurd hr h1
        | cons x l =>
          simp only [List.cons_append, List.head?_cons, ne_eq, Option.some.injEq]
          intro hx
          have : x ∈ name.reverse := by simp [hr]
          rw [hx] at this
          exact hslash (by simpa [slash] using this)
      · intro r hr
        rw [List.reverse_append] at hr
        match hn : name.reverse with
        | [] => simp at hn; exact h1 hn
        | [x] =>
          rw [hn] at hr
          have hx : x = dot := (List.cons.inj hr).1
          apply h2
          have := congrArg List.reverse hn
          rw [List.reverse_reverse, hx] at this
          exact this
        | x :: y :: l =>
          rw [hn] at hr
          have hy : y = slash := (List.cons.inj (List.cons.inj hr).2).1
          have : y ∈ name.reverse := by simp [hn]
          rw [hy] at this
          exact hslash (by simpa [slash] using this)
    unfold fileName
    rw [e]
    obtain ⟨t1, t2⟩ := takeWhile_dropWhile_append (fun b => decide (b ≠ slash)) name.reverse dir.reverse
      (by intro x hx; simp only [decide_eq_true_eq]; rintro rfl; exact hslash (by simpa [slash] using hx))
      (by
        intro x hx
        rcases hdir with rfl | hdir
        · simp at hx
        · rw [List.head?_reverse, hdir] at hx
          cases hx
          simp [slash])
    simp only [t1, t2, List.reverse_reverse]
    rw [if_neg]
    simp only [not_or]
    exact ⟨h1, h2, h3⟩

theorem fileStem_ext {name stem ext : Bytes} (h : HasExtension name stem ext) : fileStem name = stem := by
  obtain ⟨rfl, h1, h2⟩ := h
  unfold fileStem
  have : (stem ++ [0x2E] ++ ext).reverse = ext.reverse ++ dot :: stem.reverse := by simp [dot]
  rw [this]
  rw [(takeWhile_dropWhile_append (fun b => decide (b ≠ dot)) ext.reverse (dot :: stem.reverse)
    (by intro x hx; simp only [decide_eq_true_eq]; rintro rfl; exact h2 (by simpa [dot] using hx))
    (by intro x hx; cases hx; simp)).2]
  simp [h1]

theorem fileStem_cases (name : Bytes) : (∃ ext, HasExtension name (fileStem name) ext) ∨
    (fileStem name = name ∧ ∀ stem ext, ¬ HasExtension name stem ext) := by
  unfold fileStem
  have hsplit := List.takeWhile_append_dropWhile (p := fun b => decide (b ≠ dot)) (l := name.reverse)
  cases hd : name.reverse.dropWhile fun b => decide (b ≠ dot) with
  | nil =>
    right
    refine ⟨rfl, ?_⟩
    rintro stem ext ⟨rfl, -, -⟩
    have : dot ∈ (stem ++ [0x2E] ++ ext).reverse := by simp [dot]
    rw [← hsplit, hd, List.append_nil] at this
    have := List.mem_takeWhile_imp this
    simp at this
  | cons x r =>
    have hx : x = dot := by
      have := List.head?_dropWhile_not (fun b => decide (b ≠ dot)) name.reverse
      rw [hd] at this
      simpa using this
    have hnot : dot ∉ name.reverse.takeWhile fun b => decide (b ≠ dot) := by
      intro hm
      have := List.mem_takeWhile_imp hm
      simp at this
    rw [hd] at hsplit
    have hname : name = r.reverse ++ [dot] ++ (name.reverse.takeWhile fun b => decide (b ≠ dot)).reverse := by
      have := congrArg List.reverse hsplit
      rw [List.reverse_reverse, List.reverse_append, List.reverse_cons, hx] at this
      exact this.symm
    by_cases hr : r = []
    · right
      simp only [hr, if_true]
      refine ⟨trivial, ?_⟩
      rintro stem ext hh
      have h1 := fileStem_ext hh
      unfold fileStem at h1
      rw [hd] at h1
      simp only [hr, if_true] at h1
      have h2 := congrArg List.length hh.1
      rw [h1] at h2
      simp at h2
    · left
      simp only [hr, if_false]
      exact ⟨_, hname, by simpa using hr, fun hm => hnot (by simpa [dot] using hm)⟩

theorem fileStem_ne_nil {name : Bytes} (h : name ≠ []) : fileStem name ≠ [] := by
  rcases fileStem_cases name with ⟨ext, h1⟩ | h1
  · exact h1.2.1
  · rw [h1.1]; exact h

/-- The name of a path with a new extension. -/
theorem names_withExtension {p dir name : Bytes} (h : Names p dir name) {ext : Bytes} (he : (0x2F : UInt8) ∉ ext)
    (hd : 2 ≤ ext.length) : Names (withExtension p ext) dir (fileStem name ++ [0x2E] ++ ext) := by
  have e : withExtension p ext = dir ++ fileStem name ++ [dot] ++ ext := by
    unfold withExtension
    rw [(fileName_iff p dir name).2 h]
  rw [e]
  obtain ⟨-, h1, h2, h3, -, -⟩ := h
  have hs : (0x2F : UInt8) ∉ fileStem name := by
    rcases fileStem_cases name with ⟨x, hx⟩ | hx
    · intro hm; exact h2 (by rw [hx.1]; simp [hm])
    · rw [hx.1]; exact h2
  refine ⟨⟨[], .nil, by simp [dot]⟩, h1, ?_, by simp, ?_, ?_⟩
  · simp only [List.mem_append, List.mem_cons, List.not_mem_nil, or_false, not_or]
    exact ⟨⟨hs, by decide⟩, he⟩
  · intro hh; have := congrArg List.length hh; simp at this; omega
  · intro hh; have := congrArg List.length hh; simp at this; omega

theorem withExtension_of_names {p dir name : Bytes} (h : Names p dir name) (ext : Bytes) :
    withExtension p ext = dir ++ fileStem name ++ [dot] ++ ext := by
  unfold withExtension
  rw [(fileName_iff p dir name).2 h]

theorem names_unique {p d n d' n' : Bytes} (h : Names p d n) (h' : Names p d' n') : d = d' ∧ n = n' := by
  have := ((fileName_iff p d n).2 h).symm.trans ((fileName_iff p d' n').2 h')
  cases this
  exact ⟨rfl, rfl⟩

end Verif.Proofs
