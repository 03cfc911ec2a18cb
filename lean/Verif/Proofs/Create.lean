import Verif.Model.Create
import Verif.Proofs.Path

/-! # Proofs about the directory of a new profile -/

namespace Verif.Proofs

open Verif Verif.Mm Verif.Paths Verif.Spec

theorem skipBack_nil_iff (p : Bytes) : skipBack p.reverse = [] ↔ Trailing p := by
  constructor
  · intro h
    obtain ⟨t, ht, he⟩ := skipBack_split _ p.reverse (Nat.le_refl _)
    rw [h, List.append_nil] at he
    rw [List.reverse_injective he]
    exact ht
  · intro h
    have := skipBack_trailing h []
    simpa [skipBack] using this

theorem skipBack_dot : ∀ (n : Nat) (l : Bytes), l.length ≤ n → ∀ r, skipBack l ≠ dot :: slash :: r
  | _, [], _ => by simp [skipBack]
  | _, [b], _ => by intro r; unfold skipBack; split <;> simp
  | 0, _ :: _ :: _, h => by simp at h
  | n + 1, b :: c :: l, h => by
    intro r
    by_cases hb : b = slash
    · rw [hb, skipBack_slash]
      exact skipBack_dot n (c :: l) (by simp at h ⊢; omega) r
    · by_cases hd : b = dot ∧ c = slash
      · rw [hd.1, hd.2, skipBack_dotSlash]
        exact skipBack_dot n l (by simp at h; omega) r
      · have : skipBack (b :: c :: l) = b :: c :: l := by simp only [skipBack, if_neg hb, if_neg hd]
        rw [this]
        intro he
        exact hd ⟨(List.cons.inj he).1, (List.cons.inj (List.cons.inj he).2).1⟩

theorem parent_none_iff (p : Bytes) : parent p = none ↔ Trailing p := by
  rw [← skipBack_nil_iff]
  unfold parent
  simp only []
  split
  · rename_i h; simp [h]
  · rename_i h; simp [h]

theorem parent_of_names {p dir name : Bytes} (h : Names p dir name) : ∃ d, parent p = some d ∧ DirectoryOf dir d := by
  have hn : ¬ Trailing p := by
    intro ht
    have h1 := (fileName_iff _ _ _).2 h
    unfold fileName at h1
    simp only [(skipBack_nil_iff p).2 ht] at h1
    simp at h1
  have h1 := (fileName_iff _ _ _).2 h
  unfold fileName at h1
  simp only [] at h1
  split at h1
  · cases h1
  · simp only [Option.some.injEq, Prod.mk.injEq] at h1
    have hd : (skipBack p.reverse).dropWhile (fun b => decide (b ≠ slash)) = dir.reverse := by
      rw [← h1.1, List.reverse_reverse]
    rw [← skipBack_nil_iff] at hn
    unfold parent
    simp only [hd, if_neg hn]
    refine ⟨_, rfl, ?_⟩
    obtain ⟨t, ht, he⟩ := skipBack_split _ dir.reverse (Nat.le_refl _)
    by_cases h0 : dir = []
    · subst h0; exact .inl ⟨rfl, by simp [skipBack]⟩
    · by_cases hs : skipBack dir.reverse = []
      · rw [if_pos ⟨by simp [hs], by simpa using h0⟩]
        exact .inr (.inl ⟨(skipBack_nil_iff dir).1 hs, h0, rfl⟩)
      · rw [if_neg (by simp [hs])]
        refine .inr (.inr ⟨t, ht, ?_, by simpa using hs, ?_, ?_⟩)
        · have := congrArg List.reverse he
          simpa using this
        · rw [List.getLast?_reverse]
          exact skipBack_head _ _ (Nat.le_refl _)
        · intro x hx
          have := congrArg List.reverse hx
          rw [List.reverse_reverse, List.reverse_append] at this
          exact skipBack_dot _ _ (Nat.le_refl _) x.reverse this

theorem profilerPath_names {p dir name : Bytes} (h : Names p dir name) :
    ∃ n, Names (withExtension p fileExtension) dir n :=
  ⟨_, names_withExtension h (ext := fileExtension) (by decide +kernel) (by decide +kernel)⟩

theorem withExtension_trailing {p : Bytes} (h : Trailing p) (ext : Bytes) : withExtension p ext = p := by
  have : fileName p = none := by
    unfold fileName
    simp only [(skipBack_nil_iff p).2 h]
    simp
  unfold withExtension
  rw [this]

/-- Where the new file goes has no parent exactly for the empty path and the root. -/
theorem parent_profilerPath_none_iff (p : Bytes) : parent (withExtension p fileExtension) = none ↔ Trailing p := by
  constructor
  · intro h
    by_cases hn : ∃ dir name, Names p dir name
    · obtain ⟨dir, name, hn⟩ := hn
      obtain ⟨n, hn'⟩ := profilerPath_names hn
      obtain ⟨d, hd, _⟩ := parent_of_names hn'
      rw [h] at hd
      cases hd
    · have : fileName p = none := by
        cases hf : fileName p with
        | none => rfl
        | some x => exact (hn ⟨x.1, x.2, (fileName_iff _ _ _).1 hf⟩).elim
      unfold withExtension at h
      rw [this] at h
      exact (parent_none_iff p).1 h
  · intro h
    rw [withExtension_trailing h]
    exact (parent_none_iff p).2 h

end Verif.Proofs
