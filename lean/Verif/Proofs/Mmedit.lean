import Verif.Model.Mmedit
import Verif.Proofs.Split

namespace Verif.Mmedit
open Verif Verif.Mm Verif.Spec

/-- The pages kept, given whether an event page was seen. -/
def keep : Bool → List Page → List Page
  | _, [] => []
  | seen, p :: ps =>
    if p.tag = .events then if seen then keep true ps else p :: keep true ps
    else p :: keep seen ps

theorem truncateLoop_nil (fuel : Nat) (out : Bytes) (b : Bool) : truncateLoop fuel [] out b = .ok out := by
  cases fuel <;> simp [truncateLoop]

theorem truncateLoop_page (fuel : Nat) (p : Page) (hp : SplitPage p) (rest out : Bytes) (seen : Bool) :
    truncateLoop (fuel + 1) (p.bytes ++ rest) out seen =
      if p.tag = .events then if seen then truncateLoop fuel rest out true else truncateLoop fuel rest (out ++ p.bytes) true
      else truncateLoop fuel rest (out ++ p.bytes) seen := by
  obtain ⟨hp1, hp2⟩ := hp
  obtain ⟨tag, body⟩ := p
  simp only at hp1 hp2
  have hlen : (Page.bytes ⟨tag, body⟩).length = 5 + body.length := by rw [Page.bytes_length]; simp only; omega
  have e1 : (Page.bytes ⟨tag, body⟩ ++ rest).take (5 + body.length) = Page.bytes ⟨tag, body⟩ := by
    rw [← hlen, List.take_left]
  have e2 : (Page.bytes ⟨tag, body⟩ ++ rest).drop (5 + body.length) = rest := by
    rw [← hlen, List.drop_left]
  obtain ⟨b, hb⟩ : ∃ b, b = Page.bytes ⟨tag, body⟩ ++ rest := ⟨_, rfl⟩
  have hbl : 5 + body.length ≤ b.length := by rw [hb, List.length_append, hlen]; omega
  rw [← hb] at e1 e2 ⊢
  have hc : b = tagNumber tag :: UInt8.ofNat (body.length % 256) :: UInt8.ofNat (body.length / 256 % 256) ::
    UInt8.ofNat (body.length / 65536 % 256) :: UInt8.ofNat (body.length / 16777216 % 256) :: (body ++ rest) := by
    rw [hb]; rfl
  rw [hc]
  simp only [truncateLoop, tryFrom_tagNumber, List.take_succ_cons, List.take_zero]
  have h4 : ¬ ((UInt8.ofNat (body.length % 256) :: UInt8.ofNat (body.length / 256 % 256) ::
    UInt8.ofNat (body.length / 65536 % 256) :: UInt8.ofNat (body.length / 16777216 % 256) ::
    (body ++ rest)).length < 4) := by simp
  rw [if_neg h4]
  simp only [fromLe_header hp2, ← hc]
  rw [if_neg (by omega), if_neg (by omega), e1, e2]
  cases tag <;> simp

theorem truncateLoop_pages (pages : List Page) (hp : ∀ p ∈ pages, SplitPage p) (fuel : Nat)
    (hfuel : pages.length ≤ fuel) (out : Bytes) (seen : Bool) :
    truncateLoop fuel (storeOf pages) out seen = .ok (out ++ storeOf (keep seen pages)) := by
  induction pages generalizing fuel out seen with
  | nil => simp [storeOf, keep, truncateLoop_nil]
  | cons p ps ih =>
    cases fuel with
    | zero => simp at hfuel
    | succ fuel =>
      have hps := fun q hq => hp q (List.mem_cons_of_mem _ hq)
      have hf : ps.length ≤ fuel := by simpa using hfuel
      rw [storeOf_cons, truncateLoop_page _ _ (hp p (by simp))]
      simp only [keep]
      by_cases ht : p.tag = .events
      · cases seen <;> simp [ht, ih hps fuel hf, storeOf_cons]
      · simp [ht, ih hps fuel hf, storeOf_cons]

theorem truncateLoop_total (fuel : Nat) (data out : Bytes) (seen : Bool) (hfuel : data.length ≤ fuel) :
    (∃ pages, (∀ p ∈ pages, SplitPage p) ∧ data = storeOf pages) ∨ IsPanic (truncateLoop fuel data out seen) := by
  induction fuel generalizing data out seen with
  | zero =>
    left
    have : data = [] := by cases data <;> simp_all
    subst this
    exact ⟨[], by simp, rfl⟩
  | succ fuel ih =>
    cases data with
    | nil => left; exact ⟨[], by simp, rfl⟩
    | cons tagByte rest =>
      cases ht : PageTag.tryFrom tagByte with
      | error e => right; simp [truncateLoop, ht, IsPanic]
      | ok t =>
        by_cases h4 : rest.length < 4
        · right; simp [truncateLoop, ht, h4, IsPanic]
        by_cases h0 : fromLe (rest.take 4) = 0
        · right; simp [truncateLoop, ht, h4, h0, IsPanic]
        by_cases hlen : (rest.drop 4).length < fromLe (rest.take 4)
        · right
          have : (tagByte :: rest).length < 5 + fromLe (rest.take 4) := by
            simp only [List.length_drop, List.length_cons] at hlen ⊢; omega
          simp only [truncateLoop, ht, h4, h0, this, if_true, if_false, IsPanic]
        · have hpage := page_of_parts tagByte t ht rest h4 hlen
          have hlt : fromLe (rest.take 4) < 4294967296 := by
            have := fromLe_lt (rest.take 4)
            rw [List.length_take, Nat.min_eq_left (by omega)] at this
            exact this
          have hl : (List.take (fromLe (rest.take 4)) (rest.drop 4)).length = fromLe (rest.take 4) := by
            rw [List.length_take]; omega
          have hsp : SplitPage ⟨t, (rest.drop 4).take (fromLe (rest.take 4))⟩ := by
            constructor <;> simp only [hl] <;> omega
          have hd : ((rest.drop 4).drop (fromLe (rest.take 4))).length ≤ fuel := by
            simp only [List.length_cons] at hfuel
            simp only [List.length_drop]; omega
          have key : ∀ o s, (∃ pages, (∀ p ∈ pages, SplitPage p) ∧ tagByte :: rest = storeOf pages) ∨
              IsPanic (truncateLoop fuel ((rest.drop 4).drop (fromLe (rest.take 4))) o s) := by
            intro o s
            rcases ih ((rest.drop 4).drop (fromLe (rest.take 4))) o s hd with ⟨pages, hp, hdata⟩ | hpan
            · left
              refine ⟨⟨t, (rest.drop 4).take (fromLe (rest.take 4))⟩ :: pages, ?_, ?_⟩
              · intro p hpm
                rcases List.mem_cons.mp hpm with rfl | hpm
                · exact hsp
                · exact hp p hpm
              · rw [storeOf_cons, ← hdata]; exact hpage
            · right; exact hpan
          rw [hpage, truncateLoop_page _ _ hsp, ← hpage]
          split
          · split
            · exact key _ _
            · exact key _ _
          · exact key _ _

theorem keep_true (pages : List Page) : keep true pages = pages.filter fun p => p.tag ≠ .events := by
  induction pages with
  | nil => rfl
  | cons p ps ih =>
    simp only [keep]
    by_cases h : p.tag = .events
    · simp [h, ih]
    · simp [h, ih]

theorem keep_none (pages : List Page) (h : ∀ p ∈ pages, p.tag ≠ .events) (s : Bool) : keep s pages = pages := by
  induction pages with
  | nil => rfl
  | cons p ps ih =>
    simp only [keep]
    rw [if_neg (h p (by simp)), ih fun q hq => h q (List.mem_cons_of_mem _ hq)]

theorem keep_first (a b : List Page) (e : Page) (ha : ∀ p ∈ a, p.tag ≠ .events) (he : e.tag = .events) :
    keep false (a ++ e :: b) = a ++ e :: b.filter fun p => p.tag ≠ .events := by
  induction a with
  | nil => simp only [List.nil_append, keep]; rw [if_pos he]; simp [keep_true]
  | cons p ps ih =>
    simp only [List.cons_append, keep]
    rw [if_neg (ha p (by simp)), ih fun q hq => ha q (List.mem_cons_of_mem _ hq)]

theorem keep_mem {s : Bool} {pages : List Page} {p : Page} (h : p ∈ keep s pages) : p ∈ pages := by
  induction pages generalizing s with
  | nil => simp [keep] at h
  | cons q ps ih =>
    simp only [keep] at h
    split at h
    · split at h
      · exact List.mem_cons_of_mem _ (ih h)
      · rcases List.mem_cons.1 h with rfl | h
        · simp
        · exact List.mem_cons_of_mem _ (ih h)
    · rcases List.mem_cons.1 h with rfl | h
      · simp
      · exact List.mem_cons_of_mem _ (ih h)

theorem keep_keep (pages : List Page) (s : Bool) : keep s (keep s pages) = keep s pages := by
  induction pages generalizing s with
  | nil => rfl
  | cons p ps ih =>
    by_cases h : p.tag = .events
    · cases s <;> simp [keep, h, ih]
    · simp [keep, h, ih]

theorem keep_streams (pages : List Page) (s : Bool) (t : PageTag) (ht : t ≠ .events) :
    streamOf t (keep s pages) = streamOf t pages := by
  induction pages generalizing s with
  | nil => rfl
  | cons p ps ih =>
    have hc : ∀ q qs, streamOf t (q :: qs) = (if q.tag = t then q.body else []) ++ streamOf t qs := by
      intro q qs
      by_cases hq : q.tag = t <;> simp [streamOf, hq]
    simp only [keep]
    by_cases h : p.tag = .events
    · have hp : p.tag ≠ t := by rw [h]; exact Ne.symm ht
      cases s <;> simp [h, hc, ih, Ne.symm ht]
    · simp [h, hc, ih]

end Verif.Mmedit
