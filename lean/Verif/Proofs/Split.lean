import Verif.Proofs.Container

namespace Verif.Mm
open Verif Verif.Spec

/-- Merge pages into a stream map, in order. -/
def mergePages (acc : Streams) (pages : List Page) : Streams :=
  pages.foldl (fun m p => m.extend p.tag p.body) acc

/-- A page `split_streams` accepts. -/
def SplitPage (p : Page) : Prop := 0 < p.body.length ∧ p.body.length < 4294967296

theorem fromLe_header {n : Nat} (hn : n < 4294967296) :
    fromLe [UInt8.ofNat (n % 256), UInt8.ofNat (n / 256 % 256), UInt8.ofNat (n / 65536 % 256),
      UInt8.ofNat (n / 16777216 % 256)] = n := by
  simp [fromLe]
  omega

theorem tryFrom_tagNumber (t : PageTag) : PageTag.tryFrom (tagNumber t) = .ok t := by
  cases t <;> decide

theorem tryFrom_ok {b : UInt8} {t : PageTag} (h : PageTag.tryFrom b = .ok t) : b = tagNumber t := by
  unfold PageTag.tryFrom at h
  split at h
  · rename_i hb; simp at h; subst h; exact hb
  · split at h
    · rename_i hb; simp at h; subst h; exact hb
    · split at h
      · rename_i hb; simp at h; subst h; exact hb
      · simp at h

/-- One iteration on a well-formed page. -/
theorem splitLoop_page (fuel : Nat) (p : Page) (hp : SplitPage p) (rest : Bytes) (acc : Streams) :
    splitLoop (fuel + 1) (p.bytes ++ rest) acc = splitLoop fuel rest (acc.extend p.tag p.body) := by
  obtain ⟨hp1, hp2⟩ := hp
  simp only [Page.bytes, List.cons_append, splitLoop, tryFrom_tagNumber]
  have h4 : ¬ ((UInt8.ofNat (p.body.length % 256) :: UInt8.ofNat (p.body.length / 256 % 256) ::
    UInt8.ofNat (p.body.length / 65536 % 256) :: UInt8.ofNat (p.body.length / 16777216 % 256) ::
    (p.body ++ rest)).length < 4) := by simp
  simp only [h4, if_false, List.take_succ_cons, List.take_zero, List.drop_succ_cons, List.drop_zero]
  rw [fromLe_header hp2]
  have h0 : ¬ p.body.length = 0 := by omega
  have hlen : ¬ (p.body ++ rest).length < p.body.length := by simp
  simp only [h0, hlen, if_false, List.drop_left, List.take_left]

theorem Page.bytes_length (p : Page) : p.bytes.length = p.body.length + 5 := by
  simp [Page.bytes]

theorem storeOf_cons (p : Page) (ps : List Page) : storeOf (p :: ps) = p.bytes ++ storeOf ps := by
  simp [storeOf]

theorem storeOf_length_ge (ps : List Page) : ps.length ≤ (storeOf ps).length := by
  induction ps with
  | nil => simp
  | cons p ps ih =>
    rw [storeOf_cons, List.length_append, Page.bytes_length, List.length_cons]; omega

theorem splitLoop_pages (pages : List Page) (hp : ∀ p ∈ pages, SplitPage p) (fuel : Nat)
    (hfuel : pages.length ≤ fuel) (rest : Bytes) (acc : Streams) :
    splitLoop fuel (storeOf pages ++ rest) acc = splitLoop (fuel - pages.length) rest (mergePages acc pages) := by
  induction pages generalizing fuel acc with
  | nil => simp [storeOf, mergePages]
  | cons p ps ih =>
    cases fuel with
    | zero => simp at hfuel
    | succ fuel =>
      rw [storeOf_cons, List.append_assoc, splitLoop_page _ _ (hp p (by simp))]
      rw [ih (fun q hq => hp q (by simp [hq])) fuel (by simpa using hfuel)]
      simp [mergePages]

theorem splitLoop_nil (fuel : Nat) (acc : Streams) : splitLoop fuel [] acc = .ok acc := by
  cases fuel <;> simp [splitLoop]

theorem splitStreams_storeOf (pages : List Page) (hp : ∀ p ∈ pages, SplitPage p) :
    splitStreams (storeOf pages) = .ok (mergePages (fun _ => none) pages) := by
  unfold splitStreams
  have h := splitLoop_pages pages hp (storeOf pages).length (storeOf_length_ge pages) [] (fun _ => none)
  rw [List.append_nil] at h
  rw [h, splitLoop_nil]

/-- The bytes of a page can be reassembled from the four size bytes. -/
theorem page_of_parts (tagByte : UInt8) (t : PageTag) (ht : PageTag.tryFrom tagByte = .ok t) (rest : Bytes)
    (h4 : ¬ rest.length < 4) (hlen : ¬ (rest.drop 4).length < fromLe (rest.take 4)) :
    tagByte :: rest = Page.bytes ⟨t, (rest.drop 4).take (fromLe (rest.take 4))⟩ ++
      (rest.drop 4).drop (fromLe (rest.take 4)) := by
  have htag := tryFrom_ok ht
  have hl : (List.take (fromLe (rest.take 4)) (rest.drop 4)).length = fromLe (rest.take 4) := by
    rw [List.length_take]; omega
  have hle : leBytes 4 (fromLe (rest.take 4)) = rest.take 4 := by
    have := leBytes_fromLe (rest.take 4)
    rw [List.length_take] at this
    rwa [Nat.min_eq_left (by omega)] at this
  rw [← header_eq, hl, hle]
  have : [t.toByte] = [tagByte] := by rw [htag]; cases t <;> rfl
  rw [this]
  simp only [List.append_assoc, List.cons_append, List.nil_append, List.take_append_drop]

/-- Whatever the input, the loop either consumes a list of well-formed pages, or panics (given enough fuel). -/
theorem splitLoop_total (fuel : Nat) (data : Bytes) (acc : Streams) (hfuel : data.length ≤ fuel) :
    (∃ pages, (∀ p ∈ pages, SplitPage p) ∧ data = storeOf pages ∧
      splitLoop fuel data acc = .ok (mergePages acc pages)) ∨ IsPanic (splitLoop fuel data acc) := by
  induction fuel generalizing data acc with
  | zero =>
    left
    have : data = [] := by cases data <;> simp_all
    subst this
    exact ⟨[], by simp, rfl, by simp [splitLoop, mergePages]⟩
  | succ fuel ih =>
    cases data with
    | nil => left; exact ⟨[], by simp, rfl, by simp [splitLoop, mergePages]⟩
    | cons tagByte rest =>
      unfold splitLoop
      simp only
      cases ht : PageTag.tryFrom tagByte with
      | error e => right; simp [IsPanic]
      | ok t =>
        simp only
        by_cases h4 : rest.length < 4
        · right; simp [h4, IsPanic]
        · simp only [h4, if_false]
          by_cases h0 : fromLe (rest.take 4) = 0
          · right; simp [h0, IsPanic]
          · simp only [h0, if_false]
            by_cases hlen : (rest.drop 4).length < fromLe (rest.take 4)
            · right; simp only [hlen, if_true, IsPanic]
            · simp only [hlen, if_false]
              have hpage := page_of_parts tagByte t ht rest h4 hlen
              have hlt : fromLe (rest.take 4) < 4294967296 := by
                have := fromLe_lt (rest.take 4)
                rw [List.length_take, Nat.min_eq_left (by omega)] at this
                exact this
              have hl : (List.take (fromLe (rest.take 4)) (rest.drop 4)).length = fromLe (rest.take 4) := by
                rw [List.length_take]; omega
              have hd : ((rest.drop 4).drop (fromLe (rest.take 4))).length ≤ fuel := by
                simp only [List.length_cons] at hfuel
                simp only [List.length_drop]; omega
              rcases ih ((rest.drop 4).drop (fromLe (rest.take 4)))
                (acc.extend t ((rest.drop 4).take (fromLe (rest.take 4)))) hd with ⟨pages, hp, hdata, hres⟩ | hpan
              · left
                refine ⟨⟨t, (rest.drop 4).take (fromLe (rest.take 4))⟩ :: pages, ?_, ?_, ?_⟩
                · intro p hpm
                  rcases List.mem_cons.mp hpm with rfl | hpm
                  · constructor <;> simp only [hl] <;> omega
                  · exact hp p hpm
                · rw [storeOf_cons, ← hdata]; exact hpage
                · rw [hres]; simp [mergePages]
              · right; exact hpan

/-- Merging pages computes, per tag, the concatenation of that tag's bodies. -/
theorem mergePages_apply (pages : List Page) (acc : Streams) (t : PageTag) :
    mergePages acc pages t = if ∃ p ∈ pages, p.tag = t then some ((acc t).getD [] ++ streamOf t pages) else acc t := by
  induction pages generalizing acc with
  | nil => simp [mergePages]
  | cons p ps ih =>
    have h1 : mergePages acc (p :: ps) = mergePages (acc.extend p.tag p.body) ps := rfl
    rw [h1, ih]
    by_cases hpt : p.tag = t
    · have hs : streamOf t (p :: ps) = p.body ++ streamOf t ps := by simp [streamOf, hpt]
      by_cases hex : ∃ q ∈ ps, q.tag = t
      · have : ∃ q ∈ p :: ps, q.tag = t := ⟨p, by simp, hpt⟩
        simp only [hex, this, if_true, hs]
        simp [Streams.extend, hpt]
      · have : ∃ q ∈ p :: ps, q.tag = t := ⟨p, by simp, hpt⟩
        simp only [hex, this, if_true, if_false, hs]
        have hnil : streamOf t ps = [] := by
          simp only [streamOf]
          rw [List.filter_eq_nil_iff.mpr]
          · rfl
          · intro q hq hqt
            exact hex ⟨q, hq, by simpa using hqt⟩
        simp [Streams.extend, hpt, hnil]
    · have hs : streamOf t (p :: ps) = streamOf t ps := by simp [streamOf, hpt]
      have he : (∃ q ∈ p :: ps, q.tag = t) ↔ ∃ q ∈ ps, q.tag = t := by simp [hpt]
      have hx : (acc.extend p.tag p.body) t = acc t := by simp [Streams.extend, Ne.symm hpt]
      simp only [he, hs, hx]

theorem mergePages_none (pages : List Page) (t : PageTag) :
    mergePages (fun _ => none) pages t = if ∃ p ∈ pages, p.tag = t then some (streamOf t pages) else none := by
  rw [mergePages_apply]; simp

theorem mergePages_getD (pages : List Page) (t : PageTag) :
    (mergePages (fun _ => none) pages t).getD [] = streamOf t pages := by
  rw [mergePages_none]
  split
  · rfl
  · rename_i h
    simp only [streamOf]
    rw [List.filter_eq_nil_iff.mpr]
    · rfl
    · intro q hq hqt
      exact h ⟨q, hq, by simpa using hqt⟩

/-- Pages are uniquely determined by the store bytes. -/
theorem storeOf_inj {a b : List Page} (ha : ∀ p ∈ a, SplitPage p) (hb : ∀ p ∈ b, SplitPage p)
    (h : storeOf a = storeOf b) : a = b := by
  induction a generalizing b with
  | nil =>
    cases b with
    | nil => rfl
    | cons p ps =>
      rw [storeOf_cons] at h
      simp [storeOf, Page.bytes] at h
  | cons p ps ih =>
    cases b with
    | nil => rw [storeOf_cons] at h; simp [storeOf, Page.bytes] at h
    | cons q qs =>
      rw [storeOf_cons, storeOf_cons] at h
      obtain ⟨hp1, hp2⟩ := ha p (by simp)
      obtain ⟨hq1, hq2⟩ := hb q (by simp)
      rw [← header_eq p.tag p.body, ← header_eq q.tag q.body] at h
      simp only [List.append_assoc] at h
      obtain ⟨ht, h⟩ := List.append_inj h rfl
      obtain ⟨hlen, h⟩ := List.append_inj h (by simp)
      have hlen' := leBytes_inj (n := 4) (by omega) (by omega) hlen
      obtain ⟨hbody, h⟩ := List.append_inj h hlen'
      have hps := ih (fun r hr => ha r (by simp [hr])) (fun r hr => hb r (by simp [hr])) h
      have htag : p.tag = q.tag := by
        revert ht; cases p.tag <;> cases q.tag <;> simp [PageTag.toByte]
      rw [hps]
      obtain ⟨pt, pb⟩ := p
      obtain ⟨qt, qb⟩ := q
      simp only at htag hbody
      rw [htag, hbody]

end Verif.Mm
