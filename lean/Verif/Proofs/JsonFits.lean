import Verif.Proofs.JsonFiles
import Verif.Props.Analysis
import Verif.Proofs.RawEvent
import Verif.Proofs.Utf8

/-!
# The results of analysing a profile of any realistic size fit the types they are saved with
-/

namespace Verif.Analyze

open Verif Verif.Mm Verif.Decode Verif.Spec

theorem timeOf_le {es : List Event} {D : Nat} (h : ∀ e ∈ es, len e ≤ D) (p : Event → Bool) : timeOf p es ≤ es.length * D := by
  induction es with
  | nil => simp [timeOf]
  | cons e es ih =>
    rw [timeOf_cons]
    have h1 := h e (by simp)
    have h2 := ih (fun x hx => h x (by simp [hx]))
    rw [List.length_cons, Nat.add_mul]
    split <;> omega

theorem countOf_le (p : Event → Bool) (es : List Event) : countOf p es ≤ es.length := List.length_filter_le _ _

/-- Every interval lies in a window of this length. -/
def Within (S D : Nat) (es : List Event) : Prop := ∀ e ∈ es, ∀ s t, times e = some (s, t) → S ≤ s ∧ t ≤ S + D

theorem within_len {S D : Nat} {es : List Event} (h : Within S D es) : ∀ e ∈ es, len e ≤ D := by
  intro e he
  unfold len
  split
  · rename_i s t hst
    have := h e he s t hst
    omega
  · omega

theorem within_span {S D : Nat} {es : List Event} (h : Within S D es) {t : UInt32} {a b : Nat} (hs : spanOf t es = some (a, b)) :
    S ≤ a ∧ b ≤ S + D := by
  have hh := spanOf_eq t es
  rw [hs] at hh
  obtain ⟨h1, h2⟩ := hh
  simp only [Option.map_some] at h1 h2
  constructor
  · have hm := List.min?_mem h1
    unfold startsOf at hm
    rw [List.mem_filterMap] at hm
    obtain ⟨e, he, hv⟩ := hm
    split at hv
    · rw [Option.map_eq_some_iff] at hv
      obtain ⟨⟨s, u⟩, hst, hx⟩ := hv
      have := h e he s u hst
      simp only [] at hx
      omega
    · cases hv
  · have hm := List.max?_mem h2
    unfold endsOf at hm
    rw [List.mem_filterMap] at hm
    obtain ⟨e, he, hv⟩ := hm
    split at hv
    · rw [Option.map_eq_some_iff] at hv
      obtain ⟨⟨s, u⟩, hst, hx⟩ := hv
      have := h e he s u hst
      simp only [] at hx
      omega
    · cases hv

theorem within_total {S D : Nat} {es : List Event} (h : Within S D es) : (∑ t ∈ threadsOf es, spanLength t es) ≤ es.length * D := by
  have h1 : ∀ t ∈ threadsOf es, spanLength t es ≤ D := by
    intro t ht
    rw [← spanOf_isSome] at ht
    obtain ⟨⟨a, b⟩, hab⟩ := Option.isSome_iff_exists.mp ht
    have := within_span h hab
    unfold spanLength
    rw [(spanOf_eq t es).1, (spanOf_eq t es).2, hab]
    simp only [Option.map_some, Option.getD_some]
    omega
  refine (Finset.sum_le_card_nsmul _ _ D h1).trans ?_
  show (threadsOf es).card * D ≤ _
  apply Nat.mul_le_mul_right
  unfold threadsOf
  exact (List.toFinset_card_le _).trans (by rw [List.length_map]; exact List.length_filter_le _ _)

theorem fits_of {checks : Bool} {es : List Event} {r : Results} (h : analyze checks es = .ok r) {S : Nat} (hw : Within S (2 ^ 48) es)
    (hn : es.length ≤ 2 ^ 45) (hl : ∀ e ∈ es, validUtf8 e.label = true) : Fits r := by
  have hb : es.length * 2 ^ 48 ≤ 2 ^ 93 := by
    calc es.length * 2 ^ 48 ≤ 2 ^ 45 * 2 ^ 48 := Nat.mul_le_mul_right _ hn
      _ = 2 ^ 93 := by norm_num
  have hdiv : ∀ n, n ≤ es.length * 2 ^ 48 → n / 1000000000 < 2 ^ 64 := by
    intro n hn
    apply Nat.div_lt_of_lt_mul
    refine lt_of_le_of_lt (hn.trans hb) ?_
    norm_num
  have ht := fun p => timeOf_le (within_len hw) p
  have hc : ∀ p, countOf p es < 2 ^ 64 := fun p => lt_of_le_of_lt ((countOf_le p es).trans hn) (by norm_num)
  obtain ⟨st, hr, hq, ha, -⟩ := analyze_run h
  have hi := inv_run hr
  have hart := artInv_run hr
  refine ⟨?_, ?_, ?_, ?_, ?_⟩
  · intro q hqm
    rw [hq] at hqm
    obtain ⟨e, he, hel, -⟩ := (hi.labels q.1).mp (List.mem_map_of_mem hqm)
    exact hel ▸ hl e he
  · intro q hqm
    have hd := Verif.Props.data_of_entry h (l := q.1) (d := q.2) hqm
    refine ⟨hdiv _ ?_, hdiv _ ?_, hdiv _ ?_, hdiv _ ?_, hdiv _ ?_⟩
    · rw [hd.time]; exact ht _
    · have := hd.self; have := ht (hasLabel q.1); omega
    · rw [hd.blocked]; exact ht _
    · have := hd.load; have := ht (fun e => hasLabel q.1 e && isLoad e); omega
    · have := hd.hash; have := ht (fun e => hasLabel q.1 e && isHash e); omega
  · intro q hqm
    have hd := Verif.Props.data_of_entry h (l := q.1) (d := q.2) hqm
    exact ⟨hd.misses ▸ hc _, hd.hits ▸ hc _, hd.count ▸ hc _⟩
  · intro a ham
    rw [ha] at ham
    constructor
    · obtain ⟨e, he, hea⟩ := (hart.keys a.1).mp (List.mem_map_of_mem ham)
      have := (isArtifact_iff.mp hea)
      have hlab : e.label = a.1 := by
        unfold isArtifact at hea
        cases hp : e.payload with
        | timestamp t => rw [hp] at hea; cases hea
        | integer v =>
          rw [hp] at hea
          simp only [Bool.and_eq_true, hasLabel, decide_eq_true_eq] at hea
          exact hea.1
      exact hlab ▸ hl e he
    · have hnd : (st.artifactSizes.map (·.1)).Nodup := hart.sorted.imp (fun hlt heq => by subst heq; exact List.lt_irrefl _ hlt)
      have hv := hart.vals a.1
      rw [lookup_of_mem hnd (k := a.1) (a := a.2) ham, Option.getD_some] at hv
      rw [hv]
      exact Nat.mod_lt _ (by norm_num)
  · rw [Verif.Props.C38_total_time checks es r h]
    exact hdiv _ (within_total hw)

/-! ## The decoder's events -/

theorem label_valid {text label : Bytes} {args : List Bytes} (h : parseEventId text = .ok (label, args)) : validUtf8 label = true := by
  obtain ⟨m, h⟩ := reporting_of_parse h
  unfold parseReporting at h
  split at h
  · cases h
  · injection h with h
    injection h with h _
    injection h with h _
    subst h
    exact validUtf8_utf8 _
  · rename_i pos l hp
    split at h
    · cases h
    · injection h with h
      injection h with h _
      injection h with h _
      subst h
      unfold parseText at hp
      split at hp
      · cases hp
      · simp only [] at hp
        split at hp
        · unfold parserErr at hp
          split at hp <;> cases hp
        · split at hp
          · unfold parserErr at hp
            split at hp <;> cases hp
          · split at hp
            · rename_i s hs
              injection hp with hp
              injection hp with _ hp
              injection hp with hp
              subst hp
              unfold substring at hs
              split at hs
              · rename_i hv; injection hs with hs; exact hs ▸ hv
              · cases hs
            · cases hp

theorem decodeFull_facts {fuel : Nat} {d : EventDecoder} {i : Nat} {e : Event} (h : d.decodeFull fuel i = .ok e) :
    validUtf8 e.label = true ∧ ∀ s t, times e = some (s, t) → d.metadata.startTime ≤ s ∧ t ≤ d.metadata.startTime + 2 ^ 48 := by
  unfold EventDecoder.decodeFull at h
  simp only [bind, Except.bind] at h
  cases h1 : d.rawEvent i with
  | error f => rw [h1] at h; cases h
  | ok raw =>
    rw [h1] at h
    simp only [] at h
    cases h2 : d.table.toStr fuel raw.eventId with
    | error f => rw [h2] at h; cases h
    | ok idText =>
      rw [h2] at h
      simp only [] at h
      cases h3 : parseEventId idText with
      | error f => rw [h3] at h; cases h
      | ok la =>
        obtain ⟨label, args⟩ := la
        rw [h3] at h
        simp only [] at h
        cases h4 : d.table.toStr fuel raw.eventKind with
        | error f => rw [h4] at h; cases h
        | ok k =>
          rw [h4] at h
          simp only [] at h
          injection h with h
          subst h
          refine ⟨label_valid h3, ?_⟩
          intro s t hst
          simp only [times, EventPayload.fromRawEvent, Timestamp.fromRawEvent] at hst
          have hs := startValue_lt raw
          have he := endValue_lt raw
          split at hst
          · rename_i s' t' hp
            injection hst with hst
            injection hst with e1 e2
            subst e1 e2
            split at hp
            · cases hp
            · injection hp with hp
              split at hp
              · cases hp
              · injection hp with e1 e2
                subst e1 e2
                omega
          · cases hst

theorem collectFrom_all {α : Type} {decode : Nat → Except Fault α} {k i : Nat} {l : List α} (h : collectFrom decode i k = .ok l) :
    l.length = k ∧ ∀ x ∈ l, ∃ j, decode j = .ok x := by
  induction k generalizing i l with
  | zero => cases h; simp
  | succ k ih =>
    unfold collectFrom at h
    simp only [bind, Except.bind] at h
    cases h1 : decode i with
    | error f => rw [h1] at h; cases h
    | ok e =>
      rw [h1] at h
      simp only [] at h
      cases h2 : collectFrom decode (i + 1) k with
      | error f => rw [h2] at h; cases h
      | ok es =>
        rw [h2] at h
        simp only [] at h
        injection h with h
        subst h
        obtain ⟨h3, h4⟩ := ih h2
        refine ⟨by simp [h3], ?_⟩
        intro x hx
        rcases List.mem_cons.mp hx with rfl | hx
        · exact ⟨i, h1⟩
        · exact h4 x hx

theorem splitLoop_length {fuel : Nat} {data : Bytes} {acc m : Streams} (h : splitLoop fuel data acc = .ok m) {N : Nat}
    (ha : ∀ t b, acc t = some b → b.length + data.length ≤ N) (hN : data.length ≤ N) : ∀ t b, m t = some b → b.length ≤ N := by
  induction fuel generalizing data acc with
  | zero =>
    unfold splitLoop at h
    split at h
    · injection h with h
      subst h
      intro t b hb
      have := ha t b hb
      omega
    · cases h
  | succ fuel ih =>
    unfold splitLoop at h
    split at h
    · injection h with h
      subst h
      intro t b hb
      have := ha t b hb
      omega
    · rename_i tagByte rest
      split at h
      · cases h
      · rename_i tag _
        split at h
        · cases h
        · simp only [] at h
          split at h
          · cases h
          · split at h
            · cases h
            · rename_i h4 hz hlen
              refine ih h ?_ ?_
              · intro t b hb
                simp only [List.length_cons] at ha hN
                simp only [List.length_drop] at hlen ⊢
                unfold Streams.extend at hb
                split at hb
                · injection hb with hb
                  subst hb
                  rename_i heq
                  cases hacc : acc tag with
                  | none =>
                    simp only [Option.getD_none, List.nil_append, List.length_take, List.length_drop]
                    omega
                  | some old =>
                    have := ha tag old hacc
                    simp only [Option.getD_some, List.length_append, List.length_take, List.length_drop]
                    omega
                · have := ha t b hb
                  omega
              · simp only [List.length_cons, List.length_drop] at hN ⊢
                omega

theorem new_eventData {fuel : Nat} {file : Bytes} {d : EventDecoder} (h : EventDecoder.new diag fuel file = .ok d) :
    d.eventData.length ≤ file.length := by
  unfold EventDecoder.new at h
  simp only [bind, Except.bind] at h
  cases h1 : verifyFileHeader diag "top-level" file magicTopLevel with
  | error f => rw [h1] at h; cases h
  | ok u =>
    rw [h1] at h
    simp only [] at h
    cases h2 : splitStreams (file.drop fileHeaderSize) with
    | error f => rw [h2] at h; cases h
    | ok m =>
      rw [h2] at h
      simp only [okOr] at h
      cases h3 : m .stringData with
      | none => rw [h3] at h; cases h
      | some sd =>
        rw [h3] at h
        cases h4 : m .stringIndex with
        | none => rw [h4] at h; cases h
        | some si =>
          rw [h4] at h
          cases h5 : m .events with
          | none => rw [h5] at h; cases h
          | some ev =>
            rw [h5] at h
            have hl : ev.length ≤ (file.drop fileHeaderSize).length :=
              splitLoop_length h2 (by intro t b hb; cases hb) le_rfl .events ev h5
            unfold EventDecoder.fromSeparateBuffers at h
            simp only [bind, Except.bind] at h
            cases h6 : verifyFileHeader diag "event" ev magicEventStream with
            | error f => rw [h6] at h; cases h
            | ok u =>
              rw [h6] at h
              simp only [] at h
              cases h7 : StringTable.new diag sd si with
              | error f => rw [h7] at h; cases h
              | ok t =>
                rw [h7] at h
                simp only [] at h
                cases h8 : t.toStr fuel StringTable.metadataId with
                | error f => rw [h8] at h; cases h
                | ok tx =>
                  rw [h8] at h
                  simp only [] at h
                  cases h9 : Json.parseMetadata tx with
                  | error f => rw [h9] at h; cases h
                  | ok md =>
                    rw [h9] at h
                    simp only [] at h
                    injection h with h
                    subst h
                    rw [List.length_drop] at hl
                    simp only []
                    omega

theorem fits_profile {checks : Bool} {fuel : Nat} {file : Bytes} {d : EventDecoder} {r : Results} (h : EventDecoder.new diag fuel file = .ok d)
    (hn : file.length ≤ 2 ^ 50) (ha : performAnalysis checks (v9Data fuel d) = .ok r) : Fits r := by
  unfold performAnalysis at ha
  simp only [bind, Except.bind] at ha
  cases he : (v9Data fuel d).fullEvents with
  | error f => rw [he] at ha; cases ha
  | ok es =>
    rw [he] at ha
    simp only [] at ha
    rw [v9_fullEvents] at he
    simp only [bind, Except.bind] at he
    cases hk : d.numEvents with
    | error f => rw [hk] at he; cases he
    | ok k =>
      rw [hk] at he
      simp only [] at he
      obtain ⟨hlen, hall⟩ := collectFrom_all he
      have hk2 : k ≤ 2 ^ 45 := by
        unfold EventDecoder.numEvents at hk
        split at hk
        · cases hk
        · split at hk
          · cases hk
          · injection hk with hk
            have hd := new_eventData h
            have hsz : rawEventSize = 32 := rfl
            rw [hsz] at hk
            rw [← hk]
            apply Nat.div_le_of_le_mul
            refine (Nat.sub_le _ _).trans (hd.trans (hn.trans ?_))
            norm_num
      refine fits_of ha (S := d.metadata.startTime) ?_ (hlen ▸ hk2) ?_
      · intro e he'
        obtain ⟨j, hj⟩ := hall e he'
        exact (decodeFull_facts hj).2
      · intro e he'
        obtain ⟨j, hj⟩ := hall e he'
        exact (decodeFull_facts hj).1

end Verif.Analyze
