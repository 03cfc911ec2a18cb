import Verif.Proofs.StringReader

namespace Verif.Mm

open Verif Verif.Spec

theorem text_not_term (L : String) : ∀ b ∈ utf8 L, (fun b : UInt8 => decide (b = terminator)) b = false := by
  intro b hb
  have := utf8_bytes_lt L b hb
  have h1 : b ≠ 0xFF := by intro h; subst h; simp at this
  simp [terminator, h1]

theorem reads_value_inv {log : TableLog} {s' : String} {cs : List StringComponent} {s : String}
    (h : Reads log (.value s' :: cs) s) : ∃ t, s = s' ++ t ∧ Reads log cs t := by
  cases h with
  | value h => exact ⟨_, rfl, h⟩

/-- A component list either is all text, or has a first reference after some text. -/
theorem split_first_ref (log : TableLog) (cs : List StringComponent) :
    (∃ L : String, encText cs = utf8 L ++ [0xFF] ∧ ∀ s, Reads log cs s → s = L) ∨
    (∃ (L : String) (id : StringId) (cs' : List StringComponent), encText cs = utf8 L ++ (0xFE :: (leBytes 8 id.toNat ++ encText cs'))) := by
  induction cs with
  | nil => exact .inl ⟨"", rfl, fun s h => by cases h; rfl⟩
  | cons c cs ih =>
    cases c with
    | value s' =>
      rcases ih with ⟨L, h1, h2⟩ | ⟨L, id, cs', h⟩
      · refine .inl ⟨s' ++ L, by rw [encText_value, h1, utf8_append]; simp, ?_⟩
        intro s h
        obtain ⟨t, rfl, ht⟩ := reads_value_inv h
        rw [h2 t ht]
      · exact .inr ⟨s' ++ L, id, cs', by rw [encText_value, h, utf8_append]; simp⟩
    | ref id => exact .inr ⟨"", id, cs, by simp [encText, encComponent]⟩

theorem memchr_none_prefix {p : UInt8 → Bool} {A B : Bytes} (h : ∀ b ∈ A, p b = false) :
    memchr p (A ++ B) = (memchr p B).map (· + A.length) := by
  induction A with
  | nil => simp [memchr]
  | cons a A ih =>
    have h1 := h a (by simp)
    have h2 := ih (fun b hb => h b (by simp [hb]))
    simp only [memchr] at h2 ⊢
    rw [List.cons_append, List.findIdx?_cons, h1, h2]
    cases List.findIdx? p B <;> simp
    omega

theorem memchr_found {p : UInt8 → Bool} {A B : Bytes} {x : UInt8} (hx : p x = true) :
    ∃ n, memchr p (A ++ x :: B) = some n ∧ n ≤ A.length := by
  induction A with
  | nil => exact ⟨0, by simp [memchr, List.findIdx?_cons, hx], Nat.le_refl _⟩
  | cons a A ih =>
    obtain ⟨n, h1, h2⟩ := ih
    simp only [memchr] at h1 ⊢
    rw [List.cons_append, List.findIdx?_cons]
    by_cases ha : p a = true
    · exact ⟨0, by simp [ha], Nat.zero_le _⟩
    · exact ⟨n + 1, by simp [ha, h1], by simp; omega⟩

theorem invalid_of_mem {l : Bytes} (h : (0xFE : UInt8) ∈ l) : validUtf8 l = false := by
  apply Decidable.byContradiction
  intro hn
  have : validUtf8 l = true := by simpa using hn
  have := validUtf8Aux_bytes _ _ this _ h
  simp at this

theorem findIdx?_encText (cs : List StringComponent) (r : Bytes) :
    (encText cs ++ r).findIdx? (fun b => decide (b = 0xFF)) = (encText cs).findIdx? (fun b => decide (b = 0xFF)) := by
  rw [List.findIdx?_append]
  obtain ⟨n, h, _⟩ := memchr_found (p := fun b => decide (b = 0xFF)) (A := cs.flatMap encComponent) (B := [])
    (x := 0xFF) (by decide)
  have h' : List.findIdx? (fun b => decide (b = 0xFF)) (encText cs) = some n := h
  rw [h']
  rfl

theorem short_safe {cs : List StringComponent} {a : Nat} (h : (encText cs).head? ≠ some 0xFE ∨ (encText cs).length < a + 10) :
    ¬ ((encText cs).head? = some 0xFE ∧ (encText cs).findIdx? (fun b => b = 0xFF) = some (a + 9)) := by
  rintro ⟨h1, h2⟩
  rcases h with h | h
  · exact h h1
  · have := (List.findIdx?_eq_some_iff_findIdx_eq.mp h2).1
    omega

theorem leadingRef_spec (cs : List StringComponent) :
    (∃ r cs', leadingRef cs = some r ∧ encText cs = 0xFE :: (leBytes 8 r.toNat ++ encText cs')) ∨
    (leadingRef cs = none ∧ (encText cs).head? ≠ some 0xFE) := by
  induction cs with
  | nil => exact .inr ⟨rfl, by decide⟩
  | cons c cs ih =>
    cases c with
    | ref r => exact .inl ⟨r, cs, rfl, by simp [encText, encComponent]⟩
    | value s =>
      by_cases hs : s = ""
      · subst hs
        have e : encText (.value "" :: cs) = encText cs := by rw [encText_value]; rfl
        rw [leadingRef, if_pos rfl, e]
        exact ih
      · right
        rw [leadingRef, if_neg hs, encText_value]
        refine ⟨rfl, ?_⟩
        cases hu : utf8 s with
        | nil => exact (hs (utf8_inj (by rw [hu]; rfl))).elim
        | cons b bs =>
          have := utf8_bytes_lt s b (by simp [hu])
          rintro h
          simp at h
          subst h
          simp at this

theorem mistaken_iff {a : Nat} {cs : List StringComponent} :
    (∃ r, MistakenFor a cs r) ↔ ((encText cs).head? = some 0xFE ∧ (encText cs).findIdx? (fun b => b = 0xFF) = some (a + 9)) := by
  rcases leadingRef_spec cs with ⟨r, cs', h1, h2⟩ | ⟨h1, h2⟩
  · constructor
    · rintro ⟨r', h3, h4⟩
      exact ⟨by rw [h2]; rfl, h4⟩
    · rintro ⟨_, h4⟩
      exact ⟨r, h1, h4⟩
  · constructor
    · rintro ⟨r', h3, h4⟩
      rw [h1] at h3
      simp at h3
    · rintro ⟨h3, _⟩
      exact (h2 h3).elim

/-- `to_string` reads like `write_to_string` when the entry does not look like a lone reference to the fast path. -/
theorem toStr_entry {log : TableLog} {t : StringTable} (rel : TabRel log t) {id : StringId} {cs : List StringComponent} {s : String}
    (he : Entry log id cs) (hr : Reads log cs s)
    (safe : ∀ a, t.getAddr id = .ok (some a) → ¬ ((encText cs).head? = some 0xFE ∧ (encText cs).findIdx? (fun b => b = 0xFF) = some (a + 9))) :
    ToString t id (utf8 s) := by
  obtain ⟨a, hw, h8, hp, hga⟩ := write_entry rel he
  have hsafe := safe a hga
  obtain ⟨n, hn⟩ := reads_loop rel hr "" a (by simpa using hp)
  refine ⟨n + 2, fun fuel hf => ?_⟩
  obtain ⟨f, rfl⟩ : ∃ f, fuel = f + 1 + 1 := ⟨fuel - 2, by omega⟩
  have hlen : ¬ t.stringData.length < a := by
    intro hlt
    rw [List.drop_eq_nil_of_le (by omega)] at hp
    exact encText_ne cs (List.prefix_nil.mp hp)
  obtain ⟨r, hr'⟩ := hp
  -- the first 0xFF
  obtain ⟨tp, htp, htple⟩ := memchr_found (p := fun b => decide (b = terminator)) (A := cs.flatMap encComponent) (B := r)
    (x := 0xFF) (by decide)
  have hmem : memchr (fun b => decide (b = terminator)) (t.stringData.drop a) = some tp := by
    rw [← hr', encText, List.append_assoc, List.singleton_append]; exact htp
  obtain ⟨b0, rest, hb0⟩ : ∃ b0 rest, encText cs = b0 :: rest := by
    match h : encText cs, encText_ne cs with
    | b0 :: rest, _ => exact ⟨b0, rest, rfl⟩
  have hfirst : t.stringData[a]? = some b0 := head_of_prefix (B := rest) (by rw [← hb0, ← hr']; exact List.prefix_append _ _)
  have hnofast : ¬ (b0 = stringRefTag ∧ tp = a + stringRefEncodedSize) := by
    rintro ⟨h1, h2⟩
    simp only [stringRefTag, stringRefEncodedSize] at h1 h2
    refine hsafe ⟨by rw [hb0, h1]; rfl, ?_⟩
    rw [← findIdx?_encText cs r, hr', ← h2]
    exact hmem
  rw [StringTable.toStr, hga]
  simp only [if_neg hlen, hmem, hfirst, if_neg hnofast]
  rcases split_first_ref log cs with ⟨L, hL, hLs⟩ | ⟨L, id', cs', hL⟩
  · have : tp = (utf8 L).length := by
      rw [← hr', hL, List.append_assoc, List.singleton_append,
        memchr_append (text_not_term L) (by decide)] at hmem
      injection hmem with hmem
      exact hmem.symm
    have htake : (t.stringData.drop a).take tp = utf8 L := by
      rw [← hr', hL, this, List.append_assoc, List.take_left]
    rw [htake, validUtf8_utf8, if_pos rfl, hLs s hr]
  · have : (utf8 L).length < tp := by
      rw [← hr', hL, show utf8 L ++ (0xFE :: (leBytes 8 id'.toNat ++ encText cs')) ++ r =
        (utf8 L ++ [0xFE]) ++ (leBytes 8 id'.toNat ++ encText cs' ++ r) by simp,
        memchr_none_prefix (p := fun b : UInt8 => decide (b = terminator)) (by
          intro b hb
          simp at hb
          rcases hb with hb | rfl
          · exact text_not_term L b hb
          · decide)] at hmem
      match hm : memchr (fun b => decide (b = terminator)) (leBytes 8 id'.toNat ++ encText cs' ++ r), hmem with
      | some k, hmem =>
        simp at hmem
        omega
    have hin : (0xFE : UInt8) ∈ (t.stringData.drop a).take tp := by
      rw [← hr', hL, List.append_assoc, List.take_append]
      obtain ⟨k, hk⟩ : ∃ k, tp - (utf8 L).length = k + 1 := ⟨tp - (utf8 L).length - 1, by omega⟩
      rw [hk]
      simp
    rw [invalid_of_mem hin, if_neg (by simp), hw, hn f (by omega)]
    simp

theorem toStr_unknown {log : TableLog} {t : StringTable} (rel : TabRel log t) {id : StringId} (h : Unknown log id) :
    ToString t id (utf8 "<unknown>") := by
  refine ⟨1, fun fuel hf => ?_⟩
  obtain ⟨f, rfl⟩ : ∃ f, fuel = f + 1 := ⟨fuel - 1, by omega⟩
  rw [StringTable.toStr, rel.unknown id h]
  rfl

/-! ### Exactly what `to_string` shows -/

theorem _root_.Verif.Spec.StoredAt.entry {log : TableLog} {id : StringId} {a : Nat} {cs : List StringComponent} (h : StoredAt log id a cs) : Entry log id cs := by
  cases h with
  | allocated h _ => exact .inl h
  | mapped hb h _ => exact .inr (.inl ⟨_, hb, h⟩)
  | metadata hl hn => exact .inr (.inr ⟨_, _, _, hl, by simp [binds], hn⟩)

theorem binds_text {v : StringId} {x} {cs : List StringComponent} (h : binds v x = some (.text cs)) :
    ∃ t r, x = (SessionOp.table (.allocMetadata t), .ok r) ∧ v = 100000001 ∧ components t = cs := by
  unfold binds at h
  split at h
  · split at h <;> simp at h
  · split at h <;> simp at h
  · split at h
    · rename_i hv
      simp at h
      exact ⟨_, _, rfl, hv, h⟩
    · simp at h
  · simp at h

theorem TabRel.stored {log : TableLog} {t : StringTable} (rel : TabRel log t) {id : StringId} {cs : List StringComponent}
    (h : Entry log id cs) : ∃ a, StoredAt log id a cs := by
  obtain ⟨a, _, _, _, h4⟩ := rel.entry id cs h
  rcases h with h | ⟨c, hb, hc⟩ | ⟨l1, x, l2, hl, hb, hn⟩
  · exact ⟨a, .allocated h (h4 id (.inl rfl) h)⟩
  · exact ⟨a, .mapped hb hc (h4 c (.inr hb) hc)⟩
  · obtain ⟨t', r, rfl, rfl, rfl⟩ := binds_text hb
    exact ⟨_, .metadata hl hn⟩

theorem toStr_leading {log : TableLog} {t : StringTable} (rel : TabRel log t) {id r : StringId} {a : Nat} {cs : List StringComponent}
    (hs : StoredAt log id a cs) (hm : MistakenFor a cs r) (fuel : Nat) : t.toStr (fuel + 1) id = t.toStr fuel r := by
  obtain ⟨h1, h2⟩ := hm
  obtain ⟨a', hw, h8, hp, hga⟩ := write_entry rel hs.entry
  have hga' := rel.located id a cs hs
  rw [hga] at hga'
  injection hga' with hga'
  injection hga' with hga'
  subst hga'
  rcases leadingRef_spec cs with ⟨r', cs', g1, g2⟩ | ⟨g1, _⟩
  swap
  · rw [g1] at h1; simp at h1
  rw [g1] at h1
  injection h1 with h1
  subst h1
  have hlen : ¬ t.stringData.length < a' := by
    intro hlt
    rw [List.drop_eq_nil_of_le (by omega)] at hp
    exact encText_ne cs (List.prefix_nil.mp hp)
  have hd : decodeStringRef (t.stringData.drop a') = .ok r' := by
    rw [g2] at hp
    exact decode_ref r' _ _ hp
  have hfirst : t.stringData[a']? = some 0xFE := by
    rw [g2] at hp
    exact head_of_prefix hp
  obtain ⟨x, hx⟩ := hp
  have hmem : memchr (fun b => decide (b = terminator)) (t.stringData.drop a') = some (a' + 9) := by
    rw [← hx]
    exact (findIdx?_encText cs x).trans h2
  rw [StringTable.toStr, hga]
  simp only [if_neg hlen, hmem, hfirst, hd]
  rw [if_pos ⟨rfl, rfl⟩]

theorem shown_toStr {log : TableLog} {t : StringTable} (rel : TabRel log t) {id : StringId} {s : String} (h : Shown log id s) :
    ToString t id (utf8 s) := by
  induction h with
  | unknown hu => exact toStr_unknown rel hu
  | whole hl hm hr =>
    refine toStr_entry rel hl.entry hr (fun a ha => ?_)
    rw [rel.located _ _ _ hl] at ha
    injection ha with ha
    injection ha with ha
    subst ha
    rw [← mistaken_iff]
    rintro ⟨r, h⟩
    exact hm r h
  | leading hl hm _ ih =>
    obtain ⟨n, hn⟩ := ih
    refine ⟨n + 1, fun fuel hf => ?_⟩
    obtain ⟨f, rfl⟩ : ∃ f, fuel = f + 1 := ⟨fuel - 1, by omega⟩
    rw [toStr_leading rel hl hm, hn f (by omega)]

theorem reads_leading_shown {log : TableLog} {t : StringTable} (rel : TabRel log t) {cs : List StringComponent} {s : String}
    (h : Reads log cs s) : ∀ r, leadingRef cs = some r → ∃ s', Shown log r s' := by
  induction h with
  | nil => simp [leadingRef]
  | @value s t cs _ ih =>
    intro r hr
    rw [leadingRef] at hr
    split at hr
    · exact ih r hr
    · simp at hr
  | unknown hu _ _ =>
    intro r hr
    simp [leadingRef] at hr
    subst hr
    exact ⟨_, .unknown hu⟩
  | @entry id s t cs cs' he hr' _ ih _ =>
    intro r hr
    simp [leadingRef] at hr
    subst hr
    obtain ⟨a, hs⟩ := rel.stored he
    by_cases hm : ∃ r, MistakenFor a cs' r
    · obtain ⟨r, hm⟩ := hm
      obtain ⟨s', hs'⟩ := ih r hm.1
      exact ⟨s', .leading hs hm hs'⟩
    · exact ⟨s, .whole hs (fun r h => hm ⟨r, h⟩) hr'⟩

theorem means_shown {log : TableLog} {t : StringTable} (rel : TabRel log t) {id : StringId} {s : String} (h : Means log id s) :
    ∃ s', Shown log id s' := reads_leading_shown rel h id rfl

/-- Everything a session needs: the table loads and relates to the log. -/
theorem session_table (ops : List SessionOp) (ho : ∀ o ∈ ops, GoodOp o) :
    ∃ t D I, loadTable (savedStore ops) = .ok t ∧ t.stringData = D ∧ TabRel (logOf ops) t ∧ TabOk (logOf ops) D I := by
  obtain ⟨h, inv⟩ := session_inv ops ho
  obtain ⟨m, hm, _, h1, h2, _⟩ := inv.saved
  obtain ⟨t, ht, hd, hrel⟩ := inv.tab.rel
  refine ⟨t, written 1 h, written 2 h, ?_, hd, hrel, inv.tab⟩
  have hs : splitStreams (savedStore ops) = .ok m := hm
  unfold loadTable
  rw [hs]
  simp only [bind, Except.bind, h1, h2, Option.getD_some]
  exact ht none

/-- Histories on the three sinks, after dropping them, split into what was written. -/
theorem saved_of_history {h : History} (hg : AllGood h) (hs : ∀ x ∈ h, x.1 ≤ 2) :
    ∃ m, splitStreams (World.exec profTags drops (run profTags h).2).2.store.data = .ok m ∧
      ∀ i, i ≤ 2 → m (profTags i) = if written i h = [] then none else some (written i h) := by
  have e : (World.exec profTags drops (run profTags h).2).2.store.data = storeAfter profTags (h ++ drops) := by
    simp [storeAfter, run, exec_append]
  have hg' : AllGood (h ++ drops) := by
    intro x hx
    simp [drops] at hx
    rcases hx with hx | rfl | rfl | rfl
    · exact hg x hx
    all_goals trivial
  have hs' : ∀ x ∈ h ++ drops, x.1 ≤ 2 := by
    intro x hx
    simp [drops] at hx
    rcases hx with hx | rfl | rfl | rfl
    · exact hs x hx
    all_goals simp
  obtain ⟨m, hm, hst⟩ := Verif.Props.C01_split_recovers_streams profTags (h ++ drops) hg'
  refine ⟨m, by rw [e]; exact hm, ?_⟩
  intro i hi
  have hw : written i (h ++ drops) = written i h := by
    rw [written_append]
    have : written i drops = [] := by
      simp only [written, List.flatMap_eq_nil_iff, List.mem_filter, drops]
      rintro x ⟨hx, _⟩
      simp at hx
      rcases hx with rfl | rfl | rfl <;> rfl
    rw [this, List.append_nil]
  have hf : Flushed i (h ++ drops) := by
    have : i = 0 ∨ i = 1 ∨ i = 2 := by omega
    rcases this with rfl | rfl | rfl
    · exact .inr ⟨h, .drop, [(1, .drop), (2, .drop)], rfl, trivial, by simp⟩
    · exact .inr ⟨h ++ [(0, .drop)], .drop, [(2, .drop)], by simp [drops], trivial, by simp⟩
    · exact .inr ⟨h ++ [(0, .drop), (1, .drop)], .drop, [], by simp [drops], trivial, by simp⟩
  rw [hst i (tagUnshared_prof hs' hi) hf, hw]

theorem runOps_append (a b : List SessionOp) (w : World) :
    runOps (a ++ b) w = ((runOps a w).1 ++ (runOps b (runOps a w).2).1, (runOps b (runOps a w).2).2) := by
  induction a generalizing w with
  | nil => simp [runOps]
  | cons o a ih => simp [runOps, ih]

theorem runOps_length (ops : List SessionOp) (w : World) : (runOps ops w).1.length = ops.length := by
  induction ops generalizing w with
  | nil => simp [runOps]
  | cons o a ih => simp [runOps, ih]

end Verif.Mm
