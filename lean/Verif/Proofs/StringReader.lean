import Verif.Proofs.StringSession

namespace Verif.Mm

open Verif Verif.Spec

theorem memchr_append {p : UInt8 → Bool} {L X : Bytes} {x : UInt8} (h : ∀ b ∈ L, p b = false) (hx : p x = true) :
    memchr p (L ++ x :: X) = some L.length := by
  induction L with
  | nil => simp [memchr, List.findIdx?_cons, hx]
  | cons b L ih =>
    have h1 := h b (by simp)
    have h2 := ih (fun b hb => h b (by simp [hb]))
    simp only [memchr] at h2 ⊢
    rw [List.cons_append, List.findIdx?_cons, h1, h2]
    simp

theorem text_not_marker (L : String) : ∀ b ∈ utf8 L, (fun b : UInt8 => decide (b = 0xFF) || decide (b = 0xFE)) b = false := by
  intro b hb
  have := utf8_bytes_lt L b hb
  have h1 : b ≠ 0xFF := by intro h; subst h; simp at this
  have h2 : b ≠ 0xFE := by intro h; subst h; simp at this
  simp [h1, h2]

theorem drop_of_prefix {A B D : Bytes} {pos : Nat} (h : A ++ B <+: D.drop pos) : B <+: D.drop (pos + A.length) := by
  obtain ⟨r, hr⟩ := h
  rw [← List.drop_drop, ← hr, List.append_assoc, List.drop_left]
  exact List.prefix_append _ _

theorem head_of_prefix {x : UInt8} {B D : Bytes} {pos : Nat} (h : x :: B <+: D.drop pos) : D[pos]? = some x := by
  obtain ⟨r, hr⟩ := h
  have := congrArg List.head? hr
  rw [List.head?_drop] at this
  simpa using this.symm

/-- Reading a literal. -/
theorem literal_step (t : StringTable) (L : String) (hL : utf8 L ≠ []) (x : UInt8) (X : Bytes) (hx : x = 0xFF ∨ x = 0xFE)
    (pos fuel : Nat) (hp : utf8 L ++ x :: X <+: t.stringData.drop pos) :
    t.writeLoop (fuel + 1) pos =
      match t.writeLoop fuel (pos + (utf8 L).length) with
      | .error e => .error e
      | .ok rest => .ok (utf8 L ++ rest) := by
  match hl : utf8 L, hL with
  | b :: bs, _ =>
    have hp' := hp
    rw [hl] at hp
    have hb : t.stringData[pos]? = some b := head_of_prefix (B := bs ++ x :: X) (by simpa using hp)
    have hlt := utf8_bytes_lt L b (by rw [hl]; simp)
    have h1 : b ≠ terminator := by intro h; subst h; simp [terminator] at hlt
    have h2 : b ≠ stringRefTag := by intro h; subst h; simp [stringRefTag] at hlt
    have hm : memchr (fun b => decide (b = 0xFF) || decide (b = 0xFE)) (t.stringData.drop pos) = some (b :: bs).length := by
      obtain ⟨r, hr⟩ := hp'
      rw [← hr, List.append_assoc, List.cons_append, memchr_append (text_not_marker L) (by rcases hx with rfl | rfl <;> decide), hl]
    have ht : (t.stringData.drop pos).take (b :: bs).length = b :: bs := by
      obtain ⟨r, hr⟩ := hp
      rw [← hr, List.append_assoc, List.take_left]
    rw [StringTable.writeLoop, hb]
    simp only [if_neg h1, if_neg h2]
    rw [hm]
    simp only
    rw [ht, ← hl, lossy_utf8]
    cases t.writeLoop fuel (pos + (utf8 L).length) <;> rfl

/-- The markers that can follow a literal. -/
theorem encText_head (cs : List StringComponent) (h : ∀ s cs', cs ≠ .value s :: cs') :
    ∃ x X, encText cs = x :: X ∧ (x = 0xFF ∨ x = 0xFE) := by
  match cs with
  | [] => exact ⟨0xFF, [], rfl, .inl rfl⟩
  | .value s :: cs' => exact (h s cs' rfl).elim
  | .ref id :: cs' => exact ⟨0xFE, leBytes 8 id.toNat ++ encText cs', by simp [encText, encComponent], .inr rfl⟩

theorem nil_step (t : StringTable) (pos fuel : Nat) (h : encText [] <+: t.stringData.drop pos) :
    t.writeLoop (fuel + 1) pos = .ok [] := by
  have hb : t.stringData[pos]? = some 0xFF := head_of_prefix (B := []) (by simpa [encText] using h)
  rw [StringTable.writeLoop, hb]
  simp [terminator]

theorem decode_ref (id : StringId) (D : Bytes) (X : Bytes) (h : 0xFE :: leBytes 8 id.toNat ++ X <+: D) :
    decodeStringRef D = .ok id := by
  obtain ⟨r, rfl⟩ := h
  have h1 : ¬ (0xFE :: leBytes 8 id.toNat ++ X ++ r).length < 9 := by simp
  have h2 : ((0xFE :: leBytes 8 id.toNat ++ X ++ r).take 9).drop 1 = leBytes 8 id.toNat := by
    rw [List.append_assoc, List.take_left' (by simp)]
    simp
  have h3 : fromLe (leBytes 8 id.toNat) = id.toNat :=
    fromLe_leBytes_of_lt (Nat.lt_of_lt_of_eq id.toNat_lt (by decide))
  rw [decodeStringRef, if_neg h1, h2, h3, UInt64.ofNat_toNat]

theorem ref_step (t : StringTable) (pos fuel : Nat) (id : StringId) (cs : List StringComponent)
    (h : encText (.ref id :: cs) <+: t.stringData.drop pos) :
    t.writeLoop (fuel + 1) pos =
      (match t.write fuel id with
      | .error e => .error e
      | .ok s =>
        match t.writeLoop fuel (pos + 9) with
        | .error e => .error e
        | .ok rest => .ok (s ++ rest)) ∧
    encText cs <+: t.stringData.drop (pos + 9) := by
  have he : encText (.ref id :: cs) = (0xFE :: leBytes 8 id.toNat) ++ encText cs := by simp [encText, encComponent]
  rw [he] at h
  constructor
  · have hb : t.stringData[pos]? = some 0xFE := head_of_prefix (B := leBytes 8 id.toNat ++ encText cs) (by simpa using h)
    rw [StringTable.writeLoop, hb]
    simp only [terminator, stringRefTag, stringRefEncodedSize]
    rw [if_neg (by decide), if_pos trivial, decode_ref id _ (encText cs) h]
    simp only []
    cases t.write fuel id with
    | error e => rfl
    | ok s => cases t.writeLoop fuel (pos + 9) <;> rfl
  · have := drop_of_prefix h
    simpa using this

theorem encText_value (s : String) (cs : List StringComponent) : encText (.value s :: cs) = utf8 s ++ encText cs := by
  simp [encText, encComponent]

theorem write_entry {log : TableLog} {t : StringTable} (rel : TabRel log t) {id : StringId} {cs} (h : Entry log id cs) :
    ∃ a, (∀ fuel, t.write (fuel + 1) id = t.writeLoop fuel a) ∧ 8 ≤ a ∧ encText cs <+: t.stringData.drop a ∧
      t.getAddr id = .ok (some a) := by
  obtain ⟨a, h1, h2, h3, _⟩ := rel.entry id cs h
  exact ⟨a, fun fuel => by rw [StringTable.write, h1], h2, h3, h1⟩

theorem write_unknown {log : TableLog} {t : StringTable} (rel : TabRel log t) {id : StringId} (h : Unknown log id) (fuel : Nat) :
    t.write (fuel + 1) id = .ok (utf8 "<unknown>") := by
  rw [StringTable.write, rel.unknown id h]
  rfl

/-- Forward direction: the reader returns the text, for all large enough fuel. -/
theorem reads_loop {log : TableLog} {t : StringTable} (rel : TabRel log t) {cs : List StringComponent} {s : String}
    (h : Reads log cs s) : ∀ (L : String) (pos : Nat), utf8 L ++ encText cs <+: t.stringData.drop pos →
      ∃ n, ∀ fuel, n ≤ fuel → t.writeLoop fuel pos = .ok (utf8 L ++ utf8 s) := by
  have lit : ∀ (cs : List StringComponent) (R : Bytes) (hcs : ∀ s cs', cs ≠ .value s :: cs')
      (hR : ∀ pos, encText cs <+: t.stringData.drop pos → ∃ n, ∀ fuel, n ≤ fuel → t.writeLoop fuel pos = .ok R)
      (L : String) (pos : Nat), utf8 L ++ encText cs <+: t.stringData.drop pos →
      ∃ n, ∀ fuel, n ≤ fuel → t.writeLoop fuel pos = .ok (utf8 L ++ R) := by
    intro cs R hcs hR L pos hp
    by_cases hL : utf8 L = []
    · rw [hL] at hp ⊢
      exact hR pos hp
    · obtain ⟨n, hn⟩ := hR _ (drop_of_prefix hp)
      obtain ⟨x, X, hx, hxm⟩ := encText_head cs hcs
      rw [hx] at hp
      refine ⟨n + 1, ?_⟩
      intro fuel hf
      obtain ⟨f, rfl⟩ : ∃ f, fuel = f + 1 := ⟨fuel - 1, by omega⟩
      rw [literal_step t L hL x X hxm pos f hp, hn f (by omega)]
  induction h with
  | nil =>
    intro L pos hp
    refine lit [] _ (by simp) ?_ L pos hp
    intro pos hp
    refine ⟨1, ?_⟩
    intro fuel hf
    obtain ⟨f, rfl⟩ : ∃ f, fuel = f + 1 := ⟨fuel - 1, by omega⟩
    rw [nil_step t pos f hp]
    simp
  | @value s' t' cs' _ ih =>
    intro L pos hp
    rw [encText_value, ← List.append_assoc, ← utf8_append] at hp
    obtain ⟨n, hn⟩ := ih (L ++ s') pos hp
    refine ⟨n, fun fuel hf => ?_⟩
    rw [hn fuel hf, utf8_append, utf8_append, List.append_assoc]
  | @unknown id t' cs' hu _ ih =>
    intro L pos hp
    refine lit _ _ (by simp) ?_ L pos hp
    intro pos hp
    obtain ⟨e1, e2⟩ := ref_step t pos 0 id cs' hp
    obtain ⟨n, hn⟩ := ih "" (pos + 9) (by simpa using e2)
    refine ⟨n + 2, ?_⟩
    intro fuel hf
    obtain ⟨f, rfl⟩ : ∃ f, fuel = f + 1 + 1 := ⟨fuel - 2, by omega⟩
    rw [(ref_step t pos (f + 1) id cs' hp).1, write_unknown rel hu, hn (f + 1) (by omega)]
    simp [utf8_append]
  | @entry id s' t' cs' cs'' he _ _ ih1 ih2 =>
    intro L pos hp
    refine lit _ _ (by simp) ?_ L pos hp
    intro pos hp
    obtain ⟨_, e2⟩ := ref_step t pos 0 id _ hp
    obtain ⟨n, hn⟩ := ih2 "" (pos + 9) (by simpa using e2)
    obtain ⟨a, hw, _, hpa, _⟩ := write_entry rel he
    obtain ⟨n', hn'⟩ := ih1 "" a (by simpa using hpa)
    refine ⟨n + n' + 2, ?_⟩
    intro fuel hf
    obtain ⟨f, rfl⟩ : ∃ f, fuel = f + 1 + 1 := ⟨fuel - 2, by omega⟩
    rw [(ref_step t pos (f + 1) id _ hp).1, hw, hn' f (by omega), hn (f + 1) (by omega)]
    simp [utf8_append]

/-- At every fuel, reading well-formed data yields the text or runs out of fuel; it never panics. -/
theorem loop_total {log : TableLog} {t : StringTable} (rel : TabRel log t) (closed : ClosedLog log) (fuel : Nat) :
    ∀ (cs : List StringComponent) (L : String) (pos : Nat),
      (∀ r, .ref r ∈ cs → Unknown log r ∨ ∃ cs', Entry log r cs') →
      utf8 L ++ encText cs <+: t.stringData.drop pos →
      t.writeLoop fuel pos = .error .outOfFuel ∨ ∃ s, Reads log cs s ∧ t.writeLoop fuel pos = .ok (utf8 L ++ utf8 s) := by
  induction fuel using Nat.strongRecOn with
  | ind fuel ih =>
  intro cs
  induction cs with
  | nil =>
    intro L pos hc hp
    match fuel, ih with
    | 0, _ => left; rw [StringTable.writeLoop]
    | fuel + 1, ih =>
      by_cases hL : utf8 L = []
      · right
        rw [hL] at hp
        exact ⟨"", .nil, by rw [nil_step t pos fuel hp, hL]; simp⟩
      · rw [literal_step t L hL 0xFF [] (.inl rfl) pos fuel hp]
        rcases ih fuel (by omega) [] "" _ (by simp) (by simpa using drop_of_prefix hp) with h | ⟨s, h1, h2⟩
        · left; rw [h]
        · right; exact ⟨s, h1, by rw [h2]; simp⟩
  | cons c cs ihcs =>
    intro L pos hc hp
    cases c with
    | value s' =>
      rw [encText_value, ← List.append_assoc, ← utf8_append] at hp
      rcases ihcs (L ++ s') pos (fun r hr => hc r (by simp [hr])) hp with h | ⟨s, h1, h2⟩
      · exact .inl h
      · exact .inr ⟨s' ++ s, .value h1, by rw [h2]; simp [utf8_append]⟩
    | ref id =>
      match fuel, ih with
      | 0, _ => left; rw [StringTable.writeLoop]
      | fuel + 1, ih =>
        by_cases hL : utf8 L = []
        · rw [hL] at hp ⊢
          obtain ⟨e1, e2⟩ := ref_step t pos fuel id cs hp
          rw [e1]
          match fuel, ih with
          | 0, _ => left; rw [StringTable.write]
          | fuel + 1, ih =>
            have hrest := ih (fuel + 1) (by omega) cs "" (pos + 9) (fun r hr => hc r (by simp [hr])) (by simpa using e2)
            rcases hc id (by simp) with hu | ⟨cs', he⟩
            · rw [write_unknown rel hu]
              rcases hrest with h | ⟨s, h1, h2⟩
              · left; rw [h]
              · right; exact ⟨_, .unknown hu h1, by rw [h2]; simp [utf8_append]⟩
            · obtain ⟨a, hw, _, hpa, _⟩ := write_entry rel he
              rw [hw]
              rcases ih fuel (by omega) cs' "" a (closed id cs' he) (by simpa using hpa) with h | ⟨s', h1', h2'⟩
              · left; rw [h]
              · rw [h2']
                rcases hrest with h | ⟨s, h1, h2⟩
                · left; rw [h]
                · right; exact ⟨_, .entry he h1' h1, by rw [h2]; simp [utf8_append]⟩
        · have hp' := hp
          rw [show encText (.ref id :: cs) = 0xFE :: (leBytes 8 id.toNat ++ encText cs) by simp [encText, encComponent]] at hp
          rw [literal_step t L hL 0xFE _ (.inr rfl) pos fuel hp]
          rcases ih fuel (by omega) (.ref id :: cs) "" _ hc (by simpa using drop_of_prefix hp') with h | ⟨s, h1, h2⟩
          · left; rw [h]
          · right; exact ⟨s, h1, by rw [h2]; simp⟩

theorem write_total {log : TableLog} {t : StringTable} (rel : TabRel log t) (closed : ClosedLog log) (id : StringId)
    (hid : Unknown log id ∨ ∃ cs, Entry log id cs) (fuel : Nat) :
    t.write fuel id = .error .outOfFuel ∨ ∃ s, Means log id s ∧ t.write fuel id = .ok (utf8 s) := by
  match fuel with
  | 0 => left; rw [StringTable.write]
  | fuel + 1 =>
    rcases hid with hu | ⟨cs, he⟩
    · right
      exact ⟨"<unknown>" ++ "", .unknown hu .nil, by rw [write_unknown rel hu]; simp⟩
    · obtain ⟨a, hw, _, hpa, _⟩ := write_entry rel he
      rw [hw]
      rcases loop_total rel closed fuel cs "" a (closed id cs he) (by simpa using hpa) with h | ⟨s, h1, h2⟩
      · exact .inl h
      · exact .inr ⟨s ++ "", .entry he h1 .nil, by rw [h2]; simp⟩

theorem means_writes {log : TableLog} {t : StringTable} (rel : TabRel log t) {id : StringId} {s : String} (h : Means log id s) :
    Writes t id (utf8 s) := by
  unfold Means at h
  cases h with
  | unknown hu hnil =>
    cases hnil
    refine ⟨1, fun fuel hf => ?_⟩
    obtain ⟨f, rfl⟩ : ∃ f, fuel = f + 1 := ⟨fuel - 1, by omega⟩
    rw [write_unknown rel hu]; simp
  | entry he hr hnil =>
    cases hnil
    obtain ⟨a, hw, _, hpa, _⟩ := write_entry rel he
    obtain ⟨n, hn⟩ := reads_loop rel hr "" a (by simpa using hpa)
    refine ⟨n + 1, fun fuel hf => ?_⟩
    obtain ⟨f, rfl⟩ : ∃ f, fuel = f + 1 := ⟨fuel - 1, by omega⟩
    rw [hw, hn f (by omega)]
    simp

end Verif.Mm
