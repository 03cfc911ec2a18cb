import Verif.Proofs.StringFast
import Mathlib.Data.List.Induction

/-! # Properties C12–C20: the string table -/

namespace Verif.Props
open Verif Verif.Mm Verif.Spec

/-- A session used for the examples: a plain string, a composite referring to it and to a mapped and an unmapped virtual
id, and an event in between. -/
def exTableOps : List SessionOp :=
  [.table (.alloc (.str "héllo")), .events (.writeBytes [1, 2, 3]), .table (.mapVirtual 7 100000011), .flush 1,
   .table (.alloc (.comps [.value "<", .ref 100000011, .ref 7, .ref 8, .value ">"])),
   .table (.bulkMapVirtual [9, 10, 9] 100000018), .table (.allocMetadata (.str "m"))]

theorem exTableOps_good : ∀ o ∈ exTableOps, GoodOp o := by
  intro o ho
  simp only [exTableOps, List.mem_cons, List.not_mem_nil, or_false] at ho
  rcases ho with rfl | rfl | rfl | rfl | rfl | rfl | rfl <;> simp [GoodOp, Good]

theorem exTableOps_log : logOf exTableOps =
    [(.table (.alloc (.str "héllo")), .ok (some 100000011)), (.events (.writeBytes [1, 2, 3]), .ok none),
     (.table (.mapVirtual 7 100000011), .ok none), (.flush 1, .ok none),
     (.table (.alloc (.comps [.value "<", .ref 100000011, .ref 7, .ref 8, .value ">"])), .ok (some 100000018)),
     (.table (.bulkMapVirtual [9, 10, 9] 100000018), .ok none), (.table (.allocMetadata (.str "m")), .ok none)] := by
  have h : (runOps exTableOps (newBuilder World.init).2).1 =
      [.ok (some 100000011), .ok none, .ok none, .ok none, .ok (some 100000018), .ok none, .ok none] := by decide
  show exTableOps.zip (runOps exTableOps (newBuilder World.init).2).1 = _
  rw [h]; rfl

/-! ### C12 -/

theorem reads_str (log : TableLog) (s : String) : Reads log (components (.str s)) s := by
  have := Reads.value (s := s) (Reads.nil (log := log))
  simpa [components] using this

theorem entry_means {log : TableLog} {id : StringId} {cs : List StringComponent} {s : String} (he : Entry log id cs)
    (hr : Reads log cs s) : Means log id s := by
  have := Reads.entry he hr (Reads.nil (log := log))
  simpa [Means] using this

/-- **C12.** Whatever else happens in a session, a `str` that was allocated is read back verbatim, by both readers. -/
theorem C12_plain_string_reads_back (ops : List SessionOp) (good : ∀ o ∈ ops, GoodOp o) (s : String) (id : StringId)
    (h : (SessionOp.table (.alloc (.str s)), .ok (some id)) ∈ logOf ops) :
    ∃ t, loadTable (savedStore ops) = .ok t ∧ Writes t id (utf8 s) ∧ ToString t id (utf8 s) := by
  obtain ⟨t, D, I, ht, hd, rel, ok⟩ := session_table ops good
  have hal : Allocated (logOf ops) id (components (.str s)) := ⟨.table (.alloc _), rfl, h⟩
  refine ⟨t, ht, means_writes rel (entry_means (.inl hal) (reads_str _ s)),
    toStr_entry rel (.inl hal) (reads_str _ s) (fun a _ => short_safe (.inl ?_))⟩
  simp only [components, encText, List.flatMap_cons, encComponent, List.flatMap_nil, List.append_nil]
  intro hh
  cases hu : utf8 s with
  | nil => rw [hu] at hh; simp at hh
  | cons b bs =>
    rw [hu] at hh
    simp at hh
    have := utf8_bytes_lt s b (by simp [hu])
    subst hh
    simp at this

/-- **C12.** Two strings that read the same are the same: nothing is lost in the bytes. -/
theorem C12_reading_is_faithful (s s' : String) (h : utf8 s = utf8 s') : s = s' := utf8_inj h

/-- **C12.** `alloc` hands out an id in every session, as long as addresses fit. -/
theorem C12_alloc_succeeds (ops : List SessionOp) (good : ∀ o ∈ ops, GoodOp o) (t : Text) :
    (∃ id, ((SessionOp.table (.alloc t)).run (session ops).2).1 = .ok (some id)) ∨
    (∃ m, splitStreams (savedStore ops) = .ok m ∧ ∃ d, m .stringData = some d ∧ 18446744073709551616 ≤ d.length + 100000003) := by
  obtain ⟨h, inv⟩ := session_inv ops good
  by_cases hl : 18446744073709551616 ≤ (written 1 h).length + 100000003
  · right
    obtain ⟨m, hm, _, h1, _⟩ := inv.saved
    exact ⟨m, hm, _, h1, hl⟩
  · left
    refine ⟨UInt64.ofNat ((written 1 h).length + 100000003), ?_⟩
    rw [inv.world]
    have := alloc_run h inv.good t
    rw [fromAddr_eq (by omega)] at this
    simp only [SessionOp.run, TableOp.run]
    rw [Act.bind_ok this]
    rfl

example : ∃ t, loadTable (savedStore exTableOps) = .ok t ∧ Writes t 100000011 (utf8 "héllo") ∧ ToString t 100000011 (utf8 "héllo") :=
  C12_plain_string_reads_back exTableOps exTableOps_good "héllo" 100000011 (by rw [exTableOps_log]; simp)

/-! ### C13 -/

/-- **C13.** Every id that means a text (its components' values verbatim, references replaced by what they mean) is read
as that text by `write_to_string`. -/
theorem C13_composite_reads_as_concatenation (ops : List SessionOp) (good : ∀ o ∈ ops, GoodOp o) (id : StringId) (s : String)
    (h : Means (logOf ops) id s) :
    ∃ t, loadTable (savedStore ops) = .ok t ∧ Writes t id (utf8 s) := by
  obtain ⟨t, D, I, ht, hd, rel, ok⟩ := session_table ops good
  exact ⟨t, ht, means_writes rel h⟩

/-- **C13.** The meaning of an id is unique. -/
theorem C13_meaning_unique (ops : List SessionOp) (good : ∀ o ∈ ops, GoodOp o) (id : StringId) (s s' : String)
    (h : Means (logOf ops) id s) (h' : Means (logOf ops) id s') : s = s' := by
  obtain ⟨t, D, I, ht, hd, rel, ok⟩ := session_table ops good
  obtain ⟨n, hn⟩ := means_writes rel h
  obtain ⟨n', hn'⟩ := means_writes rel h'
  have := (hn (n + n') (by omega)).symm.trans (hn' (n + n') (by omega))
  exact utf8_inj (by simpa using this)

/-- The composite of the example session. -/
theorem exTableOps_composite :
    Reads (logOf exTableOps) [.value "<", .ref 100000011, .ref 7, .ref 8, .value ">"] "<héllohéllo<unknown>>" := by
  have hal : Allocated (logOf exTableOps) 100000011 [.value "héllo"] := ⟨.table (.alloc (.str "héllo")), rfl, by rw [exTableOps_log]; simp⟩
  have hr : Reads (logOf exTableOps) [.value "héllo"] "héllo" := reads_str _ "héllo"
  have hb : Bound (logOf exTableOps) 7 (.concrete 100000011) := by
    rw [exTableOps_log]
    exact ⟨[_, _], _, [_, _, _, _], rfl, rfl, by simp [binds]⟩
  have hu : Unknown (logOf exTableOps) 8 := by
    left
    refine ⟨by decide, ?_⟩
    rw [exTableOps_log]
    intro x hx
    simp only [List.mem_cons, List.not_mem_nil, or_false] at hx
    rcases hx with rfl | rfl | rfl | rfl | rfl | rfl | rfl <;> rfl
  have := Reads.value (s := "<") (Reads.entry (.inl hal) hr (Reads.entry (.inr (.inl ⟨_, hb, hal⟩)) hr
    (Reads.unknown hu (Reads.value (s := ">") .nil))))
  simpa using this

example : ∃ t, loadTable (savedStore exTableOps) = .ok t ∧ Writes t 100000018 (utf8 "<héllohéllo<unknown>>") :=
  C13_composite_reads_as_concatenation exTableOps exTableOps_good _ _
    (entry_means (.inl ⟨.table (.alloc (.comps _)), rfl, by rw [exTableOps_log]; simp⟩) exTableOps_composite)

/-! ### C14 -/

/-- **C14.** `to_string` shows exactly the text given by `Shown`: for every id that denotes a text, `to_string` returns it iff
it is what `Shown` says. -/
theorem C14_to_string_exact (ops : List SessionOp) (good : ∀ o ∈ ops, GoodOp o) (id : StringId) (m : String)
    (h : Means (logOf ops) id m) :
    ∃ t, loadTable (savedStore ops) = .ok t ∧ (∃ s, Shown (logOf ops) id s) ∧
      ∀ s, ToString t id (utf8 s) ↔ Shown (logOf ops) id s := by
  obtain ⟨t, D, I, ht, hd, rel, ok⟩ := session_table ops good
  obtain ⟨s0, h0⟩ := means_shown rel h
  refine ⟨t, ht, ⟨s0, h0⟩, fun s => ⟨fun hs => ?_, shown_toStr rel⟩⟩
  obtain ⟨n, hn⟩ := shown_toStr rel h0
  obtain ⟨n', hn'⟩ := hs
  have := (hn (n + n') (by omega)).symm.trans (hn' (n + n') (by omega))
  rw [← utf8_inj (Except.ok.inj this)]
  exact h0

/-- **C14.** The two readers agree on every entry that is not mistaken for a lone reference: unless it begins with a
reference and the first byte 0xFF of its encoding is at offset (address + 9). -/
theorem C14_readers_agree (ops : List SessionOp) (good : ∀ o ∈ ops, GoodOp o) (id : StringId) (a : Nat)
    (cs : List StringComponent) (s : String) (hl : StoredAt (logOf ops) id a cs) (hr : Reads (logOf ops) cs s)
    (h : ∀ r, ¬ MistakenFor a cs r) :
    ∃ t, loadTable (savedStore ops) = .ok t ∧ Writes t id (utf8 s) ∧ ToString t id (utf8 s) := by
  obtain ⟨t, D, I, ht, hd, rel, ok⟩ := session_table ops good
  exact ⟨t, ht, means_writes rel (entry_means hl.entry hr), shown_toStr rel (.whole hl h hr)⟩

/-- **C14.** An entry that is mistaken for a lone reference is shown as what that reference is shown as: the readers then
agree only if nothing else is in it. -/
theorem C14_mistaken_shows_reference (ops : List SessionOp) (good : ∀ o ∈ ops, GoodOp o) (id r : StringId) (a : Nat)
    (cs : List StringComponent) (hl : StoredAt (logOf ops) id a cs) (h : MistakenFor a cs r) :
    ∃ t, loadTable (savedStore ops) = .ok t ∧ ∀ out, ToString t id out ↔ ToString t r out := by
  obtain ⟨t, D, I, ht, hd, rel, ok⟩ := session_table ops good
  refine ⟨t, ht, fun out => ⟨fun ⟨n, hn⟩ => ⟨n, fun fuel hf => ?_⟩, fun ⟨n, hn⟩ => ⟨n + 1, fun fuel hf => ?_⟩⟩⟩
  · rw [← toStr_leading rel hl h]
    exact hn _ (by omega)
  · obtain ⟨f, rfl⟩ : ∃ f, fuel = f + 1 := ⟨fuel - 1, by omega⟩
    rw [toStr_leading rel hl h]
    exact hn _ (by omega)

/-- **C14.** Every id that stands for an entry is stored somewhere, at an address of at least eight, so the conditions above
apply to it. -/
theorem C14_stored_somewhere (ops : List SessionOp) (good : ∀ o ∈ ops, GoodOp o) (id : StringId) (cs : List StringComponent)
    (h : Entry (logOf ops) id cs) : ∃ a, StoredAt (logOf ops) id a cs ∧ 8 ≤ a := by
  obtain ⟨t, D, I, ht, hd, rel, ok⟩ := session_table ops good
  obtain ⟨a, ha⟩ := rel.stored h
  obtain ⟨a', g1, g2, _⟩ := rel.entry id cs h
  rw [rel.located id a cs ha] at g1
  injection g1 with g1
  injection g1 with g1
  exact ⟨a, ha, by omega⟩

/-- **C14.** Plain strings, entries beginning with text and entries shorter than their address plus ten are never mistaken,
so the readers agree on them; in particular on every entry of at most 17 bytes. -/
theorem C14_never_mistaken (a : Nat) (cs : List StringComponent)
    (h : leadingRef cs = none ∨ (encText cs).length < a + 10) (r : StringId) : ¬ MistakenFor a cs r := by
  rintro ⟨h1, h2⟩
  rcases h with h | h
  · rw [h] at h1; simp at h1
  · have := (List.findIdx?_eq_some_iff_findIdx_eq.mp h2).1
    omega

/-- A session with an entry that begins with a reference. -/
def exEntryOps : List SessionOp :=
  [.table (.alloc (.str "a")), .table (.alloc (.comps [.ref 100000011, .value "b"]))]

theorem exEntryOps_log : logOf exEntryOps = [(.table (.alloc (.str "a")), .ok (some 100000011)),
      (.table (.alloc (.comps [.ref 100000011, .value "b"])), .ok (some 100000013))] := by
  have h : (runOps exEntryOps (newBuilder World.init).2).1 = [.ok (some 100000011), .ok (some 100000013)] := by decide
  show exEntryOps.zip (runOps exEntryOps (newBuilder World.init).2).1 = _
  rw [h]; rfl

/-- A session whose second string fools the fast path of `to_string`. -/
def foolOps : List SessionOp :=
  [.table (.alloc (.str "a")), .table (.alloc (.comps [.ref 100000011, .value "0123456789"]))]

/-- **C14.** The two readers disagree: the string `a0123456789` is read as `a` by `to_string`. -/
theorem C14_readers_disagree : ∃ ops id s, (∀ o ∈ ops, GoodOp o) ∧ Means (logOf ops) id s ∧
    ∃ t, loadTable (savedStore ops) = .ok t ∧ Writes t id (utf8 s) ∧ ToString t id (utf8 "a") ∧ s = "a0123456789" := by
  have good : ∀ o ∈ foolOps, GoodOp o := by
    intro o ho
    simp only [foolOps, List.mem_cons, List.not_mem_nil, or_false] at ho
    rcases ho with rfl | rfl <;> simp [GoodOp]
  have hlog : logOf foolOps = [(.table (.alloc (.str "a")), .ok (some 100000011)),
      (.table (.alloc (.comps [.ref 100000011, .value "0123456789"])), .ok (some 100000013))] := by
    have h : (runOps foolOps (newBuilder World.init).2).1 = [.ok (some 100000011), .ok (some 100000013)] := by decide
    show foolOps.zip (runOps foolOps (newBuilder World.init).2).1 = _
    rw [h]; rfl
  have hm : Means (logOf foolOps) 100000013 "a0123456789" := by
    have ha : Allocated (logOf foolOps) 100000011 [.value "a"] := ⟨.table (.alloc (.str "a")), rfl, by rw [hlog]; simp⟩
    have := Reads.entry (.inl ha) (reads_str _ "a") (Reads.value (s := "0123456789") .nil)
    exact entry_means (.inl ⟨.table (.alloc (.comps [.ref 100000011, .value "0123456789"])), rfl, by rw [hlog]; simp⟩) (by simpa [components] using this)
  refine ⟨foolOps, 100000013, "a0123456789", good, hm, ?_⟩
  obtain ⟨t, D, I, ht, hd, rel, ok⟩ := session_table foolOps good
  refine ⟨t, ht, means_writes rel hm, ?_, rfl⟩
  have h1 : ∃ f, (do let t ← loadTable (savedStore foolOps); t.toStr (f + 1) 100000013) = .ok (utf8 "a") := ⟨9, by decide⟩
  have h2 : ToString t 100000011 (utf8 "a") :=
    toStr_entry rel (.inl ⟨.table (.alloc (.str "a")), rfl, by rw [hlog]; simp⟩) (reads_str _ "a") (fun a _ => short_safe (.inl (by decide)))
  -- one step of the fast path, at any fuel
  have h3 : ∀ f, t.toStr (f + 1) 100000013 = t.toStr f 100000011 := by
    intro f
    have key : (do let t ← loadTable (savedStore foolOps); pure (t.getAddr 100000013, t.stringData)) =
        (.ok (.ok (some 10), utf8 "MMSD" ++ [9, 0, 0, 0] ++ [97, 0xFF, 0xFE, 11, 225, 245, 5, 0, 0, 0, 0] ++ utf8 "0123456789" ++ [0xFF]) :
          Except Fault _) := by decide
    rw [ht] at key
    have key' : (t.getAddr 100000013, t.stringData) = (.ok (some 10), utf8 "MMSD" ++ [9, 0, 0, 0] ++ [97, 0xFF, 0xFE, 11, 225, 245, 5, 0, 0, 0, 0] ++ utf8 "0123456789" ++ [0xFF]) := by
      injection key
    injection key' with k1 k2
    rw [StringTable.toStr, k1, k2]
    have e1 : memchr (fun b => decide (b = terminator)) ((utf8 "MMSD" ++ [9, 0, 0, 0] ++ [97, 0xFF, 0xFE, 11, 225, 245, 5, 0, 0, 0, 0] ++ utf8 "0123456789" ++ [0xFF]).drop 10) = some 19 := by decide
    have e2 : (utf8 "MMSD" ++ [9, 0, 0, 0] ++ [97, 0xFF, 0xFE, 11, 225, 245, 5, 0, 0, 0, 0] ++ utf8 "0123456789" ++ [0xFF])[10]? = some 0xFE := by decide
    have e3 : decodeStringRef ((utf8 "MMSD" ++ [9, 0, 0, 0] ++ [97, 0xFF, 0xFE, 11, 225, 245, 5, 0, 0, 0, 0] ++ utf8 "0123456789" ++ [0xFF]).drop 10) = .ok 100000011 := by decide
    have e4 : ¬ (utf8 "MMSD" ++ [9, 0, 0, 0] ++ [97, 0xFF, 0xFE, 11, 225, 245, 5, 0, 0, 0, 0] ++ utf8 "0123456789" ++ [0xFF]).length < 10 := by decide
    simp only [if_neg e4, e1, e2, e3, stringRefTag, stringRefEncodedSize, and_self, if_true]
  obtain ⟨n, hn⟩ := h2
  refine ⟨n + 1, fun fuel hf => ?_⟩
  obtain ⟨f, rfl⟩ : ∃ f, fuel = f + 1 := ⟨fuel - 1, by omega⟩
  rw [h3, hn f (by omega)]

/-- The hypotheses are met: an entry that begins with a reference, is not mistaken and is read by both. -/
example : ∃ t, loadTable (savedStore exEntryOps) = .ok t ∧ Writes t 100000013 (utf8 "ab") ∧ ToString t 100000013 (utf8 "ab") := by
  have hal : Allocated (logOf exEntryOps) 100000013 [.ref 100000011, .value "b"] := ⟨.table (.alloc (.comps _)), rfl, by rw [exEntryOps_log]; simp⟩
  refine C14_readers_agree exEntryOps (by simp [exEntryOps, GoodOp]) 100000013 10 _ _ (.allocated hal rfl) ?_
    (C14_never_mistaken 10 _ (.inr (by decide)))
  exact Reads.entry (s := "a") (.inl ⟨.table (.alloc (.str "a")), rfl, by rw [exEntryOps_log]; simp⟩) (reads_str _ "a") (.value (s := "b") .nil)

/-- An entry that is mistaken. -/
example : MistakenFor 10 [.ref 100000011, .value "0123456789"] 100000011 := ⟨rfl, by decide⟩

/-! ### C15 -/

/-- **C15.** A virtual id reads like the concrete id it was mapped to last. -/
theorem C15_latest_mapping_wins (ops : List SessionOp) (good : ∀ o ∈ ops, GoodOp o) (v c : StringId)
    (cs : List StringComponent) (s : String)
    (hb : Bound (logOf ops) v (.concrete c)) (hc : Allocated (logOf ops) c cs) (hr : Reads (logOf ops) cs s) :
    ∃ t, loadTable (savedStore ops) = .ok t ∧ Writes t v (utf8 s) ∧ Writes t c (utf8 s) := by
  obtain ⟨t, D, I, ht, hd, rel, ok⟩ := session_table ops good
  exact ⟨t, ht, means_writes rel (entry_means (.inr (.inl ⟨c, hb, hc⟩)) hr), means_writes rel (entry_means (.inl hc) hr)⟩

/-- **C15.** Ids that were never mapped, and the invalid id, read as `<unknown>`. -/
theorem C15_unmapped_is_unknown (ops : List SessionOp) (good : ∀ o ∈ ops, GoodOp o) (id : StringId)
    (h : (id.toNat ≤ 100000001 ∧ Unbound (logOf ops) id) ∨ id.toNat = 100000002) :
    ∃ t, loadTable (savedStore ops) = .ok t ∧ Writes t id (utf8 "<unknown>") ∧ ToString t id (utf8 "<unknown>") := by
  obtain ⟨t, D, I, ht, hd, rel, ok⟩ := session_table ops good
  refine ⟨t, ht, means_writes rel ?_, toStr_unknown rel h⟩
  have := Reads.unknown (log := logOf ops) h .nil
  simpa [Means] using this

/-- **C15.** Every virtual id is either mapped or reads as `<unknown>`: there is no third case. -/
theorem C15_bound_or_unbound (log : TableLog) (v : StringId) : (∃ b, Bound log v b) ∨ Unbound log v := by
  induction log using List.reverseRecOn with
  | nil => exact .inr (by simp [Unbound])
  | append_singleton log x ih =>
    cases hx : binds v x with
    | some b => exact .inl ⟨b, bound_snoc.mpr (.inl hx)⟩
    | none =>
      rcases ih with ⟨b, hb⟩ | hu
      · exact .inl ⟨b, bound_snoc.mpr (.inr ⟨hx, hb⟩)⟩
      · exact .inr (unbound_snoc.mpr ⟨hu, hx⟩)

example : ∃ t, loadTable (savedStore exTableOps) = .ok t ∧ Writes t 9 (utf8 "<héllohéllo<unknown>>") ∧
    Writes t 100000018 (utf8 "<héllohéllo<unknown>>") := by
  refine C15_latest_mapping_wins exTableOps exTableOps_good 9 100000018 _ _ ?_ ⟨.table (.alloc (.comps _)), rfl, by rw [exTableOps_log]; simp⟩
    exTableOps_composite
  rw [exTableOps_log]
  exact ⟨[_, _, _, _, _], _, [_], rfl, rfl, by simp [binds]⟩

/-! ### C16 -/

theorem singles_run (c : StringId) (a : Nat) (hc : c.toNat = a + 100000003) (vs : List StringId) :
    ∀ (h : History), AllGood h → (∀ x ∈ h, x.1 ≤ 2) → (∀ v ∈ vs, v.toNat ≤ 100000000) →
      ∃ h', (runOps (vs.map (fun v => .table (.mapVirtual v c))) (run profTags h).2).2 = (run profTags (h ++ h')).2 ∧
        AllGood (h ++ h') ∧ (∀ x ∈ h ++ h', x.1 ≤ 2) ∧ written 0 (h ++ h') = written 0 h ∧ written 1 (h ++ h') = written 1 h ∧
        written 2 (h ++ h') = written 2 h ++ vs.flatMap (fun v => entryBytes (v, a)) := by
  induction vs with
  | nil => intro h hg hs _; exact ⟨[], by simp [runOps], by simpa using hg, by simpa using hs, by simp, by simp, by simp⟩
  | cons v vs ih =>
    intro h hg hs hv
    have hv1 := hv v (by simp)
    rcases mapVirtual_run h hg v c with ⟨a', _, ha', e⟩ | ⟨hn, _⟩
    · have : a' = a := by omega
      subst this
      obtain ⟨h', e', g', s', w0, w1, w2⟩ := ih (h ++ [(2, .writeAtomic 16 (indexEntryFill v a'))])
        (allGood_snoc hg (index_good v a')) (sinks_snoc hs (by omega) _) (fun v hm => hv v (by simp [hm]))
      refine ⟨[(2, .writeAtomic 16 (indexEntryFill v a'))] ++ h', ?_, ?_, ?_, ?_, ?_, ?_⟩
      · have e1 : SessionOp.run (.table (.mapVirtual v c)) (run profTags h).2 =
            (.ok none, (run profTags (h ++ [(2, .writeAtomic 16 (indexEntryFill v a'))])).2) := by
          simp only [SessionOp.run, TableOp.run]
          rw [Act.bind_ok e]
          rfl
        rw [List.map_cons, runOps, e1]
        rw [← List.append_assoc]
        exact e'
      · rw [← List.append_assoc]; exact g'
      · rw [← List.append_assoc]; exact s'
      · rw [← List.append_assoc, w0, written_snoc_other (by decide)]
      · rw [← List.append_assoc, w1, written_snoc_other (by decide)]
      · rw [← List.append_assoc, w2, written_snoc_same, index_payload]
        simp [entryBytes]
    · exact (hn ⟨hv1, by omega⟩).elim

theorem savedStore_append (ops ops' : List SessionOp) :
    savedStore (ops ++ ops') = (World.exec profTags drops (runOps ops' (session ops).2).2).2.store.data := by
  simp only [savedStore, session, runOps_append, drops]

/-- **C16.** After any session, mapping `vs` to `c` in bulk leaves exactly the same streams as mapping them one by one,
in order. -/
theorem C16_bulk_equals_single (ops : List SessionOp) (good : ∀ o ∈ ops, GoodOp o) (vs : List StringId) (c : StringId)
    (hv : ∀ v ∈ vs, v.toNat ≤ 100000000) (hc : 100000003 ≤ c.toNat) :
    ∃ m m', splitStreams (savedStore (ops ++ [.table (.bulkMapVirtual vs c)])) = .ok m ∧
      splitStreams (savedStore (ops ++ vs.map (fun v => .table (.mapVirtual v c)))) = .ok m' ∧
      m .stringIndex = m' .stringIndex ∧ m .stringData = m' .stringData ∧ m .events = m' .events := by
  obtain ⟨h, inv⟩ := session_inv ops good
  rw [savedStore_append, savedStore_append, inv.world]
  obtain ⟨b, hb⟩ : ∃ b, c.toNat = b + 100000003 := ⟨c.toNat - 100000003, by omega⟩
  obtain ⟨h', e', g', s', w0, w1, w2⟩ := singles_run c b hb vs h inv.good inv.sinks hv
  rw [e']
  rcases bulkMapVirtual_run h inv.good vs c with ⟨a, _, ha, e⟩ | ⟨hn, _⟩
  · have ha' : a = b := by omega
    subst ha'
    have e1 : runOps [.table (.bulkMapVirtual vs c)] (run profTags h).2 =
        ([.ok none], (run profTags (h ++ [(2, .writeBytes (vs.flatMap (fun v => entryBytes (v, a))))])).2) := by
      simp only [runOps, SessionOp.run, TableOp.run]
      rw [Act.bind_ok e]
      rfl
    rw [e1]
    obtain ⟨m, hm, hst⟩ := saved_of_history (h := h ++ [(2, .writeBytes (vs.flatMap (fun v => entryBytes (v, a))))])
      (allGood_snoc inv.good (c := .writeBytes _) trivial) (sinks_snoc inv.sinks (by omega) _)
    obtain ⟨m', hm', hst'⟩ := saved_of_history g' s'
    refine ⟨m, m', hm, hm', ?_, ?_, ?_⟩
    · have a1 := hst 2 (by omega)
      have a2 := hst' 2 (by omega)
      rw [w2] at a2
      rw [written_snoc_same] at a1
      exact a1.trans a2.symm
    · have a1 := hst 1 (by omega)
      have a2 := hst' 1 (by omega)
      rw [w1] at a2
      rw [written_snoc_other (by decide)] at a1
      exact a1.trans a2.symm
    · have a1 := hst 0 (by omega)
      have a2 := hst' 0 (by omega)
      rw [w0] at a2
      rw [written_snoc_other (by decide)] at a1
      exact a1.trans a2.symm
  · exact (hn ⟨hv, hc⟩).elim

example : ∃ m m', splitStreams (savedStore (exTableOps ++ [.table (.bulkMapVirtual [3, 4, 3] 100000018)])) = .ok m ∧
    splitStreams (savedStore (exTableOps ++ [.table (.mapVirtual 3 100000018), .table (.mapVirtual 4 100000018), .table (.mapVirtual 3 100000018)])) = .ok m' ∧
    m .stringIndex = m' .stringIndex ∧ m .stringData = m' .stringData ∧ m .events = m' .events :=
  C16_bulk_equals_single exTableOps exTableOps_good [3, 4, 3] 100000018 (by decide) (by decide)

/-! ### C17 -/

/-- **C17.** Mapping anything but a user virtual id, or mapping to a virtual id, panics and leaves everything as it was;
otherwise it succeeds. -/
theorem C17_mapping_guard (ops : List SessionOp) (good : ∀ o ∈ ops, GoodOp o) (v c : StringId) :
    (v.toNat ≤ 100000000 ∧ 100000003 ≤ c.toNat →
      ((SessionOp.table (.mapVirtual v c)).run (session ops).2).1 = .ok none) ∧
    (¬ (v.toNat ≤ 100000000 ∧ 100000003 ≤ c.toNat) →
      ∃ w, (SessionOp.table (.mapVirtual v c)).run (session ops).2 = (.error (.panic w), (session ops).2)) := by
  obtain ⟨h, inv⟩ := session_inv ops good
  rw [inv.world]
  simp only [SessionOp.run, TableOp.run]
  rcases mapVirtual_run h inv.good v c with ⟨a, h1, h2, e⟩ | ⟨hn, w, e⟩
  · refine ⟨fun _ => by rw [Act.bind_ok e]; rfl, fun hh => (hh ⟨h1, by omega⟩).elim⟩
  · exact ⟨fun hh => (hn hh).elim, fun _ => ⟨w, by rw [Act.bind_error e]⟩⟩

/-- **C17.** The same for bulk mapping: one bad id and nothing is written. -/
theorem C17_bulk_guard (ops : List SessionOp) (good : ∀ o ∈ ops, GoodOp o) (vs : List StringId) (c : StringId) :
    ((∀ v ∈ vs, v.toNat ≤ 100000000) ∧ 100000003 ≤ c.toNat →
      ((SessionOp.table (.bulkMapVirtual vs c)).run (session ops).2).1 = .ok none) ∧
    (¬ ((∀ v ∈ vs, v.toNat ≤ 100000000) ∧ 100000003 ≤ c.toNat) →
      ∃ w, (SessionOp.table (.bulkMapVirtual vs c)).run (session ops).2 = (.error (.panic w), (session ops).2)) := by
  obtain ⟨h, inv⟩ := session_inv ops good
  rw [inv.world]
  simp only [SessionOp.run, TableOp.run]
  rcases bulkMapVirtual_run h inv.good vs c with ⟨a, h1, h2, e⟩ | ⟨hn, w, e⟩
  · refine ⟨fun _ => by rw [Act.bind_ok e]; rfl, fun hh => (hh ⟨h1, by omega⟩).elim⟩
  · exact ⟨fun hh => (hn hh).elim, fun _ => ⟨w, by rw [Act.bind_error e]⟩⟩

/-- **C17.** Whatever is mapped, the metadata read back is the text of the last successful `alloc_metadata`. -/
theorem C17_metadata_is_last_metadata (ops : List SessionOp) (good : ∀ o ∈ ops, GoodOp o) (t : Text) (s : String)
    (r : Option StringId) (l1 l2 : TableLog)
    (hlog : logOf ops = l1 ++ (.table (.allocMetadata t), .ok r) :: l2)
    (hlast : ∀ t' r', (SessionOp.table (.allocMetadata t'), Except.ok r') ∉ l2)
    (hr : Reads (logOf ops) (components t) s) :
    ∃ tab, loadTable (savedStore ops) = .ok tab ∧ Writes tab 100000001 (utf8 s) := by
  obtain ⟨tab, D, I, ht, hd, rel, ok⟩ := session_table ops good
  refine ⟨tab, ht, means_writes rel (entry_means (.inr (.inr ?_)) hr)⟩
  refine ⟨l1, _, l2, hlog, by simp [binds], ?_⟩
  intro y hy
  cases hb : binds 100000001 y with
  | none => rfl
  | some b =>
    exfalso
    have hv := ok.virt y (by rw [hlog]; simp [hy]) _ b hb
    obtain ⟨o, res⟩ := y
    have e1 : (100000001 : StringId).toNat = 100000001 := by decide
    unfold binds at hb
    split at hb
    · split at hb
      · injection hb with hb
        have := hv.2.1 _ hb.symm
        omega
      · simp at hb
    · split at hb
      · injection hb with hb
        have := hv.2.1 _ hb.symm
        omega
      · simp at hb
    · rename_i heq
      simp at heq
      obtain ⟨rfl, rfl⟩ := heq
      exact hlast _ _ hy
    · simp at hb

/-- **C17.** Ids handed out by `alloc` are neither user virtual ids, nor the metadata id, nor the invalid id. -/
theorem C17_regular_ids_disjoint (ops : List SessionOp) (good : ∀ o ∈ ops, GoodOp o) (id : StringId) (cs : List StringComponent)
    (h : Allocated (logOf ops) id cs) :
    100000003 ≤ id.toNat ∧ isVirtual id = false ∧ id ≠ metadataStringId ∧ id ≠ invalidStringId := by
  obtain ⟨t, D, I, ht, hd, rel, ok⟩ := session_table ops good
  obtain ⟨a, h1, _⟩ := ok.alloc id cs h
  have e1 : metadataStringId.toNat = 100000001 := by decide
  refine ⟨by omega, ?_, ?_, ?_⟩
  · rw [← Bool.not_eq_true, isVirtual_iff]; omega
  · rintro rfl; omega
  · intro hc; have := (invalid_iff id).mp hc; omega

/-- **C17.** `new_virtual` accepts exactly the user range, which contains neither reserved id. -/
theorem C17_new_virtual (id : UInt64) :
    (id.toNat ≤ 100000000 → newVirtual id = .ok id ∧ isVirtual id = true ∧ id ≠ metadataStringId ∧ id ≠ invalidStringId) ∧
    (100000000 < id.toNat → IsPanic (newVirtual id)) := by
  have e0 : maxUserVirtualStringId.toNat = 100000000 := by decide
  have e1 : metadataStringId.toNat = 100000001 := by decide
  refine ⟨fun h => ⟨?_, ?_, ?_, ?_⟩, fun h => ?_⟩
  · rw [newVirtual, if_pos (by rw [UInt64.le_iff_toNat_le, e0]; exact h)]
  · rw [isVirtual_iff]; omega
  · rintro rfl; omega
  · intro hc; have := (invalid_iff id).mp hc; omega
  · rw [newVirtual, if_neg (by rw [UInt64.le_iff_toNat_le, e0]; omega)]; trivial

example : ∃ tab, loadTable (savedStore exTableOps) = .ok tab ∧ Writes tab 100000001 (utf8 "m") :=
  C17_metadata_is_last_metadata exTableOps exTableOps_good (.str "m") "m" none
    ((logOf exTableOps).take 6) [] (by rw [exTableOps_log]; rfl)
    (by simp) (reads_str _ "m")

/-! ### C18 -/

/-- **C18.** `from_addr` is defined exactly for addresses that fit, `to_addr` exactly for regular ids, they are inverse,
and panic otherwise. -/
theorem C18_ids_addresses_inverse :
    (∀ a id, fromAddr a = .ok id ↔ (a + 100000003 < 18446744073709551616 ∧ toAddr id = .ok a)) ∧
    (∀ a, 18446744073709551616 ≤ a + 100000003 → ∃ w, fromAddr a = .error (.panic w)) ∧
    (∀ id : StringId, 100000003 ≤ id.toNat → ∃ a, toAddr id = .ok a ∧ fromAddr a = .ok id) ∧
    (∀ id : StringId, id.toNat < 100000003 → IsPanic (toAddr id)) := by
  have key : ∀ a id, fromAddr a = .ok id ↔ (a + 100000003 < 18446744073709551616 ∧ toAddr id = .ok a) := by
    intro a id
    constructor
    · intro h
      have h1 := fromAddr_ok h
      have := id.toNat_lt
      exact ⟨by omega, toAddr_iff.mpr h1⟩
    · rintro ⟨h1, h2⟩
      rw [fromAddr_eq (by omega)]
      have h3 := toAddr_iff.mp h2
      rw [← h3, UInt64.ofNat_toNat]
  refine ⟨key, fun a h => fromAddr_panic h, fun id h => ?_, fun id h => toAddr_panic h⟩
  have := id.toNat_lt
  have ha : toAddr id = .ok (id.toNat - 100000003) := toAddr_iff.mpr (by omega)
  exact ⟨_, ha, (key _ _).mpr ⟨by omega, ha⟩⟩

/-- **C18.** The id a call returns, an `alloc` of a string or of a value of one of the program's own types, is 100000003 plus the address of the string,
which is eight (the header) plus the sizes of all strings stored before: it depends on nothing else. -/
theorem C18_ids_count_bytes (ops : List SessionOp) (good : ∀ o ∈ ops, GoodOp o) (l1 l2 : TableLog) (o : SessionOp) (id : StringId)
    (h : logOf ops = l1 ++ (o, .ok (some id)) :: l2) : id.toNat = 100000003 + nextAddr l1 := by
  obtain ⟨h', inv⟩ := session_inv ops good
  have := inv.tab.ids l1 l2 o id h
  omega

example : (100000018 : StringId).toNat = 100000003 + (8 + 7) :=
  C18_ids_count_bytes exTableOps exTableOps_good
    [(.table (.alloc (.str "héllo")), .ok (some 100000011)), (.events (.writeBytes [1, 2, 3]), .ok none),
     (.table (.mapVirtual 7 100000011), .ok none), (.flush 1, .ok none)]
    [(.table (.bulkMapVirtual [9, 10, 9] 100000018), .ok none), (.table (.allocMetadata (.str "m")), .ok none)]
    (.table (.alloc (.comps [.value "<", .ref 100000011, .ref 7, .ref 8, .value ">"]))) 100000018 exTableOps_log

/-- **C18.** Two different `alloc` calls of a session return different ids (the later one the larger). -/
theorem C18_allocations_distinct (ops : List SessionOp) (good : ∀ o ∈ ops, GoodOp o) (i j : Nat) (hij : i < j)
    (t t' : Text) (id id' : StringId)
    (hi : (logOf ops)[i]? = some (.table (.alloc t), .ok (some id)))
    (hj : (logOf ops)[j]? = some (.table (.alloc t'), .ok (some id'))) : id.toNat < id'.toNat := by
  obtain ⟨_, D, I, ht, hd, rel, ok⟩ := session_table ops good
  have hp := List.pairwise_iff_getElem.mp ok.distinct
  obtain ⟨h1, e1⟩ := List.getElem?_eq_some_iff.mp hi
  obtain ⟨h2, e2⟩ := List.getElem?_eq_some_iff.mp hj
  exact hp i j h1 h2 hij (.table (.alloc t)) (.table (.alloc t')) _ _ id id' rfl rfl e1 e2

example : (100000011 : StringId).toNat < (100000018 : StringId).toNat :=
  C18_allocations_distinct exTableOps exTableOps_good 0 4 (by decide) _ _ _ _ (by rw [exTableOps_log]; rfl) (by rw [exTableOps_log]; rfl)

/-! ### C19 -/

theorem unknown_not_entry {log : TableLog} {t : StringTable} (rel : TabRel log t) {id : StringId} {cs}
    (hu : Unknown log id) (he : Entry log id cs) : False := by
  obtain ⟨a, h1, _⟩ := rel.entry id cs he
  rw [rel.unknown id hu] at h1
  simp at h1

theorem acc_means {log : TableLog} (closed : ClosedLog log) (id : StringId) (ha : Acc (fun b a => RefersTo log a b) id) :
    (Unknown log id ∨ ∃ cs, Entry log id cs) → ∃ s, Means log id s := by
  induction ha with
  | intro id _ ih =>
    rintro (hu | ⟨cs, he⟩)
    · exact ⟨_, .unknown hu .nil⟩
    · have : ∀ cs', cs' ⊆ cs → ∃ s, Reads log cs' s := by
        intro cs'
        induction cs' with
        | nil => intro _; exact ⟨"", .nil⟩
        | cons c cs' ihc =>
          intro hsub
          obtain ⟨s, hs⟩ := ihc (fun x hx => hsub (by simp [hx]))
          cases c with
          | value v => exact ⟨_, .value hs⟩
          | ref r =>
            have hm : StringComponent.ref r ∈ cs := hsub (by simp)
            obtain ⟨s', hs'⟩ := ih r ⟨cs, he, hm⟩ (closed id cs he r hm)
            cases hs' with
            | unknown hu _ => exact ⟨_, .unknown hu hs⟩
            | entry he' hr' _ => exact ⟨_, .entry he' hr' hs⟩
      obtain ⟨s, hs⟩ := this cs (fun _ h => h)
      exact ⟨s, entry_means he hs⟩

theorem reads_acc {log : TableLog} {t : StringTable} {D I : Bytes} (rel : TabRel log t) (ok : TabOk log D I)
    {cs : List StringComponent} {s : String} (h : Reads log cs s) :
    ∀ r, .ref r ∈ cs → Acc (fun b a => RefersTo log a b) r := by
  induction h with
  | nil => simp
  | value _ ih => intro r hr; exact ih r (by simpa using hr)
  | unknown hu _ ih =>
    intro r hr
    simp at hr
    rcases hr with rfl | hr
    · exact ⟨_, fun b ⟨cs, he, _⟩ => (unknown_not_entry rel hu he).elim⟩
    · exact ih r hr
  | entry he _ _ ih1 ih2 =>
    intro r hr
    simp at hr
    rcases hr with rfl | hr
    · refine ⟨_, fun b ⟨cs, he', hb⟩ => ih1 b ?_⟩
      exact (rel.entry_refs he he' b).mpr hb
    · exact ih2 r hr

/-- **C19.** In a session where every reference is to something, reading an id terminates iff the references reachable
from it are well-founded; if not, the reader recurses without end (it never panics and never returns). -/
theorem C19_terminates_iff_well_founded (ops : List SessionOp) (good : ∀ o ∈ ops, GoodOp o)
    (closed : ClosedLog (logOf ops)) (id : StringId)
    (hid : Unknown (logOf ops) id ∨ ∃ cs, Entry (logOf ops) id cs) :
    ∃ t, loadTable (savedStore ops) = .ok t ∧
      ((∃ out, Writes t id out) ↔ Acc (fun b a => RefersTo (logOf ops) a b) id) ∧
      (¬ Acc (fun b a => RefersTo (logOf ops) a b) id → Diverges t id) := by
  obtain ⟨t, D, I, ht, hd, rel, ok⟩ := session_table ops good
  have macc : ∀ s, Means (logOf ops) id s → Acc (fun b a => RefersTo (logOf ops) a b) id :=
    fun s h => reads_acc rel ok h id (by simp)
  refine ⟨t, ht, ⟨?_, ?_⟩, ?_⟩
  · rintro ⟨out, n, hn⟩
    rcases write_total rel closed id hid n with h | ⟨s, h, _⟩
    · rw [hn n (Nat.le_refl _)] at h; simp at h
    · exact macc s h
  · intro ha
    obtain ⟨s, hs⟩ := acc_means closed id ha hid
    exact ⟨_, means_writes rel hs⟩
  · intro hna fuel
    rcases write_total rel closed id hid fuel with h | ⟨s, h, _⟩
    · exact h
    · exact (hna (macc s h)).elim

/-- A session that maps a virtual id to a string referring to that id. -/
def cycleOps : List SessionOp := [.table (.alloc (.comps [.value "x", .ref 5])), .table (.mapVirtual 5 100000011)]

/-- **C19.** The public API lets a user build such a cycle, and reading it never returns. -/
theorem C19_cycle_diverges : ∃ ops id, (∀ o ∈ ops, GoodOp o) ∧ (∀ x ∈ logOf ops, IsOk x.2) ∧
    ∃ t, loadTable (savedStore ops) = .ok t ∧ Diverges t id := by
  have good : ∀ o ∈ cycleOps, GoodOp o := by
    intro o ho
    simp only [cycleOps, List.mem_cons, List.not_mem_nil, or_false] at ho
    rcases ho with rfl | rfl <;> simp [GoodOp]
  have hlog : logOf cycleOps = [(.table (.alloc (.comps [.value "x", .ref 5])), .ok (some 100000011)),
      (.table (.mapVirtual 5 100000011), .ok none)] := by
    have h : (runOps cycleOps (newBuilder World.init).2).1 = [.ok (some 100000011), .ok none] := by decide
    show cycleOps.zip (runOps cycleOps (newBuilder World.init).2).1 = _
    rw [h]; rfl
  have hal : Allocated (logOf cycleOps) 100000011 [.value "x", .ref 5] := ⟨.table (.alloc (.comps _)), rfl, by rw [hlog]; simp⟩
  have hb : Bound (logOf cycleOps) 5 (.concrete 100000011) := by
    rw [hlog]; exact ⟨[_], _, [], rfl, rfl, by simp⟩
  have he5 : Entry (logOf cycleOps) 5 [.value "x", .ref 5] := .inr (.inl ⟨_, hb, hal⟩)
  have closed : ClosedLog (logOf cycleOps) := by
    intro id cs he r hr
    obtain ⟨_, D, I, ht, hd, rel, ok⟩ := session_table cycleOps good
    have hcs : cs = [.value "x", .ref 5] := by
      have hone : ∀ id cs, Allocated (logOf cycleOps) id cs → cs = [.value "x", .ref 5] := by
        rintro id cs ⟨o, ho, h⟩
        rw [hlog] at h
        simp at h
        rw [h.1] at ho
        exact ho.symm
      rcases he with he | ⟨c, _, he⟩ | he
      · exact hone _ _ he
      · exact hone _ _ he
      · obtain ⟨x, hx, hbx⟩ := bound_mem he
        rw [hlog] at hx
        simp at hx
        rcases hx with rfl | rfl
        · simp [binds] at hbx
        · unfold binds at hbx
          split at hbx <;> first | (split at hbx <;> simp at hbx) | simp at hbx
          all_goals simp_all
    subst hcs
    simp at hr
    subst hr
    exact .inr ⟨_, he5⟩
  obtain ⟨t, ht, _, hdiv⟩ := C19_terminates_iff_well_founded cycleOps good closed 5 (.inr ⟨_, he5⟩)
  refine ⟨cycleOps, 5, good, ?_, t, ht, hdiv ?_⟩
  · rw [hlog]; intro x hx; simp at hx; rcases hx with rfl | rfl <;> trivial
  · intro hacc
    have : ∀ x, Acc (fun b a => RefersTo (logOf cycleOps) a b) x → x = 5 → False := by
      intro x hx
      induction hx with
      | intro x _ ih =>
        rintro rfl
        exact ih 5 ⟨_, he5, by simp⟩ rfl
    exact this 5 hacc rfl

/-! ### C20 -/

/-- **C20.** Neither marker byte occurs in the UTF-8 encoding of any string; a `str`'s bytes are valid UTF-8, and decoding
them (strictly or lossily) gives them back. -/
theorem C20_markers_not_in_text (s : String) :
    (0xFF : UInt8) ∉ utf8 s ∧ (0xFE : UInt8) ∉ utf8 s ∧ validUtf8 (utf8 s) = true ∧ fromUtf8Lossy (utf8 s) = utf8 s := by
  refine ⟨fun h => ?_, fun h => ?_, validUtf8_utf8 s, lossy_utf8 s⟩
  · have := utf8_bytes_lt s _ h; simp at this
  · have := utf8_bytes_lt s _ h; simp at this

/-- **C20.** Conversely no byte string containing a marker is accepted as text. -/
theorem C20_marker_is_not_text (b : Bytes) (h : 0xFF ∈ b ∨ 0xFE ∈ b) : validUtf8 b = false := by
  apply Decidable.byContradiction
  intro hn
  have hv : validUtf8 b = true := by simpa using hn
  rcases h with h | h <;> have := validUtf8Aux_bytes _ _ hv _ h <;> simp at this

/-- **C20.** The model's encoding is the standard library's UTF-8 encoding. -/
theorem C20_utf8_is_standard (s : String) : utf8 s = s.toByteArray.data.toList := utf8_eq_toByteArray s

example : utf8 "aé" = [97, 0xC3, 0xA9] := by decide

end Verif.Props
