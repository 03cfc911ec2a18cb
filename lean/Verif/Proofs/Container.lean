import Verif.Spec.Container

namespace Verif.Mm
open Verif Verif.Spec

theorem maxPageSize_eq : maxPageSize = 262144 := rfl
theorem minPageSize_eq : minPageSize = 131072 := rfl

/-- The header written by `write_page` is the documented one. -/
theorem header_eq (tag : PageTag) (b : Bytes) :
    [tag.toByte] ++ leBytes 4 b.length ++ b = Page.bytes ⟨tag, b⟩ := by
  have h1 : b.length / 256 / 256 = b.length / 65536 := by omega
  have h2 : b.length / 65536 / 256 = b.length / 16777216 := by omega
  cases tag <;> simp [Page.bytes, leBytes, tagNumber, PageTag.toByte, h1, h2]

/-- What a fault-free sink action does: it appends pages with the sink's tag to the store, and
pages plus buffer are the old buffer plus the payload. -/
structure Eff (tag : PageTag) (s s' : SinkState) (pages : List Bytes) (payload : Bytes) : Prop where
  store : s'.store = ⟨s.store.data ++ storeOf (pages.map (Page.mk tag)), []⟩
  bodies : ∀ p ∈ pages, 0 < p.length ∧ p.length ≤ 262144
  content : pages.flatten ++ s'.inner.buffer = s.inner.buffer ++ payload
  addr : s'.inner.addr = s.inner.addr + payload.length
  buf : s'.inner.buffer.length ≤ 262144
  keep : ∃ q qs r, pages ++ [s'.inner.buffer] = q :: qs ∧ q = s.inner.buffer ++ r

theorem storeOf_nil : storeOf [] = [] := rfl
theorem storeOf_append (a b : List Page) : storeOf (a ++ b) = storeOf a ++ storeOf b := by
  simp [storeOf]

theorem writePage_run (tag : PageTag) (b : Bytes) (s : SinkState) (hf : s.store.faults = [])
    (hb : b.length ≤ 262144) :
    writePage tag b s = (.ok (), { s with store := ⟨s.store.data ++
      storeOf ((if b = [] then [] else [b]).map (Page.mk tag)), []⟩ }) := by
  obtain ⟨inner, data, faults⟩ := s
  simp only at hf
  subst hf
  cases b with
  | nil => simp [writePage, storeOf_nil]
  | cons x xs =>
    rw [← maxPageSize_eq] at hb
    have hb' : (x :: xs).length ≤ maxPageSize := hb
    have hpos : (x :: xs).length > 0 := by simp
    simp only [writePage, hpos, if_true]
    rw [Act.bind_ok (Act.assert_true hb')]
    simp only [Act.bind_apply, onStore, Store.writeAll]
    simp only [List.append_assoc, reduceCtorEq, if_false]
    have := header_eq tag (x :: xs)
    simp only [List.append_assoc] at this
    rw [this]
    simp [storeOf]

theorem flush_run (tag : PageTag) (s : SinkState) (hf : s.store.faults = [])
    (hb : s.inner.buffer.length ≤ 262144) :
    flushBuffer tag s = (.ok (), ⟨⟨[], s.inner.addr⟩, ⟨s.store.data ++
      storeOf ((if s.inner.buffer = [] then [] else [s.inner.buffer]).map (Page.mk tag)), []⟩⟩) := by
  unfold flushBuffer
  rw [Act.bind_ok (Act.get_apply s), Act.bind_ok (writePage_run tag _ s hf hb)]
  rfl

theorem flush_eff (tag : PageTag) (s : SinkState) (hf : s.store.faults = [])
    (hb : s.inner.buffer.length ≤ 262144) :
    ∃ s' pages, flushBuffer tag s = (.ok (), s') ∧ Eff tag s s' pages [] ∧ s'.inner.buffer = []
      ∧ (pages = [] ∨ pages = [s.inner.buffer]) := by
  refine ⟨_, _, flush_run tag s hf hb, ⟨rfl, ?_, ?_, ?_, ?_, ?_⟩, rfl, ?_⟩
  · intro p hp
    split at hp
    · simp at hp
    · rename_i h
      simp only [List.mem_singleton] at hp
      subst hp
      exact ⟨List.length_pos_iff.mpr h, hb⟩
  · split
    · rename_i h; simp [h]
    · simp
  · simp
  · simp
  · split
    · rename_i h; exact ⟨[], [], [], by simp, by simp [h]⟩
    · exact ⟨_, _, [], rfl, by simp⟩
  · split
    · left; rfl
    · right; rfl

theorem writeBuffered_eff (tag : PageTag) (num : Nat) (fill : Fill) (out : Bytes) (s : SinkState)
    (hf : s.store.faults = []) (hb : s.inner.buffer.length ≤ 262144)
    (hfill : fill (List.replicate num 0) = .ok out) (hlen : out.length = num) (hnum : num ≤ 262144) :
    ∃ s' pages, writeBuffered tag num fill s = (.ok s.inner.addr, s') ∧ Eff tag s s' pages out
      ∧ (pages = [] ∧ s'.inner.buffer = s.inner.buffer ++ out ∨
         pages = [s.inner.buffer] ∧ s'.inner.buffer = out) := by
  unfold writeBuffered
  rw [Act.bind_ok (Act.get_apply s)]
  by_cases hfull : s.inner.buffer.length + num > maxPageSize
  · obtain ⟨s1, pages, h1, he, hnil, hp⟩ := flush_eff tag s hf hb
    refine ⟨⟨⟨out, s1.inner.addr + num⟩, s1.store⟩, pages, ?_, ?_, ?_⟩
    · simp only [hfull, if_true]
      rw [Act.bind_ok h1]
      rw [Act.bind_ok (Act.get_apply s1)]
      rw [Act.bind_ok (show Act.assert (s1.inner.buffer = []) _ s1 = (.ok (), s1) by simp only [Act.assert_apply, hnil, if_true])]
      rw [Act.bind_ok (Act.get_apply s1)]
      simp only [setBuffer, hfill, addAddr, Act.bind_apply, Act.modify_apply, hnil, List.nil_append,
        Act.pure_apply]
      have := he.addr
      simp at this
      simp [this]
    · refine ⟨he.store, he.bodies, ?_, ?_, ?_, ?_⟩
      · have := he.content
        rw [hnil] at this
        simp at this ⊢
        exact this
      · have := he.addr
        simp at this
        simp [this, hlen]
      · simpa [hlen] using hnum
      · rcases hp with hp | hp
        · have hc := he.content
          rw [hnil, hp] at hc
          simp at hc
          exact ⟨out, [], out, by simp [hp], by simp [← hc]⟩
        · exact ⟨s.inner.buffer, [out], [], by simp [hp], by simp⟩
    · rcases hp with hp | hp
      · left
        have hc := he.content
        rw [hnil, hp] at hc
        simp at hc
        simp [hp, ← hc]
      · right
        exact ⟨hp, rfl⟩
  · refine ⟨⟨⟨s.inner.buffer ++ out, s.inner.addr + num⟩, s.store⟩, [], ?_, ?_, Or.inl ⟨rfl, rfl⟩⟩
    · simp only [hfull, if_false]
      simp only [setBuffer, hfill, addAddr, Act.bind_apply, Act.modify_apply,
        Act.pure_apply, Act.get_apply]
    · rw [maxPageSize_eq] at hfull
      refine ⟨?_, by simp, by simp, by simp [hlen], by simp [hlen]; omega,
        ⟨_, _, out, rfl, rfl⟩⟩
      simp [storeOf]
      obtain ⟨inner, data, faults⟩ := s
      simp only at hf
      simp [hf]

/-- `chunks n l` splits `l` into pieces of size `n`, except that the last may be shorter. -/
theorem chunksAux_spec (fuel n : Nat) (l : Bytes) (hn : 0 < n) (hfuel : l.length ≤ fuel) :
    (chunksAux fuel n l).flatten = l ∧ ∀ pre c post, chunksAux fuel n l = pre ++ c :: post →
      0 < c.length ∧ c.length ≤ n ∧ (c.length < n → post = []) := by
  induction fuel generalizing l with
  | zero =>
    have : l = [] := by cases l <;> simp_all
    subst this
    simp [chunksAux]
  | succ fuel ih =>
    unfold chunksAux
    by_cases hl : l = []
    · simp [hl]
    · simp only [hl, if_false]
      have hpos : 0 < l.length := List.length_pos_iff.mpr hl
      have hd : (l.drop n).length ≤ fuel := by simp; omega
      obtain ⟨h1, h2⟩ := ih (l.drop n) hd
      constructor
      · simp [h1]
      · intro pre c post heq
        cases pre with
        | nil =>
          simp only [List.nil_append, List.cons.injEq] at heq
          obtain ⟨hc, hpost⟩ := heq
          subst hc
          refine ⟨by simp; omega, by simp; omega, ?_⟩
          intro hlt
          simp only [List.length_take] at hlt
          have : l.drop n = [] := by
            apply List.drop_eq_nil_of_le; omega
          rw [this] at hpost
          rw [← hpost]
          cases fuel <;> simp [chunksAux]
        | cons a pre =>
          simp only [List.cons_append, List.cons.injEq] at heq
          exact h2 pre c post heq.2

theorem chunks_spec (n : Nat) (l : Bytes) (hn : 0 < n) :
    (chunks n l).flatten = l ∧ ∀ pre c post, chunks n l = pre ++ c :: post →
      0 < c.length ∧ c.length ≤ n ∧ (c.length < n → post = []) :=
  chunksAux_spec _ _ _ hn (Nat.le_refl _)

theorem writeChunks_eff (tag : PageTag) (cs : List Bytes) (s : SinkState) (hf : s.store.faults = [])
    (hb : s.inner.buffer = [])
    (hcs : ∀ pre c post, cs = pre ++ c :: post →
      0 < c.length ∧ c.length ≤ 262144 ∧ (c.length < 262144 → post = [])) :
    ∃ (s' : SinkState) (pages : List Bytes), writeChunks tag cs s = (.ok (), s') ∧
      s'.store = ⟨s.store.data ++ storeOf (pages.map (Page.mk tag)), []⟩ ∧
      (∀ p ∈ pages, 0 < p.length ∧ p.length ≤ 262144) ∧
      pages.flatten ++ s'.inner.buffer = cs.flatten ∧ s'.inner.addr = s.inner.addr ∧
      s'.inner.buffer.length ≤ 262144 := by
  induction cs generalizing s with
  | nil =>
    refine ⟨s, [], rfl, ?_, by simp, by simp [hb], rfl, by simp [hb]⟩
    obtain ⟨inner, data, faults⟩ := s
    simp only at hf
    simp [storeOf, hf]
  | cons c rest ih =>
    obtain ⟨hpos, hle, hlast⟩ := hcs [] c rest rfl
    have hrest : ∀ pre c' post, rest = pre ++ c' :: post →
        0 < c'.length ∧ c'.length ≤ 262144 ∧ (c'.length < 262144 → post = []) := by
      intro pre c' post h
      exact hcs (c :: pre) c' post (by simp [h])
    have hcne : c ≠ [] := List.length_pos_iff.mp hpos
    unfold writeChunks
    by_cases hpage : c.length = maxPageSize ∨ c.length ≥ minPageSize
    · have hw := writePage_run tag c s hf hle
      simp only [hcne, if_false] at hw
      obtain ⟨s', pages, hrun, hstore, hbod, hflat, haddr, hbl⟩ :=
        ih { s with store := ⟨s.store.data ++ storeOf ([c].map (Page.mk tag)), []⟩ } rfl hb hrest
      refine ⟨s', c :: pages, ?_, ?_, ?_, ?_, ?_, hbl⟩
      · by_cases h1 : c.length = maxPageSize
        · simp only [h1, if_true]
          rw [Act.bind_ok hw, hrun]
        · have h2 : c.length ≥ minPageSize := hpage.resolve_left h1
          simp only [h1, h2, if_true, if_false]
          rw [Act.bind_ok hw, hrun]
      · rw [hstore]; simp [storeOf, List.append_assoc]
      · intro p hp
        rcases List.mem_cons.mp hp with hp | hp
        · subst hp; exact ⟨hpos, hle⟩
        · exact hbod p hp
      · simp [hflat]
      · simp [haddr]
    · have h1 : ¬ c.length = maxPageSize := fun h => hpage (Or.inl h)
      have h2 : ¬ c.length ≥ minPageSize := fun h => hpage (Or.inr h)
      have hlt : c.length < 262144 := by
        rw [maxPageSize_eq] at h1; omega
      have hr := hlast hlt
      subst hr
      refine ⟨⟨⟨c, s.inner.addr⟩, s.store⟩, [], ?_, ?_, by simp, by simp, rfl, ?_⟩
      · simp only [h1, h2, if_false]
        simp [Act.bind_apply, Act.assert_apply, setBuffer, hb, writeChunks]
      · obtain ⟨inner, data, faults⟩ := s
        simp only at hf
        simp [storeOf, hf]
      · simp; omega

theorem writeDirect_eff (tag : PageTag) (bytes : Bytes) (s : SinkState) (hf : s.store.faults = [])
    (hb : s.inner.buffer.length ≤ 262144) :
    ∃ s' pages, writeDirect tag bytes s = (.ok s.inner.addr, s') ∧ Eff tag s s' pages bytes := by
  unfold writeDirect
  rw [Act.bind_ok (Act.get_apply s)]
  simp only [addAddr, setBuffer]
  generalize htake : (if s.inner.buffer.length < minPageSize then
      min (minPageSize - s.inner.buffer.length) bytes.length else 0) = take
  rw [Act.bind_ok (Act.modify_apply _ s)]
  rw [Act.bind_ok (Act.modify_apply _ _)]
  simp only
  have hbuf : (s.inner.buffer ++ bytes.take take).length ≤ 262144 := by
    rw [minPageSize_eq] at htake
    simp only [List.length_append, List.length_take]
    split at htake <;> omega
  by_cases hleft : bytes.drop take = []
  · simp only [hleft, if_true]
    refine ⟨_, [], rfl, ?_, by simp, ?_, rfl, hbuf, ⟨_, _, _, rfl, rfl⟩⟩
    · obtain ⟨inner, data, faults⟩ := s
      simp only at hf
      simp [storeOf, hf]
    · have : bytes.take take = bytes := by
        have := List.take_append_drop take bytes
        rw [hleft, List.append_nil] at this
        exact this
      simp [this]
  · simp only [hleft, if_false]
    obtain ⟨s1, p1, h1, he1, hnil, hp1⟩ := flush_eff tag
      ⟨⟨s.inner.buffer ++ bytes.take take, s.inner.addr + bytes.length⟩, s.store⟩ hf hbuf
    have hfl := he1.store
    obtain ⟨hcf, hcs⟩ := chunks_spec maxPageSize (bytes.drop take) (by decide)
    rw [maxPageSize_eq] at hcs hcf
    obtain ⟨s2, p2, h2, hst2, hbod2, hflat2, haddr2, hbl2⟩ := writeChunks_eff tag
      (chunks 262144 (bytes.drop take)) s1 (by rw [hfl]) hnil hcs
    refine ⟨s2, p1 ++ p2, ?_, ?_, ?_, ?_, ?_, hbl2, ?_⟩
    · rw [Act.bind_ok h1, Act.bind_ok (by rw [maxPageSize_eq]; exact h2)]
      rfl
    · rw [hst2, hfl]
      simp [storeOf, List.append_assoc]
    · intro p hp
      rcases List.mem_append.mp hp with hp | hp
      · exact he1.bodies p hp
      · exact hbod2 p hp
    · have hc1 := he1.content
      rw [hnil] at hc1
      simp only [List.append_nil] at hc1
      simp only [List.flatten_append, List.append_assoc]
      rw [hflat2, hcf, hc1]
      simp
    · rw [haddr2, he1.addr]; simp
    · rcases hp1 with hp1 | hp1
      · have hc1 := he1.content
        rw [hnil, hp1] at hc1
        simp only [List.flatten_nil, List.append_nil] at hc1
        have hnilb : s.inner.buffer = [] := by
          have := hc1.symm
          simp only [List.append_eq_nil_iff] at this
          exact this.1
        rw [hnilb]
        cases hq : p1 ++ p2 ++ [s2.inner.buffer] with
        | nil => simp at hq
        | cons q qs => exact ⟨q, qs, q, rfl, by simp⟩
      · rw [hp1]; exact ⟨_, _, bytes.take take, rfl, rfl⟩

theorem writeBytesAtomic_eff (tag : PageTag) (bytes : Bytes) (s : SinkState) (hf : s.store.faults = [])
    (hb : s.inner.buffer.length ≤ 262144) :
    ∃ s' pages, writeBytesAtomic tag bytes s = (.ok s.inner.addr, s') ∧ Eff tag s s' pages bytes
      ∧ (bytes.length ≤ 128 → (pages = [] ∧ s'.inner.buffer = s.inner.buffer ++ bytes ∨
         pages = [s.inner.buffer] ∧ s'.inner.buffer = bytes)) := by
  unfold writeBytesAtomic
  by_cases h : bytes.length ≤ 128
  · simp only [h, if_true]
    obtain ⟨s', pages, h1, h2, h3⟩ := writeBuffered_eff tag bytes.length (copyFill bytes) bytes s hf hb
      (by simp [copyFill]) rfl (by omega)
    exact ⟨s', pages, h1, h2, fun _ => h3⟩
  · simp only [h, if_false]
    obtain ⟨s', pages, h1, h2⟩ := writeDirect_eff tag bytes s hf hb
    exact ⟨s', pages, h1, h2, fun h' => h'.elim⟩

theorem writeAtomic_eff (tag : PageTag) (num : Nat) (fill : Fill) (out : Bytes) (s : SinkState)
    (hf : s.store.faults = []) (hb : s.inner.buffer.length ≤ 262144)
    (hfill : fill (List.replicate num 0) = .ok out) (hlen : out.length = num) :
    ∃ s' pages, writeAtomic tag num fill s = (.ok s.inner.addr, s') ∧ Eff tag s s' pages out
      ∧ (num ≤ 262144 → (pages = [] ∧ s'.inner.buffer = s.inner.buffer ++ out ∨
         pages = [s.inner.buffer] ∧ s'.inner.buffer = out)) := by
  unfold writeAtomic
  by_cases h : num > maxPageSize
  · simp only [h, if_true, hfill]
    obtain ⟨s', pages, h1, h2, h3⟩ := writeBytesAtomic_eff tag out s hf hb
    refine ⟨s', pages, h1, h2, ?_⟩
    intro h'
    rw [maxPageSize_eq] at h
    omega
  · simp only [h, if_false]
    rw [maxPageSize_eq] at h
    obtain ⟨s', pages, h1, h2, h3⟩ := writeBuffered_eff tag num fill out s hf hb hfill hlen (by omega)
    exact ⟨s', pages, h1, h2, fun _ => h3⟩

/-- What every good call does. -/
theorem call_eff (tag : PageTag) (c : SinkCall) (s : SinkState) (hg : Good c) (hf : s.store.faults = [])
    (hb : s.inner.buffer.length ≤ 262144) :
    ∃ r s' pages, c.run tag s = (.ok r, s') ∧ Eff tag s s' pages (payload c) ∧
      (ReturnsAddr c → r = some s.inner.addr) ∧ (Flushes c → s'.inner.buffer = []) ∧
      (AtomicRecord c → (pages = [] ∧ s'.inner.buffer = s.inner.buffer ++ payload c ∨
         pages = [s.inner.buffer] ∧ s'.inner.buffer = payload c)) := by
  cases c with
  | writeAtomic num fill =>
    obtain ⟨out, hfill, hlen⟩ := hg
    obtain ⟨s', pages, h1, h2, h3⟩ := writeAtomic_eff tag num fill out s hf hb hfill hlen
    refine ⟨some s.inner.addr, s', pages, ?_, ?_, fun _ => rfl, fun h => h.elim, ?_⟩
    · simp only [SinkCall.run]; rw [Act.bind_ok h1]; rfl
    · simpa [payload, hfill] using h2
    · simpa [payload, hfill, AtomicRecord] using h3
  | writeBytes b =>
    obtain ⟨s', pages, h1, h2, h3⟩ := writeBytesAtomic_eff tag b s hf hb
    refine ⟨some s.inner.addr, s', pages, ?_, h2, fun _ => rfl, fun h => h.elim, h3⟩
    simp only [SinkCall.run]; rw [Act.bind_ok h1]; rfl
  | stdWrite b =>
    obtain ⟨s', pages, h1, h2, h3⟩ := writeBytesAtomic_eff tag b s hf hb
    refine ⟨none, s', pages, ?_, h2, fun h => h.elim, fun h => h.elim, h3⟩
    simp only [SinkCall.run]; rw [Act.bind_ok h1]; rfl
  | stdFlush =>
    obtain ⟨s', pages, h1, h2, h3, h4⟩ := flush_eff tag s hf hb
    refine ⟨none, s', pages, ?_, h2, fun h => h.elim, fun _ => h3, ?_⟩
    · simp only [SinkCall.run]; rw [Act.bind_ok h1]; rfl
    · intro _
      rcases h4 with h4 | h4
      · left
        have := h2.content
        simp only [h4, h3] at this
        simp [payload, h4, h3]
        simpa using this.symm
      · right; simp [payload, h4, h3]
  | drop =>
    obtain ⟨s', pages, h1, h2, h3, h4⟩ := flush_eff tag s hf hb
    refine ⟨none, s', pages, ?_, h2, fun h => h.elim, fun _ => h3, ?_⟩
    · simp only [SinkCall.run]; rw [Act.bind_ok h1]; rfl
    · intro _
      rcases h4 with h4 | h4
      · left
        have := h2.content
        simp only [h4, h3] at this
        simp [payload, h4, h3]
        simpa using this.symm
      · right; simp [payload, h4, h3]

/-! ## Histories -/

theorem streamOf_append (t : PageTag) (a b : List Page) :
    streamOf t (a ++ b) = streamOf t a ++ streamOf t b := by simp [streamOf]

theorem streamOf_map_same (t : PageTag) (bs : List Bytes) :
    streamOf t (bs.map (Page.mk t)) = bs.flatten := by
  induction bs with
  | nil => rfl
  | cons b bs ih =>
    have : streamOf t ((b :: bs).map (Page.mk t)) = b ++ streamOf t (bs.map (Page.mk t)) := by
      simp [streamOf]
    rw [this, ih]; simp

theorem streamOf_map_other {t t' : PageTag} (h : t' ≠ t) (bs : List Bytes) :
    streamOf t (bs.map (Page.mk t')) = [] := by
  induction bs with
  | nil => rfl
  | cons b bs ih =>
    simp only [streamOf, List.map_cons] at ih ⊢
    rw [List.filter_cons_of_neg (by simpa using h)]
    exact ih

theorem written_append (i : Nat) (a b : History) : written i (a ++ b) = written i a ++ written i b := by
  simp [written]

theorem written_single_same (i : Nat) (c : SinkCall) : written i [(i, c)] = payload c := by
  simp [written]

theorem written_single_other {i j : Nat} (h : j ≠ i) (c : SinkCall) : written i [(j, c)] = [] := by
  simp [written, h]

theorem written_cons (i j : Nat) (c : SinkCall) (h : History) :
    written i ((j, c) :: h) = written i [(j, c)] ++ written i h := by
  rw [← written_append]; rfl

theorem exec_append (tagOf : Nat → PageTag) (a b : History) (w : World) :
    World.exec tagOf (a ++ b) w =
      let r := World.exec tagOf a w
      let r2 := World.exec tagOf b r.2
      (r.1 ++ r2.1, r2.2) := by
  induction a generalizing w with
  | nil => simp [World.exec]
  | cons x a ih =>
    obtain ⟨i, c⟩ := x
    simp [World.exec, ih]

/-- Invariant of fault-free histories: the store is a list of bounded pages; for every sink whose tag is not
shared, its pages plus its buffer are what was written to it. -/
structure WInv (tagOf : Nat → PageTag) (h : History) (w : World) (pages : List Page) : Prop where
  store : w.store = ⟨storeOf pages, []⟩
  bodies : ∀ p ∈ pages, 0 < p.body.length ∧ p.body.length ≤ 262144
  buf : ∀ i, (w.sinks i).buffer.length ≤ 262144
  addr : ∀ i, (w.sinks i).addr = (written i h).length
  content : ∀ i, TagUnshared tagOf i h → streamOf (tagOf i) pages ++ (w.sinks i).buffer = written i h
  fresh : ∀ i, (∀ x ∈ h, x.1 ≠ i) → (w.sinks i).buffer = []

theorem WInv.init (tagOf : Nat → PageTag) : WInv tagOf [] World.init [] where
  store := rfl
  bodies := by simp
  buf := by simp [World.init]
  addr := by simp [World.init, written]
  content := by simp [World.init, written, streamOf]
  fresh := by simp [World.init]

theorem WInv.step {tagOf : Nat → PageTag} {h : History} {w : World} {pages : List Page}
    (inv : WInv tagOf h w pages) (i : Nat) (c : SinkCall) (hg : Good c) :
    ∃ r w' new, World.call tagOf i c w = (.ok r, w') ∧
      WInv tagOf (h ++ [(i, c)]) w' (pages ++ new.map (Page.mk (tagOf i))) ∧
      (ReturnsAddr c → r = some (written i h).length) ∧ (Flushes c → (w'.sinks i).buffer = []) ∧
      Eff (tagOf i) ⟨w.sinks i, w.store⟩ ⟨w'.sinks i, w'.store⟩ new (payload c) ∧
      (∀ j, j ≠ i → w'.sinks j = w.sinks j) ∧
      (AtomicRecord c → (new = [] ∧ (w'.sinks i).buffer = (w.sinks i).buffer ++ payload c ∨
         new = [(w.sinks i).buffer] ∧ (w'.sinks i).buffer = payload c)) := by
  obtain ⟨r, s', new, hrun, he, hret, hfl, hat⟩ :=
    call_eff (tagOf i) c ⟨w.sinks i, w.store⟩ hg (by rw [inv.store]) (inv.buf i)
  refine ⟨r, ⟨fun j => if j = i then s'.inner else w.sinks j, s'.store⟩, new, ?_, ?_, ?_, ?_, ?_, ?_, ?_⟩
  · simp [World.call, hrun]
  · constructor
    · rw [he.store, inv.store]; simp [storeOf_append]
    · intro p hp
      rcases List.mem_append.mp hp with hp | hp
      · exact inv.bodies p hp
      · obtain ⟨b, hb, rfl⟩ := List.mem_map.mp hp
        exact he.bodies b hb
    · intro j
      by_cases hj : j = i
      · simp [hj, he.buf]
      · simp [hj, inv.buf]
    · intro j
      by_cases hj : j = i
      · subst hj
        simp only [if_true, written_append, written_single_same, List.length_append]
        rw [he.addr, inv.addr]
      · simp only [hj, if_false, written_append, written_single_other (Ne.symm hj), List.append_nil]
        exact inv.addr j
    · intro j hun
      have hun' : TagUnshared tagOf j h := fun x hx => hun x (List.mem_append_left _ hx)
      by_cases hj : j = i
      · subst hj
        simp only [if_true, written_append, written_single_same, streamOf_append, streamOf_map_same]
        rw [← inv.content j hun', List.append_assoc, he.content, List.append_assoc]
      · have hne : tagOf i ≠ tagOf j := fun heq =>
          hj (hun (i, c) (by simp) heq).symm
        simp only [hj, if_false, written_append, written_single_other (Ne.symm hj), streamOf_append,
          streamOf_map_other hne, List.append_nil]
        exact inv.content j hun'
    · intro j hj
      have hji : j ≠ i := fun heq => hj (i, c) (by simp) heq.symm
      simp only [hji, if_false]
      exact inv.fresh j (fun x hx => hj x (List.mem_append_left _ hx))
  · intro hr; rw [hret hr]; simp [inv.addr]
  · intro hr; simpa using hfl hr
  · simpa using he
  · intro j hj; simp [hj]
  · intro hr; simpa using hat hr

theorem WInv.exec {tagOf : Nat → PageTag} {h : History} {w : World} {pages : List Page}
    (inv : WInv tagOf h w pages) (h2 : History) (hg : AllGood h2) :
    ∃ more, WInv tagOf (h ++ h2) (World.exec tagOf h2 w).2 (pages ++ more) ∧
      ∀ r ∈ (World.exec tagOf h2 w).1, IsOk r := by
  induction h2 generalizing h w pages with
  | nil => exact ⟨[], by simpa [World.exec] using inv, by simp [World.exec]⟩
  | cons x h2 ih =>
    obtain ⟨i, c⟩ := x
    obtain ⟨r, w', new, hcall, hinv, _⟩ := inv.step i c (hg (i, c) (by simp))
    obtain ⟨more, hinv2, hok⟩ := ih hinv (fun x hx => hg x (by simp [hx]))
    refine ⟨new.map (Page.mk (tagOf i)) ++ more, ?_, ?_⟩
    · simpa [World.exec, hcall] using hinv2
    · simp only [World.exec, hcall, List.mem_cons]
      rintro r' (rfl | hr')
      · simp [IsOk]
      · exact hok r' hr'

theorem run_inv (tagOf : Nat → PageTag) (h : History) (hg : AllGood h) :
    ∃ pages, WInv tagOf h (run tagOf h).2 pages ∧ ∀ r ∈ (run tagOf h).1, IsOk r := by
  have := (WInv.init tagOf).exec h hg
  simpa [run] using this

/-- A sink whose last call flushed it has an empty buffer. -/
theorem flushed_buffer (tagOf : Nat → PageTag) (h : History) (hg : AllGood h) (i : Nat) (hf : Flushed i h) :
    ((run tagOf h).2.sinks i).buffer = [] := by
  rcases hf with hf | ⟨h1, c, h2, rfl, hfl, hno⟩
  · obtain ⟨pages, inv, _⟩ := run_inv tagOf h hg
    exact inv.fresh i hf
  · have hg1 : AllGood h1 := fun x hx => hg x (by simp [hx])
    have hgc : Good c := hg (i, c) (by simp)
    have hg2 : AllGood h2 := fun x hx => hg x (by simp [hx])
    obtain ⟨pages, inv, _⟩ := run_inv tagOf h1 hg1
    obtain ⟨r, w', new, hcall, hinv, _, hbuf, _⟩ := inv.step i c hgc
    have key : ∀ (h2 : History) (hh : History) (w : World) (pages : List Page), WInv tagOf hh w pages → AllGood h2 →
        (∀ x ∈ h2, x.1 ≠ i) → (w.sinks i).buffer = [] → ((World.exec tagOf h2 w).2.sinks i).buffer = [] := by
      intro h2
      induction h2 with
      | nil => intro hh w pages _ _ _ hb; simpa [World.exec] using hb
      | cons x h2 ih =>
        intro hh w pages inv hg hno hb
        obtain ⟨j, c⟩ := x
        obtain ⟨r, w', new, hcall, hinv, _, _, _, hoth, _⟩ := inv.step j c (hg (j, c) (by simp))
        simp only [World.exec, hcall]
        refine ih _ w' _ hinv (fun x hx => hg x (by simp [hx])) (fun x hx => hno x (by simp [hx])) ?_
        rw [hoth i (fun heq => hno (j, c) (by simp) heq.symm)]
        exact hb
    have := key h2 _ w' _ hinv hg2 hno (hbuf hfl)
    have hcall' : World.call tagOf i c (World.exec tagOf h1 World.init).2 = (.ok r, w') := hcall
    simpa [run, exec_append, World.exec, hcall'] using this

end Verif.Mm
