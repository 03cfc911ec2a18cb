import Verif.Proofs.Crash
import Verif.Spec.Space

/-! # Pages are at least half full on average: the potential of a buffer is what it holds above half a page -/

namespace Verif.Proofs

open Verif Verif.Mm Verif.Spec

/-- What a buffer holds above half a page. -/
@[irreducible] def over (n : Nat) : Nat := n - 131072

theorem over_eq (n : Nat) : over n = n - 131072 := by unfold over; rfl

/-- The pages a call added, and the bound on their number. -/
def Few (tag : PageTag) (s s' : SinkState) (k : Nat) : Prop :=
  ∃ pages : List Bytes, s'.store = ⟨s.store.data ++ storeOf (pages.map (Page.mk tag)), []⟩ ∧ (∀ p ∈ pages, 0 < p.length ∧ p.length ≤ 262144) ∧
    131072 * pages.length + over s.inner.buffer.length ≤ pages.flatten.length + over s'.inner.buffer.length + 131072 * k

theorem flush_few (tag : PageTag) (s : SinkState) (hf : s.store.faults = []) (hb : s.inner.buffer.length ≤ 262144) :
    ∃ s', flushBuffer tag s = (.ok (), s') ∧ Few tag s s' 1 := by
  refine ⟨_, flush_run tag s hf hb, _, rfl, ?_, ?_⟩
  · intro p hp
    split at hp
    · simp at hp
    · rename_i h
      simp only [List.mem_singleton] at hp
      subst hp
      exact ⟨List.length_pos_iff.mpr h, hb⟩
  · split
    · rename_i h; simp [h, over_eq]
    · simp [over_eq]; omega

theorem same_store {tag : PageTag} {s : Store} (hf : s.faults = []) : s = ⟨s.data ++ storeOf (([] : List Bytes).map (Page.mk tag)), []⟩ := by
  obtain ⟨data, faults⟩ := s
  simp only at hf
  simp [storeOf, hf]

theorem writeBuffered_few (tag : PageTag) (num : Nat) (fill : Fill) (out : Bytes) (s : SinkState)
    (hf : s.store.faults = []) (hb : s.inner.buffer.length ≤ 262144)
    (hfill : fill (List.replicate num 0) = .ok out) (hlen : out.length = num) (hnum : num ≤ 262144) :
    ∃ s', writeBuffered tag num fill s = (.ok s.inner.addr, s') ∧ Few tag s s' 0 := by
  unfold writeBuffered
  rw [Act.bind_ok (Act.get_apply s)]
  by_cases hfull : s.inner.buffer.length + num > maxPageSize
  · have hrun := flush_run tag s hf hb
    refine ⟨⟨⟨out, s.inner.addr + num⟩, ⟨s.store.data ++
      storeOf ((if s.inner.buffer = [] then [] else [s.inner.buffer]).map (Page.mk tag)), []⟩⟩, ?_, _, rfl, ?_, ?_⟩
    · simp only [hfull, if_true]
      rw [Act.bind_ok hrun]
      rw [Act.bind_ok (Act.get_apply _)]
      rw [Act.bind_ok (show Act.assert (([] : Bytes) = []) _ _ = (.ok (), _) by simp only [Act.assert_apply, if_true]; rfl)]
      rw [Act.bind_ok (Act.get_apply _)]
      simp only [setBuffer, hfill, addAddr, Act.bind_apply, Act.modify_apply, List.nil_append, Act.pure_apply]
    · intro p hp
      split at hp
      · simp at hp
      · rename_i h
        simp only [List.mem_singleton] at hp
        subst hp
        exact ⟨List.length_pos_iff.mpr h, hb⟩
    · rw [maxPageSize_eq] at hfull
      split
      · rename_i h
        rw [h, List.length_nil] at hfull
        omega
      · simp only [over_eq, List.length_singleton, List.flatten_cons, List.flatten_nil, List.append_nil]
        omega
  · refine ⟨⟨⟨s.inner.buffer ++ out, s.inner.addr + num⟩, s.store⟩, ?_, [], same_store hf, by simp, ?_⟩
    · simp only [hfull, if_false]
      simp only [setBuffer, hfill, addAddr, Act.bind_apply, Act.modify_apply, Act.pure_apply, Act.get_apply]
    · simp only [over_eq, List.length_append, List.length_nil, List.flatten_nil]
      omega

theorem writeChunks_few (tag : PageTag) (cs : List Bytes) (s : SinkState) (hf : s.store.faults = [])
    (hb : s.inner.buffer = [])
    (hcs : ∀ pre c post, cs = pre ++ c :: post → 0 < c.length ∧ c.length ≤ 262144 ∧ (c.length < 262144 → post = [])) :
    ∃ (s' : SinkState) (pages : List Bytes), writeChunks tag cs s = (.ok (), s') ∧
      s'.store = ⟨s.store.data ++ storeOf (pages.map (Page.mk tag)), []⟩ ∧
      (∀ p ∈ pages, 131072 ≤ p.length ∧ p.length ≤ 262144) := by
  induction cs generalizing s with
  | nil => exact ⟨s, [], rfl, same_store hf, by simp⟩
  | cons c rest ih =>
    obtain ⟨hpos, hle, hlast⟩ := hcs [] c rest rfl
    have hrest : ∀ pre c' post, rest = pre ++ c' :: post →
        0 < c'.length ∧ c'.length ≤ 262144 ∧ (c'.length < 262144 → post = []) := by
      intro pre c' post h
      exact hcs (c :: pre) c' post (by simp [h])
    have hcne : c ≠ [] := List.length_pos_iff.mp hpos
    unfold writeChunks
    by_cases hpage : c.length = maxPageSize ∨ c.length ≥ minPageSize
    · have hw := writePage_run tag c s hf hle
      simp only [hcne, if_false] at hw
      obtain ⟨s', pages, hrun, hstore, hbod⟩ :=
        ih { s with store := ⟨s.store.data ++ storeOf ([c].map (Page.mk tag)), []⟩ } rfl hb hrest
      refine ⟨s', c :: pages, ?_, ?_, ?_⟩
      · by_cases h1 : c.length = maxPageSize
        · simp only [h1, if_true]
          rw [Act.bind_ok hw, hrun]
        · have h2 : c.length ≥ minPageSize := hpage.resolve_left h1
          simp only [h1, h2, if_true, if_false]
          rw [Act.bind_ok hw, hrun]
      · rw [hstore]; simp [storeOf, List.append_assoc]
      · intro p hp
        rcases List.mem_cons.mp hp with hp | hp
        · subst hp
          rw [maxPageSize_eq, minPageSize_eq] at hpage
          exact ⟨by omega, hle⟩
        · exact hbod p hp
    · have h1 : ¬ c.length = maxPageSize := fun h => hpage (Or.inl h)
      have h2 : ¬ c.length ≥ minPageSize := fun h => hpage (Or.inr h)
      have hlt : c.length < 262144 := by
        rw [maxPageSize_eq] at h1; omega
      have hr := hlast hlt
      subst hr
      refine ⟨⟨⟨c, s.inner.addr⟩, s.store⟩, [], ?_, same_store hf, by simp⟩
      simp only [h1, h2, if_false]
      simp [Act.bind_apply, Act.assert_apply, setBuffer, hb, writeChunks]

theorem half_full (pages : List Bytes) (h : ∀ p ∈ pages, 131072 ≤ p.length) : 131072 * pages.length ≤ pages.flatten.length := by
  induction pages with
  | nil => simp
  | cons p ps ih =>
    have h1 := h p List.mem_cons_self
    have h2 := ih (fun q hq => h q (List.mem_cons_of_mem _ hq))
    simp only [List.length_cons, List.flatten_cons, List.length_append]
    omega

theorem writeDirect_few (tag : PageTag) (bytes : Bytes) (s : SinkState) (hf : s.store.faults = [])
    (hb : s.inner.buffer.length ≤ 262144) :
    ∃ s', writeDirect tag bytes s = (.ok s.inner.addr, s') ∧ Few tag s s' 0 := by
  unfold writeDirect
  rw [Act.bind_ok (Act.get_apply s)]
  simp only [addAddr, setBuffer]
  generalize htake : (if s.inner.buffer.length < minPageSize then
      min (minPageSize - s.inner.buffer.length) bytes.length else 0) = take
  rw [Act.bind_ok (Act.modify_apply _ s)]
  rw [Act.bind_ok (Act.modify_apply _ _)]
  simp only
  rw [minPageSize_eq] at htake
  have hbuf : (s.inner.buffer ++ bytes.take take).length ≤ 262144 := by
    simp only [List.length_append, List.length_take]
    split at htake <;> omega
  by_cases hleft : bytes.drop take = []
  · simp only [hleft, if_true]
    refine ⟨_, rfl, [], same_store hf, by simp, ?_⟩
    simp only [over_eq, List.length_append, List.length_nil, List.flatten_nil]
    omega
  · simp only [hleft, if_false]
    have hlt : take < bytes.length := by
      refine Nat.lt_of_not_le fun hc => ?_
      exact hleft (List.drop_eq_nil_of_le hc)
    have hhalf : 131072 ≤ (s.inner.buffer ++ bytes.take take).length := by
      simp only [List.length_append, List.length_take]
      split at htake <;> omega
    have hne : s.inner.buffer ++ bytes.take take ≠ [] := by
      intro h0
      rw [h0] at hhalf
      simp at hhalf
    have hrun := flush_run tag ⟨⟨s.inner.buffer ++ bytes.take take, s.inner.addr + bytes.length⟩, s.store⟩ hf hbuf
    simp only [hne, if_false] at hrun
    obtain ⟨hcf, hcs⟩ := chunks_spec maxPageSize (bytes.drop take) (by decide)
    rw [maxPageSize_eq] at hcs hcf
    obtain ⟨s2, p2, h2, hst2, hbod2⟩ := writeChunks_few tag (chunks 262144 (bytes.drop take)) _ (show (SinkState.store ⟨⟨[], s.inner.addr + bytes.length⟩,
      ⟨s.store.data ++ storeOf ([s.inner.buffer ++ bytes.take take].map (Page.mk tag)), []⟩⟩).faults = [] from rfl) rfl hcs
    refine ⟨s2, ?_, (s.inner.buffer ++ bytes.take take) :: p2, ?_, ?_, ?_⟩
    · rw [Act.bind_ok hrun, Act.bind_ok (by rw [maxPageSize_eq]; exact h2)]
      rfl
    · rw [hst2]
      simp [storeOf, List.append_assoc]
    · intro p hp
      rcases List.mem_cons.mp hp with hp | hp
      · subst hp
        exact ⟨by omega, hbuf⟩
      · exact ⟨by have := (hbod2 p hp).1; omega, (hbod2 p hp).2⟩
    · have h3 := half_full p2 (fun p hp => (hbod2 p hp).1)
      simp only [over_eq, List.length_cons, List.flatten_cons, List.length_append] at hhalf ⊢
      omega

theorem writeBytes_few (tag : PageTag) (bytes : Bytes) (s : SinkState) (hf : s.store.faults = [])
    (hb : s.inner.buffer.length ≤ 262144) :
    ∃ s', writeBytesAtomic tag bytes s = (.ok s.inner.addr, s') ∧ Few tag s s' 0 := by
  unfold writeBytesAtomic
  by_cases h : bytes.length ≤ 128
  · simp only [h, if_true]
    exact writeBuffered_few tag bytes.length (copyFill bytes) bytes s hf hb (by simp [copyFill]) rfl (by omega)
  · simp only [h, if_false]
    exact writeDirect_few tag bytes s hf hb

/-- Whether a call flushes, as a number. -/
def flushing : SinkCall → Nat
  | .stdFlush => 1
  | .drop => 1
  | _ => 0

theorem call_few (tag : PageTag) (c : SinkCall) (s : SinkState) (hg : Good c) (hf : s.store.faults = [])
    (hb : s.inner.buffer.length ≤ 262144) : ∃ r s', c.run tag s = (.ok r, s') ∧ Few tag s s' (flushing c) := by
  cases c with
  | writeAtomic num fill =>
    obtain ⟨out, hfill, hlen⟩ := hg
    have : ∃ s', writeAtomic tag num fill s = (.ok s.inner.addr, s') ∧ Few tag s s' 0 := by
      unfold writeAtomic
      by_cases h : num > maxPageSize
      · simp only [h, if_true, hfill]
        exact writeBytes_few tag out s hf hb
      · simp only [h, if_false]
        rw [maxPageSize_eq] at h
        exact writeBuffered_few tag num fill out s hf hb hfill hlen (by omega)
    obtain ⟨s', h1, h2⟩ := this
    exact ⟨_, s', by simp only [SinkCall.run]; rw [Act.bind_ok h1]; rfl, h2⟩
  | writeBytes b =>
    obtain ⟨s', h1, h2⟩ := writeBytes_few tag b s hf hb
    exact ⟨_, s', by simp only [SinkCall.run]; rw [Act.bind_ok h1]; rfl, h2⟩
  | stdWrite b =>
    obtain ⟨s', h1, h2⟩ := writeBytes_few tag b s hf hb
    exact ⟨_, s', by simp only [SinkCall.run]; rw [Act.bind_ok h1]; rfl, h2⟩
  | stdFlush =>
    obtain ⟨s', h1, h2⟩ := flush_few tag s hf hb
    exact ⟨_, s', by simp only [SinkCall.run]; rw [Act.bind_ok h1]; rfl, h2⟩
  | drop =>
    obtain ⟨s', h1, h2⟩ := flush_few tag s hf hb
    exact ⟨_, s', by simp only [SinkCall.run]; rw [Act.bind_ok h1]; rfl, h2⟩

theorem pageCount_append (t : PageTag) (a b : List Page) : pageCount t (a ++ b) = pageCount t a + pageCount t b := by
  simp [pageCount]

theorem pageCount_same (t : PageTag) (bs : List Bytes) : pageCount t (bs.map (Page.mk t)) = bs.length := by
  induction bs with
  | nil => rfl
  | cons b bs ih =>
    unfold pageCount at ih ⊢
    rw [List.map_cons, List.filter_cons_of_pos (by simp), List.length_cons, List.length_cons, ih]

theorem pageCount_other {t t' : PageTag} (h : t' ≠ t) (bs : List Bytes) : pageCount t (bs.map (Page.mk t')) = 0 := by
  induction bs with
  | nil => rfl
  | cons b bs ih =>
    unfold pageCount at ih ⊢
    rw [List.map_cons, List.filter_cons_of_neg (by simpa using h), ih]

theorem flushCount_cons (i j : Nat) (c : SinkCall) (h : History) : flushCount i ((j, c) :: h) = (if j = i then flushing c else 0) + flushCount i h := by
  unfold flushCount
  by_cases hj : j = i
  · cases c <;> simp [hj, flushing] <;> omega
  · simp [hj]

theorem few_pages (ov : Nat → Nat) (hov : ov = over) (tagOf : Nat → PageTag) (i : Nat) : ∀ (h2 hh : History) (w : World) (pages : List Page), WInv tagOf hh w pages → AllGood h2 →
    TagUnshared tagOf i h2 →
    ∃ more, WInv tagOf (hh ++ h2) (World.exec tagOf h2 w).2 (pages ++ more) ∧
      131072 * pageCount (tagOf i) more + ov (w.sinks i).buffer.length ≤
        (streamOf (tagOf i) more).length + ov ((World.exec tagOf h2 w).2.sinks i).buffer.length + 131072 * flushCount i h2 := by
  intro h2
  induction h2 with
  | nil =>
    intro hh w pages inv _ _
    refine ⟨[], by simpa [World.exec] using inv, ?_⟩
    have h1 : pageCount (tagOf i) [] = 0 := rfl
    have h2 : (streamOf (tagOf i) []).length = 0 := rfl
    have h3 : flushCount i [] = 0 := rfl
    have h4 : (World.exec tagOf [] w).2 = w := rfl
    rw [h1, h2, h3, h4]
    generalize ov (w.sinks i).buffer.length = x
    omega
  | cons x h2 ih =>
    intro hh w pages inv hg hun
    obtain ⟨j, c⟩ := x
    obtain ⟨r, w', new, hcall, hinv, _, _, he, hoth, _⟩ := inv.step j c (hg (j, c) (by simp))
    obtain ⟨more, m1, m2⟩ := ih _ w' _ hinv (fun x hx => hg x (by simp [hx])) (fun x hx => hun x (List.mem_cons_of_mem _ hx))
    have hx : (World.exec tagOf ((j, c) :: h2) w).2 = (World.exec tagOf h2 w').2 := by
      simp only [World.exec, hcall]
    refine ⟨new.map (Page.mk (tagOf j)) ++ more, ?_, ?_⟩
    · rw [hx]
      simpa using m1
    · rw [hx, pageCount_append, streamOf_append, List.length_append, flushCount_cons]
      by_cases hj : j = i
      · subst hj
        rw [pageCount_same, streamOf_map_same, if_pos rfl]
        obtain ⟨s0, hs0⟩ : ∃ s0 : SinkState, s0 = ⟨w.sinks j, w.store⟩ := ⟨_, rfl⟩
        have hi : s0.inner = w.sinks j := by rw [hs0]
        have ho : s0.store = w.store := by rw [hs0]
        obtain ⟨r', s', hrun, ps, q1, q2, q3⟩ := call_few (tagOf j) c s0 (hg (j, c) (by simp)) (by rw [ho, inv.store]) (by rw [hi]; exact inv.buf j)
        rw [hs0] at hrun
        have hs : s'.inner = w'.sinks j ∧ s'.store = w'.store := by
          simp only [World.call, hrun, Prod.mk.injEq] at hcall
          rw [← hcall.2]
          simp
        have hnew : new.map (Page.mk (tagOf j)) = ps.map (Page.mk (tagOf j)) := by
          refine storeOf_inj ?_ ?_ ?_
          · intro p hp
            obtain ⟨b, hb, rfl⟩ := List.mem_map.mp hp
            exact split_of_writer (he.bodies b hb)
          · intro p hp
            obtain ⟨b, hb, rfl⟩ := List.mem_map.mp hp
            exact split_of_writer (q2 b hb)
          · have h1 := he.store
            rw [← hs.2, q1, ho] at h1
            simp only [Store.mk.injEq, and_true] at h1
            exact (List.append_cancel_left h1).symm
        have hnew2 : new = ps := by
          have := congrArg (List.map Page.body) hnew
          simpa [List.map_map, Function.comp_def] using this
        subst hnew2
        rw [hs.1, hi, ← hov] at q3
        generalize ov (w.sinks j).buffer.length = x1 at *
        generalize ov (w'.sinks j).buffer.length = x2 at *
        generalize ov ((World.exec tagOf h2 w').2.sinks j).buffer.length = x3 at *
        omega
      · have hne : tagOf j ≠ tagOf i := fun h => hj (hun (j, c) (by simp) h)
        rw [pageCount_other hne, streamOf_map_other hne, if_neg hj, ← hoth i (fun h => hj h.symm)]
        simp only [List.length_nil]
        omega

/-! ## The length of a store -/

theorem storeOf_length (pages : List Page) : (storeOf pages).length =
    (streamOf .events pages).length + (streamOf .stringData pages).length + (streamOf .stringIndex pages).length + 5 * pages.length := by
  induction pages with
  | nil => rfl
  | cons p ps ih =>
    have h1 : storeOf (p :: ps) = p.bytes ++ storeOf ps := rfl
    have h2 : p.bytes.length = p.body.length + 5 := by simp [Page.bytes]
    have h3 : ∀ t, streamOf t (p :: ps) = (if p.tag = t then p.body else []) ++ streamOf t ps := by
      intro t
      unfold streamOf
      by_cases h : p.tag = t
      · rw [List.filter_cons_of_pos (by simpa using h), if_pos h]; rfl
      · rw [List.filter_cons_of_neg (by simpa using h), if_neg h]; rfl
    rw [h1, List.length_append, h2, ih, h3, h3, h3, List.length_append, List.length_append, List.length_append, List.length_cons]
    cases p.tag <;> simp <;> omega

theorem pages_length (pages : List Page) : pages.length = pageCount .events pages + pageCount .stringData pages + pageCount .stringIndex pages := by
  induction pages with
  | nil => rfl
  | cons p ps ih =>
    have h3 : ∀ t, pageCount t (p :: ps) = (if p.tag = t then 1 else 0) + pageCount t ps := by
      intro t
      unfold pageCount
      by_cases h : p.tag = t
      · rw [List.filter_cons_of_pos (by simpa using h), if_pos h, List.length_cons]; omega
      · rw [List.filter_cons_of_neg (by simpa using h), if_neg h]; omega
    rw [List.length_cons, ih, h3, h3, h3]
    cases p.tag <;> simp <;> omega

/-- The pages of a sink after a history. -/
theorem run_few (tagOf : Nat → PageTag) (h : History) (hg : AllGood h) (i : Nat) (hun : TagUnshared tagOf i h) (pages : List Page)
    (inv : WInv tagOf h (run tagOf h).2 pages) : 131072 * pageCount (tagOf i) pages ≤ (written i h).length + 131072 * flushCount i h := by
  obtain ⟨ov, hov⟩ : ∃ ov : Nat → Nat, ov = over := ⟨_, rfl⟩
  obtain ⟨more, hi, hb⟩ := few_pages ov hov tagOf i h [] World.init [] (WInv.init tagOf) hg hun
  rw [List.nil_append, List.nil_append] at hi
  have hp : more = pages := by
    have h1 := inv.store
    rw [show (run tagOf h).2 = (World.exec tagOf h World.init).2 from rfl, hi.store] at h1
    injection h1 with h1 _
    exact storeOf_inj (fun p hp => split_of_writer (hi.bodies p hp)) (fun p hp => split_of_writer (inv.bodies p hp)) h1
  subst hp
  have hc := congrArg List.length (hi.content i hun)
  rw [List.length_append] at hc
  have hle : ov ((World.exec tagOf h World.init).2.sinks i).buffer.length ≤ ((World.exec tagOf h World.init).2.sinks i).buffer.length := by
    rw [hov, over_eq]; exact Nat.sub_le _ _
  generalize ov ((World.exec tagOf h World.init).2.sinks i).buffer.length = x at *
  generalize ((World.exec tagOf h World.init).2.sinks i).buffer.length = y at *
  generalize ov (World.init.sinks i).buffer.length = z at *
  omega

/-! ## Sessions -/

open Verif.Conc

theorem encText_length (t : Text) : (encText (components t)).length = stringSize t := by
  unfold encText stringSize
  rw [List.length_append, List.length_flatMap]
  congr 1
  congr 1
  apply List.map_congr_left
  intro c _
  cases c <;> simp [encComponent]

theorem size_call {tl : TableLog} {w : World} (ci : CutInv tl w) (i : Nat) (c : SinkCall) (hg : Good c) :
    ((World.call profTags i c w).2.sinks 1).addr = (w.sinks 1).addr + if i = 1 then (payload c).length else 0 := by
  obtain ⟨⟨h, g, s, rfl, _⟩, _⟩ := ci
  obtain ⟨p1, inv, _⟩ := run_inv profTags h g
  obtain ⟨p2, inv2, _⟩ := run_inv profTags (h ++ [(i, c)]) (allGood_snoc g hg)
  rw [run_snoc, inv.addr, inv2.addr]
  by_cases hi : i = 1
  · subst hi; rw [written_snoc_same, if_pos rfl, List.length_append]
  · rw [written_snoc_other (by omega), if_neg hi]; rfl

theorem size_step {tl : TableLog} {s : ProfState} (ci : CutInv tl s.world) (c : ProfCall) :
    ((c.run s).2.world.sinks 1).addr = (s.world.sinks 1).addr + stringsSize [c] := by
  have rec_done : ∀ e, ((match record e with | .done _ => s.world | .sink q _ => (World.call profTags q.1 q.2 s.world).2).sinks 1).addr =
      (s.world.sinks 1).addr + 0 := by
    intro e
    cases e with
    | error f => rfl
    | ok raw => exact size_call ci 0 (.writeAtomic 32 (rawEventFill raw)) (rawEvent_good raw)
  rw [world_after]
  cases c with
  | allocString t =>
    simp only [request]
    rw [size_call ci 1 _ (alloc_good t), if_pos rfl, alloc_payload, encText_length]
    simp [stringsSize]
  | allocForeign b =>
    simp only [request]
    rw [size_call ci 1 (.writeAtomic b.length (fun _ => .ok b)) ⟨b, rfl, rfl⟩, if_pos rfl]
    simp [stringsSize, payload]
  | mapVirtual v c =>
    simp only [request]
    by_cases hv : v ≤ maxUserVirtualStringId
    · rw [if_pos hv]
      cases ha : toAddr c with
      | error f => rfl
      | ok a => exact size_call ci 2 _ (index_good v a)
    · rw [if_neg hv]; rfl
  | bulkMapVirtual vs c =>
    simp only [request]
    cases ha : toAddr c with
    | error f => rfl
    | ok a =>
      simp only []
      cases hb : bulkEntries a vs with
      | error f => rfl
      | ok b => exact size_call ci 2 (.writeBytes b) trivial
  | instant k id t now => exact rec_done _
  | integer k id t v => exact rec_done _
  | start g k id t now => rfl
  | startDetached g k id t now => rfl
  | finish g now =>
    simp only [request]
    cases s.guards g with
    | none => rfl
    | some gd => exact rec_done _
  | finishOverride g id now =>
    simp only [request]
    cases s.guards g with
    | none => rfl
    | some gd => exact rec_done _
  | finishDetached g now =>
    simp only [request]
    cases s.detached g with
    | none => rfl
    | some gd => exact rec_done _

theorem stringsSize_cons (c : ProfCall) (cs : List ProfCall) : stringsSize (c :: cs) = stringsSize [c] + stringsSize cs := by
  simp [stringsSize]

theorem size_run {tl : TableLog} {s : ProfState} (ci : CutInv tl s.world) (calls : List ProfCall) :
    ((runProf calls s).2.world.sinks 1).addr = (s.world.sinks 1).addr + stringsSize calls := by
  induction calls generalizing tl s with
  | nil => rfl
  | cons c cs ih =>
    rw [stringsSize_cons, ← Nat.add_assoc, ← size_step ci c]
    exact ih (ci.step c)

theorem size_init (md : String) : ((profInit md).world.sinks 1).addr = 8 + ((utf8 md).length + 1) := by
  have hg : AllGood (creation md) := by
    intro x hx
    simp only [creation, fileHeaderWrites, List.map_cons, List.map_nil, List.mem_append, List.mem_cons, List.not_mem_nil, or_false] at hx
    rcases hx with ((h | h) | h) | h
    · rcases h with rfl | rfl <;> trivial
    · rcases h with rfl | rfl <;> trivial
    · rcases h with rfl | rfl <;> trivial
    · rcases h with rfl | rfl
      · exact alloc_good _
      · exact index_good _ _
  obtain ⟨p1, inv, _⟩ := run_inv profTags (creation md) hg
  rw [← creation_run, inv.addr]
  have e : pieces 1 (creation md) = [magicStringData, leBytes 4 9, encText [.value md]] := by
    simp only [pieces, creation, fileHeaderWrites, List.map_cons, List.map_nil, List.cons_append, List.nil_append]
    rw [List.filter_cons_of_neg (by decide), List.filter_cons_of_neg (by decide), List.filter_cons_of_pos (by decide), List.filter_cons_of_pos (by decide),
      List.filter_cons_of_neg (by decide), List.filter_cons_of_neg (by decide), List.filter_cons_of_pos (by simp), List.filter_cons_of_neg (by simp), List.filter_nil]
    simp only [List.map_cons, List.map_nil, alloc_payload]
    rfl
  rw [← pieces_flatten, e]
  simp [encText_value_length, magicStringData]
  omega

theorem flushCount_none {h : History} (hf : ∀ x ∈ h, ¬ Flushes x.2) (i : Nat) : flushCount i (h ++ drops) = if i ≤ 2 then 1 else 0 := by
  have h0 : ∀ h : History, (∀ x ∈ h, ¬ Flushes x.2) → flushCount i (h ++ drops) = flushCount i drops := by
    intro h hf
    induction h with
    | nil => rfl
    | cons x h ih =>
      obtain ⟨j, c⟩ := x
      rw [List.cons_append, flushCount_cons, ih fun x hx => hf x (List.mem_cons_of_mem _ hx)]
      have := hf (j, c) (by simp)
      cases c <;> simp [Flushes, flushing] at this ⊢
  rw [h0 h hf]
  by_cases hi : i ≤ 2
  · have : i = 0 ∨ i = 1 ∨ i = 2 := by omega
    rcases this with rfl | rfl | rfl <;> rfl
  · rw [if_neg hi]
    have a0 : (0 : Nat) ≠ i := by omega
    have a1 : (1 : Nat) ≠ i := by omega
    have a2 : (2 : Nat) ≠ i := by omega
    simp [drops, flushCount, a0, a1, a2]

/-- The file of a session: its content, and five bytes for each page. -/
theorem session_size (md : String) (calls : List ProfCall) : ∃ pages : List Page, savedFile md calls = fileHeader magicTopLevel ++ storeOf pages ∧
    (∀ p ∈ pages, 0 < p.body.length ∧ p.body.length ≤ 262144) ∧
    (savedFile md calls).length = contentSize md calls + 5 * pages.length ∧ 131072 * pages.length ≤ contentSize md calls + 3 * 131072 := by
  obtain ⟨pages, raws, P⟩ := parts_exist md calls
  obtain ⟨⟨h, g, s, hw, _, _, _, hnf, _⟩, _⟩ := cut_inv md calls
  have hg : AllGood (h ++ drops) := by
    intro x hx
    simp [drops] at hx
    rcases hx with hx | rfl | rfl | rfl
    · exact g x hx
    all_goals trivial
  have hs : ∀ x ∈ h ++ drops, x.1 ≤ 2 := by
    intro x hx
    simp [drops] at hx
    rcases hx with hx | rfl | rfl | rfl
    · exact s x hx
    all_goals simp
  have hwr : ∀ i, written i (h ++ drops) = written i h := by
    intro i
    rw [written_append]
    have : written i drops = [] := by
      simp only [written, List.flatMap_eq_nil_iff, List.mem_filter, drops]
      rintro x ⟨hx, _⟩
      simp at hx
      rcases hx with rfl | rfl | rfl <;> rfl
    rw [this, List.append_nil]
  have f : ∀ i, i ≤ 2 → Flushed i (h ++ drops) := by
    intro i hi
    have : i = 0 ∨ i = 1 ∨ i = 2 := by omega
    rcases this with rfl | rfl | rfl
    · exact .inr ⟨h, .drop, [(1, .drop), (2, .drop)], rfl, trivial, by simp⟩
    · exact .inr ⟨h ++ [(0, .drop)], .drop, [(2, .drop)], by simp [drops], trivial, by simp⟩
    · exact .inr ⟨h ++ [(0, .drop), (1, .drop)], .drop, [], by simp [drops], trivial, by simp⟩
  obtain ⟨pages', inv, _⟩ := run_inv profTags (h ++ drops) hg
  have hfile : savedFile md calls = fileHeader magicTopLevel ++ storeOf pages' := by
    unfold savedFile
    congr 1
    have : (World.exec profTags drops (runProf calls (profInit md)).2.world).2.store.data = storeAfter profTags (h ++ drops) := by
      simp [storeAfter, run, exec_append, hw]
    rw [show ([(0, .drop), (1, .drop), (2, .drop)] : History) = drops from rfl, this, storeAfter, inv.store]
  have hpp : pages' = pages := by
    have := P.file
    rw [hfile] at this
    exact storeOf_inj (fun p hp => split_of_writer (inv.bodies p hp)) (fun p hp => split_of_writer (P.bodies p hp)) (List.append_cancel_left this)
  subst hpp
  have hst : ∀ i, i ≤ 2 → streamOf (profTags i) pages' = written i (h ++ drops) := by
    intro i hi
    have := inv.content i (tagUnshared_prof hs hi)
    rw [flushed_buffer profTags _ hg i (f i hi), List.append_nil] at this
    exact this
  have l0 : (streamOf .events pages').length = 8 + 32 * (recorded calls).length := by
    rw [P.events, List.length_append, serialize_flat_length, P.enc.length_eq]
    rfl
  have l1 : (streamOf .stringData pages').length = 8 + ((utf8 md).length + 1) + stringsSize calls := by
    have h1 := hst 1 (by decide)
    rw [show profTags 1 = PageTag.stringData from rfl] at h1
    rw [h1, hwr, ← size_init, ← size_run (cut_init md)]
    obtain ⟨q, iq, _⟩ := run_inv profTags h g
    rw [hw, iq.addr]
  have l2 : (streamOf .stringIndex pages').length = 8 + 16 + 16 * (mappings (stringLog md calls)).length := by
    rw [P.index, List.length_append, List.length_append]
    have hm : ∀ l : List (StringId × StringId), (mapBytes l).length = 16 * l.length := by
      intro l
      induction l with
      | nil => rfl
      | cons m l ih =>
        have : mapBytes (m :: l) = entryBytes (m.1, m.2.toNat - 100000003) ++ mapBytes l := rfl
        rw [this, List.length_append, ih, List.length_cons]
        simp [entryBytes]
        omega
    rw [hm]
    rfl
  have b : ∀ i, i ≤ 2 → 131072 * pageCount (profTags i) pages' ≤ (streamOf (profTags i) pages').length + 131072 := by
    intro i hi
    have := run_few profTags _ hg i (tagUnshared_prof hs hi) pages' inv
    rw [flushCount_none hnf, if_pos hi, ← hst i hi, Nat.mul_one] at this
    exact this
  have b0 := b 0 (by decide)
  have b1 := b 1 (by decide)
  have b2 := b 2 (by decide)
  rw [show profTags 0 = PageTag.events from rfl, l0] at b0
  rw [show profTags 1 = PageTag.stringData from rfl, l1] at b1
  rw [show profTags 2 = PageTag.stringIndex from rfl, l2] at b2
  refine ⟨pages', hfile, inv.bodies, ?_, ?_⟩
  · rw [hfile, List.length_append, storeOf_length, l0, l1, l2]
    have : (fileHeader magicTopLevel).length = 8 := rfl
    rw [this]
    unfold contentSize
    omega
  · rw [pages_length]
    unfold contentSize
    generalize 131072 = K at *
    rw [Nat.mul_add, Nat.mul_add]
    omega

end Verif.Proofs
