import Verif.Props.Container
import Verif.Proofs.Killed
import Mathlib.Data.List.Induction

/-!
# Property C10, continued: sinks that share a tag
-/

namespace Verif.Props

open Verif Verif.Mm Verif.Spec

/-- The bytes of the blocks that belong to sink `i`, in order. -/
def blocksOf (i : Nat) (blocks : List (Nat × Bytes)) : Bytes := (blocks.filter fun x => x.1 = i).flatMap Prod.snd

/-- The bytes of the blocks of all sinks with tag `t`, in order. -/
def blocksTagged (tagOf : Nat → PageTag) (t : PageTag) (blocks : List (Nat × Bytes)) : Bytes :=
  (blocks.filter fun x => tagOf x.1 = t).flatMap Prod.snd

theorem blocksOf_append (i : Nat) (a b : List (Nat × Bytes)) : blocksOf i (a ++ b) = blocksOf i a ++ blocksOf i b := by simp [blocksOf]

theorem blocksOf_same (i : Nat) (ps : List Bytes) : blocksOf i (ps.map fun b => (i, b)) = ps.flatten := by
  induction ps with
  | nil => rfl
  | cons p ps ih => simp [blocksOf] at ih ⊢; exact ih

theorem blocksOf_other {i j : Nat} (h : i ≠ j) (ps : List Bytes) : blocksOf j (ps.map fun b => (i, b)) = [] := by
  simp only [blocksOf, List.flatMap_eq_nil_iff, List.mem_filter, List.mem_map, decide_eq_true_eq]
  rintro x ⟨⟨b, _, rfl⟩, hx⟩
  exact absurd hx h

theorem streamOf_blocks (tagOf : Nat → PageTag) (t : PageTag) (blocks : List (Nat × Bytes)) :
    streamOf t (blocks.map fun x => ⟨tagOf x.1, x.2⟩) = blocksTagged tagOf t blocks := by
  induction blocks with
  | nil => rfl
  | cons x blocks ih =>
    simp only [streamOf, blocksTagged] at ih
    simp only [streamOf, blocksTagged, List.map_cons, List.filter_cons]
    by_cases h : tagOf x.1 = t <;> simp [h, ih]

theorem owned_pages (tagOf : Nat → PageTag) (h : History) (hg : AllGood h) : ∃ blocks : List (Nat × Bytes),
    WInv tagOf h (run tagOf h).2 (blocks.map fun x => ⟨tagOf x.1, x.2⟩) ∧
    (∀ i, blocksOf i blocks ++ ((run tagOf h).2.sinks i).buffer = written i h) ∧
    ∀ i c, (i, c) ∈ h → AtomicRecord c → (∃ b, (i, b) ∈ blocks ∧ payload c <:+: b) ∨ payload c <:+: ((run tagOf h).2.sinks i).buffer := by
  induction h using List.reverseRecOn with
  | nil => exact ⟨[], WInv.init tagOf, fun i => rfl, by simp⟩
  | append_singleton h x ih =>
    obtain ⟨i, c⟩ := x
    obtain ⟨blocks, inv, own, recs⟩ := ih fun x hx => hg x (by simp [hx])
    obtain ⟨r, w', new, hcall, hinv, _, _, he, hoth, hat⟩ := inv.step i c (hg (i, c) (by simp))
    have hrun : (run tagOf (h ++ [(i, c)])).2 = w' := by
      unfold run
      rw [exec_append]
      show (World.call tagOf i c (run tagOf h).2).2 = w'
      rw [hcall]
    rw [hrun]
    refine ⟨blocks ++ new.map fun b => (i, b), ?_, ?_, ?_⟩
    · simpa [Function.comp_def] using hinv
    · intro j
      rw [blocksOf_append, written_append]
      by_cases hj : i = j
      · subst hj
        rw [blocksOf_same, written_single_same, List.append_assoc, he.content, ← List.append_assoc, own]
      · rw [blocksOf_other hj, written_single_other hj, List.append_nil, List.append_nil, hoth j (Ne.symm hj), own]
    · intro j d hm hd
      rw [List.mem_append, List.mem_singleton] at hm
      have old : ∀ p, p <:+: ((run tagOf h).2.sinks i).buffer → (∃ b, (i, b) ∈ blocks ++ new.map (fun b => (i, b)) ∧ p <:+: b) ∨ p <:+: (w'.sinks i).buffer := by
        intro p hp
        obtain ⟨q, qs, r, hq, rfl⟩ := he.keep
        have hp' : p <:+: ((run tagOf h).2.sinks i).buffer ++ r := hp.trans (List.infix_append' [] _ r)
        have hmem : ((run tagOf h).2.sinks i).buffer ++ r ∈ new ++ [(w'.sinks i).buffer] := by rw [hq]; exact List.mem_cons_self
        rw [List.mem_append, List.mem_singleton] at hmem
        rcases hmem with hmem | hmem
        · exact .inl ⟨_, List.mem_append_right _ (List.mem_map_of_mem hmem), hp'⟩
        · exact .inr (hmem ▸ hp')
      rcases hm with hm | hm
      · rcases recs j d hm hd with ⟨b, hb, hp⟩ | hp
        · exact .inl ⟨b, List.mem_append_left _ hb, hp⟩
        · by_cases hj : j = i
          · subst hj; exact old _ hp
          · exact .inr (by rw [hoth j hj]; exact hp)
      · obtain ⟨rfl, rfl⟩ := Prod.mk.inj hm
        rcases hat hd with ⟨_, hb⟩ | ⟨_, hb⟩
        · exact .inr (by rw [hb]; exact (List.suffix_append _ _).isInfix)
        · exact .inr ⟨[], [], by rw [hb]; simp⟩

/-- **C10** (sinks that share a tag). Whatever tags the sinks have: the store splits, and the stream of a tag is put together from blocks, each of one of the sinks with this tag, so that the blocks of
a sink make up exactly what was written to it, in order. Every small record (at most a page through `write_atomic`, at most 128 bytes through `write_bytes_atomic`) lies within one block, so it stays in one piece. -/
theorem C10_shared_tag_streams (tagOf : Nat → PageTag) (h : History) (hg : AllGood h) (hfl : ∀ i, Flushed i h) : ∃ blocks : List (Nat × Bytes),
    (∀ t, Recovers (storeAfter tagOf h) t (blocksTagged tagOf t blocks)) ∧
    (∀ i, blocksOf i blocks = written i h) ∧
    ∀ i c, (i, c) ∈ h → AtomicRecord c → payload c ≠ [] → ∃ b, (i, b) ∈ blocks ∧ payload c <:+: b := by
  obtain ⟨blocks, inv, own, recs⟩ := owned_pages tagOf h hg
  have hb : ∀ i, ((run tagOf h).2.sinks i).buffer = [] := fun i => flushed_buffer tagOf h hg i (hfl i)
  refine ⟨blocks, fun t => ⟨mergePages (fun _ => none) (blocks.map fun x => ⟨tagOf x.1, x.2⟩), ?_, ?_⟩, ?_, ?_⟩
  · have : storeAfter tagOf h = storeOf (blocks.map fun x => ⟨tagOf x.1, x.2⟩) := by simp [storeAfter, inv.store]
    rw [this]
    exact splitStreams_storeOf _ fun p hp => split_of_writer (inv.bodies p hp)
  · rw [mergePages_getD, streamOf_blocks]
  · intro i
    have := own i
    rwa [hb i, List.append_nil] at this
  · intro i c hm hc hne
    rcases recs i c hm hc with h | h
    · exact h
    · rw [hb i, List.infix_nil] at h
      exact absurd h hne

/-- **C10** (addresses). Whatever tags the sinks have: the address a write returns is the number of bytes written before to *its own* sink; so it is a position in the stream exactly as far as no
other sink with the tag has written a block before. -/
theorem C10_shared_tag_addresses (tagOf : Nat → PageTag) (h1 h2 : History) (i : Nat) (c : SinkCall) (hg : AllGood (h1 ++ (i, c) :: h2)) (hc : ReturnsAddr c) :
    (outcomes tagOf (h1 ++ (i, c) :: h2))[h1.length]? = some (.ok (some (written i h1).length)) := by
  obtain ⟨pages, inv, _⟩ := run_inv tagOf h1 fun x hx => hg x (by simp [hx])
  obtain ⟨r, w', new, hcall, _, hret, _⟩ := inv.step i c (hg (i, c) (by simp))
  rw [outcome_at, hcall, hret hc]

/-- Two sinks with one tag; the first is flushed in between. -/
def exShared : History := [(0, .writeBytes [1, 2]), (1, .writeBytes [3]), (0, .stdFlush), (1, .writeBytes [4]), (0, .writeBytes [5]), (1, .drop), (0, .drop)]

example : AllGood exShared ∧ (∀ i, Flushed i exShared) ∧
    storeAfter (fun _ => .events) exShared = storeOf [⟨.events, [1, 2]⟩, ⟨.events, [3, 4]⟩, ⟨.events, [5]⟩] ∧
    (outcomes (fun _ => .events) exShared)[4]? = some (.ok (some 2)) := by
  refine ⟨by simp [AllGood, Good, exShared], ?_, by decide, by decide⟩
  intro i
  by_cases h0 : i = 0
  · subst h0; exact .inr ⟨exShared.take 6, .drop, [], rfl, trivial, by simp⟩
  · by_cases h1 : i = 1
    · subst h1; exact .inr ⟨exShared.take 5, .drop, [(0, .drop)], rfl, trivial, by simp⟩
    · left; simp [exShared, Ne.symm h0, Ne.symm h1]

/-- **C10** (large records are torn). Between two sinks with the same tag "atomic" does not hold for large data: of any more than 131072 (and fewer than 262144) bytes written to a fresh sink the first 131072
go to the store at once and the others stay in the buffer; whatever another sink with the tag writes before the first is flushed ends up in between. -/
theorem C10_shared_tag_tears (tagOf : Nat → PageTag) (htag : tagOf 0 = tagOf 1) (b : Bytes) (x : UInt8) (h0 : 131072 < b.length) (h1 : b.length < 262144) :
    Recovers (storeAfter tagOf [(0, .writeBytes b), (1, .writeBytes [x]), (1, .drop), (0, .drop)]) (tagOf 0) (b.take 131072 ++ [x] ++ b.drop 131072) := by
  obtain ⟨r1, w1, n1, c1, i1, _, _, e1, o1, _⟩ := (WInv.init tagOf).step 0 (.writeBytes b) trivial
  obtain ⟨r2, w2, n2, c2, i2, _, _, e2, o2, a2⟩ := i1.step 1 (.writeBytes [x]) trivial
  obtain ⟨r3, w3, n3, c3, i3, _, f3, e3, o3, _⟩ := i2.step 1 .drop trivial
  obtain ⟨r4, w4, n4, c4, i4, _, f4, e4, o4, _⟩ := i3.step 0 .drop trivial
  have hrun : storeAfter tagOf [(0, .writeBytes b), (1, .writeBytes [x]), (1, .drop), (0, .drop)] = w4.store.data := by
    simp only [storeAfter, run, World.exec, c1, c2, c3, c4]
  -- the large write
  have hst : w1.store = ⟨storeOf [⟨tagOf 0, b.take 131072⟩], []⟩ := by
    have h := writeDirect_half (tagOf 0) b ⟨⟨[], 0⟩, ⟨[], []⟩⟩ rfl (Nat.zero_lt_succ _) (by rw [List.length_nil, Nat.zero_add]; exact h0) (by rw [List.length_nil, Nat.zero_add]; exact h1)
    have hc : (World.call tagOf 0 (.writeBytes b) World.init).2.store = (writeDirect (tagOf 0) b ⟨⟨[], 0⟩, ⟨[], []⟩⟩).2.store := by
      simp only [World.call, SinkCall.run, writeBytesAtomic]
      rw [if_neg (by omega), Act.bind_apply]
      simp only [World.init]
      cases hw : writeDirect (tagOf 0) b ⟨⟨[], 0⟩, ⟨[], []⟩⟩ with
      | mk q s => cases q <;> rfl
    rw [c1] at hc
    rw [hc, h]
    rfl
  have hn1 : n1.flatten = b.take 131072 := by
    have hp : n1.map (Page.mk (tagOf 0)) = [⟨tagOf 0, b.take 131072⟩] := by
      have hs := i1.store.symm.trans hst
      injection hs with hs _
      refine storeOf_inj (fun p hp => split_of_writer (i1.bodies p hp)) ?_ hs
      intro p hp
      rw [List.mem_singleton] at hp
      subst hp
      exact split_of_writer (by simp only [List.length_take]; omega)
    have := congrArg (fun ps => (ps.map Page.body).flatten) hp
    simpa [Function.comp_def] using this
  have hb1 : (w1.sinks 0).buffer = b.drop 131072 := by
    have h := e1.content
    rw [hn1] at h
    have h' : b.take 131072 ++ (w1.sinks 0).buffer = b := h
    exact List.append_cancel_left (h'.trans (List.take_append_drop _ _).symm)
  -- the small one
  have hw11 : (w1.sinks 1).buffer = [] := by rw [o1 1 (by decide)]; rfl
  have hn2 : n2 = [] ∧ (w2.sinks 1).buffer = [x] := by
    rcases a2 (by simp [AtomicRecord]) with ⟨hn, hb⟩ | ⟨hn, hb⟩
    · exact ⟨hn, by rw [hb, hw11]; rfl⟩
    · rw [hw11] at hn
      exact absurd (e2.bodies [] (by rw [hn]; exact List.mem_cons_self)).1 (by simp)
  have hn3 : n3.flatten = [x] := by
    have h := e3.content
    simp only [f3 trivial, hn2.2, payload, List.append_nil] at h
    exact h
  have hn4 : n4.flatten = b.drop 131072 := by
    have h := e4.content
    simp only [f4 trivial, o3 0 (by decide), o2 0 (by decide), hb1, payload, List.append_nil] at h
    exact h
  have hsplit := splitStreams_storeOf _ fun p hp => split_of_writer (i4.bodies p hp)
  rw [i4.store] at hrun
  simp only at hrun
  rw [← hrun] at hsplit
  refine ⟨_, hsplit, ?_⟩
  · rw [mergePages_getD]
    simp only [streamOf_append, hn2.1, List.map_nil, ← htag, streamOf_map_same, hn1, hn3, hn4, List.nil_append, List.append_nil]

example : 131072 < (List.replicate 200000 (7 : UInt8)).length ∧ (List.replicate 200000 (7 : UInt8)).length < 262144 := by
  rw [List.length_replicate]; omega

end Verif.Props
