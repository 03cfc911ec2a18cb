import Verif.Proofs.StringTable
import Verif.Props.Header
import Verif.Props.Container
import Verif.Proofs.RawEvent

namespace Verif.Mm

open Verif Verif.Spec Verif.Props

/-! ### Logs grow by one call at a time -/

theorem allocated_snoc {log : TableLog} {x} {id cs} :
    Allocated (log ++ [x]) id cs ↔
      Allocated log id cs ∨ ∃ o, x = (o, .ok (some id)) ∧ Stores cs o := by
  simp only [Allocated, List.mem_append, List.mem_singleton]
  constructor
  · rintro ⟨o, ho, h | h⟩
    · exact .inl ⟨o, ho, h⟩
    · exact .inr ⟨o, h.symm, ho⟩
  · rintro (⟨o, ho, h⟩ | ⟨o, h, ho⟩)
    · exact ⟨o, ho, .inl h⟩
    · exact ⟨o, ho, .inr h.symm⟩

theorem unbound_snoc {log : TableLog} {x} {v} : Unbound (log ++ [x]) v ↔ Unbound log v ∧ binds v x = none := by
  simp only [Unbound, List.mem_append, List.mem_singleton]
  constructor
  · intro h; exact ⟨fun y hy => h y (.inl hy), h x (.inr rfl)⟩
  · rintro ⟨h1, h2⟩ y (hy | rfl)
    · exact h1 y hy
    · exact h2

theorem bound_snoc {log : TableLog} {x} {v} {b} :
    Bound (log ++ [x]) v b ↔ binds v x = some b ∨ (binds v x = none ∧ Bound log v b) := by
  constructor
  · rintro ⟨l1, y, l2, heq, hy, hl2⟩
    rcases List.eq_nil_or_concat l2 with rfl | ⟨l2', z, rfl⟩
    · have := List.append_inj' heq rfl
      simp at this
      obtain ⟨_, rfl⟩ := this
      exact .inl hy
    · rw [List.concat_eq_append, ← List.cons_append, ← List.append_assoc] at heq
      have := List.append_inj' heq rfl
      simp at this
      obtain ⟨h1, rfl⟩ := this
      exact .inr ⟨hl2 x (by simp), l1, y, l2', h1, hy, fun w hw => hl2 w (by simp [hw])⟩
  · rintro (h | ⟨h, l1, y, l2, rfl, hy, hl2⟩)
    · exact ⟨log, x, [], rfl, h, by simp⟩
    · refine ⟨l1, y, l2 ++ [x], by simp, hy, ?_⟩
      intro w hw
      simp at hw
      rcases hw with hw | rfl
      · exact hl2 w hw
      · exact h

theorem bound_unique {log : TableLog} {v} {b b'} (h : Bound log v b) (h' : Bound log v b') : b = b' := by
  obtain ⟨l, hl⟩ : ∃ l, l = log.reverse := ⟨_, rfl⟩
  induction l generalizing log with
  | nil =>
    obtain ⟨l1, x, l2, rfl, _⟩ := h
    simp at hl
  | cons x l ih =>
    have : log = l.reverse ++ [x] := by
      rw [← List.reverse_cons, hl, List.reverse_reverse]
    subst this
    rw [bound_snoc] at h h'
    rcases h with h | ⟨h, hb⟩ <;> rcases h' with h' | ⟨h', hb'⟩
    · rw [h] at h'; simpa using h'
    · rw [h] at h'; simp at h'
    · rw [h] at h'; simp at h'
    · exact ih hb hb' (by simp)

theorem unbound_bound {log : TableLog} {v} {b} (h : Unbound log v) (hb : Bound log v b) : False := by
  obtain ⟨l1, x, l2, rfl, hx, _⟩ := hb
  have := h x (by simp)
  rw [this] at hx; simp at hx

theorem collectMap_snoc (idx : List (StringId × Nat)) (e : StringId × Nat) (v : StringId) :
    collectMap (idx ++ [e]) v = if v = e.1 then some e.2 else collectMap idx v := by
  simp [collectMap, List.foldl_append]

theorem collectMap_append_const (idx : List (StringId × Nat)) (vs : List StringId) (a : Nat) (v : StringId) :
    collectMap (idx ++ vs.map (fun v => (v, a))) v = if v ∈ vs then some a else collectMap idx v := by
  induction vs generalizing idx with
  | nil => simp
  | cons w vs ih =>
    rw [List.map_cons, ← List.singleton_append, ← List.append_assoc, ih, collectMap_snoc]
    by_cases h1 : v ∈ vs <;> by_cases h2 : v = w <;> simp [h1, h2]

theorem prefix_drop_append {P D : Bytes} (E : Bytes) {a : Nat} (hP : P ≠ []) (h : P <+: D.drop a) :
    P <+: (D ++ E).drop a := by
  have : a ≤ D.length := by
    apply Decidable.byContradiction
    intro hn
    rw [List.drop_eq_nil_of_le (by omega)] at h
    exact hP (List.prefix_nil.mp h)
  rw [List.drop_append_of_le_length this]
  exact h.trans (List.prefix_append _ _)

theorem encText_ne (cs : List StringComponent) : encText cs ≠ [] := by simp [encText]

/-! ### Table contents -/

/-- The latest binding of `v` is to the text `cs`, stored where the next string went at that time. -/
def TextAt (log : TableLog) (v : StringId) (cs : List StringComponent) (a : Nat) : Prop :=
  ∃ l1 x l2, log = l1 ++ x :: l2 ∧ binds v x = some (.text cs) ∧ (∀ y ∈ l2, binds v y = none) ∧ a = nextAddr l1

theorem TextAt.bound {log : TableLog} {v cs a} (h : TextAt log v cs a) : Bound log v (.text cs) := by
  obtain ⟨l1, x, l2, h1, h2, h3, _⟩ := h
  exact ⟨l1, x, l2, h1, h2, h3⟩

theorem TextAt.ge {log : TableLog} {v cs a} (h : TextAt log v cs a) : 8 ≤ a := by
  obtain ⟨l1, x, l2, h1, h2, h3, rfl⟩ := h
  unfold nextAddr
  omega

theorem TextAt.snoc {log : TableLog} {v cs a} (h : TextAt log v cs a) {x} (hx : binds v x = none) : TextAt (log ++ [x]) v cs a := by
  obtain ⟨l1, x', l2, rfl, h2, h3, h4⟩ := h
  refine ⟨l1, x', l2 ++ [x], by simp, h2, ?_, h4⟩
  intro y hy
  simp at hy
  rcases hy with hy | rfl
  · exact h3 y hy
  · exact hx

theorem nextAddr_snoc (log : TableLog) (x) : nextAddr (log ++ [x]) = nextAddr log + textSize x := by
  simp [nextAddr]; omega

/-- The two string streams agree with the log. -/
structure TabOk (log : TableLog) (D I : Bytes) : Prop where
  dhead : ∃ D', D = fileHeader magicStringData ++ D'
  alloc : ∀ id cs, Allocated log id cs → ∃ a, id.toNat = a + 100000003 ∧ 8 ≤ a ∧ encText cs <+: D.drop a
  idx : ∃ idx : List (StringId × Nat), I = fileHeader magicStringIndex ++ idx.flatMap entryBytes ∧
    (∀ e ∈ idx, e.2 < 18446744073709551616) ∧
    ∀ v, (collectMap idx v = none ∧ Unbound log v) ∨
      ∃ a, collectMap idx v = some a ∧ ((∃ c, Bound log v (.concrete c) ∧ c.toNat = a + 100000003) ∨
        (∃ cs, TextAt log v cs a ∧ encText cs <+: D.drop a))
  dsize : D.length = nextAddr log
  ids : ∀ l1 l2 o id, log = l1 ++ (o, .ok (some id)) :: l2 → id.toNat = nextAddr l1 + 100000003
  distinct : log.Pairwise (fun x y => ∀ o o' cs cs' i j, Stores cs o → Stores cs' o' → x = (o, .ok (some i)) →
    y = (o', .ok (some j)) → i.toNat < j.toNat)
  virt : ∀ x ∈ log, ∀ v b, binds v x = some b → v.toNat ≤ 100000001 ∧ (∀ c, b = .concrete c → v.toNat ≤ 100000000) ∧
    (∀ cs, b = .text cs → v.toNat = 100000001)
  msize : ∀ t r, (SessionOp.table (.allocMetadata t), .ok r) ∈ log → (encText (components t)).length + 8 ≤ D.length
  after : log.Pairwise (fun x y => ∀ t r o cs j, x = (SessionOp.table (.allocMetadata t), .ok r) → Stores cs o →
    y = (o, .ok (some j)) → (encText (components t)).length + 8 + 100000003 ≤ j.toNat)

theorem TabOk.addr_lt {log : TableLog} {D I : Bytes} (ok : TabOk log D I) {id : StringId} {cs} (h : Allocated log id cs) :
    id.toNat < D.length + 100000003 := by
  obtain ⟨a, h1, _, h2⟩ := ok.alloc id cs h
  have : a < D.length := by
    apply Decidable.byContradiction
    intro hn
    rw [List.drop_eq_nil_of_le (by omega)] at h2
    exact encText_ne cs (List.prefix_nil.mp h2)
  omega

theorem TabOk.step {log : TableLog} {D I : Bytes} (ok : TabOk log D I)
    (x : SessionOp × Except Fault (Option StringId)) (E : Bytes) (vs : List StringId) (a : Nat) (b : Binding)
    (hb : ∀ v, binds v x = if v ∈ vs then some b else none)
    (hv : ∀ v ∈ vs, v.toNat ≤ 100000001 ∧ (∀ c, b = .concrete c → v.toNat ≤ 100000000) ∧
      (∀ cs, b = .text cs → v.toNat = 100000001))
    (ha : vs ≠ [] → a < 18446744073709551616 ∧ ((∃ c, b = .concrete c ∧ c.toNat = a + 100000003) ∨
      ∃ cs, b = .text cs ∧ a = D.length ∧ encText cs <+: (D ++ E).drop a))
    (hal : ∀ o id, x = (o, .ok (some id)) → id.toNat = D.length + 100000003 ∧ ∀ cs, Stores cs o → encText cs <+: E)
    (hsz : E.length = textSize x)
    (hmeta : ∀ t r, x = (SessionOp.table (.allocMetadata t), .ok r) → E = encText (components t) := by simp +contextual) :
    TabOk (log ++ [x]) (D ++ E) (I ++ (vs.map (fun v => (v, a))).flatMap entryBytes) where
  dhead := by
    obtain ⟨D', rfl⟩ := ok.dhead
    exact ⟨D' ++ E, by simp⟩
  alloc := by
    intro id cs h
    rw [allocated_snoc] at h
    rcases h with h | ⟨o, h1, h2⟩
    · obtain ⟨a, e1, e2, e3⟩ := ok.alloc id cs h
      exact ⟨a, e1, e2, prefix_drop_append E (encText_ne cs) e3⟩
    · obtain ⟨e1, e2⟩ := hal o id h1
      replace e2 := e2 cs h2
      refine ⟨D.length, e1, ?_, ?_⟩
      · obtain ⟨D', rfl⟩ := ok.dhead
        simp [fileHeader, fileHeaderWrites, magicStringData]
      · rw [List.drop_left]
        exact e2
  idx := by
    obtain ⟨idx, h1, h2, h3⟩ := ok.idx
    refine ⟨idx ++ vs.map (fun v => (v, a)), by rw [h1]; simp, ?_, ?_⟩
    · intro e he
      simp at he
      rcases he with he | ⟨v, hvm, rfl⟩
      · exact h2 e he
      · exact (ha (List.ne_nil_of_mem hvm)).1
    · intro v
      rw [collectMap_append_const]
      by_cases hm : v ∈ vs
      · right
        refine ⟨a, by simp [hm], ?_⟩
        have hbv : binds v x = some b := by rw [hb, if_pos hm]
        rcases (ha (List.ne_nil_of_mem hm)).2 with ⟨c, rfl, hc⟩ | ⟨cs, rfl, rfl, hcs⟩
        · exact .inl ⟨c, bound_snoc.mpr (.inl hbv), hc⟩
        · exact .inr ⟨cs, ⟨log, x, [], rfl, hbv, by simp, ok.dsize⟩, hcs⟩
      · have hbv : binds v x = none := by rw [hb, if_neg hm]
        rw [if_neg hm]
        rcases h3 v with ⟨e1, e2⟩ | ⟨a', e1, e2⟩
        · exact .inl ⟨e1, unbound_snoc.mpr ⟨e2, hbv⟩⟩
        · refine .inr ⟨a', e1, ?_⟩
          rcases e2 with ⟨c, e2, e3⟩ | ⟨cs, e2, e4⟩
          · exact .inl ⟨c, bound_snoc.mpr (.inr ⟨hbv, e2⟩), e3⟩
          · exact .inr ⟨cs, e2.snoc hbv, prefix_drop_append E (encText_ne cs) e4⟩
  dsize := by rw [List.length_append, nextAddr_snoc, ok.dsize, hsz]
  ids := by
    intro l1 l2 o id h
    rcases List.eq_nil_or_concat l2 with rfl | ⟨l2', y, rfl⟩
    · obtain ⟨e1, e2⟩ := List.append_inj' h rfl
      simp at e2
      rw [← e1, ← ok.dsize]
      exact (hal o id e2).1
    · rw [List.concat_eq_append, ← List.cons_append, ← List.append_assoc] at h
      exact ok.ids l1 l2' o id (List.append_inj' h rfl).1
  distinct := by
    rw [List.pairwise_append]
    refine ⟨ok.distinct, by simp, ?_⟩
    intro y hy z hz o o' cs cs' i j ho ho' h1 h2
    simp at hz
    subst hz
    obtain ⟨e1, _⟩ := hal o' j h2
    have := ok.addr_lt (id := i) (cs := cs) ⟨o, ho, by rw [← h1]; exact hy⟩
    omega
  virt := by
    intro y hy v b' hyb
    simp at hy
    rcases hy with hy | rfl
    · exact ok.virt y hy v b' hyb
    · rw [hb] at hyb
      split at hyb
      · rename_i hm
        injection hyb with hyb
        subst hyb
        exact hv v hm
      · simp at hyb
  msize := by
    intro t r hm
    simp only [List.mem_append, List.mem_singleton] at hm
    rcases hm with hm | hm
    · have := ok.msize t r hm
      simp only [List.length_append]; omega
    · have e := hmeta t r hm.symm
      obtain ⟨D', rfl⟩ := ok.dhead
      rw [e]
      simp [fileHeader, fileHeaderWrites, magicStringData]
      omega
  after := by
    rw [List.pairwise_append]
    refine ⟨ok.after, by simp, ?_⟩
    intro y hy z hz t r o cs j h1 ho h2
    simp at hz
    subst hz
    obtain ⟨e1, _⟩ := hal o j h2
    have := ok.msize t r (by rw [← h1]; exact hy)
    omega

/-- What the events sink received. -/
def evPayload : SessionOp × Except Fault (Option StringId) → Bytes
  | (.events c, _) => payload c
  | _ => []

/-- Invariant of sessions: the world is that of a well-behaved history whose string streams agree with the log. -/
structure SInv (E0 : Bytes) (log : TableLog) (h : History) (w : World) : Prop where
  good : AllGood h
  sinks : ∀ x ∈ h, x.1 ≤ 2
  world : w = (run profTags h).2
  tab : TabOk log (written 1 h) (written 2 h)
  events : written 0 h = E0 ++ log.flatMap evPayload

theorem written_snoc_same (i : Nat) (h : History) (c : SinkCall) : written i (h ++ [(i, c)]) = written i h ++ payload c := by
  rw [written_append, written_single_same]

theorem written_snoc_other {i j : Nat} (hne : j ≠ i) (h : History) (c : SinkCall) :
    written i (h ++ [(j, c)]) = written i h := by
  rw [written_append, written_single_other hne, List.append_nil]

theorem sinks_snoc {h : History} (hs : ∀ x ∈ h, x.1 ≤ 2) {i : Nat} (hi : i ≤ 2) (c : SinkCall) :
    ∀ x ∈ h ++ [(i, c)], x.1 ≤ 2 := by
  intro x hx
  simp at hx
  rcases hx with hx | rfl
  · exact hs x hx
  · exact hi

theorem SInv.step {E0 : Bytes} {log : TableLog} {h : History} {w : World} (inv : SInv E0 log h w) (o : SessionOp) (ho : GoodOp o) :
    ∃ h', SInv E0 (log ++ [(o, (o.run w).1)]) (h ++ h') (o.run w).2 := by
  obtain ⟨hg, hs, rfl, ok, hev⟩ := inv
  cases o with
  | table o =>
    cases o with
    | alloc t =>
      refine ⟨[(1, .writeAtomic t.serializedSize t.serialize)], ?_⟩
      have hr := alloc_run h hg t
      have e : SessionOp.run (.table (.alloc t)) (run profTags h).2 =
          ((fromAddr (written 1 h).length).map some, (run profTags (h ++ [(1, .writeAtomic t.serializedSize t.serialize)])).2) := by
        simp only [SessionOp.run, TableOp.run]
        rw [Act.bind_apply, hr]
        cases fromAddr (written 1 h).length <;> rfl
      rw [e]
      refine ⟨allGood_snoc hg (alloc_good t), sinks_snoc hs (by decide) _, rfl, ?_, ?_⟩
      · have hstep := ok.step (SessionOp.table (.alloc t), (fromAddr (written 1 h).length).map some)
          (encText (components t)) [] 0 (.text []) (by simp [binds]) (by simp) (by simp) (by
            intro o id heq
            simp only [Prod.mk.injEq] at heq
            obtain ⟨rfl, heq⟩ := heq
            refine ⟨?_, fun cs (hcs : components t = cs) => by rw [hcs]; exact List.prefix_refl _⟩
            match hf : fromAddr (written 1 h).length with
            | .error e => rw [hf] at heq; simp [Except.map] at heq
            | .ok id' =>
              rw [hf] at heq
              simp [Except.map] at heq
              subst heq
              exact fromAddr_ok hf) (by simp [textSize])
        rw [written_snoc_same, alloc_payload, written_snoc_other (by decide)]
        simpa using hstep
      · rw [written_snoc_other (by decide), hev]
        simp [evPayload]
    | allocMetadata t =>
      have h8 : 8 ≤ (written 1 h).length := by
        obtain ⟨D', hd⟩ := ok.dhead
        rw [hd]; simp [fileHeader, fileHeaderWrites, magicStringData]
      rcases allocMetadata_run h hg t with ⟨hlt, hr⟩ | ⟨hlt, why, hr⟩
      · have e : SessionOp.run (.table (.allocMetadata t)) (run profTags h).2 = (.ok none, (run profTags (h ++ [(1, SinkCall.writeAtomic t.serializedSize t.serialize)] ++
            [(2, .writeAtomic 16 (indexEntryFill 100000001 (written 1 h).length))])).2) := by
          simp only [SessionOp.run, TableOp.run]
          rw [Act.bind_ok hr]
          rfl
        refine ⟨[(1, .writeAtomic t.serializedSize t.serialize)] ++
          [(2, .writeAtomic 16 (indexEntryFill 100000001 (written 1 h).length))], ?_⟩
        rw [e, ← List.append_assoc]
        refine ⟨allGood_snoc (allGood_snoc hg (alloc_good t)) (index_good _ _), sinks_snoc (sinks_snoc hs (by decide) _) (by decide) _,
          rfl, ?_, ?_⟩
        · have hstep := ok.step (SessionOp.table (.allocMetadata t), .ok none)
            (encText (components t)) [100000001] (written 1 h).length (.text (components t))
            (by simp [binds]) (by simp) (by
              intro _
              refine ⟨by omega, .inr ⟨_, rfl, rfl, ?_⟩⟩
              rw [List.drop_left]; exact List.prefix_refl _) (by simp) (by simp [textSize])
          rw [written_snoc_other (by decide), written_snoc_same, alloc_payload, written_snoc_same, index_payload,
            written_snoc_other (by decide)]
          simpa [entryBytes] using hstep
        · rw [written_snoc_other (by decide), written_snoc_other (by decide), hev]
          simp [evPayload]
      · have e : SessionOp.run (.table (.allocMetadata t)) (run profTags h).2 = (.error (.panic why), (run profTags (h ++ [(1, SinkCall.writeAtomic t.serializedSize t.serialize)])).2) := by
          simp only [SessionOp.run, TableOp.run]
          rw [Act.bind_error hr]
        refine ⟨[(1, .writeAtomic t.serializedSize t.serialize)], ?_⟩
        rw [e]
        refine ⟨allGood_snoc hg (alloc_good t), sinks_snoc hs (by decide) _, rfl, ?_, ?_⟩
        · have hstep := ok.step (SessionOp.table (.allocMetadata t), .error (.panic why))
            (encText (components t)) [] 0 (.text []) (by simp [binds]) (by simp) (by simp) (by simp) (by simp [textSize])
          rw [written_snoc_same, alloc_payload, written_snoc_other (by decide)]
          simpa using hstep
        · rw [written_snoc_other (by decide), hev]
          simp [evPayload]
    | mapVirtual v c =>
      rcases mapVirtual_run h hg v c with ⟨a, hv, hc, hr⟩ | ⟨_, why, hr⟩
      · have e : SessionOp.run (.table (.mapVirtual v c)) (run profTags h).2 = (.ok none, (run profTags (h ++ [(2, .writeAtomic 16 (indexEntryFill v a))])).2) := by
          simp only [SessionOp.run, TableOp.run]
          rw [Act.bind_ok hr]
          rfl
        refine ⟨[(2, .writeAtomic 16 (indexEntryFill v a))], ?_⟩
        rw [e]
        refine ⟨allGood_snoc hg (index_good _ _), sinks_snoc hs (by decide) _, rfl, ?_, ?_⟩
        · have hstep := ok.step (SessionOp.table (.mapVirtual v c), .ok none) [] [v] a (.concrete c)
            (by intro u; simp [binds]) (by simp; omega)
            (by intro _; exact ⟨by have := c.toNat_lt; omega, .inl ⟨c, rfl, hc⟩⟩) (by simp) (by simp [textSize])
          rw [written_snoc_other (by decide), written_snoc_same, index_payload]
          simpa [entryBytes] using hstep
        · rw [written_snoc_other (by decide), hev]
          simp [evPayload]
      · have e : SessionOp.run (.table (.mapVirtual v c)) (run profTags h).2 = (.error (.panic why), (run profTags h).2) := by
          simp only [SessionOp.run, TableOp.run]
          rw [Act.bind_error hr]
        refine ⟨[], ?_⟩
        rw [e, List.append_nil]
        refine ⟨hg, hs, rfl, ?_, by simp [hev, evPayload]⟩
        have hstep := ok.step (SessionOp.table (.mapVirtual v c), .error (.panic why)) [] [] 0 (.text [])
          (by simp [binds]) (by simp) (by simp) (by simp) (by simp [textSize])
        simpa using hstep
    | bulkMapVirtual vs c =>
      rcases bulkMapVirtual_run h hg vs c with ⟨a, hv, hc, hr⟩ | ⟨_, why, hr⟩
      · have e : SessionOp.run (.table (.bulkMapVirtual vs c)) (run profTags h).2 = (.ok none, (run profTags (h ++ [(2, .writeBytes (vs.flatMap (fun v => entryBytes (v, a))))])).2) := by
          simp only [SessionOp.run, TableOp.run]
          rw [Act.bind_ok hr]
          rfl
        refine ⟨[(2, .writeBytes (vs.flatMap (fun v => entryBytes (v, a))))], ?_⟩
        rw [e]
        refine ⟨allGood_snoc hg trivial, sinks_snoc hs (by decide) _, rfl, ?_, ?_⟩
        · have hstep := ok.step (SessionOp.table (.bulkMapVirtual vs c), .ok none) [] vs a (.concrete c)
            (by intro u; simp [binds])
            (by intro v hm; have := hv v hm; simp; omega)
            (by intro _; exact ⟨by have := c.toNat_lt; omega, .inl ⟨c, rfl, hc⟩⟩) (by simp) (by simp [textSize])
          rw [written_snoc_other (by decide), written_snoc_same]
          simpa [payload, List.flatMap_map] using hstep
        · rw [written_snoc_other (by decide), hev]
          simp [evPayload]
      · have e : SessionOp.run (.table (.bulkMapVirtual vs c)) (run profTags h).2 = (.error (.panic why), (run profTags h).2) := by
          simp only [SessionOp.run, TableOp.run]
          rw [Act.bind_error hr]
        refine ⟨[], ?_⟩
        rw [e, List.append_nil]
        refine ⟨hg, hs, rfl, ?_, by simp [hev, evPayload]⟩
        have hstep := ok.step (SessionOp.table (.bulkMapVirtual vs c), .error (.panic why)) [] [] 0 (.text [])
          (by simp [binds]) (by simp) (by simp) (by simp) (by simp [textSize])
        simpa using hstep
  | custom size fill =>
    obtain ⟨r, hr, hadr⟩ := call_good h hg 1 (.writeAtomic size fill) ho
    have e : SessionOp.run (.custom size fill) (run profTags h).2 =
        ((fromAddr (written 1 h).length).map some, (run profTags (h ++ [(1, .writeAtomic size fill)])).2) := by
      rw [hadr trivial] at hr
      have ha : addrCall dataSink (.writeAtomic size fill) (run profTags h).2 =
          (.ok (written 1 h).length, (run profTags (h ++ [(1, .writeAtomic size fill)])).2) := by
        unfold addrCall
        exact Act.bind_ok hr
      simp only [SessionOp.run]
      rw [Act.bind_ok ha]
      generalize fromAddr (written 1 h).length = x
      cases x <;> rfl
    have hlen : (payload (.writeAtomic size fill)).length = size := by
      obtain ⟨out, h1, h2⟩ := ho
      simp [payload, h1, h2]
    refine ⟨[(1, .writeAtomic size fill)], ?_⟩
    rw [e]
    refine ⟨allGood_snoc hg ho, sinks_snoc hs (by decide) _, rfl, ?_, ?_⟩
    · have hstep := ok.step (SessionOp.custom size fill, (fromAddr (written 1 h).length).map some) (payload (.writeAtomic size fill)) [] 0 (.text [])
        (by simp [binds]) (by simp) (by simp) (by
          intro o id heq
          simp only [Prod.mk.injEq] at heq
          obtain ⟨rfl, heq⟩ := heq
          refine ⟨?_, fun cs ⟨junk, hcs⟩ => by simp [payload, hcs]⟩
          match hf : fromAddr (written 1 h).length with
          | .error e => rw [hf] at heq; simp [Except.map] at heq
          | .ok id' =>
            rw [hf] at heq
            simp [Except.map] at heq
            subst heq
            exact fromAddr_ok hf) (by simp only [textSize]; exact hlen)
      rw [written_snoc_same, written_snoc_other (by decide)]
      simpa using hstep
    · rw [written_snoc_other (by decide), hev]
      simp [evPayload]
  | events c =>
    obtain ⟨r, hr, _⟩ := call_good h hg 0 c ho
    have e : SessionOp.run (.events c) (run profTags h).2 = (.ok none, (run profTags (h ++ [(0, c)])).2) := by
      simp only [SessionOp.run]
      rw [Act.bind_ok hr]
      rfl
    refine ⟨[(0, c)], ?_⟩
    rw [e]
    refine ⟨allGood_snoc hg ho, sinks_snoc hs (by decide) _, rfl, ?_, ?_⟩
    · have hstep := ok.step (SessionOp.events c, .ok none) [] [] 0 (.text []) (by simp [binds]) (by simp) (by simp) (by simp) (by simp [textSize])
      rw [written_snoc_other (by decide), written_snoc_other (by decide)]
      simpa using hstep
    · rw [written_snoc_same, hev]
      simp [evPayload]
  | flush i =>
    obtain ⟨r, hr, _⟩ := call_good h hg i .stdFlush trivial
    have e : SessionOp.run (.flush i) (run profTags h).2 = (.ok none, (run profTags (h ++ [(i, .stdFlush)])).2) := by
      simp only [SessionOp.run]
      rw [Act.bind_ok hr]
      rfl
    refine ⟨[(i, .stdFlush)], ?_⟩
    rw [e]
    have hw : ∀ j, written j (h ++ [(i, .stdFlush)]) = written j h := by
      intro j
      rw [written_append]
      by_cases hj : i = j
      · subst hj; rw [written_single_same]; simp [payload]
      · rw [written_single_other hj]; simp
    refine ⟨allGood_snoc hg trivial, sinks_snoc hs ho _, rfl, ?_, ?_⟩
    · have hstep := ok.step (SessionOp.flush i, .ok none) [] [] 0 (.text []) (by simp [binds]) (by simp) (by simp) (by simp) (by simp [textSize])
      rw [hw, hw]
      simpa using hstep
    · rw [hw, hev]
      simp [evPayload]

theorem SInv.runOps {E0 : Bytes} (ops : List SessionOp) (ho : ∀ o ∈ ops, GoodOp o) :
    ∀ {log : TableLog} {h : History} {w : World}, SInv E0 log h w →
      ∃ h', SInv E0 (log ++ ops.zip (Mm.runOps ops w).1) (h ++ h') (Mm.runOps ops w).2 := by
  induction ops with
  | nil => intro log h w inv; exact ⟨[], by simpa [Mm.runOps] using inv⟩
  | cons o os ih =>
    intro log h w inv
    obtain ⟨h1, inv1⟩ := inv.step o (ho o (by simp))
    obtain ⟨h2, inv2⟩ := ih (fun o hm => ho o (by simp [hm])) inv1
    refine ⟨h1 ++ h2, ?_⟩
    simp only [Mm.runOps, List.zip_cons_cons]
    simpa using inv2

theorem writeAllTo_run (i : Nat) (bs : List Bytes) : ∀ (h : History), AllGood h →
    writeAllTo i bs (run profTags h).2 = (.ok (), (run profTags (h ++ bs.map (fun b => (i, .stdWrite b)))).2) ∧
    AllGood (h ++ bs.map (fun b => (i, .stdWrite b))) := by
  induction bs with
  | nil => intro h hg; simp [writeAllTo]; exact hg
  | cons b bs ih =>
    intro h hg
    obtain ⟨r, hr, _⟩ := call_good h hg i (.stdWrite b) trivial
    obtain ⟨h1, h2⟩ := ih (h ++ [(i, .stdWrite b)]) (allGood_snoc hg (c := .stdWrite b) trivial)
    simp only [writeAllTo]
    rw [Act.bind_ok hr, h1]
    simp only [List.append_assoc, List.singleton_append] at h2 ⊢
    exact ⟨rfl, h2⟩

/-- Creating a builder on fresh string sinks. -/
theorem newBuilder_inv (h : History) (hg : AllGood h) (hs : ∀ x ∈ h, x.1 = 0) :
    ∃ h', (newBuilder (run profTags h).2).1 = .ok () ∧ SInv (written 0 h) [] (h ++ h') (newBuilder (run profTags h).2).2 ∧
      written 1 (h ++ h') = fileHeader magicStringData := by
  obtain ⟨e1, g1⟩ := writeAllTo_run 1 (fileHeaderWrites magicStringData) h hg
  obtain ⟨e2, g2⟩ := writeAllTo_run 2 (fileHeaderWrites magicStringIndex) _ g1
  have e : newBuilder (run profTags h).2 = (.ok (), (run profTags (h ++ (fileHeaderWrites magicStringData).map (fun b => (1, SinkCall.stdWrite b)) ++
      (fileHeaderWrites magicStringIndex).map (fun b => (2, SinkCall.stdWrite b)))).2) := by
    unfold newBuilder
    rw [Act.bind_ok e1, e2]
  have hw : ∀ i, i ≠ 0 → written i h = [] := by
    intro i hi
    simp only [written, List.flatMap_eq_nil_iff, List.mem_filter]
    rintro x ⟨hx, hxi⟩
    have := hs x hx
    simp at hxi
    omega
  refine ⟨(fileHeaderWrites magicStringData).map (fun b => (1, SinkCall.stdWrite b)) ++
      (fileHeaderWrites magicStringIndex).map (fun b => (2, SinkCall.stdWrite b)), by rw [e], ?_, ?_⟩
  swap
  · rw [written_append, hw 1 (by decide)]
    simp [written, fileHeaderWrites, fileHeader, payload]
  rw [e]
  simp only [List.append_assoc] at g2 ⊢
  refine ⟨g2, ?_, rfl, ?_, ?_⟩
  · intro x hx
    simp [fileHeaderWrites] at hx
    rcases hx with hx | rfl | rfl | rfl | rfl
    · have := hs x hx; omega
    all_goals simp
  · have d1 : written 1 (h ++ ((fileHeaderWrites magicStringData).map (fun b => ((1 : Nat), SinkCall.stdWrite b)) ++
        (fileHeaderWrites magicStringIndex).map (fun b => ((2 : Nat), SinkCall.stdWrite b)))) = fileHeader magicStringData := by
      rw [written_append, hw 1 (by decide)]
      simp [written, fileHeaderWrites, fileHeader, payload]
    have d2 : written 2 (h ++ ((fileHeaderWrites magicStringData).map (fun b => ((1 : Nat), SinkCall.stdWrite b)) ++
        (fileHeaderWrites magicStringIndex).map (fun b => ((2 : Nat), SinkCall.stdWrite b)))) = fileHeader magicStringIndex := by
      rw [written_append, hw 2 (by decide)]
      simp [written, fileHeaderWrites, fileHeader, payload]
    rw [d1, d2]
    constructor
    · exact ⟨[], by simp⟩
    · rintro id cs ⟨t, _, ht⟩; simp at ht
    · exact ⟨[], by simp, by simp, fun v => .inl ⟨rfl, by simp [Unbound]⟩⟩
    · simp [nextAddr, fileHeader, fileHeaderWrites, magicStringData]
    · simp
    · simp
    · simp
    · simp
    · simp
  · rw [written_append]
    simp [written, fileHeaderWrites]

theorem session_inv (ops : List SessionOp) (ho : ∀ o ∈ ops, GoodOp o) :
    ∃ h, SInv [] (logOf ops) h (session ops).2 := by
  obtain ⟨h0, _, inv0, _⟩ := newBuilder_inv [] (by simp [AllGood]) (by simp)
  have inv0' : SInv [] [] ([] ++ h0) (newBuilder World.init).2 := by
    have : (run profTags []).2 = World.init := rfl
    rw [this] at inv0
    exact inv0
  obtain ⟨h1, inv⟩ := SInv.runOps ops ho inv0'
  refine ⟨[] ++ h0 ++ h1, ?_⟩
  simpa [logOf, session] using inv

/-! ### Loading -/

theorem chunksAux_entries (idx : List (StringId × Nat)) (fuel : Nat) (hf : (idx.flatMap entryBytes).length ≤ fuel) :
    chunksAux fuel 16 (idx.flatMap entryBytes) = idx.map entryBytes := by
  induction idx generalizing fuel with
  | nil => cases fuel <;> simp [chunksAux]
  | cons e idx ih =>
    have hlen : (entryBytes e).length = 16 := by simp [entryBytes]
    rw [List.flatMap_cons] at hf ⊢
    match fuel with
    | 0 => simp [hlen] at hf
    | fuel + 1 =>
      have hne : entryBytes e ++ idx.flatMap entryBytes ≠ [] := by
        intro h
        have := congrArg List.length h
        simp [hlen] at this
      have ht : (entryBytes e ++ idx.flatMap entryBytes).take 16 = entryBytes e := by rw [← hlen, List.take_left]
      have hd : (entryBytes e ++ idx.flatMap entryBytes).drop 16 = idx.flatMap entryBytes := by rw [← hlen, List.drop_left]
      simp only [chunksAux, if_neg hne]
      rw [ht, hd, ih fuel (by simp only [List.length_append, hlen] at hf; omega)]
      rfl

theorem deserialize_entry (e : StringId × Nat) (h : e.2 < 18446744073709551616) : deserializeIndexEntry (entryBytes e) = e := by
  obtain ⟨v, a⟩ := e
  have h1 : fromLe (leBytes 8 v.toNat) = v.toNat := fromLe_leBytes_of_lt (by have := v.toNat_lt; simpa using this)
  have h2 : fromLe (leBytes 8 a) = a := fromLe_leBytes_of_lt (by simpa using h)
  have t1 : ((leBytes 8 v.toNat ++ leBytes 8 a).take 8).drop 0 = leBytes 8 v.toNat := by
    rw [List.drop_zero, List.take_left' (by simp)]
  have t2 : ((leBytes 8 v.toNat ++ leBytes 8 a).take 16).drop 8 = leBytes 8 a := by
    rw [List.take_of_length_le (by simp), List.drop_left' (by simp)]
  simp only [deserializeIndexEntry, entryBytes, t1, t2, h1, h2]
  simp

theorem entries_length (idx : List (StringId × Nat)) : (idx.flatMap entryBytes).length = 16 * idx.length := by
  induction idx with
  | nil => rfl
  | cons e idx ih =>
    rw [List.flatMap_cons, List.length_append, ih]
    simp [entryBytes]
    omega

theorem table_new (D' : Bytes) (idx : List (StringId × Nat)) (h : ∀ e ∈ idx, e.2 < 18446744073709551616) :
    StringTable.new diag (fileHeader magicStringData ++ D') (fileHeader magicStringIndex ++ idx.flatMap entryBytes) =
      .ok ⟨fileHeader magicStringData ++ D', collectMap idx⟩ := by
  obtain ⟨v1, _, _⟩ := C11_write_then_verify magicStringData D' rfl
  obtain ⟨v2, _, v3⟩ := C11_write_then_verify magicStringIndex (idx.flatMap entryBytes) rfl
  have hlen : (fileHeader magicStringIndex ++ idx.flatMap entryBytes).length - fileHeaderSize = 16 * idx.length := by
    rw [List.length_append, entries_length]
    simp [fileHeader, fileHeaderWrites, magicStringIndex, fileHeaderSize]
  unfold StringTable.new
  rw [v1, v2, v3, hlen]
  simp only [bind, Except.bind]
  rw [if_neg (by simp)]
  have : (chunks 16 (idx.flatMap entryBytes)).map deserializeIndexEntry = idx := by
    rw [chunks, chunksAux_entries idx _ (Nat.le_refl _), List.map_map]
    conv => rhs; rw [← List.map_id idx]
    apply List.map_congr_left
    intro e he
    exact deserialize_entry e (h e he)
  rw [this]

theorem tagUnshared_prof {h : History} (hs : ∀ x ∈ h, x.1 ≤ 2) {i : Nat} (hi : i ≤ 2) : TagUnshared profTags i h := by
  intro x hx ht
  have := hs x hx
  have key : ∀ a b : Nat, a ≤ 2 → b ≤ 2 → profTags a = profTags b → a = b := by
    intro a b ha hb
    have ha' : a = 0 ∨ a = 1 ∨ a = 2 := by omega
    have hb' : b = 0 ∨ b = 1 ∨ b = 2 := by omega
    rcases ha' with rfl | rfl | rfl <;> rcases hb' with rfl | rfl | rfl <;> simp [profTags]
  exact key _ _ this hi ht

/-- The history that ends a session: the three sinks are dropped. -/
def drops : History := [(0, .drop), (1, .drop), (2, .drop)]

/-- After dropping the sinks, splitting the store gives back the three streams. -/
theorem SInv.saved {E0 : Bytes} {log : TableLog} {h : History} {w : World} (inv : SInv E0 log h w) :
    ∃ m, splitStreams (World.exec profTags drops w).2.store.data = .ok m ∧
      (m .events).getD [] = E0 ++ log.flatMap evPayload ∧ m .stringData = some (written 1 h) ∧ m .stringIndex = some (written 2 h) ∧
      (E0 ≠ [] → m .events = some (E0 ++ log.flatMap evPayload)) := by
  have e : (World.exec profTags drops w).2.store.data = storeAfter profTags (h ++ drops) := by
    simp [storeAfter, run, exec_append, inv.world]
  have hg : AllGood (h ++ drops) := by
    intro x hx
    simp [drops] at hx
    rcases hx with hx | rfl | rfl | rfl
    · exact inv.good x hx
    all_goals trivial
  have hs : ∀ x ∈ h ++ drops, x.1 ≤ 2 := by
    intro x hx
    simp [drops] at hx
    rcases hx with hx | rfl | rfl | rfl
    · exact inv.sinks x hx
    all_goals simp
  obtain ⟨m, hm, hst⟩ := C01_split_recovers_streams profTags (h ++ drops) hg
  have hw : ∀ i, written i (h ++ drops) = written i h := by
    intro i
    rw [written_append]
    have : written i drops = [] := by
      simp only [written, List.flatMap_eq_nil_iff, List.mem_filter, drops]
      rintro x ⟨hx, _⟩
      simp at hx
      rcases hx with rfl | rfl | rfl <;> rfl
    rw [this, List.append_nil]
  have f0 : Flushed 0 (h ++ drops) := .inr ⟨h, .drop, [(1, .drop), (2, .drop)], rfl, trivial, by simp⟩
  have f1 : Flushed 1 (h ++ drops) := .inr ⟨h ++ [(0, .drop)], .drop, [(2, .drop)], by simp [drops], trivial, by simp⟩
  have f2 : Flushed 2 (h ++ drops) := .inr ⟨h ++ [(0, .drop), (1, .drop)], .drop, [], by simp [drops], trivial, by simp⟩
  have m0 := hst 0 (tagUnshared_prof hs (by decide)) f0
  have m1 := hst 1 (tagUnshared_prof hs (by decide)) f1
  have m2 := hst 2 (tagUnshared_prof hs (by decide)) f2
  rw [hw] at m0 m1 m2
  refine ⟨m, by rw [e]; exact hm, ?_, ?_, ?_, ?_⟩
  · have : m .events = _ := m0
    rw [this, inv.events]
    split <;> simp_all
  · have : m .stringData = _ := m1
    rw [this, if_neg]
    obtain ⟨D', hd⟩ := inv.tab.dhead
    rw [hd]; simp [fileHeader, fileHeaderWrites, magicStringData]
  · have : m .stringIndex = _ := m2
    rw [this, if_neg]
    obtain ⟨idx, hd, _⟩ := inv.tab.idx
    rw [hd]; simp [fileHeader, fileHeaderWrites, magicStringIndex]
  · intro hne
    have : m .events = _ := m0
    rw [this, inv.events, if_neg]
    simp [hne]

/-- How a loaded table relates to a log. -/
structure TabRel (log : TableLog) (t : StringTable) : Prop where
  entry : ∀ id cs, Entry log id cs → ∃ a, t.getAddr id = .ok (some a) ∧ 8 ≤ a ∧ encText cs <+: t.stringData.drop a ∧
    (∀ c, (c = id ∨ Bound log id (.concrete c)) → Allocated log c cs → c.toNat = a + 100000003)
  unknown : ∀ id, Unknown log id → t.getAddr id = .ok none
  located : ∀ id a cs, StoredAt log id a cs → t.getAddr id = .ok (some a)

theorem isVirtual_iff (id : StringId) : isVirtual id = true ↔ id.toNat ≤ 100000001 := by
  simp [isVirtual, metadata_eq, UInt64.le_iff_toNat_le]

theorem invalid_iff (id : StringId) : id = invalidStringId ↔ id.toNat = 100000002 := by
  rw [← UInt64.toNat_inj]
  rfl

theorem getAddr_regular (t : StringTable) {id : StringId} {a : Nat} (h : id.toNat = a + 100000003) :
    t.getAddr id = .ok (some a) := by
  unfold StringTable.getAddr
  rw [if_neg (by rw [isVirtual_iff]; omega), if_neg (by rw [invalid_iff]; omega), toAddr_iff.mpr h]

theorem getAddr_virtual (t : StringTable) {id : StringId} (h : id.toNat ≤ 100000001) :
    t.getAddr id = .ok (t.index id) := by
  unfold StringTable.getAddr
  rw [if_pos (by rw [isVirtual_iff]; omega)]

theorem bound_mem {log : TableLog} {v} {b} (h : Bound log v b) : ∃ x ∈ log, binds v x = some b := by
  obtain ⟨l1, x, l2, rfl, hx, _⟩ := h
  exact ⟨x, by simp, hx⟩

/-- The last element failing `p` is at one place only. -/
theorem last_unique {α : Type} {p : α → Prop} {l1 l2 l1' l2' : List α} {x x' : α} (h : l1 ++ x :: l2 = l1' ++ x' :: l2')
    (hx : ¬ p x) (h2 : ∀ y ∈ l2, p y) (hx' : ¬ p x') (h2' : ∀ y ∈ l2', p y) : l1 = l1' := by
  rcases List.append_eq_append_iff.mp h with ⟨a, e1, e2⟩ | ⟨a, e1, e2⟩
  · cases a with
    | nil => simpa using e1.symm
    | cons y a =>
      simp at e2
      exact (hx' (h2 x' (by rw [e2.2]; simp))).elim
  · cases a with
    | nil => simpa using e1
    | cons y a =>
      simp at e2
      exact (hx (h2' x (by rw [e2.2]; simp))).elim

theorem TabOk.rel {log : TableLog} {D I : Bytes} (ok : TabOk log D I) :
    ∃ t, (∀ diag, StringTable.new diag D I = .ok t) ∧ t.stringData = D ∧ TabRel log t := by
  obtain ⟨D', hD⟩ := ok.dhead
  obtain ⟨idx, hI, hlt, hmap⟩ := ok.idx
  refine ⟨⟨D, collectMap idx⟩, ?_, rfl, ?_⟩
  · rw [hI, hD]
    exact fun _ => table_new D' idx hlt
  · constructor
    · intro id cs he
      rcases he with he | ⟨c, hb, hc⟩ | hb
      · obtain ⟨a, h1, h2, h3⟩ := ok.alloc id cs he
        refine ⟨a, getAddr_regular _ h1, h2, h3, ?_⟩
        rintro c (rfl | hb) _
        · exact h1
        · obtain ⟨x, hx, hbx⟩ := bound_mem hb
          have := (ok.virt x hx id _ hbx).1
          omega
      · obtain ⟨x, hx, hbx⟩ := bound_mem hb
        have hv := (ok.virt x hx id _ hbx).1
        obtain ⟨a, h1, h2, h3⟩ := ok.alloc c cs hc
        refine ⟨a, ?_, h2, h3, ?_⟩
        · rw [getAddr_virtual _ hv]
          rcases hmap id with ⟨_, hu⟩ | ⟨a', ha', ⟨c', hb', hc'⟩ | ⟨cs', ht', _⟩⟩
          · exact (unbound_bound hu hb).elim
          · have := bound_unique hb hb'
            injection this with this
            subst this
            have : a = a' := by omega
            subst this
            simpa using ha'
          · have := bound_unique hb ht'.bound
            simp at this
        · rintro c' (rfl | hb') hal
          · obtain ⟨a', h1', _⟩ := ok.alloc _ cs hal
            omega
          · have := bound_unique hb hb'
            injection this with this
            subst this
            exact h1
      · obtain ⟨x, hx, hbx⟩ := bound_mem hb
        have hv := (ok.virt x hx id _ hbx).1
        rcases hmap id with ⟨_, hu⟩ | ⟨a', ha', ⟨c', hb', hc'⟩ | ⟨cs', ht', hp⟩⟩
        · exact (unbound_bound hu hb).elim
        · have := bound_unique hb hb'
          simp at this
        · have := bound_unique hb ht'.bound
          injection this with this
          subst this
          refine ⟨a', ?_, ht'.ge, hp, ?_⟩
          · rw [getAddr_virtual _ hv]
            simpa using ha'
          · rintro c' (rfl | hb') hal
            · obtain ⟨a', h1', _⟩ := ok.alloc _ _ hal
              omega
            · have := bound_unique hb hb'
              simp at this
    · intro id hu
      rcases hu with ⟨hle, hu⟩ | he
      · rw [getAddr_virtual _ hle]
        rcases hmap id with ⟨hn, _⟩ | ⟨a', ha', ⟨c', hb', hc'⟩ | ⟨cs', ht', _⟩⟩
        · simpa using hn
        · exact (unbound_bound hu hb').elim
        · exact (unbound_bound hu ht'.bound).elim
      · unfold StringTable.getAddr
        rw [if_neg (by rw [isVirtual_iff]; omega), if_pos (by rw [invalid_iff]; omega)]
    · intro id a cs hl
      cases hl with
      | allocated _ h1 => exact getAddr_regular _ h1
      | mapped hb _ h1 =>
        obtain ⟨x, hx, hbx⟩ := bound_mem hb
        have hv := (ok.virt x hx id _ hbx).1
        rw [getAddr_virtual _ hv]
        rcases hmap id with ⟨_, hu⟩ | ⟨a', ha', ⟨c', hb', hc'⟩ | ⟨cs', ht', _⟩⟩
        · exact (unbound_bound hu hb).elim
        · have := bound_unique hb hb'
          injection this with this
          subst this
          have : a = a' := by omega
          subst this
          simpa using ha'
        · have := bound_unique hb ht'.bound
          simp at this
      | @metadata l1 l2 t' r hl hn =>
        have hb : Bound log 100000001 (.text (components t')) := ⟨l1, _, l2, hl, by simp [binds], hn⟩
        rw [getAddr_virtual _ (by decide)]
        rcases hmap 100000001 with ⟨_, hu⟩ | ⟨a', ha', ⟨c', hb', hc'⟩ | ⟨cs', ⟨l1', x, l2', e1, e2, e3, e4⟩, _⟩⟩
        · exact (unbound_bound hu hb).elim
        · have := bound_unique hb hb'
          simp at this
        · have : l1 = l1' := last_unique (p := fun y => binds 100000001 y = none) (hl.symm.trans e1) (by simp [binds]) hn (by simp [e2]) e3
          show Except.ok (collectMap idx 100000001) = _
          rw [ha', e4, this]

/-- The references of an entry. -/
def refsOf (cs : List StringComponent) : List StringId := cs.filterMap fun | .ref r => some r | .value _ => none

/-- The references in an encoded entry. -/
def scan : Nat → Bytes → List StringId
  | 0, _ => []
  | _ + 1, [] => []
  | n + 1, b :: rest => if b = 0xFF then [] else if b = 0xFE then UInt64.ofNat (fromLe (rest.take 8)) :: scan n (rest.drop 8) else scan n rest

theorem scan_skip (v : Bytes) (hv : ∀ b ∈ v, b ≠ 0xFF ∧ b ≠ 0xFE) (n : Nat) (Y : Bytes) : scan (v.length + n) (v ++ Y) = scan n Y := by
  induction v with
  | nil => simp
  | cons b v ih =>
    have := hv b (by simp)
    rw [List.length_cons, show v.length + 1 + n = (v.length + n) + 1 by omega, List.cons_append, scan, if_neg this.1, if_neg this.2]
    exact ih fun x hx => hv x (by simp [hx])

theorem scan_encText (cs : List StringComponent) (Y : Bytes) : ∃ k, ∀ n, scan (k + n) (encText cs ++ Y) = refsOf cs := by
  induction cs with
  | nil =>
    refine ⟨1, fun n => ?_⟩
    rw [show 1 + n = n + 1 by omega]
    rfl
  | cons c cs ih =>
    obtain ⟨k, ih⟩ := ih
    cases c with
    | value s =>
      refine ⟨(utf8 s).length + k, fun n => ?_⟩
      rw [show encText (.value s :: cs) ++ Y = utf8 s ++ (encText cs ++ Y) by simp [encText, encComponent], Nat.add_assoc, scan_skip, ih]
      · rfl
      · intro b hb
        have := utf8_bytes_lt s b hb
        constructor <;> (rintro rfl; simp at this)
    | ref r =>
      refine ⟨k + 1, fun n => ?_⟩
      rw [show encText (.ref r :: cs) ++ Y = 0xFE :: (leBytes 8 r.toNat ++ (encText cs ++ Y)) by simp [encText, encComponent], show k + 1 + n = (k + n) + 1 by omega, scan,
        if_neg (by decide), if_pos rfl, List.take_left' (by simp), List.drop_left' (by simp), ih, u64_le]
      rfl

/-- What is stored at an address determines the references of the entry. -/
theorem refs_determined {cs cs' : List StringComponent} {X : Bytes} (h : encText cs <+: X) (h' : encText cs' <+: X) : refsOf cs = refsOf cs' := by
  obtain ⟨Y, rfl⟩ := h
  obtain ⟨Y', h'⟩ := h'
  obtain ⟨k, hk⟩ := scan_encText cs Y
  obtain ⟨k', hk'⟩ := scan_encText cs' Y'
  rw [← hk k', ← hk' k, h', Nat.add_comm]

/-- Two entries of an id have the same references. -/
theorem TabRel.entry_refs {log : TableLog} {t : StringTable} (rel : TabRel log t) {id : StringId} {cs cs' : List StringComponent}
    (h : Entry log id cs) (h' : Entry log id cs') (r : StringId) : .ref r ∈ cs ↔ .ref r ∈ cs' := by
  obtain ⟨a, h1, _, h2, _⟩ := rel.entry id cs h
  obtain ⟨a', h1', _, h2', _⟩ := rel.entry id cs' h'
  rw [h1] at h1'
  injection h1' with h1'
  injection h1' with h1'
  subst h1'
  have hm : ∀ l : List StringComponent, .ref r ∈ l ↔ r ∈ refsOf l := by
    intro l
    simp only [refsOf, List.mem_filterMap]
    constructor
    · intro h; exact ⟨_, h, rfl⟩
    · rintro ⟨c, hc, e⟩
      cases c with
      | value s => simp at e
      | ref q => simp at e; exact e ▸ hc
  rw [hm, hm, refs_determined h2 h2']

end Verif.Mm
