import Verif.Spec.ProfPanics
import Verif.Proofs.Panics
import Verif.Proofs.ConcProfiler
import Verif.Proofs.Crash

/-!
# Profilers given values whose `serialize` panics
-/

namespace Verif.Mm

open Verif Verif.Spec Verif.Conc

/-- The sink call of a call on the profiler cannot fail, answers an address and stores the text of a string. -/
theorem request_good (l : Locals) (c : ProfCall) :
    (∃ a, request l c = .done a ∧ textLeft (.call c) = []) ∨
    ∃ q k, request l c = .sink q k ∧ Good q.2 ∧ ReturnsAddr q.2 ∧ q.1 ≤ 2 ∧ ¬ Flushes q.2 ∧ written 1 [q] = textLeft (.call c) := by
  have hrec : ∀ e : Except Fault RawEvent, (∃ a, record e = .done a) ∨ ∃ q k, record e = .sink q k ∧ Good q.2 ∧ ReturnsAddr q.2 ∧ q.1 ≤ 2 ∧ ¬ Flushes q.2 ∧ written 1 [q] = [] := by
    intro e
    cases e with
    | error f => exact .inl ⟨_, rfl⟩
    | ok raw => exact .inr ⟨_, _, rfl, rawEvent_good raw, trivial, by simp, fun h => h, by simp [written]⟩
  have lift : ∀ e : Except Fault RawEvent, request l c = record e → textLeft (.call c) = [] →
      (∃ a, request l c = .done a ∧ textLeft (.call c) = []) ∨
      ∃ q k, request l c = .sink q k ∧ Good q.2 ∧ ReturnsAddr q.2 ∧ q.1 ≤ 2 ∧ ¬ Flushes q.2 ∧ written 1 [q] = textLeft (.call c) := by
    intro e he ht
    rw [he, ht]
    rcases hrec e with ⟨a, ha⟩ | h
    · exact .inl ⟨a, ha, rfl⟩
    · exact .inr h
  cases c with
  | allocString t =>
    exact .inr ⟨_, _, rfl, alloc_good t, trivial, by simp, fun h => h, by rw [written_single_same]; exact alloc_payload t⟩
  | allocForeign b =>
    exact .inr ⟨_, _, rfl, ⟨b, rfl, rfl⟩, trivial, by simp, fun h => h, by rw [written_single_same]; rfl⟩
  | mapVirtual v c =>
    simp only [request]
    split
    · split
      · exact .inl ⟨_, rfl, rfl⟩
      · exact .inr ⟨_, _, rfl, index_good _ _, trivial, by simp, fun h => h, by simp [written, textLeft]⟩
    · exact .inl ⟨_, rfl, rfl⟩
  | bulkMapVirtual vs c =>
    simp only [request]
    split
    · exact .inl ⟨_, rfl, rfl⟩
    · split
      · exact .inl ⟨_, rfl, rfl⟩
      · exact .inr ⟨_, _, rfl, trivial, trivial, by simp, fun h => h, by simp [written, textLeft]⟩
  | instant k id t now => exact lift _ rfl rfl
  | integer k id t v => exact lift _ rfl rfl
  | start g k id t now => exact .inl ⟨_, rfl, rfl⟩
  | startDetached g k id t now => exact .inl ⟨_, rfl, rfl⟩
  | finish g now =>
    cases hg : l.guards g with
    | none => exact .inl ⟨_, by simp only [request, hg]; rfl, rfl⟩
    | some gd => exact lift _ (by simp only [request, hg]; rfl) rfl
  | finishOverride g id now =>
    cases hg : l.guards g with
    | none => exact .inl ⟨_, by simp only [request, hg]; rfl, rfl⟩
    | some gd => exact lift _ (by simp only [request, hg]; rfl) rfl
  | finishDetached g now =>
    cases hg : l.detached g with
    | none => exact .inl ⟨_, by simp only [request, hg]; rfl, rfl⟩
    | some d => exact lift _ (by simp only [request, hg]; rfl) rfl

/-- The state `s` with panics and the state `s'` without. -/
structure Alike (s s' : ProfState) (h h' : History) : Prop where
  guards : s.guards = s'.guards
  detached : s.detached = s'.detached
  world : s.world = (run profTags h).2
  world' : s'.world = (run profTags h').2
  kept : AllLengthsKept h
  good : AllGood h'
  sinks : ∀ x ∈ h, x.1 ≤ 2
  sinks' : ∀ x ∈ h', x.1 ≤ 2
  wr : ∀ i, written i h = written i h'
  left : ∀ i, i ≠ 1 → leftBehind i h = written i h'

theorem kept_of_good {c : SinkCall} (hg : Good c) (num : Nat) (fill : Fill) (hc : c = .writeAtomic num fill) (out : Bytes) :
    (fill (List.replicate num 0) = .ok out → out.length = num) ∧ ∀ e, fill (List.replicate num 0) = .error (e, out) → out.length = num := by
  subst hc
  obtain ⟨o, h1, h2⟩ := hg
  rw [h1]
  exact ⟨fun h => by injection h with h; rw [← h, h2], fun e h => by cases h⟩

theorem Alike.call {s s' : ProfState} {h h' : History} (al : Alike s s' h h') (c : ProfCall) :
    ∃ g, (c.run s).1 = (c.run s').1 ∧ Alike (c.run s).2 (c.run s').2 (h ++ g) (h' ++ g) ∧ leftBehind 1 g = textLeft (.call c) ∧ written 1 g = textLeft (.call c) := by
  rw [request_run, request_run, ← al.guards, ← al.detached]
  rcases request_good ⟨s.guards, s.detached⟩ c with ⟨a, hr, ht⟩ | ⟨q, k, hr, hg, hra, hq, _, ht⟩
  · refine ⟨[], ?_, ?_, by rw [ht]; rfl, by rw [ht]; rfl⟩
    · rw [hr]; rfl
    · rw [hr, List.append_nil, List.append_nil]
      exact ⟨rfl, rfl, al.world, al.world', al.kept, al.good, al.sinks, al.sinks', al.wr, al.left⟩
  · obtain ⟨i, cc⟩ := q
    have hw : (World.call profTags i cc s.world).2 = (run profTags (h ++ [(i, cc)])).2 := by rw [al.world, run_snoc]
    have hw' : (World.call profTags i cc s'.world).2 = (run profTags (h' ++ [(i, cc)])).2 := by rw [al.world', run_snoc]
    have hl : ∀ j, leftBehind j [(i, cc)] = written j [(i, cc)] := by
      intro j
      by_cases hj : i = j
      · subst hj; rw [leftBehind_same, written_single_same, leaves_good hg]
      · rw [leftBehind_other hj, written_single_other hj]
    refine ⟨[(i, cc)], ?_, ?_, by rw [hl]; exact ht, ht⟩
    · rw [hr]
      simp only [Request.perform]
      congr 1
      obtain ⟨pages, inv⟩ := panics_inv profTags h al.kept
      obtain ⟨r, w, p, h1, _, _, h2⟩ := inv.step i cc (fun n f hc o => kept_of_good hg n f hc o)
      obtain ⟨pages', inv'⟩ := panics_inv profTags h' (fun x hx => fun n f hc o => kept_of_good (al.good x hx) n f hc o)
      obtain ⟨r', w', p', h1', _, _, h2'⟩ := inv'.step i cc (fun n f hc o => kept_of_good hg n f hc o)
      have hn : ∀ e, ¬ CallbackPanics cc e := by
        rintro e ⟨n, f, part, rfl, hf⟩
        obtain ⟨o, ho, _⟩ := hg
        rw [ho] at hf
        cases hf
      obtain ⟨a, e1, e2⟩ := h2 hn
      obtain ⟨a', e1', e2'⟩ := h2' hn
      rw [al.world, al.world', h1, h1', e1, e1', e2 hra, e2' hra, al.wr]
    · rw [hr]
      simp only [Request.perform]
      refine ⟨rfl, rfl, hw, hw', ?_, ?_, ?_, ?_, ?_, ?_⟩
      · intro x hx n f hc o
        rcases List.mem_append.mp hx with hx | hx
        · exact al.kept x hx n f hc o
        · rw [List.mem_singleton.mp hx] at hc
          exact kept_of_good hg n f hc o
      · exact allGood_snoc al.good hg
      · intro x hx
        rcases List.mem_append.mp hx with hx | hx
        · exact al.sinks x hx
        · rw [List.mem_singleton.mp hx]; exact hq
      · intro x hx
        rcases List.mem_append.mp hx with hx | hx
        · exact al.sinks' x hx
        · rw [List.mem_singleton.mp hx]; exact hq
      · intro j
        rw [written_append, written_append, al.wr]
      · intro j hj
        rw [leftBehind_append, written_append, al.left j hj, hl]

theorem panics_run (e : Fault) (part : Bytes) (w : World) (w' : World)
    (h : World.call profTags 1 (.writeAtomic part.length (fun _ => .error (e, part))) w = (.error e, w')) :
    (SessionOp.custom part.length (fun _ => .error (e, part))).run w = (.error e, w') := by
  unfold SessionOp.run
  simp only
  rw [bind_gen', addrCall_eq]
  simp only [dataSink, h]

theorem Alike.panics {s s' : ProfState} {h h' : History} (al : Alike s s' h h') (e : Fault) (part : Bytes) :
    ∃ g, ((ProfAct.panics e part).run s).1 = .error e ∧ Alike ((ProfAct.panics e part).run s).2 s' (h ++ g) h' ∧ leftBehind 1 g = textLeft (.panics e part) := by
  let c : SinkCall := .writeAtomic part.length (fun _ => .error (e, part))
  have hk : ∀ num fill, c = .writeAtomic num fill → ∀ out, (fill (List.replicate num 0) = .ok out → out.length = num) ∧
      ∀ e, fill (List.replicate num 0) = .error (e, out) → out.length = num := by
    intro n f hc o
    simp only [c, SinkCall.writeAtomic.injEq] at hc
    obtain ⟨rfl, rfl⟩ := hc
    constructor
    · intro h
      cases h
    · intro e h
      cases h
      rfl
  obtain ⟨pages, inv⟩ := panics_inv profTags h al.kept
  obtain ⟨r, w, p, h1, _, h2, _⟩ := inv.step 1 c hk
  have hr := h2 e ⟨_, _, part, rfl, rfl⟩
  subst hr
  have hw : w = (run profTags (h ++ [(1, c)])).2 := by rw [← run_snoc, h1]
  have hrun := panics_run e part s.world w (by rw [al.world]; exact h1)
  have hpay : payload c = [] := rfl
  refine ⟨[(1, c)], by simp only [ProfAct.run, onWorld, hrun], ?_, ?_⟩
  · simp only [ProfAct.run, onWorld, hrun]
    refine ⟨al.guards, al.detached, hw, al.world', ?_, al.good, ?_, al.sinks', ?_, ?_⟩
    · intro x hx n f hc o
      rcases List.mem_append.mp hx with hx | hx
      · exact al.kept x hx n f hc o
      · rw [List.mem_singleton.mp hx] at hc
        exact hk n f hc o
    · intro x hx
      rcases List.mem_append.mp hx with hx | hx
      · exact al.sinks x hx
      · rw [List.mem_singleton.mp hx]; simp
    · intro j
      rw [written_append, ← al.wr]
      by_cases hj : 1 = j
      · subst hj; rw [written_single_same, hpay, List.append_nil]
      · rw [written_single_other hj, List.append_nil]
    · intro j hj
      rw [leftBehind_append, leftBehind_other (Ne.symm hj), List.append_nil, al.left j hj]
  · rw [leftBehind_same]
    rfl

theorem Alike.run {s s' : ProfState} {h h' : History} (al : Alike s s' h h') (acts : List ProfAct) :
    ∃ g g', Alike (runActs acts s).2 (runProf (callsOf acts) s').2 (h ++ g) (h' ++ g') ∧ leftBehind 1 g = acts.flatMap textLeft ∧
      written 1 g' = ((callsOf acts).map ProfAct.call).flatMap textLeft ∧
      callAnswers acts (runActs acts s).1 = (runProf (callsOf acts) s').1 ∧ (runActs acts s).1.length = acts.length ∧
      ∀ (k : Nat) (e : Fault) (part : Bytes), acts[k]? = some (.panics e part) → (runActs acts s).1[k]? = some (.error e) := by
  induction acts generalizing s s' h h' with
  | nil => exact ⟨[], [], by simpa [runActs, callsOf, runProf] using al, rfl, rfl, rfl, rfl, by simp⟩
  | cons a acts ih =>
    cases a with
    | call c =>
      obtain ⟨g, h1, al1, h2, h3⟩ := al.call c
      obtain ⟨g1, g1', al2, e1, e2, e3, e4, e5⟩ := ih al1
      refine ⟨g ++ g1, g ++ g1', ?_, ?_, ?_, ?_, ?_, ?_⟩
      · rw [← List.append_assoc, ← List.append_assoc]
        exact al2
      · rw [leftBehind_append, h2, e1]; rfl
      · rw [written_append, h3, e2]; rfl
      · have : callAnswers (.call c :: acts) (runActs (.call c :: acts) s).1 = (c.run s).1 :: callAnswers acts (runActs acts (c.run s).2).1 := rfl
        rw [this, e3, h1]; rfl
      · simp only [runActs, List.length_cons]
        exact congrArg (· + 1) e4
      · intro k e part hk
        cases k with
        | zero => simp at hk
        | succ k =>
          rw [List.getElem?_cons_succ] at hk
          simp only [runActs, List.getElem?_cons_succ]
          exact e5 k e part hk
    | panics e part =>
      obtain ⟨g, h1, al1, h2⟩ := al.panics e part
      obtain ⟨g1, g1', al2, e1, e2, e3, e4, e5⟩ := ih al1
      refine ⟨g ++ g1, g1', ?_, ?_, ?_, ?_, ?_, ?_⟩
      · rw [← List.append_assoc]
        exact al2
      · rw [leftBehind_append, h2, e1]; rfl
      · rw [e2]; rfl
      · have : callAnswers (.panics e part :: acts) (runActs (.panics e part :: acts) s).1 = callAnswers acts (runActs acts ((ProfAct.panics e part).run s).2).1 := rfl
        rw [this, e3]; rfl
      · simp only [runActs, List.length_cons]
        exact congrArg (· + 1) e4
      · intro k e' part' hk
        cases k with
        | zero =>
          simp only [List.getElem?_cons_zero, Option.some.injEq, ProfAct.panics.injEq] at hk
          obtain ⟨rfl, rfl⟩ := hk
          simp only [runActs, List.getElem?_cons_zero, h1]
        | succ k =>
          rw [List.getElem?_cons_succ] at hk
          simp only [runActs, List.getElem?_cons_succ]
          exact e5 k e' part' hk

theorem creation_good (md : String) : AllGood (creation md) ∧ (∀ x ∈ creation md, x.1 ≤ 2) ∧ written 1 (creation md) = fileHeader magicStringData ++ encText [.value md] := by
  refine ⟨?_, ?_, ?_⟩
  · intro x hx
    simp only [creation, fileHeaderWrites, List.map_cons, List.map_nil, List.mem_append, List.mem_cons, List.not_mem_nil, or_false] at hx
    rcases hx with ((((rfl | rfl) | rfl | rfl) | rfl | rfl) | rfl | rfl)
    all_goals first | trivial | exact alloc_good _ | exact index_good _ _
  · intro x hx
    simp only [creation, fileHeaderWrites, List.map_cons, List.map_nil, List.mem_append, List.mem_cons, List.not_mem_nil, or_false] at hx
    rcases hx with ((((rfl | rfl) | rfl | rfl) | rfl | rfl) | rfl | rfl) <;> simp
  · have e : written 1 [(1, .writeAtomic (Text.str md).serializedSize (Text.str md).serialize),
        (2, .writeAtomic 16 (indexEntryFill metadataStringId (fileHeader magicStringData).length))] = encText [.value md] := by
      rw [show ([(1, .writeAtomic (Text.str md).serializedSize (Text.str md).serialize),
        (2, .writeAtomic 16 (indexEntryFill metadataStringId (fileHeader magicStringData).length))] : History) =
        [(1, .writeAtomic (Text.str md).serializedSize (Text.str md).serialize)] ++
        [(2, .writeAtomic 16 (indexEntryFill metadataStringId (fileHeader magicStringData).length))] from rfl, written_append, written_single_same,
        written_single_other (by decide), List.append_nil, alloc_payload]
      rfl
    unfold creation
    rw [written_append, e]
    simp [written, fileHeaderWrites, fileHeader, payload]

theorem good_left {h : History} (g : AllGood h) (i : Nat) : leftBehind i h = written i h := by
  induction h with
  | nil => rfl
  | cons x h ih =>
    obtain ⟨j, c⟩ := x
    rw [show (j, c) :: h = [(j, c)] ++ h from rfl, leftBehind_append, written_append, ih (fun x hx => g x (List.mem_cons_of_mem _ hx))]
    congr 1
    by_cases hj : j = i
    · subst hj; rw [leftBehind_same, written_single_same, leaves_good (g _ List.mem_cons_self)]
    · rw [leftBehind_other hj, written_single_other hj]

theorem alike_init (md : String) : Alike (profInit md) (profInit md) (creation md) (creation md) := by
  obtain ⟨g, s, _⟩ := creation_good md
  exact ⟨rfl, rfl, (creation_run md).symm, (creation_run md).symm, fun x hx n f hc o => kept_of_good (g x hx) n f hc o, g, s, s, fun _ => rfl,
    fun i _ => good_left g i⟩

/-- The pages of a file after a history. -/
theorem dropped_pages {h : History} (hk : AllLengthsKept h) (hs : ∀ x ∈ h, x.1 ≤ 2) :
    ∃ pages : List Page, (World.exec profTags [(0, .drop), (1, .drop), (2, .drop)] (run profTags h).2).2.store.data = storeOf pages ∧
      (∀ p ∈ pages, 0 < p.body.length ∧ p.body.length ≤ 262144) ∧ ∀ i, i ≤ 2 → streamOf (profTags i) pages = leftBehind i h := by
  let ds : History := [(0, .drop), (1, .drop), (2, .drop)]
  have hk' : AllLengthsKept (h ++ ds) := by
    intro x hx n f hc o
    rcases List.mem_append.mp hx with hx | hx
    · exact hk x hx n f hc o
    · simp [ds] at hx
      rcases hx with rfl | rfl | rfl <;> cases hc
  have hs' : ∀ x ∈ h ++ ds, x.1 ≤ 2 := by
    intro x hx
    rcases List.mem_append.mp hx with hx | hx
    · exact hs x hx
    · simp [ds] at hx
      rcases hx with rfl | rfl | rfl <;> simp
  obtain ⟨pages, inv⟩ := panics_inv profTags (h ++ ds) hk'
  have hd : ∀ i, leftBehind i ds = [] := by
    intro i
    simp only [leftBehind, List.flatMap_eq_nil_iff, List.mem_filter, ds]
    rintro x ⟨hx, _⟩
    simp at hx
    rcases hx with rfl | rfl | rfl <;> rfl
  have f : ∀ i, i ≤ 2 → Flushed i (h ++ ds) := by
    intro i hi
    have : i = 0 ∨ i = 1 ∨ i = 2 := by omega
    rcases this with rfl | rfl | rfl
    · exact .inr ⟨h, .drop, [(1, .drop), (2, .drop)], rfl, trivial, by simp⟩
    · exact .inr ⟨h ++ [(0, .drop)], .drop, [(2, .drop)], by simp [ds], trivial, by simp⟩
    · exact .inr ⟨h ++ [(0, .drop), (1, .drop)], .drop, [], by simp [ds], trivial, by simp⟩
  refine ⟨pages, ?_, inv.bodies, fun i hi => ?_⟩
  · have : (World.exec profTags ds (run profTags h).2).2 = (run profTags (h ++ ds)).2 := by simp [run, exec_append]
    rw [this, inv.store]
  · have := inv.content i (tagUnshared_prof hs' hi)
    rw [inv.fresh i (f i hi), List.append_nil, leftBehind_append, hd, List.append_nil] at this
    exact this

/-- The pages of the file of a program with panics, and of that without. -/
theorem acts_pages (md : String) (acts : List ProfAct) : ∃ pages pages' : List Page,
    savedActs md acts = fileHeader magicTopLevel ++ storeOf pages ∧ savedFile md (callsOf acts) = fileHeader magicTopLevel ++ storeOf pages' ∧
    (∀ p ∈ pages, 0 < p.body.length ∧ p.body.length ≤ 262144) ∧ (∀ p ∈ pages', 0 < p.body.length ∧ p.body.length ≤ 262144) ∧
    streamOf .events pages = streamOf .events pages' ∧ streamOf .stringIndex pages = streamOf .stringIndex pages' ∧
    streamOf .stringData pages = fileHeader magicStringData ++ encText [.value md] ++ acts.flatMap textLeft ∧
    streamOf .stringData pages' = fileHeader magicStringData ++ encText [.value md] ++ ((callsOf acts).map ProfAct.call).flatMap textLeft := by
  obtain ⟨g, g', al, h1, h2, _⟩ := (alike_init md).run acts
  have hk' : AllLengthsKept (creation md ++ g') := fun x hx n f hc o => kept_of_good (al.good x hx) n f hc o
  obtain ⟨pages, p1, p2, p3⟩ := dropped_pages al.kept al.sinks
  obtain ⟨pages', q1, q2, q3⟩ := dropped_pages hk' al.sinks'
  obtain ⟨cg, _, cw⟩ := creation_good md
  refine ⟨pages, pages', ?_, ?_, p2, q2, ?_, ?_, ?_, ?_⟩
  · unfold savedActs
    rw [al.world, p1]
  · unfold savedFile
    rw [al.world', q1]
  · have := p3 0 (by decide)
    rw [al.left 0 (by decide), ← good_left al.good, ← q3 0 (by decide)] at this
    exact this
  · have := p3 2 (by decide)
    rw [al.left 2 (by decide), ← good_left al.good, ← q3 2 (by decide)] at this
    exact this
  · have := p3 1 (by decide)
    rw [leftBehind_append, h1, good_left cg, cw] at this
    exact this
  · have := q3 1 (by decide)
    rw [good_left al.good, written_append, h2, cw] at this
    exact this

end Verif.Mm
