import Verif.Proofs.TextsJson
import Verif.Proofs.AnalysisMore
import Verif.Proofs.JsonFits
import Verif.Model.Mmview

/-! # Texts through the tools -/

namespace Verif.Proofs

open Verif Verif.Mm Verif.Json Verif.Decode Verif.Spec Verif.Analyze Verif.Paths Verif.Tools

theorem new_metadata {fuel : Nat} {data : Bytes} {d : EventDecoder} (h : EventDecoder.new diag fuel data = .ok d) : IsText d.metadata.cmd := by
  unfold EventDecoder.new at h
  simp only [bind, Except.bind] at h
  repeat' split at h
  all_goals first | (cases h; done) | skip
  rename_i h
  unfold EventDecoder.fromSeparateBuffers at h
  simp only [bind, Except.bind] at h
  repeat' split at h
  all_goals first | (cases h; done) | skip
  rename_i hs _ m hm
  injection h with h
  rw [← h]
  exact parseMetadata_text (toStr_text _ _ _ _ hs) hm

theorem profile_text {v8New : Bytes → Except Fault OldDecoder} (hv : ∀ data d, v8New data = .ok d → OldText d) {fuel : Nat} {data : Bytes}
    {p : ProfilingData} (h : fromPagedBuffer diag v8New fuel data = .ok p) : ProfileText p := by
  unfold fromPagedBuffer at h
  simp only [bind, Except.bind] at h
  split at h
  · cases h
  · split at h
    · split at h
      · cases h
      · rename_i d hd
        injection h with h
        rw [← h]
        have ho := hv _ _ hd
        refine ⟨ho.cmd, ?_⟩
        intro i e he
        simp only [v8Data] at he
        cases hx : d.decodeFull i with
        | error f => rw [hx] at he; cases he
        | ok o =>
          rw [hx] at he
          injection he with he
          rw [← he]
          obtain ⟨h1, h2, h3⟩ := ho.events i o hx
          exact ⟨h1, h2, h3⟩
    · split at h
      · split at h
        · cases h
        · rename_i d hd
          injection h with h
          rw [← h]
          exact ⟨new_metadata hd, fun i e he => decodeFull_text he⟩
      · split at h <;> cases h

theorem open_text {v8New : Bytes → Except Fault OldDecoder} (hv : ∀ data d, v8New data = .ok d → OldText d) {fuel : Nat} {fs : Files}
    {stem : Bytes} {p : ProfilingData} (h : openProfile v8New fuel fs stem = .ok p) : ProfileText p := by
  unfold openProfile at h
  split at h
  · exact profile_text hv h
  · simp only [] at h
    split at h <;> cases h

/-! ## Cutting at an ASCII byte -/

theorem isText_split : ∀ (n : Nat) (a : Bytes) (b : UInt8) (r : Bytes), a.length ≤ n → b < 0x80 → IsText (a ++ b :: r) →
    IsText a ∧ IsText (b :: r)
  | 0, a, b, r, hn, _, h => by
    cases a with
    | nil => exact ⟨isText_nil, h⟩
    | cons => simp at hn
  | n + 1, a, b, r, hn, hb, h => by
    rcases isText_cases h with h' | ⟨x, y, he, hx, hy⟩ | ⟨w, y, he, hne, hw, hwt, hy⟩
    · simp at h'
    · cases a with
      | nil => exact ⟨isText_nil, h⟩
      | cons x' a =>
        rw [List.cons_append] at he
        injection he with e1 e2
        rw [← e2] at hy
        have := isText_split n a b r (by simpa using hn) hb hy
        exact ⟨isText_cons_ascii (e1 ▸ hx) this.1, this.2⟩
    · rcases List.append_eq_append_iff.1 he with ⟨c, hc1, hc2⟩ | ⟨c, hc1, hc2⟩
      · cases c with
        | nil =>
          rw [List.append_nil] at hc1
          rw [List.nil_append] at hc2
          exact ⟨hc1 ▸ hwt, hc2 ▸ hy⟩
        | cons z c =>
          rw [List.cons_append] at hc2
          injection hc2 with e1 e2
          exact absurd hb (hw b (by rw [hc1, e1]; simp))
      · rw [hc1]
        rw [hc2] at hy
        have hpos := List.length_pos_iff.2 hne
        have := isText_split n c b r (by rw [hc1] at hn; simp at hn; omega) hb hy
        exact ⟨isText_append hwt this.1, this.2⟩

theorem findSub_some {pat l : Bytes} {i : Nat} (h : Crox.findSub pat l = some i) : ∃ r, l = l.take i ++ pat ++ r := by
  induction l generalizing i with
  | nil =>
    rw [Crox.findSub] at h
    split at h
    · rename_i hp
      injection h with h
      subst hp
      exact ⟨[], by simp⟩
    · cases h
  | cons b l ih =>
    rw [Crox.findSub] at h
    split at h
    · rename_i hp
      injection h with h
      subst h
      exact ⟨(b :: l).drop pat.length, by rw [List.take_zero, List.nil_append]; conv_rhs => enter [1]; rw [← hp]
                                          rw [List.take_append_drop]⟩
    · rw [Option.map_eq_some_iff] at h
      obtain ⟨j, hj, rfl⟩ := h
      obtain ⟨r, hr⟩ := ih hj
      refine ⟨r, ?_⟩
      rw [List.take_succ_cons, List.cons_append, List.cons_append, ← hr]

theorem crateName_text {cmd n : Bytes} (hc : IsText cmd) (h : Crox.crateName cmd = some n) : IsText n := by
  unfold Crox.crateName at h
  split at h
  · rename_i index hi
    rw [Option.map_eq_some_iff] at hi
    obtain ⟨j, hj, rfl⟩ := hi
    simp only [Option.some.injEq] at h
    have hpl : (utf8 " --crate-name ").length = 14 := by decide +kernel
    have hpa : ∀ b ∈ utf8 " --crate-name ", b < 0x80 := by decide +kernel
    obtain ⟨r, hr⟩ := findSub_some hj
    have hjl : (cmd.take j).length = j := by
      rw [List.length_take, Nat.min_eq_left]
      by_contra hlt
      have := congrArg List.length hr
      simp only [List.length_append, List.length_take, hpl] at this
      omega
    have hdrop : cmd.drop (j + 14) = r := by
      conv_lhs => rw [hr]
      rw [List.drop_left' (by rw [List.length_append, hjl, hpl])]
    have hrt : IsText r := by
      have h1 : IsText (cmd.take j ++ (utf8 " --crate-name " ++ r)) := by rw [← List.append_assoc, ← hr]; exact hc
      have e : utf8 " --crate-name " = 0x20 :: utf8 "--crate-name " := by decide +kernel
      have h3 : IsText (utf8 " --crate-name " ++ r) := by
        rw [e, List.cons_append] at h1 ⊢
        exact (isText_split _ _ _ _ (Nat.le_refl _) (by decide) h1).2
      exact isText_rest hpa h3
    rw [hdrop] at h
    subst h
    cases hf : Crox.findSub (utf8 " ") r with
    | none => simpa using hrt
    | some k =>
      rw [Option.getD_some]
      obtain ⟨r', hr'⟩ := findSub_some hf
      have e : utf8 " " = [0x20] := by decide +kernel
      rw [e, List.append_assoc] at hr'
      exact And.left <| isText_split _ _ 0x20 r' (Nat.le_refl _) (by decide) (by rw [← List.singleton_append (x := (0x20 : UInt8)), ← hr']; exact hrt)
  · cases h

/-! ## crox -/

theorem numberArgs_text (i : Nat) (as : List Bytes) (h : ∀ a ∈ as, IsText a) : ∀ x ∈ Crox.numberArgs i as, IsText x.1 ∧ IsText x.2 := by
  induction as generalizing i with
  | nil => simp [Crox.numberArgs]
  | cons a as ih =>
    intro x hx
    rw [Crox.numberArgs, List.mem_cons] at hx
    rcases hx with rfl | hx
    · exact ⟨isText_utf8 _, h a (by simp)⟩
    · exact ih _ (fun y hy => h y (by simp [hy])) x hx

/-- The texts of a record. -/
structure CroxText (e : Crox.CroxEvent) : Prop where
  name : IsText e.name
  category : IsText e.category
  args : ∀ as, e.args = some as → ∀ x ∈ as, IsText x.1 ∧ IsText x.2

theorem croxEvent_text {minimum : Option Nat} {pid : Nat} {lanes : List (UInt32 × Nat)} {thread : UInt32} {payload : EventPayload}
    {full : Except Fault Event} (hf : ∀ e, full = .ok e → EventText e) {x : Crox.CroxEvent}
    (h : Crox.croxEvent minimum pid lanes thread payload full = .ok (some x)) : CroxText x := by
  unfold Crox.croxEvent at h
  split at h
  · simp only [bind, Except.bind] at h
    split at h
    · cases h
    · have fin : ∀ (e : Event) (d start : Nat), full = .ok e → (⟨e.label, e.eventKind, Crox.asMicros start, Crox.asMicros d, pid,
          (Analyze.lookup thread lanes).getD thread.toNat, Crox.getArgs e.additionalData⟩ : Crox.CroxEvent) = x → CroxText x := by
        intro e d start hfull h
        have he := hf e hfull
        rw [← h]
        refine ⟨he.label, he.kind, ?_⟩
        intro as has
        simp only [Crox.getArgs] at has
        split at has
        · injection has with has
          rw [← has]
          exact numberArgs_text 0 _ he.args
        · cases has
      cases hfull : full with
      | error f =>
        rw [hfull] at h
        exfalso
        cases minimum with
        | none => simp at h
        | some m => simp only [] at h; split at h <;> simp at h
      | ok e =>
        rw [hfull] at h
        cases minimum with
        | none =>
          simp only [Bool.false_eq_true, if_false, Except.ok.injEq, Option.some.injEq] at h
          exact fin e _ _ hfull h
        | some m =>
          simp only [] at h
          split at h
          · simp at h
          · simp only [Except.ok.injEq, Option.some.injEq] at h
            exact fin e _ _ hfull h
  · simp at h

theorem croxLoop_text {p : ProfilingData} (hp : ProfileText p) (opt : Crox.Opt) (lanes : List (UInt32 × Nat)) (i k : Nat) :
    ∀ x ∈ (croxLoop p opt lanes i k).1, CroxText x := by
  induction k generalizing i with
  | zero => simp [croxLoop]
  | succ k ih =>
    rw [croxLoop]
    split
    · simp
    · rename_i x hx
      intro y hy
      rw [List.mem_append] at hy
      rcases hy with hy | hy
      · simp only [bind, Except.bind] at hx
        split at hx
        · cases hx
        · rename_i ev _
          have : x = some y := by simpa using hy
          subst this
          exact croxEvent_text (fun e he => hp.events _ e he) hx
      · exact ih _ y hy

theorem croxBody_text {p : ProfilingData} (hp : ProfileText p) (opt : Crox.Opt) (sortEnds sortStarts : List (Nat × UInt32) → List (Nat × UInt32)) :
    ∀ x ∈ (croxBody opt sortEnds sortStarts p).1, CroxText x := by
  unfold croxBody
  split
  · simp
  · split
    · simp
    · exact croxLoop_text hp _ _ _ _

theorem allText_members {l : List (Bytes × Value)} (h : ∀ f ∈ l, IsText f.1 ∧ AllText f.2) : AllText (.obj l) :=
  .obj (fun f hf => (h f hf).1) fun f hf => (h f hf).2

theorem eventValue_text {argOrder : List (Bytes × Bytes) → List (Bytes × Bytes)} (ho : ∀ l, (argOrder l).Perm l) {e : Crox.CroxEvent}
    (h : CroxText e) : AllText (eventValue argOrder e) := by
  apply allText_members
  intro f hf
  simp only [List.mem_cons, List.not_mem_nil, or_false] at hf
  rcases hf with rfl | rfl | rfl | rfl | rfl | rfl | rfl | rfl
  · exact ⟨isText_utf8 _, .str h.name⟩
  · exact ⟨isText_utf8 _, .str h.category⟩
  · exact ⟨isText_utf8 _, .str (isText_utf8 _)⟩
  · exact ⟨isText_utf8 _, .num _⟩
  · exact ⟨isText_utf8 _, .num _⟩
  · exact ⟨isText_utf8 _, .num _⟩
  · exact ⟨isText_utf8 _, .num _⟩
  · refine ⟨isText_utf8 _, ?_⟩
    cases ha : e.args with
    | none => exact .null
    | some as =>
      apply allText_members
      intro f hf
      rw [List.mem_map] at hf
      obtain ⟨x, hx, rfl⟩ := hf
      have := h.args as ha x ((ho as).mem_iff.1 hx)
      exact ⟨this.1, .str this.2⟩

theorem processNameValue_text {n : Nat × Bytes} (h : IsText n.2) : AllText (processNameValue n) := by
  apply allText_members
  intro f hf
  simp only [List.mem_cons, List.not_mem_nil, or_false] at hf
  rcases hf with rfl | rfl | rfl | rfl | rfl | rfl | rfl <;> refine ⟨isText_utf8 _, ?_⟩
  · exact allText_members fun f hf => by
      simp only [List.mem_cons, List.not_mem_nil, or_false] at hf
      subst hf
      exact ⟨isText_utf8 _, .str h⟩
  · exact .str isText_nil
  · exact .str (isText_utf8 _)
  · exact .str (isText_utf8 _)
  · exact .num _
  · exact .num _
  · exact .num _

theorem sortIndexValue_text (pid index : Nat) : AllText (sortIndexValue pid index) := by
  apply allText_members
  intro f hf
  simp only [List.mem_cons, List.not_mem_nil, or_false] at hf
  rcases hf with rfl | rfl | rfl | rfl | rfl | rfl | rfl <;> refine ⟨isText_utf8 _, ?_⟩
  · exact allText_members fun f hf => by
      simp only [List.mem_cons, List.not_mem_nil, or_false] at hf
      subst hf
      exact ⟨isText_utf8 _, .num _⟩
  · exact .str isText_nil
  · exact .str (isText_utf8 _)
  · exact .str (isText_utf8 _)
  · exact .num _
  · exact .num _
  · exact .num _

theorem croxElements_text {env : Env} (hv : ∀ data d, env.v8New data = .ok d → OldText d) (opt : Crox.Opt)
    (sortEnds sortStarts : List (Nat × UInt32) → List (Nat × UInt32)) {argOrder : List (Bytes × Bytes) → List (Bytes × Bytes)}
    (ho : ∀ l, (argOrder l).Perm l) (stem : Bytes) : ∀ v ∈ (croxElements env opt sortEnds sortStarts argOrder stem).1, AllText v := by
  intro v hv'
  unfold croxElements croxTool at hv'
  cases hp : openProfile env.v8New env.fuel env.files stem with
  | error f => rw [hp] at hv'; simp at hv'
  | ok p =>
    have ht := open_text hv hp
    have hb := croxBody_text ht opt sortEnds sortStarts
    rw [hp] at hv'
    simp only [] at hv'
    cases hr : (croxBody opt sortEnds sortStarts p).2 with
    | error f =>
      rw [hr] at hv'
      simp only [List.mem_map] at hv'
      obtain ⟨x, hx, rfl⟩ := hv'
      exact eventValue_text ho (hb x hx)
    | ok u =>
      rw [hr] at hv'
      simp only [List.mem_append, List.mem_map, Option.mem_toList, List.mem_singleton] at hv'
      rcases hv' with (⟨x, hx, rfl⟩ | ⟨n, hn, rfl⟩) | rfl
      · exact eventValue_text ho (hb x hx)
      · apply processNameValue_text
        simp only [Crox.processName, Option.map_eq_some_iff] at hn
        obtain ⟨c, hc, rfl⟩ := hn
        exact crateName_text ht.cmd hc
      · exact sortIndexValue_text _ _

theorem croxRun_text {elements : Bytes → List Value × Except Fault Unit} (h : ∀ stem, ∀ v ∈ (elements stem).1, AllText v) (stems : List Bytes) :
    ∀ v ∈ (croxRun elements stems).1, AllText v := by
  induction stems with
  | nil => simp [croxRun]
  | cons s ss ih =>
    have hs := h s
    rw [croxRun]
    split
    · rename_i vs e he
      rw [he] at hs
      exact hs
    · rename_i vs u he
      rw [he] at hs
      intro v hv
      rw [List.mem_append] at hv
      rcases hv with hv | hv
      · exact hs v hv
      · exact ih v hv

/-! ## Collapsed stacks -/

/-- The id of a stack. -/
inductive Path (p : ProfilingData) : List LightweightEvent → Bytes → Prop
  | nil : Path p [] (utf8 "rustc")
  | cons {l : LightweightEvent} {S : List LightweightEvent} {sid : Bytes} {e : Event} (h : Path p S sid) (he : p.decodeFull l.eventIndex = .ok e) :
      Path p (l :: S) (sid ++ utf8 ";" ++ e.label)

theorem path_text {p : ProfilingData} (hp : ProfileText p) {S : List LightweightEvent} {sid : Bytes} (h : Path p S sid) : IsText sid := by
  induction h with
  | nil => exact isText_utf8 _
  | cons _ he ih => exact isText_append (isText_append ih (isText_utf8 _)) (hp.events _ _ he).label

theorem popLight_path {p : ProfilingData} {cur : EventPayload} {S S' : List LightweightEvent} {sid sid' : Bytes} (h : Path p S sid)
    (hr : popLight p cur S sid = .ok (S', sid')) : Path p S' sid' := by
  induction h with
  | nil =>
    rw [popLight] at hr
    injection hr with hr
    injection hr with h1 h2
    rw [← h1, ← h2]
    exact .nil
  | @cons l S sid e hS he ih =>
    rw [popLight] at hr
    split at hr
    · injection hr with hr
      injection hr with h1 h2
      rw [← h1, ← h2]
      exact .cons hS he
    · have e1 : utf8 ";" = [0x3B] := by decide +kernel
      have hlen : (sid ++ utf8 ";" ++ e.label).length = sid.length + (e.label.length + 1) := by
        simp only [e1, List.length_append, List.length_cons, List.length_nil]; omega
      simp only [bind, Except.bind, he, subUsize, hlen] at hr
      rw [if_pos (by omega)] at hr
      simp only [Nat.add_sub_cancel] at hr
      rw [List.append_assoc, List.take_left' rfl] at hr
      exact ih hr

/-- What holds of the variables of `collapse_stacks`. -/
structure VarsText (p : ProfilingData) (st : CollapseVars LightweightEvent) : Prop where
  keys : ∀ k ∈ st.counters.map (·.1), IsText k
  threads : ∀ x ∈ st.threads, Path p x.2.stack x.2.stackId

theorem mem_insert_imp {κ α : Type} [DecidableEq κ] {k : κ} {a : α} {m : List (κ × α)} {x : κ × α} (h : x ∈ Analyze.insert k a m) : x = (k, a) ∨ x ∈ m := by
  induction m with
  | nil => rw [Analyze.insert] at h; left; simpa using h
  | cons y m ih =>
    obtain ⟨k', a'⟩ := y
    rw [Analyze.insert] at h
    split at h
    · rcases List.mem_cons.1 h with h | h
      · exact .inl h
      · exact .inr (List.mem_cons_of_mem _ h)
    · rcases List.mem_cons.1 h with h | h
      · exact .inr (h ▸ List.mem_cons_self)
      · rcases ih h with h | h
        · exact .inl h
        · exact .inr (List.mem_cons_of_mem _ h)

theorem lookup_mem_imp {κ α : Type} [DecidableEq κ] {k : κ} {a : α} {m : List (κ × α)} (h : lookup k m = some a) : (k, a) ∈ m := by
  induction m with
  | nil => rw [lookup] at h; cases h
  | cons y m ih =>
    obtain ⟨k', a'⟩ := y
    rw [lookup] at h
    split at h
    · rename_i hk
      injection h with h
      subst hk h
      simp
    · exact List.mem_cons_of_mem _ (ih h)

theorem chargeParent_keys {checks : Bool} {stack : List LightweightEvent} {sid : Bytes} {pl : EventPayload} {counters counters' : List (Bytes × Nat)}
    {total total' : Nat} (h : chargeParent checks stack sid pl counters total = .ok (counters', total')) :
    ∀ k ∈ counters'.map (·.1), k = sid ∨ k ∈ counters.map (·.1) := by
  intro k hk
  unfold chargeParent at h
  split at h
  · split at h
    · simp only [bind, Except.bind] at h
      split at h
      · cases h
      · split at h
        · cases h
        · injection h with h
          injection h with h _
          rw [← h, mem_keys_insert] at hk
          exact hk
    · injection h with h
      injection h with h _
      rw [← h] at hk
      exact .inr hk
  · simp only [bind, Except.bind] at h
    split at h
    · cases h
    · split at h
      · cases h
      · injection h with h
        injection h with h _
        rw [← h] at hk
        exact .inr hk

theorem lightStep_text {checks : Bool} {p : ProfilingData} (hp : ProfileText p) {st st' : CollapseVars LightweightEvent} {l : LightweightEvent}
    (hst : VarsText p st) (h : lightStep checks p st l = .ok st') : VarsText p st' := by
  unfold lightStep at h
  split at h
  · rename_i start stop hpl
    simp only [bind, Except.bind] at h
    have hthread : Path p ((lookup l.threadId st.threads).getD ⟨[], utf8 "rustc", start, stop, 0⟩).stack
        ((lookup l.threadId st.threads).getD ⟨[], utf8 "rustc", start, stop, 0⟩).stackId := by
      cases hl : lookup l.threadId st.threads with
      | none => exact .nil
      | some t => exact hst.threads _ (lookup_mem_imp hl)
    split at h
    · cases h
    · rename_i S hpop
      obtain ⟨S, sid⟩ := S
      have hS := popLight_path hthread hpop
      simp only [] at h
      split at h
      · cases h
      · rename_i c hch
        obtain ⟨counters, total⟩ := c
        have hk := chargeParent_keys hch
        simp only [] at h
        split at h
        · cases h
        · rename_i e he
          split at h
          · cases h
          · split at h
            · cases h
            · injection h with h
              have hS' : Path p (l :: S) (sid ++ utf8 ";" ++ e.label) := .cons hS he
              rw [← h]
              constructor
              · intro k hk'
                simp only [mem_keys_insert] at hk'
                rcases hk' with rfl | hk'
                · exact path_text hp hS'
                · rcases hk k hk' with rfl | hk'
                  · exact path_text hp hS
                  · exact hst.keys k hk'
              · intro x hx
                rcases mem_insert_imp hx with rfl | hx
                · exact hS'
                · exact hst.threads x hx
  · injection h with h
    exact h ▸ hst

theorem lightSteps_text {checks : Bool} {p : ProfilingData} (hp : ProfileText p) (k : Nat) {st st' : CollapseVars LightweightEvent}
    (hst : VarsText p st) (h : lightSteps checks p k st = .ok st') : VarsText p st' := by
  induction k generalizing st with
  | zero => rw [lightSteps] at h; injection h with h; exact h ▸ hst
  | succ k ih =>
    rw [lightSteps] at h
    simp only [bind, Except.bind] at h
    split at h
    · cases h
    · split at h
      · cases h
      · rename_i st1 h1
        exact ih (lightStep_text hp hst h1) h

theorem collapse_text {checks : Bool} {p : ProfilingData} (hp : ProfileText p) {m : List (Bytes × Nat)} (h : collapseProfile checks p = .ok m) :
    ∀ x ∈ m, IsText x.1 := by
  unfold collapseProfile at h
  simp only [bind, Except.bind] at h
  split at h
  · cases h
  · split at h
    · cases h
    · rename_i st hs
      split at h
      · cases h
      · injection h with h
        have hst := lightSteps_text hp _ ⟨by simp, by simp⟩ hs
        rw [← h]
        intro x hx
        rcases mem_insert_imp hx with rfl | hx
        · exact isText_utf8 _
        · exact hst.keys _ (List.mem_map_of_mem hx)

theorem folded_text {m : List (Bytes × Nat)} (h : ∀ x ∈ m, IsText x.1) : IsText (foldedText m) := by
  unfold foldedText
  induction m with
  | nil => exact isText_nil
  | cons x m ih =>
    rw [List.flatMap_cons]
    exact isText_append (isText_append (isText_append (isText_append (h x (by simp)) (isText_utf8 _)) (isText_utf8 _)) (isText_utf8 _))
      (ih fun y hy => h y (by simp [hy]))

/-! ## mmview -/

theorem joinCommas_text {as : List Bytes} (h : ∀ a ∈ as, IsText a) : IsText (Mmview.joinCommas as) := by
  induction as with
  | nil => rw [Mmview.joinCommas]; exact isText_nil
  | cons a as ih =>
    cases as with
    | nil => rw [Mmview.joinCommas]; exact h a (by simp)
    | cons b as =>
      rw [Mmview.joinCommas]
      exact isText_append (isText_append (h a (by simp)) (isText_utf8 _)) (ih fun x hx => h x (List.mem_cons_of_mem _ hx))
      all_goals simp

theorem payloadText_text (pl : EventPayload) (g : Nat) : IsText (Mmview.payloadText pl g) := by
  unfold Mmview.payloadText
  split
  · exact isText_append (isText_utf8 _) (isText_utf8 _)
  · exact isText_append (isText_append (isText_append (isText_utf8 _) (isText_utf8 _)) (isText_utf8 _)) (isText_utf8 _)
  · exact isText_utf8 _

theorem eventText_text {e : Event} (h : EventText e) (g : Nat) : IsText (Mmview.eventText e g) := by
  unfold Mmview.eventText
  exact isText_append (isText_append (isText_append (isText_append (isText_append (isText_append (isText_append (isText_append
    (isText_append (isText_append (isText_utf8 _) h.kind) (isText_utf8 _)) h.label) (isText_utf8 _)) (joinCommas_text h.args)) (isText_utf8 _))
    (payloadText_text _ _)) (isText_utf8 _)) (isText_utf8 _)) (isText_utf8 _)

theorem printLoop_text {p : ProfilingData} (hp : ProfileText p) (thread : Option UInt32) (g i k : Nat) (out : Bytes) (ho : IsText out) :
    IsText (Mmview.printLoop p thread g i k out).stdout ∧ IsText (Mmview.printLoop p thread g i k out).stderr := by
  induction k generalizing i out with
  | zero => rw [Mmview.printLoop]; exact ⟨ho, isText_nil⟩
  | succ k ih =>
    rw [Mmview.printLoop]
    split
    · exact ⟨ho, isText_nil⟩
    · split
      · exact ih _ _ ho
      · split
        · exact ⟨ho, isText_nil⟩
        · rename_i e he
          exact ih _ _ (isText_append ho (eventText_text (hp.events _ _ he) g))

theorem mmview_text {p : ProfilingData} (hp : ProfileText p) (thread : Option UInt32) :
    IsText (Mmview.mmview p thread).stdout ∧ IsText (Mmview.mmview p thread).stderr := by
  unfold Mmview.mmview
  split
  · exact ⟨isText_nil, isText_nil⟩
  · split
    · split
      · exact ⟨isText_nil, isText_nil⟩
      · exact printLoop_text hp thread _ _ _ _ isText_nil
    · exact ⟨isText_nil, isText_utf8 _⟩

/-! ## The results of an analysis -/

theorem allText_num_obj (l : List (String × Nat)) : AllText (.obj (l.map fun x => (utf8 x.1, .num x.2))) := by
  apply allText_members
  intro f hf
  rw [List.mem_map] at hf
  obtain ⟨x, _, rfl⟩ := hf
  exact ⟨isText_utf8 _, .num _⟩

theorem durationValue_text (d : Nat) : AllText (durationValue d) := allText_num_obj [("secs", d / 1000000000), ("nanos", d % 1000000000)]

theorem resultsValue_text {r : Results} (hq : ∀ q ∈ r.queryData, IsText q.1) (ha : ∀ a ∈ r.artifactSizes, IsText a.1) : AllText (resultsValue r) := by
  apply allText_members
  intro f hf
  simp only [List.mem_cons, List.not_mem_nil, or_false] at hf
  rcases hf with rfl | rfl | rfl <;> refine ⟨isText_utf8 _, ?_⟩
  · refine .arr ?_
    intro v hv
    rw [List.mem_map] at hv
    obtain ⟨q, hqm, rfl⟩ := hv
    apply allText_members
    intro f hf
    simp only [List.mem_cons, List.not_mem_nil, or_false] at hf
    rcases hf with rfl | rfl | rfl | rfl | rfl | rfl | rfl | rfl | rfl <;> refine ⟨isText_utf8 _, ?_⟩
    all_goals first
      | exact .str (hq q hqm)
      | exact .num _
      | exact durationValue_text _
  · refine .arr ?_
    intro v hv
    rw [List.mem_map] at hv
    obtain ⟨a, ham, rfl⟩ := hv
    apply allText_members
    intro f hf
    simp only [List.mem_cons, List.not_mem_nil, or_false] at hf
    rcases hf with rfl | rfl <;> refine ⟨isText_utf8 _, ?_⟩
    · exact .str (ha a ham)
    · exact .num _
  · exact durationValue_text _

theorem analysis_labels {checks : Bool} {es : List Event} {r : Results} (h : analyze checks es = .ok r) :
    (∀ q ∈ r.queryData, ∃ e ∈ es, e.label = q.1) ∧ (∀ a ∈ r.artifactSizes, ∃ e ∈ es, e.label = a.1) := by
  obtain ⟨st, hr, hq, ha, -⟩ := analyze_run h
  have hi := inv_run hr
  have hart := artInv_run hr
  constructor
  · intro q hqm
    rw [hq] at hqm
    obtain ⟨e, he, hel, -⟩ := (hi.labels q.1).mp (List.mem_map_of_mem hqm)
    exact ⟨e, he, hel⟩
  · intro a ham
    rw [ha] at ham
    obtain ⟨e, he, hea⟩ := (hart.keys a.1).mp (List.mem_map_of_mem ham)
    refine ⟨e, he, ?_⟩
    unfold isArtifact at hea
    cases hp : e.payload with
    | timestamp t => rw [hp] at hea; cases hea
    | integer v =>
      rw [hp] at hea
      simp only [Bool.and_eq_true, hasLabel, decide_eq_true_eq] at hea
      exact hea.1

theorem fullEvents_text {p : ProfilingData} (hp : ProfileText p) {es : List Event} (h : p.fullEvents = .ok es) : ∀ e ∈ es, EventText e := by
  unfold ProfilingData.fullEvents at h
  simp only [bind, Except.bind] at h
  split at h
  · cases h
  · intro e he
    obtain ⟨j, hj⟩ := (collectFrom_all h).2 e he
    unfold ProfilingData.itemFull at hj
    simp only [bind, Except.bind] at hj
    split at hj
    · cases hj
    · exact hp.events _ _ hj

theorem analysis_text {checks : Bool} {p : ProfilingData} (hp : ProfileText p) {r : Results} (h : performAnalysis checks p = .ok r) :
    (∀ q ∈ r.queryData, IsText q.1) ∧ (∀ a ∈ r.artifactSizes, IsText a.1) := by
  unfold performAnalysis at h
  simp only [bind, Except.bind] at h
  split at h
  · cases h
  · rename_i es hes
    have ht := fullEvents_text hp hes
    obtain ⟨h1, h2⟩ := analysis_labels h
    constructor
    · intro q hq
      obtain ⟨e, he, hl⟩ := h1 q hq
      exact hl ▸ (ht e he).label
    · intro a ha
      obtain ⟨e, he, hl⟩ := h2 a ha
      exact hl ▸ (ht e he).label

end Verif.Proofs
