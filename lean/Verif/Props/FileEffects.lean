import Verif.Model.FileEffects
import Verif.Props.DiffJson
import Verif.Props.Collapse
import Verif.Props.Mmedit

/-! # Property C70: what the tools do to the files -/

namespace Verif.Props
open Verif Verif.Mm Verif.Spec Verif.Decode Verif.Analyze Verif.Tools Verif.Paths Verif.Json

/-- A run of one of the tools: the files before and after, the file it writes, and how it ended. -/
inductive ToolRun (creates : Bytes → Bool) : Files → Bytes → Ran → Prop
  | summarizeJson (env : Env) (stem : Bytes) : ToolRun creates env.files (resultsPath stem) (summarizeJsonMain env creates stem)
  | diffJson (env : Env) (order percent base change) : ToolRun creates env.files (resultsPath change) (diffJsonMain env creates order percent base change)
  | stackCollapse (env : Env) (order stem) : ToolRun creates env.files (utf8 "out.stacks_folded") (stackCollapseMain env creates order stem)
  | flamegraph (env : Env) (order fromLines stem) : ToolRun creates env.files (utf8 "rustc.svg") (flamegraphMain env creates order fromLines stem)
  | crox (env : Env) (opt sortEnds sortStarts argOrder filePrefix dirEntries) : ToolRun creates env.files (utf8 "chrome_profiler.json")
      (croxFileMain env creates opt sortEnds sortStarts argOrder filePrefix dirEntries)
  | mmedit (fs : Files) (file : Bytes) : ToolRun creates fs (truncatedPath file) (mmeditMain creates fs file)

theorem createFile_other {creates : Bytes → Bool} {fs : Files} {path data : Bytes} {o : Except Fault Unit} {p : Bytes} (h : p ≠ path) :
    (createFile creates fs path data o).files p = fs p := by
  unfold createFile
  split
  · simp [withFile, h]
  · rfl

/-- **C70.** A tool changes no file but its output file. -/
theorem C70_one_file {creates : Bytes → Bool} {fs : Files} {out : Bytes} {r : Ran} (h : ToolRun creates fs out r) (p : Bytes) (hp : p ≠ out) :
    r.files p = fs p := by
  cases h with
  | summarizeJson env stem =>
    unfold summarizeJsonMain
    cases hj : summarizeJsonTool env stem with
    | error e => rfl
    | ok x =>
      obtain ⟨path, text⟩ := x
      have : path = resultsPath stem := by
        simp only [summarizeJsonTool, bind, Except.bind] at hj
        split at hj
        · cases hj
        · split at hj
          · cases hj
          · injection hj with hj
            injection hj with hj _
            exact hj.symm
      exact createFile_other (this ▸ hp)
  | diffJson env order percent base change =>
    unfold diffJsonMain
    cases hj : diffJsonTool env order percent base change with
    | error e => rfl
    | ok x =>
      obtain ⟨path, text⟩ := x
      have : path = resultsPath change := by
        simp only [diffJsonTool, bind, Except.bind] at hj
        split at hj
        · cases hj
        · injection hj with hj
          injection hj with hj _
          exact hj.symm
      exact createFile_other (this ▸ hp)
  | stackCollapse env order stem =>
    unfold stackCollapseMain
    split
    · rfl
    · exact createFile_other hp
  | flamegraph env order fromLines stem =>
    unfold flamegraphMain
    split
    · rfl
    · exact createFile_other hp
  | crox =>
    unfold croxFileMain
    split
    · simp [withFile, hp]
    · rfl
  | mmedit _ file =>
    unfold mmeditMain
    split
    · rfl
    · split
      · rfl
      · exact createFile_other hp

theorem isProfile_ext {f : Bytes} (h : IsProfile f) {dir name : Bytes} (hn : Names f dir name) : ∃ stem, stem ≠ [] ∧ name = stem ++ utf8 ".mm_profdata" := by
  obtain ⟨d, s, h1, h2⟩ := h
  exact ⟨s, h2, (Proofs.names_unique hn h1).2⟩

/-- **C70.** No tool but `mmedit` changes a profile, whether or not it succeeds, and whatever it was asked to do; `mmedit` only changes files
named `….truncated.mm_profdata`. -/
theorem C70_profiles_kept {creates : Bytes → Bool} {fs : Files} {out : Bytes} {r : Ran} (h : ToolRun creates fs out r) (p : Bytes) (hp : IsProfile p)
    (ht : ¬ ∃ s, p = s ++ utf8 ".truncated.mm_profdata") : r.files p = fs p := by
  refine C70_one_file h p ?_
  rintro rfl
  have clash : ∀ (a b x y : Bytes), a ++ x = b ++ y → x.length = y.length → x = y := fun a b x y h hl => (List.append_inj' h hl).2
  have key : ∀ (d n e : Bytes), Names p d n → (∃ s, n = s ++ e) → e.length ≤ (utf8 ".mm_profdata").length →
      e ≠ (utf8 ".mm_profdata").drop ((utf8 ".mm_profdata").length - e.length) → False := by
    intro d n e hn ⟨s, hs⟩ hl hne
    obtain ⟨stem, _, h2⟩ := isProfile_ext hp hn
    rw [hs] at h2
    apply hne
    have h3 : utf8 ".mm_profdata" = (utf8 ".mm_profdata").take ((utf8 ".mm_profdata").length - e.length) ++
        (utf8 ".mm_profdata").drop ((utf8 ".mm_profdata").length - e.length) := (List.take_append_drop _ _).symm
    rw [h3, ← List.append_assoc] at h2
    exact clash _ _ _ _ h2 (by rw [List.length_drop]; omega)
  have named : ∀ stem : Bytes, p = resultsPath stem → False := by
    intro stem hr
    unfold resultsPath withExtension at hr
    cases hf : fileName stem with
    | none =>
      rw [hf] at hr
      simp only [] at hr
      subst hr
      obtain ⟨d, s, h1, _⟩ := hp
      rw [(Proofs.fileName_iff _ _ _).2 h1] at hf
      cases hf
    | some x =>
      obtain ⟨dir, name⟩ := x
      have hn := (Proofs.fileName_iff _ _ _).1 hf
      have := Proofs.names_withExtension hn (ext := utf8 "json") (by decide +kernel) (by decide +kernel)
      unfold withExtension at this
      rw [hf] at this
      simp only [] at this
      rw [hf] at hr
      simp only [] at hr
      rw [← hr] at this
      exact key _ _ (utf8 "json") this ⟨_, rfl⟩ (by decide +kernel) (by decide +kernel)
  have plain : ∀ (q : Bytes) (e : Bytes), p = q → Names q [] q → (∃ s, q = s ++ e) → e.length ≤ (utf8 ".mm_profdata").length →
      e ≠ (utf8 ".mm_profdata").drop ((utf8 ".mm_profdata").length - e.length) → False := by
    intro q e hq hn
    subst hq
    exact key _ _ e hn
  cases h with
  | summarizeJson env stem => exact named _ rfl
  | diffJson env order percent base change => exact named _ rfl
  | stackCollapse env order stem =>
    exact plain _ (utf8 "_folded") rfl ⟨⟨[], .nil, by simp⟩, .inl rfl, by decide +kernel, by decide +kernel, by decide +kernel, by decide +kernel⟩
      ⟨utf8 "out.stacks", by decide +kernel⟩ (by decide +kernel) (by decide +kernel)
  | flamegraph env order fromLines stem =>
    exact plain _ (utf8 "svg") rfl ⟨⟨[], .nil, by simp⟩, .inl rfl, by decide +kernel, by decide +kernel, by decide +kernel, by decide +kernel⟩
      ⟨utf8 "rustc.", by decide +kernel⟩ (by decide +kernel) (by decide +kernel)
  | crox =>
    exact plain _ (utf8 "json") rfl ⟨⟨[], .nil, by simp⟩, .inl rfl, by decide +kernel, by decide +kernel, by decide +kernel, by decide +kernel⟩
      ⟨utf8 "chrome_profiler.", by decide +kernel⟩ (by decide +kernel) (by decide +kernel)
  | mmedit _ file =>
    cases hf : fileName file with
    | none =>
      obtain ⟨d, s, h1, _⟩ := hp
      have : truncatedPath file = file := by unfold truncatedPath withExtension; rw [hf]
      rw [this] at h1
      rw [(Proofs.fileName_iff _ _ _).2 h1] at hf
      cases hf
    | some x =>
      obtain ⟨dir, name⟩ := x
      apply ht
      refine ⟨dir ++ fileStem name, ?_⟩
      have e : utf8 ".truncated.mm_profdata" = [dot] ++ utf8 "truncated.mm_profdata" := by decide +kernel
      unfold truncatedPath withExtension
      rw [hf, e]
      simp

/-- **C70.** `mmedit` never overwrites the file it reads. -/
theorem C70_mmedit_keeps_input (creates : Bytes → Bool) (fs : Files) (file dir name : Bytes) (h : Names file dir name) :
    (mmeditMain creates fs file).files file = fs file := by
  refine C70_one_file (.mmedit fs file) file ?_
  intro heq
  have hf := (Proofs.fileName_iff _ _ _).2 h
  have h2 := Proofs.names_withExtension h (ext := utf8 "truncated.mm_profdata") (by decide +kernel) (by decide +kernel)
  change Names (truncatedPath file) _ _ at h2
  rw [← heq] at h2
  have hname := (Proofs.names_unique h h2).2
  have e : utf8 "truncated.mm_profdata" = utf8 "truncated" ++ [dot] ++ utf8 "mm_profdata" := by decide +kernel
  have hx : HasExtension name (fileStem name ++ [dot] ++ utf8 "truncated") (utf8 "mm_profdata") := by
    refine ⟨?_, by simp, by decide +kernel⟩
    rw [e] at hname
    refine hname.trans ?_
    simp [dot]
  have h3 := Proofs.fileStem_ext hx
  have h4 := congrArg List.length h3
  simp only [List.length_append, List.length_singleton] at h4
  omega

/-- **C70.** A tool whose output file cannot be created changes nothing and fails: with an error that says so, or in the way it fails where
the file can be created. -/
theorem C70_not_created {creates : Bytes → Bool} {fs : Files} {out : Bytes} {r : Ran} (h : ToolRun creates fs out r) (hc : creates out = false) :
    r.files = fs ∧ ((∃ msg, r.outcome = .error (.err msg)) ∨ ∃ f r', ToolRun (fun _ => true) fs out r' ∧ r'.outcome = .error f ∧ r.outcome = .error f) := by
  have key : ∀ path data o, creates path = false → (createFile creates fs path data o).files = fs ∧
      ∃ msg, (createFile creates fs path data o).outcome = .error (.err msg) := by
    intro path data o hp
    unfold createFile
    rw [hp, if_neg (by decide)]
    exact ⟨rfl, _, rfl⟩
  cases h with
  | summarizeJson env stem =>
    cases hj : summarizeJsonTool env stem with
    | error e =>
      refine ⟨by simp only [summarizeJsonMain, hj], .inr ⟨e, _, .summarizeJson env stem, ?_, ?_⟩⟩ <;> simp only [summarizeJsonMain, hj]
    | ok x =>
      obtain ⟨path, text⟩ := x
      have : path = resultsPath stem := by
        simp only [summarizeJsonTool, bind, Except.bind] at hj
        split at hj
        · cases hj
        · split at hj
          · cases hj
          · simp only [Except.ok.injEq, Prod.mk.injEq] at hj
            exact hj.1.symm
      subst this
      simp only [summarizeJsonMain, hj]
      exact ⟨(key _ _ _ hc).1, .inl (key _ _ _ hc).2⟩
  | diffJson env order percent base change =>
    cases hj : diffJsonTool env order percent base change with
    | error e =>
      refine ⟨by simp only [diffJsonMain, hj], .inr ⟨e, _, .diffJson env order percent base change, ?_, ?_⟩⟩ <;> simp only [diffJsonMain, hj]
    | ok x =>
      obtain ⟨path, text⟩ := x
      have : path = resultsPath change := by
        simp only [diffJsonTool, bind, Except.bind] at hj
        split at hj
        · cases hj
        · simp only [Except.ok.injEq, Prod.mk.injEq] at hj
          exact hj.1.symm
      subst this
      simp only [diffJsonMain, hj]
      exact ⟨(key _ _ _ hc).1, .inl (key _ _ _ hc).2⟩
  | stackCollapse env order stem =>
    cases hj : readCollapsed env stem with
    | error e =>
      refine ⟨by simp only [stackCollapseMain, hj], .inr ⟨e, _, .stackCollapse env order stem, ?_, ?_⟩⟩ <;> simp only [stackCollapseMain, hj]
    | ok m =>
      simp only [stackCollapseMain, hj]
      exact ⟨(key _ _ _ hc).1, .inl (key _ _ _ hc).2⟩
  | flamegraph env order fromLines stem =>
    cases hj : readCollapsed env stem with
    | error e =>
      refine ⟨by simp only [flamegraphMain, hj], .inr ⟨e, _, .flamegraph env order fromLines stem, ?_, ?_⟩⟩ <;> simp only [flamegraphMain, hj]
    | ok m =>
      simp only [flamegraphMain, hj]
      exact ⟨(key _ _ _ hc).1, .inl (key _ _ _ hc).2⟩
  | crox env opt sortEnds sortStarts argOrder filePrefix dirEntries =>
    unfold croxFileMain
    rw [hc, if_neg (by decide)]
    exact ⟨rfl, .inl ⟨_, rfl⟩⟩
  | mmedit _ file =>
    cases hd : fs file with
    | none => simp only [mmeditMain, hd]; exact ⟨trivial, .inl ⟨_, rfl⟩⟩
    | some data =>
      cases ht : Mmedit.truncate data with
      | error e =>
        refine ⟨by simp only [mmeditMain, hd, ht], .inr ⟨e, _, .mmedit fs file, ?_, ?_⟩⟩ <;> simp only [mmeditMain, hd, ht]
      | ok x =>
        simp only [mmeditMain, hd, ht]
        exact ⟨(key _ _ _ hc).1, .inl (key _ _ _ hc).2⟩

/-- **C70.** A tool that fails before it has its results leaves all files as they were; only crox, which creates its file first, and
`flamegraph` when the picture cannot be drawn, leave a file behind. -/
theorem C70_failure_leaves_files {creates : Bytes → Bool} {fs : Files} {out : Bytes} {r : Ran} (h : ToolRun creates fs out r) (f : Fault)
    (hf : r.outcome = .error f) (h1 : out ≠ utf8 "chrome_profiler.json") (h2 : out ≠ utf8 "rustc.svg") : r.files = fs := by
  have key : ∀ path data, (createFile creates fs path data (.ok ())).outcome = .error f → (createFile creates fs path data (.ok ())).files = fs := by
    intro path data hh
    unfold createFile at hh ⊢
    split at hh
    · cases hh
    · rw [if_neg ‹_›]
  cases h with
  | summarizeJson env stem =>
    unfold summarizeJsonMain at hf ⊢
    split
    · rfl
    · rename_i hj
      rw [hj] at hf
      exact key _ _ hf
  | diffJson env order percent base change =>
    unfold diffJsonMain at hf ⊢
    split
    · rfl
    · rename_i hj
      rw [hj] at hf
      exact key _ _ hf
  | stackCollapse env order stem =>
    unfold stackCollapseMain at hf ⊢
    split
    · rfl
    · rename_i hj
      rw [hj] at hf
      exact key _ _ hf
  | flamegraph => exact absurd rfl h2
  | crox => exact absurd rfl h1
  | mmedit _ file =>
    unfold mmeditMain at hf ⊢
    split
    · rfl
    · rename_i hd
      rw [hd] at hf
      simp only [] at hf
      split
      · rfl
      · rename_i ho
        rw [ho] at hf
        exact key _ _ hf

theorem path_ne {p d n q d' n' : Bytes} (h : Names p d n) (h' : Names q d' n') (hne : n ≠ n') : p ≠ q := by
  rintro rfl
  exact hne (Proofs.names_unique h h').2

theorem ext_ne {a b x y : Bytes} (h : x.length ≤ y.length) (hne : x ≠ y.drop (y.length - x.length)) : a ++ x ≠ b ++ y := by
  intro he
  apply hne
  have h3 : y = y.take (y.length - x.length) ++ y.drop (y.length - x.length) := (List.take_append_drop _ _).symm
  rw [h3, ← List.append_assoc] at he
  exact (List.append_inj' he (by rw [List.length_drop]; omega)).2

theorem output_ne {creates : Bytes → Bool} {fs : Files} {out : Bytes} {r : Ran} (h : ToolRun creates fs out r) (ht : ¬ ∃ s, out = s ++ utf8 ".truncated.mm_profdata")
    {stem dir name ext : Bytes} (hn : Names stem dir name)
    (hx : ext = utf8 "mm_profdata" ∨ ext = utf8 "events" ∨ ext = utf8 "string_data" ∨ ext = utf8 "string_index") : withExtension stem ext ≠ out := by
  have hs : (0x2F : UInt8) ∉ ext ∧ 2 ≤ ext.length ∧ 4 ≤ ext.length := by
    rcases hx with rfl | rfl | rfl | rfl <;> decide +kernel
  have h1 := Proofs.names_withExtension hn hs.1 hs.2.1
  have tail : ∀ e, e = utf8 "json" ∨ e = utf8 "svg" ∨ e = utf8 "olded" → e ≠ ([0x2E] ++ ext).drop (([0x2E] ++ ext).length - e.length) ∧ e.length ≤ ([0x2E] ++ ext).length := by
    intro e he
    rcases hx with rfl | rfl | rfl | rfl <;> rcases he with rfl | rfl | rfl <;> decide +kernel
  have ne : ∀ e a, e = utf8 "json" ∨ e = utf8 "svg" ∨ e = utf8 "olded" → fileStem name ++ [0x2E] ++ ext ≠ a ++ e := by
    intro e a he
    have := tail e he
    rw [List.append_assoc]
    exact (ext_ne (a := a) (b := fileStem name) this.2 this.1).symm
  have results : ∀ st, withExtension stem ext ≠ resultsPath st := by
    intro st heq
    cases hf : fileName st with
    | none =>
      have : resultsPath st = st := by unfold resultsPath withExtension; rw [hf]
      rw [heq, this] at h1
      rw [(Proofs.fileName_iff _ _ _).2 h1] at hf
      cases hf
    | some x =>
      obtain ⟨d, n⟩ := x
      have h2 := Proofs.names_withExtension ((Proofs.fileName_iff _ _ _).1 hf) (ext := utf8 "json") (by decide +kernel) (by decide +kernel)
      exact path_ne h1 h2 (ne _ _ (.inl rfl)) heq
  cases h with
  | summarizeJson env st => exact results _
  | diffJson env order percent base change => exact results _
  | stackCollapse env order st =>
    exact path_ne h1 (d' := []) (n' := utf8 "out.stacks_folded") ⟨⟨[], .nil, by simp⟩, .inl rfl, by decide +kernel, by decide +kernel, by decide +kernel, by decide +kernel⟩
      (by rw [show utf8 "out.stacks_folded" = utf8 "out.stacks_f" ++ utf8 "olded" by decide +kernel]; exact ne _ _ (.inr (.inr rfl)))
  | flamegraph env order fromLines st =>
    exact path_ne h1 (d' := []) (n' := utf8 "rustc.svg") ⟨⟨[], .nil, by simp⟩, .inl rfl, by decide +kernel, by decide +kernel, by decide +kernel, by decide +kernel⟩
      (by rw [show utf8 "rustc.svg" = utf8 "rustc." ++ utf8 "svg" by decide +kernel]; exact ne _ _ (.inr (.inl rfl)))
  | crox =>
    exact path_ne h1 (d' := []) (n' := utf8 "chrome_profiler.json") ⟨⟨[], .nil, by simp⟩, .inl rfl, by decide +kernel, by decide +kernel, by decide +kernel, by decide +kernel⟩
      (by rw [show utf8 "chrome_profiler.json" = utf8 "chrome_profiler." ++ utf8 "json" by decide +kernel]; exact ne _ _ (.inl rfl))
  | mmedit _ file =>
    intro heq
    cases hf : fileName file with
    | none =>
      have : truncatedPath file = file := by unfold truncatedPath withExtension; rw [hf]
      rw [heq, this] at h1
      rw [(Proofs.fileName_iff _ _ _).2 h1] at hf
      cases hf
    | some x =>
      obtain ⟨d, n⟩ := x
      apply ht
      refine ⟨d ++ fileStem n, ?_⟩
      have e : utf8 ".truncated.mm_profdata" = [dot] ++ utf8 "truncated.mm_profdata" := by decide +kernel
      unfold truncatedPath withExtension
      rw [hf, e]
      simp

/-- **C70.** Running a tool does not change what any tool reads afterwards: opening a profile gives the same before and after, unless a file
named `….truncated.mm_profdata` was written by `mmedit`. -/
theorem C70_no_interference {creates : Bytes → Bool} {fs : Files} {out : Bytes} {r : Ran} (h : ToolRun creates fs out r)
    (ht : ¬ ∃ s, out = s ++ utf8 ".truncated.mm_profdata") (v8New : Bytes → Except Fault OldDecoder) (fuel : Nat) (stem dir name : Bytes)
    (hn : Names stem dir name) : openProfile v8New fuel r.files stem = openProfile v8New fuel fs stem := by
  have same : ∀ ext, (ext = utf8 "mm_profdata" ∨ ext = utf8 "events" ∨ ext = utf8 "string_data" ∨ ext = utf8 "string_index") →
      r.files (withExtension stem ext) = fs (withExtension stem ext) := fun ext he => C70_one_file h _ (output_ne h ht hn he)
  unfold openProfile oldFiles
  rw [same fileExtension (.inl rfl)]
  have e1 := same (utf8 "events") (.inr (.inl rfl))
  have e2 := same (utf8 "string_data") (.inr (.inr (.inl rfl)))
  have e3 := same (utf8 "string_index") (.inr (.inr (.inr rfl)))
  have hany : ([withExtension stem (utf8 "events"), withExtension stem (utf8 "string_data"), withExtension stem (utf8 "string_index")].any
      fun f => (r.files f).isSome) = ([withExtension stem (utf8 "events"), withExtension stem (utf8 "string_data"),
      withExtension stem (utf8 "string_index")].any fun f => (fs f).isSome) := by
    simp only [List.any_cons, List.any_nil, e1, e2, e3]
  rw [hany]

theorem output_json (st : Bytes) (dir name : Bytes) (h : Names st dir name) : ¬ ∃ s, resultsPath st = s ++ utf8 ".truncated.mm_profdata" := by
  rintro ⟨s, hs⟩
  unfold resultsPath withExtension at hs
  rw [(Proofs.fileName_iff _ _ _).2 h] at hs
  simp only [] at hs
  exact ext_ne (by decide +kernel) (by decide +kernel) hs

/-- **C70.** Running `summarize --json`, `stack_collapse` or `flamegraph` again on the same profile gives the same files and the same
outcome. -/
theorem C70_repeatable (env : Env) (creates : Bytes → Bool) (order : List (Bytes × Nat) → List (Bytes × Nat)) (fromLines : List Bytes → Bytes × Bool)
    (stem dir name : Bytes) (hn : Names stem dir name) :
    (∀ r, r = summarizeJsonMain env creates stem → summarizeJsonMain { env with files := r.files } creates stem = r) ∧
    (∀ r, r = stackCollapseMain env creates order stem → stackCollapseMain { env with files := r.files } creates order stem = r) ∧
    (∀ r, r = flamegraphMain env creates order fromLines stem → flamegraphMain { env with files := r.files } creates order fromLines stem = r) := by
  have twice : ∀ path data o, createFile creates (createFile creates env.files path data o).files path data o = createFile creates env.files path data o := by
    intro path data o
    unfold createFile
    split
    · simp only [Ran.mk.injEq, and_true]
      funext p
      simp only [withFile]
      split <;> simp_all
    · rfl
  have folded : ¬ ∃ s, utf8 "out.stacks_folded" = s ++ utf8 ".truncated.mm_profdata" := by
    rintro ⟨s, hs⟩
    have := congrArg List.length hs
    rw [List.length_append] at this
    have h1 : (utf8 "out.stacks_folded").length = 17 := by decide +kernel
    have h2 : (utf8 ".truncated.mm_profdata").length = 22 := by decide +kernel
    omega
  have svg : ¬ ∃ s, utf8 "rustc.svg" = s ++ utf8 ".truncated.mm_profdata" := by
    rintro ⟨s, hs⟩
    have := congrArg List.length hs
    rw [List.length_append] at this
    have h1 : (utf8 "rustc.svg").length = 9 := by decide +kernel
    have h2 : (utf8 ".truncated.mm_profdata").length = 22 := by decide +kernel
    omega
  refine ⟨?_, ?_, ?_⟩
  · rintro r rfl
    have h := C70_no_interference (.summarizeJson (creates := creates) env stem) (output_json stem dir name hn) env.v8New env.fuel stem dir name hn
    have h2 : summarizeJsonTool { env with files := (summarizeJsonMain env creates stem).files } stem = summarizeJsonTool env stem := by
      unfold summarizeJsonTool
      simp only [h]
    conv_lhs => rw [summarizeJsonMain, h2]
    conv_rhs => rw [summarizeJsonMain]
    cases hj : summarizeJsonTool env stem with
    | error e => simp only [summarizeJsonMain, hj]
    | ok x =>
      obtain ⟨path, text⟩ := x
      simp only [summarizeJsonMain, hj]
      exact twice _ _ _
  · rintro r rfl
    have h := C70_no_interference (.stackCollapse (creates := creates) env order stem) folded env.v8New env.fuel stem dir name hn
    have h2 : readCollapsed { env with files := (stackCollapseMain env creates order stem).files } stem = readCollapsed env stem := by
      unfold readCollapsed
      simp only [h]
    conv_lhs => rw [stackCollapseMain, h2]
    conv_rhs => rw [stackCollapseMain]
    simp only []
    cases hj : readCollapsed env stem with
    | error e => simp only [stackCollapseMain, hj]
    | ok m =>
      simp only [stackCollapseMain, hj]
      exact twice _ _ _
  · rintro r rfl
    have h := C70_no_interference (.flamegraph (creates := creates) env order fromLines stem) svg env.v8New env.fuel stem dir name hn
    have h2 : readCollapsed { env with files := (flamegraphMain env creates order fromLines stem).files } stem = readCollapsed env stem := by
      unfold readCollapsed
      simp only [h]
    conv_lhs => rw [flamegraphMain, h2]
    conv_rhs => rw [flamegraphMain]
    simp only []
    cases hj : readCollapsed env stem with
    | error e => simp only [flamegraphMain, hj]
    | ok m =>
      simp only [flamegraphMain, hj]
      exact twice _ _ _

/-- **C58.** The lines `flamegraph` draws are the lines `stack_collapse` writes: with a newline after each, the file. -/
theorem C58_flamegraph_lines (env : Env) (order : List (Bytes × Nat) → List (Bytes × Nat)) (fromLines : List Bytes → Bytes × Bool) (stem : Bytes)
    (r : Ran) (h : r = stackCollapseMain env (fun _ => true) order stem) (hok : r.outcome = .ok ()) :
    ∃ lines, r.files (utf8 "out.stacks_folded") = some (lines.flatMap fun l => l ++ [0x0A]) ∧
      (flamegraphMain env (fun _ => true) order fromLines stem).files (utf8 "rustc.svg") = some (fromLines lines).1 ∧
      ((flamegraphMain env (fun _ => true) order fromLines stem).outcome = .ok () ↔ (fromLines lines).2 = true) := by
  subst h
  unfold stackCollapseMain at hok ⊢
  unfold flamegraphMain
  cases hj : readCollapsed env stem with
  | error e => rw [hj] at hok; cases hok
  | ok m =>
    refine ⟨flamegraphLines (order m), ?_, ?_, ?_⟩
    · simp only [createFile, withFile, if_true]
      congr 1
      unfold foldedText flamegraphLines
      rw [List.flatMap_map]
      congr 1
    · simp only [createFile, withFile, if_true]
    · simp only [createFile, if_true]
      split <;> simp_all

/-! ## Concrete cases -/

/-- A folder with a version 8 profile. -/
def exOldFolder : Files := fun p => if p = utf8 "d/a.mm_profdata" then some (magicTopLevel ++ [8, 0, 0, 0] ++ storeOf exOldFile) else none

example : (mmeditMain (fun _ => true) exOldFolder (utf8 "d/a.mm_profdata")).outcome = .ok () ∧
    ((mmeditMain (fun _ => true) exOldFolder (utf8 "d/a.mm_profdata")).files (utf8 "d/a.truncated.mm_profdata")).map List.length = some 33 := by
  decide +kernel

/-- `mmedit` in a directory that cannot be written to. -/
example : (mmeditMain (fun _ => false) exOldFolder (utf8 "d/a.mm_profdata")).outcome = .error (.err "Permission denied") := by decide +kernel

/-- A profile that no tool changes. -/
example : IsProfile (utf8 "d/a.mm_profdata") ∧ ¬ ∃ s, utf8 "d/a.mm_profdata" = s ++ utf8 ".truncated.mm_profdata" := by
  refine ⟨⟨utf8 "d/", utf8 "a", ⟨⟨[], .nil, by decide +kernel⟩, .inr (by decide +kernel), by decide +kernel, by decide +kernel, by decide +kernel, by decide +kernel⟩,
    by decide +kernel⟩, ?_⟩
  rintro ⟨s, hs⟩
  have := congrArg List.length hs
  rw [List.length_append] at this
  have h1 : (utf8 "d/a.mm_profdata").length = 15 := by decide +kernel
  have h2 : (utf8 ".truncated.mm_profdata").length = 22 := by decide +kernel
  omega

/-- A failing run: a tool asked for a profile that does not exist. -/
example : ∃ f, (stackCollapseMain ⟨fun _ => .error .outOfFuel, 9, true, exOldFolder⟩ (fun _ => true) id (utf8 "d/b")).outcome = .error f := by
  have h : exOldFolder (utf8 "d/b.mm_profdata") = none := by decide +kernel
  exact ⟨_, rfl⟩

/-- `C58_flamegraph_lines` on a session. -/
example : ∃ es n, exSession.Seen es ∧ ∀ (env : Env), n ≤ env.fuel → env.files (profilerPath (utf8 "dir/prof")) = some exSession.file →
    (stackCollapseMain env (fun _ => true) id (utf8 "dir/prof")).outcome = .ok () := by
  obtain ⟨es, h1, n, h2⟩ := C62_stack_collapse exSession exSession_readable exSession_scoped (by decide +kernel)
  refine ⟨es, n, h1, fun env hf hfile => ?_⟩
  obtain ⟨text, ht, -⟩ := h2 env (utf8 "dir/prof") hf hfile
  unfold stackCollapseTool at ht
  unfold stackCollapseMain
  simp only [bind, Except.bind] at ht ⊢
  cases hr : readCollapsed env (utf8 "dir/prof") with
  | error e => rw [hr] at ht; cases ht
  | ok m => rfl

end Verif.Props
