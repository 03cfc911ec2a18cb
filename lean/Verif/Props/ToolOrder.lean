import Verif.Props.CroxOrder
import Verif.Props.InterleaveCollapse

/-!
# C85 for whole runs of `stack_collapse`
-/

namespace Verif.Props

open Verif Verif.Mm Verif.Spec Verif.Decode Verif.Analyze

/-- **C85.** Whole runs: if `stack_collapse` succeeds on two profiles whose threads recorded the same events, interleaved differently, the two
files it writes have the same lines, in some order (that of a hash map). -/
theorem C85_tool (env env' : Tools.Env) (stem stem' : Bytes) (p q : ProfilingData) (es fs : List Event)
    (hp : Paths.openProfile env.v8New env.fuel env.files stem = .ok p) (hq : Paths.openProfile env'.v8New env'.fuel env'.files stem' = .ok q)
    (hes : p.fullEvents = .ok es) (hfs : q.fullEvents = .ok fs)
    (hagp : ∀ i l e, p.decodeLightweight i = .ok l → p.decodeFull l.eventIndex = .ok e → l = ⟨i, e.threadId, e.payload⟩)
    (hagq : ∀ i l e, q.decodeLightweight i = .ok l → q.decodeFull l.eventIndex = .ok e → l = ⟨i, e.threadId, e.payload⟩)
    (hs : SameThreads es fs) (ta tb : Bytes) (ha : Tools.stackCollapseTool env stem = .ok ta) (hb : Tools.stackCollapseTool env' stem' = .ok tb) :
    ∃ la lb : List Bytes, ta = la.flatten ∧ tb = lb.flatten ∧ la.Perm lb ∧ ∀ l ∈ la, ∃ stack n, l = stack ++ utf8 " " ++ utf8 (decimal n) ++ utf8 "\n" := by
  have open_tool : ∀ (env : Tools.Env) (stem : Bytes) (p : ProfilingData) (es : List Event) (t : Bytes),
      Paths.openProfile env.v8New env.fuel env.files stem = .ok p → p.fullEvents = .ok es →
      (∀ i l e, p.decodeLightweight i = .ok l → p.decodeFull l.eventIndex = .ok e → l = ⟨i, e.threadId, e.payload⟩) →
      Tools.stackCollapseTool env stem = .ok t → ∃ m, collapse env.checks es = .ok m ∧ t = foldedText m := by
    intro env stem p es t hp hes hag h
    simp only [Tools.stackCollapseTool, Tools.readCollapsed, bind, Except.bind, hp, collapse_eq env.checks p es hes hag] at h
    cases hm : collapse env.checks es with
    | error e => rw [hm] at h; cases h
    | ok m => rw [hm] at h; cases h; exact ⟨m, rfl, rfl⟩
  obtain ⟨ma, hma, rfl⟩ := open_tool env stem p es ta hp hes hagp ha
  obtain ⟨mb, hmb, rfl⟩ := open_tool env' stem' q fs tb hq hfs hagq hb
  have hperm : ma.Perm mb :=
    (List.perm_ext_iff_of_nodup (List.Nodup.of_map _ (C41_any_stream _ es ma hma).1) (List.Nodup.of_map _ (C41_any_stream _ fs mb hmb).1)).2
      fun x => C85_interleaving _ _ es fs hs ma mb hma hmb x.1 x.2
  refine ⟨ma.map (fun x => x.1 ++ utf8 " " ++ utf8 (decimal x.2) ++ utf8 "\n"), mb.map (fun x => x.1 ++ utf8 " " ++ utf8 (decimal x.2) ++ utf8 "\n"),
    rfl, rfl, hperm.map _, ?_⟩
  intro l hl
  obtain ⟨x, _, rfl⟩ := List.mem_map.1 hl
  exact ⟨x.1, x.2, rfl⟩

/-- The hypotheses are met, and the two files are not empty. -/
example : ∃ ta tb, Tools.stackCollapseTool (oldEnv oldWays.1) (utf8 "x") = .ok ta ∧ Tools.stackCollapseTool (oldEnv oldWays.2) (utf8 "y") = .ok tb ∧
    ta ≠ [] ∧ ∃ la lb : List Bytes, ta = la.flatten ∧ tb = lb.flatten ∧ la.Perm lb := by
  have hopen : ∀ es stem, Paths.openProfile (oldEnv es).v8New (oldEnv es).fuel (oldEnv es).files stem = .ok (v8Data (oldRecorded es)) := fun _ _ => rfl
  cases ha : Tools.stackCollapseTool (oldEnv oldWays.1) (utf8 "x") with
  | error e =>
    have h : (Tools.stackCollapseTool (oldEnv oldWays.1) (utf8 "x")).isOk = true := by decide +kernel
    rw [ha] at h; cases h
  | ok ta =>
    cases hb : Tools.stackCollapseTool (oldEnv oldWays.2) (utf8 "y") with
    | error e =>
      have h : (Tools.stackCollapseTool (oldEnv oldWays.2) (utf8 "y")).isOk = true := by decide +kernel
      rw [hb] at h; cases h
    | ok tb =>
      have hne : ta ≠ [] := by
        rintro rfl
        have h : (Tools.stackCollapseTool (oldEnv oldWays.1) (utf8 "x")).map (fun t => decide (t.length = 0)) = .ok false := by decide +kernel
        rw [ha] at h
        exact absurd h (by simp [Except.map])
      obtain ⟨la, lb, h1, h2, h3, -⟩ := C85_tool _ _ _ _ (v8Data (oldRecorded oldWays.1)) (v8Data (oldRecorded oldWays.2)) croxWays.1 croxWays.2
        (hopen _ _) (hopen _ _) rfl rfl (oldRecorded_agrees _) (oldRecorded_agrees _) croxWays_same ta tb ha hb
      exact ⟨ta, tb, rfl, rfl, hne, la, lb, h1, h2, h3⟩

end Verif.Props
