import Verif.Proofs.Create
import Verif.Props.EndToEnd

/-!
# Property C78: creating a profile

Which paths are accepted, which directory is made, which file is replaced, and that what is read afterwards is the new session alone.
-/

namespace Verif.Props
open Verif Verif.Mm Verif.Spec Verif.Decode Verif.Paths Verif.Tools Verif.Proofs

/-- **C78.** Creating a profiler panics exactly if the path is empty or the root (in any spelling: only `/` and `/.`); then no directory and no
file is touched. -/
theorem C78_panics_iff (os : Os) (fs : Files) (stem : Bytes) :
    (IsPanic (startProfile os fs stem).outcome ↔ Trailing stem) ∧
    (Trailing stem → (startProfile os fs stem).dir = none ∧ (startProfile os fs stem).files = fs) := by
  unfold startProfile
  simp only []
  cases hp : parent (withExtension stem fileExtension) with
  | none =>
    have ht := (parent_profilerPath_none_iff stem).1 hp
    simp [IsPanic, ht]
  | some d =>
    have ht : ¬ Trailing stem := fun h => by rw [(parent_profilerPath_none_iff stem).2 h] at hp; cases hp
    simp only [ht, iff_false, false_imp_iff, and_true]
    split
    · split
      · split <;> simp [IsPanic]
      · simp [IsPanic]
    · simp [IsPanic]

/-- **C78.** For a path `dir` + name, the directory `dir` is asked for (without what is superfluous at its end). -/
theorem C78_directory (os : Os) (fs : Files) (stem dir name : Bytes) (h : Names stem dir name) :
    ∃ d, (startProfile os fs stem).dir = some d ∧ DirectoryOf dir d := by
  obtain ⟨n, hn⟩ := profilerPath_names h
  obtain ⟨d, hd, ho⟩ := parent_of_names hn
  refine ⟨d, ?_, ho⟩
  unfold startProfile
  simp only [hd]
  split
  · split
    · split <;> rfl
    · rfl
  · rfl

/-- **C78.** Whatever happens, no file but the profile's own is changed, and it only if the file could be created: if the directory or
the file cannot be created, there is an error and all files are as before. -/
theorem C78_other_files (os : Os) (fs : Files) (stem : Bytes) (metadata : String) (calls : List ProfCall) :
    (∀ p, p ≠ profilerPath stem → (recordProfile os fs stem metadata calls).files p = fs p) ∧
    ((∀ d, (startProfile os fs stem).dir = some d → os.makesDirs d = false) ∨ os.creates (profilerPath stem) = false →
      (recordProfile os fs stem metadata calls).files = fs ∧ ∀ u, (recordProfile os fs stem metadata calls).outcome ≠ .ok u) := by
  constructor
  · unfold recordProfile startProfile profilerPath
    simp only []
    intro p hp
    split <;> rename_i h <;> simp only [] <;> (repeat' split) <;> simp_all [withFile]
  · intro ho
    have key : (startProfile os fs stem).files = fs ∧ ∀ u, (startProfile os fs stem).outcome ≠ .ok u := by
      unfold startProfile at ho ⊢
      unfold profilerPath at ho
      simp only [] at ho ⊢
      cases hp : parent (withExtension stem fileExtension) with
      | none => simp
      | some d =>
        rw [hp] at ho
        simp only [] at ho ⊢
        by_cases hm : os.makesDirs d = true
        · by_cases hc : os.creates (withExtension stem fileExtension) = true
          · exfalso
            rcases ho with ho | ho
            · have := ho d (by simp only [hm, hc, if_true]; split <;> rfl)
              rw [hm] at this; cases this
            · rw [hc] at ho; cases ho
          · simp [hm, hc]
        · simp [hm]
    unfold recordProfile
    simp only []
    cases h : (startProfile os fs stem).outcome with
    | ok u => exact (key.2 u h).elim
    | error e => exact ⟨key.1, by simp⟩

/-- **C78.** If the new file can be created but its first bytes cannot be written, there is an error, the old contents of the file are lost,
and opening the profile then gives an error. -/
theorem C78_no_room (os : Os) (fs : Files) (stem dir name : Bytes) (h : Names stem dir name) (metadata : String) (calls : List ProfCall)
    (hd : ∀ d, DirectoryOf dir d → os.makesDirs d = true) (hc : os.creates (profilerPath stem) = true) (hr : os.room < 8) :
    IsErr (recordProfile os fs stem metadata calls).outcome ∧
    (recordProfile os fs stem metadata calls).files (profilerPath stem) = some ((utf8 "MMPD" ++ [9, 0, 0, 0]).take os.room) ∧
    ∀ (v8New : Bytes → Except Fault OldDecoder) (fuel : Nat), IsErr (openProfile v8New fuel (recordProfile os fs stem metadata calls).files stem) := by
  obtain ⟨n, hn⟩ := profilerPath_names h
  obtain ⟨d, hp, ho⟩ := parent_of_names hn
  have hh : fileHeader magicTopLevel = utf8 "MMPD" ++ [9, 0, 0, 0] := by decide +kernel
  have hl : ¬ (fileHeader magicTopLevel).length ≤ os.room := by rw [hh]; simpa [show (utf8 "MMPD").length = 4 by decide +kernel] using hr
  have e : recordProfile os fs stem metadata calls =
      ⟨some d, withFile fs (profilerPath stem) ((utf8 "MMPD" ++ [9, 0, 0, 0]).take os.room), .error (.err "write failed")⟩ := by
    unfold recordProfile startProfile
    unfold profilerPath at hc
    simp only [hp, hd d ho, if_true, hc, if_neg hl]
    rw [hh]
    rfl
  rw [e]
  refine ⟨trivial, by simp [withFile], fun v8New fuel => ?_⟩
  unfold openProfile
  have : withFile fs (profilerPath stem) ((utf8 "MMPD" ++ [9, 0, 0, 0]).take os.room) (withExtension stem fileExtension) =
      some ((utf8 "MMPD" ++ [9, 0, 0, 0]).take os.room) := by simp [withFile, profilerPath]
  simp only [this]
  unfold fromPagedBuffer
  have hs : ((utf8 "MMPD" ++ [9, 0, 0, 0]).take os.room).length < fileHeaderSize := by
    rw [List.length_take]
    unfold fileHeaderSize
    omega
  unfold readFileHeader
  simp only [if_pos hs]
  trivial

/-- **C78.** If directory and file can be created and the file can be written, the file of the profile is what the session leaves, whatever
was there before. -/
theorem C78_replaces (os : Os) (fs : Files) (stem dir name : Bytes) (h : Names stem dir name) (s : Session)
    (hd : ∀ d, DirectoryOf dir d → os.makesDirs d = true) (hc : os.creates (profilerPath stem) = true) (hr : 8 ≤ os.room) :
    (recordProfile os fs stem (metadataText s.start s.pid s.args s.counter) s.calls).outcome = .ok () ∧
    (recordProfile os fs stem (metadataText s.start s.pid s.args s.counter) s.calls).files (profilerPath stem) = some s.file := by
  obtain ⟨n, hn⟩ := profilerPath_names h
  obtain ⟨d, hp, ho⟩ := parent_of_names hn
  have hl : (fileHeader magicTopLevel).length ≤ os.room := by
    have : (fileHeader magicTopLevel).length = 8 := by decide +kernel
    omega
  unfold recordProfile startProfile
  unfold profilerPath at hc ⊢
  simp only [hp, hd d ho, if_true, hc, if_pos hl]
  exact ⟨trivial, by simp [withFile, Session.file]⟩

/-- **C78.** Reading the profile back by the same path, or by any path that leads to the same file, gives the events of that session and of no
other: it does not matter what files there were, in particular not whether there was a profile or files of the old format. -/
theorem C78_reads_back (s : Session) (readable : s.Readable) :
    ∃ es, s.Seen es ∧ ∃ n, ∀ (os : Os) (env : Env) (fs : Files) (stem dir name stem' : Bytes), Names stem dir name →
      (∀ d, DirectoryOf dir d → os.makesDirs d = true) → os.creates (profilerPath stem) = true → 8 ≤ os.room →
      n ≤ env.fuel → env.files = (recordProfile os fs stem (metadataText s.start s.pid s.args s.counter) s.calls).files →
      profilerPath stem' = profilerPath stem → readEvents env stem' = .ok es := by
  obtain ⟨es, h1, n, h2⟩ := C62_read_back s readable
  refine ⟨es, h1, n, fun os env fs stem dir name stem' h hd hc hr hf he hs => h2 env stem' hf ?_⟩
  rw [he, hs]
  exact (C78_replaces os fs stem dir name h s hd hc hr).2

/-- A system that can do everything. -/
def ableOs : Os := ⟨fun _ => true, fun _ => true, 1000⟩

example : Names (utf8 "out/./run.1/") (utf8 "out/./") (utf8 "run.1") ∧ DirectoryOf (utf8 "out/./") (utf8 "out") ∧
    profilerPath (utf8 "out/./run.1/") = utf8 "out/./run.mm_profdata" :=
  ⟨⟨⟨[0x2F], .sep .nil, by decide +kernel⟩, .inr (by decide +kernel), by decide +kernel, by decide +kernel, by decide +kernel, by decide +kernel⟩,
    .inr (.inr ⟨[0x2F, 0x2E, 0x2F], .sep (.cur .nil), by decide +kernel, by decide +kernel, by decide +kernel, by
      intro x hx
      have := congrArg List.getLast? hx
      have h2 : List.getLast? (utf8 "out") = some 0x74 := by decide +kernel
      rw [h2, List.getLast?_append] at this
      simp at this⟩), by decide +kernel⟩

/-- Only the second of two sessions under colliding names is there in the end. -/
example (s : Session) (fs : Files) (m : String) (calls : List ProfCall) :
    (recordProfile ableOs (recordProfile ableOs fs (utf8 "run.1") m calls).files (utf8 "run.2")
      (metadataText s.start s.pid s.args s.counter) s.calls).files (utf8 "run.mm_profdata") = some s.file := by
  have e : utf8 "run.mm_profdata" = profilerPath (utf8 "run.2") := by decide +kernel
  rw [e]
  exact (C78_replaces ableOs _ (utf8 "run.2") [] (utf8 "run.2")
    ⟨⟨[], .nil, by decide +kernel⟩, .inl rfl, by decide +kernel, by decide +kernel, by decide +kernel, by decide +kernel⟩ s
    (fun _ _ => rfl) rfl (by decide)).2

example (fs : Files) : IsPanic (startProfile ableOs fs (utf8 "/./")).outcome :=
  ((C78_panics_iff ableOs fs _).1).2 (.sep (.cur .nil))

/-- A full disk: the old profile is gone, and what is left cannot be opened. -/
example (fs : Files) (m : String) (calls : List ProfCall) :
    (recordProfile ⟨fun _ => true, fun _ => true, 5⟩ fs (utf8 "run") m calls).files (utf8 "run.mm_profdata") = some (utf8 "MMPD" ++ [9]) := by
  have e : utf8 "run.mm_profdata" = profilerPath (utf8 "run") := by decide +kernel
  rw [e, (C78_no_room ⟨fun _ => true, fun _ => true, 5⟩ fs (utf8 "run") [] (utf8 "run")
    ⟨⟨[], .nil, by decide +kernel⟩, .inl rfl, by decide +kernel, by decide +kernel, by decide +kernel, by decide +kernel⟩ m calls
    (fun _ _ => rfl) rfl (by decide)).2.1]
  decide +kernel

example (fs : Files) : ∃ es, exSession.Seen es ∧ ∃ n, ∀ env : Env, n ≤ env.fuel →
    env.files = (recordProfile ableOs fs (utf8 "run") (metadataText exSession.start exSession.pid exSession.args exSession.counter) exSession.calls).files →
    readEvents env (utf8 "run") = .ok es := by
  obtain ⟨es, h1, n, h2⟩ := C78_reads_back exSession exSession_readable
  exact ⟨es, h1, n, fun env hf he => h2 ableOs env fs (utf8 "run") [] (utf8 "run") (utf8 "run")
    ⟨⟨[], .nil, by decide +kernel⟩, .inl rfl, by decide +kernel, by decide +kernel, by decide +kernel, by decide +kernel⟩
    (fun _ _ => rfl) rfl (by decide) hf he rfl⟩

end Verif.Props
