import Verif.Props.Path
import Verif.Props.Decoder
import Verif.Props.Damaged
import Verif.Spec.Refused

/-! # C75: what is said about a profile that is refused -/

namespace Verif.Props

open Verif Verif.Mm Verif.Decode Verif.Paths Verif.Spec Verif.Proofs

theorem display_utf8 (s : String) : display (utf8 s) = s := by
  unfold display
  rw [lossy_utf8, utf8_eq_toByteArray]
  have e : (⟨s.toByteArray.data.toList.toArray⟩ : ByteArray) = s.toByteArray := by simp
  rw [e]
  unfold String.fromUTF8?
  rw [dif_pos s.isValidUTF8]
  rfl

/-- **C75.** If there is no file with the extension `.mm_profdata`, opening is an error that names this file; it also says that
the data are from an out-dated version exactly if one of the three files of the old format is there. -/
theorem C75_missing_file (v8New : Bytes → Except Fault OldDecoder) (fuel : Nat) (fs : Files) (p name : Bytes) (dir base : String)
    (hp : Names p (utf8 dir) name)
    (hb : (∃ ext, HasExtension name (utf8 base) ext) ∨ (name = utf8 base ∧ ∀ stem ext, ¬ HasExtension name stem ext))
    (hf : fs (utf8 (dir ++ base ++ ".mm_profdata")) = none) :
    (((∃ ext ∈ [".events", ".string_data", ".string_index"], fs (utf8 (dir ++ base ++ ext)) ≠ none) →
      openProfile v8New fuel fs p = .error (.err ("Could not find profiling data file `" ++ dir ++ base ++ ".mm_profdata`." ++
        "It looks like your profiling data has been generated by an out-dated version of measureme (0.7 or older).")))) ∧
    ((∀ ext ∈ [".events", ".string_data", ".string_index"], fs (utf8 (dir ++ base ++ ext)) = none) →
      openProfile v8New fuel fs p = .error (.err ("Could not find profiling data file `" ++ dir ++ base ++ ".mm_profdata`."))) := by
  have hs : fileStem name = utf8 base := by
    rcases hb with ⟨ext, h⟩ | ⟨h, hn⟩
    · exact fileStem_ext h
    · rcases fileStem_cases name with ⟨ext, h'⟩ | ⟨h', -⟩
      · exact absurd h' (hn _ _)
      · rw [h', h]
  have hw : ∀ s : String, withExtension p (utf8 s) = utf8 (dir ++ base ++ ("." ++ s)) := by
    intro s
    have : utf8 "." = [dot] := by decide +kernel
    rw [withExtension_of_names hp, hs]
    simp only [utf8_append, this]
    simp [dot]
  have e0 : withExtension p fileExtension = utf8 (dir ++ base ++ ".mm_profdata") := hw "mm_profdata"
  have e1 := hw "events"
  have e2 := hw "string_data"
  have e3 := hw "string_index"
  rw [show ("." : String) ++ "events" = ".events" from rfl] at e1
  rw [show ("." : String) ++ "string_data" = ".string_data" from rfl] at e2
  rw [show ("." : String) ++ "string_index" = ".string_index" from rfl] at e3
  have em : ("Could not find profiling data file `" ++ (dir ++ base ++ ".mm_profdata") ++ "`." : String) =
      "Could not find profiling data file `" ++ dir ++ base ++ ".mm_profdata`." := by
    rw [← String.toList_inj]
    simp [String.toList_append]
  constructor
  · rintro ⟨ext, hm, hx⟩
    unfold openProfile
    rw [e0, hf]
    simp only [display_utf8, oldFiles, e1, e2, e3, em]
    rw [if_pos]
    simp only [List.any_cons, List.any_nil, Bool.or_false, Bool.or_eq_true, Option.isSome_iff_ne_none]
    simp only [List.mem_cons, List.not_mem_nil, or_false] at hm
    rcases hm with rfl | rfl | rfl
    · exact Or.inl hx
    · exact Or.inr (Or.inl hx)
    · exact Or.inr (Or.inr hx)
  · intro h
    unfold openProfile
    rw [e0, hf]
    simp only [display_utf8, oldFiles, e1, e2, e3, em]
    rw [if_neg]
    simp only [List.any_cons, List.any_nil, Bool.or_false, h ".events" (by simp), h ".string_data" (by simp),
      h ".string_index" (by simp)]
    simp

example : Names (utf8 "out/run.events") (utf8 "out/") (utf8 "run.events") ∧
    HasExtension (utf8 "run.events") (utf8 "run") (utf8 "events") ∧
    (fun f => if f = utf8 "out/run.events" then some ([] : Bytes) else none) (utf8 ("out/" ++ "run" ++ ".mm_profdata")) = none ∧
    (fun f => if f = utf8 "out/run.events" then some ([] : Bytes) else none) (utf8 ("out/" ++ "run" ++ ".events")) ≠ none := by
  refine ⟨⟨⟨[], .nil, by decide +kernel⟩, Or.inr (by decide +kernel), by decide +kernel, by decide +kernel, by decide +kernel,
    by decide +kernel⟩, ⟨by decide +kernel, by decide +kernel, by decide +kernel⟩, by decide +kernel, by decide +kernel⟩

/-- **C75.** A file of an unsupported version is refused with a message that names the version it has.  The message says that
the version is too new, and to upgrade, also if it is older than every supported one. -/
theorem C75_unsupported_version (v8New : Bytes → Except Fault OldDecoder) (fuel : Nat) (b0 b1 b2 b3 : UInt8) (rest : Bytes) (v : Nat)
    (hv : v = b0.toNat + 256 * b1.toNat + 65536 * b2.toNat + 16777216 * b3.toNat) :
    (9 < v → fromPagedBuffer diag v8New fuel (utf8 "MMPD" ++ [b0, b1, b2, b3] ++ rest) = .error (.err
      ("File version " ++ toString v ++ " is too new for this version of measureme. Try upgrading your tools to the latest version."))) ∧
    (v < 8 → fromPagedBuffer diag v8New fuel (utf8 "MMPD" ++ [b0, b1, b2, b3] ++ rest) = .error (.err
      ("File version " ++ toString v ++ " is too new for this version of the measureme tool suite. " ++
        "Try upgrading the tool suite to the latest version."))) := by
  have hm : magicTopLevel = utf8 "MMPD" := by decide
  have hr : readFileHeader diag "top-level" (utf8 "MMPD" ++ [b0, b1, b2, b3] ++ rest) magicTopLevel = .ok v := by
    rw [C11_read_iff _ magicTopLevel v rfl, hm]
    exact ⟨b0, b1, b2, b3, rest, rfl, by omega⟩
  have e8 : fileFormatV8 = 8 := rfl
  have e9 : fileFormatV9 = 9 := rfl
  constructor
  · intro h
    unfold fromPagedBuffer
    simp only [bind, Except.bind, hr]
    rw [if_neg (by omega), if_neg (by omega), if_pos (by omega)]
    rfl
  · intro h
    unfold fromPagedBuffer
    simp only [bind, Except.bind, hr]
    rw [if_neg (by omega), if_neg (by omega), if_neg (by omega)]
    have e : (" is too new for this version of the measureme tool suite. Try upgrading the tool suite to the latest version." : String) =
      " is too new for this version of the measureme tool suite. " ++ "Try upgrading the tool suite to the latest version." := by
      decide +kernel
    rw [String.append_assoc (s₁ := "File version " ++ toString v), ← e]
    rfl

/-- A file of version 7. -/
example : ∃ rest, utf8 "MMPD" ++ [7, 0, 0, 0] ++ rest = [0x4D, 0x4D, 0x50, 0x44, 7, 0, 0, 0, 1, 2, 3] ∧
    7 = (7 : UInt8).toNat + 256 * (0 : UInt8).toNat + 65536 * (0 : UInt8).toNat + 16777216 * (0 : UInt8).toNat :=
  ⟨[1, 2, 3], by decide +kernel, by decide⟩

theorem debug_four (a b c d : UInt8) : debugBytes [a, b, c, d] =
    "[" ++ toString a.toNat ++ ", " ++ toString b.toNat ++ ", " ++ toString c.toNat ++ ", " ++ toString d.toNat ++ "]" := by
  unfold debugBytes
  rw [← String.toList_inj]
  simp [String.toList_append]

theorem complaint_verify {file stream kind msg : String} {bytes : Bytes} (h4 : (utf8 kind).length = 4)
    (h : Complaint file stream kind bytes msg) : verifyFileHeader (some file) stream bytes (utf8 kind) = .error (.err msg) := by
  have e8 : fileHeaderSize = 8 := rfl
  have ts : ∀ s : String, toString s = s := fun _ => rfl
  cases h with
  | short hs =>
    unfold verifyFileHeader
    rw [if_pos (by rw [e8]; exact hs)]
    have e : toString fileHeaderSize = "8" := by decide +kernel
    rw [e]
    refine congrArg (fun s => Except.error (Fault.err s)) ?_
    rw [← String.toList_inj]
    simp [String.toList_append, ts]
  | @letters k0 k1 k2 k3 a b c d e f g h rest hk hne =>
    unfold verifyFileHeader
    rw [hk] at hne ⊢
    have ht : ([a, b, c, d, e, f, g, h] ++ rest).take 4 = [a, b, c, d] := rfl
    rw [if_neg (by rw [e8]; simp), ht, if_pos hne, debug_four, debug_four]
    refine congrArg (fun s => Except.error (Fault.err s)) ?_
    rw [← String.toList_inj]
    simp [String.toList_append, ts]
  | @version e f g h rest v hv h9 =>
    have ht : (utf8 kind ++ [e, f, g, h] ++ rest).take 4 = utf8 kind := by
      rw [List.append_assoc, List.take_left' h4]
    have hd : ((utf8 kind ++ [e, f, g, h] ++ rest).take 8).drop 4 = [e, f, g, h] := by
      rw [List.take_left' (by simp [h4]), List.drop_left' h4]
    have hf : fromLe [e, f, g, h] = v := by simp [fromLe]; omega
    unfold verifyFileHeader
    rw [if_neg (by rw [e8]; simp [h4]; omega), if_neg (by rw [ht]; simp), hd, hf, if_pos (by rw [show currentFileFormatVersion = 9 from rfl]; exact h9)]
    have e : toString currentFileFormatVersion = "9" := by decide +kernel
    rw [e]
    refine congrArg (fun s => Except.error (Fault.err s)) ?_
    rw [← String.toList_inj]
    simp [String.toList_append, ts]

theorem complaint_of_not_headed {file stream kind : String} {bytes : Bytes} (h4 : (utf8 kind).length = 4)
    (h : ¬ ∃ body, Headed kind bytes body) : ∃ msg, Complaint file stream kind bytes msg := by
  by_cases hs : bytes.length < 8
  · exact ⟨_, .short hs⟩
  · match bytes, hs with
    | a :: b :: c :: d :: e :: f :: g :: i :: rest, hs =>
      by_cases hk : [a, b, c, d] = utf8 kind
      · have := Complaint.version (file := file) (stream := stream) (kind := kind) (rest := rest) (e := e) (f := f) (g := g) (h := i) rfl (by
          intro h9
          apply h
          refine ⟨rest, ?_⟩
          unfold Headed
          rw [← hk]
          have e1 : e = 9 := by apply UInt8.toNat_inj.mp; have := e.toNat_lt; simp; omega
          have e2 : f = 0 := by apply UInt8.toNat_inj.mp; have := e.toNat_lt; simp; omega
          have e3 : g = 0 := by apply UInt8.toNat_inj.mp; have := e.toNat_lt; simp; omega
          have e4 : i = 0 := by apply UInt8.toNat_inj.mp; have := e.toNat_lt; simp; omega
          rw [e1, e2, e3, e4]
          rfl)
        rw [← hk] at this
        exact ⟨_, this⟩
      · obtain ⟨k0, k1, k2, k3, hk'⟩ : ∃ k0 k1 k2 k3, utf8 kind = [k0, k1, k2, k3] := by
          match utf8 kind, h4 with
          | [k0, k1, k2, k3], _ => exact ⟨k0, k1, k2, k3, rfl⟩
        exact ⟨_, Complaint.letters hk' hk⟩
    | [], hs | [_], hs | [_, _], hs | [_, _, _], hs | [_, _, _, _], hs | [_, _, _, _, _], hs | [_, _, _, _, _, _], hs | [_, _, _, _, _, _, _], hs =>
      simp at hs

theorem read_of_verify {file stream : String} {bytes magic : Bytes} {msg : String}
    (h : verifyFileHeader (some file) stream bytes magic = .error (.err msg)) (hv : bytes.length < 8 ∨ bytes.take 4 ≠ magic) :
    readFileHeader (some file) stream bytes magic = .error (.err msg) := by
  have e8 : fileHeaderSize = 8 := rfl
  unfold verifyFileHeader at h
  unfold readFileHeader
  by_cases h1 : bytes.length < 8
  · rw [if_pos (by rw [e8]; exact h1)] at h ⊢
    injection h with h
    rw [h]
  · rw [if_neg (by rw [e8]; exact h1), if_pos (by tauto)] at h ⊢
    injection h with h
    rw [h]

/-- **C75.** A file that has fewer than eight bytes or does not begin with the letters `MMPD` is refused with an error that names the
file and what was found. -/
theorem C75_no_header (v8New : Bytes → Except Fault OldDecoder) (fuel : Nat) (fs : Files) (p : Bytes) (file : String) (data : Bytes)
    (hp : profilerPath p = utf8 file) (hf : fs (utf8 file) = some data) (h : data.length < 8 ∨ data.take 4 ≠ utf8 "MMPD") :
    ∃ msg, Complaint file "top-level" "MMPD" data msg ∧ openProfile v8New fuel fs p = .error (.err msg) := by
  have hn : ¬ ∃ body, Headed "MMPD" data body := by
    rintro ⟨body, hb⟩
    unfold Headed at hb
    have h4 : (utf8 "MMPD").length = 4 := by decide +kernel
    rcases h with h | h
    · rw [hb] at h; simp [h4] at h; omega
    · apply h; rw [hb, List.append_assoc, List.take_left' h4]
  obtain ⟨msg, hm⟩ := complaint_of_not_headed (file := file) (stream := "top-level") (by decide +kernel) hn
  refine ⟨msg, hm, ?_⟩
  have hr := read_of_verify (complaint_verify (by decide +kernel) hm) h
  rw [show utf8 "MMPD" = magicTopLevel by decide +kernel] at hr
  unfold profilerPath at hp
  unfold openProfile
  rw [hp, hf]
  simp only [display_utf8, fromPagedBuffer, bind, Except.bind, hr]

/-- **C75.** A file of the current version that has pages but lacks one of the three streams is refused with an error that says which
(strings before index before events); one whose streams are all there but do not all begin with their headers, with an error that names the file,
the stream (events before strings before index) and what was found. -/
theorem C75_bad_stream (v8New : Bytes → Except Fault OldDecoder) (fuel : Nat) (fs : Files) (p : Bytes) (file : String) (data : Bytes) (pages : List Page)
    (hp : profilerPath p = utf8 file) (hf : fs (utf8 file) = some data) (hg : ProperPages pages) (hd : Headed "MMPD" data (storeOf pages)) :
    ((¬ ∃ q ∈ pages, q.tag = .stringData) → openProfile v8New fuel fs p = .error (.err "Invalid file: No string data found")) ∧
    ((∃ q ∈ pages, q.tag = .stringData) → (¬ ∃ q ∈ pages, q.tag = .stringIndex) →
      openProfile v8New fuel fs p = .error (.err "Invalid file: No string index data found")) ∧
    ((∃ q ∈ pages, q.tag = .stringData) → (∃ q ∈ pages, q.tag = .stringIndex) →
      ((¬ ∃ q ∈ pages, q.tag = .events) → openProfile v8New fuel fs p = .error (.err "Invalid file: No event data found")) ∧
      ((∃ q ∈ pages, q.tag = .events) →
        ∀ msg, (Complaint file "event" "MMES" (streamOf .events pages) msg ∨
            (∃ b, Headed "MMES" (streamOf .events pages) b) ∧ Complaint file "StringTable Data" "MMSD" (streamOf .stringData pages) msg ∨
            (∃ b, Headed "MMES" (streamOf .events pages) b) ∧ (∃ b, Headed "MMSD" (streamOf .stringData pages) b) ∧
              Complaint file "StringTable Index" "MMSI" (streamOf .stringIndex pages) msg) →
          openProfile v8New fuel fs p = .error (.err msg))) := by
  have hm : magicTopLevel = utf8 "MMPD" := by decide
  have e8 : fileHeaderSize = 8 := rfl
  have hr : readFileHeader (some file) "top-level" data magicTopLevel = .ok 9 := by
    rw [C11_read_iff _ magicTopLevel 9 rfl, hm]
    exact ⟨9, 0, 0, 0, _, hd, by decide⟩
  obtain ⟨hv, hdr, _⟩ := (headed_verify (diag := some file) (stream := "top-level") (kind := "MMPD") (magic := magicTopLevel) (by decide) rfl data).1 _ hd
  have hopen : openProfile v8New fuel fs p = (EventDecoder.new (some file) fuel data).map (v9Data fuel) := by
    unfold profilerPath at hp
    unfold openProfile
    rw [hp, hf]
    simp only [display_utf8, fromPagedBuffer, bind, Except.bind, hr]
    rw [if_neg (by decide), if_pos (by decide)]
    cases EventDecoder.new (some file) fuel data <;> rfl
  have hnew : EventDecoder.new (some file) fuel data = (do
      let sd ← okOr (if ∃ q ∈ pages, q.tag = .stringData then some (streamOf .stringData pages) else none) "Invalid file: No string data found"
      let si ← okOr (if ∃ q ∈ pages, q.tag = .stringIndex then some (streamOf .stringIndex pages) else none) "Invalid file: No string index data found"
      let ev ← okOr (if ∃ q ∈ pages, q.tag = .events then some (streamOf .events pages) else none) "Invalid file: No event data found"
      EventDecoder.fromSeparateBuffers (some file) fuel sd si ev) := by
    unfold EventDecoder.new
    simp only [bind, Except.bind, hv, e8, hdr, split_proper hg]
  rw [hopen, hnew]
  refine ⟨fun h1 => ?_, fun h1 h2 => ?_, fun h1 h2 => ⟨fun h3 => ?_, fun h3 msg hc => ?_⟩⟩
  · simp only [if_neg h1, okOr, bind, Except.bind, Except.map]
  · simp only [if_pos h1, if_neg h2, okOr, bind, Except.bind, Except.map]
  · simp only [if_pos h1, if_pos h2, if_neg h3, okOr, bind, Except.bind, Except.map]
  · simp only [if_pos h1, if_pos h2, if_pos h3, okOr, bind, Except.bind]
    have m1 : magicEventStream = utf8 "MMES" := by decide +kernel
    have m2 : magicStringData = utf8 "MMSD" := by decide +kernel
    have m3 : magicStringIndex = utf8 "MMSI" := by decide +kernel
    unfold EventDecoder.fromSeparateBuffers StringTable.new
    simp only [bind, Except.bind]
    rcases hc with hc | ⟨⟨b, hb⟩, hc⟩ | ⟨⟨b, hb⟩, ⟨b', hb'⟩, hc⟩
    · rw [m1, complaint_verify (by decide +kernel) hc]
      rfl
    · rw [((headed_verify (diag := some file) (stream := "event") (kind := "MMES") (magic := magicEventStream) m1 rfl _).1 _ hb).1,
        m2, complaint_verify (by decide +kernel) hc]
      rfl
    · rw [((headed_verify (diag := some file) (stream := "event") (kind := "MMES") (magic := magicEventStream) m1 rfl _).1 _ hb).1,
        ((headed_verify (diag := some file) (stream := "StringTable Data") (kind := "MMSD") (magic := magicStringData) m2 rfl _).1 _ hb').1,
        m3, complaint_verify (by decide +kernel) hc]
      rfl

/-- Three bytes under the name `out/run.mm_profdata`. -/
example : profilerPath (utf8 "out/run.events") = utf8 "out/run.mm_profdata" ∧ ([77, 77, 80] : Bytes).length < 8 ∧
    Complaint "out/run.mm_profdata" "top-level" "MMPD" [77, 77, 80]
      "Error reading top-level stream in file `out/run.mm_profdata`: Expected file to contain at least `8` bytes but found `3` bytes" := by
  refine ⟨by decide +kernel, by decide, ?_⟩
  have := Complaint.short (file := "out/run.mm_profdata") (stream := "top-level") (kind := "MMPD") (bytes := [77, 77, 80]) (by decide)
  rw [show ([77, 77, 80] : Bytes).length = 3 from rfl] at this
  refine Eq.mp (congrArg (Complaint _ _ _ _) ?_) this
  decide +kernel

/-- A file with pages of all three streams, of which the events do not begin with their header. -/
example : ProperPages [⟨.stringData, [1]⟩, ⟨.stringIndex, [2]⟩, ⟨.events, [77, 77, 83, 73, 9, 0, 0, 0]⟩] ∧
    Complaint "a.mm_profdata" "event" "MMES" (streamOf .events [⟨.stringData, [1]⟩, ⟨.stringIndex, [2]⟩, ⟨.events, [77, 77, 83, 73, 9, 0, 0, 0]⟩])
      "Error reading event stream in file `a.mm_profdata`: Expected file magic `[77, 77, 69, 83]` but found `[77, 77, 83, 73]`" := by
  refine ⟨by intro p hp; simp only [List.mem_cons, List.not_mem_nil, or_false] at hp; rcases hp with rfl | rfl | rfl <;> decide, ?_⟩
  have := Complaint.letters (file := "a.mm_profdata") (stream := "event") (kind := "MMES") (k0 := 77) (k1 := 77) (k2 := 69) (k3 := 83)
    (a := 77) (b := 77) (c := 83) (d := 73) (e := 9) (f := 0) (g := 0) (h := 0) (rest := []) (by decide +kernel) (by decide +kernel)
  refine Eq.mp (congrArg₂ (Complaint _ _ _) ?_ ?_) this
  · decide +kernel
  · decide +kernel

end Verif.Props
