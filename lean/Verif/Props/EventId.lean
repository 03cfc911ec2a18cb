import Verif.Proofs.EventId
import Verif.Proofs.StringFast
import Verif.Props.StringTable

/-! # Properties C21–C23: event ids -/

namespace Verif.Props
open Verif Verif.Mm Verif.Spec Verif.Decode

/-! ### C21 -/

/-- The texts a list of ids means, in order. -/
def MeansAll (log : TableLog) : List StringId → List String → Prop
  | [], [] => True
  | id :: ids, s :: ss => Means log id s ∧ MeansAll log ids ss
  | _, _ => False

theorem reads_append {log : TableLog} {cs cs' : List StringComponent} {s s' : String} (h : Reads log cs s) (h' : Reads log cs' s') :
    Reads log (cs ++ cs') (s ++ s') := by
  induction h with
  | nil => simpa using h'
  | value _ ih => rw [List.cons_append, String.append_assoc]; exact .value ih
  | unknown hu _ ih => rw [List.cons_append, String.append_assoc]; exact .unknown hu ih
  | entry he hr _ _ ih => rw [List.cons_append, String.append_assoc]; exact .entry he hr ih

theorem reads_args {log : TableLog} : ∀ (args : List StringId) (as : List String) (cs : List StringComponent) (L : String),
    MeansAll log args as → Reads log cs L →
    Reads log (cs ++ args.flatMap (fun a => [StringComponent.value separator, .ref a])) (joined L as)
  | [], [], cs, L, _, hL => by simpa [joined] using hL
  | a :: args, s :: as, cs, L, ⟨h1, h2⟩, hL => by
    have h3 : Reads log (cs ++ [StringComponent.value separator, .ref a]) (L ++ "\x1e" ++ s) := by
      rw [String.append_assoc]
      exact reads_append hL (.value h1)
    have := reads_args args as _ _ h2 h3
    simpa [joined] using this

/-- The text of an event id built from a label and arguments. -/
theorem reads_event_id {log : TableLog} {label : StringId} {args : List StringId} {L : String} {as : List String}
    (hl : Means log label L) (ha : MeansAll log args as) : Reads log (components (labelAndArgs label args)) (joined L as) :=
  reads_args args as [.ref label] L ha hl

theorem encText_labelAndArgs (label : StringId) (args : List StringId) :
    (encText (components (labelAndArgs label args))).length = 10 * args.length + 10 := by
  have : ∀ args : List StringId, ((args.flatMap (fun a => [StringComponent.value separator, .ref a])).flatMap encComponent).length = 10 * args.length := by
    intro args
    induction args with
    | nil => rfl
    | cons a as ih =>
      rw [List.flatMap_cons, List.flatMap_append, List.length_append, ih]
      have : ([StringComponent.value separator, .ref a].flatMap encComponent).length = 10 := by
        simp [encComponent, separator, leBytes_length, utf8_sep]
      rw [this, List.length_cons]
      omega
  simp only [components, labelAndArgs, encText, List.flatMap_cons, List.length_append, this]
  simp [encComponent, leBytes_length]
  omega

theorem takeWhile_all {α : Type} {p : α → Bool} : ∀ {l : List α}, (∀ a ∈ l, p a = true) → l.takeWhile p = l
  | [], _ => rfl
  | a :: l, h => by
    rw [List.takeWhile_cons, h a (by simp), if_pos rfl, takeWhile_all (fun b hb => h b (by simp [hb]))]

theorem textOk_sepFree {s : String} (h : TextOk s) : SepFree s := by
  intro hc
  have := h.2 _ hc (by decide)
  revert this
  decide

/-- Parsing the text of an event id whose fields are proper texts gives back the fields. -/
theorem parse_ok {L : String} {as : List String} (hl : TextOk L) (ha : ∀ a ∈ as, TextOk a) :
    parseEventId (utf8 (joined L as)) = .ok (utf8 L, as.map utf8) := by
  rw [parseEventId_joined L as (textOk_sepFree hl) (fun a h => textOk_sepFree (ha a h)), if_pos hl,
    takeWhile_all (fun a h => by simpa using ha a h)]

/-- **C21.** An event id built from a label and arguments denotes the text `label ␞ arg₁ ␞ arg₂ …`, is read as that text by
`write_to_string`, and that text is parsed into exactly the label and the arguments. -/
theorem C21_event_id_text (ops : List SessionOp) (good : ∀ o ∈ ops, GoodOp o) (id label : StringId) (args : List StringId)
    (L : String) (as : List String)
    (h : (SessionOp.table (.alloc (labelAndArgs label args)), .ok (some id)) ∈ logOf ops)
    (hL : Means (logOf ops) label L) (hA : MeansAll (logOf ops) args as)
    (okL : TextOk L) (okA : ∀ a ∈ as, TextOk a) :
    Means (logOf ops) id (joined L as) ∧
    (∃ t, loadTable (savedStore ops) = .ok t ∧ Writes t id (utf8 (joined L as))) ∧
    parseEventId (utf8 (joined L as)) = .ok (utf8 L, as.map utf8) := by
  have hm : Means (logOf ops) id (joined L as) := entry_means (.inl ⟨.table (.alloc _), rfl, h⟩) (reads_event_id hL hA)
  exact ⟨hm, C13_composite_reads_as_concatenation ops good id _ hm, parse_ok okL okA⟩

/-- **C21.** What the decoder does (`to_string`, then parse) gives back exactly the label and the arguments, for every event id
stored at an address `a` unless the first byte 0xFF of its encoding is at offset `a + 9`.  (The exception is real:
`C21_mistaken_loses_arguments`.) -/
theorem C21_event_id_round_trip (ops : List SessionOp) (good : ∀ o ∈ ops, GoodOp o) (id label : StringId)
    (args : List StringId) (L : String) (as : List String) (a : Nat)
    (h : (SessionOp.table (.alloc (labelAndArgs label args)), .ok (some id)) ∈ logOf ops)
    (hL : Means (logOf ops) label L) (hA : MeansAll (logOf ops) args as)
    (okL : TextOk L) (okA : ∀ a ∈ as, TextOk a) (addr : id.toNat = a + 100000003)
    (ordinary : (encText (components (labelAndArgs label args))).findIdx? (fun b => b = 0xFF) ≠ some (a + 9)) :
    ∃ t, loadTable (savedStore ops) = .ok t ∧
      ∃ n, ∀ fuel, n ≤ fuel → (do let text ← t.toStr fuel id; parseEventId text) = .ok (utf8 L, as.map utf8) := by
  obtain ⟨t, D, I, ht, hd, rel, ok⟩ := session_table ops good
  have hal : Allocated (logOf ops) id (components (labelAndArgs label args)) := ⟨.table (.alloc _), rfl, h⟩
  obtain ⟨n, hn⟩ := shown_toStr rel (.whole (.allocated hal addr) (fun r hr => ordinary hr.2) (reads_event_id hL hA))
  refine ⟨t, ht, n, fun fuel hf => ?_⟩
  rw [hn fuel hf]
  exact parse_ok okL okA

/-- **C21.** The exception: if the first byte 0xFF is at offset `a + 9`, the decoder reports the label as the label's own id is
shown, and no arguments at all. -/
theorem C21_mistaken_loses_arguments (ops : List SessionOp) (good : ∀ o ∈ ops, GoodOp o) (id label : StringId)
    (args : List StringId) (L : String) (a : Nat)
    (h : (SessionOp.table (.alloc (labelAndArgs label args)), .ok (some id)) ∈ logOf ops)
    (hL : Shown (logOf ops) label L) (okL : TextOk L) (addr : id.toNat = a + 100000003)
    (mistaken : (encText (components (labelAndArgs label args))).findIdx? (fun b => b = 0xFF) = some (a + 9)) :
    ∃ t, loadTable (savedStore ops) = .ok t ∧
      ∃ n, ∀ fuel, n ≤ fuel → (do let text ← t.toStr fuel id; parseEventId text) = .ok (utf8 L, []) := by
  obtain ⟨t, D, I, ht, hd, rel, ok⟩ := session_table ops good
  have hal : Allocated (logOf ops) id (components (labelAndArgs label args)) := ⟨.table (.alloc _), rfl, h⟩
  obtain ⟨n, hn⟩ := shown_toStr rel (.leading (.allocated hal addr) ⟨rfl, mistaken⟩ hL)
  refine ⟨t, ht, n, fun fuel hf => ?_⟩
  rw [hn fuel hf]
  exact parse_ok okL (as := []) (by simp)

/-- **C21.** The exception cannot arise at addresses above ten times the number of arguments. -/
theorem C21_far_is_ordinary (label : StringId) (args : List StringId) (a : Nat) (far : 10 * args.length < a) :
    (encText (components (labelAndArgs label args))).findIdx? (fun b => b = 0xFF) ≠ some (a + 9) := by
  intro h
  have := (List.findIdx?_eq_some_iff_findIdx_eq.mp h).1
  rw [encText_labelAndArgs] at this
  omega

/-- **C21.** The one-argument constructor builds the same string as the general one. -/
theorem C21_one_argument (label arg : StringId) : components (labelAndArg label arg) = components (labelAndArgs label [arg]) := rfl

/-- **C21.** A label alone is its own event id: a plain string round-trips wherever it is stored. -/
theorem C21_label_round_trip (ops : List SessionOp) (good : ∀ o ∈ ops, GoodOp o) (id : StringId) (L : String)
    (h : (SessionOp.table (.alloc (.str L)), .ok (some id)) ∈ logOf ops) (okL : TextOk L) :
    ∃ t, loadTable (savedStore ops) = .ok t ∧
      ∃ n, ∀ fuel, n ≤ fuel → (do let text ← t.toStr fuel (fromLabel id); parseEventId text) = .ok (utf8 L, []) := by
  obtain ⟨t, ht, _, n, hn⟩ := C12_plain_string_reads_back ops good L id h
  refine ⟨t, ht, n, fun fuel hf => ?_⟩
  show (do let text ← t.toStr fuel id; parseEventId text) = _
  rw [hn fuel hf]
  exact parse_ok okL (as := []) (by simp)

/-- A session with an event id of two arguments. -/
def exEventOps : List SessionOp :=
  [.table (.alloc (.str "some longer text up front")), .table (.alloc (.str "lab el")), .table (.alloc (.str "x")),
   .table (.alloc (labelAndArgs 100000037 [100000044, 100000037]))]

theorem exEventOps_good : ∀ o ∈ exEventOps, GoodOp o := by
  intro o ho
  simp only [exEventOps, List.mem_cons, List.not_mem_nil, or_false] at ho
  rcases ho with rfl | rfl | rfl | rfl <;> simp [GoodOp]

theorem exEventOps_log : logOf exEventOps =
    [(.table (.alloc (.str "some longer text up front")), .ok (some 100000011)), (.table (.alloc (.str "lab el")), .ok (some 100000037)),
     (.table (.alloc (.str "x")), .ok (some 100000044)),
     (.table (.alloc (labelAndArgs 100000037 [100000044, 100000037])), .ok (some 100000046))] := by
  have h : (runOps exEventOps (newBuilder World.init).2).1 =
      [.ok (some 100000011), .ok (some 100000037), .ok (some 100000044), .ok (some 100000046)] := by decide
  show exEventOps.zip (runOps exEventOps (newBuilder World.init).2).1 = _
  rw [h]; rfl

example : ∃ t, loadTable (savedStore exEventOps) = .ok t ∧
    ∃ n, ∀ fuel, n ≤ fuel → (do let text ← t.toStr fuel 100000046; parseEventId text) = .ok (utf8 "lab el", ["x", "lab el"].map utf8) := by
  have m1 : Means (logOf exEventOps) 100000037 "lab el" :=
    entry_means (.inl ⟨.table (.alloc (.str "lab el")), rfl, by rw [exEventOps_log]; simp⟩) (reads_str _ _)
  have m2 : Means (logOf exEventOps) 100000044 "x" :=
    entry_means (.inl ⟨.table (.alloc (.str "x")), rfl, by rw [exEventOps_log]; simp⟩) (reads_str _ _)
  have ok1 : TextOk "lab el" := by decide
  have ok2 : TextOk "x" := by decide
  exact C21_event_id_round_trip exEventOps exEventOps_good 100000046 100000037 [100000044, 100000037] "lab el" ["x", "lab el"] 43
    (by rw [exEventOps_log]; simp) m1 ⟨m2, m1, trivial⟩ ok1
    (by intro a ha; simp only [List.mem_cons, List.not_mem_nil, or_false] at ha; rcases ha with rfl | rfl; exacts [ok2, ok1]) (by decide)
    (C21_far_is_ordinary _ _ _ (by decide))

/-- A session whose event id (label `a`, argument `a`) happens to be stored at address 10. -/
def lostOps : List SessionOp := [.table (.alloc (.str "a")), .table (.alloc (labelAndArg 100000011 100000011))]

/-- **C21.** The full statement fails: there is a session in which the event id with label `a` and argument `a` is decoded as
label `a` with no arguments. -/
theorem C21_arguments_lost : ∃ ops id label arg, (∀ o ∈ ops, GoodOp o) ∧
    (SessionOp.table (.alloc (labelAndArg label arg)), .ok (some id)) ∈ logOf ops ∧
    Means (logOf ops) label "a" ∧ Means (logOf ops) arg "a" ∧ TextOk "a" ∧
    ∃ t, loadTable (savedStore ops) = .ok t ∧
      ∃ n, ∀ fuel, n ≤ fuel → (do let text ← t.toStr fuel id; parseEventId text) = .ok (utf8 "a", []) := by
  have good : ∀ o ∈ lostOps, GoodOp o := by
    intro o ho
    simp only [lostOps, List.mem_cons, List.not_mem_nil, or_false] at ho
    rcases ho with rfl | rfl <;> simp [GoodOp]
  have hlog : logOf lostOps = [(.table (.alloc (.str "a")), .ok (some 100000011)),
      (.table (.alloc (labelAndArg 100000011 100000011)), .ok (some 100000013))] := by
    have h : (runOps lostOps (newBuilder World.init).2).1 = [.ok (some 100000011), .ok (some 100000013)] := by decide
    show lostOps.zip (runOps lostOps (newBuilder World.init).2).1 = _
    rw [h]; rfl
  have hm : Means (logOf lostOps) 100000011 "a" := entry_means (.inl ⟨.table (.alloc (.str "a")), rfl, by rw [hlog]; simp⟩) (reads_str _ _)
  refine ⟨lostOps, 100000013, 100000011, 100000011, good, by rw [hlog]; simp, hm, hm, by decide, ?_⟩
  exact C21_mistaken_loses_arguments lostOps good 100000013 100000011 [100000011] "a" 10 (by rw [hlog]; simp [labelAndArg, labelAndArgs])
    (.whole (.allocated ⟨.table (.alloc (.str "a")), rfl, by rw [hlog]; simp⟩ (a := 8) rfl) (C14_never_mistaken 8 _ (.inl rfl)) (reads_str _ "a"))
    (by decide) rfl (by decide)

/-! ### C22 -/

/-- **C22.** For every text there is exactly one way to see it as a label and arguments without separators; the parser returns
the label and the arguments up to the first improper one, or `<parse error>` if the label is improper.  It never panics. -/
theorem C22_parse_characterised (s : String) : ∃ L as, SepFree L ∧ (∀ a ∈ as, SepFree a) ∧ s = joined L as ∧
    ((TextOk L ∧ ∃ good bad, as = good ++ bad ∧ (∀ a ∈ good, TextOk a) ∧ (∀ b, bad.head? = some b → ¬ TextOk b) ∧
        parseEventId (utf8 s) = .ok (utf8 L, good.map utf8)) ∨
     (¬ TextOk L ∧ parseEventId (utf8 s) = .ok (utf8 "<parse error>", []))) := by
  obtain ⟨L, as, h1, h2, rfl⟩ := exists_fields s
  refine ⟨L, as, h1, h2, rfl, ?_⟩
  have hp := parseEventId_joined L as h1 h2
  by_cases hL : TextOk L
  · rw [if_pos hL] at hp
    refine .inl ⟨hL, as.takeWhile (fun a => decide (TextOk a)), as.dropWhile (fun a => decide (TextOk a)), ?_, ?_, ?_, hp⟩
    · simp
    · intro a ha
      have := List.all_takeWhile (p := fun a => decide (TextOk a)) (l := as)
      rw [List.all_eq_true] at this
      simpa using this a ha
    · intro b hb
      have := List.head?_dropWhile_not (p := fun a => decide (TextOk a)) as
      rw [hb] at this
      simpa using this
  · rw [if_neg hL] at hp
    exact .inr ⟨hL, hp⟩

/-- **C22.** The way to see a text as separator-free fields is unique. -/
theorem C22_fields_unique (L L' : String) (as as' : List String) (hL : SepFree L) (hL' : SepFree L')
    (ha : ∀ a ∈ as, SepFree a) (ha' : ∀ a ∈ as', SepFree a) (h : joined L as = joined L' as') : L = L' ∧ as = as' := by
  have hj : ∀ (L : String) (as : List String), (joined L as).toList = L.toList ++ as.flatMap (fun a => Char.ofNat 0x1E :: a.toList) := by
    intro L as
    induction as generalizing L with
    | nil => simp [joined]
    | cons a as ih => rw [joined, ih]; simp
  have key : ∀ (as as' : List String) (l l' : List Char), Char.ofNat 0x1E ∉ l → Char.ofNat 0x1E ∉ l' →
      (∀ a ∈ as, SepFree a) → (∀ a ∈ as', SepFree a) →
      l ++ as.flatMap (fun a => Char.ofNat 0x1E :: a.toList) = l' ++ as'.flatMap (fun a => Char.ofNat 0x1E :: a.toList) → l = l' ∧ as = as' := by
    have split : ∀ (l l' r r' : List Char), Char.ofNat 0x1E ∉ l → Char.ofNat 0x1E ∉ l' →
        l ++ Char.ofNat 0x1E :: r = l' ++ Char.ofNat 0x1E :: r' → l = l' ∧ r = r' := by
      intro l
      induction l with
      | nil =>
        intro l' r r' _ h' h
        cases l' with
        | nil => simpa using h
        | cons c l' =>
          simp only [List.nil_append, List.cons_append, List.cons.injEq] at h
          exact (h' (by rw [← h.1]; simp)).elim
      | cons c l ih =>
        intro l' r r' hl h' h
        cases l' with
        | nil =>
          simp only [List.nil_append, List.cons_append, List.cons.injEq] at h
          exact (hl (by rw [h.1]; simp)).elim
        | cons c' l' =>
          simp only [List.cons_append, List.cons.injEq] at h
          obtain ⟨e1, e2⟩ := ih l' r r' (fun hm => hl (by simp [hm])) (fun hm => h' (by simp [hm])) h.2
          exact ⟨by rw [h.1, e1], e2⟩
    intro as
    induction as with
    | nil =>
      intro as' l l' hl hl' _ _ h
      cases as' with
      | nil => simpa using h
      | cons a as' =>
        exfalso
        apply hl
        simp only [List.flatMap_nil, List.append_nil] at h
        rw [h]; simp
    | cons a as ih =>
      intro as' l l' hl hl' hs hs' h
      cases as' with
      | nil =>
        exfalso
        apply hl'
        simp only [List.flatMap_nil, List.append_nil] at h
        rw [← h]; simp
      | cons a' as' =>
        simp only [List.flatMap_cons, List.cons_append] at h
        obtain ⟨e1, e2⟩ := split _ _ _ _ hl hl' h
        obtain ⟨e3, e4⟩ := ih as' a.toList a'.toList (hs a (by simp)) (hs' a' (by simp)) (fun b hb => hs b (by simp [hb]))
          (fun b hb => hs' b (by simp [hb])) e2
        exact ⟨e1, by rw [e4, String.toList_inj.mp e3]⟩
  have := key as as' L.toList L'.toList hL hL' ha ha' (by rw [← hj, ← hj, h])
  exact ⟨String.toList_inj.mp this.1, this.2⟩

/-- **C22.** A text is parsed without loss exactly when it is in the grammar the parser implements. -/
theorem C22_lossless_iff_grammar (s : String) :
    (∃ L as, parseEventId (utf8 s) = .ok (utf8 L, as.map utf8) ∧ joined L as = s) ↔
    (∃ L as, TextOk L ∧ (∀ a ∈ as, TextOk a) ∧ joined L as = s) := by
  constructor
  · rintro ⟨L, as, h, hs⟩
    refine ⟨L, as, ?_, ?_, hs⟩
    all_goals
      obtain ⟨L0, as0, _, _, _, h' | h'⟩ := C22_parse_characterised s
    · obtain ⟨hok, good, bad, _, _, _, hp⟩ := h'
      rw [h] at hp
      simp only [Except.ok.injEq, Prod.mk.injEq] at hp
      rw [utf8_inj hp.1]; exact hok
    · rw [h] at h'
      simp only [Except.ok.injEq, Prod.mk.injEq] at h'
      rw [utf8_inj h'.2.1]; decide
    · obtain ⟨hok, good, bad, _, hg, _, hp⟩ := h'
      rw [h] at hp
      simp only [Except.ok.injEq, Prod.mk.injEq] at hp
      rw [List.map_injective_iff.mpr (fun _ _ => utf8_inj) hp.2]
      exact hg
    · rw [h] at h'
      simp only [Except.ok.injEq, Prod.mk.injEq, List.map_eq_nil_iff] at h'
      rw [h'.2.2]; simp
  · rintro ⟨L, as, h1, h2, rfl⟩
    exact ⟨L, as, parse_ok h1 h2, rfl⟩

/-- **C22.** Parsing returns normally on every text. -/
theorem C22_parse_never_panics (s : String) : ∃ L as, parseEventId (utf8 s) = .ok (utf8 L, List.map utf8 as) := by
  obtain ⟨L, as, _, _, _, h | h⟩ := C22_parse_characterised s
  · obtain ⟨_, good, _, _, _, _, hp⟩ := h
    exact ⟨L, good, hp⟩
  · exact ⟨"<parse error>", [], h.2⟩

example : parseEventId (utf8 "la bel\x1earg one\x1e\x1etwo") = .ok (utf8 "la bel", [utf8 "arg one"]) := by decide
example : TextOk "la bel\t" ∧ ¬ TextOk "" ∧ ¬ TextOk "a\x7fb" := by decide

/-! ### C23 -/

/-- **C23.** A non-empty text is in the documented grammar but rejected by the parser exactly when it has a vertical tab
(and no other control character that is not white space). -/
theorem C23_documented_but_rejected_iff (s : String) :
    (TextDocumented s ∧ ¬ TextOk s) ↔ (TextDocumented s ∧ Char.ofNat 11 ∈ s.toList) := by
  constructor
  · rintro ⟨hd, hn⟩
    refine ⟨hd, ?_⟩
    apply Decidable.byContradiction
    intro h11
    apply hn
    refine ⟨hd.1, fun c hc hcc => ?_⟩
    rcases hd.2 c hc hcc with h | h
    · exact h
    · exact (h11 (by rw [← h, Char.ofNat_toNat]; exact hc)).elim
  · rintro ⟨hd, h11⟩
    refine ⟨hd, fun hok => ?_⟩
    have := hok.2 _ h11 (by decide)
    revert this
    decide

/-- **C23.** Whatever the parser accepts is documented; without vertical tabs the two agree. -/
theorem C23_accepted_is_documented (s : String) :
    (TextOk s → TextDocumented s) ∧ (Char.ofNat 11 ∉ s.toList → (TextOk s ↔ TextDocumented s)) := by
  have h1 : TextOk s → TextDocumented s := fun h => ⟨h.1, fun c hc hcc => .inl (h.2 c hc hcc)⟩
  refine ⟨h1, fun h11 => ⟨h1, fun hd => ?_⟩⟩
  apply Decidable.byContradiction
  intro hn
  exact h11 ((C23_documented_but_rejected_iff s).mp ⟨hd, hn⟩).2

/-- **C23.** The documented label `a␋b` is returned as `<parse error>`. -/
theorem C23_vertical_tab_rejected : ∃ s, TextDocumented s ∧ parseEventId (utf8 s) = .ok (utf8 "<parse error>", []) := by
  refine ⟨"a\x0bb", ⟨by decide, fun c hc hcc => ?_⟩, by decide⟩
  have : c = 'a' ∨ c = Char.ofNat 11 ∨ c = 'b' := by simpa using hc
  rcases this with rfl | rfl | rfl
  · exact absurd hcc (by decide)
  · exact .inr rfl
  · exact absurd hcc (by decide)

end Verif.Props
