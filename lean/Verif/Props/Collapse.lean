import Verif.Proofs.Collapse
import Verif.Proofs.CollapseLight
import Verif.Proofs.Json
import Verif.Props.Analysis

/-! # Properties C41, C42 and C58: collapsed stacks -/

namespace Verif.Props
open Verif Verif.Mm Verif.Spec Verif.Decode Verif.Analyze Verif.Json

/-! ## C41 -/

/-- **C41.** Collapsing a properly nested stream (whose threads together span less than 2⁶⁴ ns) never panics. The result has
one entry per path that an interval has, with the sum of the self times of the intervals with this path, and one entry
`rustc` with the time in no interval; all values together are the time of all threads. -/
theorem C41_collapsed (checks : Bool) (es : List Event) (hn : ProperlyNested es) (hb : allTime es < 2 ^ 64) :
    ∃ m, collapse checks es = .ok m ∧ (m.map (·.1)).Nodup ∧
      (∀ k v, (k, v) ∈ m ↔ (k = utf8 "rustc" ∧ v = allTime es - rootTime es) ∨ ((∃ j, hasPath es k j = true) ∧ v = pathTime es k)) ∧
      (m.map (·.2)).sum = allTime es := by
  obtain ⟨st, hi, hno, hc⟩ := collapse_ok (checks := checks) hn hb
  refine ⟨_, hc, ?_, ?_, ?_⟩
  · rw [List.map_append, List.nodup_append]
    refine ⟨hi.keys, by simp, ?_⟩
    intro a ha b hb
    simp only [List.map_cons, List.map_nil, List.mem_singleton] at hb
    subst hb
    rintro rfl
    rw [← lookup_isSome, hno] at ha
    cases ha
  · intro k v
    rw [List.mem_append, List.mem_singleton]
    have h1 : (k, v) ∈ st.counters ↔ (∃ j, hasPath es k j = true) ∧ v = pathTime es k := by
      rw [← hi.present, ← counter_value hn hi]
      constructor
      · intro h
        rw [lookup_of_mem hi.keys h]
        exact ⟨List.mem_map.2 ⟨_, h, rfl⟩, rfl⟩
      · rintro ⟨h2, rfl⟩
        rw [← lookup_isSome] at h2
        cases h3 : lookup k st.counters with
        | none => rw [h3] at h2; cases h2
        | some c => exact mem_of_lookup h3
    rw [h1, Prod.mk.injEq]
    tauto
  · rw [List.map_append, List.sum_append]
    have h1 := sum_counters hn hi (fun _ => true)
    simp only [List.filter_true, if_true] at h1
    rw [h1, all_selves hn]
    have : rootTime es ≤ allTime es := rootTime_le hn
    simp only [List.map_cons, List.map_nil, List.sum_cons, List.sum_nil]
    omega

/-- **C41.** The function itself works on a profile, decoding light-weight events and labels as it goes: on every profile of the current format all of whose
events can be decoded and are properly nested, it gives exactly that. -/
theorem C41_profile (checks : Bool) (fuel : Nat) (d : EventDecoder) (es : List Event) (h : (v9Data fuel d).fullEvents = .ok es)
    (hn : ProperlyNested es) (hb : allTime es < 2 ^ 64) :
    ∃ m, collapseProfile checks (v9Data fuel d) = .ok m ∧ (m.map (·.1)).Nodup ∧
      (∀ k v, (k, v) ∈ m ↔ (k = utf8 "rustc" ∧ v = allTime es - rootTime es) ∨ ((∃ j, hasPath es k j = true) ∧ v = pathTime es k)) ∧
      (m.map (·.2)).sum = allTime es := by
  rw [collapse_eq checks _ es h (v9_agree fuel d)]
  exact C41_collapsed checks es hn hb

/-- **C41.** The same on every profile of any format whose light-weight events have the thread and payload of the full events. -/
theorem C41_any_profile (checks : Bool) (p : ProfilingData) (es : List Event) (h : p.fullEvents = .ok es)
    (hag : ∀ i l e, p.decodeLightweight i = .ok l → p.decodeFull l.eventIndex = .ok e → l = ⟨i, e.threadId, e.payload⟩)
    (hn : ProperlyNested es) (hb : allTime es < 2 ^ 64) :
    ∃ m, collapseProfile checks p = .ok m ∧ (m.map (·.1)).Nodup ∧
      (∀ k v, (k, v) ∈ m ↔ (k = utf8 "rustc" ∧ v = allTime es - rootTime es) ∨ ((∃ j, hasPath es k j = true) ∧ v = pathTime es k)) ∧
      (m.map (·.2)).sum = allTime es := by
  rw [collapse_eq checks p es h hag]
  exact C41_collapsed checks es hn hb

/-- Non-vacuity: every profile of the current format is like that, and so is a converted one whose decoder counts its events the same way. -/
example (fuel : Nat) (d : EventDecoder) (i : Nat) (l : LightweightEvent) (e : Event) (hl : (v9Data fuel d).decodeLightweight i = .ok l)
    (he : (v9Data fuel d).decodeFull l.eventIndex = .ok e) : l = ⟨i, e.threadId, e.payload⟩ := v9_agree fuel d i l e hl he

/-- **C41.** On every stream, nested or not, the id kept for a thread is the path of its stack, so that cutting off a popped
label never underflows. -/
theorem C41_id_never_underflows (checks : Bool) (es : List Event) (st : CollapseState)
    (h : collapseSteps checks {} es.reverse = .ok st) :
    ∀ x ∈ st.threads, x.2.stackId = x.2.stack.reverse.foldl (fun sid e => sid ++ utf8 ";" ++ e.label) (utf8 "rustc") ∧
      ∀ p, ∃ r, popBoth p x.2.stack x.2.stackId = .ok r := by
  have hstr : ∀ S : List Event, S.reverse.foldl (fun sid e => sid ++ utf8 ";" ++ e.label) (utf8 "rustc") = stackStr S := by
    intro S
    induction S with
    | nil => rfl
    | cons e S ih => rw [List.reverse_cons, List.foldl_append, ih]; rfl
  have key : ∀ x ∈ st.threads, x.2.stackId = stackStr x.2.stack := by
    rw [csteps_reverse] at h
    induction es generalizing st with
    | nil => cases h; simp
    | cons e es ih =>
      simp only [crun] at h
      cases hr : crun checks es with
      | error f => rw [hr] at h; cases h
      | ok st0 =>
        rw [hr] at h
        change collapseStep checks st0 e = _ at h
        have ih := ih st0 hr
        unfold collapseStep at h
        cases hp : e.payload with
        | integer v => simp only [hp] at h; cases h; exact ih
        | timestamp ts =>
          cases ts with
          | instant v => simp only [hp] at h; cases h; exact ih
          | interval s t =>
            simp only [hp] at h
            have hth : ((lookup e.threadId st0.threads).getD ⟨[], utf8 "rustc", s, t, 0⟩).stackId =
                stackStr ((lookup e.threadId st0.threads).getD ⟨[], utf8 "rustc", s, t, 0⟩).stack := by
              cases hl : lookup e.threadId st0.threads with
              | none => rfl
              | some th => exact ih _ (mem_of_lookup hl)
            rw [hth, popBoth_str] at h
            generalize (lookup e.threadId st0.threads).getD ⟨[], utf8 "rustc", s, t, 0⟩ = th at h
            simp only [bind, Except.bind] at h
            split at h
            · cases h
            · split at h
              · cases h
              · split at h
                · cases h
                · cases h
                  have hins : ∀ (v : CollapseThread), v.stackId = stackStr v.stack →
                      ∀ x ∈ Analyze.insert e.threadId v st0.threads, x.2.stackId = stackStr x.2.stack := by
                    intro v hv
                    have gen : ∀ m : List (UInt32 × CollapseThread), (∀ x ∈ m, x.2.stackId = stackStr x.2.stack) →
                        ∀ x ∈ Analyze.insert e.threadId v m, x.2.stackId = stackStr x.2.stack := by
                      intro m
                      induction m with
                      | nil => intro _ x hx; simp only [Analyze.insert, List.mem_singleton] at hx; subst hx; exact hv
                      | cons y m ihm =>
                        intro hm x hx
                        obtain ⟨k, w⟩ := y
                        simp only [Analyze.insert] at hx
                        split at hx
                        · rcases List.mem_cons.1 hx with rfl | hx
                          · exact hv
                          · exact hm x (by simp [hx])
                        · rcases List.mem_cons.1 hx with rfl | hx
                          · exact hm _ (by simp)
                          · exact ihm (fun z hz => hm z (by simp [hz])) x hx
                    exact gen st0.threads ih
                  exact hins _ rfl
  intro x hx
  rw [hstr]
  refine ⟨key x hx, fun p => ?_⟩
  rw [key x hx, popBoth_str]
  exact ⟨_, rfl⟩

/-- **C41.** Without proper nesting the counters go wrong: with overflow checks the tool panics, without them it reports
durations of half a millennium. -/
theorem C41_overlap_wraps :
    collapse true [ev "Query" "a" 0 0 8, ev "Query" "b" 0 2 10, ev "Query" "p" 0 0 10] =
      .error (.panic "attempt to subtract with overflow") ∧
    collapse false [ev "Query" "a" 0 0 8, ev "Query" "b" 0 2 10, ev "Query" "p" 0 0 10] =
      .ok [(utf8 "rustc;p", 2 ^ 64 - 6), (utf8 "rustc;p;b", 8), (utf8 "rustc;p;a", 8), (utf8 "rustc", 0)] := by
  constructor <;> decide +kernel

/-- **C41.** The end of a thread is taken from its last recorded event: if an earlier recorded one ends later, the time in no
interval is wrong. -/
theorem C41_end_not_updated :
    collapse false [ev "Query" "a" 0 0 10, ev "Query" "b" 0 0 5] =
      .ok [(utf8 "rustc;b", 5), (utf8 "rustc;a", 10), (utf8 "rustc", 2 ^ 64 - 10)] := by decide +kernel

/-! ## C42 -/

/-- **C42.** For properly nested streams whose labels contain no `;`, adding up the collapsed stacks that end in a label gives
the self time that the analysis reports for it. -/
theorem C42_agrees (checks : Bool) (es : List Event) (hn : ProperlyNested es) (hb : allTime es < 2 ^ 64)
    (hl : ∀ e ∈ es, (0x3B : UInt8) ∉ e.label) (r : Results) (hr : analyze checks es = .ok r) (m : List (Bytes × Nat))
    (hm : collapse checks es = .ok m) (l : Bytes) (d : QueryData) (hd : (l, d) ∈ r.queryData) :
    ((m.filter fun x => decide (x.1 ≠ utf8 "rustc") && decide (leafOf x.1 = l)).map (·.2)).sum = d.selfTime := by
  obtain ⟨st, hi, hno, hc⟩ := collapse_ok (checks := checks) hn hb
  rw [hc] at hm
  cases hm
  rw [C34_self_time checks es hn r hr l d hd, List.filter_append, List.map_append, List.sum_append]
  have h1 := sum_counters hn hi (fun k => decide (k ≠ utf8 "rustc") && decide (leafOf k = l))
  rw [h1]
  simp only [List.filter_cons, ne_eq, not_true_eq_false, decide_false, Bool.false_and, Bool.false_eq_true, if_false,
    List.filter_nil, List.map_nil, List.sum_nil, Nat.add_zero]
  unfold selfTimeOf
  apply Finset.sum_congr rfl
  intro j hj
  simp only [Finset.mem_range] at hj
  have hleaf := leaf_of_path hj hl
  have hne : pathOf es j ≠ utf8 "rustc" := by
    intro h
    obtain ⟨x, l', h1, -⟩ := pathOf_prefix hj
    apply semi_not_in_rustc
    rw [← h, h1, semi_in]
    simp
  unfold at?
  rw [List.getElem?_eq_getElem hj] at hleaf ⊢
  simp only [Option.map_some, Option.some.injEq] at hleaf
  simp only [hne, hleaf, not_false_eq_true, decide_true, Bool.true_and, Option.any_some, hasLabel]
  rfl

/-! ## C58 -/

theorem linesFrom_line (cur a rest : Bytes) (h : (0x0A : UInt8) ∉ a) :
    linesFrom cur (a ++ 0x0A :: rest) = (cur ++ a) :: linesFrom [] rest := by
  induction a generalizing cur with
  | nil => simp [linesFrom]
  | cons b a ih =>
    simp only [List.mem_cons, not_or] at h
    simp only [List.cons_append, linesFrom, if_neg (Ne.symm h.1), ih (cur ++ [b]) h.2, List.append_assoc, List.nil_append]

theorem dig_range : ∀ f n b, b ∈ dig f n → (48 ≤ b.toNat ∧ b.toNat ≤ 57) := by
  intro f
  induction f with
  | zero => intro n b h; simp [dig] at h
  | succ f ih =>
    intro n b h
    have key : ∀ m, m < 10 → (48 ≤ (UInt8.ofNat (48 + m)).toNat ∧ (UInt8.ofNat (48 + m)).toNat ≤ 57) := by decide
    rw [dig] at h
    split at h
    · simp only [List.mem_singleton] at h; subst h; exact key _ (by assumption)
    · rcases List.mem_append.1 h with h | h
      · exact ih _ _ h
      · simp only [List.mem_singleton] at h; subst h; exact key _ (Nat.mod_lt _ (by decide))

/-- **C58.** If no stack contains a newline, a reader that splits the folded-stacks file into lines, and each line at its last
space, gets back exactly the collapsed stacks, in the order written, whatever else the labels contain. -/
theorem C58_folded_readable (m : List (Bytes × Nat)) (h : ∀ x ∈ m, (0x0A : UInt8) ∉ x.1) : readFolded (foldedText m) = m := by
  induction m with
  | nil => rfl
  | cons x m ih =>
    obtain ⟨k, v⟩ := x
    have hk := h (k, v) (by simp)
    have ih := ih fun y hy => h y (by simp [hy])
    have hsp : utf8 " " = [0x20] := by decide
    have hnl : utf8 "\n" = [0x0A] := by decide
    simp only at hk
    have hdr := dig_range (v + 1) v
    have hdn : (0x0A : UInt8) ∉ dig (v + 1) v := fun hm => by have := (hdr _ hm).1; simp at this
    have hds : ∀ b ∈ dig (v + 1) v, b ≠ 0x20 := by rintro b hb rfl; have := (hdr _ hb).1; simp at this
    have htext : foldedText ((k, v) :: m) = (k ++ [0x20] ++ dig (v + 1) v) ++ 0x0A :: foldedText m := by
      simp [foldedText, hsp, hnl, utf8_decimal]
    have hline : (0x0A : UInt8) ∉ k ++ [0x20] ++ dig (v + 1) v := by
      simp [hk, hdn]
    unfold readFolded at ih ⊢
    rw [htext, linesFrom_line _ _ _ hline, List.map_cons, ih]
    congr 1
    have hafter : afterSpace (k ++ [0x20] ++ dig (v + 1) v) = dig (v + 1) v := by
      unfold afterSpace
      rw [List.reverse_append, List.reverse_append, List.takeWhile_append_of_pos]
      · simp
      · intro b hb
        simp only [List.mem_reverse] at hb
        simpa using hds b hb
    simp only [List.nil_append]
    refine Prod.ext ?_ ?_
    · show beforeSpace _ = k
      unfold beforeSpace
      rw [hafter]
      have : (k ++ [0x20] ++ dig (v + 1) v).length - (dig (v + 1) v).length - 1 = k.length := by
        simp only [List.length_append, List.length_singleton]; omega
      rw [this, List.append_assoc, List.take_left]
    · show numberOf _ = v
      rw [hafter]
      exact digitsValue_dig _ _ (by omega)

theorem linesFrom_length (cur t : Bytes) : (linesFrom cur t).length = t.count 0x0A := by
  induction t generalizing cur with
  | nil => rfl
  | cons b t ih =>
    simp only [linesFrom, List.count_cons]
    split
    · rename_i h; simp [h, ih]
    · rename_i h; simp [h, ih]

/-- **C58.** A newline in a stack is never read back: the reader gets back the collapsed stacks exactly if no stack contains one. -/
theorem C58_readable_iff (m : List (Bytes × Nat)) : readFolded (foldedText m) = m ↔ ∀ x ∈ m, (0x0A : UInt8) ∉ x.1 := by
  refine ⟨fun h => ?_, C58_folded_readable m⟩
  have hlen := congrArg List.length h
  unfold readFolded at hlen
  rw [List.length_map, linesFrom_length] at hlen
  have hsp : utf8 " " = [0x20] := by decide
  have hnl : utf8 "\n" = [0x0A] := by decide
  have hd : ∀ v, (dig (v + 1) v).count 0x0A = 0 := by
    intro v
    rw [List.count_eq_zero]
    intro hm
    have := (dig_range (v + 1) v _ hm).1
    simp at this
  have key : ∀ m : List (Bytes × Nat), (foldedText m).count 0x0A = m.length + (m.map fun x => x.1.count 0x0A).sum := by
    intro m
    induction m with
    | nil => rfl
    | cons x m ih =>
      obtain ⟨k, v⟩ := x
      have htext : foldedText ((k, v) :: m) = k ++ [0x20] ++ dig (v + 1) v ++ [0x0A] ++ foldedText m := by
        simp [foldedText, hsp, hnl, utf8_decimal]
      rw [htext]
      simp only [List.count_append, ih, hd, List.length_cons, List.map_cons, List.sum_cons]
      have h1 : ([0x20] : Bytes).count 0x0A = 0 := by decide
      have h2 : ([0x0A] : Bytes).count 0x0A = 1 := by decide
      rw [h1, h2]
      omega
  rw [key] at hlen
  have hz : (m.map fun x => x.1.count 0x0A).sum = 0 := by omega
  intro x hx hmem
  have h1 := List.count_pos_iff.2 hmem
  have h2 : x.1.count 0x0A ≤ (m.map fun x => x.1.count 0x0A).sum := List.le_sum_of_mem (List.mem_map.2 ⟨x, hx, rfl⟩)
  omega

/-! ## A concrete case -/

theorem exStream_span : allTime exStream = 28 := by decide +kernel

theorem exStream_collapsed : collapse true exStream = .ok
    [(utf8 "rustc;e5", 1), (utf8 "rustc;e1", 15), (utf8 "rustc;e1;e3", 3), (utf8 "rustc;e1;e3;e4", 2), (utf8 "rustc;e5;e2", 2),
     (utf8 "rustc;e1;e2", 5), (utf8 "rustc", 0)] := by decide +kernel

example : allTime exStream < 2 ^ 64 ∧ ∀ e ∈ exStream, (0x3B : UInt8) ∉ e.label :=
  ⟨by rw [exStream_span]; decide, by decide +kernel⟩

example : readFolded (foldedText [(utf8 "rustc;a b", 12), (utf8 "rustc", 0)]) = [(utf8 "rustc;a b", 12), (utf8 "rustc", 0)] :=
  C58_folded_readable _ (by decide +kernel)

/-- A stack with a newline is read back as two. -/
example : readFolded (foldedText [(utf8 "rustc;a\n1", 12)]) ≠ [(utf8 "rustc;a\n1", 12)] := by
  rw [ne_eq, C58_readable_iff]
  decide +kernel

end Verif.Props
