import Verif.Props.StringTable
import Verif.Proofs.Crash
import Verif.Proofs.Utf8Texts

/-!
# C81: strings of types that implement `SerializableString` themselves

`SerializableString` is a public trait: a program may store values of its own types, which write whatever bytes they like.  All theorems of C12–C17 hold for sessions with
such calls in between; here is what that means, and what such a string reads as.
-/

namespace Verif.Props

open Verif Verif.Mm Verif.Spec

theorem custom_run (h : History) (hg : AllGood h) (size : Nat) (fill : Fill) (ho : Good (.writeAtomic size fill)) :
    SessionOp.run (.custom size fill) (run profTags h).2 =
      ((fromAddr (written 1 h).length).map some, (run profTags (h ++ [(1, .writeAtomic size fill)])).2) := by
  obtain ⟨r, hr, hadr⟩ := call_good h hg 1 (.writeAtomic size fill) ho
  rw [hadr trivial] at hr
  have ha : addrCall dataSink (.writeAtomic size fill) (run profTags h).2 =
      (.ok (written 1 h).length, (run profTags (h ++ [(1, .writeAtomic size fill)])).2) := by
    unfold addrCall
    exact Act.bind_ok hr
  simp only [SessionOp.run]
  rw [Act.bind_ok ha]
  generalize fromAddr (written 1 h).length = x
  cases x <;> rfl

/-- Where the bytes of a custom string end up. -/
theorem custom_at (ops1 ops2 : List SessionOp) (size : Nat) (fill : Fill) (out : Bytes) (id : StringId)
    (good : ∀ o ∈ ops1 ++ .custom size fill :: ops2, GoodOp o) (hout : fill (List.replicate size 0) = .ok out)
    (hlog : (logOf (ops1 ++ .custom size fill :: ops2))[ops1.length]? = some (.custom size fill, .ok (some id))) :
    ∃ t D1 D2, loadTable (savedStore (ops1 ++ .custom size fill :: ops2)) = .ok t ∧ t.stringData = D1 ++ out ++ D2 ∧
      t.getAddr id = .ok (some D1.length) ∧ (ops2 = [] → D2 = []) ∧
      (∀ s ops3, ops2 = .table (.alloc (.str s)) :: ops3 → ∃ D3, D2 = utf8 s ++ 0xFF :: D3) := by
  have g1 : ∀ o ∈ ops1, GoodOp o := fun o ho => good o (by simp [ho])
  have gc : Good (.writeAtomic size fill) := good (.custom size fill) (by simp)
  have g2 : ∀ o ∈ ops2, GoodOp o := fun o ho => good o (by simp [ho])
  obtain ⟨h, inv⟩ := session_inv ops1 g1
  obtain ⟨h', inv1⟩ := inv.step (.custom size fill) gc
  have hrun := custom_run h inv.good size fill gc
  rw [← inv.world] at hrun
  have hpay : payload (.writeAtomic size fill) = out := by simp [payload, hout]
  have hw1 : written 1 (h ++ h') = written 1 h ++ out := by
    have : (run profTags (h ++ h')).2 = (run profTags (h ++ [(1, .writeAtomic size fill)])).2 := by
      rw [← inv1.world, hrun]
    rw [written_determined inv1.good (allGood_snoc inv.good gc) inv1.sinks (sinks_snoc inv.sinks (by decide) _) this 1 (by decide),
      written_snoc_same, hpay]
  -- the rest of the session
  have key : ∃ h2 D2, SInv [] (logOf (ops1 ++ .custom size fill :: ops2)) h2 (session (ops1 ++ .custom size fill :: ops2)).2 ∧
      written 1 h2 = written 1 h ++ out ++ D2 ∧ (ops2 = [] → D2 = []) ∧
      (∀ s ops3, ops2 = .table (.alloc (.str s)) :: ops3 → ∃ D3, D2 = utf8 s ++ 0xFF :: D3) := by
    have hsess : (session (ops1 ++ .custom size fill :: ops2)).2 = (runOps ops2 ((SessionOp.custom size fill).run (session ops1).2).2).2 := by
      simp only [session, runOps_append, runOps]
    have hl : logOf (ops1 ++ .custom size fill :: ops2) =
        (logOf ops1 ++ [(.custom size fill, ((SessionOp.custom size fill).run (session ops1).2).1)]) ++
          ops2.zip (runOps ops2 ((SessionOp.custom size fill).run (session ops1).2).2).1 := by
      simp only [logOf, session, runOps_append, runOps]
      rw [List.zip_append (by rw [runOps_length])]
      simp
    rw [hsess, hl]
    cases ops2 with
    | nil =>
      refine ⟨h ++ h', [], by simpa [runOps] using inv1, by rw [hw1, List.append_nil], fun _ => rfl, ?_⟩
      intro s ops3 hc
      simp at hc
    | cons o ops3 =>
      obtain ⟨h3, inv2⟩ := inv1.step o (g2 o (by simp))
      obtain ⟨h4, inv3⟩ := SInv.runOps ops3 (fun o ho => g2 o (by simp [ho])) inv2
      refine ⟨h ++ h' ++ h3 ++ h4, written 1 h3 ++ written 1 h4, ?_, ?_, by simp, ?_⟩
      · simp only [runOps, List.zip_cons_cons]
        simpa using inv3
      · rw [written_append, written_append, hw1, List.append_assoc (written 1 h ++ out)]
      · intro s ops3' hc
        injection hc with ho _
        subst ho
        have ha := alloc_run (h ++ h') inv1.good (.str s)
        have hr : ((SessionOp.table (.alloc (.str s))).run ((SessionOp.custom size fill).run (session ops1).2).2).2 =
            (run profTags (h ++ h' ++ [(1, .writeAtomic (Text.str s).serializedSize (Text.str s).serialize)])).2 := by
          rw [inv1.world]
          simp only [SessionOp.run, TableOp.run]
          rw [Act.bind_apply, ha]
          generalize fromAddr (written 1 (h ++ h')).length = x
          cases x <;> rfl
        have hw2 : written 1 (h ++ h' ++ h3) = written 1 (h ++ h') ++ (utf8 s ++ [0xFF]) := by
          have : (run profTags (h ++ h' ++ h3)).2 = (run profTags (h ++ h' ++ [(1, .writeAtomic (Text.str s).serializedSize (Text.str s).serialize)])).2 := by
            rw [← inv2.world, hr]
          rw [written_determined inv2.good (allGood_snoc inv1.good (alloc_good _)) inv2.sinks (sinks_snoc inv1.sinks (by decide) _) this 1 (by decide),
            written_snoc_same, alloc_payload]
          simp [components, encText, encComponent]
        rw [written_append] at hw2
        rw [List.append_cancel_left hw2]
        exact ⟨written 1 h4, by simp⟩
  obtain ⟨h2, D2, inv2, hw, hn, hs⟩ := key
  obtain ⟨m, hm, _, m1, m2, _⟩ := inv2.saved
  obtain ⟨t, ht, hd, _⟩ := inv2.tab.rel
  refine ⟨t, written 1 h, D2, ?_, by rw [hd, hw], ?_, hn, hs⟩
  · have hs : splitStreams (savedStore (ops1 ++ .custom size fill :: ops2)) = .ok m := hm
    unfold loadTable
    rw [hs]
    simp only [bind, Except.bind, m1, m2, Option.getD_some]
    exact ht none
  · refine getAddr_regular t ?_
    have hidx : (logOf (ops1 ++ .custom size fill :: ops2))[ops1.length]? =
        some (.custom size fill, ((SessionOp.custom size fill).run (session ops1).2).1) := by
      simp only [logOf, session, runOps_append, runOps]
      rw [List.zip_append (by rw [runOps_length]), List.getElem?_append_right (by simp [runOps_length])]
      simp [runOps_length]
    rw [hidx, hrun] at hlog
    generalize hf : fromAddr (written 1 h).length = x at hlog
    cases x with
    | error e => simp [Except.map] at hlog
    | ok id' =>
      simp [Except.map] at hlog
      subst hlog
      exact fromAddr_ok hf

/-- Text up to the first byte that is a terminator, without references before it. -/
theorem reads_upto (t : StringTable) (id : StringId) (D1 b rest : Bytes) (hd : t.stringData = D1 ++ b ++ 0xFF :: rest)
    (ha : t.getAddr id = .ok (some D1.length)) (hb : ∀ x ∈ b, x ≠ 0xFF ∧ x ≠ 0xFE) :
    Writes t id (fromUtf8Lossy b) ∧ ToString t id (fromUtf8Lossy b) := by
  have hdrop : t.stringData.drop D1.length = b ++ 0xFF :: rest := by
    rw [hd, List.append_assoc, List.drop_left]
  have hend : t.stringData.drop (D1.length + b.length) = 0xFF :: rest := by
    rw [← List.drop_drop, hdrop, List.drop_left]
  have hge : ∀ k, t.stringData[k]? = (t.stringData.drop k)[0]? := by intro k; simp
  have hloop : ∀ fuel, t.writeLoop (fuel + 2) D1.length = .ok (fromUtf8Lossy b) := by
    intro fuel
    have hterm : ∀ f, t.writeLoop (f + 1) (D1.length + b.length) = .ok [] := by
      intro f
      unfold StringTable.writeLoop
      rw [hge, hend]
      simp [terminator]
    cases b with
    | nil =>
      rw [show D1.length = D1.length + ([] : Bytes).length from rfl, hterm]
      rfl
    | cons x b' =>
      have hx := hb x (by simp)
      rw [show fuel + 2 = (fuel + 1) + 1 from rfl]
      unfold StringTable.writeLoop
      have h0 : t.stringData[D1.length]? = some x := by rw [hge, hdrop]; rfl
      have hm : memchr (fun b => b = 0xFF || b = 0xFE) (t.stringData.drop D1.length) = some (x :: b').length := by
        rw [hdrop]
        unfold memchr
        rw [List.findIdx?_append, List.findIdx?_eq_none_iff.mpr (by intro y hy; have := hb y hy; simp [this])]
        rw [List.findIdx?_cons]
        simp
      rw [h0]
      simp only [terminator, stringRefTag, hx.1, hx.2, if_false, hm, hterm]
      rw [hdrop, List.take_left, List.append_nil]
  have hwrite : ∀ fuel, t.write (fuel + 3) id = .ok (fromUtf8Lossy b) := by
    intro fuel
    rw [show fuel + 3 = (fuel + 2) + 1 from rfl]
    unfold StringTable.write
    rw [ha]
    exact hloop fuel
  refine ⟨⟨3, fun fuel hf => ?_⟩, ⟨4, fun fuel hf => ?_⟩⟩
  · obtain ⟨f, rfl⟩ : ∃ f, fuel = f + 3 := ⟨fuel - 3, by omega⟩
    exact hwrite f
  · obtain ⟨f, rfl⟩ : ∃ f, fuel = f + 3 + 1 := ⟨fuel - 4, by omega⟩
    unfold StringTable.toStr
    have hlen : ¬ t.stringData.length < D1.length := by rw [hd]; simp
    have hm : memchr (fun b => b = terminator) (b ++ 0xFF :: rest) = some b.length := by
      unfold memchr
      rw [List.findIdx?_append, List.findIdx?_eq_none_iff.mpr (by intro y hy; have := hb y hy; simp [terminator, this])]
      rw [List.findIdx?_cons]
      simp [terminator]
    obtain ⟨y, hy, hyne⟩ : ∃ y, t.stringData[D1.length]? = some y ∧ y ≠ 0xFE := by
      cases b with
      | nil => exact ⟨0xFF, by rw [hge, hdrop]; rfl, by decide⟩
      | cons x b' => exact ⟨x, by rw [hge, hdrop]; rfl, (hb x (by simp)).2⟩
    rw [ha]
    simp only [hlen, if_false, hdrop, hm, hy, stringRefTag, hyne, false_and, List.take_left]
    split
    · rename_i hv
      obtain ⟨s, rfl⟩ := (validUtf8_iff b).mp hv
      rw [lossy_utf8]
    · exact hwrite f

/-- **C81.** Whatever values of the program's own types write, and however large they are: the table opens, the event stream is what was written to it, and every
string of the library's own types (and every text made of such) reads as without them. -/
theorem C81_others_unaffected (ops : List SessionOp) (good : ∀ o ∈ ops, GoodOp o) :
    ∃ m t, splitStreams (savedStore ops) = .ok m ∧ loadTable (savedStore ops) = .ok t ∧
      (m .events).getD [] = ops.flatMap (fun | .events c => payload c | _ => []) ∧
      ∀ id s, Means (logOf ops) id s → Writes t id (utf8 s) := by
  obtain ⟨h, inv⟩ := session_inv ops good
  obtain ⟨m, hm, he, h1, h2, _⟩ := inv.saved
  obtain ⟨t, D, I, ht, hd, rel, ok⟩ := session_table ops good
  refine ⟨m, t, hm, ht, ?_, fun id s h => means_writes rel h⟩
  rw [he, List.nil_append]
  have hl : ∀ (ops : List SessionOp) (rs : List (Except Fault (Option StringId))), rs.length = ops.length →
      (ops.zip rs).flatMap evPayload = ops.flatMap (fun | .events c => payload c | _ => []) := by
    intro ops
    induction ops with
    | nil => intro rs _; rfl
    | cons o ops ih =>
      intro rs hr
      cases rs with
      | nil => simp at hr
      | cons r rs =>
        rw [List.zip_cons_cons, List.flatMap_cons, List.flatMap_cons, ih rs (by simpa using hr)]
        congr 1
        cases o <;> rfl
  exact hl _ _ (runOps_length _ _)

/-- **C81.** A value that writes a text and the terminator (0xFF), the bytes 0xFE and 0xFF not occurring in the text, reads as that text, each ill-formed sequence being replaced
by U+FFFD; what it writes after the terminator does not matter. -/
theorem C81_reads_up_to_terminator (ops1 ops2 : List SessionOp) (size : Nat) (fill : Fill) (body junk : Bytes) (id : StringId)
    (good : ∀ o ∈ ops1 ++ .custom size fill :: ops2, GoodOp o) (hout : fill (List.replicate size 0) = .ok (body ++ 0xFF :: junk))
    (hb : ∀ x ∈ body, x ≠ 0xFF ∧ x ≠ 0xFE)
    (hlog : (logOf (ops1 ++ .custom size fill :: ops2))[ops1.length]? = some (.custom size fill, .ok (some id))) :
    ∃ t, loadTable (savedStore (ops1 ++ .custom size fill :: ops2)) = .ok t ∧ Writes t id (fromUtf8Lossy body) ∧ ToString t id (fromUtf8Lossy body) := by
  obtain ⟨t, D1, D2, ht, hd, ha, _⟩ := custom_at ops1 ops2 size fill _ id good hout hlog
  exact ⟨t, ht, reads_upto t id D1 body (junk ++ D2) (by rw [hd]; simp) ha hb⟩

/-- **C81.** So a value that writes what the library writes for a string reads as that string. -/
theorem C81_format_followed (ops1 ops2 : List SessionOp) (size : Nat) (fill : Fill) (s : String) (id : StringId)
    (good : ∀ o ∈ ops1 ++ .custom size fill :: ops2, GoodOp o) (hout : fill (List.replicate size 0) = .ok (utf8 s ++ [0xFF]))
    (hlog : (logOf (ops1 ++ .custom size fill :: ops2))[ops1.length]? = some (.custom size fill, .ok (some id))) :
    ∃ t, loadTable (savedStore (ops1 ++ .custom size fill :: ops2)) = .ok t ∧ Writes t id (utf8 s) ∧ ToString t id (utf8 s) := by
  obtain ⟨t, h1, h2, h3⟩ := C81_reads_up_to_terminator ops1 ops2 size fill (utf8 s) [] id good hout (fun x hx => by
    have := utf8_bytes_lt s x hx
    constructor <;> (rintro rfl; simp at this)) hlog
  rw [lossy_utf8] at h2 h3
  exact ⟨t, h1, h2, h3⟩

/-- **C81.** A value that forgets the terminator runs on into the next string; that one still reads as it should. -/
theorem C81_runs_on (ops1 ops3 : List SessionOp) (size : Nat) (fill : Fill) (body : Bytes) (s : String) (id id' : StringId)
    (good : ∀ o ∈ ops1 ++ .custom size fill :: .table (.alloc (.str s)) :: ops3, GoodOp o) (hout : fill (List.replicate size 0) = .ok body)
    (hb : ∀ x ∈ body, x ≠ 0xFF ∧ x ≠ 0xFE)
    (hlog : (logOf (ops1 ++ .custom size fill :: .table (.alloc (.str s)) :: ops3))[ops1.length]? = some (.custom size fill, .ok (some id)))
    (hnext : (SessionOp.table (.alloc (.str s)), .ok (some id')) ∈ logOf (ops1 ++ .custom size fill :: .table (.alloc (.str s)) :: ops3)) :
    ∃ t, loadTable (savedStore (ops1 ++ .custom size fill :: .table (.alloc (.str s)) :: ops3)) = .ok t ∧
      Writes t id (fromUtf8Lossy (body ++ utf8 s)) ∧ ToString t id (fromUtf8Lossy (body ++ utf8 s)) ∧ Writes t id' (utf8 s) ∧ ToString t id' (utf8 s) := by
  obtain ⟨t, D1, D2, ht, hd, ha, _, hs⟩ := custom_at ops1 _ size fill _ id good hout hlog
  obtain ⟨D3, hD⟩ := hs s ops3 rfl
  obtain ⟨t', ht', h1, h2⟩ := C12_plain_string_reads_back _ good s id' hnext
  rw [ht] at ht'
  injection ht' with ht'
  subst ht'
  obtain ⟨g1, g2⟩ := reads_upto t id D1 (body ++ utf8 s) D3 (by rw [hd, hD]; simp) ha (by
    intro x hx
    rw [List.mem_append] at hx
    rcases hx with hx | hx
    · exact hb x hx
    · have := utf8_bytes_lt s x hx
      constructor <;> (rintro rfl; simp at this))
  exact ⟨t, ht, g1, g2, h1, h2⟩

/-- **C81.** If nothing follows, the two ways of reading it disagree: one gives `<invalid>`, the other panics. -/
theorem C81_unterminated_at_end (ops1 : List SessionOp) (size : Nat) (fill : Fill) (body : Bytes) (id : StringId)
    (good : ∀ o ∈ ops1 ++ [.custom size fill], GoodOp o) (hout : fill (List.replicate size 0) = .ok body)
    (hb : ∀ x ∈ body, x ≠ 0xFF ∧ x ≠ 0xFE) (hne : body ≠ [])
    (hlog : (logOf (ops1 ++ [.custom size fill]))[ops1.length]? = some (.custom size fill, .ok (some id))) :
    ∃ t, loadTable (savedStore (ops1 ++ [.custom size fill])) = .ok t ∧ Writes t id (utf8 "<invalid>") ∧ ∀ fuel, IsPanic (t.toStr (fuel + 1) id) := by
  obtain ⟨t, D1, D2, ht, hd, ha, hn, _⟩ := custom_at ops1 [] size fill _ id good hout hlog
  rw [hn rfl, List.append_nil] at hd
  have hdrop : t.stringData.drop D1.length = body := by rw [hd, List.drop_left]
  have hge : ∀ k, t.stringData[k]? = (t.stringData.drop k)[0]? := by intro k; simp
  refine ⟨t, ht, ⟨2, fun fuel hf => ?_⟩, fun fuel => ?_⟩
  · obtain ⟨f, rfl⟩ : ∃ f, fuel = f + 1 + 1 := ⟨fuel - 2, by omega⟩
    obtain ⟨x, b', rfl⟩ : ∃ x b', body = x :: b' := List.exists_cons_of_ne_nil hne
    have hx := hb x (by simp)
    unfold StringTable.write
    rw [ha]
    unfold StringTable.writeLoop
    have h0 : t.stringData[D1.length]? = some x := by rw [hge, hdrop]; rfl
    have hm : memchr (fun b => b = 0xFF || b = 0xFE) (t.stringData.drop D1.length) = none := by
      rw [hdrop]
      exact List.findIdx?_eq_none_iff.mpr (by intro y hy; have := hb y hy; simp [this])
    simp only [h0, terminator, stringRefTag, hx.1, hx.2, if_false, hm, invalidString]
  · unfold StringTable.toStr
    have hlen : ¬ t.stringData.length < D1.length := by rw [hd]; simp
    have hm : memchr (fun b => b = terminator) body = none :=
      List.findIdx?_eq_none_iff.mpr (by intro y hy; have := hb y hy; simp [terminator, this])
    rw [ha]
    simp only [hlen, if_false, hdrop, hm]
    trivial

/-- A session with values of the program's own types: one that writes a text and the terminator, one that forgets it, one that writes nonsense. -/
def customOps : List SessionOp :=
  [.table (.alloc (.str "first")), .custom 4 (fun _ => .ok [0x68, 0x69, 0xFF, 0xFE]), .custom 2 (fun _ => .ok [0x6F, 0x6B]),
   .table (.alloc (.str "next")), .custom 3 (fun _ => .ok [0xFE, 0xFE, 0xFE]), .table (.mapVirtual 7 100000023), .events (.writeBytes [1, 2])]

/-- The ids the session gives out. -/
theorem customOps_outcomes : (runOps customOps (newBuilder World.init).2).1 =
    [.ok (some 100000011), .ok (some 100000017), .ok (some 100000021), .ok (some 100000023), .ok (some 100000028), .ok none, .ok none] := by
  decide +kernel

theorem customOps_good : ∀ o ∈ customOps, GoodOp o := by
  intro o ho
  simp only [customOps, List.mem_cons, List.not_mem_nil, or_false] at ho
  rcases ho with rfl | rfl | rfl | rfl | rfl | rfl | rfl
  · trivial
  · exact ⟨_, rfl, rfl⟩
  · exact ⟨_, rfl, rfl⟩
  · trivial
  · exact ⟨_, rfl, rfl⟩
  · trivial
  · trivial

/-- Non-vacuity: the session meets the hypotheses of the theorems above: "hi" reads as such, "ok" runs on into "next". -/
example : (logOf customOps)[1]? = some (.custom 4 (fun _ => .ok [0x68, 0x69, 0xFF, 0xFE]), .ok (some 100000017)) ∧
    (logOf customOps)[2]? = some (.custom 2 (fun _ => .ok [0x6F, 0x6B]), .ok (some 100000021)) ∧
    (SessionOp.table (.alloc (.str "next")), .ok (some 100000023)) ∈ logOf customOps ∧ Means (logOf customOps) 7 "next" := by
  have h : logOf customOps = customOps.zip
      [.ok (some 100000011), .ok (some 100000017), .ok (some 100000021), .ok (some 100000023), .ok (some 100000028), .ok none, .ok none] := by
    rw [← customOps_outcomes]; rfl
  have ha : (SessionOp.table (.alloc (.str "next")), .ok (some 100000023)) ∈ logOf customOps := by rw [h]; simp [customOps]
  refine ⟨by rw [h]; rfl, by rw [h]; rfl, ha, ?_⟩
  refine entry_means (.inr (.inl ⟨100000023, ?_, .table (.alloc _), rfl, ha⟩)) (reads_str _ "next")
  refine ⟨(logOf customOps).take 5, (.table (.mapVirtual 7 100000023), .ok none), (logOf customOps).drop 6, ?_, by simp [binds], ?_⟩
  · rw [h]; rfl
  · rw [h]; simp [customOps, binds]

/-- Non-vacuity: a value without terminator at the end of a session. -/
example : (logOf [.custom 2 (fun _ => .ok [0x6F, 0x6B])])[0]? = some (.custom 2 (fun _ => .ok [0x6F, 0x6B]), .ok (some 100000011)) := by
  have h : (runOps [.custom 2 (fun _ => .ok [0x6F, 0x6B])] (newBuilder World.init).2).1 = [.ok (some 100000011)] := by decide +kernel
  simp only [logOf, session, h]
  rfl

end Verif.Props
