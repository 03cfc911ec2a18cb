import Verif.Spec.StringTable
import Verif.Proofs.Utf8
import Verif.Proofs.Container
import Verif.Proofs.Split

namespace Verif.Mm

open Verif Verif.Spec

/-! ### Serialization -/

theorem encComponent_length (c : StringComponent) : (encComponent c).length = c.serializedSize := by
  cases c <;> simp [encComponent, StringComponent.serializedSize, stringRefEncodedSize]

theorem serialize_comp (c : StringComponent) (slot : Bytes) (h : c.serializedSize ≤ slot.length) :
    c.serialize slot = .ok (encComponent c, slot.drop c.serializedSize) := by
  cases c with
  | value s =>
    simp only [StringComponent.serializedSize] at h
    simp [StringComponent.serialize, encComponent, StringComponent.serializedSize, Nat.not_lt.mpr h]
  | ref id =>
    simp only [StringComponent.serializedSize, stringRefEncodedSize] at h
    simp [StringComponent.serialize, encComponent, StringComponent.serializedSize, stringRefEncodedSize, Nat.not_lt.mpr h,
      stringRefTag]

theorem serializeComps_eq (cs : List StringComponent) (slot : Bytes)
    (h : (cs.map StringComponent.serializedSize).sum ≤ slot.length) :
    serializeComps cs slot = .ok (cs.flatMap encComponent, slot.drop (cs.map StringComponent.serializedSize).sum) := by
  induction cs generalizing slot with
  | nil => simp [serializeComps]
  | cons c cs ih =>
    simp only [List.map_cons, List.sum_cons] at h
    simp only [serializeComps]
    rw [serialize_comp c slot (by omega)]
    simp only
    rw [ih _ (by simp; omega)]
    simp

theorem sizes_sum (cs : List StringComponent) :
    (cs.map StringComponent.serializedSize).sum = (cs.flatMap encComponent).length := by
  induction cs with
  | nil => rfl
  | cons c cs ih => simp only [List.map_cons, List.sum_cons, List.flatMap_cons, List.length_append, encComponent_length, ih]

theorem text_size (t : Text) : t.serializedSize = (encText (components t)).length := by
  cases t with
  | str s => simp [Text.serializedSize, encText, components, encComponent]
  | comps cs => simp only [Text.serializedSize, encText, components, sizes_sum, List.length_append, List.length_singleton]

theorem text_serialize (t : Text) (slot : Bytes) (h : slot.length = t.serializedSize) :
    t.serialize slot = .ok (encText (components t)) := by
  cases t with
  | str s =>
    simp only [Text.serializedSize] at h
    simp [Text.serialize, h, encText, components, encComponent, terminator]
  | comps cs =>
    have hs : (cs.map StringComponent.serializedSize).sum + 1 = slot.length := h.symm
    simp only [Text.serialize]
    rw [if_neg (by rw [h]; simp), serializeComps_eq cs slot (by omega)]
    simp only
    rw [if_neg (by simp; omega)]
    simp [encText, components, terminator]

theorem alloc_good (t : Text) : Good (.writeAtomic t.serializedSize t.serialize) :=
  ⟨encText (components t), text_serialize t _ (by simp), (text_size t).symm⟩

theorem alloc_payload (t : Text) : payload (.writeAtomic t.serializedSize t.serialize) = encText (components t) := by
  simp [payload, text_serialize t (List.replicate t.serializedSize 0) (by simp)]

theorem index_good (id : StringId) (a : Nat) : Good (.writeAtomic 16 (indexEntryFill id a)) :=
  ⟨leBytes 8 id.toNat ++ leBytes 8 a, by simp [indexEntryFill], by simp⟩

theorem index_payload (id : StringId) (a : Nat) :
    payload (.writeAtomic 16 (indexEntryFill id a)) = leBytes 8 id.toNat ++ leBytes 8 a := by
  simp [payload, indexEntryFill]

/-! ### Ids -/

theorem firstRegular_toNat : firstRegularStringId.toNat = 100000003 := by decide

theorem liftE_eq {σ α : Type} (e : Except Fault α) (s : σ) : (liftE e : Act σ α) s = (e, s) := by
  cases e <;> rfl

theorem liftE_of {σ α : Type} {e r : Except Fault α} (h : e = r) (s : σ) : (liftE e : Act σ α) s = (r, s) := by
  rw [liftE_eq, h]

theorem metadata_eq : metadataStringId = 100000001 := by decide

theorem fromAddr_ok {a : Nat} {id : StringId} (h : fromAddr a = .ok id) : id.toNat = a + 100000003 := by
  simp only [fromAddr, firstRegular_toNat] at h
  split at h
  · rename_i hlt
    injection h with h
    subst h
    rw [UInt64.toNat_ofNat']
    omega
  · simp at h

theorem fromAddr_eq {a : Nat} (h : a + 100000003 < 2 ^ 64) : fromAddr a = .ok (UInt64.ofNat (a + 100000003)) := by
  simp only [fromAddr, firstRegular_toNat]
  rw [if_pos h]

theorem fromAddr_panic {a : Nat} (h : 18446744073709551616 ≤ a + 100000003) :
    ∃ w, fromAddr a = .error (.panic w) := by
  simp only [fromAddr, firstRegular_toNat]
  rw [if_neg (by omega)]
  exact ⟨_, rfl⟩

theorem toAddr_iff {id : StringId} {a : Nat} : toAddr id = .ok a ↔ id.toNat = a + 100000003 := by
  simp only [toAddr, UInt64.le_iff_toNat_le, firstRegular_toNat]
  split
  · rename_i h
    simp only [Except.ok.injEq]
    omega
  · rename_i h
    simp only [reduceCtorEq, false_iff]
    omega

theorem toAddr_panic {id : StringId} (h : id.toNat < 100000003) : IsPanic (toAddr id) := by
  simp only [toAddr, UInt64.le_iff_toNat_le, firstRegular_toNat]
  rw [if_neg (by simp; omega)]
  trivial

/-! ### Worlds as histories -/

theorem call_good (h : History) (hg : AllGood h) (i : Nat) (c : SinkCall) (hc : Good c) :
    ∃ r, World.call profTags i c (run profTags h).2 = (.ok r, (run profTags (h ++ [(i, c)])).2) ∧
      (ReturnsAddr c → r = some (written i h).length) := by
  obtain ⟨pages, inv, _⟩ := run_inv profTags h hg
  obtain ⟨r, w', new, hcall, _, hret, _⟩ := inv.step i c hc
  refine ⟨r, ?_, hret⟩
  rw [hcall]
  simp only [run, exec_append, World.exec] at hcall ⊢
  rw [hcall]

theorem addrCall_good (h : History) (hg : AllGood h) (i : Nat) (c : SinkCall) (hc : Good c) (hr : ReturnsAddr c) :
    addrCall i c (run profTags h).2 = (.ok (written i h).length, (run profTags (h ++ [(i, c)])).2) := by
  obtain ⟨r, hcall, hret⟩ := call_good h hg i c hc
  unfold addrCall
  rw [Act.bind_ok hcall, hret hr]
  rfl

theorem allGood_snoc {h : History} (hg : AllGood h) {i : Nat} {c : SinkCall} (hc : Good c) : AllGood (h ++ [(i, c)]) := by
  intro x hx
  simp at hx
  rcases hx with hx | rfl
  · exact hg x hx
  · exact hc

/-! ### Builder calls as histories -/

theorem serializeIndexEntry_good (h : History) (hg : AllGood h) (id : StringId) (a : Nat) :
    serializeIndexEntry id a (run profTags h).2 =
      (.ok (), (run profTags (h ++ [(2, .writeAtomic 16 (indexEntryFill id a))])).2) := by
  unfold serializeIndexEntry
  rw [Act.bind_ok (addrCall_good h hg 2 _ (index_good id a) trivial)]
  rfl

theorem alloc_run (h : History) (hg : AllGood h) (t : Text) :
    Mm.alloc t (run profTags h).2 =
      (fromAddr (written 1 h).length, (run profTags (h ++ [(1, .writeAtomic t.serializedSize t.serialize)])).2) := by
  unfold Mm.alloc
  rw [Act.bind_ok (addrCall_good h hg 1 _ (alloc_good t) trivial)]
  cases fromAddr (written 1 h).length <;> rfl

/-- The bytes of an index entry. -/
def entryBytes (e : StringId × Nat) : Bytes := leBytes 8 e.1.toNat ++ leBytes 8 e.2

theorem mapVirtual_run (h : History) (hg : AllGood h) (v c : StringId) :
    (∃ a, v.toNat ≤ 100000000 ∧ c.toNat = a + 100000003 ∧ Mm.mapVirtual v c (run profTags h).2 =
      (.ok (), (run profTags (h ++ [(2, .writeAtomic 16 (indexEntryFill v a))])).2)) ∨
    (¬ (v.toNat ≤ 100000000 ∧ 100000003 ≤ c.toNat) ∧
      ∃ why, Mm.mapVirtual v c (run profTags h).2 = (.error (.panic why), (run profTags h).2)) := by
  unfold Mm.mapVirtual
  have hv : v ≤ maxUserVirtualStringId ↔ v.toNat ≤ 100000000 := by
    simp [maxUserVirtualStringId, UInt64.le_iff_toNat_le]
  by_cases h1 : v.toNat ≤ 100000000
  · rw [Act.bind_ok (Act.assert_true (hv.mpr h1))]
    by_cases h2 : 100000003 ≤ c.toNat
    · left
      refine ⟨c.toNat - 100000003, h1, by omega, ?_⟩
      rw [toAddr_iff.mpr (show c.toNat = (c.toNat - 100000003) + 100000003 by omega)]
      exact (Act.bind_ok rfl).trans (serializeIndexEntry_good h hg v _)
    · right
      refine ⟨by omega, ?_⟩
      have := toAddr_panic (id := c) (by omega)
      match hta : toAddr c, this with
      | .error (.panic why), _ => exact ⟨why, Act.bind_error rfl⟩
  · right
    refine ⟨by omega, _, Act.bind_error (s' := (run profTags h).2) (e := .panic "assertion failed: virtual_id.0 <= MAX_USER_VIRTUAL_STRING_ID") ?_⟩
    exact if_neg (fun hh => h1 (hv.mp hh))

theorem bulkEntries_ok (a : Nat) (vs : List StringId) (h : ∀ v ∈ vs, v.toNat ≤ 100000000) :
    bulkEntries a vs = .ok (vs.flatMap (fun v => entryBytes (v, a))) := by
  induction vs with
  | nil => rfl
  | cons v vs ih =>
    have hv : v ≤ maxUserVirtualStringId := by
      have := h v (by simp)
      simpa [maxUserVirtualStringId, UInt64.le_iff_toNat_le] using this
    simp only [bulkEntries, if_pos hv, ih (fun v hv => h v (by simp [hv]))]
    simp [entryBytes]

theorem bulkEntries_panic (a : Nat) (vs : List StringId) (h : ¬ ∀ v ∈ vs, v.toNat ≤ 100000000) :
    IsPanic (bulkEntries a vs) := by
  induction vs with
  | nil => simp at h
  | cons v vs ih =>
    by_cases hv : v ≤ maxUserVirtualStringId
    · have hv' : v.toNat ≤ 100000000 := by
        simpa [maxUserVirtualStringId, UInt64.le_iff_toNat_le] using hv
      have := ih (by intro hh; apply h; intro x hx; exact (List.mem_cons.mp hx).elim (fun e => e ▸ hv') (fun hx => hh x hx))
      simp only [bulkEntries, if_pos hv]
      match hb : bulkEntries a vs, this with
      | .error (.panic w), _ => trivial
    · simp [bulkEntries, if_neg hv, IsPanic]

theorem bulkMapVirtual_run (h : History) (hg : AllGood h) (vs : List StringId) (c : StringId) :
    (∃ a, (∀ v ∈ vs, v.toNat ≤ 100000000) ∧ c.toNat = a + 100000003 ∧ Mm.bulkMapVirtual vs c (run profTags h).2 =
      (.ok (), (run profTags (h ++ [(2, .writeBytes (vs.flatMap (fun v => entryBytes (v, a))))])).2)) ∨
    (¬ ((∀ v ∈ vs, v.toNat ≤ 100000000) ∧ 100000003 ≤ c.toNat) ∧
      ∃ why, Mm.bulkMapVirtual vs c (run profTags h).2 = (.error (.panic why), (run profTags h).2)) := by
  unfold Mm.bulkMapVirtual
  by_cases h2 : 100000003 ≤ c.toNat
  · have e1 := liftE_of (toAddr_iff.mpr (show c.toNat = (c.toNat - 100000003) + 100000003 by omega)) (run profTags h).2
    by_cases h1 : ∀ v ∈ vs, v.toNat ≤ 100000000
    · left
      refine ⟨c.toNat - 100000003, h1, by omega, ?_⟩
      have e2 := liftE_of (bulkEntries_ok (c.toNat - 100000003) _ h1) (run profTags h).2
      rw [Act.bind_ok e1, Act.bind_ok e2, Act.bind_ok (addrCall_good h hg 2 (.writeBytes _) trivial trivial)]
      rfl
    · right
      refine ⟨by simp [h1], ?_⟩
      have := bulkEntries_panic (c.toNat - 100000003) vs h1
      match hb : bulkEntries (c.toNat - 100000003) vs, this with
      | .error (.panic w), _ =>
        refine ⟨w, ?_⟩
        rw [Act.bind_ok e1, Act.bind_error (liftE_of hb _)]
  · right
    refine ⟨by omega, ?_⟩
    have := toAddr_panic (id := c) (by omega)
    match hta : toAddr c, this with
    | .error (.panic why), _ => exact ⟨why, Act.bind_error (by rw [liftE_eq])⟩

theorem allocMetadata_run (h : History) (hg : AllGood h) (t : Text) :
    let h1 := h ++ [(1, SinkCall.writeAtomic t.serializedSize t.serialize)]
    ((written 1 h).length + 100000003 < 2 ^ 64 ∧ Mm.allocMetadata t (run profTags h).2 =
      (.ok (), (run profTags (h1 ++ [(2, .writeAtomic 16 (indexEntryFill 100000001 (written 1 h).length))])).2)) ∨
    (¬ (written 1 h).length + 100000003 < 2 ^ 64 ∧
      ∃ why, Mm.allocMetadata t (run profTags h).2 = (.error (.panic why), (run profTags h1).2)) := by
  intro h1
  have hg1 : AllGood h1 := allGood_snoc hg (alloc_good t)
  unfold Mm.allocMetadata
  by_cases hlt : (written 1 h).length + 100000003 < 2 ^ 64
  · left
    refine ⟨hlt, ?_⟩
    have ha := alloc_run h hg t
    rw [fromAddr_eq hlt] at ha
    rw [Act.bind_ok ha, Act.bind_ok (Act.assert_true (by decide))]
    have : toAddr (UInt64.ofNat ((written 1 h).length + 100000003)) = .ok (written 1 h).length := by
      rw [toAddr_iff, UInt64.toNat_ofNat']
      exact Nat.mod_eq_of_lt hlt
    rw [Act.bind_ok (liftE_of this _), metadata_eq]
    exact serializeIndexEntry_good h1 hg1 _ _
  · right
    refine ⟨hlt, ?_⟩
    have ha := alloc_run h hg t
    have hle : 18446744073709551616 ≤ (written 1 h).length + 100000003 := by omega
    obtain ⟨w, hf⟩ := fromAddr_panic hle
    rw [hf] at ha
    exact ⟨w, Act.bind_error ha⟩

end Verif.Mm
