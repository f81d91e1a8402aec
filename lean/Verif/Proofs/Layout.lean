import Verif.Model.Histogram
import Verif.Proofs.Lay
import Mathlib.Tactic.NormNum

/-!
# The layout functions of the model equal their closed forms
-/

namespace Hdr

/-! ### the panic monad -/

@[simp] theorem M.ok_bind {α β : Type} (a : α) (f : α → M β) : ((Except.ok a : M α) >>= f) = f a := rfl
@[simp] theorem M.error_bind {α β : Type} (e : Panic) (f : α → M β) :
    ((Except.error e : M α) >>= f) = Except.error e := rfl
@[simp] theorem M.pure_eq {α : Type} (a : α) : (pure a : M α) = Except.ok a := rfl
theorem M.bind_eq_ok {α β : Type} {x : M α} {f : α → M β} {b : β} :
    (x >>= f) = Except.ok b ↔ ∃ a, x = Except.ok a ∧ f a = Except.ok b := by
  cases x <;> simp
theorem M.bind_assoc {α β γ : Type} (x : M α) (f : α → M β) (g : β → M γ) :
    ((x >>= f) >>= g) = (x >>= fun a => f a >>= g) := by
  cases x <;> rfl

@[simp] theorem assertM_true {b : Bool} (h : b = true) : assertM b = .ok () := by simp [assertM, h]
@[simp] theorem expectM_some {α : Type} (a : α) : expectM (some a) = .ok a := rfl
@[simp] theorem expectM_none {α : Type} : expectM (none : Option α) = .error .expect := rfl
theorem subU_ok {a b : Nat} (h : b ≤ a) : subU a b = .ok (a - b) := by simp [subU, h]
theorem addU8_ok {a b : Nat} (h : a + b < 256) : addU8 a b = .ok (a + b) := by simp [addU8, h]
theorem addU32_ok {a b : Nat} (h : a + b < 4294967296) : addU32 a b = .ok (a + b) := by
  simp [addU32, h]
theorem mulU32_ok {a b : Nat} (h : a * b < 4294967296) : mulU32 a b = .ok (a * b) := by
  simp [mulU32, h]
theorem addU64_ok {a b : Nat} (h : a + b ≤ U64MAX) : addU64 a b = .ok (a + b) := by simp [addU64, h]
theorem mulU64_ok {a b : Nat} (h : a * b ≤ U64MAX) : mulU64 a b = .ok (a * b) := by simp [mulU64, h]
theorem shrU64_ok {a n : Nat} (h : n < 64) : shrU64 a n = .ok (a / 2 ^ n) := by simp [shrU64, h]
theorem shlU64_ok {a n : Nat} (h : n < 64) (h2 : a * 2 ^ n < 2 ^ 64) :
    shlU64 a n = .ok (a * 2 ^ n) := by
  unfold shlU64; rw [if_pos h, Nat.mod_eq_of_lt h2]
theorem shlU32_ok {a n : Nat} (h : n < 32) (h2 : a * 2 ^ n < 2 ^ 32) :
    shlU32 a n = .ok (a * 2 ^ n) := by
  unfold shlU32; rw [if_pos h, Nat.mod_eq_of_lt h2]
theorem chkI32_ok {x : Int} (h : -2147483648 ≤ x ∧ x ≤ 2147483647) : chkI32 x = .ok x := by
  simp [chkI32, h]
theorem chkI64_ok {x : Int} (h : -9223372036854775808 ≤ x ∧ x ≤ 9223372036854775807) :
    chkI64 x = .ok x := by
  simp [chkI64, h]
theorem wrapI32_id {x : Int} (h : -2147483648 ≤ x ∧ x ≤ 2147483647) : wrapI32 x = x := by
  unfold wrapI32; omega

theorem U64MAX_lt {v : Nat} : v ≤ U64MAX ↔ v < 2 ^ 64 := by
  have : (2:Nat) ^ 64 = U64MAX + 1 := by norm_num
  omega

variable {T : CounterTy}

/-- The layout constants of a histogram are mutually consistent (they are, for every histogram the
constructor builds, and nothing ever changes them). -/
structure LayoutOK (h : Hist T) : Prop where
  sbc : h.subBucketCount = 2 ^ (h.subBucketHalfCountMag + 1)
  half : h.subBucketHalfCount = 2 ^ h.subBucketHalfCountMag
  mag17 : h.subBucketHalfCountMag ≤ 17
  sum62 : h.unitMag + h.subBucketHalfCountMag ≤ 62
  lzb : h.leadingZeroCountBase = 63 - h.unitMag - h.subBucketHalfCountMag
  mask : h.subBucketMask = (2 ^ (h.subBucketHalfCountMag + 1) - 1) * 2 ^ h.unitMag
  ummask : h.unitMagMask = 2 ^ h.unitMag - 1

namespace Hist
/-- closed forms on a histogram -/
abbrev lidx (h : Hist T) (v : Nat) : Nat := Lay.idx h.unitMag h.subBucketHalfCountMag v
abbrev lval (h : Hist T) (i : Nat) : Nat := Lay.val h.unitMag h.subBucketHalfCountMag i
abbrev llo (h : Hist T) (v : Nat) : Nat := Lay.lo h.unitMag h.subBucketHalfCountMag v
abbrev lwid (h : Hist T) (v : Nat) : Nat := Lay.wid h.unitMag h.subBucketHalfCountMag v
abbrev lbkt (h : Hist T) (v : Nat) : Nat := Lay.bkt h.unitMag h.subBucketHalfCountMag v
abbrev lall (h : Hist T) : Nat := Lay.allSlots h.unitMag h.subBucketHalfCountMag
/-- highest value of the class of `v`, as the code computes it (with the cap at the top of `u64`) -/
def lhi (h : Hist T) (v : Nat) : Nat :=
  if v = U64MAX then U64MAX else Min.min (h.llo v + h.lwid v) U64MAX - 1
end Hist

theorem log2_or_mask (um m v : Nat) :
    Nat.log2 (v ||| (2 ^ (m + 1) - 1) * 2 ^ um) = max (Nat.log2 v) (um + m) := by
  have hmask : 2 ^ (um + m) ≤ (2 ^ (m + 1) - 1) * 2 ^ um := by
    rw [pow_add, mul_comm]
    apply Nat.mul_le_mul_right
    rw [pow_succ]; have : 0 < 2 ^ m := by positivity
    omega
  have hmask2 : (2 ^ (m + 1) - 1) * 2 ^ um < 2 ^ (um + m + 1) := by
    have : 2 ^ (um + m + 1) = 2 ^ (m + 1) * 2 ^ um := by rw [← pow_add]; congr 1; ring
    rw [this]
    apply Nat.mul_lt_mul_of_pos_right _ (by positivity)
    have : 0 < 2 ^ (m + 1) := by positivity
    omega
  have hp : 0 < 2 ^ (um + m) := by positivity
  have hr : (2 ^ (m + 1) - 1) * 2 ^ um ≤ v ||| (2 ^ (m + 1) - 1) * 2 ^ um := Nat.right_le_or
  have hne : (v ||| (2 ^ (m + 1) - 1) * 2 ^ um) ≠ 0 := by omega
  rw [Nat.log2_eq_iff hne]
  constructor
  · by_cases hv : um + m ≤ Nat.log2 v
    · rw [Nat.max_eq_left hv]
      by_cases h0 : v = 0
      · subst h0; simp at hv ⊢; rw [hv.1, hv.2]; simp
      exact le_trans (Nat.log2_self_le h0) Nat.left_le_or
    · rw [Nat.max_eq_right (by omega)]
      exact le_trans hmask hr
  · apply Nat.or_lt_two_pow
    · refine lt_of_lt_of_le (Nat.lt_log2_self) ?_
      exact Nat.pow_le_pow_right (by norm_num) (Nat.succ_le_succ (Nat.le_max_left _ _))
    · refine lt_of_lt_of_le hmask2 ?_
      exact Nat.pow_le_pow_right (by norm_num) (Nat.succ_le_succ (Nat.le_max_right _ _))

section
variable {h : Hist T} (L : LayoutOK h) {v : Nat}
include L

theorem bucketFor_eq (hv : v ≤ U64MAX) : h.bucketFor v = .ok (h.lbkt v) := by
  have hv' := U64MAX_lt.mp hv
  have hs := L.sum62
  unfold Hist.bucketFor
  rw [L.mask, L.lzb]
  have hne : (v ||| (2 ^ (h.subBucketHalfCountMag + 1) - 1) * 2 ^ h.unitMag) ≠ 0 := by
    intro h0
    have h1 := log2_or_mask h.unitMag h.subBucketHalfCountMag v
    have hr : (2 ^ (h.subBucketHalfCountMag + 1) - 1) * 2 ^ h.unitMag
      ≤ v ||| (2 ^ (h.subBucketHalfCountMag + 1) - 1) * 2 ^ h.unitMag := Nat.right_le_or
    rw [h0] at hr
    have : 0 < (2 ^ (h.subBucketHalfCountMag + 1) - 1) * 2 ^ h.unitMag := by
      apply Nat.mul_pos _ (by positivity)
      rw [pow_succ]; have : 0 < 2 ^ h.subBucketHalfCountMag := by positivity
      omega
    omega
  unfold lz64
  rw [if_neg hne, log2_or_mask]
  have hl : Nat.log2 v ≤ 63 := by
    by_cases h0 : v = 0
    · subst h0; simp
    exact Nat.lt_succ_iff.mp ((Nat.log2_lt h0).mpr hv')
  have hmx : max (Nat.log2 v) (h.unitMag + h.subBucketHalfCountMag) ≤ 63 :=
    Nat.max_le.mpr ⟨hl, by omega⟩
  have hmr := Nat.le_max_right (Nat.log2 v) (h.unitMag + h.subBucketHalfCountMag)
  rw [subU_ok (by omega)]
  congr 1
  unfold Hist.lbkt Lay.bkt
  rcases Nat.le_total (Nat.log2 v) (h.unitMag + h.subBucketHalfCountMag) with hc | hc
  · rw [Nat.max_eq_right hc]; omega
  · rw [Nat.max_eq_left hc]; omega

theorem bkt_sum (hv : v ≤ U64MAX) :
    h.unitMag + h.subBucketHalfCountMag + h.lbkt v ≤ 63 :=
  Lay.bkt_le L.sum62 (U64MAX_lt.mp hv)

theorem sub_small : v / h.lwid v < 2 ^ 18 :=
  lt_of_lt_of_le Lay.sub_lt (Nat.pow_le_pow_right (by norm_num) (by have := L.mag17; omega))

theorem subBucketFor_eq (hv : v ≤ U64MAX) :
    h.subBucketFor v (h.lbkt v) = .ok (v / h.lwid v) := by
  have hb := bkt_sum L hv
  unfold Hist.subBucketFor
  rw [addU8_ok (by omega), M.ok_bind, shrU64_ok (by omega), M.ok_bind]
  have := sub_small L (v := v)
  have e : v / 2 ^ (h.lbkt v + h.unitMag) = v / h.lwid v := by
    unfold Hist.lwid Lay.wid; rw [Nat.add_comm h.unitMag]
  rw [e, Nat.mod_eq_of_lt (lt_trans this (by norm_num))]; rfl

theorem lowestEquivalent_eq (hv : v ≤ U64MAX) : h.lowestEquivalent v = .ok (h.llo v) := by
  have hb := bkt_sum L hv
  unfold Hist.lowestEquivalent
  rw [bucketFor_eq L hv, M.ok_bind, subBucketFor_eq L hv, M.ok_bind]
  unfold Hist.valueFromLoc
  rw [addU8_ok (by omega), M.ok_bind, Nat.add_comm (h.lbkt v)]
  have hlt : h.llo v < 2 ^ 64 := lt_of_le_of_lt Lay.lo_le (U64MAX_lt.mp hv)
  rw [shlU64_ok (by omega)]
  · rfl
  · exact hlt

theorem equivalentRange_eq (hv : v ≤ U64MAX) : h.equivalentRange v = .ok (h.lwid v) := by
  have hb := bkt_sum L hv
  unfold Hist.equivalentRange
  rw [bucketFor_eq L hv, M.ok_bind, addU8_ok (by omega), M.ok_bind, shlU64_ok (by omega)]
  · rw [one_mul]; rfl
  · rw [one_mul]; exact Nat.pow_lt_pow_right (by norm_num) (by omega)

theorem nextNonEquivalent_eq (hv : v ≤ U64MAX) :
    h.nextNonEquivalent v = .ok (min (h.llo v + h.lwid v) U64MAX) := by
  unfold Hist.nextNonEquivalent
  rw [lowestEquivalent_eq L hv, M.ok_bind, equivalentRange_eq L hv, M.ok_bind]
  rfl

theorem highestEquivalent_eq (hv : v ≤ U64MAX) : h.highestEquivalent v = .ok (h.lhi v) := by
  unfold Hist.highestEquivalent Hist.lhi
  split
  · rfl
  · rw [nextNonEquivalent_eq L hv, M.ok_bind, subU_ok]
    have h1 : 0 < h.lwid v := Lay.wid_pos
    exact Nat.le_min.mpr ⟨by omega, by decide⟩

theorem medianEquivalent_eq (hv : v ≤ U64MAX) :
    h.medianEquivalent v = .ok (h.llo v + h.lwid v / 2) := by
  unfold Hist.medianEquivalent
  rw [lowestEquivalent_eq L hv, M.ok_bind, equivalentRange_eq L hv, M.ok_bind, if_pos]
  · rfl
  · have h1 : h.llo v + h.lwid v ≤ 2 ^ 64 := Lay.lo_add_wid_le L.sum62 (U64MAX_lt.mp hv)
    have h2 : 0 < h.lwid v := Lay.wid_pos
    rw [U64MAX_lt]; omega

theorem equivalent_eq {w : Nat} (hv : v ≤ U64MAX) (hw : w ≤ U64MAX) :
    h.equivalent v w = .ok (h.llo v == h.llo w) := by
  unfold Hist.equivalent
  rw [lowestEquivalent_eq L hv, M.ok_bind, lowestEquivalent_eq L hw, M.ok_bind]; rfl

theorem indexFor_eq (hv : v ≤ U64MAX) : h.indexFor v = .ok (some (h.lidx v)) := by
  have hb := bkt_sum L hv
  have hm := L.mag17
  have hsmall := sub_small L (v := v)
  have hsub : v / h.lwid v < 2 ^ (h.subBucketHalfCountMag + 1) := Lay.sub_lt
  have hge : 0 < h.lbkt v → 2 ^ h.subBucketHalfCountMag ≤ v / h.lwid v := Lay.sub_ge
  have hp : 2 ^ h.subBucketHalfCountMag ≤ 2 ^ 17 := Nat.pow_le_pow_right (by norm_num) hm
  have hp0 : 0 < 2 ^ h.subBucketHalfCountMag := by positivity
  unfold Hist.indexFor
  rw [bucketFor_eq L hv, M.ok_bind, subBucketFor_eq L hv, M.ok_bind, L.sbc, L.half]
  rw [assertM_true (by simp [hsub]), M.ok_bind, assertM_true (by simp; omega), M.ok_bind]
  rw [chkI32_ok (by omega), M.ok_bind]
  have hmul : (h.lbkt v + 1) * 2 ^ h.subBucketHalfCountMag ≤ 64 * 2 ^ 17 :=
    Nat.mul_le_mul (by omega) hp
  have hcast : ((h.lbkt v : Int) + 1) * 2 ^ h.subBucketHalfCountMag
      = (((h.lbkt v + 1) * 2 ^ h.subBucketHalfCountMag : Nat) : Int) := by push_cast; ring
  unfold shlI32
  rw [if_pos (by omega), M.ok_bind, hcast]
  clear hcast
  have hidx : h.lidx v = h.lbkt v * 2 ^ h.subBucketHalfCountMag + v / h.lwid v := rfl
  rw [hidx]
  have hmul2 : (h.lbkt v + 1) * 2 ^ h.subBucketHalfCountMag
    = h.lbkt v * 2 ^ h.subBucketHalfCountMag + 2 ^ h.subBucketHalfCountMag := by ring
  rw [hmul2] at hmul ⊢
  clear hmul2 hidx
  generalize v / h.lwid v = q at *
  generalize h.lbkt v * 2 ^ h.subBucketHalfCountMag = r at *
  generalize 2 ^ h.subBucketHalfCountMag = p at *
  rw [wrapI32_id (by omega), wrapI32_id (by omega), wrapI32_id (by omega), chkI32_ok (by omega), M.ok_bind]
  have hsum : ((r + p : Nat) : Int) + ((q : Int) - (p : Int)) = (r + q : Nat) := by
    push_cast; ring
  rw [hsum, chkI32_ok (by omega), M.ok_bind, assertM_true (by simp; omega), M.ok_bind]
  simp [toUsize]
  omega

theorem lidx_lt_all (hv : v ≤ U64MAX) : h.lidx v < h.lall :=
  Lay.idx_lt_allSlots L.sum62 (U64MAX_lt.mp hv)

theorem valueFor_eq {i : Nat} (hi : i < h.lall) : h.valueFor i = .ok (h.lval i) := by
  have hm := L.mag17
  have hs := L.sum62
  have hsmall : h.lall < 2 ^ 24 := Lay.allSlots_lt hm
  have hp0 : 0 < 2 ^ h.subBucketHalfCountMag := by positivity
  have hp : 2 ^ h.subBucketHalfCountMag ≤ 2 ^ 17 := Nat.pow_le_pow_right (by norm_num) hm
  have hlt : h.lval i < 2 ^ 64 := (Lay.val_lt_iff L.sum62).mpr hi
  have hdiv : i / 2 ^ h.subBucketHalfCountMag < 65 - h.unitMag - h.subBucketHalfCountMag := by
    rw [Nat.div_lt_iff_lt_mul hp0]; exact hi
  have hdm := Nat.div_add_mod i (2 ^ h.subBucketHalfCountMag)
  have hml := Nat.mod_lt i hp0
  have hand : i &&& (2 ^ h.subBucketHalfCountMag - 1) = i % 2 ^ h.subBucketHalfCountMag :=
    Nat.and_two_pow_sub_one_eq_mod _ _
  have hval : h.lval i = (i - (i / 2 ^ h.subBucketHalfCountMag - 1) * 2 ^ h.subBucketHalfCountMag)
    * 2 ^ (h.unitMag + (i / 2 ^ h.subBucketHalfCountMag - 1)) := rfl
  unfold Hist.valueFor
  rw [shrU64_ok (by omega), M.ok_bind, L.half, subU_ok (by omega)]
  rw [if_pos (show i < 4294967296 by omega)]
  simp only [M.ok_bind, expectM_some]
  rw [hand]
  unfold Hist.valueFromLoc
  rw [hval] at hlt ⊢
  generalize 2 ^ h.subBucketHalfCountMag = p at *
  generalize i % p = r at *
  generalize i / p = q at *
  rw [chkI64_ok (by omega), M.ok_bind, addU32_ok (by omega), M.ok_bind]
  rcases q with _ | k
  · simp at hdm hlt
    rw [if_pos (by omega), subU_ok (by omega), M.ok_bind, addU8_ok (by omega), M.ok_bind,
      shlU64_ok (by omega)]
    · simp [hdm]
    · simp [hdm]; exact hlt
  · rw [if_neg (by omega)]
    have e1 : (((k + 1 : Nat) : Int) - 1).toNat % 256 = k := by omega
    have e2 : i - (k + 1 - 1) * p = r + p := by
      have : p * (k + 1) = k * p + p := by ring
      simp only [Nat.add_sub_cancel]; omega
    rw [e1, addU8_ok (by omega), M.ok_bind]
    rw [e2] at hlt ⊢
    simp only [Nat.add_sub_cancel, Nat.add_comm h.unitMag] at *
    rw [shlU64_ok (by omega) hlt]

theorem mutAt_eq (hv : v ≤ U64MAX) :
    h.mutAt v = .ok (if h.lidx v < h.counts.length then some (h.lidx v) else none) := by
  unfold Hist.mutAt; rw [indexFor_eq L hv, M.ok_bind]; rfl

theorem indexForOrLast_eq (hv : v ≤ U64MAX) (hne : h.counts ≠ []) :
    h.indexForOrLast v = .ok (min (h.lidx v) (h.counts.length - 1)) := by
  have : 0 < h.counts.length := List.length_pos_iff.mpr hne
  unfold Hist.indexForOrLast Hist.lastIndex checkedSub Hist.distinctValues
  rw [indexFor_eq L hv, M.ok_bind, if_pos (by omega)]
  rfl

end

end Hdr
