import Mathlib.Tactic.Ring
import Mathlib.Tactic.Linarith
import Mathlib.Algebra.Order.Ring.Nat

/-!
# The bucket layout as pure arithmetic

Closed forms for the bucket layout with unit magnitude `um` and half-count magnitude `m`:
bucket, class width, lowest value of the class, slot index of a value, lowest value of a slot.
-/

namespace Hdr.Lay

/-- bucket number of `v` -/
def bkt (um m v : Nat) : Nat := Nat.log2 v - (um + m)
/-- width of the class of `v` -/
def wid (um m v : Nat) : Nat := 2 ^ (um + bkt um m v)
/-- lowest value of the class of `v` -/
def lo (um m v : Nat) : Nat := v / wid um m v * wid um m v
/-- slot index of `v` -/
def idx (um m v : Nat) : Nat := bkt um m v * 2 ^ m + v / wid um m v
/-- lowest value of slot `i` -/
def val (um m i : Nat) : Nat := (i - (i / 2 ^ m - 1) * 2 ^ m) * 2 ^ (um + (i / 2 ^ m - 1))
/-- number of slots that cover all of `u64` -/
def allSlots (um m : Nat) : Nat := (65 - um - m) * 2 ^ m

variable {um m v w i j : Nat}

theorem wid_pos : 0 < wid um m v := by unfold wid; positivity

theorem lo_le : lo um m v ≤ v := Nat.div_mul_le_self _ _

theorem lt_lo_add : v < lo um m v + wid um m v := by
  have := Nat.lt_div_mul_add (a := v) (b := wid um m v) wid_pos
  exact this

theorem sub_lt : v / wid um m v < 2 ^ (m + 1) := by
  rw [Nat.div_lt_iff_lt_mul wid_pos]
  have h := @Nat.lt_log2_self v
  refine lt_of_lt_of_le h ?_
  unfold wid
  rw [← pow_add]
  apply Nat.pow_le_pow_right (by norm_num)
  unfold bkt; omega

theorem sub_ge (hb : 0 < bkt um m v) : 2 ^ m ≤ v / wid um m v := by
  rw [Nat.le_div_iff_mul_le wid_pos]
  have hb' := hb
  unfold bkt at hb
  have hv : v ≠ 0 := by rintro rfl; simp at hb
  refine le_trans ?_ (Nat.log2_self_le hv)
  unfold wid
  rw [← pow_add]
  apply Nat.pow_le_pow_right (by norm_num)
  unfold bkt at *; omega

theorem idx_bkt : idx um m v / 2 ^ m - 1 = bkt um m v := by
  have hp : 0 < 2 ^ m := by positivity
  have h1 := @sub_lt um m v
  unfold idx
  rw [add_comm, Nat.add_mul_div_right _ _ hp]
  rcases Nat.eq_zero_or_pos (bkt um m v) with hb | hb
  · rw [hb]
    have : v / wid um m v / 2 ^ m < 2 := by
      rw [Nat.div_lt_iff_lt_mul hp]; rw [pow_succ] at h1; omega
    omega
  · have h2 := sub_ge hb
    have : v / wid um m v / 2 ^ m = 1 := by
      apply Nat.div_eq_of_lt_le
      · omega
      · rw [pow_succ] at h1; omega
    omega

theorem val_idx : val um m (idx um m v) = lo um m v := by
  unfold val
  rw [idx_bkt]
  unfold idx lo wid
  rw [Nat.add_sub_cancel_left]

theorem slot_sub_lt_aux (p i : Nat) (hp : 0 < p) : i - (i / p - 1) * p < p * 2 := by
  have h1 := Nat.div_add_mod i p
  have h2 := Nat.mod_lt i hp
  generalize i / p = q at *
  generalize i % p = r at *
  rcases q with _ | k
  · simp at *; omega
  · simp only [Nat.add_sub_cancel]
    have : p * (k + 1) = k * p + p := by ring
    omega

theorem slot_sub_lt : i - (i / 2 ^ m - 1) * 2 ^ m < 2 ^ (m + 1) := by
  rw [pow_succ]; exact slot_sub_lt_aux _ _ (by positivity)

theorem slot_sub_ge (h : 0 < i / 2 ^ m - 1) : 2 ^ m ≤ i - (i / 2 ^ m - 1) * 2 ^ m := by
  have h1 := Nat.div_add_mod i (2 ^ m)
  generalize i / 2 ^ m = q at *
  generalize i % 2 ^ m = r at *
  generalize 2 ^ m = p at *
  rcases q with _ | k
  · simp at h
  · simp only [Nat.add_sub_cancel]
    have : p * (k + 1) = k * p + p := by ring
    omega

theorem slot_mul_le : (i / 2 ^ m - 1) * 2 ^ m ≤ i := by
  refine le_trans (Nat.mul_le_mul_right _ (Nat.sub_le _ _)) (Nat.div_mul_le_self _ _)

theorem val_bkt : bkt um m (val um m i) = i / 2 ^ m - 1 := by
  set b := i / 2 ^ m - 1 with hb
  have hlt : i - b * 2 ^ m < 2 ^ (m + 1) := slot_sub_lt
  have hval : val um m i = (i - b * 2 ^ m) * 2 ^ (um + b) := rfl
  rw [hval]
  have hp : 0 < 2 ^ (um + b) := by positivity
  by_cases h0 : i - b * 2 ^ m = 0
  · rw [h0]
    have : ¬ 0 < b := by
      intro hbp
      have h1 := slot_sub_ge (m := m) (i := i) hbp
      rw [← hb, h0] at h1
      have : 0 < 2 ^ m := by positivity
      omega
    have : b = 0 := by omega
    simp [bkt, this]
  · have hne : (i - b * 2 ^ m) * 2 ^ (um + b) ≠ 0 := by positivity
    have hup : (i - b * 2 ^ m) * 2 ^ (um + b) < 2 ^ (um + m + b + 1) := by
      have : 2 ^ (um + m + b + 1) = 2 ^ (m + 1) * 2 ^ (um + b) := by rw [← pow_add]; congr 1; ring
      rw [this]; exact Nat.mul_lt_mul_of_pos_right hlt hp
    have hup' := (Nat.log2_lt hne).mpr hup
    unfold bkt
    by_cases hbp : 0 < b
    · have hge : 2 ^ m ≤ i - b * 2 ^ m := slot_sub_ge hbp
      have hl : 2 ^ (um + m + b) ≤ (i - b * 2 ^ m) * 2 ^ (um + b) := by
        have : 2 ^ (um + m + b) = 2 ^ m * 2 ^ (um + b) := by rw [← pow_add]; congr 1; ring
        rw [this]; exact Nat.mul_le_mul_right _ hge
      have := (Nat.le_log2 hne).mpr hl
      omega
    · omega

theorem idx_val : idx um m (val um m i) = i := by
  unfold idx wid
  rw [val_bkt]
  unfold val
  rw [Nat.mul_div_cancel _ (by positivity)]
  have := @slot_mul_le m i
  omega

theorem bkt_mono (h : v ≤ w) : bkt um m v ≤ bkt um m w := by
  unfold bkt
  by_cases hv : v = 0
  · subst hv; simp
  have : Nat.log2 v ≤ Nat.log2 w := by
    rw [Nat.le_log2 (by omega)]
    exact le_trans (Nat.log2_self_le hv) h
  omega

theorem idx_mono (h : v ≤ w) : idx um m v ≤ idx um m w := by
  have hb := bkt_mono (um := um) (m := m) h
  have hp : 0 < 2 ^ m := by positivity
  rcases Nat.eq_or_lt_of_le hb with hb | hb
  · unfold idx wid
    rw [hb]
    exact Nat.add_le_add_left (Nat.div_le_div_right h) _
  · unfold idx
    have h1 := @sub_lt um m v
    have h2 := @sub_ge um m w (by omega)
    obtain ⟨k, hk⟩ : ∃ k, bkt um m w = bkt um m v + 1 + k := ⟨_, (Nat.add_sub_cancel' hb).symm⟩
    rw [hk]
    rw [pow_succ] at h1
    have : (bkt um m v + 1 + k) * 2 ^ m = bkt um m v * 2 ^ m + 2 ^ m + k * 2 ^ m := by ring
    omega

theorem val_lt_val (h : i < j) : val um m i < val um m j := by
  by_contra hc
  have := idx_mono (um := um) (m := m) (Nat.le_of_not_lt hc)
  rw [idx_val, idx_val] at this
  omega

theorem val_le_val (h : i ≤ j) : val um m i ≤ val um m j := by
  rcases Nat.eq_or_lt_of_le h with rfl | h
  · exact le_rfl
  · exact (val_lt_val h).le

theorem val_le_iff : val um m i ≤ v ↔ i ≤ idx um m v := by
  constructor
  · intro h; have := idx_mono (um := um) (m := m) h; rwa [idx_val] at this
  · intro h
    exact le_trans (val_le_val h) (by rw [val_idx]; exact lo_le)

theorem lt_val_iff : v < val um m i ↔ idx um m v < i := by
  rw [← not_le, val_le_iff, not_le]

theorem lo_val : lo um m (val um m i) = val um m i := by rw [← val_idx, idx_val]

theorem lo_eq_iff : lo um m v = lo um m w ↔ idx um m v = idx um m w := by
  rw [← val_idx, ← val_idx]
  constructor
  · intro h; have := congrArg (idx um m) h; rwa [idx_val, idx_val] at this
  · intro h; rw [h]

theorem idx_lo : idx um m (lo um m v) = idx um m v := by rw [← val_idx, idx_val]

theorem lo_lo : lo um m (lo um m v) = lo um m v := lo_eq_iff.mpr idx_lo

theorem lo_mono (h : v ≤ w) : lo um m v ≤ lo um m w := by
  rw [← val_idx, ← val_idx]; exact val_le_val (idx_mono h)

theorem bkt_eq_of_idx (h : idx um m v = idx um m w) : bkt um m v = bkt um m w := by
  rw [← idx_bkt, ← idx_bkt, h]

theorem wid_eq_of_idx (h : idx um m v = idx um m w) : wid um m v = wid um m w := by
  unfold wid; rw [bkt_eq_of_idx h]

theorem val_succ : val um m (i + 1) = val um m i + wid um m (val um m i) := by
  have hp : 0 < 2 ^ m := by positivity
  unfold wid
  rw [val_bkt]
  have h1 := Nat.div_add_mod i (2 ^ m)
  have h2 := Nat.mod_lt i hp
  by_cases hq : (i + 1) / 2 ^ m = i / 2 ^ m
  · unfold val
    rw [hq]
    have := @slot_mul_le m i
    rw [Nat.sub_add_comm this]
    ring
  · have hmod : i % 2 ^ m = 2 ^ m - 1 := by
      by_contra hne
      apply hq
      rw [Nat.div_eq_iff hp]
      constructor
      · rw [mul_comm]; omega
      · rw [mul_comm]; omega
    have hi : i + 1 = 2 ^ m * (i / 2 ^ m + 1) := by
      rw [mul_add]; omega
    have hdiv : (i + 1) / 2 ^ m = i / 2 ^ m + 1 := by
      conv_lhs => rw [hi]
      rw [Nat.mul_div_cancel_left _ hp]
    unfold val
    rw [hdiv]
    simp only [Nat.add_sub_cancel]
    generalize i / 2 ^ m = q at *
    generalize i % 2 ^ m = r at *
    generalize 2 ^ m = p at *
    rcases q with _ | k
    · simp at *
      rw [Nat.add_one_mul]
    · have e1 : i + 1 - (k + 1) * p = p := by
        have : p * (k + 1 + 1) = (k + 1) * p + p := by ring
        omega
      have e2 : i - (k + 1 - 1) * p = 2 * p - 1 := by
        simp only [Nat.add_sub_cancel]
        have : p * (k + 1 + 1) = k * p + 2 * p := by ring
        omega
      rw [e1, e2]
      simp only [Nat.add_sub_cancel]
      obtain ⟨s, rfl⟩ : ∃ s, p = s + 1 := ⟨p - 1, by omega⟩
      have : 2 * (s + 1) - 1 = 2 * s + 1 := by omega
      rw [this]
      have : um + (k + 1) = um + k + 1 := by ring
      rw [this, pow_succ]
      ring

theorem lo_add_wid : lo um m v + wid um m v = val um m (idx um m v + 1) := by
  rw [val_succ, val_idx, wid_eq_of_idx (idx_lo (um := um) (m := m) (v := v))]

/-- characterisation of a class as an interval -/
theorem idx_eq_iff : idx um m w = idx um m v ↔ lo um m v ≤ w ∧ w < lo um m v + wid um m v := by
  rw [lo_add_wid, lt_val_iff, ← val_idx, val_le_iff]
  omega

theorem val_zero : val um m 0 = 0 := by simp [val]
theorem idx_zero : idx um m 0 = 0 := by simp [idx, bkt]

theorem idx_eq_zero_iff : idx um m v = 0 ↔ v < 2 ^ um := by
  have h : idx um m v = 0 ↔ idx um m v < 1 := by omega
  rw [h, ← lt_val_iff, ← Nat.zero_add 1, val_succ, val_zero]
  simp [wid, bkt]

/-! ### inside `u64` -/

theorem bkt_le (hu : um + m ≤ 62) (hv : v < 2 ^ 64) : um + m + bkt um m v ≤ 63 := by
  unfold bkt
  by_cases h0 : v = 0
  · subst h0; simp; omega
  have := (Nat.log2_lt h0).mpr hv
  omega

theorem lo_add_wid_le (hu : um + m ≤ 62) (hv : v < 2 ^ 64) : lo um m v + wid um m v ≤ 2 ^ 64 := by
  have h := bkt_le hu hv
  have h1 := @sub_lt um m v
  unfold lo
  calc v / wid um m v * wid um m v + wid um m v = (v / wid um m v + 1) * wid um m v := by ring
    _ ≤ 2 ^ (m + 1) * wid um m v := Nat.mul_le_mul_right _ h1
    _ = 2 ^ (m + 1 + (um + bkt um m v)) := by unfold wid; rw [← pow_add]
    _ ≤ 2 ^ 64 := Nat.pow_le_pow_right (by norm_num) (by omega)

theorem val_allSlots (hu : um + m ≤ 62) : val um m (allSlots um m) = 2 ^ 64 := by
  have hp : 0 < 2 ^ m := by positivity
  unfold val allSlots
  rw [Nat.mul_div_cancel _ hp]
  obtain ⟨k, hk⟩ : ∃ k, 65 - um - m = k + 1 := ⟨64 - um - m, by omega⟩
  rw [hk]
  simp only [Nat.add_sub_cancel]
  have : (k + 1) * 2 ^ m - k * 2 ^ m = 2 ^ m := by rw [add_mul]; omega
  rw [this, ← pow_add]
  congr 1; omega

theorem idx_lt_allSlots (hu : um + m ≤ 62) (hv : v < 2 ^ 64) : idx um m v < allSlots um m := by
  rw [← lt_val_iff, val_allSlots hu]; exact hv

theorem val_lt_iff (hu : um + m ≤ 62) : val um m i < 2 ^ 64 ↔ i < allSlots um m := by
  rw [← val_allSlots hu]
  constructor
  · intro h; by_contra hc
    exact absurd (val_le_val (um := um) (m := m) (Nat.le_of_not_lt hc)) (by omega)
  · exact val_lt_val

theorem allSlots_lt (hm : m ≤ 17) : allSlots um m < 2 ^ 24 := by
  unfold allSlots
  calc (65 - um - m) * 2 ^ m ≤ 65 * 2 ^ 17 :=
        Nat.mul_le_mul (by omega) (Nat.pow_le_pow_right (by norm_num) hm)
    _ < 2 ^ 24 := by norm_num

end Hdr.Lay
