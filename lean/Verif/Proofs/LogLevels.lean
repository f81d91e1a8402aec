import Verif.Proofs.Steps
import Verif.Spec.Steps
import Mathlib.Algebra.Order.Archimedean.Basic

/-!
# The levels of `iter_log` in binary64 arithmetic
-/

namespace Hdr

namespace F64

theorem log_zpow2 (e : ℤ) : Int.log 2 ((2 : ℚ) ^ e) = e := by
  have := Int.log_zpow (R := ℚ) (b := 2) (by norm_num) e
  exact_mod_cast this

theorem ulpExp_of_one_le {x : ℚ} (h : 1 ≤ x) : ulpExp x = Int.log 2 x - 52 ∧ 0 ≤ Int.log 2 x := by
  have h1 := Int.log_mono_right (b := 2) (show (0 : ℚ) < 1 by norm_num) h
  have h2 : Int.log 2 (1 : ℚ) = 0 := by simp
  unfold ulpExp
  omega

/-- the next number above a representable `x ≥ 1` is representable -/
theorem next_up {x : ℚ} (h1 : 1 ≤ x) (hx : rndQ x = x) : rndQ (x + 2 ^ ulpExp x) = x + 2 ^ ulpExp x := by
  have hpos : 0 < x := by linarith
  obtain ⟨hu, hl⟩ := ulpExp_of_one_le h1
  have hp := two_zpow_pos (ulpExp x)
  rw [rndQ_pos hpos] at hx
  have hlt : ((rhe (x / 2 ^ ulpExp x) : ℤ) : ℚ) < ((2 ^ 53 : ℤ) : ℚ) := by
    have e : ((2 ^ 53 : ℤ) : ℚ) = 2 ^ (53 : ℤ) := by norm_num
    rw [e]
    have h2 : ((rhe (x / 2 ^ ulpExp x) : ℤ) : ℚ) = x / 2 ^ ulpExp x := by
      rw [eq_div_iff hp.ne']; exact hx
    rw [h2, div_lt_iff₀ hp, ← zpow_add₀ (by norm_num)]
    have := lt_log (q := x)
    rwa [show Int.log 2 x + 1 = 53 + ulpExp x by omega] at this
  have hlt' : rhe (x / 2 ^ ulpExp x) < 2 ^ 53 := by exact_mod_cast hlt
  have h0 : 0 ≤ rhe (x / 2 ^ ulpExp x) := rhe_nonneg (div_nonneg hpos.le hp.le)
  refine rndQ_exact (rhe (x / 2 ^ ulpExp x) + 1) (ulpExp x) (by omega) ?_ ?_
  · rw [abs_of_nonneg (by omega)]; omega
  · conv_lhs => rw [← hx]
    unfold rndPos
    push_cast
    have hx' : rndPos x = x := hx
    unfold rndPos at hx'
    rw [hx', add_mul, one_mul, hx']

/-- the smallest representable number above one is `1 + 2^-52` -/
theorem one_add_le {b : ℚ} (h1 : 1 < b) (hb : rndQ b = b) : 1 + 2 ^ (-52 : ℤ) ≤ b := by
  have hpos : 0 < b := by linarith
  obtain ⟨hu, hl⟩ := ulpExp_of_one_le h1.le
  rw [rndQ_pos hpos] at hb
  unfold rndPos at hb
  rcases eq_or_lt_of_le hl with h0 | h0
  · rw [← h0] at hu
    rw [hu] at hb
    have hp := two_zpow_pos (-52)
    generalize hk : rhe (b / 2 ^ (-52 : ℤ)) = k at *
    have e : (2 : ℚ) ^ (52 : ℤ) * 2 ^ (-52 : ℤ) = 1 := by rw [← zpow_add₀ (by norm_num)]; norm_num
    norm_num at hu
    rw [show (0 - 52 : ℤ) = -52 by norm_num] at hb
    have h2 : ((2 ^ 52 : ℤ) : ℚ) < k := by
      have e2 : ((2 ^ 52 : ℤ) : ℚ) = 2 ^ (52 : ℤ) := by norm_num
      rw [e2]
      by_contra hc
      rw [not_lt] at hc
      have := mul_le_mul_of_nonneg_right hc hp.le
      have hb' : (k : ℚ) * 2 ^ (-52 : ℤ) = b := by rw [← hk]; exact hb
      rw [hb', e] at this
      linarith
    have h3 : (2 : ℤ) ^ 52 + 1 ≤ k := by
      have : (2 : ℤ) ^ 52 < k := by exact_mod_cast h2
      omega
    have h4 : ((2 : ℚ) ^ (52 : ℤ) + 1) ≤ k := by
      have e2 : ((2 : ℚ) ^ (52 : ℤ) + 1) = (((2 : ℤ) ^ 52 + 1 : ℤ) : ℚ) := by norm_num
      rw [e2]
      exact Int.cast_le.mpr h3
    have h5 := mul_le_mul_of_nonneg_right h4 hp.le
    rw [add_mul, e, one_mul] at h5
    have hb' : (k : ℚ) * 2 ^ (-52 : ℤ) = b := by rw [← hk]; exact hb
    linarith
  · have h2 := log_le hpos
    have h3 : (2 : ℚ) ^ (1 : ℤ) ≤ 2 ^ Int.log 2 b := zpow_le_zpow_right₀ (by norm_num) (by omega)
    have h4 : (2 : ℚ) ^ (-52 : ℤ) ≤ 1 := by norm_num [zpow_neg]
    rw [zpow_one] at h3
    linarith

/-- multiplying a representable number by a representable factor above one moves up at least one place -/
theorem rndQ_mul_ge {x b : ℚ} (hx1 : 1 ≤ x) (hx : rndQ x = x) (h1 : 1 < b) (hb : rndQ b = b) :
    x + 2 ^ ulpExp x ≤ rndQ (x * b) := by
  rw [← next_up hx1 hx]
  refine rndQ_mono ?_
  obtain ⟨hu, hl⟩ := ulpExp_of_one_le hx1
  have h2 := one_add_le h1 hb
  have h3 := log_le (q := x) (by linarith)
  have h4 : (2 : ℚ) ^ ulpExp x = 2 ^ Int.log 2 x * 2 ^ (-52 : ℤ) := by
    rw [← zpow_add₀ (by norm_num), hu]; rfl
  have hp := two_zpow_pos (-52)
  have h5 : x * (1 + 2 ^ (-52 : ℤ)) ≤ x * b := mul_le_mul_of_nonneg_left h2 (by linarith)
  have h6 : (2 : ℚ) ^ Int.log 2 x * 2 ^ (-52 : ℤ) ≤ x * 2 ^ (-52 : ℤ) := mul_le_mul_of_nonneg_right h3 hp.le
  rw [h4]
  linarith

theorem ulp_ge {x : ℚ} (h1 : 1 ≤ x) : x * 2 ^ (-53 : ℤ) ≤ 2 ^ ulpExp x := by
  obtain ⟨hu, hl⟩ := ulpExp_of_one_le h1
  have h2 := (lt_log (q := x)).le
  have h3 : (2 : ℚ) ^ ulpExp x = 2 ^ (Int.log 2 x + 1) * 2 ^ (-53 : ℤ) := by
    rw [← zpow_add₀ (by norm_num), hu]; congr 1; ring
  rw [h3]
  exact mul_le_mul_of_nonneg_right h2 (two_zpow_pos _).le

theorem toU64_mono {x y : ℚ} (h : x ≤ y) : (fin x).toU64 ≤ (fin y).toU64 := by
  simp only [toU64]
  have := Int.floor_le_floor h
  omega

theorem toU64_le (x : F64) : x.toU64 ≤ U64MAX := by
  cases x <;> simp [toU64]

theorem valid_fin {q : ℚ} (h : Valid (.fin q)) : rndQ q = q := by
  have h : rnd q = .fin q := h
  unfold rnd at h
  split at h
  · cases h
  · split at h
    · cases h
    · injection h

end F64

open F64

theorem logF_cases {start : Nat} (hs : 0 < start) (hm : start ≤ U64MAX) {b : F64} (hv : b.Valid)
    (hb : F64.lt (.fin 1) b = true) (k : Nat) :
    logF start b k = .pinf ∨ ∃ x : ℚ, logF start b k = .fin x ∧ 1 ≤ x ∧ rndQ x = x ∧ (1 + 2 ^ (-53 : ℤ)) ^ k ≤ x := by
  induction k with
  | zero =>
    right
    have h1 : (1 : ℚ) ≤ start := by exact_mod_cast hs
    exact ⟨rndQ start, ofNat_fin hm, one_le_rndQ h1, rndQ_idem _, by simpa using one_le_rndQ h1⟩
  | succ k ih =>
    have hstep : logF start b (k + 1) = F64.mul (logF start b k) b := rfl
    rw [hstep]
    cases b with
    | nan => cases hb
    | ninf => cases hb
    | pinf =>
      left
      rcases ih with h | ⟨x, h, h1, -⟩
      · rw [h]; rfl
      · rw [h]
        simp only [F64.mul]
        rw [if_neg (by linarith), if_pos (by linarith)]
    | fin q =>
      have hq1 : 1 < q := by simpa [F64.lt] using hb
      have hq := valid_fin hv
      rcases ih with h | ⟨x, h, h1, h2, h3⟩
      · left
        rw [h]
        simp only [F64.mul]
        rw [if_neg (by linarith), if_pos (by linarith)]
      · rw [h]
        simp only [F64.mul]
        have hge := rndQ_mul_ge h1 h2 hq1 hq
        have hu := ulp_ge h1
        have hp := two_zpow_pos (ulpExp x)
        unfold rnd
        split
        · exact Or.inl rfl
        · rename_i hlt
          rw [if_neg (by
            rw [not_le]
            have h5 : (-2 ^ 1024 : ℚ) < 0 := by norm_num
            have h6 : (0 : ℚ) < rndQ (x * q) := by linarith
            exact h5.trans h6)]
          refine Or.inr ⟨_, rfl, by linarith, rndQ_idem _, ?_⟩
          rw [pow_succ]
          have h4 : (1 + (2 : ℚ) ^ (-53 : ℤ)) ^ k * (1 + 2 ^ (-53 : ℤ)) ≤ x * (1 + 2 ^ (-53 : ℤ)) :=
            mul_le_mul_of_nonneg_right h3 (by have := two_zpow_pos (-53); linarith)
          refine h4.trans ?_
          rw [mul_add, mul_one]
          linarith

theorem logF_step {start : Nat} (hs : 0 < start) (hm : start ≤ U64MAX) {b : F64} (hv : b.Valid)
    (hb : F64.lt (.fin 1) b = true) (k : Nat) :
    logF start b (k + 1) = .pinf ∨ ∃ x y : ℚ, logF start b k = .fin x ∧ logF start b (k + 1) = .fin y ∧ 1 ≤ x ∧
      x + 2 ^ ulpExp x ≤ y := by
  have hstep : logF start b (k + 1) = F64.mul (logF start b k) b := rfl
  rcases logF_cases hs hm hv hb (k + 1) with h | ⟨y, hy, -⟩
  · exact Or.inl h
  · right
    rcases logF_cases hs hm hv hb k with h | ⟨x, h, h1, h2, h3⟩
    · exfalso
      rw [hstep, h] at hy
      cases b with
      | nan => cases hb
      | ninf => cases hb
      | pinf => cases hy
      | fin q =>
        have hq1 : 1 < q := by simpa [F64.lt] using hb
        simp only [F64.mul] at hy
        rw [if_neg (by linarith), if_pos (by linarith)] at hy
        cases hy
    · refine ⟨x, y, h, hy, h1, ?_⟩
      rw [hstep, h] at hy
      cases b with
      | nan => cases hb
      | ninf => cases hb
      | pinf =>
        simp only [F64.mul] at hy
        rw [if_neg (by linarith), if_pos (by linarith)] at hy
        cases hy
      | fin q =>
        have hq1 : 1 < q := by simpa [F64.lt] using hb
        have hge := rndQ_mul_ge h1 h2 hq1 (valid_fin hv)
        simp only [F64.mul, rnd] at hy
        split at hy
        · cases hy
        · split at hy
          · cases hy
          · injection hy with hy; rw [← hy]; exact hge

theorem logF_toU64_pos {start : Nat} (hs : 0 < start) (hm : start ≤ U64MAX) {b : F64} (hv : b.Valid)
    (hb : F64.lt (.fin 1) b = true) (k : Nat) : 1 ≤ (logF start b k).toU64 := by
  rcases logF_cases hs hm hv hb k with h | ⟨x, h, h1, -⟩
  · rw [h]; decide
  · rw [h]
    simp only [F64.toU64]
    have : (1 : ℤ) ≤ ⌊x⌋ := Int.le_floor.mpr (by exact_mod_cast h1)
    omega

theorem logLevel_le {start : Nat} (hm : start ≤ U64MAX) {b : F64} (k : Nat) : logLevel start b k ≤ U64MAX - 1 := by
  cases k with
  | zero => simp only [logLevel]; omega
  | succ k => simp only [logLevel]; have := F64.toU64_le (logF start b (k + 1)); omega

theorem logLevel_step {start : Nat} (hs : 0 < start) (hm : start ≤ U64MAX) {b : F64} (hv : b.Valid)
    (hb : F64.lt (.fin 1) b = true) (k : Nat) : logLevel start b k ≤ logLevel start b (k + 1) := by
  rcases logF_step hs hm hv hb k with h | ⟨x, y, hx, hy, h1, hxy⟩
  · have : logLevel start b (k + 1) = U64MAX - 1 := by simp only [logLevel]; rw [h]; rfl
    rw [this]
    exact logLevel_le hm k
  · have hp := two_zpow_pos (ulpExp x)
    cases k with
    | succ k =>
      simp only [logLevel]
      rw [hx, hy]
      have := toU64_mono (show x ≤ y by linarith)
      omega
    | zero =>
      simp only [logLevel]
      rw [hy]
      have hsx : rndQ start = x := by
        have : logF start b 0 = .fin (rndQ start) := ofNat_fin hm
        rw [this] at hx; injection hx
      have hs1 : (1 : ℚ) ≤ start := by exact_mod_cast hs
      -- the conversion loses at most half a place, the multiplication gains one
      have h2 : (start : ℚ) ≤ y := by
        have herr := rndPos_err (q := start) (by linarith) (by have := (ulpExp_of_one_le hs1).2; omega)
        rw [← rndQ_pos (by linarith), hsx] at herr
        have h3 := (abs_le.mp herr).1
        have h4 : (start : ℚ) / 2 ^ 53 ≤ 2 ^ ulpExp (start : ℚ) := by
          have := ulp_ge hs1
          rw [div_eq_mul_inv]
          rwa [show ((2 : ℚ) ^ 53)⁻¹ = 2 ^ (-53 : ℤ) by norm_num]
        have h5 : (2 : ℚ) ^ ulpExp (start : ℚ) ≤ 2 ^ ulpExp x := by
          refine zpow_le_zpow_right₀ (by norm_num) ?_
          have h6 := pow_le_rndPos (q := start) (by linarith) (by have := (ulpExp_of_one_le hs1).2; omega)
          rw [← rndQ_pos (by linarith), hsx] at h6
          have h7 := Int.log_mono_right (b := 2) (two_zpow_pos _) h6
          rw [log_zpow2] at h7
          have h8 := ulpExp_of_one_le hs1
          have h9 := ulpExp_of_one_le h1
          omega
        linarith
      have h3 : (start : ℤ) ≤ ⌊y⌋ := Int.le_floor.mpr (by exact_mod_cast h2)
      simp only [F64.toU64]
      omega

theorem logLevel_reaches {start : Nat} (hs : 0 < start) (hm : start ≤ U64MAX) {b : F64} (hv : b.Valid)
    (hb : F64.lt (.fin 1) b = true) : ∃ k, logLevel start b k = U64MAX - 1 := by
  have hgt : (1 : ℚ) < 1 + 2 ^ (-53 : ℤ) := by have := two_zpow_pos (-53); linarith
  obtain ⟨k, hk⟩ := pow_unbounded_of_one_lt ((U64MAX : ℕ) : ℚ) hgt
  refine ⟨k + 1, ?_⟩
  simp only [logLevel]
  rcases logF_cases hs hm hv hb (k + 1) with h | ⟨x, h, h1, -, h2⟩
  · rw [h]; rfl
  · rw [h]
    have h3 : ((U64MAX : ℕ) : ℚ) ≤ x := by
      refine hk.le.trans (le_trans ?_ h2)
      exact pow_le_pow_right₀ hgt.le (by omega)
    have h4 : ((U64MAX : ℕ) : ℤ) ≤ ⌊x⌋ := Int.le_floor.mpr (by exact_mod_cast h3)
    simp only [F64.toU64]
    omega

end Hdr
