import Verif.Proofs.LogLevels
import Verif.Spec.Ticks
import Mathlib.Tactic.Linarith
import Mathlib.Tactic.FieldSimp

/-!
# The steps of `iter_quantiles`
-/

namespace Hdr

open F64

namespace F64

theorem rndQ_pow2 {e : ℤ} (he : -1074 ≤ e) : rndQ (2 ^ e) = 2 ^ e :=
  rndQ_exact 1 e he (by norm_num) (by simp)

theorem rndQ_npow2 (k : ℕ) : rndQ (2 ^ k) = 2 ^ k := by
  have := rndQ_pow2 (e := k) (by omega)
  rwa [zpow_natCast] at this

theorem ulpExp_half {z : ℚ} (h1 : 1 / 2 ≤ z) (h2 : z < 1) : ulpExp z = -53 := by
  have hl : Int.log 2 z = -1 := by
    have a1 := Int.log_mono_right (b := 2) (show (0 : ℚ) < 2 ^ (-1 : ℤ) by norm_num)
      (show (2 : ℚ) ^ (-1 : ℤ) ≤ z by norm_num; linarith)
    rw [log_zpow2] at a1
    have a2 := log_le (q := z) (by linarith)
    have a3 : (2 : ℚ) ^ Int.log 2 z < 2 ^ (0 : ℤ) := by rw [zpow_zero]; linarith
    have a4 := (zpow_lt_zpow_iff_right₀ (by norm_num : (1 : ℚ) < 2)).mp a3
    omega
  unfold ulpExp
  omega

/-- rounding in `[1/2, 1)` -/
theorem rndQ_err_half {z : ℚ} (h1 : 1 / 2 ≤ z) (h2 : z < 1) : |rndQ z - z| ≤ 2 ^ (-54 : ℤ) := by
  rw [rndQ_pos (by linarith)]
  unfold rndPos
  rw [ulpExp_half h1 h2]
  have := rhe_err (z / 2 ^ (-53 : ℤ))
  rw [abs_le] at this ⊢
  norm_num at this ⊢
  constructor <;> linarith [this.1, this.2]

/-- numbers in `[1/2, 1]` are multiples of `2^-53` -/
theorem grid_half {q : ℚ} (h1 : 1 / 2 ≤ q) (h2 : q ≤ 1) (hq : rndQ q = q) : ∃ n : ℤ, q = n * 2 ^ (-53 : ℤ) := by
  rcases eq_or_lt_of_le h2 with rfl | h2
  · exact ⟨2 ^ 53, by norm_num⟩
  · rw [rndQ_pos (by linarith)] at hq
    unfold rndPos at hq
    rw [ulpExp_half h1 h2] at hq
    exact ⟨_, hq.symm⟩

theorem grid_gap {p q : ℚ} (h1 : 1 / 2 ≤ p) (h2 : q ≤ 1) (hlt : p < q) (hp : rndQ p = p) (hq : rndQ q = q) :
    p + 2 ^ (-53 : ℤ) ≤ q := by
  obtain ⟨m, hm⟩ := grid_half h1 (by linarith) hp
  obtain ⟨n, hn⟩ := grid_half (by linarith) h2 hq
  have hpos := two_zpow_pos (-53)
  rw [hm, hn] at hlt ⊢
  have h3 : (m : ℚ) < n := lt_of_mul_lt_mul_right hlt hpos.le
  have h4 : m + 1 ≤ n := by exact_mod_cast h3
  have h5 : ((m : ℚ) + 1) ≤ n := by exact_mod_cast h4
  nlinarith

theorem one_sub_ge {q : ℚ} (h2 : q < 1) (hq : rndQ q = q) : 2 ^ (-53 : ℤ) ≤ 1 - q := by
  by_cases h1 : 1 / 2 ≤ q
  · have := grid_gap h1 le_rfl h2 hq rndQ_one
    linarith
  · have : (2 : ℚ) ^ (-53 : ℤ) ≤ 1 / 2 := by norm_num
    have h1' := not_le.mp h1
    exact le_trans this (by linarith)

/-- the argument of `log2` -/
def halvingArg (q : ℚ) : ℚ := rndQ (1 / rndQ (1 - q))

end F64

theorem pow_n_z (k : ℕ) : (2 : ℚ) ^ (-(k : ℤ)) = 1 / 2 ^ k := by
  rw [zpow_neg, zpow_natCast, one_div]

theorem halving_bounds {q : ℚ} (h0 : 0 ≤ q) (h1 : q < 1) (hq : rndQ q = q) :
    F64.div (.fin 1) (F64.sub (.fin 1) (.fin q)) = .fin (halvingArg q) ∧
    2 ^ (-53 : ℤ) ≤ rndQ (1 - q) ∧ rndQ (1 - q) ≤ 1 ∧ 1 ≤ halvingArg q ∧ halvingArg q ≤ 2 ^ 53 := by
  have h2 := one_sub_ge h1 hq
  have h3 : (2 : ℚ) ^ (-53 : ℤ) ≤ rndQ (1 - q) := by
    have := rndQ_mono h2
    rwa [rndQ_pow2 (by norm_num)] at this
  have h4 : rndQ (1 - q) ≤ 1 := rndQ_le_one (by linarith)
  have hpos : 0 < rndQ (1 - q) := lt_of_lt_of_le (two_zpow_pos _) h3
  have h5 : 1 ≤ 1 / rndQ (1 - q) := by rw [le_div_iff₀ hpos]; linarith
  have h6 : 1 / rndQ (1 - q) ≤ 2 ^ 53 := by
    rw [div_le_iff₀ hpos]
    norm_num at h3 ⊢
    linarith
  have h7 : halvingArg q ≤ 2 ^ 53 := by
    have := rndQ_mono h6
    rwa [rndQ_npow2] at this
  have e1 : F64.sub (.fin 1) (.fin q) = .fin (rndQ (1 - q)) := by
    unfold F64.sub F64.neg
    simp only [F64.add]
    rw [← sub_eq_add_neg]
    refine rnd_fin ?_
    rw [abs_of_nonneg (by linarith)]
    refine le_trans (show 1 - q ≤ 2 ^ 64 by norm_num; linarith) pow64_le
  refine ⟨?_, h3, h4, one_le_rndQ h5, h7⟩
  rw [e1]
  simp only [F64.div]
  rw [if_neg hpos.ne']
  refine rnd_fin ?_
  rw [abs_of_nonneg (by linarith)]
  exact le_trans (le_trans h6 (by norm_num)) pow64_le

/-- the number of halvings brackets the distance to one -/
theorem halvings {lg : F64 → Nat} (L : Log2Law lg) {q : ℚ} (h0 : 0 ≤ q) (h1 : q < 1) (hq : rndQ q = q) :
    1 ≤ 2 ^ (lg (.fin (halvingArg q)) + 1) * (1 - q) ∧ 2 ^ lg (.fin (halvingArg q)) * (1 - q) ≤ 2 * (1 + 1 / 2 ^ 50) ∧
      lg (.fin (halvingArg q)) ≤ 54 := by
  obtain ⟨-, h3, h4, h5, h6⟩ := halving_bounds h0 h1 hq
  have hpos : 0 < rndQ (1 - q) := lt_of_lt_of_le (two_zpow_pos _) h3
  have hq1 : 0 < 1 - q := by linarith
  have hx64 : halvingArg q ≤ 2 ^ 64 := le_trans h6 (by norm_num)
  refine ⟨?_, ?_, L.le 54 _ h5 (lt_of_le_of_lt h6 (by norm_num)) hx64⟩
  · by_contra hc
    have hc : 2 ^ (lg (.fin (halvingArg q)) + 1) * (1 - q) < 1 := lt_of_not_ge hc
    generalize hk : lg (.fin (halvingArg q)) = k at hc
    have hp : (0 : ℚ) < 2 ^ (k + 1) := by positivity
    have a1 : 1 - q ≤ 2 ^ (-((k + 1 : ℕ) : ℤ)) := by
      rw [pow_n_z, le_div_iff₀ hp]; linarith
    have hk54 : k ≤ 54 := by rw [← hk]; exact L.le 54 _ h5 (lt_of_le_of_lt h6 (by norm_num)) hx64
    have a2 : rndQ (1 - q) ≤ 1 / 2 ^ (k + 1) := by
      rw [← pow_n_z]
      exact rndQ_le_pow (by omega) a1
    have a3 : (2 : ℚ) ^ (k + 1) ≤ 1 / rndQ (1 - q) := by
      rw [le_div_iff₀ hpos]
      rw [le_div_iff₀ hp] at a2
      linarith
    have a4 : (2 : ℚ) ^ (k + 1) ≤ halvingArg q := by
      have := rndQ_mono a3
      rwa [rndQ_npow2] at this
    have := L.ge (k + 1) _ a4 hx64
    omega
  · -- the upper bound
    have hlo : 2 ^ (-1022 : ℤ) ≤ 1 - q := by
      have := one_sub_ge h1 hq
      exact le_trans (zpow_le_zpow_right₀ (by norm_num) (by norm_num)) this
    have e1 := rndQ_err hq1 hlo
    have hge1 : 1 ≤ 1 / rndQ (1 - q) := by rw [le_div_iff₀ hpos]; linarith
    have e2 := rndQ_err (q := 1 / rndQ (1 - q)) (by linarith)
      (le_trans (le_trans (zpow_le_zpow_right₀ (by norm_num) (by norm_num : (-1022 : ℤ) ≤ 0)) (by norm_num)) hge1)
    rw [abs_le] at e1 e2
    have b1 : (1 - q) * (1 - 1 / 2 ^ 53) ≤ rndQ (1 - q) := by linarith [e1.1]
    have b2 : halvingArg q * rndQ (1 - q) ≤ 1 + 1 / 2 ^ 53 := by
      have : halvingArg q ≤ (1 / rndQ (1 - q)) * (1 + 1 / 2 ^ 53) := by
        unfold halvingArg; linarith [e2.2]
      have := mul_le_mul_of_nonneg_right this hpos.le
      have e : 1 / rndQ (1 - q) * (1 + 1 / 2 ^ 53) * rndQ (1 - q) = 1 + 1 / 2 ^ 53 := by field_simp
      rwa [e] at this
    have b3 : halvingArg q * (1 - q) ≤ 1 + 1 / 2 ^ 50 := by
      have c1 : halvingArg q * ((1 - q) * (1 - 1 / 2 ^ 53)) ≤ 1 + 1 / 2 ^ 53 :=
        le_trans (mul_le_mul_of_nonneg_left b1 (by linarith)) b2
      norm_num at c1 ⊢
      nlinarith
    -- the halvings are at most one above the exact logarithm
    generalize hk : lg (.fin (halvingArg q)) = k
    rcases Nat.eq_zero_or_pos k with hk0 | hk0
    · subst hk0
      norm_num; linarith
    · obtain ⟨j, rfl⟩ : ∃ j, k = j + 1 := ⟨k - 1, by omega⟩
      have c1 : (2 : ℚ) ^ j ≤ halvingArg q := by
        by_contra hc
        have := L.le j _ h5 (lt_of_not_ge hc) hx64
        omega
      have := mul_le_mul_of_nonneg_right c1 hq1.le
      rw [pow_succ]
      nlinarith

/-! ### One step -/

/-- the increment for `N` ticks in all -/
def incr (N : Nat) : ℚ := rndQ (1 / rndQ N)

theorem incr_bounds {N : Nat} (h1 : 1 ≤ N) (h2 : N ≤ U64MAX) :
    F64.div (.fin 1) (F64.ofNat N) = .fin (incr N) ∧ 0 < incr N ∧ incr N ≤ 1 ∧
    (∀ k : ℕ, k ≤ 1000 → 2 ^ k ≤ N → incr N ≤ 1 / 2 ^ k) ∧ (∀ k : ℕ, k ≤ 1000 → N ≤ 2 ^ k → 1 / 2 ^ k ≤ incr N) := by
  have hN1 : (1 : ℚ) ≤ N := by exact_mod_cast h1
  have hr1 : 1 ≤ rndQ N := one_le_rndQ hN1
  have hpos : 0 < rndQ N := by linarith
  have hle : rndQ N ≤ 2 ^ 64 := rndQ_u64_le h2
  have up : ∀ k : ℕ, k ≤ 1000 → 2 ^ k ≤ N → incr N ≤ 1 / 2 ^ k := by
    intro k hk h
    have hp : (0 : ℚ) < 2 ^ k := by positivity
    have a1 : (2 : ℚ) ^ k ≤ N := by exact_mod_cast h
    have a2 : (2 : ℚ) ^ k ≤ rndQ N := by
      have := rndQ_mono a1
      rwa [rndQ_npow2] at this
    have a3 : 1 / rndQ N ≤ 1 / 2 ^ k := one_div_le_one_div_of_le hp a2
    rw [← pow_n_z] at a3 ⊢
    exact rndQ_le_pow (by omega) a3
  have low : ∀ k : ℕ, k ≤ 1000 → N ≤ 2 ^ k → 1 / 2 ^ k ≤ incr N := by
    intro k hk h
    have a1 : (N : ℚ) ≤ 2 ^ k := by exact_mod_cast h
    have a2 : rndQ N ≤ 2 ^ k := by
      have := rndQ_mono a1
      rwa [rndQ_npow2] at this
    have a3 : 1 / 2 ^ k ≤ 1 / rndQ N := one_div_le_one_div_of_le hpos a2
    have a4 := rndQ_mono a3
    rw [← pow_n_z] at a4 ⊢
    rwa [rndQ_pow2 (by omega)] at a4
  have hU : U64MAX ≤ 2 ^ 64 := by decide
  have hlow := low 64 (by norm_num) (by omega)
  refine ⟨?_, lt_of_lt_of_le (by positivity) hlow, by simpa using up 0 (by norm_num) (by simpa using h1), up, low⟩
  rw [ofNat_fin h2]
  simp only [F64.div]
  rw [if_neg hpos.ne']
  refine rnd_fin ?_
  have : 1 / rndQ N ≤ 1 := by rw [div_le_iff₀ hpos]; linarith
  rw [abs_of_nonneg (by positivity)]
  exact le_trans (le_trans this (by norm_num)) pow64_le

/-- the next quantile, as a rational -/
def nextQ (q : ℚ) (N : Nat) : ℚ := if rndQ (q + incr N) = q then 1 else rndQ (q + incr N)

/-- the quantiles met during iteration -/
structure TickQ (t : Nat) (q : ℚ) : Prop where
  nonneg : 0 ≤ q
  le_one : q ≤ 1
  repr : rndQ q = q
  far : q < 1 → (t : ℚ) ≤ 2 ^ 60 * (1 - q)

/-- number of ticks the interval from zero to one is divided into at `q` -/
def ticksAt (lg : F64 → Nat) (t : Nat) (q : ℚ) : Nat := t * 2 ^ (lg (.fin (halvingArg q)) + 1)

theorem ticksAt_le {lg : F64 → Nat} (L : Log2Law lg) {t : Nat} {q : ℚ} (Q : TickQ t q) (h1 : q < 1) :
    ticksAt lg t q ≤ U64MAX := by
  obtain ⟨-, hb, -⟩ := halvings L Q.nonneg h1 Q.repr
  have hf := Q.far h1
  unfold ticksAt
  generalize lg (.fin (halvingArg q)) = k at *
  have : ((t * 2 ^ (k + 1) : ℕ) : ℚ) < ((2 ^ 63 : ℕ) : ℚ) := by
    push_cast
    have hp : (0 : ℚ) < 2 ^ k := by positivity
    have a1 : (t : ℚ) * 2 ^ k ≤ 2 ^ 60 * (1 - q) * 2 ^ k := mul_le_mul_of_nonneg_right hf hp.le
    rw [pow_succ]
    norm_num at hb a1 ⊢
    nlinarith
  have h2 : t * 2 ^ (k + 1) < 2 ^ 63 := by exact_mod_cast this
  have h3 : 2 ^ 63 ≤ U64MAX := by decide
  omega

theorem quantileStep_eq {lg : F64 → Nat} (L : Log2Law lg) {t : Nat} (ht : 0 < t) {q : ℚ} (Q : TickQ t q)
    (h1 : q < 1) : Hist.quantileStep lg t (.fin q) = .ok (.fin (nextQ q (ticksAt lg t q))) := by
  obtain ⟨e1, -⟩ := halving_bounds Q.nonneg h1 Q.repr
  obtain ⟨-, -, h54⟩ := halvings L Q.nonneg h1 Q.repr
  have hle := ticksAt_le L Q h1
  have hge : 1 ≤ ticksAt lg t q := by unfold ticksAt; exact Nat.mul_pos ht (by positivity)
  obtain ⟨e2, i0, i1, -⟩ := incr_bounds hge hle
  unfold Hist.quantileStep
  simp only [e1]
  rw [show addU32 (lg (.fin (halvingArg q))) 1 = .ok (lg (.fin (halvingArg q)) + 1) by
    unfold addU32; rw [if_pos (by omega)], M.ok_bind]
  rw [show Hist.checkedShl1 (lg (.fin (halvingArg q)) + 1) = some (2 ^ (lg (.fin (halvingArg q)) + 1)) from
    if_pos (by omega), expectM_some, M.ok_bind]
  rw [show Hist.checkedMulU64 t (2 ^ (lg (.fin (halvingArg q)) + 1)) = some (ticksAt lg t q) from
    if_pos hle, expectM_some, M.ok_bind, e2]
  have e3 : F64.add (.fin q) (.fin (incr (ticksAt lg t q))) = .fin (rndQ (q + incr (ticksAt lg t q))) := by
    simp only [F64.add]
    refine rnd_fin ?_
    have := Q.nonneg
    rw [abs_of_nonneg (by linarith)]
    exact le_trans (show _ ≤ (2 : ℚ) ^ 64 by norm_num; linarith) pow64_le
  rw [e3]
  unfold nextQ
  simp only [F64.feq, decide_eq_true_eq]
  by_cases hc : rndQ (q + incr (ticksAt lg t q)) = q
  · rw [if_pos hc, if_pos hc]; rfl
  · rw [if_neg hc, if_neg hc]; rfl

theorem nextQ_good {lg : F64 → Nat} (L : Log2Law lg) {t : Nat} (ht : 0 < t) (ht32 : t < 2 ^ 32) {q : ℚ}
    (Q : TickQ t q) (h1 : q < 1) :
    TickQ t (nextQ q (ticksAt lg t q)) ∧ q + 1 / 2 ^ 53 ≤ nextQ q (ticksAt lg t q) := by
  obtain ⟨ha, hb, h54⟩ := halvings L Q.nonneg h1 Q.repr
  have hle := ticksAt_le L Q h1
  have hge : 1 ≤ ticksAt lg t q := by unfold ticksAt; exact Nat.mul_pos ht (by positivity)
  obtain ⟨-, i0, i1, iup, ilow⟩ := incr_bounds hge hle
  have hgap := one_sub_ge h1 Q.repr
  rw [show (2 : ℚ) ^ (-53 : ℤ) = 1 / 2 ^ 53 by norm_num] at hgap
  have hN : ticksAt lg t q = t * 2 ^ (lg (.fin (halvingArg q)) + 1) := rfl
  generalize hk : lg (.fin (halvingArg q)) = k at *
  generalize ticksAt lg t q = N at *
  have hpk : (0 : ℚ) < 2 ^ (k + 1) := by positivity
  -- the increment never leaves the unit interval
  have hinc : incr N ≤ 1 - q := by
    have : 2 ^ (k + 1) ≤ N := by rw [hN]; exact Nat.le_mul_of_pos_left _ ht
    refine le_trans (iup (k + 1) (by omega) this) ?_
    rw [div_le_iff₀ hpk]; linarith
  have hs1 : rndQ (q + incr N) ≤ 1 := rndQ_le_one (by linarith)
  have hsq : q ≤ rndQ (q + incr N) := by
    have := rndQ_mono (show q ≤ q + incr N by linarith)
    rwa [Q.repr] at this
  by_cases hst : rndQ (q + incr N) = q
  · have e : nextQ q N = 1 := if_pos hst
    rw [e]
    exact ⟨⟨by norm_num, le_rfl, rndQ_one, fun h => absurd h (lt_irrefl _)⟩, by linarith⟩
  have e : nextQ q N = rndQ (q + incr N) := if_neg hst
  rw [e]
  have hlt : q < rndQ (q + incr N) := lt_of_le_of_ne hsq (Ne.symm hst)
  have hidem : rndQ (rndQ (q + incr N)) = rndQ (q + incr N) := rndQ_idem _
  have htq : (t : ℚ) ≤ 4294967296 := by
    have : t ≤ 2 ^ 32 := ht32.le
    exact_mod_cast this
  have hqn := Q.nonneg
  have herr := rndQ_err (q := q + incr N) (by linarith) (by
    have := ilow 64 (by norm_num) (le_trans hle (by decide))
    refine le_trans ?_ (show 1 / 2 ^ 64 ≤ q + incr N by linarith)
    rw [← pow_n_z]
    exact zpow_le_zpow_right₀ (by norm_num) (by norm_num))
  rw [abs_le] at herr
  have hstep : q + 1 / 2 ^ 53 ≤ rndQ (q + incr N) := by
    by_cases hh : 1 / 2 ≤ q
    · have := grid_gap hh hs1 hlt Q.repr hidem
      rwa [show (2 : ℚ) ^ (-53 : ℤ) = 1 / 2 ^ 53 by norm_num] at this
    · have hh := not_le.mp hh
      have hk2 : k ≤ 2 := by
        by_contra hc
        have : (2 : ℚ) ^ 3 ≤ 2 ^ k := pow_le_pow_right₀ (by norm_num) (by omega)
        norm_num at this hb
        nlinarith
      have hN35 : N ≤ 2 ^ 35 := by
        rw [hN]
        have h1 : t ≤ 2 ^ 32 := ht32.le
        have h2 : 2 ^ (k + 1) ≤ 2 ^ 3 := Nat.pow_le_pow_right (by norm_num) (by omega)
        calc t * 2 ^ (k + 1) ≤ 2 ^ 32 * 2 ^ 3 := Nat.mul_le_mul h1 h2
          _ = 2 ^ 35 := by norm_num
      have hi := ilow 35 (by norm_num) hN35
      norm_num at hi herr ⊢
      linarith [herr.1]
  refine ⟨⟨by linarith, hs1, hidem, fun hlt1 => ?_⟩, hstep⟩
  by_cases ht7 : t ≤ 2 ^ 7
  · have h2 := one_sub_ge hlt1 hidem
    rw [show (2 : ℚ) ^ (-53 : ℤ) = 1 / 2 ^ 53 by norm_num] at h2
    have h3 : (t : ℚ) ≤ 128 := by exact_mod_cast ht7
    norm_num at h2 ⊢
    linarith
  · have ht7 : 2 ^ 7 ≤ t := by omega
    have hinc2 : incr N ≤ (1 - q) / 2 ^ 7 := by
      have : 2 ^ (k + 1 + 7) ≤ N := by
        rw [hN, pow_add _ (k + 1) 7, mul_comm]; exact Nat.mul_le_mul_right _ ht7
      refine le_trans (iup (k + 1 + 7) (by omega) this) ?_
      rw [pow_add _ (k + 1) 7, div_le_div_iff₀ (by positivity) (by positivity)]
      nlinarith
    by_cases hh : 1 / 2 ≤ q
    · have hz1 : q + incr N < 1 := by
        rcases eq_or_lt_of_le (show q + incr N ≤ 1 by linarith) with h | h
        · rw [h, rndQ_one] at hlt1; exact absurd hlt1 (lt_irrefl _)
        · exact h
      have herr2 := rndQ_err_half (z := q + incr N) (by linarith) hz1
      rw [abs_le, show (2 : ℚ) ^ (-54 : ℤ) = 1 / 2 ^ 54 by norm_num] at herr2
      have hi54 : 1 / 2 ^ 54 ≤ incr N := by
        have := herr2.2
        norm_num at this hstep ⊢
        linarith
      have hN55 : N < 2 ^ 55 := by
        by_contra hc
        have := iup 55 (by norm_num) (not_lt.mp hc)
        norm_num at this hi54
        linarith
      have ht55 : (t : ℚ) ≤ 2 ^ 55 * (1 - q) := by
        have a1 : (t : ℚ) * 2 ^ (k + 1) ≤ 2 ^ 55 := by rw [hN] at hN55; exact_mod_cast hN55.le
        have a2 : (t : ℚ) * 1 ≤ t * (2 ^ (k + 1) * (1 - q)) := mul_le_mul_of_nonneg_left ha (by positivity)
        nlinarith
      have ht7q : (2 : ℚ) ^ 7 ≤ t := by exact_mod_cast ht7
      have := herr2.2
      norm_num at this ht7q ht55 hinc2 ⊢
      linarith
    · have hh := not_le.mp hh
      have := herr.2
      norm_num at this hinc2 ⊢
      linarith

theorem tickQ_zero {t : Nat} (ht32 : t < 2 ^ 32) : TickQ t 0 := by
  refine ⟨le_rfl, by norm_num, rndQ_zero, fun _ => ?_⟩
  have : t ≤ 2 ^ 32 := ht32.le
  have : (t : ℚ) ≤ 4294967296 := by exact_mod_cast this
  norm_num
  linarith

end Hdr
