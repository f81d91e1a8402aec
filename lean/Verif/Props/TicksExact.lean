import Verif.Props.Ticks
import Verif.Props.Float

/-!
# C33: exactly when `iter_quantiles` ends with quantile 1
-/

namespace Hdr

variable {T : CounterTy} {fp : Fp} {lg : F64 → Nat}

namespace F64

/-- two different numbers with 53 bits differ by at least one part in 2^53 of the larger -/
theorem bits53_gap {a b : ℚ} (ha : Bits53 a) (hb : Bits53 b) (h0 : 0 < a) (hab : a < b) (hb1 : 1 ≤ b) :
    a ≤ b * (1 - 1 / 2 ^ 53) := by
  have hbp : 0 < b := by linarith
  have hL : 0 ≤ Int.log 2 b := by
    have h1 : Int.log 2 (1 : ℚ) ≤ Int.log 2 b := Int.log_mono_right one_pos hb1
    rwa [Int.log_one_right] at h1
  have hu : ulpExp b = Int.log 2 b - 52 := by unfold ulpExp; omega
  have hE := log_le hbp
  have hE' := lt_log (q := b)
  have hpe : (2 : ℚ) ^ Int.log 2 b = 2 ^ (Int.log 2 b - 53) * 2 ^ 53 := by
    rw [← zpow_natCast (2 : ℚ) 53, ← zpow_add₀ (by norm_num)]; congr 1; push_cast; ring
  have hp52 : (2 : ℚ) ^ ulpExp b = 2 ^ (Int.log 2 b - 53) * 2 := by
    rw [hu, show Int.log 2 b - 52 = (Int.log 2 b - 53) + 1 by ring, zpow_add₀ (by norm_num)]; norm_num
  have hp1 : (2 : ℚ) ^ (Int.log 2 b + 1) = 2 ^ (Int.log 2 b - 53) * 2 ^ 54 := by
    rw [← zpow_natCast (2 : ℚ) 54, ← zpow_add₀ (by norm_num)]; congr 1; push_cast; ring
  have hP := two_zpow_pos (Int.log 2 b - 53)
  rw [hpe] at hE
  rw [hp1] at hE'
  rcases le_or_gt ((2 : ℚ) ^ Int.log 2 b) a with hge | hlt
  · obtain ⟨y, hy⟩ := bits53_mul (q := b) ha (Or.inl (by rw [abs_of_pos h0]; exact hge))
    obtain ⟨z, hz⟩ := bits53_mul (q := b) hb (Or.inl (by rw [abs_of_pos hbp]; exact log_le hbp))
    rw [hp52] at hy hz
    generalize (2 : ℚ) ^ (Int.log 2 b - 53) = P at *
    have hyz : y < z := by
      by_contra hc
      have : (z : ℚ) ≤ y := by exact_mod_cast not_lt.mp hc
      have := mul_le_mul_of_nonneg_right this (show (0 : ℚ) ≤ P * 2 by linarith)
      rw [← hy, ← hz] at this
      linarith
    have h1 : (y : ℚ) + 1 ≤ z := by exact_mod_cast hyz
    have h2 := mul_le_mul_of_nonneg_right h1 (show (0 : ℚ) ≤ P * 2 by linarith)
    rw [add_mul, ← hy, ← hz] at h2
    have h3 : b / 2 ^ 53 ≤ P * 2 := by
      rw [div_le_iff₀ (by norm_num)]
      have : P * 2 * 2 ^ 53 = P * 2 ^ 54 := by ring
      rw [this]; exact hE'.le
    have : b * (1 - 1 / 2 ^ 53) = b - b / 2 ^ 53 := by ring
    rw [this]; linarith
  · rw [hpe] at hlt
    obtain ⟨k, e, hk, he, rfl⟩ := ha
    have hk0 : 0 < k := by
      by_contra hc
      have : (k : ℚ) ≤ 0 := by exact_mod_cast not_lt.mp hc
      have := mul_nonpos_of_nonpos_of_nonneg this (two_zpow_pos e).le
      linarith
    rw [abs_of_pos hk0] at hk
    have hgoal : (k : ℚ) * 2 ^ e ≤ 2 ^ (Int.log 2 b - 53) * (2 ^ 53 - 1) := by
      rcases le_or_gt (Int.log 2 b - 53) e with hle | hgt
      · have hm : (2 : ℚ) ^ e = 2 ^ (e - (Int.log 2 b - 53)).toNat * 2 ^ (Int.log 2 b - 53) := by
          rw [← zpow_natCast, ← zpow_add₀ (by norm_num)]; congr 1; omega
        rw [hm] at hlt ⊢
        generalize (e - (Int.log 2 b - 53)).toNat = d at *
        generalize (2 : ℚ) ^ (Int.log 2 b - 53) = P at *
        have h1 : ((k * 2 ^ d : ℤ) : ℚ) < ((2 ^ 53 : ℤ) : ℚ) := by
          push_cast
          refine lt_of_mul_lt_mul_right ?_ hP.le
          calc (k : ℚ) * 2 ^ d * P = k * (2 ^ d * P) := by ring
            _ < P * 2 ^ 53 := hlt
            _ = 2 ^ 53 * P := by ring
        have h2 : k * 2 ^ d ≤ 2 ^ 53 - 1 := by
          have : k * 2 ^ d < 2 ^ 53 := by exact_mod_cast h1
          omega
        have h3 : (k : ℚ) * 2 ^ d ≤ 2 ^ 53 - 1 := by exact_mod_cast h2
        calc (k : ℚ) * (2 ^ d * P) = (k * 2 ^ d) * P := by ring
          _ ≤ (2 ^ 53 - 1) * P := mul_le_mul_of_nonneg_right h3 hP.le
          _ = P * (2 ^ 53 - 1) := by ring
      · have h1 : (2 : ℚ) ^ e ≤ 2 ^ (Int.log 2 b - 53) := zpow_le_zpow_right₀ (by norm_num) hgt.le
        have h2 : (k : ℚ) ≤ 2 ^ 53 - 1 := by
          have : k ≤ 2 ^ 53 - 1 := by omega
          exact_mod_cast this
        calc (k : ℚ) * 2 ^ e ≤ (2 ^ 53 - 1) * 2 ^ (Int.log 2 b - 53) :=
              mul_le_mul h2 h1 (two_zpow_pos e).le (by norm_num)
          _ = _ := by ring
    refine le_trans hgoal ?_
    generalize (2 : ℚ) ^ (Int.log 2 b - 53) = P at *
    calc P * (2 ^ 53 - 1) = P * 2 ^ 53 * (1 - 1 / 2 ^ 53) := by ring
      _ ≤ b * (1 - 1 / 2 ^ 53) := mul_le_mul_of_nonneg_right hE (by norm_num)

/-- a quotient of two numbers with 53 bits is rounded to 1 or more only if it is at least 1 -/
theorem one_le_quot {a b : ℚ} (ha : Bits53 a) (hb : Bits53 b) (h0 : 0 < a) (hb1 : 1 ≤ b) :
    1 ≤ rndQ (a / b) ↔ b ≤ a := by
  constructor
  · intro h
    by_contra hc
    have hg := bits53_gap ha hb h0 (not_le.mp hc) hb1
    have h1 : a / b ≤ 1 - 1 / 2 ^ 53 := by
      rw [div_le_iff₀ (by linarith), mul_comm]; exact hg
    have h2 := rndQ_mono h1
    have h3 : rndQ (1 - 1 / 2 ^ 53) = 1 - 1 / 2 ^ 53 :=
      rndQ_exact (2 ^ 53 - 1) (-53) (by norm_num) (by norm_num) (by norm_num)
    rw [h3] at h2
    have : (1 : ℚ) - 1 / 2 ^ 53 < 1 := by norm_num
    linarith
  · intro h
    refine one_le_rndQ ?_
    rw [le_div_iff₀ (by linarith)]; linarith

end F64

/-- the last class with samples -/
theorem WF.last_filled {h : Hist T} (W : WF fp h) (hpos : 0 < h.counts.sum) :
    ∃ j, j < h.counts.length ∧ h.counts.getD j 0 ≠ 0 ∧ (∀ i, h.counts.getD i 0 ≠ 0 → i ≤ j) ∧
      (h.counts.take (j + 1)).sum = h.counts.sum := by
  have hex : ∃ j, h.counts.getD j 0 ≠ 0 := by
    by_contra hn
    have : h.counts.sum = 0 := by
      refine List.sum_eq_zero ?_
      intro n hmem
      obtain ⟨k, hk, rfl⟩ := List.getElem_of_mem hmem
      by_contra hne'
      refine hn ⟨k, ?_⟩
      rw [List.getD_eq_getElem?_getD, List.getElem?_eq_getElem hk]
      exact hne'
    omega
  have hb : ∀ i, h.counts.getD i 0 ≠ 0 → i ≤ h.lidx h.maxValue := W.trackMax
  classical
  have hj : h.counts.getD (Nat.findGreatest (fun i => h.counts.getD i 0 ≠ 0) (h.lidx h.maxValue)) 0 ≠ 0 := by
    obtain ⟨j, hj⟩ := hex
    exact Nat.findGreatest_spec (P := fun i => h.counts.getD i 0 ≠ 0) (hb j hj) hj
  have hlast : ∀ i, h.counts.getD i 0 ≠ 0 → i ≤ Nat.findGreatest (fun i => h.counts.getD i 0 ≠ 0) (h.lidx h.maxValue) :=
    fun i hi => Nat.le_findGreatest (hb i hi) hi
  generalize Nat.findGreatest (fun i => h.counts.getD i 0 ≠ 0) (h.lidx h.maxValue) = j at hj hlast
  refine ⟨j, ?_, hj, hlast, ?_⟩
  · by_contra hge
    refine hj ?_
    rw [List.getD_eq_getElem?_getD, List.getElem?_eq_none (by omega)]; rfl
  · have h1 : (h.counts.take (j + 1)).sum + (h.counts.drop (j + 1)).sum = h.counts.sum := by
      rw [← List.sum_append, List.take_append_drop]
    have h2 : (h.counts.drop (j + 1)).sum = 0 := by
      refine List.sum_eq_zero ?_
      intro n hmem
      obtain ⟨k, hk, rfl⟩ := List.getElem_of_mem hmem
      by_contra hne'
      rw [List.getElem_drop] at hne'
      have hk' : j + 1 + k < h.counts.length := by rw [List.length_drop] at hk; omega
      have := hlast (j + 1 + k) (by
        rw [List.getD_eq_getElem?_getD, List.getElem?_eq_getElem hk']
        exact hne')
      omega
    omega

/-- C33 (3), without a condition: `iter_quantiles` ends with an item for quantile 1 exactly if the (saturated) sum of the
counts, as a binary64 number, is not below `len()`, as a binary64 number. -/
theorem C33_final_iff {h : Hist T} (R : Reachable fp T h) (hne : h.len ≠ 0) {cs : List Cls} (C : Classes h cs)
    (L : Log2Law lg) {t : Nat} (ht : 0 < t) (ht32 : t < 2 ^ 32) {fuel : Nat} {items : List IterValue}
    (hi : Hist.iterQuantiles lg h t fuel = .ok items) :
    (∃ it, items.getLast? = some it ∧ it.quantileIteratedTo = .fin 1) ↔
      F64.le (F64.ofNat h.len) (F64.ofNat (min (cs.map (·.count)).sum U64MAX)) = true := by
  have W := R.wf
  have r := quantile_items R hne C L ht ht32 hi
  have hlen : h.len ≤ U64MAX := W.tot
  rw [F64.ofNat_fin hlen, F64.ofNat_fin (n := min (cs.map (·.count)).sum U64MAX) (min_le_right _ _), W.sum_classes C]
  have hle : ∀ a b : ℚ, F64.le (.fin a) (.fin b) = true ↔ a ≤ b := by
    intro a b
    simp only [F64.le, F64.lt, F64.feq, Bool.or_eq_true, decide_eq_true_eq]
    exact le_iff_lt_or_eq.symm
  rw [hle]
  have hb1 : (1 : ℚ) ≤ F64.rndQ (h.len : ℕ) :=
    F64.one_le_rndQ (by exact_mod_cast Nat.pos_of_ne_zero hne)
  have bits : ∀ n : ℕ, 0 < n → Bits53 (F64.rndQ (n : ℚ)) := by
    intro n hn
    have hq : (0 : ℚ) < n := by exact_mod_cast hn
    rw [F64.rndQ_pos hq]
    exact F64.rndPos_bits hq
  rcases Nat.eq_zero_or_pos h.counts.sum with hz | hpos
  · -- nothing counted
    constructor
    · rintro ⟨it, hit, -⟩
      obtain ⟨c, hc, f, x, hx, -, -⟩ := r.items (by norm_num) it (List.mem_of_getLast? hit)
      obtain ⟨j, hj, rfl⟩ := (W.mem_classes C).mp hc
      exfalso
      refine hx.filled ?_
      have : h.counts.getD j 0 ≤ h.counts.sum := by
        rw [List.getD_eq_getElem?_getD, List.getElem?_eq_getElem hj]
        exact List.single_le_sum (fun _ _ => Nat.zero_le _) _ (List.getElem_mem hj)
      show h.counts.getD j 0 = 0
      omega
    · intro hc
      rw [hz, show min 0 U64MAX = 0 from rfl, Nat.cast_zero, F64.rndQ_zero] at hc
      linarith
  · obtain ⟨j, hjl, hj, hlast, hall⟩ := W.last_filled hpos
    have hfj : h.frac j = F64.rndQ (F64.rndQ ((Min.min h.counts.sum U64MAX : ℕ) : ℚ) / F64.rndQ (h.len : ℕ)) := by
      unfold Hist.frac
      rw [hall]; rfl
    have hmpos : 0 < Min.min h.counts.sum U64MAX := lt_min hpos (by decide)
    have key : 1 ≤ h.frac j ↔ F64.rndQ (h.len : ℕ) ≤ F64.rndQ ((Min.min h.counts.sum U64MAX : ℕ) : ℚ) := by
      rw [hfj]
      refine F64.one_le_quot (bits _ hmpos) (bits _ (Nat.pos_of_ne_zero hne)) ?_ hb1
      have : (1 : ℚ) ≤ F64.rndQ ((Min.min h.counts.sum U64MAX : ℕ) : ℚ) := F64.one_le_rndQ (by exact_mod_cast hmpos)
      linarith
    rw [← key]
    constructor
    · rintro ⟨it, hit, hq⟩
      obtain ⟨c, hc, f, x, hx, -, -⟩ := r.items (by norm_num) it (List.mem_of_getLast? hit)
      obtain ⟨i, hil, rfl⟩ := (W.mem_classes C).mp hc
      have h1 := hx.reached
      rw [hx.quantileTo] at hq
      have hx1 : x = 1 := by simpa using hq
      rw [hx1, W.fracUpTo_eq C hil] at h1
      exact le_trans h1 (Hist.frac_mono (hlast i hx.filled))
    · intro h1
      refine r.final ⟨h.lcls j, (W.mem_classes C).mpr ⟨j, hjl, rfl⟩, hj, ?_⟩
      rw [W.fracUpTo_eq C hjl]
      exact h1

/-- both outcomes occur: `C33_refuted` has a histogram without the item for quantile 1 -/
example : F64.le (F64.ofNat demoSat.len) (F64.ofNat (min demoSat.counts.sum U64MAX)) = false := by decide +kernel

end Hdr
