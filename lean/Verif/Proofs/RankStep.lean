import Verif.Proofs.Samples

/-!
# How the rank of a quantile moves with the number of samples
-/

namespace Hdr

variable {T : CounterTy} {fp : Fp}

namespace F64

/-- The product with one more sample, rounded, is at most one above an integer bound of the product rounded. -/
theorem rndQ_step {x : ℚ} (h0 : 0 ≤ x) (h1 : x ≤ 1) {n K : ℕ} (hn : n + 1 ≤ 2 ^ 53) (hK : 1 ≤ K) (hKn : K + 1 ≤ 2 ^ 53)
    (hr : rndQ (x * n) ≤ K) : rndQ (x * (n + 1 : ℕ)) ≤ (K + 1 : ℕ) := by
  have hnq : ((n + 1 : ℕ) : ℚ) ≤ 2 ^ 53 := by exact_mod_cast hn
  rcases le_or_gt (x * (n + 1 : ℕ)) (K + 1 : ℕ) with hle | hgt
  · have := rndQ_mono hle
    rwa [rndQ_nat hKn] at this
  have e : x * ((n + 1 : ℕ) : ℚ) = x * n + x := by push_cast; ring
  have hKq : (1 : ℚ) ≤ K := by exact_mod_cast hK
  have hxn : (K : ℚ) < x * n := by
    rw [e] at hgt
    push_cast at hgt
    linarith
  have hx1 : x < 1 := by
    rcases lt_or_eq_of_le h1 with h | h
    · exact h
    · exfalso
      rw [h, one_mul, rndQ_nat (by omega)] at hr
      rw [h, one_mul] at hxn
      linarith
  have hup : x * n + x < 2 ^ 53 := by
    rw [← e]
    have hp : (0 : ℚ) < ((n + 1 : ℕ) : ℚ) := by positivity
    calc x * ((n + 1 : ℕ) : ℚ) < 1 * ((n + 1 : ℕ) : ℚ) := mul_lt_mul_of_pos_right hx1 hp
      _ ≤ 2 ^ 53 := by rw [one_mul]; exact hnq
  have hpos : (0 : ℚ) < x * n := by linarith
  have hpos' : (0 : ℚ) < x * n + x := by linarith
  have hmono : ulpExp (x * n) ≤ ulpExp (x * n + x) := ulpExp_mono hpos (by linarith)
  have hu0 : ulpExp (x * n + x) ≤ 0 := by
    have : Int.log 2 (x * n + x) < 53 := by
      refine (Int.lt_zpow_iff_log_lt (b := 2) (by norm_num) hpos').mp ?_
      norm_num at hup ⊢
      exact hup
    unfold ulpExp; omega
  -- the first product lies at most half a last place above `K`
  have herr : x * n ≤ K + 2 ^ ulpExp (x * n) / 2 := by
    have h2 := rhe_err (x * n / 2 ^ ulpExp (x * n))
    have hp := two_zpow_pos (ulpExp (x * n))
    rw [rndQ_pos hpos] at hr
    unfold rndPos at hr
    rw [abs_le] at h2
    have h3 : x * n / 2 ^ ulpExp (x * n) ≤ rhe (x * n / 2 ^ ulpExp (x * n)) + 1 / 2 := by linarith [h2.1]
    rw [div_le_iff₀ hp] at h3
    linarith
  rw [e, rndQ_pos hpos']
  unfold rndPos
  have hp := two_zpow_pos (ulpExp (x * n + x))
  have hpp : (2 : ℚ) ^ ulpExp (x * n) ≤ 2 ^ ulpExp (x * n + x) := zpow_le_zpow_right₀ (by norm_num) hmono
  generalize ulpExp (x * n + x) = u at *
  -- `K + 1` is a multiple of the last place
  have hZ : (((K + 1 : ℕ) : ℤ) * 2 ^ (-u).toNat : ℤ) * (2 : ℚ) ^ u = (K + 1 : ℕ) := by
    push_cast
    rw [mul_assoc, ← zpow_natCast, ← zpow_add₀ (by norm_num)]
    have : ((-u).toNat : ℤ) + u = 0 := by omega
    rw [this]; simp
  have hlt : (x * n + x) / 2 ^ u < (((K + 1 : ℕ) : ℤ) * 2 ^ (-u).toNat : ℤ) + 1 / 2 := by
    rw [div_lt_iff₀ hp, add_mul, hZ]
    push_cast
    linarith
  have h2 := rhe_err ((x * n + x) / 2 ^ u)
  rw [abs_le] at h2
  have h3 : (rhe ((x * n + x) / 2 ^ u) : ℚ) < (((K + 1 : ℕ) : ℤ) * 2 ^ (-u).toNat : ℤ) + 1 := by linarith [h2.2]
  have h4 : rhe ((x * n + x) / 2 ^ u) ≤ (((K + 1 : ℕ) : ℤ) * 2 ^ (-u).toNat : ℤ) := by
    have : rhe ((x * n + x) / 2 ^ u) < (((K + 1 : ℕ) : ℤ) * 2 ^ (-u).toNat : ℤ) + 1 := by exact_mod_cast h3
    omega
  rw [← hZ]
  exact mul_le_mul_of_nonneg_right (by exact_mod_cast h4) hp.le

end F64

/-- one more sample: the same rank or the next -/
theorem specRank_succ {n : Nat} (hn : n + 1 ≤ 2 ^ 53) (q : F64) :
    specRank n q ≤ specRank (n + 1) q ∧ specRank (n + 1) q ≤ specRank n q + 1 := by
  have hU : U64MAX = 18446744073709551615 := rfl
  have fin1 : ∀ x : ℚ, x ≤ 1 →
      max 1 (min ⌈F64.rndQ (x * n)⌉.toNat U64MAX) ≤ max 1 (min ⌈F64.rndQ (x * (n + 1 : ℕ))⌉.toNat U64MAX) ∧
      max 1 (min ⌈F64.rndQ (x * (n + 1 : ℕ))⌉.toNat U64MAX) ≤ max 1 (min ⌈F64.rndQ (x * n)⌉.toNat U64MAX) + 1 := by
    intro x hx1
    rcases lt_or_ge x 0 with hx | hx
    · have z : ∀ m : ℕ, ⌈F64.rndQ (x * m)⌉.toNat = 0 := by
        intro m
        have h1 : x * m ≤ 0 := mul_nonpos_of_nonpos_of_nonneg hx.le (by positivity)
        have : ⌈F64.rndQ (x * m)⌉ ≤ 0 := Int.ceil_le.mpr (by simpa using F64.rndQ_nonpos h1)
        omega
      rw [z, z]; omega
    · have hm : x * n ≤ x * (n + 1 : ℕ) := mul_le_mul_of_nonneg_left (by push_cast; linarith) hx
      have h1 := Int.toNat_le_toNat (Int.ceil_le_ceil (F64.rndQ_mono hm))
      refine ⟨by omega, ?_⟩
      have hxn : x * n ≤ n := by
        have := mul_le_mul_of_nonneg_right hx1 (show (0 : ℚ) ≤ n by positivity)
        linarith
      have hc : ⌈F64.rndQ (x * n)⌉ ≤ n := by
        refine Int.ceil_le.mpr ?_
        have := F64.rndQ_mono hxn
        rwa [F64.rndQ_nat (by omega)] at this
      have hc0 : 0 ≤ ⌈F64.rndQ (x * n)⌉ := Int.ceil_nonneg (F64.rndQ_nonneg (mul_nonneg hx (by positivity)))
      rcases Nat.eq_zero_or_pos n with rfl | hn0
      · have : F64.rndQ (x * (0 + 1 : ℕ)) ≤ 1 := F64.rndQ_le_one (by simpa using hx1)
        have : ⌈F64.rndQ (x * (0 + 1 : ℕ))⌉ ≤ 1 := Int.ceil_le.mpr (by simpa using this)
        omega
      · have hK := F64.rndQ_step (K := max 1 ⌈F64.rndQ (x * n)⌉.toNat) hx hx1 hn (by omega)
          (by norm_num at hn ⊢; omega) (by
            refine le_trans (Int.le_ceil _) ?_
            have : ⌈F64.rndQ (x * n)⌉ ≤ ((max 1 ⌈F64.rndQ (x * n)⌉.toNat : ℕ) : ℤ) := by omega
            exact_mod_cast this)
        have : ⌈F64.rndQ (x * (n + 1 : ℕ))⌉ ≤ ((max 1 ⌈F64.rndQ (x * n)⌉.toNat + 1 : ℕ) : ℤ) :=
          Int.ceil_le.mpr (by exact_mod_cast hK)
        norm_num at hn
        omega
  have e1 : F64.rndQ (n : ℚ) = n := F64.rndQ_nat (by omega)
  have e2 : F64.rndQ ((n + 1 : ℕ) : ℚ) = (n + 1 : ℕ) := F64.rndQ_nat hn
  cases q with
  | nan => exact ⟨le_rfl, Nat.le_succ _⟩
  | ninf => exact ⟨le_rfl, Nat.le_succ _⟩
  | pinf =>
    have := fin1 1 le_rfl
    rw [one_mul, one_mul] at this
    exact this
  | fin x =>
    have := fin1 (min x 1) (min_le_right _ _)
    show max 1 (min ⌈F64.rndQ (min x 1 * F64.rndQ n)⌉.toNat U64MAX) ≤
        max 1 (min ⌈F64.rndQ (min x 1 * F64.rndQ (n + 1 : ℕ))⌉.toNat U64MAX) ∧
      max 1 (min ⌈F64.rndQ (min x 1 * F64.rndQ (n + 1 : ℕ))⌉.toNat U64MAX) ≤
        max 1 (min ⌈F64.rndQ (min x 1 * F64.rndQ n)⌉.toNat U64MAX) + 1
    rw [e1, e2]
    exact this

/-- `c` more samples: at most `c` ranks further, and never back -/
theorem specRank_add {n c : Nat} (hn : n + c ≤ 2 ^ 53) (q : F64) :
    specRank n q ≤ specRank (n + c) q ∧ specRank (n + c) q ≤ specRank n q + c := by
  induction c with
  | zero => exact ⟨le_rfl, le_rfl⟩
  | succ c ih =>
    have h1 := ih (by omega)
    have h2 := specRank_succ (n := n + c) (by omega) q
    rw [show n + (c + 1) = n + c + 1 by omega]
    omega

/-- what `value_at_quantile` answers when the sample of the rank asked for is `y` -/
def Hist.qans (h : Hist T) (q : F64) (y : Nat) : Nat :=
  if q = .fin 0 then h.lval (h.lidx y) else h.lhi (h.lval (h.lidx y))

theorem qans_mono {h : Hist T} (q : F64) {y z : Nat} (hz : z ≤ U64MAX) (hyz : y ≤ z) : h.qans q y ≤ h.qans q z := by
  have hi : h.lidx y ≤ h.lidx z := Lay.idx_mono hyz
  have ez : h.lval (h.lidx z) = h.llo z := Lay.val_idx
  have ey : h.lval (h.lidx y) = h.llo y := Lay.val_idx
  have hlz : h.llo z ≤ z := Lay.lo_le
  have hv : h.llo y ≤ h.llo z := llo_le_of_lidx hi
  unfold Hist.qans
  rw [ey, ez]
  split
  · exact hv
  · rcases Nat.lt_or_ge (h.lidx y) (h.lidx z) with hlt | hge
    · have h1 : h.lidx (h.lhi (h.llo y)) = h.lidx y := by
        rw [lidx_lhi (by omega)]; exact Lay.idx_lo
      have h2 : h.lidx (h.llo z) = h.lidx z := Lay.idx_lo
      have h3 := lhi_ge (h := h) (v := h.llo z) (by omega)
      refine le_trans ?_ h3
      by_contra hc
      have : h.lidx (h.llo z) ≤ h.lidx (h.lhi (h.llo y)) := Lay.idx_mono (by omega)
      omega
    · have : h.llo y = h.llo z := Lay.lo_eq_iff.mpr (show Lay.idx _ _ y = Lay.idx _ _ z by unfold Hist.lidx at *; omega)
      rw [this]

theorem qans_equiv {h : Hist T} (W : WF fp h) (q : F64) {y : Nat} (hy : y ≤ U64MAX) : Equiv h (h.qans q y) y := by
  have ey : h.lval (h.lidx y) = h.llo y := Lay.val_idx
  have hly : h.llo y ≤ y := Lay.lo_le
  have il : h.lidx (h.llo y) = h.lidx y := Lay.idx_lo
  unfold Hist.qans
  rw [ey]
  split
  · exact (W.equiv_iff (by omega) hy).mpr il
  · exact (W.equiv_iff lhi_le hy).mpr (by rw [lidx_lhi (by omega), il])

theorem Contains.answer {h : Hist T} (R : Reachable fp T h) {l : List (Nat × Nat)} (H : Contains h l) (h0 : 0 < numberAll l)
    (hn : numberAll l ≤ 2 ^ 53) (q : F64) {y : Nat} (hy : KthSmallest l (specRank (numberAll l) q) y) :
    h.valueAtQuantile q = .ok (h.qans q y) := by
  have W := R.wf
  have C := W.contents
  have hlen : h.len = numberAll l := H.len
  have hsum : h.len = (h.contents.map (·.count)).sum := by
    rw [W.sum_classes C, H.sum W, hlen]
  obtain ⟨c, hc, ev⟩ := C25_found R C hsum (by omega) (by omega) q
  rw [hlen] at hc
  rw [ev, H.rank W C hy hc]
  rfl

/-- the rank asked for is that of a sample -/
theorem Contains.asked {l : List (Nat × Nat)} (h0 : 0 < numberAll l) (hn : numberAll l ≤ 2 ^ 53) (q : F64) :
    ∃ y, KthSmallest l (specRank (numberAll l) q) y := by
  refine KthSmallest.exists (specRank_pos _ _) ?_
  have := specRank_le (numberAll l) q
  rw [specRank_one h0 hn] at this
  exact this

/-- the answer and the sample it stands for -/
theorem Contains.answers {h : Hist T} (R : Reachable fp T h) {l : List (Nat × Nat)} (H : Contains h l) (h0 : 0 < numberAll l)
    (hn : numberAll l ≤ 2 ^ 53) (q : F64) :
    ∃ y, y ≤ U64MAX ∧ KthSmallest l (specRank (numberAll l) q) y ∧ h.valueAtQuantile q = .ok (h.qans q y) := by
  obtain ⟨y, hy⟩ := Contains.asked h0 hn q
  obtain ⟨p, hp, rfl, -⟩ := hy.mem
  exact ⟨p.1, H.le R.wf hp, hy, H.answer R h0 hn q hy⟩

theorem KthSmallest.le_of {l : List (Nat × Nat)} {k x y : Nat} (hy : KthSmallest l k y)
    (h : k ≤ number l (fun v => v ≤ x)) : y ≤ x := by
  by_contra hc
  have : number l (fun v => v ≤ x) ≤ number l (fun v => v < y) := number_le fun p _ hp => by omega
  have := hy.1
  omega

theorem KthSmallest.ge_of {l : List (Nat × Nat)} {k x y : Nat} (hy : KthSmallest l k y)
    (h : number l (fun v => v < x) < k) : x ≤ y := by
  by_contra hc
  have : number l (fun v => v ≤ y) ≤ number l (fun v => v < x) := number_le fun p _ hp => by omega
  have := hy.2
  omega

/-- histograms of the same lowest value and precision have the same classes, whatever their counters and ranges -/
theorem WF.same_slots {T' : CounterTy} {h : Hist T} {g : Hist T'} (W : WF fp h) (W' : WF fp g) (hl : h.low = g.low)
    (hs : h.sigfig = g.sigfig) : h.unitMag = g.unitMag ∧ h.subBucketHalfCountMag = g.subBucketHalfCountMag := by
  have h1 := W.um
  have h2 := W'.um
  have h3 := W.mag
  have h4 := W'.mag
  have hl' : h.lowestDiscernible = g.lowestDiscernible := hl
  have hs' : h.sigDigits = g.sigDigits := hs
  exact ⟨by rw [h1, h2, hl'], by rw [hs'] at h3; omega⟩

theorem qans_same {T' : CounterTy} {h : Hist T} {g : Hist T'}
    (hg : h.unitMag = g.unitMag ∧ h.subBucketHalfCountMag = g.subBucketHalfCountMag) (q : F64) (y : Nat) :
    h.qans q y = g.qans q y := by
  unfold Hist.qans Hist.lhi Hist.lval Hist.lidx Hist.llo Hist.lwid
  rw [hg.1, hg.2]

end Hdr
