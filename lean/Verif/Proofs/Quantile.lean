import Verif.Spec.Quantile
import Verif.Proofs.F64
import Verif.Proofs.Exact

/-!
# value_at_quantile and quantile_below
-/

namespace Hdr

variable {T : CounterTy} {fp : Fp}

theorem WF.quantileLoop_eq {h : Hist T} (W : WF fp h) (target : Nat) (z : Bool) :
    ∀ (cs : List Nat) (i total : Nat), i + cs.length ≤ h.counts.length → total + cs.sum ≤ U64MAX → total < target →
      (∃ k, k < cs.length ∧ total + (cs.take k).sum < target ∧ target ≤ total + (cs.take k).sum + cs.getD k 0 ∧
        h.quantileLoop target z cs i total = .ok (if z then h.lval (i + k) else h.lhi (h.lval (i + k)))) ∨
      (total + cs.sum < target ∧ h.quantileLoop target z cs i total = .ok 0) := by
  intro cs
  induction cs with
  | nil => intro i total _ _ ht; right; exact ⟨by simpa using ht, rfl⟩
  | cons c cs ih =>
    intro i total hi hs ht
    rw [List.length_cons] at hi
    rw [List.sum_cons] at hs
    have hstep : h.quantileLoop target z (c :: cs) i total = (do
        let total ← addU64 total c
        if target ≤ total then do
          let v ← h.valueFor i
          if z then h.lowestEquivalent v else h.highestEquivalent v
        else h.quantileLoop target z cs (i + 1) total) := rfl
    rw [hstep, show addU64 total c = .ok (total + c) from if_pos (by omega), M.ok_bind]
    by_cases hc : target ≤ total + c
    · rw [if_pos hc]
      left
      refine ⟨0, by simp, by simpa using ht, by simpa using hc, ?_⟩
      have L := W.toLayoutOK
      have hlt : i < h.counts.length := by omega
      rw [valueFor_eq L (lt_of_lt_of_le hlt W.len_le_all), M.ok_bind, Nat.add_zero]
      cases z with
      | true =>
        rw [if_pos rfl, if_pos rfl, lowestEquivalent_eq L (W.lval_le' hlt)]
        exact congrArg _ Lay.lo_val
      | false =>
        rw [if_neg (by decide), if_neg (by decide), highestEquivalent_eq L (W.lval_le' hlt)]
    · rw [if_neg hc]
      rcases ih (i + 1) (total + c) (by omega) (by omega) (by omega) with ⟨k, k1, k2, k3, k4⟩ | ⟨k1, k2⟩
      · left
        refine ⟨k + 1, by simpa using k1, ?_, ?_, ?_⟩
        · rw [List.take_succ_cons, List.sum_cons]; omega
        · rw [List.take_succ_cons, List.sum_cons]
          have : (c :: cs).getD (k + 1) 0 = cs.getD k 0 := by simp
          omega
        · rw [k4]
          have : i + 1 + k = i + (k + 1) := by omega
          rw [this]
      · right
        refine ⟨?_, k2⟩
        rw [List.sum_cons]; omega

/-- the classes split at slot `k` -/
theorem WF.classes_split {h : Hist T} (W : WF fp h) {cs : List Cls} (C : Classes h cs) {k : Nat} (hk : k < h.counts.length) :
    ∃ pre post, cs = pre ++ h.lcls k :: post ∧ (pre.map (·.count)).sum = (h.counts.take k).sum := by
  refine ⟨(List.range k).map h.lcls, (List.range' (k + 1) (h.counts.length - (k + 1))).map h.lcls, ?_, ?_⟩
  · rw [W.classes_unique C, ← List.map_cons, ← List.map_append]
    congr 1
    rw [← List.range'_succ, List.range_eq_range', List.range_eq_range', ]
    have h2 := List.range'_append_1 (s := 0) (m := k) (n := h.counts.length - (k + 1) + 1)
    rw [Nat.zero_add] at h2
    rw [h2]
    congr 1
    omega
  · rw [List.map_map]
    have h1 := sum_range_getD (h.counts.take k)
    have h2 : (h.counts.take k).length = k := by rw [List.length_take]; omega
    rw [h2] at h1
    rw [← h1]
    congr 1
    apply List.map_congr_left
    intro i hi
    rw [List.mem_range] at hi
    show h.counts.getD i 0 = _
    rw [List.getD_eq_getElem?_getD, List.getD_eq_getElem?_getD, List.getElem?_take_of_lt hi]

theorem AtRank.unique {cs : List Cls} {r : Nat} {c d : Cls} (hc : AtRank cs r c) (hd : AtRank cs r d) : c = d := by
  obtain ⟨p1, q1, e1, a1, b1⟩ := hc
  obtain ⟨p2, q2, e2, a2, b2⟩ := hd
  have hlen : p1.length = p2.length := by
    rcases Nat.lt_trichotomy p1.length p2.length with hl | hl | hl
    · exfalso
      have h1 : p1 ++ [c] <+: p2 := by
        refine List.prefix_of_prefix_length_le (l₃ := cs) ?_ ?_ (by simp; omega)
        · exact ⟨q1, by rw [e1]; simp⟩
        · exact ⟨_, e2.symm⟩
      obtain ⟨t, ht⟩ := h1
      rw [← ht] at a2
      simp only [List.map_append, List.sum_append, List.map_cons, List.map_nil, List.sum_cons, List.sum_nil] at a2
      omega
    · exact hl
    · exfalso
      have h1 : p2 ++ [d] <+: p1 := by
        refine List.prefix_of_prefix_length_le (l₃ := cs) ?_ ?_ (by simp; omega)
        · exact ⟨q2, by rw [e2]; simp⟩
        · exact ⟨_, e1.symm⟩
      obtain ⟨t, ht⟩ := h1
      rw [← ht] at a1
      simp only [List.map_append, List.sum_append, List.map_cons, List.map_nil, List.sum_cons, List.sum_nil] at a1
      omega
  have := e1.symm.trans e2
  obtain ⟨-, h2⟩ := List.append_inj this hlen
  injection h2

namespace F64

/-- a rounded number has at most 53 significant bits -/
theorem rhe_le_pow53 (q : ℚ) : rhe (q / 2 ^ ulpExp q) ≤ 2 ^ 53 := by
  have h1 : q / 2 ^ ulpExp q ≤ ((2 ^ 53 : ℤ) : ℚ) := by
    rw [div_le_iff₀ (two_zpow_pos _)]
    refine le_trans (le_of_lt lt_log) ?_
    have e : ((2 ^ 53 : ℤ) : ℚ) = 2 ^ (53 : ℤ) := by norm_num
    rw [e, ← zpow_add₀ (by norm_num)]
    refine zpow_le_zpow_right₀ (by norm_num) ?_
    unfold ulpExp
    omega
  have := rhe_mono h1
  rwa [rhe_int] at this

theorem rndPos_idem {q : ℚ} (hq : 0 < q) : rndQ (rndPos q) = rndPos q := by
  have h0 := rhe_nonneg (div_nonneg hq.le (two_zpow_pos (ulpExp q)).le)
  refine rndQ_exact (rhe (q / 2 ^ ulpExp q)) (ulpExp q) (by unfold ulpExp; omega) ?_ rfl
  rw [abs_of_nonneg h0]
  exact rhe_le_pow53 q

theorem rndQ_idem (q : ℚ) : rndQ (rndQ q) = rndQ q := by
  rcases lt_trichotomy q 0 with h | h | h
  · have : rndQ q = - rndPos (-q) := by unfold rndQ; rw [if_neg h.ne, if_neg (by linarith)]
    rw [this, rndQ_neg, rndPos_idem (by linarith)]
  · rw [h, rndQ_zero, rndQ_zero]
  · rw [rndQ_pos h, rndPos_idem h]

theorem toU64_ceil (q : ℚ) : toU64 (ceil (fin q)) = min ⌈q⌉.toNat U64MAX := by
  unfold ceil toU64
  simp

/-- an upper bound of the magnitude only from above -/
theorem toU64_ceil_rnd {q : ℚ} (h : q ≤ 2 ^ (1023 : ℤ)) : toU64 (ceil (rnd q)) = min ⌈rndQ q⌉.toNat U64MAX := by
  have h1 : rndQ q ≤ 2 ^ (1023 : ℤ) := rndQ_le_pow (by norm_num) h
  have h3 : (2 : ℚ) ^ (1023 : ℤ) < 2 ^ 1024 := by
    rw [← zpow_natCast (2 : ℚ) 1024]
    exact zpow_lt_zpow_right₀ (by norm_num) (by norm_num)
  have h4 : (0 : ℚ) < 2 ^ 1024 := by positivity
  unfold rnd
  generalize (2 : ℚ) ^ (1023 : ℤ) = a at *
  generalize (2 : ℚ) ^ 1024 = b at *
  rw [if_neg (by linarith)]
  split
  · rename_i hn
    have : ⌈rndQ q⌉ ≤ 0 := Int.ceil_le.mpr (by push_cast; linarith)
    have : ⌈rndQ q⌉.toNat = 0 := by omega
    rw [this]; rfl
  · exact toU64_ceil _

end F64

theorem rank_eq {h : Hist T} (hn : h.totalCount ≤ U64MAX) (q : F64) :
    h.rankFor (Hist.capQuantile q) = specRank h.totalCount q := by
  have hr : F64.ofNat h.totalCount = .fin (F64.rndQ h.totalCount) := F64.ofNat_fin hn
  have h0 : 0 ≤ F64.rndQ h.totalCount := F64.rndQ_nonneg (by positivity)
  have h1 : F64.rndQ h.totalCount ≤ 2 ^ 64 := F64.rndQ_u64_le hn
  have h2 := F64.pow64_le
  have hmax : ∀ c : Nat, (if c = 0 then 1 else c) = max 1 c := by intro c; split <;> omega
  have hU : 0 < U64MAX := by decide
  unfold Hist.rankFor
  simp only [hr]
  rw [hmax]
  cases q with
  | nan => rfl
  | ninf =>
    show max 1 (F64.toU64 (F64.ceil (if F64.rndQ h.totalCount = 0 then .nan
      else if 0 < F64.rndQ h.totalCount then .ninf else .pinf))) = 1
    split
    · rfl
    · rename_i hne
      rw [if_pos (lt_of_le_of_ne h0 (Ne.symm hne))]; rfl
  | pinf =>
    show max 1 (F64.toU64 (F64.ceil (F64.rnd (1 * F64.rndQ h.totalCount)))) = _
    rw [one_mul, F64.toU64_ceil_rnd (h1.trans h2), F64.rndQ_idem]
    rfl
  | fin x =>
    have hcap : Hist.capQuantile (.fin x) = .fin (min x 1) := by
      unfold Hist.capQuantile F64.lt
      by_cases hx : 1 < x
      · rw [if_pos (by simpa using hx), min_eq_right hx.le]
      · rw [if_neg (by simpa using hx), min_eq_left (not_lt.mp hx)]
    rw [hcap]
    show max 1 (F64.toU64 (F64.ceil (F64.rnd (min x 1 * F64.rndQ h.totalCount)))) = _
    rw [F64.toU64_ceil_rnd]
    · rfl
    · refine le_trans (mul_le_mul_of_nonneg_right (min_le_right x 1) h0) ?_
      rw [one_mul]; exact h1.trans h2

theorem specRank_pos (n : Nat) (q : F64) : 1 ≤ specRank n q := by
  cases q <;> simp [specRank]

/-- is the quantile exactly zero? -/
theorem feq_cap (q : F64) : F64.feq (Hist.capQuantile q) (.fin 0) = true ↔ q = .fin 0 := by
  cases q with
  | nan => simp [Hist.capQuantile, F64.lt, F64.feq]
  | ninf => simp [Hist.capQuantile, F64.lt, F64.feq]
  | pinf => simp [Hist.capQuantile, F64.lt, F64.feq]
  | fin x =>
    unfold Hist.capQuantile
    split
    · rename_i hx
      simp only [F64.lt, decide_eq_true_eq] at hx
      simp only [F64.feq, decide_eq_true_eq, F64.fin.injEq]
      constructor
      · intro h; linarith
      · intro h; linarith
    · simp [F64.feq]

theorem WF.valueAtQuantile_eq {h : Hist T} (W : WF fp h) {cs : List Cls} (C : Classes h cs)
    (hs : h.counts.sum ≤ U64MAX) (q : F64) :
    (∃ c, AtRank cs (specRank h.totalCount q) c ∧ h.valueAtQuantile q = .ok (if q = .fin 0 then c.lo else c.hi)) ∨
      (h.counts.sum < specRank h.totalCount q ∧ h.valueAtQuantile q = .ok 0) := by
  unfold Hist.valueAtQuantile
  simp only
  rw [rank_eq W.tot]
  have hp := specRank_pos h.totalCount q
  rcases W.quantileLoop_eq (specRank h.totalCount q) (F64.feq (Hist.capQuantile q) (.fin 0)) h.counts 0 0 (by omega)
    (by omega) (by omega) with ⟨k, k1, k2, k3, k4⟩ | ⟨k1, k2⟩
  · left
    obtain ⟨pre, post, e1, e2⟩ := W.classes_split C k1
    refine ⟨h.lcls k, ⟨pre, post, e1, by rw [e2]; omega, ?_⟩, ?_⟩
    · rw [e2]
      have : (h.lcls k).count = h.counts.getD k 0 := rfl
      omega
    · rw [k4, Nat.zero_add]
      have h1 : (h.lcls k).lo = h.lval k := rfl
      have h2 : (h.lcls k).hi = h.lhi (h.lval k) := rfl
      rw [h1, h2]
      by_cases hq : q = .fin 0
      · rw [if_pos hq, if_pos ((feq_cap q).mpr hq)]
      · rw [if_neg hq, if_neg (fun hc => hq ((feq_cap q).mp hc))]
  · right
    exact ⟨by omega, k2⟩

/-- ranks never decrease with the quantile -/
theorem specRank_mono (n : Nat) {p q : F64} (h : F64.le p q = true) : specRank n p ≤ specRank n q := by
  have h0 : 0 ≤ F64.rndQ n := F64.rndQ_nonneg (by positivity)
  have hm : ∀ {a b : ℚ}, a ≤ b → max 1 (min ⌈F64.rndQ (a * F64.rndQ n)⌉.toNat U64MAX)
      ≤ max 1 (min ⌈F64.rndQ (b * F64.rndQ n)⌉.toNat U64MAX) := by
    intro a b hab
    have h1 := Int.ceil_le_ceil (F64.rndQ_mono (mul_le_mul_of_nonneg_right hab h0))
    have h2 : ⌈F64.rndQ (a * F64.rndQ n)⌉.toNat ≤ ⌈F64.rndQ (b * F64.rndQ n)⌉.toNat := Int.toNat_le_toNat h1
    omega
  have hpinf : specRank n .pinf = max 1 (min ⌈F64.rndQ (1 * F64.rndQ n)⌉.toNat U64MAX) := by
    rw [one_mul, F64.rndQ_idem]; rfl
  have hone := specRank_pos n q
  cases p with
  | nan => exact hone
  | ninf => exact hone
  | pinf =>
    cases q with
    | pinf => exact le_rfl
    | _ => simp [F64.le, F64.lt, F64.feq] at h
  | fin x =>
    cases q with
    | nan => simp [F64.le, F64.lt, F64.feq] at h
    | ninf => simp [F64.le, F64.lt, F64.feq] at h
    | pinf => rw [hpinf]; exact hm (min_le_right _ _)
    | fin y =>
      simp only [F64.le, F64.lt, F64.feq, Bool.or_eq_true, decide_eq_true_eq] at h
      have hxy : x ≤ y := by rcases h with h | h <;> linarith
      exact hm (min_le_min_right 1 hxy)

/-- the greatest rank asked for -/
theorem specRank_le (n : Nat) (q : F64) : specRank n q ≤ specRank n (.fin 1) := by
  have h1 : specRank n .pinf = specRank n (.fin 1) := by
    show _ = max 1 (min ⌈F64.rndQ (min 1 1 * F64.rndQ n)⌉.toNat U64MAX)
    rw [min_self, one_mul, F64.rndQ_idem]; rfl
  cases q with
  | nan => exact specRank_pos _ _
  | ninf => exact specRank_pos _ _
  | pinf => exact h1.le
  | fin x => rw [← h1]; exact specRank_mono n rfl

/-- up to 2^53 samples the rank for 1.0 is the number of samples -/
theorem specRank_one {n : Nat} (h0 : 0 < n) (hn : n ≤ 2 ^ 53) : specRank n (.fin 1) = n := by
  show max 1 (min ⌈F64.rndQ (min 1 1 * F64.rndQ n)⌉.toNat U64MAX) = n
  rw [min_self, one_mul, F64.rndQ_idem, F64.rndQ_nat hn]
  have : ⌈(n : ℚ)⌉ = n := by simp
  rw [this, Int.toNat_natCast]
  have hU : U64MAX = 18446744073709551615 := rfl
  norm_num at hn
  omega

theorem exactRank_one {n : Nat} (h0 : 0 < n) : exactRank n 1 = n := by
  unfold exactRank
  simp; omega

/-- rounding loses at most one rank, never gains -/
theorem specRank_exact {n : Nat} (hn : n ≤ 2 ^ 53) {x : ℚ} (h0 : 0 ≤ x) (h1 : x ≤ 1) :
    exactRank n x - 1 ≤ specRank n (.fin x) ∧ specRank n (.fin x) ≤ exactRank n x := by
  have hU : U64MAX = 18446744073709551615 := rfl
  show _ ≤ max 1 (min ⌈F64.rndQ (min x 1 * F64.rndQ n)⌉.toNat U64MAX) ∧ max 1 (min ⌈F64.rndQ (min x 1 * F64.rndQ n)⌉.toNat U64MAX) ≤ _
  rw [min_eq_left h1, F64.rndQ_nat hn]
  unfold exactRank
  have hy0 : 0 ≤ x * (n : ℚ) := mul_nonneg h0 (by positivity)
  have hyn : x * (n : ℚ) ≤ n := by
    have := mul_le_mul_of_nonneg_right h1 (show (0 : ℚ) ≤ n by positivity)
    linarith
  generalize x * (n : ℚ) = y at *
  have hc0 : 0 ≤ ⌈y⌉ := Int.ceil_nonneg hy0
  have hcn : ⌈y⌉ ≤ n := Int.ceil_le.mpr (by exact_mod_cast hyn)
  have hn' : (n : ℤ) ≤ 2 ^ 53 := by exact_mod_cast hn
  have hup : F64.rndQ y ≤ ⌈y⌉ := by
    have h2 := F64.rndQ_mono (Int.le_ceil y)
    rwa [F64.rndQ_int (by rw [abs_of_nonneg hc0]; omega)] at h2
  have hlo : ((⌈y⌉ - 1 : ℤ) : ℚ) ≤ F64.rndQ y := by
    have h2 : ((⌈y⌉ - 1 : ℤ) : ℚ) ≤ y := by
      have := Int.ceil_lt_add_one y
      push_cast; linarith
    have h3 := F64.rndQ_mono h2
    rwa [F64.rndQ_int (by rw [abs_le]; constructor <;> omega)] at h3
  have h4 : ⌈F64.rndQ y⌉ ≤ ⌈y⌉ := Int.ceil_le.mpr hup
  have h5 : ⌈y⌉ - 1 ≤ ⌈F64.rndQ y⌉ := by
    have := Int.ceil_le_ceil hlo
    rwa [Int.ceil_intCast] at this
  norm_num at hn'
  omega

/-! ### quantile_below -/

theorem sumChecked_eq (l : List Nat) : ∀ t, t + l.sum ≤ U64MAX → Hist.sumChecked l t = .ok (t + l.sum) := by
  induction l with
  | nil => intro t _; rfl
  | cons c l ih =>
    intro t ht
    rw [List.sum_cons] at ht
    have : Hist.sumChecked (c :: l) t = (addU64 t c >>= fun t => Hist.sumChecked l t) := rfl
    rw [this, show addU64 t c = .ok (t + c) from if_pos (by omega), M.ok_bind, ih _ (by omega), List.sum_cons, Nat.add_assoc]

theorem foldl_satAdd (l : List Nat) : ∀ t, t ≤ U64MAX → l.foldl satAdd t = min (t + l.sum) U64MAX := by
  induction l with
  | nil => intro t ht; simp; omega
  | cons c l ih =>
    intro t ht
    rw [List.foldl_cons, ih _ (by unfold satAdd; omega), List.sum_cons]
    unfold satAdd; omega

theorem WF.quantileBelowSum_eq {h : Hist T} (W : WF fp h) {l : List Nat} (hl : l.sum ≤ h.counts.sum) :
    h.quantileBelowSum l = .ok (min l.sum U64MAX) := by
  have h1 := W.totsum
  have h2 := W.tot
  unfold Hist.quantileBelowSum
  split
  · have := sumChecked_eq l 0 (by omega)
    rw [this]
    congr 1
    omega
  · rw [foldl_satAdd _ _ (by decide), Nat.zero_add]

/-- the number of samples counted, for a value whose slot (or the last one) is `i` -/
def Hist.belowCount (h : Hist T) (i : Nat) : Nat :=
  if i < h.counts.length / 2 then Min.min (h.counts.take (i + 1)).sum U64MAX
  else h.totalCount - Min.min (h.counts.drop (i + 1)).sum U64MAX

/-- slot of `v`, or the last one -/
def Hist.slotOf (h : Hist T) (v : Nat) : Nat := Min.min (h.lidx v) (h.counts.length - 1)

theorem take_drop_sum (l : List Nat) (i : Nat) : (l.take i).sum + (l.drop i).sum = l.sum := by
  rw [← List.sum_append, List.take_append_drop]

theorem take_sum_mono (l : List Nat) {i j : Nat} (hij : i ≤ j) : (l.take i).sum ≤ (l.take j).sum := by
  have h1 : l.take i = (l.take j).take i := by rw [List.take_take, Nat.min_eq_left hij]
  rw [h1]
  have := take_drop_sum (l.take j) i
  omega

theorem WF.belowCount_le {h : Hist T} (W : WF fp h) (i : Nat) : h.belowCount i ≤ h.totalCount := by
  unfold Hist.belowCount
  have h1 := W.totsum
  have h2 := take_drop_sum h.counts (i + 1)
  split <;> omega

theorem WF.quantileBelow_eq {h : Hist T} (W : WF fp h) (h0 : h.totalCount ≠ 0) {v : Nat} (hv : v ≤ U64MAX) :
    h.quantileBelow v = .ok (.fin (F64.rndQ (F64.rndQ (h.belowCount (h.slotOf v)) / F64.rndQ h.totalCount))) := by
  have hp := W.len_pos
  have hs := W.len_le_all
  have hlt : h.slotOf v < h.counts.length := by unfold Hist.slotOf; omega
  have hU : U64MAX = 18446744073709551615 := rfl
  have hsmall : h.counts.length < 2 ^ 24 := lt_of_le_of_lt hs (Lay.allSlots_lt W.mag17)
  norm_num at hsmall
  have hts := take_drop_sum h.counts (h.slotOf v + 1)
  have htot := W.tot
  have hdiv : ∀ t, t ≤ h.totalCount → F64.div (F64.ofNat t) (F64.ofNat h.totalCount) =
      .fin (F64.rndQ (F64.rndQ t / F64.rndQ h.totalCount)) := by
    intro t ht
    rw [F64.ofNat_fin (le_trans ht htot), F64.ofNat_fin htot]
    have h1 : 1 ≤ F64.rndQ h.totalCount := F64.one_le_rndQ (by exact_mod_cast Nat.one_le_iff_ne_zero.mpr h0)
    have h2 : F64.rndQ t ≤ F64.rndQ h.totalCount := F64.rndQ_mono (by exact_mod_cast ht)
    have h3 : 0 ≤ F64.rndQ t := F64.rndQ_nonneg (by positivity)
    show (if F64.rndQ h.totalCount = 0 then _ else F64.rnd _) = _
    rw [if_neg (by linarith)]
    apply F64.rnd_fin
    rw [abs_of_nonneg (div_nonneg h3 (by linarith))]
    have h4 : F64.rndQ t / F64.rndQ h.totalCount ≤ 1 := by
      rw [div_le_one (by linarith)]; exact h2
    refine h4.trans ?_
    have := one_le_zpow₀ (show (1 : ℚ) ≤ 2 by norm_num) (show (0 : ℤ) ≤ 1023 by norm_num)
    exact this
  unfold Hist.quantileBelow
  rw [if_neg h0, indexForOrLast_eq W.toLayoutOK hv W.counts_ne, M.ok_bind]
  have hslot : min (h.lidx v) (h.counts.length - 1) = h.slotOf v := rfl
  rw [hslot, if_pos (by omega), expectM_some, M.ok_bind, if_neg (by omega)]
  have hb := W.belowCount_le (h.slotOf v)
  unfold Hist.belowCount at hb ⊢
  have htt := W.totsum
  split
  · rename_i hlow
    rw [if_pos hlow] at hb
    rw [W.quantileBelowSum_eq (by omega), M.ok_bind, M.pure_eq, hdiv _ hb]
  · rename_i hlow
    rw [if_neg hlow] at hb
    rw [W.quantileBelowSum_eq (by omega), M.ok_bind, show subU h.totalCount (min (h.counts.drop (h.slotOf v + 1)).sum U64MAX) =
      .ok (h.totalCount - min (h.counts.drop (h.slotOf v + 1)).sum U64MAX) from if_pos (by omega), M.ok_bind, M.pure_eq, hdiv _ hb]

theorem WF.countUpTo_eq {h : Hist T} (W : WF fp h) {cs : List Cls} (C : Classes h cs) (v : Nat) :
    countUpTo cs v = (h.counts.take (h.slotOf v + 1)).sum := by
  have hp := W.len_pos
  have hlt : h.slotOf v < h.counts.length := by unfold Hist.slotOf; omega
  unfold countUpTo
  rw [W.classes_unique C]
  have h1 := sum_range_getD (h.counts.take (h.slotOf v + 1))
  have h2 : (h.counts.take (h.slotOf v + 1)).length = h.slotOf v + 1 := by rw [List.length_take]; omega
  rw [h2] at h1
  rw [← h1, List.filter_map, List.map_map]
  have h3 : (List.range h.counts.length).filter ((fun c : Cls => decide (c.lo ≤ v)) ∘ h.lcls) = List.range (h.slotOf v + 1) := by
    apply List.Perm.eq_of_pairwise (le := (· < ·))
    · intro a b _ _ h1 h2; omega
    · exact (List.pairwise_lt_range).filter _
    · exact List.pairwise_lt_range
    · rw [List.perm_ext_iff_of_nodup (List.nodup_range.filter _) List.nodup_range]
      intro i
      rw [List.mem_filter, List.mem_range, List.mem_range]
      simp only [Function.comp, decide_eq_true_eq]
      have e1 : (h.lcls i).lo ≤ v ↔ i ≤ h.lidx v := Lay.val_le_iff
      rw [e1]
      unfold Hist.slotOf
      omega
  rw [h3]
  congr 1
  apply List.map_congr_left
  intro i hi
  rw [List.mem_range] at hi
  show h.counts.getD i 0 = _
  rw [List.getD_eq_getElem?_getD, List.getD_eq_getElem?_getD, List.getElem?_take_of_lt hi]

/-- with no saturation the two halves agree -/
theorem WF.belowCount_eq {h : Hist T} (W : WF fp h) (hl : h.totalCount = h.counts.sum) (i : Nat) :
    h.belowCount i = (h.counts.take (i + 1)).sum := by
  unfold Hist.belowCount
  have h1 := W.tot
  have h2 := take_drop_sum h.counts (i + 1)
  split <;> omega

theorem WF.belowCount_mono {h : Hist T} (W : WF fp h) (hl : h.counts.sum ≤ U64MAX) {i j : Nat} (hij : i ≤ j) :
    h.belowCount i ≤ h.belowCount j := by
  unfold Hist.belowCount
  have h1 := W.totsum
  have h2 := take_drop_sum h.counts (i + 1)
  have h3 := take_drop_sum h.counts (j + 1)
  have h4 := take_sum_mono h.counts (show i + 1 ≤ j + 1 by omega)
  split <;> split <;> omega

end Hdr
