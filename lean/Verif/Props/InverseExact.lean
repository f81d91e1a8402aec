import Verif.Props.Panics
import Verif.Props.QuantileExact

/-!
# C55: when `value_at_quantile` undoes `quantile_below`; C56 in every case
-/

namespace Hdr

variable {T : CounterTy} {fp : Fp}

/-- C55 (in every case, up to 2^53 samples): let `k` of the `n` samples be not above the class. The value at the quantile
below a value of the class is the end of the class exactly if `k / n`, rounded, times `n`, rounded, is at most `k`; and
otherwise the end of the next class that holds samples. -/
theorem C55_iff {h : Hist T} (R : Reachable fp T h) {cs : List Cls} (C : Classes h cs)
    (hl : h.len = (cs.map (·.count)).sum) (hn : h.len ≤ 2 ^ 53) {c : Cls} (hc : c ∈ cs) (hcc : c.count ≠ 0)
    {v : Nat} (hv : v ≤ U64MAX) (hev : Equiv h v c.lo) :
    ∃ q : F64, h.quantileBelow v = .ok q ∧
      (h.valueAtQuantile q = .ok c.hi ↔
        F64.rndQ (F64.rndQ (countUpTo cs c.lo / h.len) * h.len) ≤ countUpTo cs c.lo) ∧
      (¬ F64.rndQ (F64.rndQ (countUpTo cs c.lo / h.len) * h.len) ≤ countUpTo cs c.lo →
        ∃ d, NextNonempty cs c d ∧ h.valueAtQuantile q = .ok d.hi) := by
  have W := R.wf
  have hU : U64MAX = 18446744073709551615 := rfl
  obtain ⟨pre, post, d, x, e, rfl, hle, hq, hd, ed⟩ := back_aux R C hl hn hc hcc hv hev
  have hsort := W.classes_sorted C
  have hmid := countUpTo_mid e hsort
  refine ⟨_, hq, ?_⟩
  rw [hmid]
  generalize hk : (pre.map (·.count)).sum + c.count = k at *
  have hx1 : F64.rndQ ((k : ℕ) / (h.len : ℚ)) ≤ 1 := by
    have hn0 : (0 : ℚ) < h.len := by exact_mod_cast (by omega)
    have h1 : ((k : ℕ) : ℚ) / (h.len : ℚ) ≤ 1 := by rw [div_le_one hn0]; exact_mod_cast hle
    have h2 := F64.rndQ_mono h1
    have h3 : F64.rndQ 1 = 1 := by have := F64.rndQ_nat (n := 1) (by norm_num); exact_mod_cast this
    rw [h3] at h2
    exact h2
  have hs : specRank h.len (.fin (F64.rndQ ((k : ℕ) / (h.len : ℚ)))) =
      max 1 (min ⌈F64.rndQ (F64.rndQ ((k : ℕ) / (h.len : ℚ)) * h.len)⌉.toNat U64MAX) := by
    show max 1 (min ⌈F64.rndQ (min _ 1 * F64.rndQ h.len)⌉.toNat U64MAX) = _
    rw [min_eq_left hx1, F64.rndQ_nat hn]
  generalize F64.rndQ (F64.rndQ ((k : ℕ) / (h.len : ℚ)) * h.len) = y at *
  have hcase : specRank h.len (.fin (F64.rndQ ((k : ℕ) / (h.len : ℚ)))) = k ∧ y ≤ k ∨
      specRank h.len (.fin (F64.rndQ ((k : ℕ) / (h.len : ℚ)))) = k + 1 ∧ ¬ y ≤ k := by
    norm_num at hn
    rcases specRank_back (c := k) (n := h.len) (by omega) hle (by norm_num; exact hn) with hr | hr
    · left
      refine ⟨hr, ?_⟩
      rw [hs] at hr
      have h1 : ⌈y⌉ ≤ (k : ℤ) := by omega
      have := Int.ceil_le.mp h1
      exact_mod_cast this
    · right
      refine ⟨hr, fun hy => ?_⟩
      rw [hs] at hr
      have h1 : ⌈y⌉ ≤ (k : ℤ) := Int.ceil_le.mpr (by exact_mod_cast hy)
      omega
  have hne : ∀ d ∈ cs, d.lo ≠ c.lo → d.hi ≠ c.hi := by
    intro d hdm hlo hhi
    obtain ⟨i, hi, rfl⟩ := (W.mem_classes C).mp hc
    obtain ⟨j, hj, rfl⟩ := (W.mem_classes C).mp hdm
    have h1 : h.lidx (h.lcls i).hi = i := (lidx_lhi (W.lval_le' hi)).trans Lay.idx_val
    have h2 : h.lidx (h.lcls j).hi = j := (lidx_lhi (W.lval_le' hj)).trans Lay.idx_val
    rw [hhi, h1] at h2
    exact hlo (by rw [h2])
  rcases hcase with ⟨hr, hy⟩ | ⟨hr, hy⟩
  · rw [hr] at hd
    have hat : AtRank cs k c := ⟨pre, post, e, by omega, by omega⟩
    rw [ed, hd.unique hat]
    exact ⟨⟨fun _ => hy, fun _ => rfl⟩, fun h => absurd hy h⟩
  · rw [hr, ← hk] at hd
    have hnx := hd.next e
    refine ⟨⟨fun h => absurd ?_ (hne d hd.mem ?_), fun h => absurd h hy⟩, fun _ => ⟨d, hnx, ed⟩⟩
    · rw [ed] at h; exact Except.ok.inj h
    · obtain ⟨a, m, b, e2, -, -⟩ := hnx
      rw [e2] at hsort
      have := (List.pairwise_append.mp hsort).2.2 c (by simp) d (by simp)
      omega

/-- 55 of 100 samples: 0.55, rounded, times 100, rounded, is above 55; 45 of 100: it is 45 -/
example : ¬ F64.rndQ (F64.rndQ (55 / 100) * 100) ≤ 55 ∧ F64.rndQ (F64.rndQ (45 / 100) * 100) ≤ 45 ∧
    countUpTo demo100Classes 4 = 55 ∧ demo100.len = 100 :=
  ⟨by decide +kernel, by decide +kernel, by decide, by decide⟩

/-- C56 (in every case): `percentile_below(v)` is, in double precision, 100 times the quotient of a number of samples by
`len()`. The number is, if at most half of the classes are not above `v`, the sum of their counts, and otherwise `len()`
less the sum of the other counts, both sums cut off at `u64::MAX`. Without samples it is 100. -/
theorem C56_below_all {h : Hist T} (R : Reachable fp T h) {cs : List Cls} (C : Classes h cs) {v : Nat}
    (hv : v ≤ U64MAX) :
    (h.len = 0 → h.percentileBelow v = .ok (.fin 100)) ∧
    (h.len ≠ 0 → h.percentileBelow v = .ok (.fin (F64.rndQ (100 * F64.rndQ (F64.rndQ
      (if classesUpTo cs v ≤ cs.length / 2 then Min.min (countUpTo cs v) U64MAX
        else h.len - Min.min ((cs.map (·.count)).sum - countUpTo cs v) U64MAX : ℕ) / F64.rndQ h.len))))) := by
  obtain ⟨x, y, e1, e2, hy, -, -⟩ := C56_below R hv
  constructor
  · intro h0
    have h1 : h.quantileBelow v = .ok (.fin 1) := by
      unfold Hist.quantileBelow
      rw [if_pos (show h.totalCount = 0 from h0)]; rfl
    rw [h1] at e1
    cases e1
    have h100 : F64.rndQ 100 = 100 := by have := F64.rndQ_nat (n := 100) (by norm_num); exact_mod_cast this
    rw [e2, hy, one_mul, h100]
  · intro h0
    rw [C27_value_all R C h0 hv] at e1
    cases e1
    rw [e2, hy, mul_comm]

/-- C56 (in every case): with `q = p / 100` in double precision, `value_at_percentile(p)` panics exactly if the counts up
to the rank of `q` exceed `u64::MAX`; otherwise it is the end of the class at that rank (its start if `q` is 0), or 0 if
the counts, some of them saturated, do not reach the rank. -/
theorem C56_outcome {h : Hist T} (R : Reachable fp T h) {cs : List Cls} (C : Classes h cs) (p : F64) {q : F64}
    (hq : q = match p with
      | .fin x => F64.rnd (x / 100)
      | p => p) :
    (RankOverflows cs (specRank h.len q) ∧ h.valueAtPercentile p = .error .overflow) ∨
    (¬ RankOverflows cs (specRank h.len q) ∧ ∃ c, AtRank cs (specRank h.len q) c ∧
      h.valueAtPercentile p = .ok (if q = .fin 0 then c.lo else c.hi)) ∨
    (¬ RankOverflows cs (specRank h.len q) ∧ (cs.map (·.count)).sum < specRank h.len q ∧
      h.valueAtPercentile p = .ok 0) := by
  have hd : F64.div p (.fin 100) = q := by
    rw [hq]
    cases p with
    | fin x => simp only [F64.div]; rw [if_neg (by norm_num)]
    | nan => rfl
    | pinf => simp only [F64.div]; rw [if_pos (by norm_num)]
    | ninf => simp only [F64.div]; rw [if_pos (by norm_num)]
  unfold Hist.valueAtPercentile
  rw [hd]
  exact C25_outcome R C q

/-- the three outcomes -/
example : demo3.valueAtPercentile (.fin 50) = .ok 15 ∧ specRank demo3.len (F64.rnd (50 / 100)) = 102 ∧
    demoSat.valueAtPercentile (.fin 100) = .ok 0 ∧ (demoSat.contents.map (·.count)).sum < specRank demoSat.len (F64.rnd (100 / 100)) ∧
    ∃ h, recordSeq [(5, 1), (100, U64MAX)] demoU = .ok (h, .ok ()) ∧ h.valueAtPercentile (.fin 100) = .error .overflow :=
  ⟨by decide +kernel, by decide +kernel, C56_refuted.2.1.2, by decide +kernel, C56_refuted.2.2.2⟩

end Hdr
