import Verif.Spec.ItemQueries
import Verif.Props.SampleIter
import Verif.Props.QuantileExact

/-!
# C108: the items of the iterators and the queries of the histogram agree
-/

namespace Hdr

variable {T : CounterTy} {fp : Fp} {lg : F64 → Nat}

theorem SampleItem.queries {h : Hist T} (R : Reachable fp T h) {l : List (Nat × Nat)} (H : Contains h l) (h0 : 0 < numberAll l)
    {total : Nat} {it : IterValue} (S : SampleItem h l total it) (hv : it.valueIteratedTo ≤ U64MAX)
    (hc : h.countAt it.valueIteratedTo = .ok it.countAtValue) : ItemQueries h total it := by
  have W := R.wf
  have C := W.contents
  have hlen : h.len = numberAll l := H.len
  have htot : h.len ≤ U64MAX := W.tot
  have hup := H.upTo W C hv
  have hle : countUpTo h.contents it.valueIteratedTo ≤ numberAll l := by rw [hup]; exact number_le_all _ _
  refine ⟨?_, ?_, hc⟩
  · rw [C27_value_all R C (by omega) hv, W.sum_classes C, H.sum W, S.quantile, S.upTo, ← hup]
    have e : (if classesUpTo h.contents it.valueIteratedTo ≤ h.contents.length / 2 then
        Min.min (countUpTo h.contents it.valueIteratedTo) U64MAX
        else h.len - Min.min (numberAll l - countUpTo h.contents it.valueIteratedTo) U64MAX) =
        countUpTo h.contents it.valueIteratedTo := by
      split <;> omega
    rw [e, hlen, F64.ofNat_fin (by omega), F64.ofNat_fin (by omega)]
    have h1 : (1 : ℚ) ≤ F64.rndQ (numberAll l) := F64.one_le_rndQ (by exact_mod_cast h0)
    have h2 : (0 : ℚ) ≤ F64.rndQ (countUpTo h.contents it.valueIteratedTo : ℕ) := F64.rndQ_nonneg (by positivity)
    have h3 : F64.rndQ (countUpTo h.contents it.valueIteratedTo : ℕ) ≤ F64.rndQ (numberAll l) :=
      F64.rndQ_mono (by exact_mod_cast hle)
    generalize F64.rndQ (countUpTo h.contents it.valueIteratedTo : ℕ) = a at *
    generalize F64.rndQ (numberAll l : ℚ) = b at *
    symm
    congr 1
    show (if b = 0 then _ else F64.rnd _) = _
    rw [if_neg (by linarith)]
    apply F64.rnd_fin
    rw [abs_of_nonneg (div_nonneg h2 (by linarith))]
    have h4 : a / b ≤ 1 := by rw [div_le_one (by linarith)]; exact h3
    exact h4.trans (one_le_zpow₀ (show (1 : ℚ) ≤ 2 by norm_num) (show (0 : ℤ) ≤ 1023 by norm_num))
  · have hcov : h.Covers 0 := by
      rw [W.covers_iff]
      have h1 : h.lidx 0 ≤ h.lidx (h.lval 0) := Lay.idx_mono (Nat.zero_le _)
      have h2 : h.lidx (h.lval 0) = 0 := Lay.idx_val
      have := W.len_pos
      omega
    rw [C73_count_between R H hcov (Nat.zero_le _) hv, S.upTo]
    congr 1
    refine number_congr fun p hp => ?_
    have hple := H.le W hp
    rw [W.equiv_iff hple hv, W.equiv_iff hple (Nat.zero_le _)]
    have h1 : h.lidx 0 ≤ h.lidx it.valueIteratedTo := Lay.idx_mono (Nat.zero_le _)
    constructor
    · rintro (h2 | h2 | h2)
      · exact Or.inl h2.2
      · by_cases h3 : p.1 ≤ it.valueIteratedTo
        · exact Or.inl h3
        · have : h.lidx it.valueIteratedTo ≤ h.lidx p.1 := Lay.idx_mono (by omega)
          exact Or.inr (by omega)
      · exact Or.inr h2
    · rintro (h2 | h2)
      · exact Or.inl ⟨Nat.zero_le _, h2⟩
      · exact Or.inr (Or.inr h2)

/-- the item shows a covered value -/
theorem SampleItem.covered {h : Hist T} (R : Reachable fp T h) {l : List (Nat × Nat)} (H : Contains h l) (h0 : 0 < numberAll l)
    {total : Nat} {it : IterValue} (S : SampleItem h l total it) {c : Cls} (hc : c ∈ h.contents)
    (hv : it.valueIteratedTo = c.hi) : ItemQueries h total it := by
  have W := R.wf
  obtain ⟨-, h2, -, h4, -⟩ := H.cls W W.contents hc
  rw [← hv] at h2 h4
  refine S.queries R H h0 h2 ?_
  rw [H.count _ h4, S.here h4]

/-- C108: the items of `iter_recorded`. -/
theorem C108_recorded {h : Hist T} (R : Reachable fp T h) {l : List (Nat × Nat)} (H : Contains h l) (h0 : 0 < numberAll l) :
    ∃ items, (∀ fuel, h.distinctValues < fuel → h.iterRecorded fuel = .ok items) ∧ QueriesAgree h items := by
  have W := R.wf
  have C := W.contents
  obtain ⟨items, h1, hF, -⟩ := C29_iter_recorded R C
  refine ⟨items, h1, fun k it hk => ?_⟩
  obtain ⟨c, hc, h4, h5, h6⟩ := H.byClass W C (p := fun c => decide (c.count ≠ 0)) (fun c _ h => by simpa using h) hF hk
  exact h6.covered R H h0 (List.mem_filter.mp hc).1 h4

/-- C108: the items of `iter_all`. -/
theorem C108_all {h : Hist T} (R : Reachable fp T h) {l : List (Nat × Nat)} (H : Contains h l) (h0 : 0 < numberAll l) :
    ∃ items, (∀ fuel, h.distinctValues < fuel → h.iterAll fuel = .ok items) ∧ QueriesAgree h items := by
  have W := R.wf
  have C := W.contents
  obtain ⟨items, h1, hF, -⟩ := C30_iter_all R C
  refine ⟨items, h1, fun k it hk => ?_⟩
  obtain ⟨c, hc, h4, h5, h6⟩ := H.byClass W C (p := fun _ => true) (fun c _ h => by simp at h) (by simpa using hF) hk
  exact h6.covered R H h0 (List.mem_filter.mp hc).1 h4

/-- C108: the items of `iter_quantiles`. -/
theorem C108_quantiles {h : Hist T} (R : Reachable fp T h) {l : List (Nat × Nat)} (H : Contains h l) (h0 : 0 < numberAll l)
    (L : Log2Law lg) {t : Nat} (ht : 0 < t) (ht32 : t < 2 ^ 32) {fuel : Nat} {items : List IterValue}
    (hi : Hist.iterQuantiles lg h t fuel = .ok items) : QueriesAgree h items := by
  intro k it hk
  obtain ⟨c, hc, q, h3, -⟩ := quantile_samples R H h0 L ht ht32 hi hk
  exact (C84_quantiles R H h0 L ht ht32 hi hk).1.covered R H h0 hc h3.value

/-- C108: the items of `iter_linear`, whenever it does not panic. -/
theorem C108_linear {h : Hist T} (R : Reachable fp T h) {l : List (Nat × Nat)} (H : Contains h l) (h0 : 0 < numberAll l)
    {step fuel : Nat} (hs : 0 < step) (hs64 : step ≤ U64MAX) {items : List IterValue}
    (hi : h.iterLinear step fuel = .ok items) : QueriesAgree h items := by
  have W := R.wf
  have C := W.contents
  have hS := (C84_linear R H hs hs64 hi).1
  obtain ⟨n, hn, -⟩ := C31_steps R hs
  have more : ∀ items' : M (List IterValue), h.iterLinear step (n + 1 + fuel) = items' → items' = .ok items := by
    intro items' e
    unfold Hist.iterLinear at hi e
    cases hst : h.linearNew step with
    | error e' => rw [hst] at hi; cases hi
    | ok s =>
      rw [hst, M.ok_bind] at hi e
      rw [← e]
      exact iterCollect_more _ _ hi (n + 1 + fuel) (by omega)
  have hok : ¬ (U64MAX + 1 < (n + 1) * step ∨
      (h.sigfig = 0 ∧ h.Covers U64MAX ∧ ∃ l, h.lowestEquivalent U64MAX = .ok l ∧ l < n * step)) := fun hbad =>
    nomatch more _ (C31_panic R hs hs64 hn hbad (fuel := n + 1 + fuel) (by omega))
  rw [not_or] at hok
  obtain ⟨items', h1, h2, h3, -⟩ := C31_linear_partial R C hs hn (by omega) (fun hsig hcov l hl => by
    by_contra hlt
    exact hok.2 ⟨hsig, hcov, l, hl, by omega⟩)
  have e := more _ (h1 (n + 1 + fuel) (by omega))
  cases e
  intro k it hk
  have hlt : k < items.length := (List.getElem?_eq_some_iff.mp hk).1
  have hmul : (k + 1) * step ≤ (n + 1) * step := Nat.mul_le_mul_right _ (by omega)
  obtain ⟨h5, h6⟩ := hS k it hk
  refine h6.queries R H h0 (by rw [h5]; omega) ?_
  rw [h5]
  exact (h3 k it hk).count

/-- C108: the items of `iter_log`. -/
theorem C108_log {h : Hist T} (R : Reachable fp T h) {l : List (Nat × Nat)} (H : Contains h l) (h0 : 0 < numberAll l)
    {start : Nat} {b : F64} (hs : 0 < start) (hm : start ≤ U64MAX) (hv : b.Valid) (hb : F64.lt (.fin 1) b = true) :
    ∃ n items, (∀ fuel, n < fuel → h.iterLog start b fuel = .ok items) ∧ QueriesAgree h items := by
  have W := R.wf
  have C := W.contents
  obtain ⟨n, items, -, h2, -, h4, -⟩ := C32_log R C hs hm hv hb
  obtain ⟨n', items', -, g2, -, g4, -⟩ := C84_log R H hs hm hv hb
  have e := (h2 (n + n' + 1) (by omega)).symm.trans (g2 (n + n' + 1) (by omega))
  cases e
  refine ⟨n, items, h2, fun k it hk => ?_⟩
  obtain ⟨h5, h6⟩ := g4 k it hk
  refine h6.queries R H h0 ?_ ?_
  · rw [h5]
    have := logLevel_le hm (b := b) k
    omega
  · rw [h5]
    exact (h4 k it hk).count

/-- The condition that there are samples is needed: without any, the items of `iter_all` have the quantile NaN, but
`quantile_below` is 1. -/
theorem C108_empty : Reachable Fp.ideal .u8 demo ∧ demo.len = 0 ∧ ∃ items it, demo.iterAll 10 = .ok items ∧ items[0]? = some it ∧
    it.quantile = .nan ∧ demo.quantileBelow it.valueIteratedTo = .ok (.fin 1) := by
  have h : (match demo.iterAll 10 with
    | .ok items => (match items[0]? with
      | some it => decide (it.quantile = .nan ∧ demo.quantileBelow it.valueIteratedTo = .ok (.fin 1))
      | none => false)
    | _ => false) = true := by decide +kernel
  split at h
  · rename_i items e
    split at h
    · rename_i it e2
      exact ⟨demo_reachable, by decide, items, it, e, e2, of_decide_eq_true h⟩
    · cases h
  · cases h

/-- what the three queries say about the values of the items, and what the items say -/
def itemsAndQueries (h : Hist T) (m : M (List IterValue)) : Option (List ((Nat × Nat × F64) × M (Nat × Nat × F64))) :=
  match m with
  | .ok items => some ((items.zipIdx).map fun (it, k) => ((it.countAtValue, runningTotal items k, it.quantile),
      do pure (← h.countAt it.valueIteratedTo, ← h.countBetween 0 it.valueIteratedTo, ← h.quantileBelow it.valueIteratedTo)))
  | .error _ => none

/-- `demo3` meets the hypotheses; with steps of 8, its items are for 7 and 15 -/
example : Reachable Fp.ideal .u8 demo3 ∧ Contains demo3 [(5, 3), (9, 200), (0, 1)] ∧
    itemsAndQueries demo3 (demo3.iterLinear 8 100) =
      some [((3, 4, .fin (F64.rndQ (4 / 204))), .ok (3, 4, .fin (F64.rndQ (4 / 204)))), ((200, 204, .fin 1), .ok (200, 204, .fin 1))] :=
  ⟨demo3_reachable, demo3_holds, by decide +kernel⟩

end Hdr
