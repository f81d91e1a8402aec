import Verif.Proofs.Restat

/-!
# Subtraction
-/

namespace Hdr

variable {T : CounterTy} {fp fp' : Fp}

/-- the number of samples in the slots `is` of `s` whose lowest value falls into slot `j` of `h` -/
def moved (h s : Hist T) (is : List Nat) (j : Nat) : Nat :=
  (is.map fun i => if h.lidx (s.lval i) = j then s.counts.getD i 0 else 0).sum

theorem moved_cons (h s : Hist T) (i : Nat) (is : List Nat) (j : Nat) :
    moved h s (i :: is) j =
      (if h.lidx (s.lval i) = j then s.counts.getD i 0 else 0) + moved h s is j := by
  simp [moved]

theorem moved_nil (h s : Hist T) (j : Nat) : moved h s [] j = 0 := rfl

theorem subtractLoop_spec {s : Hist T} (Ws : WF fp' s) (a b : Nat) (is : List Nat) :
    ∀ (h : Hist T) (rs : Bool), LayoutOK h → (∀ i ∈ is, i < s.counts.length) →
      (∀ i ∈ is, s.counts.getD i 0 ≠ 0 → h.lidx (s.lval i) < h.counts.length) →
      (rs = false → h.counts.sum ≤ h.totalCount) →
    ∃ cs t r, Hist.subtractLoop s a b is h rs = .ok ({ h with counts := cs, totalCount := t }, r)
      ∧ cs.length = h.counts.length ∧ t ≤ h.totalCount ∧ (∀ j, cs.getD j 0 ≤ h.counts.getD j 0)
      ∧ cs.sum ≤ h.counts.sum
      ∧ (h.counts.sum ≤ h.totalCount → cs.sum ≤ t) ∧ (rs = true → t = h.totalCount)
      ∧ (match r with
        | .ok rs' => (∀ j, cs.getD j 0 + moved h s is j = h.counts.getD j 0)
            ∧ (rs = true → rs' = true)
            ∧ (rs' = false → t + h.counts.sum = h.totalCount + cs.sum
                ∧ ∀ i ∈ is, s.counts.getD i 0 ≠ 0 → a < s.lval i ∧ s.lval i < b)
        | .error e => e = .SubtrahendCountExceedsMinuendCount
            ∧ ∃ j, h.counts.getD j 0 < moved h s is j) := by
  induction is with
  | nil =>
    intro h rs _ _ _ _
    refine ⟨h.counts, h.totalCount, .ok rs, rfl, rfl, le_rfl, fun _ => le_rfl, le_rfl, id, fun _ => rfl, ?_⟩
    exact ⟨fun j => by simp [moved_nil], id, fun _ => ⟨rfl, by simp⟩⟩
  | cons i is ih =>
    intro h rs L hlen hcov htot
    have hi : i < s.counts.length := hlen i (by simp)
    have hlen' : ∀ k ∈ is, k < s.counts.length := fun k hk => hlen k (by simp [hk])
    unfold Hist.subtractLoop
    rw [WF.countAtIndex hi, expectM_some, M.ok_bind]
    by_cases hc : s.counts.getD i 0 = 0
    · rw [if_neg (by rw [hc]; simp)]
      obtain ⟨cs, t, r, h1, h2, h3, h4, h4s, h5, h6, h7⟩ := ih h rs L hlen'
        (fun k hk => hcov k (by simp [hk])) htot
      refine ⟨cs, t, r, h1, h2, h3, h4, h4s, h5, h6, ?_⟩
      have hm : ∀ j, moved h s (i :: is) j = moved h s is j := by
        intro j; rw [moved_cons, hc]; simp
      cases r with
      | ok rs' =>
        refine ⟨fun j => by rw [hm]; exact h7.1 j, h7.2.1, fun hr => ⟨(h7.2.2 hr).1, ?_⟩⟩
        intro k hk hne
        rcases List.mem_cons.mp hk with rfl | hk
        · exact absurd hc hne
        · exact (h7.2.2 hr).2 k hk hne
      | error e =>
        obtain ⟨he, j, hj⟩ := h7
        exact ⟨he, j, by rw [hm]; exact hj⟩
    · have hcovi := hcov i (by simp) hc
      have hv := Ws.lval_le hi
      rw [if_pos hc, Ws.valueFor hi, M.ok_bind, mutAt_eq L hv, M.ok_bind, if_pos hcovi]
      simp only
      unfold checkedSub
      by_cases hle : s.counts.getD i 0 ≤ h.counts.getD (h.lidx (s.lval i)) 0
      · rw [if_pos hle]
        simp only
        set j0 := h.lidx (s.lval i) with hj0
        set oc := s.counts.getD i 0 with hoc
        have hsum := sum_set h.counts j0 (h.counts.getD j0 0 - oc) hcovi
        have hsum' : (h.counts.set j0 (h.counts.getD j0 0 - oc)).sum + oc = h.counts.sum := by omega
        have hgs := getD_le_sum h.counts j0
        have hget : ∀ j, (h.counts.set j0 (h.counts.getD j0 0 - oc)).getD j 0
            + (if j0 = j then oc else 0) = h.counts.getD j 0 := by
          intro j
          rw [getD_set]
          by_cases hj : j0 = j
          · subst hj; simp only [hcovi, and_self, if_true]; omega
          · simp [hj]
        -- a common continuation
        have step : ∀ (t1 : Nat) (rs1 : Bool), t1 ≤ h.totalCount →
            (rs = true → rs1 = true) →
            (rs = true → t1 = h.totalCount) →
            (rs1 = false → (h.counts.set j0 (h.counts.getD j0 0 - oc)).sum ≤ t1) →
            (h.counts.sum ≤ h.totalCount → (h.counts.set j0 (h.counts.getD j0 0 - oc)).sum ≤ t1) →
            (rs1 = false → t1 + oc = h.totalCount ∧ a < s.lval i ∧ s.lval i < b) →
            ∃ cs t r, Hist.subtractLoop s a b is
                { h with counts := h.counts.set j0 (h.counts.getD j0 0 - oc), totalCount := t1 } rs1
                = .ok ({ h with counts := cs, totalCount := t }, r)
              ∧ cs.length = h.counts.length ∧ t ≤ h.totalCount
              ∧ (∀ j, cs.getD j 0 ≤ h.counts.getD j 0)
              ∧ cs.sum ≤ h.counts.sum
              ∧ (h.counts.sum ≤ h.totalCount → cs.sum ≤ t) ∧ (rs = true → t = h.totalCount)
              ∧ (match r with
                | .ok rs' => (∀ j, cs.getD j 0 + moved h s (i :: is) j = h.counts.getD j 0)
                    ∧ (rs = true → rs' = true)
                    ∧ (rs' = false → t + h.counts.sum = h.totalCount + cs.sum
                      ∧ ∀ k ∈ i :: is, s.counts.getD k 0 ≠ 0 → a < s.lval k ∧ s.lval k < b)
                | .error e => e = .SubtrahendCountExceedsMinuendCount
                    ∧ ∃ j, h.counts.getD j 0 < moved h s (i :: is) j) := by
          intro t1 rs1 ht1 hrs1 hrt1 htot1 htot2 hnr
          let h1 : Hist T :=
            { h with counts := h.counts.set j0 (h.counts.getD j0 0 - oc), totalCount := t1 }
          have L1 : LayoutOK h1 := ⟨L.sbc, L.half, L.mag17, L.sum62, L.lzb, L.mask, L.ummask⟩
          obtain ⟨cs, t, r, g1, g2, g3, g4, g4s, g5, g6, g7⟩ := ih h1 rs1 L1 hlen'
            (fun k hk hne => by
              have := hcov k (by simp [hk]) hne
              show h.lidx (s.lval k) < (h.counts.set _ _).length
              rw [List.length_set]; exact this) htot1
          have hmv : ∀ j, moved h1 s is j = moved h s is j := fun j => rfl
          change cs.length = (h.counts.set _ _).length at g2
          rw [List.length_set] at g2
          refine ⟨cs, t, r, g1, g2, le_trans g3 ht1, ?_, ?_, ?_, ?_, ?_⟩
          · intro j
            have := g4 j
            have h2 := hget j
            change cs.getD j 0 ≤ (h.counts.set j0 (h.counts.getD j0 0 - oc)).getD j 0 at this
            omega
          · change cs.sum ≤ (h.counts.set j0 (h.counts.getD j0 0 - oc)).sum at g4s
            omega
          · intro hh; exact g5 (htot2 hh)
          · intro hr; rw [g6 (hrs1 hr)]; exact hrt1 hr
          · cases r with
            | ok rs' =>
              refine ⟨?_, fun hr => g7.2.1 (hrs1 hr), fun hr => ?_⟩
              · intro j
                have := g7.1 j
                have h2 := hget j
                rw [moved_cons, ← hj0, ← hoc]
                change cs.getD j 0 + moved h s is j
                  = (h.counts.set j0 (h.counts.getD j0 0 - oc)).getD j 0 at this
                omega
              · have hr1 : rs1 = false := by
                  cases hrr : rs1 with
                  | false => rfl
                  | true => have := g7.2.1 hrr; rw [this] at hr; exact absurd hr (by simp)
                obtain ⟨e1, e2⟩ := g7.2.2 hr
                obtain ⟨e3, e4⟩ := hnr hr1
                refine ⟨?_, ?_⟩
                · change t + (h.counts.set j0 (h.counts.getD j0 0 - oc)).sum = t1 + cs.sum at e1
                  omega
                · intro k hk hne
                  rcases List.mem_cons.mp hk with rfl | hk
                  · exact e4
                  · exact e2 k hk hne
            | error e =>
              obtain ⟨he, j, hj⟩ := g7
              refine ⟨he, j, ?_⟩
              have h2 := hget j
              change (h.counts.set j0 (h.counts.getD j0 0 - oc)).getD j 0 < moved h s is j at hj
              rw [moved_cons, ← hj0, ← hoc]
              omega
        by_cases hr : (rs || decide (s.lval i ≤ a) || decide (b ≤ s.lval i)) = true
        · rw [if_pos hr]
          have := step h.totalCount (rs || decide (s.lval i ≤ a) || decide (b ≤ s.lval i)) le_rfl (fun hh => by simp [hh]) (fun _ => rfl)
            (fun hh => by rw [hr] at hh; exact absurd hh (by simp)) (fun hh => by omega)
            (fun hh => by rw [hr] at hh; exact absurd hh (by simp))
          exact this
        · rw [if_neg hr]
          have hr' : (rs || decide (s.lval i ≤ a) || decide (b ≤ s.lval i)) = false := by
            simpa using hr
          have hrf : rs = false := by
            cases rs <;> simp_all
          have hab : a < s.lval i ∧ s.lval i < b := by
            subst hrf; simp at hr'; exact hr'
          have ht := htot hrf
          rw [if_pos (by omega), expectM_some, M.ok_bind]
          have := step (h.totalCount - oc) (rs || decide (s.lval i ≤ a) || decide (b ≤ s.lval i))
            (Nat.sub_le _ _) (fun hh => by simp [hh])
            (fun hh => by rw [hrf] at hh; exact absurd hh (by simp)) (fun _ => by omega)
            (fun _ => by omega) (fun _ => ⟨by omega, hab⟩)
          exact this
      · rw [if_neg hle]
        refine ⟨h.counts, h.totalCount, .error .SubtrahendCountExceedsMinuendCount, rfl, rfl, le_rfl,
          fun _ => le_rfl, le_rfl, id, fun _ => rfl, rfl, h.lidx (s.lval i), ?_⟩
        rw [moved_cons]
        simp only [if_true]
        omega

/-- every sample of `s` lies in the part of the value range that `h` covers -/
theorem cov_of_lmax {h s : Hist T} (Ws : WF fp' s)
    (hc : h.lidx s.lmax < h.counts.length) {i : Nat} (hne : s.counts.getD i 0 ≠ 0) :
    h.lidx (s.lval i) < h.counts.length := by
  have h1 := Ws.trackMax i hne
  have h2 : s.lval i ≤ s.maxValue := Lay.val_le_iff.mpr h1
  have h3 := Ws.maxValue_le_lmax
  exact lt_of_le_of_lt (Lay.idx_mono (by omega)) hc

/-- the highest value of the last slot -/
def Hist.ltop (h : Hist T) : Nat := h.lhi (h.lval (h.counts.length - 1))

theorem WF.lidx_ltop {h : Hist T} (W : WF fp h) : h.lidx h.ltop = h.counts.length - 1 := by
  have := W.len_pos
  unfold Hist.ltop
  rw [lidx_lhi (W.lval_le (by omega))]; exact Lay.idx_val

theorem WF.cov_of_le_ltop {h : Hist T} (W : WF fp h) {v : Nat} (hv : v ≤ h.ltop) :
    h.lidx v < h.counts.length := by
  have h1 : h.lidx v ≤ h.lidx h.ltop := Lay.idx_mono hv
  rw [W.lidx_ltop] at h1
  have := W.len_pos
  omega

theorem WF.top_eq {h : Hist T} (W : WF fp h) :
    (do let last ← h.lastIndex
        let lv ← h.valueFor last
        h.highestEquivalent lv) = .ok h.ltop := by
  have := W.len_pos
  rw [W.lastIndex, M.ok_bind, W.valueFor (by omega), M.ok_bind,
    highestEquivalent_eq W.toLayoutOK (W.lval_le (by omega))]
  rfl

/-- changing only counts (pointwise down) and the total keeps validity -/
theorem WF.lowered {h : Hist T} (W : WF fp h) {cs : List Nat} {t : Nat}
    (hl : cs.length = h.counts.length) (hle : ∀ j, cs.getD j 0 ≤ h.counts.getD j 0)
    (ht : t ≤ U64MAX) (hs : min cs.sum U64MAX ≤ t) :
    WF fp ({ h with counts := cs, totalCount := t } : Hist T) := by
  refine { (⟨W.sbc, W.half, W.mag17, W.sum62, W.lzb, W.mask, W.ummask⟩ :
      LayoutOK ({ h with counts := cs, totalCount := t } : Hist T)) with
    sig5 := W.sig5, mag := W.mag, low1 := W.low1, low63 := W.low63, highlow := W.highlow
    highmax := W.highmax, um := W.um, bc := W.bc, len := by rw [hl]; exact W.len, cmax := ?_
    tot := ht, totsum := hs, maxle := W.maxle, maxcov := by rw [hl]; exact W.maxcov
    minle := W.minle, minpos := W.minpos, trackMax := ?_, trackMin := ?_ }
  · intro c hc
    obtain ⟨i, hi, rfl⟩ := List.getElem_of_mem hc
    have h1 := hle i
    rw [List.getD_eq_getElem?_getD, List.getElem?_eq_getElem hi] at h1
    exact le_trans h1 (W.getD_le i)
  · intro i hi
    refine W.trackMax i ?_
    have := hle i
    simp only at hi
    omega
  · intro i h0 hi
    refine W.trackMin i h0 ?_
    have := hle i
    simp only at hi
    omega

/-- the counts of a histogram went down, its settings are unchanged -/
structure Lowered (h h' : Hist T) : Prop where
  same : h' = { h with counts := h'.counts, maxValue := h'.maxValue, minNonZero := h'.minNonZero
                       totalCount := h'.totalCount }
  len : h'.counts.length = h.counts.length
  le : ∀ j, h'.counts.getD j 0 ≤ h.counts.getD j 0
  max : h.lidx h'.maxValue ≤ h.lidx h.maxValue

theorem Lowered.refl (h : Hist T) : Lowered h h := ⟨rfl, rfl, fun _ => le_rfl, le_rfl⟩

theorem scanMax_le {h : Hist T} {m : Nat} (W : WFc fp h) (hm : ∀ i, h.counts.getD i 0 ≠ 0 → i ≤ m) :
    h.lidx h.scanMax ≤ m := by
  have hl := lastNz_spec h.counts 0
  unfold Hist.scanMax
  cases h1 : lastNz h.counts 0 with
  | none => simp only; rw [lidx_mask W.toLayoutOK]; omega
  | some i =>
    rw [h1] at hl
    obtain ⟨-, hi, hne, -⟩ := hl
    have e : h.lidx (h.lhi (h.lval i) ||| h.unitMagMask) = i := by
      rw [lidx_or_mask W.toLayoutOK, lidx_lhi (W.lval_le (by omega))]; exact Lay.idx_val
    simp only
    rw [e]
    exact hm i hne

/-- everything the property theorems need to know about `subtract` -/
theorem WF.subtract_full {h s : Hist T} (W : WF fp h) (Ws : WF fp' s) :
    ∃ h' r, h.subtract s = .ok (h', r) ∧ WF fp h' ∧ Lowered h h' ∧
      (match r with
      | .ok () =>
        (s.totalCount = 0 ∧ h' = h) ∨
        (s.totalCount ≠ 0 ∧ h.lhi s.lmax ≤ h.ltop ∧
          h'.counts.length = h.counts.length ∧
          (∀ j, h'.counts.getD j 0 + moved h s (List.range s.counts.length) j = h.counts.getD j 0) ∧
          h' = { h with counts := h'.counts, maxValue := h'.maxValue, minNonZero := h'.minNonZero
                        totalCount := h'.totalCount } ∧
          ((h'.totalCount = min h'.counts.sum U64MAX ∧
            h' = ({ h with counts := h'.counts } : Hist T).restated) ∨
           (h' = { h with counts := h'.counts, totalCount := h'.totalCount } ∧
            h'.totalCount + h.counts.sum = h.totalCount + h'.counts.sum ∧ h.totalCount ≠ U64MAX ∧
            ∀ i, s.counts.getD i 0 ≠ 0 →
              s.lval i < h.llo h.lmax ∧ ∀ mn, h.min = .ok mn → h.lhi mn < s.lval i)))
      | .error .SubtrahendValueExceedsMinuendRange =>
        s.totalCount ≠ 0 ∧ h.ltop < h.lhi s.lmax ∧ h' = h
      | .error .SubtrahendCountExceedsMinuendCount =>
        s.totalCount ≠ 0 ∧ h.lhi s.lmax ≤ h.ltop ∧
          ∃ j, h.counts.getD j 0 < moved h s (List.range s.counts.length) j) := by
  unfold Hist.subtract Hist.isEmpty
  by_cases h0 : s.totalCount = 0
  · rw [if_pos (by simpa using h0)]
    exact ⟨h, .ok (), rfl, W, Lowered.refl h, Or.inl ⟨h0, rfl⟩⟩
  have hpos := W.len_pos
  have L := W.toLayoutOK
  have hlm : s.lmax ≤ U64MAX := lmax_le
  rw [if_neg (by simpa using h0), W.lastIndex, M.ok_bind, W.valueFor (by omega), M.ok_bind,
    highestEquivalent_eq L (W.lval_le (by omega)), M.ok_bind, Ws.max_eq, M.ok_bind,
    highestEquivalent_eq L hlm, M.ok_bind]
  change ∃ h' r, (if h.ltop < h.lhi s.lmax then _ else _) = _ ∧ _
  by_cases hr : h.ltop < h.lhi s.lmax
  · rw [if_pos hr]
    exact ⟨h, .error .SubtrahendValueExceedsMinuendRange, rfl, W, Lowered.refl h, h0, hr, rfl⟩
  rw [if_neg hr]
  have hcovm : h.lidx s.lmax < h.counts.length := by
    have := W.cov_of_le_ltop (Nat.le_of_not_lt hr)
    rwa [lidx_lhi hlm] at this
  have hmin : ∃ mn, h.min = .ok mn ∧ mn ≤ U64MAX := by
    refine ⟨_, W.min_eq, ?_⟩
    split
    · decide
    · exact lminNz_le W.minle
  obtain ⟨mn, hmn, hmnle⟩ := hmin
  rw [hmn, M.ok_bind, highestEquivalent_eq L hmnle, M.ok_bind, W.max_eq, M.ok_bind,
    lowestEquivalent_eq L lmax_le, M.ok_bind]
  have hts := W.totsum
  have htt := W.tot
  obtain ⟨cs, t, r, g1, g2, g3, g4, g4s, g5, g6, g7⟩ := subtractLoop_spec Ws (h.lhi mn) (h.llo h.lmax)
    (List.range s.counts.length) h (h.totalCount == U64MAX) L
    (fun i hi => List.mem_range.mp hi)
    (fun i _ hne => cov_of_lmax Ws hcovm hne)
    (fun hf => by
      have : h.totalCount ≠ U64MAX := by simpa using hf
      omega)
  have hsumle : min cs.sum U64MAX ≤ t := by
    by_cases hm : h.totalCount = U64MAX
    · rw [g6 (by simpa using hm), hm]; exact Nat.min_le_right _ _
    · exact le_trans (Nat.min_le_left _ _) (g5 (by omega))
  have W' := W.lowered g2 g4 (le_trans g3 W.tot) hsumle
  unfold Hist.distinctValues
  rw [g1, M.ok_bind]
  cases r with
  | error e =>
    obtain ⟨rfl, hj⟩ := g7
    exact ⟨_, .error .SubtrahendCountExceedsMinuendCount, rfl, W', ⟨rfl, g2, g4, le_rfl⟩, h0, Nat.le_of_not_lt hr, hj⟩
  | ok rs' =>
    simp only
    cases rs' with
    | true =>
      rw [if_pos rfl, show Hist.restat _ cs.length = _ from restat_ok W'.toWFc, M.ok_bind]
      refine ⟨_, .ok (), rfl, W'.toWFc.restated,
        ⟨rfl, g2, g4, scanMax_le W'.toWFc (fun i hi => W.trackMax i fun hz => hi (by have := g4 i; dsimp only; omega))⟩, Or.inr ⟨h0, Nat.le_of_not_lt hr, g2, g7.1, rfl,
        Or.inl ⟨rfl, rfl⟩⟩⟩
    | false =>
      rw [if_neg (by simp)]
      obtain ⟨e1, e2⟩ := g7.2.2 rfl
      refine ⟨_, .ok (), rfl, W', ⟨rfl, g2, g4, le_rfl⟩, Or.inr ⟨h0, Nat.le_of_not_lt hr, g2, g7.1, rfl,
        Or.inr ⟨rfl, e1, ?_, ?_⟩⟩⟩
      · intro hm
        have := g7.2.1 (by simpa using hm)
        exact absurd this (by simp)
      · intro i hne
        by_cases hi : i < s.counts.length
        · have hb := e2 i (List.mem_range.mpr hi) hne
          refine ⟨hb.2, fun mn' hmn' => ?_⟩
          rw [← Except.ok.inj hmn']; exact hb.1
        · exact absurd (getD_ge (by omega)) hne

theorem WF.subtract_spec {h s : Hist T} (W : WF fp h) (Ws : WF fp' s) :
    ∃ h' r, h.subtract s = .ok (h', r) ∧ WF fp h' ∧
      (match r with
      | .ok () =>
        (s.totalCount = 0 ∧ h' = h) ∨
        (s.totalCount ≠ 0 ∧ h.lhi s.lmax ≤ h.ltop ∧
          h'.counts.length = h.counts.length ∧
          (∀ j, h'.counts.getD j 0 + moved h s (List.range s.counts.length) j = h.counts.getD j 0) ∧
          h' = { h with counts := h'.counts, maxValue := h'.maxValue, minNonZero := h'.minNonZero
                        totalCount := h'.totalCount } ∧
          ((h'.totalCount = min h'.counts.sum U64MAX ∧
            h' = ({ h with counts := h'.counts } : Hist T).restated) ∨
           (h' = { h with counts := h'.counts, totalCount := h'.totalCount } ∧
            h'.totalCount + h.counts.sum = h.totalCount + h'.counts.sum ∧ h.totalCount ≠ U64MAX ∧
            ∀ i, s.counts.getD i 0 ≠ 0 →
              s.lval i < h.llo h.lmax ∧ ∀ mn, h.min = .ok mn → h.lhi mn < s.lval i)))
      | .error .SubtrahendValueExceedsMinuendRange =>
        s.totalCount ≠ 0 ∧ h.ltop < h.lhi s.lmax ∧ h' = h
      | .error .SubtrahendCountExceedsMinuendCount =>
        s.totalCount ≠ 0 ∧ h.lhi s.lmax ≤ h.ltop ∧
          ∃ j, h.counts.getD j 0 < moved h s (List.range s.counts.length) j) := by
  obtain ⟨h', r, e, W', -, hr⟩ := W.subtract_full Ws
  exact ⟨h', r, e, W', hr⟩

end Hdr
