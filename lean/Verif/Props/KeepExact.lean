import Verif.Props.Merged

/-!
# Recording into a histogram with exact statistics keeps them exact
-/

namespace Hdr

variable {T : CounterTy} {fp : Fp}

/-- with unit 1 and no sample in the class of `u64::MAX`, recording keeps the statistics exact if the total is -/
theorem recordSeq_keeps_exact {h h' : Hist T} (W : WF fp h) (hu : h.unitMag = 0) (X : ExactStats h h.contents)
    (hb : ∀ j, h.counts.getD j 0 ≠ 0 → j < h.lidx U64MAX) {l : List (Nat × Nat)}
    (hl : ∀ p ∈ l, p.1 ≤ U64MAX ∧ p.2 ≤ T.max) (hpos : ∀ p ∈ l, 0 < p.2) (e : recordSeq l h = .ok (h', .ok ()))
    (hexact : h'.totalCount = min h'.counts.sum U64MAX) (htop : ∀ p ∈ l, h.lidx p.1 < h.lidx U64MAX) :
    ExactStats h' h'.contents := by
  by_cases hnil : l = []
  · subst hnil; cases e; exact X
  obtain ⟨h1, r1, e1, W1, hr⟩ := W.recordSeq_spec l hl
  rw [e1] at e; cases e
  obtain ⟨E, -⟩ := hr
  have hidx : ∀ v, h'.lidx v = h.lidx v := E.cfg.lidx
  have hT := T_max_pos T
  obtain ⟨-, x2, x3⟩ := (W.exactStats_iff W.contents).mp X
  have hnz : ∀ p ∈ l, h'.counts.getD (h.lidx p.1) 0 ≠ 0 := by
    intro p hp
    have := hits_pos (h := h) hp (hpos p hp)
    rw [E.counts]; omega
  have hkeep : ∀ j, h.counts.getD j 0 ≠ 0 → h'.counts.getD j 0 ≠ 0 := by
    intro j hj; rw [E.counts]; omega
  have hof : ∀ j, h'.counts.getD j 0 ≠ 0 → j < h.lidx U64MAX := by
    intro j hj
    by_cases h2 : h.counts.getD j 0 = 0
    · rw [E.counts, h2] at hj
      obtain ⟨p, hp, rfl⟩ := of_hits_pos (h := h) (l := l) (j := j) (by omega)
      exact htop p hp
    · exact hb j h2
  refine (W1.exactStats_iff W1.contents).mpr ⟨hexact, ?_, ?_⟩
  · have hlast := lastNz_spec h'.counts 0
    cases hn : lastNz h'.counts 0 with
    | none =>
      rw [hn] at hlast
      obtain ⟨p, hp⟩ := List.exists_mem_of_ne_nil l hnil
      exact absurd (hlast _) (hnz p hp)
    | some i =>
      rw [hn] at hlast
      simp only [Nat.sub_zero, Nat.zero_add] at hlast ⊢
      obtain ⟨-, hi, hi2, hi3⟩ := hlast
      obtain ⟨-, -, m3⟩ := maxAfter_bounds h l (h.lidx h.maxValue)
      have hI : h.lidx h'.maxValue = i := by
        refine Nat.le_antisymm ?_ ?_
        · rw [E.max]
          refine m3 _ ?_ fun q hq => hi3 _ (hnz q hq)
          rw [← W.lidx_lmax, x2]
          have hlast := lastNz_spec h.counts 0
          cases hm : lastNz h.counts 0 with
          | none =>
            dsimp only
            rw [show h.lidx 0 = 0 from Lay.idx_zero]; omega
          | some j =>
            rw [hm] at hlast
            simp only [Nat.sub_zero, Nat.zero_add] at hlast
            dsimp only
            rw [lidx_lhi (W.lval_le hlast.2.1), show h.lidx (h.lval j) = j from Lay.idx_val]
            exact hi3 _ (hkeep j hlast.2.2.1)
        · rw [← hidx]; exact W1.trackMax i hi2
      have hlt := hof i hi2
      unfold Hist.lmax
      split
      · rename_i h0
        have : i = 0 := by rw [← hI, h0]; exact Lay.idx_zero
        subst this
        have hv0 : h'.lval 0 = 0 := by by_contra hc; exact lval_ne_zero.mp hc rfl
        have hz2 : h'.lidx (h'.lhi (h'.lval 0)) = 0 := by
          rw [lidx_lhi (by rw [hv0]; decide), hv0]; exact Lay.idx_zero
        have := Lay.idx_eq_zero_iff.mp hz2
        rw [E.cfg.um, hu] at this
        omega
      · apply lhi_eq_of_lidx
        · rw [hidx, hI]; exact (show h'.lidx (h'.lval i) = i from Lay.idx_val).symm
        · intro hc; rw [hc] at hI; omega
        · intro hc
          have h3 : h'.lidx (h'.lval i) = i := Lay.idx_val
          rw [hc, hidx] at h3; omega
  · have hfirst := firstNz_spec h'.counts 0
    have hfirst0 := firstNz_spec h.counts 0
    unfold Hist.scanMin at x3 ⊢
    cases hn : firstNz h'.counts 0 with
    | none =>
      rw [hn] at hfirst
      simp only [Nat.zero_add] at hfirst ⊢
      have e2 : h'.minNonZero = h.minNonZero := W.recordSeq_min_zero hl (fun p hp => by
        by_contra hc; exact hnz p hp (hfirst _ hc)) e1
      cases hm : firstNz h.counts 0 with
      | none =>
        rw [hm] at x3
        dsimp only at x3
        unfold Hist.lminNz at x3 ⊢
        rw [e2]
        split
        · rfl
        · rename_i hc
          rw [if_neg hc] at x3
          have : h.llo h.minNonZero ≤ h.minNonZero := Lay.lo_le
          have := W.minle
          omega
      | some j =>
        rw [hm] at hfirst0
        simp only [Nat.sub_zero, Nat.zero_add] at hfirst0
        exact absurd (hfirst j hfirst0.2.1) (hkeep j hfirst0.2.2.2.1)
    | some i =>
      rw [hn] at hfirst
      simp only [Nat.sub_zero, Nat.zero_add] at hfirst ⊢
      obtain ⟨-, hi0', hi, hi2, hi3⟩ := hfirst
      have hlt := hof i hi2
      obtain ⟨-, -, b3⟩ := minAfter_bounds h l (h.lidx h.minNonZero)
      have hI : h.lidx h'.minNonZero = i := by
        refine Nat.le_antisymm ?_ ?_
        · rw [← hidx]; exact W1.trackMin i hi0' hi2
        · rw [E.min]
          refine b3 _ ?_ fun q hq hne => hi3 _ hne (hnz q hq)
          rw [← lidx_lminNz, x3]
          cases hm : firstNz h.counts 0 with
          | none => exact hlt.le
          | some j =>
            rw [hm] at hfirst0
            simp only [Nat.sub_zero, Nat.zero_add] at hfirst0
            dsimp only
            rw [show h.lidx (h.lval j) = j from Lay.idx_val]
            exact hi3 j hfirst0.2.1 (hkeep j hfirst0.2.2.2.1)
      unfold Hist.lminNz
      rw [if_neg (by intro hc; rw [hc] at hI; omega)]
      have : h'.lval (h'.lidx h'.minNonZero) = h'.llo h'.minNonZero := Lay.val_idx
      rw [← this, hidx, hI]

end Hdr
