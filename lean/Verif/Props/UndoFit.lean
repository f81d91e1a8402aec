import Verif.Props.Outcomes

/-!
# C20 with full counters

`C20_undo_iff` asks that no counter of the sum is at its maximum.  Here only that none overflows: a counter may end up exactly full.
-/

namespace Hdr

variable {T : CounterTy} {fp : Fp}

/-- what is counted in `h` and added from `s` fits, by slots -/
private theorem slots_fit {h s : Hist T} (W : WF fp h) (Ws : WF fp s) {cs : List Cls} (C : Classes s cs)
    (hfit : ∀ v a, v ≤ U64MAX → HasCount h v a → a + recordedFor h (Cls.records cs) v ≤ T.max) (j : Nat) :
    h.counts.getD j 0 + moved h s (List.range s.counts.length) j ≤ T.max := by
  by_cases hm : moved h s (List.range s.counts.length) j = 0
  · rw [hm, Nat.add_zero]; exact W.getD_le j
  obtain ⟨i, hi, e⟩ : ∃ i < s.counts.length, h.lidx (s.lval i) = j := by
    by_contra hc
    push Not at hc
    apply hm
    unfold moved
    apply List.sum_eq_zero
    intro x hx
    obtain ⟨i, hi, rfl⟩ := List.mem_map.mp hx
    rw [if_neg (hc i (List.mem_range.mp hi))]
  have hv := Ws.lval_le hi
  have := hfit (s.lval i) _ hv ((W.hasCount_iff hv).mpr rfl)
  rw [W.recordedFor_classes Ws C hv, e] at this
  exact this

/-- an `add` that overflows no counter keeps the total exact -/
private theorem add_exact_fit {h s h' : Hist T} (W : WF fp h) (Ws : WF fp s) (e : h.add s = .ok (h', .ok ()))
    (hfit : ∀ j, h.counts.getD j 0 + moved h s (List.range s.counts.length) j ≤ T.max) (hx : ExactTotal h) (hxs : ExactTotal s) :
    ExactTotal h' := by
  obtain ⟨h1, r1, e1, W1, hr⟩ := W.add_spec Ws
  rw [e1] at e; cases e
  rcases hr with ⟨-, rfl⟩ | ⟨hs, hauto, hcfg, hlen, -, hcnt, hcopy, htot, -⟩
  · exact hx
  by_cases hm : (h.addGrown s).matching s ∧ h.totalCount = 0
  · obtain ⟨c1, c2, -⟩ := hcopy hm
    unfold ExactTotal; rw [c1, c2]; exact hxs
  have ht := htot hm
  obtain ⟨Wg, hcov, hcfg', hget, -, -, -, hlen', -⟩ := W.addGrown (s := s)
  have hsum : h'.counts.sum = h.counts.sum + s.counts.sum := by
    have hall : ∀ i ∈ List.range s.counts.length, s.counts.getD i 0 ≠ 0 → h.lidx (s.lval i) < h'.counts.length := by
      intro i _ hne
      have := cov_of_lmax Ws hcov hne
      rw [hcfg'.lidx] at this
      rw [hlen]; exact this
    rw [← sum_getD_eq h'.counts h'.counts.length le_rfl,
      ← sum_getD_eq h.counts h'.counts.length (by rw [hlen]; exact hlen'), ← sum_range_getD s.counts,
      ← sum_moved h'.counts.length _ hall, ← List.sum_map_add]
    congr 1
    apply List.map_congr_left
    intro j _
    have h1 := hfit j
    rw [hcnt]
    omega
  unfold ExactTotal at *
  rw [ht, hx, hsum]; omega

/-- C20: after an `add` that overflowed no counter, `subtract` of the same histogram undoes it exactly if the source is empty or
its `max()` is not `u64::MAX`; otherwise it is refused and nothing changes. -/
theorem C20_undo_fit {h s h1 : Hist T} (R : Reachable fp T h) (Rs : Reachable fp T s)
    (hx : h.len = min h.counts.sum U64MAX) (hxs : s.len = min s.counts.sum U64MAX) {cs : List Cls} (C : Classes s cs)
    (e : h.add s = .ok (h1, .ok ()))
    (hfit : ∀ v a, v ≤ U64MAX → HasCount h v a → a + recordedFor h (Cls.records cs) v ≤ T.max) :
    (s.len = 0 ∨ s.max ≠ .ok U64MAX → ∃ h2, h1.subtract s = .ok (h2, .ok ()) ∧ h2.len = h.len ∧
      (∀ v a, v ≤ U64MAX → HasCount h v a → HasCount h2 v a)) ∧
    (s.len ≠ 0 ∧ s.max = .ok U64MAX → h1.subtract s = .ok (h1, .error .SubtrahendValueExceedsMinuendRange)) := by
  have R1 : Reachable fp T h1 := .add R Rs e
  have W := R.wf
  have Ws := Rs.wf
  have W1 := R1.wf
  have hf := slots_fit W Ws C hfit
  have hx1 : ExactTotal h1 := add_exact_fit W Ws e hf hx hxs
  obtain ⟨h2, r2, e2, h3, -, h5, h6⟩ := C21_subtract_outcome_partial R1 Rs C Ws.max_eq
  obtain ⟨g, r, e1, W', hr⟩ := W.add_spec Ws
  rw [e1] at e; cases e
  constructor
  · intro hc
    by_cases h0 : s.len = 0
    · obtain ⟨rfl, rfl⟩ := h6 h0
      have hsame : h2 = h := by
        rcases hr with ⟨-, hr⟩ | ⟨hn, -⟩
        · exact hr
        · exact absurd h0 hn
      exact ⟨_, e2, by rw [hsame], fun v a _ hv => by rw [hsame]; exact hv⟩
    have hmx : s.lmax ≠ U64MAX := fun q => hc.elim h0 fun hc => hc (by rw [Ws.max_eq, q])
    clear h3 h5 h6 e2
    obtain ⟨h2, r2, e2, W2, hr2⟩ := W1.subtract_spec Ws
    rcases hr with ⟨hc, -⟩ | ⟨-, -, hcfg, hlen, -, hcnt, -⟩
    · exact absurd hc h0
    obtain ⟨Wg, hcov, hcfgg, -, -, -, -, hlg, -⟩ := W.addGrown (s := s)
    have top : h1.lhi s.lmax ≤ h1.ltop := by
      apply Nat.le_of_not_lt
      rw [W1.ltop_lt_lhi_iff lmax_le, W1.covers_iff, hcfg.lidx, hlen]
      rw [hcfgg.lidx] at hcov
      simp [hcov, hmx]
    have key : ∀ j, h1.counts.getD j 0 = h.counts.getD j 0 + moved h1 s (List.range s.counts.length) j := by
      intro j
      have h3 := hcnt j
      have h4 := hf j
      rw [moved_config hcfg]
      omega
    cases r2 with
    | error x =>
      exfalso
      cases x with
      | SubtrahendValueExceedsMinuendRange =>
        have := hr2.2.1
        omega
      | SubtrahendCountExceedsMinuendCount =>
        obtain ⟨-, -, j, hj⟩ := hr2
        have := key j
        omega
    | ok u =>
      rcases hr2 with ⟨h0', -⟩ | ⟨-, -, hl, hcnt2, hcf, -⟩
      · exact absurd h0' h0
      have hcounts : ∀ j, h2.counts.getD j 0 = h.counts.getD j 0 := by
        intro j
        have := key j
        have := hcnt2 j
        omega
      have hlen2 : h.counts.length ≤ h2.counts.length := by omega
      have hcfg2 : SameConfig h h2 := by
        refine hcfg.trans ?_
        rw [hcf]
        exact ⟨rfl, rfl, rfl, rfl, rfl⟩
      have hsum : h2.counts.sum = h.counts.sum := by
        rw [← sum_getD_eq h2.counts _ le_rfl, ← sum_getD_eq h.counts _ hlen2]
        exact congrArg List.sum (List.map_congr_left fun j _ => hcounts j)
      refine ⟨h2, e2, ?_, fun v a hv ha => ?_⟩
      · have := W1.subtract_exact Ws e2 hx1
        unfold ExactTotal at this
        unfold Hist.len at *
        rw [this, hx, hsum]
      · rw [W.hasCount_iff hv] at ha
        rw [W2.hasCount_iff hv, hcfg2.lidx, hcounts, ha]
  · rintro ⟨h0, hm⟩
    have hl : s.lmax = U64MAX := by
      rw [Ws.max_eq] at hm; injection hm
    have hr := h3.mpr ⟨h0, Or.inr hl⟩
    rw [e2, h5 hr, hr]

/-- 200 and 55 samples of the class of 9 in counters of type `u8`: the counter of the sum is exactly full, and subtracting works -/
example : ∃ h s h1 h2 : Hist .u8, recordSeq [(5, 3), (9, 200)] demo = .ok (h, .ok ()) ∧ recordSeq [(8, 55)] demo = .ok (s, .ok ()) ∧
    h.add s = .ok (h1, .ok ()) ∧ h1.counts = [0, 0, 0, 3, 255] ∧ h1.subtract s = .ok (h2, .ok ()) ∧ h2.len = h.len := by
  obtain ⟨h, e, hh⟩ : ∃ h, recordSeq [(5, 3), (9, 200)] demo = .ok (h, .ok ()) ∧
    h = { demo with maxValue := 9, minNonZero := 5, totalCount := 203, counts := [0, 0, 0, 3, 200] } := okThen (by decide +kernel)
  obtain ⟨s, e', hs⟩ : ∃ s, recordSeq [(8, 55)] demo = .ok (s, .ok ()) ∧
    s = { demo with maxValue := 8, minNonZero := 8, totalCount := 55, counts := [0, 0, 0, 0, 55] } := okThen (by decide +kernel)
  obtain ⟨h1, ea, hc⟩ : ∃ h1, h.add s = .ok (h1, .ok ()) ∧ h1.counts = [0, 0, 0, 3, 255] := by
    subst hh hs; exact okThen (by decide +kernel)
  have R : Reachable Fp.ideal .u8 h := reachable_recordSeq demo_reachable (by decide) e
  have Rs : Reachable Fp.ideal .u8 s := reachable_recordSeq demo_reachable (by decide) e'
  obtain ⟨h2, e2, h3, -⟩ := (C20_undo_fit R Rs (by rw [hh]; decide) (by rw [hs]; decide) Rs.wf.classes ea (by
    intro v a hv ha
    have h4 := R.wf
    rw [R.wf.recordedFor_classes Rs.wf Rs.wf.classes hv]
    rw [R.wf.hasCount_iff hv] at ha
    rw [ha]
    generalize h.lidx v = j
    by_cases hj : j < 5
    · subst hh hs
      clear ha hv e e' ea R Rs h4 hc
      revert j
      decide +kernel
    · have : moved h s (List.range s.counts.length) j = 0 := by
        unfold moved
        apply List.sum_eq_zero
        intro x hx
        obtain ⟨i, hi, rfl⟩ := List.mem_map.mp hx
        have hi' : i < 5 := by rw [hs] at hi; exact List.mem_range.mp hi
        rw [if_neg (fun q => hj (by rw [← q]; subst hh hs; clear ha hv e e' ea R Rs h4 hc hx hi q; revert i; decide +kernel))]
      rw [this, Nat.add_zero]
      exact R.wf.getD_le j)).1 (.inr (by rw [hs]; decide))
  exact ⟨h, s, h1, h2, e, e', ea, hc, e2, h3⟩

end Hdr
