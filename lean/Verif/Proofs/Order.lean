import Verif.Proofs.Correct

/-!
# Recordings commute
-/

namespace Hdr

variable {T : CounterTy} {fp : Fp}

theorem or_mask_div (um v : Nat) : v ||| (2 ^ um - 1) = v / 2 ^ um * 2 ^ um + (2 ^ um - 1) := by
  have hp : 0 < 2 ^ um := by positivity
  conv_lhs => rw [← Nat.div_add_mod v (2 ^ um)]
  rw [mul_comm, ← Nat.shiftLeft_eq, Nat.shiftLeft_add_eq_or_of_lt (Nat.mod_lt _ hp), Nat.or_assoc]
  have : v % 2 ^ um ||| 2 ^ um - 1 = 2 ^ um - 1 := by
    apply Nat.eq_of_testBit_eq
    intro i
    rw [Nat.testBit_or, Nat.testBit_two_pow_sub_one, Nat.testBit_mod_two_pow]
    by_cases h : i < um <;> simp [h]
  rw [this, ← Nat.shiftLeft_add_eq_or_of_lt (by omega)]

/-- the running maximum does not depend on the order -/
theorem maxStep_comm (um m v w : Nat) :
    let f := fun m v => if m < v then v ||| (2 ^ um - 1) else m
    f (f m v) w = f (f m w) v := by
  intro f
  have hp : 0 < 2 ^ um := by positivity
  simp only [f, or_mask_div]
  generalize 2 ^ um = u at *
  have hv := Nat.div_add_mod v u
  have hw := Nat.div_add_mod w u
  have hv' := Nat.mod_lt v hp
  have hw' := Nat.mod_lt w hp
  rw [mul_comm] at hv hw
  rcases Nat.lt_trichotomy (v / u) (w / u) with h | h | h
  · have h1 : (v / u + 1) * u ≤ w / u * u := Nat.mul_le_mul_right _ h
    rw [Nat.add_mul] at h1
    split_ifs <;> omega
  · rw [h] at hv ⊢
    split_ifs <;> omega
  · have h1 : (w / u + 1) * u ≤ v / u * u := Nat.mul_le_mul_right _ h
    rw [Nat.add_mul] at h1
    split_ifs <;> omega

/-- the running non-zero minimum does not depend on the order -/
theorem minStep_comm (u m v w : Nat) (hp : 0 < u) :
    let f := fun m v => if v < m ∧ u - 1 < v then v / u * u else m
    f (f m v) w = f (f m w) v := by
  intro f
  simp only [f]
  have hv := Nat.div_add_mod v u
  have hw := Nat.div_add_mod w u
  have hv' := Nat.mod_lt v hp
  have hw' := Nat.mod_lt w hp
  rw [mul_comm] at hv hw
  rcases Nat.lt_trichotomy (v / u) (w / u) with h | h | h
  · have h1 : (v / u + 1) * u ≤ w / u * u := Nat.mul_le_mul_right _ h
    rw [Nat.add_mul] at h1
    split_ifs <;> omega
  · rw [h] at hv ⊢
    split_ifs <;> omega
  · have h1 : (w / u + 1) * u ≤ v / u * u := Nat.mul_le_mul_right _ h
    rw [Nat.add_mul] at h1
    split_ifs <;> omega

theorem bump_comm (T : CounterTy) (l : List Nat) (i j c d : Nat) (hi : i < l.length) (hj : j < l.length) :
    (l.set i (T.satAdd (l.getD i 0) c)).set j (T.satAdd ((l.set i (T.satAdd (l.getD i 0) c)).getD j 0) d)
      = (l.set j (T.satAdd (l.getD j 0) d)).set i (T.satAdd ((l.set j (T.satAdd (l.getD j 0) d)).getD i 0) c) := by
  by_cases he : i = j
  · subst he
    rw [List.set_set, List.set_set, getD_set, getD_set]
    simp only [hi, and_self, if_true]
    congr 1
    unfold CounterTy.satAdd; omega
  · rw [getD_set, getD_set, if_neg (by tauto), if_neg (by intro hc; exact he hc.1.symm), List.set_comm _ _ he]

theorem recorded_comm {h : Hist T} (L : LayoutOK h) {v c w d : Nat} (hv : v ≤ U64MAX) (hw : w ≤ U64MAX)
    (cv : h.lidx v < h.counts.length) (cw : h.lidx w < h.counts.length) :
    (h.recorded v c).recorded w d = (h.recorded w d).recorded v c := by
  have h64 : h.unitMag < 64 := by have := L.sum62; omega
  have hmax := maxStep_comm h.unitMag h.maxValue v w
  have hmin := minStep_comm (2 ^ h.unitMag) h.minNonZero v w (by positivity)
  simp only at hmax hmin
  rw [← and_not_mask hv h64, ← and_not_mask hw h64] at hmin
  unfold Hist.recorded Hist.newMax Hist.newMin
  rw [← L.ummask] at hmax hmin
  congr 1
  · show Hdr.satAdd (Hdr.satAdd _ _) _ = Hdr.satAdd (Hdr.satAdd _ _) _
    unfold Hdr.satAdd; omega
  · exact bump_comm T h.counts _ _ c d cv cw

theorem WF.growTo_recorded {h : Hist T} (W : WF fp h) {v c w : Nat} (cv : h.lidx v < h.counts.length) :
    (h.recorded v c).growTo w = (h.growTo w).recorded v c := by
  unfold Hist.growTo
  have e : (h.recorded v c).lidx w < (h.recorded v c).counts.length ↔ h.lidx w < h.counts.length := by
    rw [recorded_lidx]; simp [Hist.recorded]
  by_cases cw : h.lidx w < h.counts.length
  · rw [if_pos cw, if_pos (e.mpr cw)]
  rw [if_neg cw, if_neg (e.not.mpr cw)]
  have hl := W.resized_len_le cw
  have hc : ((h.recorded v c).resized w).counts = (h.resized w).counts.set (h.lidx v)
      (T.satAdd ((h.resized w).counts.getD (h.lidx v) 0) c) := by
    simp only [Hist.resized]
    rw [getD_vecResize_grow hl, vecResize_grow hl]
    change Hist.vecResize (h.counts.set (h.lidx v) _) _ = _
    rw [vecResize_grow (by rw [List.length_set]; exact hl), List.set_append, if_pos cv, List.length_set]
    rfl
  have hlen : ((h.recorded v c).resized w).counts.length = (h.resized w).counts.length := by
    rw [hc, List.length_set]
  rw [hlen]
  change Hist.mk _ _ _ _ _ _ _ _ _ _ _ _ _ _ _ _ = Hist.mk _ _ _ _ _ _ _ _ _ _ _ _ _ _ _ _
  congr 1

theorem resized_congr {h : Hist T} {v w : Nat} (hb : h.lbkt v = h.lbkt w) :
    (h.resized v).counts = (h.resized w).counts := by
  simp only [Hist.resized]; rw [hb]

theorem WF.growTo_comm {h : Hist T} (W : WF fp h) {v w : Nat} (hv : v ≤ U64MAX) (hw : w ≤ U64MAX) :
    (h.growTo v).growTo w = (h.growTo w).growTo v := by
  have stay : ∀ (g : Hist T) (x : Nat), g.lidx x < g.counts.length → g.growTo x = g := by
    intro g x hx; unfold Hist.growTo; rw [if_pos hx]
  have key : ∀ v w, v ≤ U64MAX → w ≤ U64MAX → h.lbkt v ≤ h.lbkt w →
      (h.growTo v).growTo w = (h.growTo w).growTo v := by
    intro v w hv hw hle
    by_cases cw : h.lidx w < h.counts.length
    · have cv : h.lidx v < h.counts.length := by
        rw [W.covered_iff] at cw ⊢; omega
      rw [stay h v cv, stay h w cw, stay h v cv]
    have e1 : (h.growTo w).growTo v = h.growTo w := by
      apply stay
      have Wg := W.growTo hw
      have h1 := W.growTo_cov w
      rw [← (growTo_config h w).lidx w, Wg.covered_iff] at h1
      rw [Wg.covered_iff]
      have : ∀ x, (h.growTo w).lbkt x = h.lbkt x := by
        intro x; unfold Hist.lbkt; rw [(growTo_config h w).um, (growTo_config h w).mag]
      rw [this] at h1 ⊢
      omega
    rw [e1]
    by_cases cv : h.lidx v < h.counts.length
    · rw [stay h v cv]
    -- both grow
    have hlv := W.resized_len_le cv
    have hlw := W.resized_len_le cw
    by_cases cw2 : (h.growTo v).lidx w < (h.growTo v).counts.length
    · rw [stay _ w cw2]
      have Wg := W.growTo hv
      have hb : h.lbkt v = h.lbkt w := by
        have : (h.growTo v).counts.length = (h.lbkt v + 2) * 2 ^ h.subBucketHalfCountMag := by
          unfold Hist.growTo; rw [if_neg cv]; exact W.resized_len v
        rw [this, (growTo_config h v).lidx] at cw2
        have := Lay.idx_lt_iff_bkt.mp cw2
        unfold Hist.lbkt at *; omega
      unfold Hist.growTo
      rw [if_neg cv, if_neg cw]
      unfold Hist.resized
      rw [hb]
    · rw [show (h.growTo v).growTo w = { (h.growTo v).resized w with
          highestTrackable := (h.growTo v).lhi ((h.growTo v).lval (((h.growTo v).resized w).counts.length - 1)) } by
        generalize h.growTo v = g at *
        unfold Hist.growTo; rw [if_neg cw2]]
      have hgv : h.growTo v = { h.resized v with
          highestTrackable := h.lhi (h.lval ((h.resized v).counts.length - 1)) } := by
        unfold Hist.growTo; rw [if_neg cv]
      have hgw : h.growTo w = { h.resized w with
          highestTrackable := h.lhi (h.lval ((h.resized w).counts.length - 1)) } := by
        unfold Hist.growTo; rw [if_neg cw]
      have hc : ((h.growTo v).resized w).counts = (h.resized w).counts := by
        rw [hgv]
        change Hist.vecResize (Hist.vecResize h.counts _) _ = Hist.vecResize h.counts _
        have hle2 : (h.lbkt v + 1 + 1) * 2 ^ h.subBucketHalfCountMag
            ≤ (h.lbkt w + 1 + 1) * 2 ^ h.subBucketHalfCountMag := Nat.mul_le_mul_right _ (by omega)
        change Hist.vecResize (Hist.vecResize h.counts _) ((h.lbkt w + 1 + 1) * 2 ^ h.subBucketHalfCountMag) = _
        rw [vecResize_grow hlv, vecResize_grow hlw, vecResize_grow]
        · simp only [List.length_append, List.length_replicate, List.append_assoc,
            List.replicate_append_replicate]
          congr 2
          omega
        · simp only [List.length_append, List.length_replicate]; omega
      rw [hc, hgv, hgw]
      change Hist.mk _ _ _ _ _ _ _ _ _ _ _ _ _ _ _ _ = Hist.mk _ _ _ _ _ _ _ _ _ _ _ _ _ _ _ _
      congr 1
      rw [hgv] at hc
      exact hc
  rcases Nat.le_total (h.lbkt v) (h.lbkt w) with hle | hle
  · exact key v w hv hw hle
  · exact (key w v hw hv hle).symm

/-- two recordings commute, including growth of the array -/
theorem WF.record_comm {h : Hist T} (W : WF fp h) {v c w d : Nat} (hv : v ≤ U64MAX) (hw : w ≤ U64MAX) :
    (((h.growTo v).recorded v c).growTo w).recorded w d
      = (((h.growTo w).recorded w d).growTo v).recorded v c := by
  have Wv := W.growTo hv
  have Ww := W.growTo hw
  have cv : (h.growTo v).lidx v < (h.growTo v).counts.length := by
    rw [(growTo_config h v).lidx]; exact W.growTo_cov v
  have cw : (h.growTo w).lidx w < (h.growTo w).counts.length := by
    rw [(growTo_config h w).lidx]; exact W.growTo_cov w
  rw [Wv.growTo_recorded cv, Ww.growTo_recorded cw, ← W.growTo_comm hv hw]
  have Wg := Wv.growTo hw
  refine recorded_comm Wg.toLayoutOK hv hw ?_ ?_
  · rw [(growTo_config _ w).lidx]; exact lt_of_lt_of_le cv (Wv.growTo_len_le w)
  · rw [(growTo_config _ w).lidx]; exact Wv.growTo_cov w

/-- The final state of a successful sequence of recordings does not depend on their order. -/
theorem WF.recordSeq_perm {l l' : List (Nat × Nat)} (hp : l.Perm l') :
    ∀ {h h' : Hist T}, WF fp h → (∀ p ∈ l, p.1 ≤ U64MAX ∧ p.2 ≤ T.max) →
      recordSeq l h = .ok (h', .ok ()) → recordSeq l' h = .ok (h', .ok ()) := by
  have step : ∀ {h h' : Hist T} {v c} {l : List (Nat × Nat)}, WF fp h → v ≤ U64MAX → c ≤ T.max →
      (recordSeq ((v, c) :: l) h = .ok (h', .ok ()) ↔
        (h.lidx v < h.counts.length ∨ h.autoResize = true) ∧
          recordSeq l ((h.growTo v).recorded v c) = .ok (h', .ok ())) := by
    intro h h' v c l W hv hc
    rw [recordSeq_cons, W.recordN_eq hv hc]
    by_cases hcov : h.lidx v < h.counts.length ∨ h.autoResize = true
    · rw [if_pos hcov, M.ok_bind]; simp [hcov]
    · rw [if_neg hcov, M.ok_bind]; simp [hcov]
  induction hp with
  | nil => intro h h' _ _ e; exact e
  | cons p hp ih =>
    intro h h' W hl e
    obtain ⟨v, c⟩ := p
    have hvc := hl (v, c) (by simp)
    rw [step W hvc.1 hvc.2] at e ⊢
    exact ⟨e.1, ih (W.record_wf hvc.1) (fun p hp => hl p (by simp [hp])) e.2⟩
  | swap p q l =>
    intro h h' W hl e
    obtain ⟨v, c⟩ := p
    obtain ⟨w, d⟩ := q
    have hvc := hl (v, c) (by simp)
    have hwd := hl (w, d) (by simp)
    simp only at hvc hwd
    rw [step W hwd.1 hwd.2, step (W.record_wf hwd.1) hvc.1 hvc.2] at e
    rw [step W hvc.1 hvc.2, step (W.record_wf hvc.1) hwd.1 hwd.2]
    have aux : ∀ x y (k : Nat), (h.lidx x < h.counts.length ∨ h.autoResize = true) →
        (h.lidx y < h.counts.length ∨ h.autoResize = true) →
        (((h.growTo x).recorded x k).lidx y < ((h.growTo x).recorded x k).counts.length
          ∨ ((h.growTo x).recorded x k).autoResize = true) := by
      intro x y k _ hy
      have cg := (growTo_config h x).trans (recorded_config (h.growTo x) x k)
      rw [cg.lidx, cg.auto]
      rcases hy with hy | hy
      · left
        simp only [Hist.recorded, List.length_set]
        exact lt_of_lt_of_le hy (W.growTo_len_le x)
      · exact Or.inr hy
    have hv0 : h.lidx v < h.counts.length ∨ h.autoResize = true := by
      have h1 := e.2.1
      have cg := (growTo_config h w).trans (recorded_config (h.growTo w) w d)
      rw [cg.lidx, cg.auto] at h1
      rcases e.1 with he | he
      · have : h.growTo w = h := by unfold Hist.growTo; rw [if_pos he]
        rw [this] at h1
        simpa [Hist.recorded] using h1
      · exact Or.inr he
    refine ⟨hv0, aux v w c hv0 e.1, ?_⟩
    rw [W.record_comm hvc.1 hwd.1]
    exact e.2.2
  | trans h1 _ ih1 ih2 =>
    intro h h' W hl e
    exact ih2 W (fun p hp => hl p (h1.mem_iff.mpr hp)) (ih1 W hl e)

end Hdr
