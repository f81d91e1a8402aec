import Verif.Spec.Width
import Verif.Proofs.Correct
import Verif.Proofs.Bridge

/-!
# Lemmas for targets with a narrower `usize`: operations on histograms
-/

namespace Hdr

variable {fp fp' : Fp} {T : CounterTy} {t : Target}

theorem Target.toUsize_some {x : Nat} (h : x ≤ t.usizeMax) : t.toUsize x = some x := if_pos h

theorem Target.toUsize_none {x : Nat} (h : t.usizeMax < x) : t.toUsize x = none := if_neg (by omega)

namespace Hist

theorem mutAtOn_eq {h : Hist T} (hl : h.counts.length ≤ t.usizeMax) (v : Nat) : h.mutAtOn t v = h.mutAt v := by
  unfold mutAtOn mutAt indexForOn
  cases h.indexFor v with
  | error e => rfl
  | ok o =>
    cases o with
    | none => rfl
    | some i =>
      simp only [M.ok_bind]
      by_cases hi : i ≤ t.usizeMax
      · rw [Target.toUsize_some hi]; rfl
      · rw [Target.toUsize_none (by omega), if_neg (by omega)]; rfl

theorem indexForOrLastOn_eq {h : Hist T} (hl : h.counts.length ≤ t.usizeMax) (v : Nat) :
    h.indexForOrLastOn t v = h.indexForOrLast v := by
  unfold indexForOrLastOn indexForOrLast indexForOn
  cases h.indexFor v with
  | error e => rfl
  | ok o =>
    cases o with
    | none => rfl
    | some i =>
      simp only [M.ok_bind]
      by_cases hi : i ≤ t.usizeMax
      · rw [Target.toUsize_some hi]; rfl
      · rw [Target.toUsize_none (by omega)]
        unfold lastIndex checkedSub distinctValues
        split
        · simp only [M.pure_eq, M.ok_bind, expectM_some]
          congr 1
          rw [Nat.min_eq_right (by omega)]
        · rfl

end Hist

theorem WF.mag_lt {h : Hist T} (W : WF fp h) (hl : h.counts.length ≤ t.usizeMax) : h.subBucketHalfCountMag < t.bits := by
  by_contra hc
  have h1 : 2 ^ t.bits ≤ 2 ^ h.subBucketHalfCountMag := Nat.pow_le_pow_right (by norm_num) (by omega)
  have h2 := W.len
  have h3 : 2 ^ h.subBucketHalfCountMag ≤ (h.bucketCount + 1) * 2 ^ h.subBucketHalfCountMag :=
    Nat.le_mul_of_pos_left _ (by omega)
  have h4 : 0 < 2 ^ t.bits := by positivity
  unfold Target.usizeMax at hl
  omega

theorem WF.valueForOn_eq {h : Hist T} (W : WF fp h) (hl : h.counts.length ≤ t.usizeMax) (i : Nat) :
    h.valueForOn t i = h.valueFor i := if_pos (W.mag_lt hl)

/-- `resize`, evaluated -/
theorem resizeOn_eq {h : Hist T} (L : LayoutOK h) {high : Nat} (hh : high ≤ U64MAX)
    (hl : 2 * h.lowestDiscernible ≤ high) : h.resizeOn t high =
      if t.usizeMax < (h.resized high).counts.length then .ok none
      else (t.grow T.bytes h.counts.length (h.resized high).counts.length).map fun _ => some (h.resized high) := by
  have e := resize_eq L hh hl
  unfold Hist.resize at e
  rw [mulU64_ok (by omega), M.ok_bind, assertM_true (by simp; omega), M.ok_bind,
    bucketsToCover_eq L hh, M.ok_bind] at e
  rw [M.bind_eq_ok] at e
  obtain ⟨n, hn, e⟩ := e
  simp only [M.pure_eq, Except.ok.injEq] at e
  have hlen : (h.resized high).counts.length = n := by rw [← e]; exact length_vecResize _ _
  unfold Hist.resizeOn
  rw [mulU64_ok (by omega), M.ok_bind, assertM_true (by simp; omega), M.ok_bind,
    bucketsToCover_eq L hh, M.ok_bind, hn, M.ok_bind, hlen]
  by_cases hc : t.usizeMax < n
  · rw [Target.toUsize_none hc, if_pos hc]; rfl
  · rw [Target.toUsize_some (by omega), if_neg hc]
    simp only
    rw [← e]
    cases t.grow T.bytes h.counts.length n <;> rfl

theorem Target.grow_same (t : Target) (size old len : Nat) (h : len ≤ old) : t.grow size old len = .ok () := if_pos h

theorem Target.grow_more (t : Target) (size old len : Nat) (h : old < len) :
    t.grow size old len = if t.allocates size len then .ok () else .error .capacity := if_neg (by omega)

/-- an operation that does not enlarge the array does the same on every target -/
theorem Target.outcome_same {E : Type} {h h' : Hist T} {small : E} {r : Except E Unit}
    (hl : h'.counts.length ≤ h.counts.length) : t.outcome h small (.ok (h', r)) = .ok (h', r) := by
  unfold Target.outcome
  rw [M.ok_bind]
  exact if_pos hl

theorem WF.recordNOn_cov {h : Hist T} (W : WF fp h) {v c : Nat} (hv : v ≤ U64MAX) (hc : c ≤ T.max)
    (hl : h.counts.length ≤ t.usizeMax) (hcov : h.lidx v < h.counts.length) :
    h.recordNOn t v c = .ok (h.recorded v c, .ok ()) := by
  rw [← W.recordN_cov hv hc hcov]
  unfold Hist.recordNOn Hist.recordNInnerOn Hist.recordN Hist.recordNInner
  rw [Hist.mutAtOn_eq hl, mutAt_eq W.toLayoutOK hv, M.ok_bind, M.ok_bind, if_pos hcov]

/-- `record_n` on a target -/
theorem WF.recordNOn_eq {h : Hist T} (W : WF fp h) {v c : Nat} (hv : v ≤ U64MAX) (hc : c ≤ T.max)
    (hl : h.counts.length ≤ t.usizeMax) :
    h.recordNOn t v c = t.outcome h .ResizeFailedUsizeTypeTooSmall (h.recordN v c) := by
  have L := W.toLayoutOK
  by_cases hcov : h.lidx v < h.counts.length
  · rw [W.recordNOn_cov hv hc hl hcov, W.recordN_cov hv hc hcov]
    exact (Target.outcome_same (by simp [Hist.recorded])).symm
  by_cases ha : h.autoResize = true
  · have hlt := W.high_lt_of_not_cov hcov
    have hlow := W.highlow
    have hbk : h.lbkt h.highestTrackable < h.lbkt v := by
      rw [W.covered_iff] at hcov; omega
    have Wr := W.resized hv (by omega) hbk.le
    have hcov1 := Wr.high_cov
    change h.lidx v < (h.resized v).counts.length at hcov1
    -- the 64-bit result
    have e := W.recordN_eq hv hc
    rw [if_pos (Or.inr ha)] at e
    have hlen : ((h.growTo v).recorded v c).counts.length = (h.resized v).counts.length := by
      simp only [Hist.recorded, List.length_set]
      unfold Hist.growTo; rw [if_neg hcov]
    have hgrow : h.counts.length < (h.resized v).counts.length := by omega
    have eo : t.outcome h .ResizeFailedUsizeTypeTooSmall (h.recordN v c) =
        if t.usizeMax < (h.resized v).counts.length then .ok (h, .error .ResizeFailedUsizeTypeTooSmall)
        else if t.allocates T.bytes (h.resized v).counts.length then h.recordN v c else .error .capacity := by
      rw [e]
      unfold Target.outcome
      rw [M.ok_bind]
      unfold Hist.distinctValues
      simp only [hlen]
      rw [if_neg (by omega)]
      rfl
    rw [eo]
    unfold Hist.recordNOn Hist.recordNInnerOn
    rw [Hist.mutAtOn_eq hl, mutAt_eq L hv, M.ok_bind, if_neg hcov]
    simp only [ha, Bool.not_true, Bool.false_eq_true, if_false]
    rw [resizeOn_eq L hv (by omega)]
    by_cases hu : t.usizeMax < (h.resized v).counts.length
    · rw [if_pos hu, if_pos hu]; rfl
    rw [if_neg hu, if_neg hu, Target.grow_more _ _ _ _ hgrow]
    by_cases hal : t.allocates T.bytes (h.resized v).counts.length = true
    · rw [if_pos hal, if_pos hal]
      unfold Hist.recordN Hist.recordNInner
      rw [mutAt_eq L hv, M.ok_bind, if_neg hcov]
      simp only [ha, Bool.not_true, Bool.false_eq_true, if_false]
      rw [resize_eq L hv (by omega)]
      change Hist.recordAfterResizeOn t (h.resized v) v c = _
      rw [M.ok_bind]
      unfold Hist.recordAfterResizeOn Hist.recordAfterResize
      have hp := Wr.len_pos
      rw [Wr.lastIndex, M.ok_bind, M.ok_bind, Wr.valueForOn_eq (by omega), Wr.valueFor (by omega), M.ok_bind, M.ok_bind,
        highestEquivalent_eq Wr.toLayoutOK (Wr.lval_le (by omega)), M.ok_bind, M.ok_bind]
      dsimp only
      rw [Hist.mutAtOn_eq (by simpa using (by omega : (h.resized v).counts.length ≤ t.usizeMax))]
    · rw [if_neg hal, if_neg hal]; rfl
  · have e := W.recordN_eq hv hc
    rw [if_neg (by tauto)] at e
    rw [e, Target.outcome_same le_rfl]
    unfold Hist.recordNOn Hist.recordNInnerOn
    rw [Hist.mutAtOn_eq hl, mutAt_eq L hv, M.ok_bind, if_neg hcov]
    simp [ha]

theorem WF.saturatingRecordNOn_eq {h : Hist T} (_ : WF fp h) (v c : Nat) (hl : h.counts.length ≤ t.usizeMax) :
    h.saturatingRecordNOn t v c = h.saturatingRecordN v c := by
  unfold Hist.saturatingRecordNOn Hist.saturatingRecordN Hist.recordNInnerOn Hist.recordNInner
  simp only [Hist.mutAtOn_eq hl]
  cases h.mutAt v with
  | error e => rfl
  | ok o => cases o <;> rfl

/-- the loop of `record_n_correct`, once its values are covered -/
theorem WF.correctLoopOn_eq (count interval : Nat) (hc : count ≤ T.max) (fuel : Nat) : ∀ {h : Hist T}, WF fp h →
    h.counts.length ≤ t.usizeMax → ∀ m, m ≤ U64MAX → h.lidx m < h.counts.length →
    Hist.correctLoopOn t count interval fuel h m = Hist.correctLoop count interval fuel h m ∧
    ∀ h' r, Hist.correctLoop count interval fuel h m = .ok (h', r) → h'.counts.length = h.counts.length := by
  induction fuel with
  | zero => intro h W hl m hm hcov; exact ⟨rfl, fun _ _ e => by cases e⟩
  | succ fuel ih =>
    intro h W hl m hm hcov
    unfold Hist.correctLoopOn Hist.correctLoop
    by_cases hi : interval ≤ m
    · rw [if_pos hi, if_pos hi]
      have e1 : h.recordNInnerOn t m count false = .ok (h.recorded m count, .ok ()) := W.recordNOn_cov hm hc hl hcov
      have e2 : h.recordNInner m count false = .ok (h.recorded m count, .ok ()) := W.recordN_cov hm hc hcov
      rw [e1, e2]
      simp only [M.ok_bind]
      rw [subU_ok hi]
      simp only [M.ok_bind]
      have hlen : (h.recorded m count).counts.length = h.counts.length := by simp [Hist.recorded]
      have hmono : h.lidx (m - interval) ≤ h.lidx m := Lay.idx_mono (by omega)
      have := ih (W.recorded hm hcov) (by rw [hlen]; exact hl) (m - interval) (by omega) (by
        rw [hlen, recorded_lidx]; omega)
      rw [hlen] at this
      exact this
    · rw [if_neg hi, if_neg hi]
      exact ⟨rfl, fun h' r e => by cases e; rfl⟩

theorem WF.recordNCorrectOn_eq {h : Hist T} (W : WF fp h) {v c : Nat} (i : Nat) (hv : v ≤ U64MAX) (hc : c ≤ T.max)
    (hl : h.counts.length ≤ t.usizeMax) :
    h.recordNCorrectOn t v c i = t.outcome h .ResizeFailedUsizeTypeTooSmall (h.recordNCorrect v c i) := by
  have e := W.recordN_eq hv hc
  unfold Hist.recordNCorrectOn Hist.recordNCorrect
  rw [W.recordNOn_eq hv hc hl]
  by_cases ho : h.lidx v < h.counts.length ∨ h.autoResize = true
  · rw [if_pos ho] at e
    rw [e]
    have hg := W.growTo_cov v
    have Wg := W.growTo hv
    have Wr : WF fp ((h.growTo v).recorded v c) := Wg.recorded hv (by
      have : (h.growTo v).lidx v = h.lidx v := by simp [Hist.lidx]
      rw [this]; simpa [Hist.lidx] using hg)
    generalize hk : (h.growTo v).recorded v c = k at *
    have hkl : k.lidx v < k.counts.length := by
      subst hk
      rw [recorded_lidx]
      have : (h.growTo v).lidx v = h.lidx v := by simp [Hist.lidx]
      rw [this]; simpa [Hist.recorded, Hist.lidx] using hg
    -- the rest, on the grown histogram
    have rest : k.counts.length ≤ t.usizeMax →
        (if i = 0 then (pure (k, .ok ()) : M (Hist T × Except RecordError Unit))
          else if i < v then do
            let missing ← subU v i
            Hist.correctLoopOn t c i (v + 1) k missing
          else pure (k, .ok ())) =
        (if i = 0 then (pure (k, .ok ()) : M (Hist T × Except RecordError Unit))
          else if i < v then do
            let missing ← subU v i
            Hist.correctLoop c i (v + 1) k missing
          else pure (k, .ok ())) := by
      intro hk1
      split
      · rfl
      split
      · rename_i hlt
        rw [subU_ok hlt.le]
        simp only [M.ok_bind]
        have hmono : k.lidx (v - i) ≤ k.lidx v := Lay.idx_mono (by omega)
        exact (Wr.correctLoopOn_eq c i hc (v + 1) hk1 (v - i) (by omega) (by omega)).1
      · rfl
    -- the final length
    have final : ∀ h' r, (if i = 0 then (pure (k, .ok ()) : M (Hist T × Except RecordError Unit))
          else if i < v then do
            let missing ← subU v i
            Hist.correctLoop c i (v + 1) k missing
          else pure (k, .ok ())) = .ok (h', r) → h'.counts.length = k.counts.length := by
      intro h' r e'
      split at e'
      · cases e'; rfl
      split at e'
      · rename_i hlt
        rw [subU_ok hlt.le] at e'
        simp only [M.ok_bind] at e'
        have hmono : k.lidx (v - i) ≤ k.lidx v := Lay.idx_mono (by omega)
        exact (Wr.correctLoopOn_eq (t := ⟨64, le_rfl, fun _ _ => false, by simp⟩) c i hc (v + 1) (by
          have := Wr.len_le_all
          have := Lay.allSlots_lt (um := k.unitMag) Wr.mag17
          have h2 : k.lall < 2 ^ 24 := this
          show _ ≤ 2 ^ 64 - 1
          norm_num at h2 ⊢
          omega) (v - i) (by omega) (by omega)).2 _ _ e'
      · cases e'; rfl
    -- `record_n_correct` does end
    obtain ⟨h', r', e64⟩ : ∃ h' r', (if i = 0 then (pure (k, .ok ()) : M (Hist T × Except RecordError Unit))
          else if i < v then do
            let missing ← subU v i
            Hist.correctLoop c i (v + 1) k missing
          else pure (k, .ok ())) = .ok (h', r') := by
      obtain ⟨h', r', e'⟩ : ∃ h' r', h.recordNCorrect v c i = .ok (h', r') := by
        rw [recordNCorrect_eq]
        obtain ⟨h', r', e', -⟩ := W.recordSeq_spec ((v :: hiddenSeries v i).map fun v => (v, c)) (by
          intro p hp
          rw [List.mem_map] at hp
          obtain ⟨x, hx, rfl⟩ := hp
          refine ⟨?_, hc⟩
          rcases List.mem_cons.mp hx with rfl | hx
          · exact hv
          · have := (hiddenSeries_lt hx).1
            omega)
        exact ⟨h', r', e'⟩
      unfold Hist.recordNCorrect at e'
      rw [e, M.ok_bind] at e'
      exact ⟨h', r', e'⟩
    have hf := final _ _ e64
    unfold Target.outcome
    rw [M.ok_bind, M.ok_bind]
    simp only
    rw [e64, M.ok_bind]
    unfold Hist.distinctValues
    simp only [hf]
    by_cases h1 : k.counts.length ≤ h.counts.length
    · rw [if_pos h1, if_pos h1]
      exact (rest (by omega)).trans e64
    rw [if_neg h1, if_neg h1]
    by_cases h2 : t.usizeMax < k.counts.length
    · rw [if_pos h2, if_pos h2]; rfl
    rw [if_neg h2, if_neg h2]
    by_cases h3 : t.allocates T.bytes k.counts.length = true
    · rw [if_pos h3, if_pos h3]
      exact (rest (by omega)).trans e64
    · rw [if_neg h3, if_neg h3]; rfl
  · rw [if_neg ho] at e
    rw [e, Target.outcome_same le_rfl]
    exact (Target.outcome_same le_rfl).symm

/-! ### addition -/

theorem addRecordLoopOn_eq {s : Hist T} (Ws : WF fp s) (hs : s.counts.length ≤ t.usizeMax) (is : List Nat) :
    ∀ h : Hist T, WF fp h → h.counts.length ≤ t.usizeMax → (∀ i ∈ is, i < s.counts.length) →
      (∀ i ∈ is, h.lidx (s.lval i) < h.counts.length) →
      Hist.addRecordLoopOn t s is h = Hist.addRecordLoop s is h := by
  induction is with
  | nil => intros; rfl
  | cons i is ih =>
    intro h W hl hlen hcov
    have hi := hlen i (by simp)
    unfold Hist.addRecordLoopOn Hist.addRecordLoop
    rw [WF.countAtIndex hi, expectM_some, M.ok_bind, M.ok_bind]
    by_cases hc : s.counts.getD i 0 = 0
    · rw [if_neg (by rw [hc]; simp), if_neg (by rw [hc]; simp)]
      exact ih h W hl (fun k hk => hlen k (by simp [hk])) (fun k hk => hcov k (by simp [hk]))
    · have hv := Ws.lval_le hi
      have hcc := hcov i (by simp)
      rw [if_pos hc, if_pos hc, Ws.valueForOn_eq hs, Ws.valueFor hi, M.ok_bind, M.ok_bind,
        W.recordN_cov hv (Ws.getD_le i) hcc, W.recordNOn_cov hv (Ws.getD_le i) hl hcc, M.ok_bind, M.ok_bind]
      simp only
      have hl1 : (h.recorded (s.lval i) (s.counts.getD i 0)).counts.length = h.counts.length := by
        simp [Hist.recorded]
      exact ih _ (W.recorded hv hcc) (by rw [hl1]; exact hl) (fun k hk => hlen k (by simp [hk]))
        (fun k hk => by rw [hl1]; exact hcov k (by simp [hk]))

theorem WF.addBodyOn_eq {h s : Hist T} (W : WF fp h) (Ws : WF fp s) (hl : h.counts.length ≤ t.usizeMax)
    (hs : s.counts.length ≤ t.usizeMax) (hcov : h.lidx s.lmax < h.counts.length) :
    h.addBodyOn t s = h.addBody s := by
  unfold Hist.addBodyOn
  simp only [beq_matching]
  by_cases hm : h.matching s
  · rw [if_pos (by simpa using hm)]
  · rw [if_neg (by simpa using hm)]
    unfold Hist.addBody
    simp only [beq_matching]
    rw [if_neg (by simp [hm]), if_neg (by simp [hm])]
    have hx : s.lidx s.lmax < s.counts.length := by rw [Ws.lidx_lmax]; exact Ws.maxcov
    have hcv : ∀ i, i ≤ s.lidx s.lmax → h.lidx (s.lval i) < h.counts.length := by
      intro i hi
      have h1 : s.lval i ≤ s.lmax := Lay.val_le_iff.mpr hi
      have h2 : h.lidx (s.lval i) ≤ h.lidx s.lmax := Lay.idx_mono h1
      omega
    unfold Hist.indexForOn
    rw [Ws.max_eq, M.ok_bind, M.ok_bind, indexFor_eq Ws.toLayoutOK lmax_le, M.ok_bind]
    simp only
    rw [Target.toUsize_some (by omega)]
    simp only [M.pure_eq, M.ok_bind, expectM_some]
    rw [WF.countAtIndex hx]
    simp only [M.ok_bind, expectM_some]
    rw [Ws.valueForOn_eq hs, Ws.valueFor hx]
    simp only [M.ok_bind]
    have hv := Ws.lval_le hx
    have hcc := hcv _ le_rfl
    rw [W.recordN_cov hv (Ws.getD_le _) hcc, W.recordNOn_cov hv (Ws.getD_le _) hl hcc]
    simp only [M.ok_bind]
    have hl1 : (h.recorded (s.lval (s.lidx s.lmax)) (s.counts.getD (s.lidx s.lmax) 0)).counts.length = h.counts.length := by
      simp [Hist.recorded]
    refine addRecordLoopOn_eq Ws hs _ _ (W.recorded hv hcc) (by rw [hl1]; exact hl) (fun k hk => ?_) (fun k hk => ?_)
    · rw [List.mem_range] at hk; omega
    · rw [List.mem_range] at hk
      rw [hl1, recorded_lidx]; exact hcv k hk.le

theorem WF.addOn_eq {h s : Hist T} (W : WF fp h) (Ws : WF fp s) (hl : h.counts.length ≤ t.usizeMax)
    (hs : s.counts.length ≤ t.usizeMax) :
    h.addOn t s = t.outcome h .ResizeFailedUsizeTypeTooSmall (h.add s) := by
  unfold Hist.addOn Hist.add
  by_cases h0 : s.isEmpty = true
  · rw [if_pos h0, if_pos h0]; exact (Target.outcome_same le_rfl).symm
  rw [if_neg h0, if_neg h0]
  have hs0 : s.totalCount ≠ 0 := by simpa [Hist.isEmpty] using h0
  have := W.len_pos
  rw [W.lastIndex, M.ok_bind, M.ok_bind, W.valueForOn_eq hl, W.valueFor (by omega), M.ok_bind, M.ok_bind,
    highestEquivalent_eq W.toLayoutOK (W.lval_le (by omega)), M.ok_bind, M.ok_bind, Ws.max_eq, M.ok_bind, M.ok_bind]
  change (if h.ltop < s.lmax then _ else _) = t.outcome h _ (if h.ltop < s.lmax then _ else _)
  obtain ⟨Wg, hcov, hcfg, hget, htot, hmx, hmn, hlen, hres⟩ := W.addGrown (s := s)
  obtain ⟨h', b1, -, -, -, -, b5, -⟩ := Wg.addBody_spec Ws hs0 hcov
  by_cases hlt : h.ltop < s.lmax
  · rw [if_pos hlt, if_pos hlt]
    by_cases ha : h.autoResize = true
    swap
    · rw [if_pos (by simpa using ha), if_pos (by simpa using ha)]; exact (Target.outcome_same le_rfl).symm
    rw [if_neg (by simp [ha]), if_neg (by simp [ha]), hres hlt, M.ok_bind, b1, M.ok_bind]
    have hg : h.addGrown s = h.resized s.lmax := by unfold Hist.addGrown; rw [if_pos hlt]
    have h2l : 2 * h.lowestDiscernible ≤ s.lmax := by
      have h1 := Wg.highlow
      rw [hg] at h1
      exact h1
    rw [resizeOn_eq W.toLayoutOK lmax_le h2l, ← hg]
    unfold Target.outcome Hist.distinctValues
    simp only [M.pure_eq, M.ok_bind, b5]
    by_cases hu : t.usizeMax < (h.addGrown s).counts.length
    · rw [if_pos hu, if_neg (by omega), if_pos hu]; rfl
    rw [if_neg hu, if_neg hu]
    by_cases hle : (h.addGrown s).counts.length ≤ h.counts.length
    · rw [Target.grow_same _ _ _ _ hle, if_pos hle]
      change (do let h ← (h.addGrown s).addBodyOn t s; pure (h, Except.ok ()) : M (Hist T × Except AdditionError Unit)) = _
      rw [Wg.addBodyOn_eq Ws (by omega) hs hcov, b1]; rfl
    · rw [Target.grow_more _ _ _ _ (by omega), if_neg hle]
      by_cases hal : t.allocates T.bytes (h.addGrown s).counts.length = true
      · rw [if_pos hal, if_pos hal]
        change (do let h ← (h.addGrown s).addBodyOn t s; pure (h, Except.ok ()) : M (Hist T × Except AdditionError Unit)) = _
        rw [Wg.addBodyOn_eq Ws (by omega) hs hcov, b1]; rfl
      · rw [if_neg hal, if_neg hal]; rfl
  · rw [if_neg hlt, if_neg hlt]
    have hg : h.addGrown s = h := by unfold Hist.addGrown; rw [if_neg hlt]
    rw [hg] at b1 hcov b5
    rw [W.addBodyOn_eq Ws hl hs hcov, b1, M.ok_bind]
    exact (Target.outcome_same b5.le).symm

/-! ### subtraction -/

theorem subtractLoopOn_eq {s : Hist T} (Ws : WF fp s) (hs : s.counts.length ≤ t.usizeMax) (a b : Nat) (is : List Nat) :
    ∀ (h : Hist T) (q : Bool), h.counts.length ≤ t.usizeMax →
      Hist.subtractLoopOn t s a b is h q = Hist.subtractLoop s a b is h q := by
  induction is with
  | nil => intros; rfl
  | cons i is ih =>
    intro h q hl
    unfold Hist.subtractLoopOn Hist.subtractLoop
    cases s.countAtIndex i with
    | none => rfl
    | some oc =>
      simp only [expectM_some, M.ok_bind]
      by_cases hc : oc = 0
      · rw [if_neg (by simpa using hc), if_neg (by simpa using hc)]; exact ih h q hl
      rw [if_pos hc, if_pos hc, Ws.valueForOn_eq hs]
      cases s.valueFor i with
      | error e => rfl
      | ok ov =>
        simp only [M.ok_bind]
        rw [Hist.mutAtOn_eq hl]
        cases h.mutAt ov with
        | error e => rfl
        | ok o =>
          cases o with
          | none => rfl
          | some j =>
            simp only [M.ok_bind]
            cases checkedSub (h.counts.getD j 0) oc with
            | none => rfl
            | some c =>
              simp only
              split
              · exact ih _ _ (by simpa using hl)
              · cases checkedSub h.totalCount oc with
                | none => rfl
                | some n => exact ih _ _ (by simpa using hl)

theorem WF.subtractOn_eq {h s : Hist T} (W : WF fp h) (Ws : WF fp' s) (hl : h.counts.length ≤ t.usizeMax)
    (hs : s.counts.length ≤ t.usizeMax) : h.subtractOn t s = h.subtract s := by
  unfold Hist.subtractOn Hist.subtract
  simp only [W.valueForOn_eq hl, subtractLoopOn_eq Ws hs _ _ _ _ _ hl]
  rfl

/-! ### the constructor and queries -/

theorem newWithBoundsOn_eq (t : Target) (fp : Fp) (T : CounterTy) {low high sigfig : Nat} (hh : high ≤ U64MAX) :
    Hist.newWithBoundsOn t fp T low high sigfig =
      (Hist.newWithBounds fp T low high sigfig).bind fun
        | .error e => .ok (.error e)
        | .ok h => if t.usizeMax < h.counts.length then .ok (.error .UsizeTypeTooSmall)
          else if t.allocates T.bytes h.counts.length then .ok (.ok h) else .error .capacity := by
  unfold Hist.newWithBoundsOn Hist.newWithBounds
  rw [newUnsized_eq, M.ok_bind, M.ok_bind]
  by_cases h1 : low < 1
  · simp only [if_pos h1, M.pure_eq]; rfl
  by_cases h2 : U64MAX / 2 < low
  · simp only [if_neg h1, if_pos h2, M.pure_eq]; rfl
  by_cases h3 : high < 2 * low
  · simp only [if_neg h1, if_neg h2, if_pos h3, M.pure_eq]; rfl
  by_cases h4 : 5 < sigfig
  · simp only [if_neg h1, if_neg h2, if_neg h3, if_pos h4, M.pure_eq]; rfl
  by_cases h5 : 63 < fp.log2Floor low + Hist.subBucketCountMag sigfig
  · simp only [if_neg h1, if_neg h2, if_neg h3, if_neg h4, if_pos h5, M.pure_eq]; rfl
  simp only [if_neg h1, if_neg h2, if_neg h3, if_neg h4, if_neg h5]
  have hbl := blank_layout (fp := fp) (T := T) (low := low) (high := high) (sigfig := sigfig)
    (by omega) (by omega)
  have hl2 : 2 * (Hist.blank fp T low high sigfig).lowestDiscernible ≤ high := by simp only [Hist.blank]; omega
  rw [resize_eq hbl (high := high) hh hl2, resizeOn_eq hbl (high := high) hh hl2, M.ok_bind]
  change _ = if t.usizeMax < ((Hist.blank fp T low high sigfig).resized high).counts.length then _
    else if t.allocates T.bytes ((Hist.blank fp T low high sigfig).resized high).counts.length then
      (Except.ok (Except.ok ((Hist.blank fp T low high sigfig).resized high)) : M (Except CreationError (Hist T))) else _
  have hpos : 0 < ((Hist.blank fp T low high sigfig).resized high).counts.length := by
    simp only [Hist.resized, length_vecResize]; positivity
  generalize (Hist.blank fp T low high sigfig).resized high = g at *
  by_cases hu : t.usizeMax < g.counts.length
  · rw [if_pos hu, if_pos hu]; rfl
  rw [if_neg hu, if_neg hu, Target.grow_more _ _ _ _ (by simpa [Hist.blank] using hpos)]
  by_cases hal : t.allocates T.bytes g.counts.length = true
  · rw [if_pos hal, if_pos hal]; rfl
  · rw [if_neg hal, if_neg hal]; rfl

theorem countAtOn_eq {h : Hist T} (hl : h.counts.length ≤ t.usizeMax) (v : Nat) : h.countAtOn t v = h.countAt v := by
  unfold Hist.countAtOn Hist.countAt
  rw [Hist.indexForOrLastOn_eq hl]

theorem indexForOrLast_lt {h : Hist T} {v i : Nat} (e : h.indexForOrLast v = .ok i) : i < h.counts.length := by
  unfold Hist.indexForOrLast at e
  rw [M.bind_eq_ok] at e
  obtain ⟨o, -, e⟩ := e
  rw [M.bind_eq_ok] at e
  obtain ⟨l, e1, e⟩ := e
  unfold Hist.lastIndex checkedSub Hist.distinctValues at e1
  split at e1
  swap
  · cases e1
  cases e1
  cases o with
  | none => cases e; dsimp only; omega
  | some k => cases e; dsimp only; omega

theorem countBetweenOn_eq {h : Hist T} (hl : h.counts.length ≤ t.usizeMax) (hl64 : h.counts.length ≤ U64MAX) (v w : Nat) :
    h.countBetweenOn t v w = h.countBetween v w := by
  unfold Hist.countBetweenOn Hist.countBetween
  rw [Hist.indexForOrLastOn_eq hl, Hist.indexForOrLastOn_eq hl]
  cases h.indexForOrLast v with
  | error e => rfl
  | ok lo =>
    simp only [M.ok_bind]
    cases e : h.indexForOrLast w with
    | error e => rfl
    | ok hi =>
      have := indexForOrLast_lt e
      simp only [M.ok_bind]
      rw [Target.toUsize_some (by omega), if_pos (by omega)]

end Hdr
