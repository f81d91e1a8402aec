import Verif.Props.Twin
import Verif.Props.Record

/-!
# C112: counts can be split and collected, equivalent values exchanged
-/

namespace Hdr

variable {T : CounterTy} {fp : Fp}

/-! ### splitting counts -/

private theorem recorded_recorded {h : Hist T} {v a b : Nat} (hc : h.lidx v < h.counts.length) :
    (h.recorded v a).recorded v b = h.recorded v (a + b) := by
  have e1 : (h.recorded v a).newMax v = h.newMax v := by
    have hl : v ≤ v ||| h.unitMagMask := Nat.left_le_or
    unfold Hist.newMax
    show (if h.newMax v < v then v ||| h.unitMagMask else h.newMax v) = _
    unfold Hist.newMax
    split <;> first | rfl | (split <;> omega)
  have e2 : (h.recorded v a).newMin v = h.newMin v := by
    have hl : v &&& Hist.notU64 h.unitMagMask ≤ v := Nat.and_le_left
    unfold Hist.newMin
    show (if v < h.newMin v ∧ h.unitMagMask < v then v &&& Hist.notU64 h.unitMagMask else h.newMin v) = _
    unfold Hist.newMin
    split <;> first | rfl | (split <;> omega)
  have e3 : (h.recorded v a).counts.set (h.lidx v) (T.satAdd ((h.recorded v a).counts.getD (h.lidx v) 0) b) =
      h.counts.set (h.lidx v) (T.satAdd (h.counts.getD (h.lidx v) 0) (a + b)) := by
    have hg : (h.counts.set (h.lidx v) (T.satAdd (h.counts.getD (h.lidx v) 0) a)).getD (h.lidx v) 0 =
        T.satAdd (h.counts.getD (h.lidx v) 0) a := by
      rw [List.getD_eq_getElem?_getD, List.getElem?_set_self hc]; rfl
    show (h.counts.set _ _).set _ (T.satAdd ((h.counts.set (h.lidx v) _).getD (h.lidx v) 0) b) = _
    rw [List.set_set, hg]
    congr 1
    unfold CounterTy.satAdd
    omega
  have e4 : Hdr.satAdd (Hdr.satAdd h.totalCount a) b = Hdr.satAdd h.totalCount (a + b) := by
    unfold Hdr.satAdd; omega
  show ({ h.recorded v a with
    counts := (h.recorded v a).counts.set (h.lidx v) (T.satAdd ((h.recorded v a).counts.getD (h.lidx v) 0) b)
    maxValue := (h.recorded v a).newMax v
    minNonZero := (h.recorded v a).newMin v
    totalCount := Hdr.satAdd (Hdr.satAdd h.totalCount a) b } : Hist T) = _
  rw [e1, e2, e3, e4]
  rfl

private theorem WF.again {h : Hist T} (W : WF fp h) {v a b : Nat} :
    (((h.growTo v).recorded v a).growTo v).recorded v b = (h.growTo v).recorded v (a + b) := by
  have hc : (h.growTo v).lidx v < (h.growTo v).counts.length := by
    rw [(growTo_config h v).lidx]; exact W.growTo_cov v
  have hg : ((h.growTo v).recorded v a).growTo v = (h.growTo v).recorded v a := by
    unfold Hist.growTo
    apply if_pos
    show (h.growTo v).lidx v < (List.set _ _ _).length
    rw [List.length_set]
    exact hc
  rw [hg, recorded_recorded hc]

private theorem WF.twice {h : Hist T} (W : WF fp h) {v a b : Nat} (hv : v ≤ U64MAX) (hab : a + b ≤ T.max) :
    (h.recordN v a >>= fun r => r.1.recordN v b) = h.recordN v (a + b) := by
  rw [W.recordN_eq hv (by omega), W.recordN_eq hv hab]
  by_cases hc : h.lidx v < h.counts.length ∨ h.autoResize = true
  · rw [if_pos hc, if_pos hc, M.ok_bind]
    show ((h.growTo v).recorded v a).recordN v b = _
    rw [(W.record_wf hv).recordN_eq hv (by omega), W.again, if_pos]
    left
    show (h.growTo v).lidx v < (List.set _ _ _).length
    rw [List.length_set, (growTo_config h v).lidx]
    exact W.growTo_cov v
  · rw [if_neg hc, if_neg hc, M.ok_bind]
    show h.recordN v b = _
    rw [W.recordN_eq hv (by omega), if_neg hc]

/-- C112: `record_n(v, a)` followed by `record_n(v, b)` leaves the identical histogram as `record_n(v, a + b)`, and the
second returns what that returns. -/
theorem C112_split {h : Hist T} (R : Reachable fp T h) {v a b : Nat} (hv : v ≤ U64MAX) (hab : a + b ≤ T.max) :
    (do let (h, _) ← h.recordN v a; h.recordN v b) = h.recordN v (a + b) :=
  R.wf.twice hv hab

/-- C112: the same for the saturating form. -/
theorem C112_split_saturating {h : Hist T} (R : Reachable fp T h) {v a b : Nat} (hv : v ≤ U64MAX) :
    (do let h ← h.saturatingRecordN v a; h.saturatingRecordN v b) = h.saturatingRecordN v (a + b) := by
  have W := R.wf
  have hc := W.clampTo_cov v
  have W1 := W.recorded (c := a) (W.clampTo_le hv) hc
  rw [W.saturatingRecordN_eq hv, W.saturatingRecordN_eq hv, M.ok_bind, W1.saturatingRecordN_eq hv]
  have e : (h.recorded (h.clampTo v) a).clampTo v = h.clampTo v := by
    unfold Hist.clampTo
    show (if h.lidx v < (List.set _ _ _).length then v else h.highestTrackable) = _
    rw [List.length_set]
  rw [e, recorded_recorded hc]

/-- C112: `n` calls of `record(v)`, up to the first that fails, do what one `record_n(v, n)` does. -/
theorem C112_times {h : Hist T} (R : Reachable fp T h) {v n : Nat} (hv : v ≤ U64MAX) (h0 : 0 < n) (hn : n ≤ T.max) :
    recordSeq (List.replicate n (v, 1)) h = h.recordN v n := by
  have key : ∀ (n k : Nat) (h : Hist T), WF fp h → 0 < k → k + n ≤ T.max →
      recordSeq ((v, k) :: List.replicate n (v, 1)) h = h.recordN v (k + n) := by
    intro n
    induction n with
    | zero =>
      intro k h W hk hkn
      rw [List.replicate_zero, recordSeq_cons]
      rw [Nat.add_zero, W.recordN_eq hv (by omega)]
      split <;> rfl
    | succ n ih =>
      intro k h W hk hkn
      rw [List.replicate_succ]
      have e : recordSeq ((v, k) :: (v, 1) :: List.replicate n (v, 1)) h =
          recordSeq ((v, k + 1) :: List.replicate n (v, 1)) h := by
        rw [recordSeq_cons, recordSeq_cons v (k + 1), ← W.twice hv (by omega : k + 1 ≤ T.max),
          W.recordN_eq hv (by omega)]
        by_cases hc : h.lidx v < h.counts.length ∨ h.autoResize = true
        · rw [if_pos hc, M.ok_bind, M.ok_bind]
          rfl
        · rw [if_neg hc, M.ok_bind, M.ok_bind]
          show _ = (h.recordN v 1 >>= _)
          rw [W.recordN_eq hv (by omega), if_neg hc, M.ok_bind]
      rw [e, ih (k + 1) h W (by omega) (by omega)]
      congr 1
      omega
  obtain ⟨m, rfl⟩ : ∃ m, n = m + 1 := ⟨n - 1, by omega⟩
  rw [List.replicate_succ, key m 1 h R.wf (by omega) (by omega), Nat.add_comm]

private theorem split_seq {a b : Nat} (hab : a + b ≤ T.max) : ∀ (l : List Nat) (h : Hist T), WF fp h → (∀ x ∈ l, x ≤ U64MAX) →
    recordSeq (l.flatMap fun x => [(x, a), (x, b)]) h = recordSeq (l.map fun x => (x, a + b)) h := by
  intro l
  induction l with
  | nil => intro h _ _; rfl
  | cons x l ih =>
    intro h W hl
    have hx : x ≤ U64MAX := hl x (by simp)
    rw [List.flatMap_cons, List.map_cons, recordSeq_cons]
    show recordSeq ((x, a) :: (x, b) :: _) h = _
    rw [recordSeq_cons, ← W.twice hx hab, W.recordN_eq hx (by omega)]
    by_cases hc : h.lidx x < h.counts.length ∨ h.autoResize = true
    · rw [if_pos hc, M.ok_bind, M.ok_bind]
      show recordSeq ((x, b) :: _) _ = (Hist.recordN _ x b >>= _)
      have W1 := W.record_wf (c := a) hx
      rw [recordSeq_cons, W1.recordN_eq hx (by omega)]
      split
      · rw [M.ok_bind, M.ok_bind]
        exact ih _ (W1.record_wf hx) fun y hy => hl y (by simp [hy])
      · rfl
    · rw [if_neg hc, M.ok_bind, M.ok_bind]
      show _ = (h.recordN x b >>= _)
      rw [W.recordN_eq hx (by omega), if_neg hc, M.ok_bind]

private theorem split_perm (a b : Nat) : ∀ l : List Nat,
    (l.flatMap fun x => [(x, a), (x, b)]).Perm (l.map (fun x => (x, a)) ++ l.map fun x => (x, b)) := by
  intro l
  induction l with
  | nil => exact List.Perm.refl _
  | cons x l ih =>
    rw [List.flatMap_cons, List.map_cons, List.map_cons]
    show ((x, a) :: (x, b) :: _).Perm ((x, a) :: (_ ++ (x, b) :: _))
    exact ((ih.cons (x, b)).trans List.perm_middle.symm).cons (x, a)

/-- C112: and for the corrected form: all samples of the series can be entered in two goes. -/
theorem C112_split_correct {h : Hist T} (R : Reachable fp T h) {v a b i : Nat} (hv : v ≤ U64MAX) (hab : a + b ≤ T.max) :
    (do let (h, _) ← h.recordNCorrect v a i; h.recordNCorrect v b i) = h.recordNCorrect v (a + b) i := by
  have W := R.wf
  have hx : ∀ x ∈ v :: hiddenSeries v i, x ≤ v := by
    intro x hx
    rw [List.mem_cons] at hx
    rcases hx with rfl | hx
    · exact le_rfl
    · exact (hiddenSeries_lt hx).1.le
  by_cases hc : h.lidx v < h.counts.length ∨ h.autoResize = true
  · rw [recordNCorrect_eq h v (a + b), ← split_seq hab _ h W fun x m => (hx x m).trans hv]
    have hl : ∀ p ∈ (v :: hiddenSeries v i).flatMap (fun x => [(x, a), (x, b)]), p.1 ≤ v ∧ p.2 ≤ T.max := by
      intro p hp
      rw [List.mem_flatMap] at hp
      obtain ⟨x, hxm, hp⟩ := hp
      have := hx x hxm
      rw [List.mem_cons, List.mem_singleton] at hp
      rcases hp with rfl | rfl
      · exact ⟨this, by show a ≤ _; omega⟩
      · exact ⟨this, by show b ≤ _; omega⟩
    obtain ⟨h', r, e, hr⟩ := C14_success R (l := (v :: hiddenSeries v i).flatMap fun x => [(x, a), (x, b)])
      fun p hp => ⟨(hl p hp).1.trans hv, (hl p hp).2⟩
    have hr : r = .ok () := by
      rw [hr]
      rcases hc with hc | hc
      · right
        intro p hp
        rw [W.covers_iff]
        exact lt_of_le_of_lt (Lay.idx_mono (hl p hp).1) hc
      · exact .inl hc
    subst hr
    have e' := WF.recordSeq_perm (split_perm a b (v :: hiddenSeries v i)) W
      (fun p hp => ⟨(hl p hp).1.trans hv, (hl p hp).2⟩) e
    rw [e]
    rw [recordSeq_append, ← recordNCorrect_eq] at e'
    generalize h.recordNCorrect v a i = m at e' ⊢
    cases m with
    | error x => cases e'
    | ok q =>
      obtain ⟨g, r⟩ := q
      cases r with
      | error x => cases e'
      | ok u =>
        rw [← e']
        show g.recordNCorrect v b i = recordSeq _ g
        rw [recordNCorrect_eq]
  · have no : ∀ c ≤ T.max, h.recordNCorrect v c i = .ok (h, .error .ValueOutOfRangeResizeDisabled) := by
      intro c hcc
      rw [recordNCorrect_eq, List.map_cons, recordSeq_cons, W.recordN_eq hv hcc, if_neg hc]
      rfl
    rw [no a (by omega), no (a + b) hab]
    exact no b (by omega)

/-! ### exchanging equivalent values -/

theorem MaxLike.trans {h : Hist T} {x y z : Nat} (A : MaxLike h x y) (B : MaxLike h y z) : MaxLike h x z :=
  ⟨A.le, B.le', A.masked, B.masked', A.zero.trans B.zero, A.top.trans B.top, A.cls.trans B.cls⟩

theorem MinLike.trans {h : Hist T} {x y z : Nat} (A : MinLike h x y) (B : MinLike h y z) : MinLike h x z :=
  ⟨A.le, B.le', A.top.trans B.top, A.cls.trans B.cls⟩

theorem Twin.trans {a b c : Hist T} (t : Twin a b) (u : Twin b c) : Twin a c := by
  obtain ⟨L, x, y, rfl, M, N⟩ := t
  obtain ⟨-, x', y', rfl, M', N'⟩ := u
  have S : SameShape (a.stats x y) a := by constructor <;> rfl
  exact ⟨L, x', y', rfl, M.trans (S.maxLike M'), N.trans (S.minLike N')⟩

private theorem lidx_and_mask {h : Hist T} (L : LayoutOK h) {v : Nat} (hv : v ≤ U64MAX) :
    h.lidx (v &&& Hist.notU64 h.unitMagMask) = h.lidx v := by
  rw [L.ummask, and_not_mask hv (by have := L.sum62; omega)]
  exact unit_idx _ _ _

/-- values of one class, neither 0, not of the class of the largest of all, leave twins -/
private theorem Twin.exchange {h : Hist T} (t : Twin h h) {v w c : Nat} (hv : v ≤ U64MAX) (hw : w ≤ U64MAX)
    (hvw : h.lidx v = h.lidx w) (hv0 : v ≠ 0) (hw0 : w ≠ 0) (ht : h.lidx v ≠ h.lidx U64MAX) :
    Twin (h.recorded v c) (h.recorded w c) := by
  obtain ⟨L, x0, y0, -, M0, N0⟩ := t
  have M := M0.self
  have N := N0.self
  have top : ∀ z, h.lidx z = h.lidx v → z ≠ U64MAX := by
    rintro z hz rfl; exact ht hz.symm
  have orle : ∀ z, z ≤ U64MAX → z ||| h.unitMagMask ≤ U64MAX := by
    intro z hz
    rw [L.ummask]; exact or_mask_le hz (by have := L.sum62; omega)
  -- the maximum
  have one : ∀ v w, v ≤ U64MAX → w ≤ U64MAX → h.lidx v = h.lidx w → v ≠ 0 → w ≠ 0 → h.lidx v ≠ h.lidx U64MAX →
      h.maxValue < v → MaxLike h (h.newMax v) (h.newMax w) := by
    intro v w hv hw hvw hv0 hw0 ht h1
    have top : ∀ z, h.lidx z = h.lidx v → z ≠ U64MAX := by
      rintro z hz rfl; exact ht hz.symm
    have e1 : h.newMax v = v ||| h.unitMagMask := if_pos h1
    have lv : v ≤ v ||| h.unitMagMask := Nat.left_le_or
    have lw : w ≤ w ||| h.unitMagMask := Nat.left_le_or
    have tv := top _ (lidx_or_mask L v)
    by_cases h2 : h.maxValue < w
    · have e2 : h.newMax w = w ||| h.unitMagMask := if_pos h2
      have tw := top _ ((lidx_or_mask L w).trans hvw.symm)
      rw [e1, e2]
      exact ⟨orle v hv, orle w hw, .inr (or_mask_idem _ _), .inr (or_mask_idem _ _), by omega, by omega,
        by rw [lidx_or_mask L, lidx_or_mask L, hvw]⟩
    · have e2 : h.newMax w = h.maxValue := if_neg h2
      have hm : h.lidx h.maxValue = h.lidx v := by
        apply le_antisymm
        · exact Lay.idx_mono h1.le
        · rw [hvw]; exact Lay.idx_mono (by omega)
      have tm := top _ hm
      rw [e1, e2]
      exact ⟨orle v hv, M.le, .inr (or_mask_idem _ _), M.masked, by omega, by omega, by rw [lidx_or_mask L, hm]⟩
  have M' : MaxLike h (h.newMax v) (h.newMax w) := by
    by_cases h1 : h.maxValue < v
    · exact one v w hv hw hvw hv0 hw0 ht h1
    · by_cases h2 : h.maxValue < w
      · exact (one w v hw hv hvw.symm hw0 hv0 (hvw ▸ ht) h2).symm
      · have e1 : h.newMax v = h.maxValue := if_neg h1
        have e2 : h.newMax w = h.maxValue := if_neg h2
        rw [e1, e2]; exact M
  -- the minimum
  have gap : ∀ z, h.unitMagMask < z ↔ h.lidx z ≠ 0 := by
    intro z
    have hp : 0 < 2 ^ h.unitMag := by positivity
    have := Lay.idx_eq_zero_iff (um := h.unitMag) (m := h.subBucketHalfCountMag) (v := z)
    rw [L.ummask]
    show _ ↔ Lay.idx _ _ _ ≠ 0
    rw [ne_eq, this]
    omega
  have onen : ∀ v w, v ≤ U64MAX → w ≤ U64MAX → h.lidx v = h.lidx w → h.lidx v ≠ h.lidx U64MAX → h.unitMagMask < v →
      v < h.minNonZero → MinLike h (h.newMin v) (h.newMin w) := by
    intro v w hv hw hvw ht hg h1
    have top : ∀ z, h.lidx z = h.lidx v → z ≠ U64MAX := by
      rintro z hz rfl; exact ht hz.symm
    have hg' : h.unitMagMask < w := by rw [gap, ← hvw, ← gap]; exact hg
    have e1 : h.newMin v = v &&& Hist.notU64 h.unitMagMask := if_pos ⟨h1, hg⟩
    have lv : v &&& Hist.notU64 h.unitMagMask ≤ v := Nat.and_le_left
    have lw : w &&& Hist.notU64 h.unitMagMask ≤ w := Nat.and_le_left
    have tv := top _ (lidx_and_mask L hv)
    by_cases h2 : w < h.minNonZero
    · have e2 : h.newMin w = w &&& Hist.notU64 h.unitMagMask := if_pos ⟨h2, hg'⟩
      have tw := top _ ((lidx_and_mask L hw).trans hvw.symm)
      rw [e1, e2]
      exact ⟨by omega, by omega, by omega, by rw [lidx_and_mask L hv, lidx_and_mask L hw, hvw]⟩
    · have e2 : h.newMin w = h.minNonZero := if_neg (by omega)
      have hm : h.lidx h.minNonZero = h.lidx v := by
        apply le_antisymm
        · rw [hvw]; exact Lay.idx_mono (by omega)
        · exact Lay.idx_mono h1.le
      have tm := top _ hm
      rw [e1, e2]
      exact ⟨by omega, N.le, by omega, by rw [lidx_and_mask L hv, hm]⟩
  have N' : MinLike h (h.newMin v) (h.newMin w) := by
    by_cases hg : h.unitMagMask < v
    · have hg' : h.unitMagMask < w := by rw [gap, ← hvw, ← gap]; exact hg
      by_cases h1 : v < h.minNonZero
      · exact onen v w hv hw hvw ht hg h1
      · by_cases h2 : w < h.minNonZero
        · have Z := onen w v hw hv hvw.symm (hvw ▸ ht) hg' h2
          exact ⟨Z.le', Z.le, Z.top.symm, Z.cls.symm⟩
        · have e1 : h.newMin v = h.minNonZero := if_neg (by omega)
          have e2 : h.newMin w = h.minNonZero := if_neg (by omega)
          rw [e1, e2]; exact N
    · have hg' : ¬ h.unitMagMask < w := by rw [gap, ← hvw, ← gap]; exact hg
      have e1 : h.newMin v = h.minNonZero := if_neg (by omega)
      have e2 : h.newMin w = h.minNonZero := if_neg (by omega)
      rw [e1, e2]; exact N
  refine Twin.of (x := h.newMax w) (y := h.newMin w) L (by constructor <;> rfl) M' N' ?_
  simp only [Hist.recorded, Hist.stats, hvw]

private theorem growTo_congr {h : Hist T} {v w : Nat} (e : h.lidx v = h.lidx w) : h.growTo v = h.growTo w := by
  have hb : h.lbkt v = h.lbkt w := Lay.bkt_eq_of_idx e
  unfold Hist.growTo Hist.resized
  rw [e, hb]

/-- Recording `v` can be replaced by recording `w`: the same value, or an equivalent one, where neither is 0 and the class is
not that of the largest `u64`. -/
def Exchangeable (h : Hist T) (v w : Nat) : Prop :=
  v = w ∨ (Equiv h v w ∧ v ≠ 0 ∧ w ≠ 0 ∧ ¬ Equiv h v U64MAX)

private theorem exchange_twin {a b : Hist T} (Ra : Reachable fp T a) (t : Twin a b) {v w c : Nat}
    (hv : v ≤ U64MAX) (hw : w ≤ U64MAX) (hc : c ≤ T.max) (X : Exchangeable a v w) :
    Rel TwinRes (a.recordN v c) (b.recordN w c) := by
  rcases X with rfl | ⟨e, hv0, hw0, ht⟩
  · exact t.recordN hv
  have W := Ra.wf
  rw [W.equiv_iff hv hw] at e
  rw [W.equiv_iff hv (le_refl _)] at ht
  have t1 : Rel TwinRes (a.recordN v c) (a.recordN w c) := by
    rw [W.recordN_eq hv hc, W.recordN_eq hw hc, e]
    by_cases hcov : a.lidx w < a.counts.length ∨ a.autoResize = true
    · rw [if_pos hcov, if_pos hcov, growTo_congr e]
      have C := growTo_config a w
      have tg : Twin (a.growTo w) (a.growTo w) := by
        obtain ⟨L, x, y, -, M, N⟩ := Ra.twin
        have M := M.self
        have N := N.self
        have S : SameShape a (a.growTo w) := by unfold Hist.growTo; split <;> constructor <;> rfl
        have hx : (a.growTo w).maxValue = a.maxValue := by unfold Hist.growTo; split <;> rfl
        have hy : (a.growTo w).minNonZero = a.minNonZero := by unfold Hist.growTo; split <;> rfl
        exact Twin.mk L M N S hx hy (by rw [← hx, ← hy]; rfl)
      refine ⟨tg.exchange hv hw ?_ hv0 hw0 ?_, rfl⟩
      · rw [C.lidx, C.lidx, e]
      · rw [C.lidx, C.lidx]; exact ht
    · rw [if_neg hcov, if_neg hcov]
      exact ⟨Ra.twin, rfl⟩
  have t2 := t.recordN (v := w) (c := c) hw
  revert t1 t2
  cases a.recordN v c <;> cases a.recordN w c <;> cases b.recordN w c <;> intro t1 t2 <;>
    first | exact t1.elim | exact t2.elim | exact Eq.trans t1 t2 | exact ⟨t1.1.trans t2.1, t1.2.trans t2.2⟩

private theorem Twin.alike {a b : Hist T} (Ra : Reachable fp T a) (Rb : Reachable fp T b) (t : Twin a b) :
    Alike fp ⟨T, a⟩ ⟨T, b⟩ := by
  refine ⟨T, a, b, rfl, rfl, Ra, Rb, ?_, ?_, ?_⟩
  · rw [Twin.eq t.self t]
    obtain ⟨r, er, hr⟩ := Ra.wf.eq_spec Ra.wf
    rw [er, hr.mpr ⟨rfl, rfl, rfl, rfl, rfl, List.prefix_refl _⟩]
  · obtain ⟨L, x, y, rfl, -, -⟩ := t; rfl
  · obtain ⟨L, x, y, rfl, -, -⟩ := t; rfl

/-- C112: If every value of a sequence of `record_n` calls is replaced by one that is exchangeable with it, the sequence ends
with the same result, and what it leaves is interchangeable in the sense of C97: equal, with the same `high()`. -/
theorem C112_exchange {h : Hist T} (R : Reachable fp T h) {l l' : List (Nat × Nat)}
    (hl : ∀ p ∈ l, p.1 ≤ U64MAX ∧ p.2 ≤ T.max) (hl' : ∀ p ∈ l', p.1 ≤ U64MAX)
    (X : List.Forall₂ (fun p q => Exchangeable h p.1 q.1 ∧ p.2 = q.2) l l') :
    ∃ (x y : Hist T) (r : Except RecordError Unit), recordSeq l h = .ok (x, r) ∧ recordSeq l' h = .ok (y, r) ∧
      Alike fp ⟨T, x⟩ ⟨T, y⟩ := by
  have key : ∀ (l l' : List (Nat × Nat)) (a b : Hist T), Reachable fp T a → Reachable fp T b → Twin a b →
      SameConfig h a → (∀ p ∈ l, p.1 ≤ U64MAX ∧ p.2 ≤ T.max) → (∀ p ∈ l', p.1 ≤ U64MAX) →
      List.Forall₂ (fun p q => Exchangeable h p.1 q.1 ∧ p.2 = q.2) l l' →
      ∃ (x y : Hist T) (r : Except RecordError Unit), recordSeq l a = .ok (x, r) ∧ recordSeq l' b = .ok (y, r) ∧
        Alike fp ⟨T, x⟩ ⟨T, y⟩ := by
    intro l l' a b Ra Rb t C hl hl' X
    induction X generalizing a b with
    | nil => exact ⟨a, b, .ok (), rfl, rfl, t.alike Ra Rb⟩
    | @cons p q l l' hpq X ih =>
      obtain ⟨v, c⟩ := p
      obtain ⟨w, d⟩ := q
      obtain ⟨hx, hcd⟩ := hpq
      dsimp only at hx hcd
      subst hcd
      have hvc := hl (v, c) (by simp)
      have hw : w ≤ U64MAX := hl' (w, c) (by simp)
      have hx' : Exchangeable a v w := by
        rcases hx with e | ⟨e, h1, h2, h3⟩
        · exact .inl e
        · refine .inr ⟨?_, h1, h2, ?_⟩
          · rw [Ra.wf.equiv_iff hvc.1 hw, C.lidx, C.lidx, ← R.wf.equiv_iff hvc.1 hw]; exact e
          · rw [Ra.wf.equiv_iff hvc.1 (le_refl _), C.lidx, C.lidx, ← R.wf.equiv_iff hvc.1 (le_refl _)]; exact h3
      have tr := exchange_twin Ra t hvc.1 hw hvc.2 hx'
      rw [recordSeq_cons, recordSeq_cons]
      have ea := Ra.wf.recordN_eq hvc.1 hvc.2
      generalize ea' : a.recordN v c = ra at tr ea ⊢
      generalize eb' : b.recordN w c = rb at tr ⊢
      cases ra with
      | error e => split at ea <;> cases ea
      | ok ra =>
        cases rb with
        | error e => exact tr.elim
        | ok rb =>
          obtain ⟨x, r⟩ := ra
          obtain ⟨y, r'⟩ := rb
          obtain ⟨t', er⟩ := tr
          dsimp only at t' er
          subst er
          have Rx := Ra.recordN hvc.1 hvc.2 ea'
          have Ry := Rb.recordN hw hvc.2 eb'
          cases r with
          | error e => exact ⟨x, y, .error e, rfl, rfl, t'.alike Rx Ry⟩
          | ok u =>
            have C' : SameConfig h x := by
              split at ea
              · injection ea with ea
                injection ea with ea _
                rw [ea]
                exact C.trans ((growTo_config a v).trans (recorded_config _ v c))
              · injection ea with ea
                injection ea with _ ea
                cases ea
            exact ih x y Rx Ry t' C' (fun p hp => hl p (by simp [hp])) (fun p hp => hl' p (by simp [hp]))
  exact key l l' h h R R R.twin (SameConfig.refl h) hl hl' X

/-! ### where values of one class are told apart -/

/-- C112: 0 cannot be exchanged: after recording 3, of the same class, instead, `max()` is another. -/
theorem C112_zero_matters :
    ∃ h a b : Hist .u8, Hist.newWithBounds Fp.ideal .u8 8 64 0 = .ok (.ok h) ∧ Equiv h 0 3 ∧
      h.recordN 0 1 = .ok (a, .ok ()) ∧ h.recordN 3 1 = .ok (b, .ok ()) ∧
      a.max = .ok 0 ∧ b.max = .ok 7 ∧ a.eq b = .ok false := by
  have h : (match Hist.newWithBounds Fp.ideal .u8 8 64 0 with
    | .ok (.ok h) => (match h.recordN 0 1, h.recordN 3 1 with
      | .ok (a, .ok ()), .ok (b, .ok ()) =>
        decide (h.equivalent 0 3 = .ok true ∧ a.max = .ok 0 ∧ b.max = .ok 7 ∧ a.eq b = .ok false)
      | _, _ => false)
    | _ => false) = true := by decide +kernel
  split at h
  · rename_i g e
    split at h
    · rename_i a b ea eb
      have := of_decide_eq_true h
      exact ⟨g, a, b, e, this.1, ea, eb, this.2⟩
    · cases h
  · cases h

/-- C112: nor can the largest of all values: after recording its predecessor instead, `max()` and `min_nz()` are others. -/
theorem C112_top_matters :
    ∃ h a b : Hist .u8, Hist.newWithBounds Fp.ideal .u8 1 U64MAX 0 = .ok (.ok h) ∧ Equiv h U64MAX (U64MAX - 1) ∧
      h.recordN U64MAX 1 = .ok (a, .ok ()) ∧ h.recordN (U64MAX - 1) 1 = .ok (b, .ok ()) ∧
      a.max = .ok U64MAX ∧ b.max = .ok (U64MAX - 1) ∧ a.minNz = .ok U64MAX ∧ b.minNz = .ok (2 ^ 63) ∧
      a.eq b = .ok false := by
  have h : (match Hist.newWithBounds Fp.ideal .u8 1 U64MAX 0 with
    | .ok (.ok h) => (match h.recordN U64MAX 1, h.recordN (U64MAX - 1) 1 with
      | .ok (a, .ok ()), .ok (b, .ok ()) =>
        decide (h.equivalent U64MAX (U64MAX - 1) = .ok true ∧ a.max = .ok U64MAX ∧ b.max = .ok (U64MAX - 1) ∧
          a.minNz = .ok U64MAX ∧ b.minNz = .ok (2 ^ 63) ∧ a.eq b = .ok false)
      | _, _ => false)
    | _ => false) = true := by decide +kernel
  split at h
  · rename_i g e
    split at h
    · rename_i a b ea eb
      have := of_decide_eq_true h
      exact ⟨g, a, b, e, this.1, ea, eb, this.2⟩
    · cases h
  · cases h

example : (do let (h, _) ← demo.recordN 6 2; h.recordN 6 3) = demo.recordN 6 5 :=
  C112_split (fp := Fp.ideal) demo_reachable (by decide) (by decide)

/-- the value is out of range -/
example : (do let h ← demo.saturatingRecordN 100 2; h.saturatingRecordN 100 3) = demo.saturatingRecordN 100 5 :=
  C112_split_saturating (fp := Fp.ideal) demo_reachable (by decide)

/-- 7 with the hidden 5 and 3 -/
example : (do let (h, _) ← demo.recordNCorrect 7 2 2; h.recordNCorrect 7 3 2) = demo.recordNCorrect 7 5 2 :=
  C112_split_correct (fp := Fp.ideal) demo_reachable (by decide) (by decide)

example : recordSeq [(6, 1), (6, 1), (6, 1)] demo = demo.recordN 6 3 :=
  C112_times (fp := Fp.ideal) (n := 3) demo_reachable (by decide) (by decide) (by decide)

/-- 6 and 4 are of one class, as are 2 and 3; the raw statistics differ -/
example : ∃ (x y : Hist .u8) (r : Except RecordError Unit), recordSeq [(6, 1), (2, 5), (0, 1)] demo = .ok (x, r) ∧
    recordSeq [(4, 1), (3, 5), (0, 1)] demo = .ok (y, r) ∧ Alike Fp.ideal ⟨.u8, x⟩ ⟨.u8, y⟩ :=
  C112_exchange demo_reachable (by decide) (by decide)
    (.cons ⟨.inr ⟨by unfold Equiv; decide, by decide, by decide, by unfold Equiv; decide⟩, rfl⟩
      (.cons ⟨.inr ⟨by unfold Equiv; decide, by decide, by decide, by unfold Equiv; decide⟩, rfl⟩
        (.cons ⟨.inl rfl, rfl⟩ .nil)))

end Hdr
