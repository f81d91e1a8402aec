import Verif.Proofs.Bridge
import Verif.Proofs.Order

/-!
# Extremes and totals after sequences of recordings
-/

namespace Hdr

variable {T : CounterTy} {fp : Fp}

theorem mem_le_sum {l : List Nat} {x : Nat} (hx : x ∈ l) : x ≤ l.sum := by
  induction l with
  | nil => simp at hx
  | cons y l ih =>
    rw [List.sum_cons]
    rcases List.mem_cons.mp hx with rfl | hx
    · omega
    · have := ih hx; omega

theorem WF.le_newMax (h : Hist T) (v : Nat) : v ≤ h.newMax v ∧ h.maxValue ≤ h.newMax v := by
  have h1 : v ≤ v ||| h.unitMagMask := Nat.left_le_or
  unfold Hist.newMax
  split <;> omega

theorem WF.recordSeq_max {l : List (Nat × Nat)} : ∀ {h h' : Hist T}, WF fp h →
    (∀ p ∈ l, p.1 ≤ U64MAX ∧ p.2 ≤ T.max) → recordSeq l h = .ok (h', .ok ()) →
    h.maxValue ≤ h'.maxValue ∧ ∀ p ∈ l, p.1 ≤ h'.maxValue := by
  induction l with
  | nil => intro h h' _ _ e; cases e; exact ⟨le_rfl, by simp⟩
  | cons p l ih =>
    intro h h' W hl e
    obtain ⟨v, c⟩ := p
    have hvc := hl (v, c) (by simp)
    rw [recordSeq_cons, W.recordN_eq hvc.1 hvc.2] at e
    by_cases hcov : h.lidx v < h.counts.length ∨ h.autoResize = true
    · rw [if_pos hcov, M.ok_bind] at e
      simp only at e
      obtain ⟨h1, h2⟩ := ih (W.record_wf hvc.1) (fun p hp => hl p (by simp [hp])) e
      have h3 := WF.le_newMax (h.growTo v) v
      have h4 : (h.growTo v).maxValue = h.maxValue := by simp
      have h5 : ((h.growTo v).recorded v c).maxValue = (h.growTo v).newMax v := rfl
      rw [h5] at h1
      refine ⟨by omega, fun p hp => ?_⟩
      rcases List.mem_cons.mp hp with rfl | hp
      · exact le_trans h3.1 h1
      · exact h2 p hp
    · rw [if_neg hcov, M.ok_bind] at e; cases e

theorem maxAfter_bounds (h : Hist T) (l : List (Nat × Nat)) : ∀ m,
    m ≤ h.maxAfter l m ∧ (∀ p ∈ l, h.lidx p.1 ≤ h.maxAfter l m) ∧
      ∀ b, m ≤ b → (∀ p ∈ l, h.lidx p.1 ≤ b) → h.maxAfter l m ≤ b := by
  unfold Hist.maxAfter
  induction l with
  | nil => intro m; simp
  | cons p l ih =>
    intro m
    obtain ⟨h1, h2, h3⟩ := ih (Max.max m (h.lidx p.1))
    rw [List.foldl_cons]
    refine ⟨by omega, fun q hq => ?_, fun b hb hl => ?_⟩
    · rcases List.mem_cons.mp hq with rfl | hq
      · omega
      · exact h2 q hq
    · have := hl p (by simp)
      exact h3 b (by omega) (fun q hq => hl q (by simp [hq]))

theorem minAfter_bounds (h : Hist T) (l : List (Nat × Nat)) : ∀ m,
    h.minAfter l m ≤ m ∧ (∀ p ∈ l, h.lidx p.1 ≠ 0 → h.minAfter l m ≤ h.lidx p.1) ∧
      ∀ b, b ≤ m → (∀ p ∈ l, h.lidx p.1 ≠ 0 → b ≤ h.lidx p.1) → b ≤ h.minAfter l m := by
  unfold Hist.minAfter
  induction l with
  | nil => intro m; simp
  | cons p l ih =>
    intro m
    obtain ⟨h1, h2, h3⟩ := ih (if h.lidx p.1 = 0 then m else Min.min m (h.lidx p.1))
    rw [List.foldl_cons]
    refine ⟨?_, fun q hq hne => ?_, fun b hb hl => ?_⟩
    · refine le_trans h1 ?_
      split <;> omega
    · rcases List.mem_cons.mp hq with rfl | hq
      · rw [if_neg hne] at h1 ⊢; omega
      · exact h2 q hq hne
    · refine h3 b ?_ (fun q hq => hl q (by simp [hq]))
      split
      · exact hb
      · rename_i hne; have := hl p (by simp) hne; omega

/-! ### classes in order -/

theorem llo_le_of_lidx {h : Hist T} {v w : Nat} (hle : h.lidx v ≤ h.lidx w) : h.llo v ≤ h.llo w := by
  have h1 : h.llo v = h.lval (h.lidx v) := (Lay.val_idx).symm
  have h2 : h.llo w = h.lval (h.lidx w) := (Lay.val_idx).symm
  rw [h1, h2]
  rcases Nat.lt_or_ge (h.lidx v) (h.lidx w) with hlt | hge
  · exact Lay.val_le_iff.mpr (by rw [Lay.idx_val]; exact hlt.le)
  · rw [Nat.le_antisymm hle hge]

theorem lwid_eq_of_lidx {h : Hist T} {v w : Nat} (he : h.lidx v = h.lidx w) : h.lwid v = h.lwid w := by
  have h1 : h.lval (h.lidx v + 1) = h.lval (h.lidx v) + h.lwid (h.lval (h.lidx v)) := Lay.val_succ
  have key : ∀ x, h.lval (h.lidx x + 1) = h.llo x + h.lwid x := by
    intro x
    apply le_antisymm
    · by_contra hc
      push Not at hc
      have : h.lidx (h.llo x + h.lwid x) < h.lidx x + 1 := Lay.lt_val_iff.mp hc
      have h3 : h.lidx x ≤ h.lidx (h.llo x + h.lwid x) := Lay.idx_mono Lay.lt_lo_add.le
      have h4 := Lay.idx_eq_iff.mp (show Lay.idx h.unitMag h.subBucketHalfCountMag (h.llo x + h.lwid x)
        = Lay.idx _ _ x by unfold Hist.lidx at *; omega)
      unfold Hist.llo Hist.lwid at h4
      omega
    · by_contra hc
      push Not at hc
      have h2 : h.lidx (h.lval (h.lidx x + 1)) = h.lidx x + 1 := Lay.idx_val
      have h3 : h.llo x ≤ h.lval (h.lidx x + 1) := by
        rw [show h.llo x = h.lval (h.lidx x) from (Lay.val_idx).symm]
        exact Lay.val_le_iff.mpr (by rw [show Lay.idx h.unitMag h.subBucketHalfCountMag (h.lval (h.lidx x + 1))
          = h.lidx x + 1 from Lay.idx_val]; omega)
      have h4 := (Lay.idx_eq_iff (um := h.unitMag) (m := h.subBucketHalfCountMag)
        (v := x) (w := h.lval (h.lidx x + 1))).mpr ⟨h3, hc⟩
      unfold Hist.lidx at *
      omega
  have h2 := key v
  have h3 := key w
  rw [he] at h2
  have h4 : h.llo v = h.llo w := Lay.lo_eq_iff.mpr he
  omega

theorem lhi_eq_of_lidx {h : Hist T} {v w : Nat} (he : h.lidx v = h.lidx w) (hv : v ≠ U64MAX) (hw : w ≠ U64MAX) :
    h.lhi v = h.lhi w := by
  unfold Hist.lhi
  rw [if_neg hv, if_neg hw, lwid_eq_of_lidx he, show h.llo v = h.llo w from Lay.lo_eq_iff.mpr he]

/-! ### totals -/

theorem sum_hits {h : Hist T} (n : Nat) (l : List (Nat × Nat)) (hl : ∀ p ∈ l, h.lidx p.1 < n) :
    ((List.range n).map fun j => h.hits l j).sum = (l.map Prod.snd).sum := by
  induction l with
  | nil => simp [Hist.hits]
  | cons p l ih =>
    have h1 : ((List.range n).map fun j => h.hits (p :: l) j).sum
        = ((List.range n).map fun j => if h.lidx p.1 = j then p.2 else 0).sum
          + ((List.range n).map fun j => h.hits l j).sum := by
      rw [← List.sum_map_add]
      simp only [hits_cons]
    have key : ∀ n i c, i < n → ((List.range n).map fun j => if i = j then c else 0).sum = c := by
      intro n i c
      induction n with
      | zero => intro h; omega
      | succ n ih =>
        intro hi
        rw [List.range_succ, List.map_append, List.sum_append]
        by_cases he : i = n
        · subst he
          have : ((List.range i).map fun j => if i = j then c else 0).sum = 0 := by
            apply List.sum_eq_zero
            intro x hx
            rw [List.mem_map] at hx
            obtain ⟨j, hj, rfl⟩ := hx
            rw [List.mem_range] at hj
            rw [if_neg (by omega)]
          simp [this]
        · rw [ih (by omega)]; simp [he]
    rw [h1, ih (fun q hq => hl q (by simp [hq])), key n _ _ (hl p (by simp))]
    simp

theorem sum_getD_eq (l : List Nat) (n : Nat) (hn : l.length ≤ n) :
    ((List.range n).map fun j => l.getD j 0).sum = l.sum := by
  rw [sum_range_prefix _ l.length n hn (fun i hi => getD_ge hi), sum_range_getD]

theorem getD_lt_of_all {l : List Nat} {m : Nat} (hm : 0 < m) (h : ∀ c ∈ l, c < m) (j : Nat) : l.getD j 0 < m := by
  by_cases hj : j < l.length
  · rw [List.getD_eq_getElem?_getD, List.getElem?_eq_getElem hj]; exact h _ (List.getElem_mem hj)
  · rw [getD_ge (by omega)]; exact hm

/-- without saturation a sequence of recordings adds exactly what it records -/
theorem SeqEffect.sum {h h' : Hist T} {l : List (Nat × Nat)} (E : SeqEffect h l h')
    (hall : ∀ p ∈ l, h.lidx p.1 < h'.counts.length) (hns : ∀ c ∈ h'.counts, c < T.max) :
    h'.counts.sum = h.counts.sum + (l.map Prod.snd).sum := by
  rw [← sum_getD_eq h'.counts h'.counts.length le_rfl, ← sum_getD_eq h.counts h'.counts.length E.len,
    ← sum_hits h'.counts.length l hall, ← List.sum_map_add]
  congr 1
  apply List.map_congr_left
  intro j _
  have h1 := getD_lt_of_all (T_max_pos T) hns j
  rw [E.counts] at h1 ⊢
  omega

/-- `len()` is exactly the (saturated) sum of the counts -/
def ExactTotal (h : Hist T) : Prop := h.totalCount = min h.counts.sum U64MAX

theorem SeqEffect.exact {h h' : Hist T} {l : List (Nat × Nat)} (E : SeqEffect h l h')
    (hall : ∀ p ∈ l, h.lidx p.1 < h'.counts.length) (hns : ∀ c ∈ h'.counts, c < T.max) (hx : ExactTotal h) :
    ExactTotal h' := by
  have h1 := E.sum hall hns
  unfold ExactTotal at *
  rw [E.total, hx, h1]; omega

theorem WF.recordSeq_exact {h h' : Hist T} {l : List (Nat × Nat)} {r} (W : WF fp h)
    (hv : ∀ p ∈ l, p.1 ≤ U64MAX ∧ p.2 ≤ T.max) (e : recordSeq l h = .ok (h', r))
    (hns : ∀ c ∈ h'.counts, c < T.max) (hx : ExactTotal h) : ExactTotal h' := by
  obtain ⟨h1, r1, e1, W1, hr⟩ := W.recordSeq_spec l hv
  rw [e1] at e; cases e
  cases r with
  | ok u => exact hr.1.exact hr.2 hns hx
  | error x =>
    obtain ⟨-, -, l1, p, l2, -, E, -, hall⟩ := hr
    exact E.exact hall hns hx

theorem recordN_seq {h h' : Hist T} {v c : Nat} {r} (e : h.recordN v c = .ok (h', r)) :
    recordSeq [(v, c)] h = .ok (h', r) := by
  rw [recordSeq_cons, e, M.ok_bind]
  cases r <;> rfl

theorem WF.saturating_exact {h : Hist T} (W : WF fp h) {v c : Nat} (hv : v ≤ U64MAX) (hc : c ≤ T.max)
    {h' : Hist T} (e : h.saturatingRecordN v c = .ok h') (hns : ∀ c ∈ h'.counts, c < T.max)
    (hx : ExactTotal h) : ExactTotal h' := by
  rw [W.saturatingRecordN_eq hv] at e
  cases e
  have e := W.recordN_cov (c := c) (W.clampTo_le hv) hc (W.clampTo_cov v)
  exact W.recordSeq_exact (l := [(h.clampTo v, c)]) (by
    intro p hp; rw [List.mem_singleton] at hp; subst hp; exact ⟨W.clampTo_le hv, hc⟩) (recordN_seq e) hns hx

theorem sum_moved {h s : Hist T} (n : Nat) (is : List Nat)
    (hl : ∀ i ∈ is, s.counts.getD i 0 ≠ 0 → h.lidx (s.lval i) < n) :
    ((List.range n).map fun j => moved h s is j).sum = (is.map fun i => s.counts.getD i 0).sum := by
  have := sum_hits (h := h) n
    ((is.filter fun i => decide (s.counts.getD i 0 ≠ 0)).map fun i => (s.lval i, s.counts.getD i 0)) (by
      intro p hp
      rw [List.mem_map] at hp
      obtain ⟨i, hi, rfl⟩ := hp
      rw [List.mem_filter] at hi
      exact hl i hi.1 (by simpa using hi.2))
  have e1 : ∀ j, h.hits ((is.filter fun i => decide (s.counts.getD i 0 ≠ 0)).map
      fun i => (s.lval i, s.counts.getD i 0)) j = moved h s is j := by
    intro j
    unfold Hist.hits moved
    clear this hl
    induction is with
    | nil => rfl
    | cons i is ih =>
      rw [List.filter_cons]
      split
      · simp only [List.map_cons, List.sum_cons]; rw [ih]
      · rename_i h0
        have h0' : s.counts.getD i 0 = 0 := by simpa using h0
        rw [ih, List.map_cons, List.sum_cons, h0']; simp
  have e2 : (((is.filter fun i => decide (s.counts.getD i 0 ≠ 0)).map
      fun i => (s.lval i, s.counts.getD i 0)).map Prod.snd).sum = (is.map fun i => s.counts.getD i 0).sum := by
    clear this hl e1
    induction is with
    | nil => rfl
    | cons i is ih =>
      rw [List.filter_cons]
      split
      · simp only [List.map_cons, List.sum_cons]; rw [ih]
      · rename_i h0
        have h0' : s.counts.getD i 0 = 0 := by simpa using h0
        rw [ih, List.map_cons, List.sum_cons, h0']; simp
  simp only [e1] at this
  rw [this, e2]

theorem WF.add_exact {h s h' : Hist T} {r} (W : WF fp h) (Ws : WF fp s) (e : h.add s = .ok (h', r))
    (hns : ∀ c ∈ h'.counts, c < T.max) (hx : ExactTotal h) (hxs : ExactTotal s) : ExactTotal h' := by
  obtain ⟨h1, r1, e1, W1, hr⟩ := W.add_spec Ws
  rw [e1] at e; cases e
  cases r with
  | error x =>
    cases x with
    | OtherAddendValueExceedsRange => rw [hr.2.2.2]; exact hx
    | ResizeFailedUsizeTypeTooSmall => exact hr.elim
  | ok u =>
    rcases hr with ⟨-, rfl⟩ | ⟨hs, hauto, hcfg, hlen, -, hcnt, hcopy, htot, -⟩
    · exact hx
    by_cases hm : (h.addGrown s).matching s ∧ h.totalCount = 0
    · obtain ⟨c1, c2, -⟩ := hcopy hm
      unfold ExactTotal; rw [c1, c2]; exact hxs
    have ht := htot hm
    obtain ⟨Wg, hcov, hcfg', hget, -, -, -, hlen', -⟩ := W.addGrown (s := s)
    have hsum : h'.counts.sum = h.counts.sum + s.counts.sum := by
      have hall : ∀ i ∈ List.range s.counts.length, s.counts.getD i 0 ≠ 0 →
          h.lidx (s.lval i) < h'.counts.length := by
        intro i _ hne
        have := cov_of_lmax Ws hcov hne
        rw [hcfg'.lidx] at this
        rw [hlen]; exact this
      rw [← sum_getD_eq h'.counts h'.counts.length le_rfl,
        ← sum_getD_eq h.counts h'.counts.length (by rw [hlen]; exact hlen'), ← sum_range_getD s.counts,
        ← sum_moved h'.counts.length _ hall, ← List.sum_map_add]
      congr 1
      apply List.map_congr_left
      intro j _
      have h1 := getD_lt_of_all (T_max_pos T) hns j
      rw [hcnt] at h1 ⊢
      omega
    unfold ExactTotal at *
    rw [ht, hx, hsum]; omega

theorem WF.subtract_exact {h s h' : Hist T} (W : WF fp h) (Ws : WF fp s) (e : h.subtract s = .ok (h', .ok ()))
    (hx : ExactTotal h) : ExactTotal h' := by
  obtain ⟨h1, r1, e1, W1, hr⟩ := W.subtract_spec Ws
  rw [e1] at e; cases e
  rcases hr with ⟨-, rfl⟩ | ⟨-, -, -, -, -, ⟨ht, -⟩ | ⟨-, h2, h3, -⟩⟩
  · exact hx
  · exact ht
  · unfold ExactTotal at *
    have := W1.tot
    omega

end Hdr
