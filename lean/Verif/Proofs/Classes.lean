import Verif.Spec.Classes
import Verif.Proofs.Stats

/-!
# The class list is the array
-/

namespace Hdr

variable {T : CounterTy} {fp : Fp}

theorem lval_coverEnd (h : Hist T) (b : Nat) :
    h.lval ((b + 2) * 2 ^ h.subBucketHalfCountMag) = 2 ^ (h.unitMag + h.subBucketHalfCountMag + (b + 1)) := by
  have hp : 0 < 2 ^ h.subBucketHalfCountMag := by positivity
  unfold Hist.lval Lay.val
  rw [Nat.mul_div_cancel _ hp]
  have : (b + 2) * 2 ^ h.subBucketHalfCountMag - (b + 2 - 1) * 2 ^ h.subBucketHalfCountMag
      = 2 ^ h.subBucketHalfCountMag := by
    rw [← Nat.sub_mul]
    have : b + 2 - (b + 2 - 1) = 1 := by omega
    rw [this, one_mul]
  rw [this, ← pow_add]
  congr 1; omega

theorem WF.lval_len {h : Hist T} (W : WF fp h) : h.lval h.counts.length = h.coverEnd := by
  unfold Hist.coverEnd
  rw [W.len, W.bc]
  exact lval_coverEnd h _

theorem WF.coverEnd_le {h : Hist T} (W : WF fp h) : h.coverEnd ≤ U64MAX + 1 := by
  unfold Hist.coverEnd
  have h1 := bkt_sum W.toLayoutOK W.highmax
  have h2 : h.unitMag + h.subBucketHalfCountMag + h.bucketCount ≤ 64 := by rw [W.bc]; omega
  exact Nat.pow_le_pow_right (by norm_num) h2

/-- the highest value of the last class, capped -/
theorem WF.ltop_eq {h : Hist T} (W : WF fp h) : h.ltop = min h.coverEnd U64MAX - 1 := by
  have hp := W.len_pos
  have hsucc : h.lval (h.counts.length - 1) + h.lwid (h.lval (h.counts.length - 1)) = h.coverEnd := by
    rw [← W.lval_len]
    conv_rhs => rw [← Nat.sub_add_cancel hp]
    exact (Lay.val_succ).symm
  have hlo : h.llo (h.lval (h.counts.length - 1)) = h.lval (h.counts.length - 1) := Lay.lo_val
  have hne : h.lval (h.counts.length - 1) ≠ U64MAX := by
    intro hc
    rw [hc] at hlo
    have h3 : h.llo U64MAX + h.lwid U64MAX ≤ 2 ^ 64 :=
      Lay.lo_add_wid_le (um := h.unitMag) (m := h.subBucketHalfCountMag) (v := U64MAX) W.sum62
      (U64MAX_lt.mp le_rfl)
    have h4 : 4 ≤ h.lwid U64MAX := by
      have h17 := W.mag17
      have : 2 ^ 2 ≤ h.lwid U64MAX := by
        unfold Hist.lwid Lay.wid
        refine Nat.pow_le_pow_right (by norm_num) ?_
        unfold Lay.bkt
        have : Nat.log2 U64MAX = 63 := by decide
        omega
      exact this
    have hU : U64MAX = 18446744073709551615 := rfl
    omega
  unfold Hist.ltop Hist.lhi
  rw [if_neg hne, hlo, hsucc]

/-- the value is beyond the highest value of the last class -/
theorem WF.ltop_lt_iff {h : Hist T} (W : WF fp h) {x : Nat} (hx : x ≤ U64MAX) :
    h.ltop < x ↔ ¬ h.Covers x ∨ x = U64MAX := by
  rw [W.ltop_eq]
  unfold Hist.Covers
  have h1 := W.coverEnd_le
  have h2 : 2 ≤ h.coverEnd := by
    unfold Hist.coverEnd
    calc 2 = 2 ^ 1 := rfl
      _ ≤ _ := Nat.pow_le_pow_right (by norm_num) (by rw [W.bc]; omega)
  have hU : U64MAX = 18446744073709551615 := rfl
  omega

theorem WF.lidx_lt_iff_lt {h : Hist T} (W : WF fp h) (v : Nat) : h.lidx v < h.counts.length ↔ v < h.coverEnd := by
  rw [← W.covers_iff]; rfl

theorem WF.classStarts_eq {h : Hist T} (W : WF fp h) :
    h.classStarts = (List.range h.counts.length).map h.lval := by
  unfold Hist.classStarts
  apply List.Perm.eq_of_pairwise (le := (· < ·))
  · intro a b _ _ h1 h2; omega
  · exact (List.pairwise_lt_range).filter _
  · rw [List.pairwise_map]
    exact List.Pairwise.imp (fun hab => Lay.val_lt_val hab) List.pairwise_lt_range
  · rw [List.perm_ext_iff_of_nodup]
    · intro w
      rw [List.mem_filter, List.mem_range, List.mem_map]
      constructor
      · rintro ⟨h1, h2⟩
        have hw : w ≤ U64MAX := by have := W.coverEnd_le; omega
        rw [decide_eq_true_iff, lowestEquivalent_eq W.toLayoutOK hw] at h2
        have h2 : h.llo w = w := by injection h2
        refine ⟨h.lidx w, List.mem_range.mpr ((W.lidx_lt_iff_lt w).mpr h1), ?_⟩
        have : h.lval (h.lidx w) = h.llo w := Lay.val_idx
        omega
      · rintro ⟨i, hi, rfl⟩
        rw [List.mem_range] at hi
        have hlt : h.lval i < h.coverEnd := by rw [← W.lval_len]; exact Lay.val_lt_val hi
        refine ⟨hlt, ?_⟩
        have hw : h.lval i ≤ U64MAX := by have := W.coverEnd_le; omega
        rw [decide_eq_true_iff, lowestEquivalent_eq W.toLayoutOK hw]
        congr 1
        exact Lay.lo_val
    · exact (List.nodup_range).filter _
    · unfold List.Nodup
      rw [List.pairwise_map]
      exact List.Pairwise.imp (fun hab => Nat.ne_of_lt (Lay.val_lt_val hab)) List.pairwise_lt_range

/-- the class at a slot -/
def Hist.lcls (h : Hist T) (i : Nat) : Cls := ⟨h.lval i, h.lhi (h.lval i), h.counts.getD i 0⟩

theorem WF.lval_le' {h : Hist T} (W : WF fp h) {i : Nat} (hi : i < h.counts.length) : h.lval i ≤ U64MAX := by
  have hlt : h.lval i < h.coverEnd := by rw [← W.lval_len]; exact Lay.val_lt_val hi
  have := W.coverEnd_le; omega

theorem WF.countAt_lval {h : Hist T} (W : WF fp h) {i : Nat} (hi : i < h.counts.length) :
    h.countAt (h.lval i) = .ok (h.counts.getD i 0) := by
  rw [W.countAt_eq (W.lval_le' hi)]
  have : h.lidx (h.lval i) = i := Lay.idx_val
  rw [this, Nat.min_eq_left (by omega)]

theorem WF.classes {h : Hist T} (W : WF fp h) : Classes h ((List.range h.counts.length).map h.lcls) where
  starts := by
    rw [W.classStarts_eq, List.map_map]; rfl
  hi c hc := by
    rw [List.mem_map] at hc
    obtain ⟨i, hi, rfl⟩ := hc
    exact highestEquivalent_eq W.toLayoutOK (W.lval_le' (List.mem_range.mp hi))
  count c hc := by
    rw [List.mem_map] at hc
    obtain ⟨i, hi, rfl⟩ := hc
    exact W.countAt_lval (List.mem_range.mp hi)

theorem WF.classes_unique {h : Hist T} (W : WF fp h) {cs : List Cls} (C : Classes h cs) :
    cs = (List.range h.counts.length).map h.lcls := by
  have hlen : cs.length = h.counts.length := by
    have := congrArg List.length C.starts
    rw [W.classStarts_eq] at this
    simpa using this
  apply List.ext_getElem
  · simpa using hlen
  · intro i h1 h2
    have hi : i < h.counts.length := by omega
    have hmem := List.getElem_mem h1
    have hlo : cs[i].lo = h.lval i := by
      have := congrArg (fun l => l[i]?) C.starts
      rw [W.classStarts_eq] at this
      simpa [h1, hi] using this
    have e1 := C.hi _ hmem
    have e2 := C.count _ hmem
    rw [hlo, highestEquivalent_eq W.toLayoutOK (W.lval_le' hi)] at e1
    rw [hlo, W.countAt_lval hi] at e2
    have e1 : h.lhi (h.lval i) = cs[i].hi := by injection e1
    have e2 : h.counts.getD i 0 = cs[i].count := by injection e2
    simp only [List.getElem_map, List.getElem_range]
    unfold Hist.lcls
    rw [e1, e2, ← hlo]

theorem WF.contents_eq {h : Hist T} (W : WF fp h) : h.contents = (List.range h.counts.length).map h.lcls := by
  unfold Hist.contents
  rw [W.classStarts_eq, List.map_map]
  refine List.map_congr_left fun i hi => ?_
  have C := W.classes
  have hm : h.lcls i ∈ (List.range h.counts.length).map h.lcls := List.mem_map.mpr ⟨i, hi, rfl⟩
  have h1 : h.highestEquivalent (h.lval i) = .ok (h.lcls i).hi := C.hi _ hm
  have h2 : h.countAt (h.lval i) = .ok (h.lcls i).count := C.count _ hm
  simp only [Function.comp_apply, h1, h2]
  rfl

/-- `Hist.contents` lists the classes -/
theorem WF.contents {h : Hist T} (W : WF fp h) : Classes h h.contents := by
  rw [W.contents_eq]; exact W.classes

theorem WF.classes_iff {h : Hist T} (W : WF fp h) {cs : List Cls} :
    Classes h cs ↔ cs = (List.range h.counts.length).map h.lcls :=
  ⟨W.classes_unique, fun e => e ▸ W.classes⟩

/-- contents of `s` per class of `h` -/
theorem WF.recordedFor_classes {h s : Hist T} (W : WF fp h) (Ws : WF fp s) {cs : List Cls} (C : Classes s cs)
    {v : Nat} (hv : v ≤ U64MAX) :
    recordedFor h (Cls.records cs) v = moved h s (List.range s.counts.length) (h.lidx v) := by
  rw [Ws.classes_unique C]
  rw [W.recordedFor_eq _ hv]
  · unfold Hist.hits moved Cls.records
    rw [List.map_map, List.map_map]
    rfl
  · intro p hp
    unfold Cls.records at hp
    rw [List.map_map, List.mem_map] at hp
    obtain ⟨i, hi, rfl⟩ := hp
    exact Ws.lval_le' (List.mem_range.mp hi)

theorem WF.sum_classes {s : Hist T} (Ws : WF fp s) {cs : List Cls} (C : Classes s cs) :
    (cs.map (·.count)).sum = s.counts.sum := by
  rw [Ws.classes_unique C, List.map_map]
  exact sum_range_getD s.counts

end Hdr
