import Verif.Spec.Samples
import Verif.Props.Config
import Verif.Props.Quantile
import Verif.Props.Stdev

/-!
# From the array to the samples
-/

namespace Hdr

variable {T : CounterTy} {fp : Fp}

theorem number_cons (p : Nat × Nat) (l : List (Nat × Nat)) (P : Nat → Prop) [DecidablePred P] :
    number (p :: l) P = (if P p.1 then p.2 else 0) + number l P := by
  unfold number
  by_cases h : P p.1
  · rw [List.filter_cons_of_pos (by simpa using h)]; simp [h]
  · rw [List.filter_cons_of_neg (by simpa using h)]; simp [h]

theorem number_le {l : List (Nat × Nat)} {P Q : Nat → Prop} [DecidablePred P] [DecidablePred Q]
    (h : ∀ p ∈ l, P p.1 → Q p.1) : number l P ≤ number l Q := by
  induction l with
  | nil => exact le_rfl
  | cons p l ih =>
    rw [number_cons, number_cons]
    have h1 := ih fun q hq => h q (by simp [hq])
    have h2 := h p (by simp)
    split <;> split <;> first | omega | (exfalso; tauto)

theorem number_congr {l : List (Nat × Nat)} {P Q : Nat → Prop} [DecidablePred P] [DecidablePred Q]
    (h : ∀ p ∈ l, (P p.1 ↔ Q p.1)) : number l P = number l Q :=
  le_antisymm (number_le fun p hp => (h p hp).mp) (number_le fun p hp => (h p hp).mpr)

theorem number_split {l : List (Nat × Nat)} {P Q R : Nat → Prop} [DecidablePred P] [DecidablePred Q] [DecidablePred R]
    (h : ∀ p ∈ l, (P p.1 ↔ Q p.1 ∨ R p.1)) (hd : ∀ p ∈ l, ¬ (Q p.1 ∧ R p.1)) : number l P = number l Q + number l R := by
  induction l with
  | nil => rfl
  | cons p l ih =>
    rw [number_cons, number_cons, number_cons, ih (fun q hq => h q (by simp [hq])) (fun q hq => hd q (by simp [hq]))]
    have h1 := h p (by simp)
    have h2 := hd p (by simp)
    split <;> split <;> split <;> first | omega | (exfalso; tauto)

theorem number_all {l : List (Nat × Nat)} {P : Nat → Prop} [DecidablePred P] (h : ∀ p ∈ l, P p.1) :
    number l P = numberAll l := by
  induction l with
  | nil => rfl
  | cons p l ih =>
    rw [number_cons, ih fun q hq => h q (by simp [hq]), if_pos (h p (by simp))]
    unfold numberAll
    simp

theorem number_le_all (l : List (Nat × Nat)) (P : Nat → Prop) [DecidablePred P] : number l P ≤ numberAll l := by
  rw [← number_all (l := l) (P := fun _ => True) fun _ _ => trivial]
  exact number_le fun _ _ _ => trivial

theorem number_append (l l' : List (Nat × Nat)) (P : Nat → Prop) [DecidablePred P] :
    number (l ++ l') P = number l P + number l' P := by
  unfold number
  rw [List.filter_append, List.map_append, List.sum_append]

theorem numberAll_append (l l' : List (Nat × Nat)) : numberAll (l ++ l') = numberAll l + numberAll l' := by
  unfold numberAll
  rw [List.map_append, List.sum_append]

theorem hits_eq_number {h : Hist T} (l : List (Nat × Nat)) (j : Nat) : h.hits l j = number l fun v => h.lidx v = j := by
  induction l with
  | nil => rfl
  | cons p l ih => rw [hits_cons, number_cons, ih]

theorem Contains.le {h : Hist T} {l : List (Nat × Nat)} (H : Contains h l) (W : WF fp h) {p : Nat × Nat} (hp : p ∈ l) :
    p.1 ≤ U64MAX := by
  have h1 := H.covered p hp
  have h2 := W.coverEnd_le
  unfold Hist.Covers at h1
  omega

theorem Contains.lidx {h : Hist T} {l : List (Nat × Nat)} (H : Contains h l) (W : WF fp h) {p : Nat × Nat} (hp : p ∈ l) :
    h.lidx p.1 < h.counts.length := (W.covers_iff _).mp (H.covered p hp)

theorem number_equiv {h : Hist T} (W : WF fp h) {l : List (Nat × Nat)} (hl : ∀ p ∈ l, p.1 ≤ U64MAX) {w : Nat}
    (hw : w ≤ U64MAX) : (number l fun v => Equiv h v w) = h.hits l (h.lidx w) := by
  rw [hits_eq_number]
  exact number_congr fun p hp => W.equiv_iff (hl p hp) hw

theorem Contains.slot {h : Hist T} {l : List (Nat × Nat)} (H : Contains h l) (W : WF fp h) {i : Nat} (hi : i < h.counts.length) :
    h.counts.getD i 0 = h.hits l i := by
  have hv := W.lval_le' hi
  have e : h.lidx (h.lval i) = i := Lay.idx_val
  have h1 := H.count (h.lval i) ((W.covers_iff _).mpr (by rw [e]; exact hi))
  rw [W.countAt_lval hi, number_equiv W (fun p hp => H.le W hp) hv, e] at h1
  injection h1

theorem holds_of_slots {h : Hist T} {l : List (Nat × Nat)} (W : WF fp h) (hl : ∀ p ∈ l, h.lidx p.1 < h.counts.length)
    (hc : ∀ i, h.counts.getD i 0 = h.hits l i) (ht : h.totalCount = numberAll l) : Contains h l where
  covered p hp := (W.covers_iff _).mpr (hl p hp)
  count w hw := by
    have hce := W.coverEnd_le
    have hb : ∀ v, h.Covers v → v ≤ U64MAX := fun v hv => by unfold Hist.Covers at hv; omega
    have hi := (W.covers_iff w).mp hw
    rw [number_equiv W (fun p hp => hb _ ((W.covers_iff _).mpr (hl p hp))) (hb w hw), W.countAt_eq (hb w hw),
      Nat.min_eq_left (by omega), hc]
  len := ht

/-- the sum of a function of the slots, weighted with the counts, is the sum over the samples -/
theorem sum_slots {R : Type} [CommSemiring R] {h : Hist T} (f : Nat → R) (n : Nat) (l : List (Nat × Nat))
    (hl : ∀ p ∈ l, h.lidx p.1 < n) :
    ((List.range n).map fun i => f i * (h.hits l i : R)).sum = (l.map fun p => f (h.lidx p.1) * (p.2 : R)).sum := by
  induction l with
  | nil => simp [Hist.hits]
  | cons p l ih =>
    have key : ∀ n i (c : R), i < n → ((List.range n).map fun j => f j * (if i = j then c else 0)).sum = f i * c := by
      intro n i c
      induction n with
      | zero => intro h; omega
      | succ n ih =>
        intro hi
        rw [List.range_succ, List.map_append, List.sum_append]
        by_cases he : i = n
        · subst he
          have : ((List.range i).map fun j => f j * (if i = j then c else 0)).sum = 0 := by
            apply List.sum_eq_zero
            intro x hx
            rw [List.mem_map] at hx
            obtain ⟨j, hj, rfl⟩ := hx
            rw [List.mem_range] at hj
            rw [if_neg (by omega), mul_zero]
          rw [this]; simp
        · rw [ih (by omega)]; simp [he]
    rw [List.map_cons, List.sum_cons, ← ih fun q hq => hl q (by simp [hq]), ← key n _ _ (hl p (by simp)), ← List.sum_map_add]
    congr 1
    apply List.map_congr_left
    intro i _
    rw [hits_cons]
    push_cast
    rw [mul_add]

theorem Contains.take {h : Hist T} {l : List (Nat × Nat)} (H : Contains h l) (W : WF fp h) {k : Nat} (hk : k ≤ h.counts.length) :
    (h.counts.take k).sum = number l fun v => h.lidx v < k := by
  induction k with
  | zero => simp [number]
  | succ k ih =>
    have e1 : (h.counts.take (k + 1)).sum = (h.counts.take k).sum + h.counts.getD k 0 := by
      rw [List.take_add_one, List.sum_append, List.getD_eq_getElem?_getD, List.getElem?_eq_getElem (by omega)]
      simp
    rw [e1, ih (by omega), H.slot W (by omega), hits_eq_number]
    exact (number_split (fun p _ => by omega) (fun p _ => by omega)).symm

theorem Contains.sum {h : Hist T} {l : List (Nat × Nat)} (H : Contains h l) (W : WF fp h) : h.counts.sum = numberAll l := by
  have h1 := H.take W (k := h.counts.length) le_rfl
  rw [List.take_length] at h1
  rw [h1]
  exact number_all fun p hp => H.lidx W hp

theorem Contains.total {h : Hist T} {l : List (Nat × Nat)} (H : Contains h l) (W : WF fp h) : h.totalCount = h.counts.sum := by
  rw [H.sum W]; exact H.len

theorem Contains.all {h : Hist T} {l : List (Nat × Nat)} (H : Contains h l) (W : WF fp h) (i : Nat) :
    h.counts.getD i 0 = h.hits l i := by
  rcases lt_or_ge i h.counts.length with hi | hi
  · exact H.slot W hi
  · rw [getD_ge hi, hits_eq_number]
    have h1 : number l (fun v => h.lidx v = i) ≤ number l fun _ => False :=
      number_le fun p hp he => by
        have := H.lidx W hp
        omega
    have h2 : (number l fun _ => False) = 0 := by simp [number]
    omega

theorem number_pos {l : List (Nat × Nat)} {P : Nat → Prop} [DecidablePred P] (h : number l P ≠ 0) :
    ∃ p ∈ l, P p.1 ∧ p.2 ≠ 0 := by
  by_contra hc
  push Not at hc
  refine h ?_
  induction l with
  | nil => rfl
  | cons p l ih =>
    rw [number_cons]
    have h1 := hc p (by simp)
    by_cases hp : P p.1
    · rw [if_pos hp, h1 hp, Nat.zero_add]
      exact ih (by rw [number_cons, if_pos hp, h1 hp, Nat.zero_add] at h; exact h) fun q hq => hc q (by simp [hq])
    · rw [if_neg hp, Nat.zero_add]
      exact ih (by rw [number_cons, if_neg hp, Nat.zero_add] at h; exact h) fun q hq => hc q (by simp [hq])

/-- what `add` moves from `s` to `h`, in terms of the samples `s` holds -/
theorem Contains.moved {h s : Hist T} {l : List (Nat × Nat)} (W : WF fp h) (Ws : WF fp s) (H : Contains s l)
    (hco : ∀ a b, a ≤ U64MAX → b ≤ U64MAX → Equiv s a b → Equiv h a b) (j : Nat) :
    moved h s (List.range s.counts.length) j = h.hits l j := by
  have h1 := sum_slots (h := s) (fun i => if h.lidx (s.lval i) = j then (1 : ℕ) else 0) s.counts.length l
    fun p hp => H.lidx Ws hp
  simp only [Nat.cast_id] at h1
  have e1 : Hdr.moved h s (List.range s.counts.length) j
      = ((List.range s.counts.length).map fun i => (if h.lidx (s.lval i) = j then (1 : ℕ) else 0) * s.hits l i).sum := by
    unfold Hdr.moved
    congr 1
    apply List.map_congr_left
    intro i hi
    rw [H.slot Ws (List.mem_range.mp hi)]
    split <;> simp
  rw [e1, h1]
  unfold Hist.hits
  congr 1
  apply List.map_congr_left
  intro p hp
  have hU := H.le Ws hp
  have hlo : s.llo p.1 ≤ p.1 := Lay.lo_le
  have e2 : h.lidx (s.lval (s.lidx p.1)) = h.lidx p.1 := by
    rw [show s.lval (s.lidx p.1) = s.llo p.1 from Lay.val_idx]
    exact (W.equiv_iff (by omega) hU).mp
      (hco _ _ (by omega) hU ((Ws.equiv_iff (by omega) hU).mpr Lay.idx_lo))
  rw [e2]
  split <;> simp

/-! ### Ranks -/

theorem KthSmallest.unique {l : List (Nat × Nat)} {k y z : Nat} (hy : KthSmallest l k y) (hz : KthSmallest l k z) : y = z := by
  have key : ∀ {a b}, KthSmallest l k a → KthSmallest l k b → ¬ a < b := by
    intro a b ha hb hlt
    have : number l (fun v => v ≤ a) ≤ number l (fun v => v < b) := number_le fun p _ hp => by omega
    have := ha.2
    have := hb.1
    omega
  have h1 := key hy hz
  have h2 := key hz hy
  omega

theorem KthSmallest.exists {l : List (Nat × Nat)} {k : Nat} (h0 : 0 < k) (hk : k ≤ numberAll l) : ∃ y, KthSmallest l k y := by
  have hex : ∃ y, k ≤ number l (fun v => v ≤ y) := by
    refine ⟨(l.map Prod.fst).sum, ?_⟩
    rw [number_all]
    · exact hk
    · intro p hp
      exact mem_le_sum (List.mem_map_of_mem hp)
  classical
  refine ⟨Nat.find hex, ?_, Nat.find_spec hex⟩
  rcases Nat.eq_zero_or_pos (Nat.find hex) with hz | hp
  · rw [hz]
    have : number l (fun v => v < 0) = 0 := by
      unfold number
      simp
    omega
  · have h1 := Nat.find_min hex (m := Nat.find hex - 1) (by omega)
    have h2 : number l (fun v => v < Nat.find hex) ≤ number l (fun v => v ≤ Nat.find hex - 1) :=
      number_le fun p _ hp => by omega
    omega

theorem KthSmallest.mem {l : List (Nat × Nat)} {k y : Nat} (hy : KthSmallest l k y) : ∃ p ∈ l, p.1 = y ∧ p.2 ≠ 0 := by
  by_contra hc
  push Not at hc
  have : number l (fun v => v ≤ y) ≤ number l (fun v => v < y) := by
    clear hy
    induction l with
    | nil => exact le_rfl
    | cons p l ih =>
      rw [number_cons, number_cons]
      have h1 := ih fun q hq => hc q (by simp [hq])
      have h2 := hc p (by simp)
      split <;> split <;> omega
  have := hy.1
  have := hy.2
  omega

theorem Contains.rank {h : Hist T} {l : List (Nat × Nat)} (H : Contains h l) (W : WF fp h) {cs : List Cls} (C : Classes h cs)
    {k y : Nat} (hy : KthSmallest l k y) {c : Cls} (hc : AtRank cs k c) : c = h.lcls (h.lidx y) := by
  obtain ⟨p, hp, rfl, -⟩ := hy.mem
  have hi := H.lidx W hp
  obtain ⟨pre, post, e, hs⟩ := W.classes_split C hi
  refine hc.unique ⟨pre, post, e, ?_, ?_⟩
  · rw [hs, H.take W hi.le]
    refine lt_of_le_of_lt (number_le fun q _ hq => ?_) hy.1
    by_contra hn
    have : h.lidx p.1 ≤ h.lidx q.1 := Lay.idx_mono (by omega)
    omega
  · rw [hs, H.take W hi.le, show (h.lcls (h.lidx p.1)).count = h.counts.getD (h.lidx p.1) 0 from rfl, H.slot W hi,
      hits_eq_number, ← number_split (P := fun v => h.lidx v < h.lidx p.1 + 1) (fun q _ => by omega) (fun q _ => by omega)]
    refine le_trans hy.2 (number_le fun q _ hq => ?_)
    have : h.lidx q.1 ≤ h.lidx p.1 := Lay.idx_mono hq
    omega

/-- the width of a class against the precision -/
theorem Reachable.width {h : Hist T} (R : Reachable fp T h) {v : Nat} (hv : v ≤ U64MAX) :
    h.lwid v = unit fp h ∨ h.lwid v * 10 ^ h.sigfig ≤ v := by
  obtain ⟨lo, w, -, e, -, -, h1, h2⟩ := C04_precision R hv
  rw [equivalentRange_eq R.wf.toLayoutOK hv] at e
  injection e with e
  rw [e]
  rcases lt_or_ge v (2 * 10 ^ h.sigfig * 2 ^ fp.log2Floor h.low) with hlt | hge
  · left; exact h1 hlt
  · right; exact h2 hge

theorem Reachable.precise {h : Hist T} (R : Reachable fp T h) {v y : Nat} (hy : y ≤ U64MAX) (he : h.lidx v = h.lidx y) :
    Precise fp h v y := by
  have h1 := Lay.idx_eq_iff.mp he
  have h2 := @Lay.lt_lo_add h.unitMag h.subBucketHalfCountMag y
  have h3 := @Lay.lo_le h.unitMag h.subBucketHalfCountMag y
  have hd : ((v : ℤ) - y).natAbs < h.lwid y := by unfold Hist.lwid; omega
  rcases R.width hy with hw | hw
  · left; omega
  · right
    exact le_trans (Nat.mul_le_mul_right _ hd.le) hw

/-! ### Averages -/

/-- the median of the class of `v` -/
def Hist.lmed (h : Hist T) (i : Nat) : Nat := h.lval i + h.lwid (h.lval i) / 2

theorem Reachable.median_near {h : Hist T} (R : Reachable fp T h) {y : Nat} (hy : y ≤ U64MAX) :
    |(h.lmed (h.lidx y) : ℚ) - y| ≤ spread fp h y := by
  have e1 : h.lval (h.lidx y) = h.llo y := Lay.val_idx
  have e2 : h.lwid (h.llo y) = h.lwid y := Lay.wid_eq_of_idx Lay.idx_lo
  have h2 : y < h.llo y + h.lwid y := Lay.lt_lo_add
  have h3 : h.llo y ≤ y := Lay.lo_le
  unfold Hist.lmed spread
  rw [e1, e2]
  have key : |((h.llo y + h.lwid y / 2 : ℕ) : ℚ) - y| ≤ (h.lwid y / 2 : ℕ) := by
    rw [abs_le]
    constructor
    · have : y ≤ h.llo y + h.lwid y / 2 + h.lwid y / 2 := by omega
      have : (y : ℚ) ≤ ((h.llo y + h.lwid y / 2 + h.lwid y / 2 : ℕ) : ℚ) := by exact_mod_cast this
      push_cast at this ⊢
      linarith
    · have : (h.llo y : ℚ) ≤ y := by exact_mod_cast h3
      push_cast
      linarith
  refine le_trans key ?_
  have hu : (0 : ℚ) ≤ (unit fp h / 2 : ℕ) := by positivity
  have hp : (0 : ℚ) ≤ y / (2 * 10 ^ h.sigfig) := by positivity
  rcases R.width hy with hw | hw
  · rw [hw]; linarith
  · have h4 : ((h.lwid y / 2 : ℕ) : ℚ) ≤ y / (2 * 10 ^ h.sigfig) := by
      rw [le_div_iff₀ (by positivity)]
      have : h.lwid y / 2 * (2 * 10 ^ h.sigfig) ≤ y := by
        refine le_trans ?_ hw
        rw [← mul_assoc]
        exact Nat.mul_le_mul_right _ (by omega)
      exact_mod_cast this
    linarith

theorem meanSum_range {h : Hist T} (is : List Nat) :
    h.meanSum is = (is.map fun i => h.lmed i * h.counts.getD i 0).sum := by
  induction is with
  | nil => rfl
  | cons i is ih => rw [List.map_cons, List.sum_cons, ← ih]; rfl

theorem Contains.meanSum {h : Hist T} {l : List (Nat × Nat)} (H : Contains h l) (W : WF fp h) :
    h.meanSum (List.range h.counts.length) = (l.map fun p => h.lmed (h.lidx p.1) * p.2).sum := by
  rw [meanSum_range]
  have h1 := sum_slots (h := h) (fun i => h.lmed i) h.counts.length l fun p hp => H.lidx W hp
  simp only [Nat.cast_id] at h1
  rw [← h1]
  congr 1
  apply List.map_congr_left
  intro i hi
  rw [H.slot W (List.mem_range.mp hi)]

theorem sum_le {l : List (Nat × Nat)} {f g : Nat × Nat → ℚ} (h : ∀ p ∈ l, f p ≤ g p) : (l.map f).sum ≤ (l.map g).sum := by
  induction l with
  | nil => exact le_rfl
  | cons p l ih =>
    rw [List.map_cons, List.sum_cons, List.map_cons, List.sum_cons]
    exact add_le_add (h p (by simp)) (ih fun q hq => h q (by simp [hq]))

theorem numberAll_cast (l : List (Nat × Nat)) : (numberAll l : ℚ) = (l.map fun p => (p.2 : ℚ)).sum := by
  unfold numberAll
  induction l with
  | nil => rfl
  | cons p l ih => rw [List.map_cons, List.sum_cons, List.map_cons, List.sum_cons, ← ih]; push_cast; rfl

/-- the weighted average of `f` over the samples -/
def avg (l : List (Nat × Nat)) (f : Nat → ℚ) : ℚ := (l.map fun p => f p.1 * p.2).sum / numberAll l

theorem avg_near {l : List (Nat × Nat)} (h0 : 0 < numberAll l) {f g : Nat → ℚ} {a b : ℚ}
    (h : ∀ p ∈ l, |f p.1 - g p.1| ≤ a + g p.1 * b) : |avg l f - avg l g| ≤ a + avg l g * b := by
  have hn : (0 : ℚ) < numberAll l := by exact_mod_cast h0
  have key : |(l.map fun p => f p.1 * p.2).sum - (l.map fun p => g p.1 * p.2).sum|
      ≤ a * numberAll l + (l.map fun p => g p.1 * p.2).sum * b := by
    rw [numberAll_cast]
    clear hn h0
    induction l with
    | nil => simp
    | cons p l ih =>
      have h1 := ih fun q hq => h q (by simp [hq])
      have h2 := h p (by simp)
      have hp : (0 : ℚ) ≤ p.2 := by positivity
      simp only [List.map_cons, List.sum_cons]
      have e : f p.1 * p.2 + (l.map fun p => f p.1 * p.2).sum - (g p.1 * p.2 + (l.map fun p => g p.1 * p.2).sum)
          = (f p.1 - g p.1) * p.2 + ((l.map fun p => f p.1 * p.2).sum - (l.map fun p => g p.1 * p.2).sum) := by ring
      rw [e]
      refine le_trans (abs_add_le _ _) ?_
      rw [abs_mul, abs_of_nonneg hp]
      have h3 := mul_le_mul_of_nonneg_right h2 hp
      linarith
  unfold avg
  rw [← sub_div, abs_div, abs_of_pos hn, div_le_iff₀ hn]
  refine le_trans key (le_of_eq ?_)
  field_simp

/-- the mean square of `f - t` over the samples -/
def meanSq (l : List (Nat × Nat)) (f : Nat → ℚ) (t : ℚ) : ℚ := (l.map fun p => (f p.1 - t) ^ 2 * (p.2 : ℚ)).sum / numberAll l

theorem meanSq_min {l : List (Nat × Nat)} (h0 : 0 < numberAll l) (f : Nat → ℚ) (t : ℚ) :
    meanSq l f (avg l f) ≤ meanSq l f t := by
  have hn : (0 : ℚ) < numberAll l := by exact_mod_cast h0
  have key : ∀ t, (l.map fun p => (f p.1 - t) ^ 2 * (p.2 : ℚ)).sum
      = (l.map fun p => f p.1 ^ 2 * (p.2 : ℚ)).sum - 2 * t * (l.map fun p => f p.1 * p.2).sum + t ^ 2 * numberAll l := by
    intro t
    rw [numberAll_cast]
    clear hn h0
    induction l with
    | nil => simp
    | cons p l ih =>
      simp only [List.map_cons, List.sum_cons]
      rw [ih]
      ring
  unfold meanSq avg
  refine div_le_div_of_nonneg_right ?_ hn.le
  rw [key, key]
  generalize (l.map fun p => f p.1 * (p.2 : ℚ)).sum = B
  generalize (l.map fun p => f p.1 ^ 2 * (p.2 : ℚ)).sum = A
  have e : A - 2 * t * B + t ^ 2 * (numberAll l : ℚ)
      - (A - 2 * (B / (numberAll l : ℚ)) * B + (B / (numberAll l : ℚ)) ^ 2 * (numberAll l : ℚ))
      = (numberAll l : ℚ) * (t - B / (numberAll l : ℚ)) ^ 2 := by
    field_simp
    ring
  have := mul_nonneg hn.le (sq_nonneg (t - B / (numberAll l : ℚ)))
  linarith

theorem meanSq_wsq (l : List (Nat × Nat)) (f : Nat → ℚ) (t : ℚ) :
    ((meanSq l f t : ℚ) : ℝ) = wsq (fun i => ((l.getD i (0, 0)).2 : ℝ)) (fun i => (f (l.getD i (0, 0)).1 - t : ℚ))
      (List.range l.length) / (numberAll l : ℝ) := by
  have key : ∀ l : List (Nat × Nat), (((l.map fun p => (f p.1 - t) ^ 2 * (p.2 : ℚ)).sum : ℚ) : ℝ)
      = wsq (fun i => ((l.getD i (0, 0)).2 : ℝ)) (fun i => (f (l.getD i (0, 0)).1 - t : ℚ)) (List.range l.length) := by
    have shift : ∀ (c a c' a' : Nat → ℝ), (∀ i, c' i = c (i + 1)) → (∀ i, a' i = a (i + 1)) → ∀ is : List Nat,
        wsq c a (is.map (· + 1)) = wsq c' a' is := by
      intro c a c' a' hc ha is
      induction is with
      | nil => rfl
      | cons i is ih => rw [List.map_cons]; unfold wsq; rw [ih, hc, ha]
    intro l
    induction l with
    | nil => simp [wsq]
    | cons p l ih =>
      rw [List.map_cons, List.sum_cons, List.length_cons, List.range_succ_eq_map]
      unfold wsq
      rw [shift _ _ (fun i => ((l.getD i (0, 0)).2 : ℝ)) (fun i => (f (l.getD i (0, 0)).1 - t : ℚ)) (fun i => by simp)
        (fun i => by simp), ← ih]
      push_cast
      simp only [List.getD_cons_zero]
      ring
  unfold meanSq
  rw [Rat.cast_div, key, Rat.cast_natCast]

theorem meanSq_shift {l : List (Nat × Nat)} (h0 : 0 < numberAll l) {f g : Nat → ℚ} {e : ℚ} (he : 0 ≤ e) (t : ℚ)
    (h : ∀ p ∈ l, |f p.1 - g p.1| ≤ e) :
    Real.sqrt (meanSq l f t : ℚ) ≤ Real.sqrt (meanSq l g t : ℚ) + e := by
  rw [meanSq_wsq, meanSq_wsq]
  refine rms_shift (fun i => by positivity) (by exact_mod_cast he) (by exact_mod_cast h0) _ ?_ ?_
  · have key : ∀ l : List (Nat × Nat), ((List.range l.length).map fun i => ((l.getD i (0, 0)).2 : ℝ)).sum = numberAll l := by
      intro l
      unfold numberAll
      induction l with
      | nil => simp
      | cons p l ih =>
        rw [List.length_cons, List.range_succ_eq_map, List.map_cons, List.sum_cons, List.map_map, List.map_cons, List.sum_cons]
        rw [Nat.cast_add, ← ih]
        rfl
    exact (key l).le
  · intro i hi _
    have hi := List.mem_range.mp hi
    have e1 : l.getD i (0, 0) = l[i] := by
      rw [List.getD_eq_getElem?_getD, List.getElem?_eq_getElem hi]; rfl
    have h1 := h l[i] (List.getElem_mem hi)
    rw [← e1] at h1
    have h2 : (f (l.getD i (0, 0)).1 - t) - (g (l.getD i (0, 0)).1 - t) = f (l.getD i (0, 0)).1 - g (l.getD i (0, 0)).1 := by ring
    rw [← h2] at h1
    have h3 : ((|(f (l.getD i (0, 0)).1 - t) - (g (l.getD i (0, 0)).1 - t)| : ℚ) : ℝ) ≤ (e : ℝ) := by exact_mod_cast h1
    push_cast at h3 ⊢
    exact h3

end Hdr
