import Verif.Props.QuantileMove

/-!
# C103: adding a histogram of another configuration
-/

namespace Hdr
variable {fp : Fp} {T : CounterTy}

/-- the samples as a histogram with the lowest equivalent values `lo` passes them on -/
def passedOn (lo : Nat → Nat) (l : List (Nat × Nat)) : List (Nat × Nat) := l.map fun p => (lo p.1, p.2)

theorem numberAll_passedOn (lo : Nat → Nat) (l : List (Nat × Nat)) : numberAll (passedOn lo l) = numberAll l := by
  unfold numberAll passedOn
  rw [List.map_map]; rfl

theorem number_passedOn (lo : Nat → Nat) (l : List (Nat × Nat)) (P : Nat → Prop) [DecidablePred P] :
    number (passedOn lo l) P = number l fun v => P (lo v) := by
  induction l with
  | nil => rfl
  | cons p l ih =>
    show number ((lo p.1, p.2) :: passedOn lo l) P = _
    rw [number_cons, number_cons, ih]

/-- a monotone function maps the sample of a rank to the sample of that rank -/
theorem KthSmallest.passedOn {lo : Nat → Nat} (hm : ∀ a b, a ≤ b → lo a ≤ lo b) {l : List (Nat × Nat)} {k y : Nat}
    (hy : KthSmallest l k y) : KthSmallest (passedOn lo l) k (lo y) := by
  obtain ⟨h1, h2⟩ := hy
  constructor
  · rw [number_passedOn]
    refine lt_of_le_of_lt (number_le fun p _ hp => ?_) h1
    by_contra hc
    have := hm y p.1 (by omega)
    omega
  · rw [number_passedOn]
    exact le_trans h2 (number_le fun p _ hp => hm _ _ hp)

theorem Contains.moved_any {h s : Hist T} {l : List (Nat × Nat)} (Ws : WF fp s) (H : Contains s l) (j : Nat) :
    Hdr.moved h s (List.range s.counts.length) j = h.hits (passedOn s.llo l) j := by
  have h1 := sum_slots (h := s) (fun i => if h.lidx (s.lval i) = j then (1 : ℕ) else 0) s.counts.length l
    fun p hp => H.lidx Ws hp
  simp only [Nat.cast_id] at h1
  have e1 : Hdr.moved h s (List.range s.counts.length) j
      = ((List.range s.counts.length).map fun i => (if h.lidx (s.lval i) = j then (1 : ℕ) else 0) * s.hits l i).sum := by
    unfold Hdr.moved
    congr 1
    apply List.map_congr_left
    intro i hi
    rw [H.slot Ws (List.mem_range.mp hi)]
    split <;> simp
  rw [e1, h1]
  unfold Hist.hits Hdr.passedOn
  rw [List.map_map]
  congr 1
  apply List.map_congr_left
  intro p hp
  show (if h.lidx (s.lval (s.lidx p.1)) = j then 1 else 0) * p.2 = if h.lidx (s.llo p.1) = j then p.2 else 0
  rw [show s.lval (s.lidx p.1) = s.llo p.1 from Lay.val_idx]
  split <;> simp

theorem Contains.add_any {h s h' : Hist T} (R : Reachable fp T h) (Rs : Reachable fp T s) {l l' : List (Nat × Nat)}
    (H : Contains h l) (Hs : Contains s l') (e : h.add s = .ok (h', .ok ())) (hpos : ∀ p ∈ l', p.2 ≠ 0)
    (hfit : ∀ w, w ≤ U64MAX → (number (l ++ passedOn s.llo l') fun v => Equiv h v w) ≤ T.max)
    (htot : numberAll (l ++ l') ≤ U64MAX) : Contains h' (l ++ passedOn s.llo l') := by
  have W := R.wf
  have Ws := Rs.wf
  obtain ⟨h1, r, e1, W', hr⟩ := W.add_spec Ws
  rw [e1] at e; cases e
  rcases hr with ⟨h0, rfl⟩ | ⟨h0, -, hcfg, hlen, -, hcnt, hcopy, htt, -⟩
  · have hz : numberAll l' = 0 := by rw [← Hs.len]; exact h0
    have hnil : l' = [] := by
      cases l' with
      | nil => rfl
      | cons p l' =>
        exfalso
        have := hpos p (by simp)
        unfold numberAll at hz
        rw [List.map_cons, List.sum_cons] at hz
        omega
    rw [hnil, show passedOn s.llo [] = [] from rfl, List.append_nil]
    exact H
  · obtain ⟨Wg, hcov, hcfgg, hget, -, -, -, hleng, -⟩ := W.addGrown (s := s)
    have hm := Hs.moved_any (h := h) Ws
    have hlo : ∀ p ∈ l', s.llo p.1 ≤ U64MAX := fun p hp => le_trans Lay.lo_le (Hs.le Ws hp)
    have hU : ∀ p ∈ l ++ passedOn s.llo l', p.1 ≤ U64MAX := fun p hp => by
      rcases List.mem_append.mp hp with hp | hp
      · exact H.le W hp
      · obtain ⟨p, hp, rfl⟩ := List.mem_map.mp hp
        exact hlo p ‹p ∈ l'›
    refine holds_of_slots W' ?_ ?_ ?_
    · intro p hp
      rw [hcfg.lidx]
      rcases List.mem_append.mp hp with hp | hp
      · have := H.lidx W hp
        omega
      · obtain ⟨p, hp, rfl⟩ := List.mem_map.mp hp
        replace hp : p ∈ l' := ‹p ∈ l'›
        have hi := Hs.lidx Ws hp
        have hne : s.counts.getD (s.lidx p.1) 0 ≠ 0 := by
          rw [Hs.slot Ws hi, hits_eq_number]
          intro hz
          have h2 := number_ge (P := fun v => s.lidx v = s.lidx p.1) hp rfl
          have := hpos p hp
          omega
        have h2 := Ws.trackMax _ hne
        rw [← Ws.lidx_lmax] at h2
        have h3 : s.llo p.1 ≤ s.llo s.lmax := llo_le_of_lidx h2
        have h4 : s.llo s.lmax ≤ s.lmax := Lay.lo_le
        rw [hcfgg.lidx] at hcov
        have h7 : h.lidx (s.llo p.1) ≤ h.lidx s.lmax := Lay.idx_mono (by omega)
        dsimp only
        omega
    · intro i
      rw [hcnt, hm, H.all W i, hits_eq_number, hits_eq_number, ← number_append, hits_eq_number]
      simp only [hcfg.lidx]
      by_cases hi : i < h'.counts.length
      · have hv := W'.lval_le' hi
        have := hfit (h'.lval i) hv
        rw [number_equiv W hU hv, ← hcfg.lidx, show h'.lidx (h'.lval i) = i from Lay.idx_val, hits_eq_number] at this
        omega
      · have h2 := hcnt i
        rw [getD_ge (by omega), hm, H.all W i, hits_eq_number, hits_eq_number, ← number_append] at h2
        have := T_max_pos T
        omega
    · have e1 := H.len
      have e2 := Hs.len
      unfold Hist.len at e1 e2
      rw [numberAll_append] at htot ⊢
      rw [numberAll_passedOn]
      by_cases hz : (h.addGrown s).matching s ∧ h.totalCount = 0
      · rw [(hcopy hz).2.1]
        omega
      · rw [htt hz, Hs.sum Ws]
        omega

theorem WF.add_config {h s h' : Hist T} (W : WF fp h) (Ws : WF fp s) (e : h.add s = .ok (h', .ok ())) : SameConfig h h' := by
  obtain ⟨h1, r, e1, W', hr⟩ := W.add_spec Ws
  rw [e1] at e; cases e
  rcases hr with ⟨h0, rfl⟩ | ⟨h0, -, hcfg, -⟩
  · exact .refl _
  · exact hcfg

theorem qans_le {h : Hist T} (q : F64) {y : Nat} (hy : y ≤ U64MAX) : h.qans q y ≤ U64MAX := by
  have ey : h.lval (h.lidx y) = h.llo y := Lay.val_idx
  have hly : h.llo y ≤ y := Lay.lo_le
  unfold Hist.qans
  split
  · rw [ey]; omega
  · exact lhi_le

theorem KthSmallest.le_max {s : Hist T} (Ws : WF fp s) {l : List (Nat × Nat)} (H : Contains s l) {k y : Nat}
    (hy : KthSmallest l k y) : y ≤ U64MAX := by
  obtain ⟨p, hp, rfl, -⟩ := hy.mem
  exact H.le Ws hp

/-- C103: whatever the configurations, after a successful `add` the receiver holds its own samples and those of the source,
each replaced by the lowest value equivalent to it in the source. -/
theorem C103_add {h s h' : Hist T} (R : Reachable fp T h) (Rs : Reachable fp T s) {l l' : List (Nat × Nat)}
    (H : Contains h l) (Hs : Contains s l') (e : h.add s = .ok (h', .ok ())) (hpos : ∀ p ∈ l', p.2 ≠ 0) {lo : Nat → Nat}
    (hlo : ∀ p ∈ l', s.lowestEquivalent p.1 = .ok (lo p.1))
    (hfit : ∀ w, w ≤ U64MAX → (number (l ++ l'.map fun p => (lo p.1, p.2)) fun v => Equiv h v w) ≤ T.max)
    (htot : numberAll (l ++ l') ≤ U64MAX) : Contains h' (l ++ l'.map fun p => (lo p.1, p.2)) := by
  have heq : (l'.map fun p => (lo p.1, p.2)) = passedOn s.llo l' := by
    refine List.map_congr_left fun p hp => ?_
    have h1 := hlo p hp
    rw [lowestEquivalent_eq Rs.wf.toLayoutOK (Hs.le Rs.wf hp)] at h1
    injection h1 with h1
    rw [h1]
  rw [heq] at hfit ⊢
  exact H.add_any R Rs Hs e hpos hfit htot

/-- two intervals of lengths that are powers of two, each beginning at a multiple of its length, are disjoint or one contains the other -/
theorem dyadic_nested {a b i j v y : Nat} (hv : i * 2 ^ a ≤ v ∧ v < i * 2 ^ a + 2 ^ a)
    (hx : i * 2 ^ a ≤ j * 2 ^ b ∧ j * 2 ^ b < i * 2 ^ a + 2 ^ a) (hy : j * 2 ^ b ≤ y ∧ y < j * 2 ^ b + 2 ^ b) :
    (i * 2 ^ a ≤ y ∧ y < i * 2 ^ a + 2 ^ a) ∨ (j * 2 ^ b ≤ v ∧ v < j * 2 ^ b + 2 ^ b) := by
  rcases Nat.le_total a b with h | h
  · right
    obtain ⟨d, rfl⟩ := Nat.exists_eq_add_of_le h
    have e : j * 2 ^ (a + d) = j * 2 ^ d * 2 ^ a := by rw [pow_add]; ring
    have hp : 0 < 2 ^ a := by positivity
    have e2 : 2 ^ a ≤ 2 ^ (a + d) := Nat.pow_le_pow_right (by omega) (by omega)
    have hij : i = j * 2 ^ d := by
      rw [e] at hx
      have h1 := Nat.le_of_mul_le_mul_right hx.1 hp
      have h2 : j * 2 ^ d * 2 ^ a < (i + 1) * 2 ^ a := by rw [Nat.add_mul]; omega
      have := Nat.lt_of_mul_lt_mul_right h2
      omega
    rw [e, ← hij]
    omega
  · left
    obtain ⟨d, rfl⟩ := Nat.exists_eq_add_of_le h
    have e : i * 2 ^ (b + d) = i * 2 ^ d * 2 ^ b := by rw [pow_add]; ring
    have e1 : 2 ^ (b + d) = 2 ^ d * 2 ^ b := by rw [pow_add]; ring
    have hp : 0 < 2 ^ b := by positivity
    rw [e, e1] at hx ⊢
    have h2 : j * 2 ^ b < (i * 2 ^ d + 2 ^ d) * 2 ^ b := by rw [Nat.add_mul]; exact hx.2
    have h3 := Nat.lt_of_mul_lt_mul_right h2
    have h4 : (j + 1) * 2 ^ b ≤ (i * 2 ^ d + 2 ^ d) * 2 ^ b := Nat.mul_le_mul_right _ (by omega)
    rw [Nat.add_mul, Nat.add_mul] at h4
    omega

/-- a value in the class of one layout that contains the lowest value equivalent to `y` in another is equivalent to `y` in one of the two -/
theorem Lay.nested {um m um' m' v y : Nat} (h : Lay.idx um m v = Lay.idx um m (Lay.lo um' m' y)) :
    Lay.idx um m v = Lay.idx um m y ∨ Lay.idx um' m' v = Lay.idx um' m' y := by
  have h1 := Lay.idx_eq_iff.mp h
  have h2 := @Lay.lo_le um m (Lay.lo um' m' y)
  have h3 := @Lay.lt_lo_add um m (Lay.lo um' m' y)
  have h4 := @Lay.lo_le um' m' y
  have h5 := @Lay.lt_lo_add um' m' y
  rcases dyadic_nested (a := um + Lay.bkt um m (Lay.lo um' m' y)) (b := um' + Lay.bkt um' m' y) h1 ⟨h2, h3⟩ ⟨h4, h5⟩ with h | h
  · left
    rw [‹Lay.idx um m v = _›]
    exact (Lay.idx_eq_iff.mpr h).symm
  · right
    exact Lay.idx_eq_iff.mpr h

/-- C103: so copying up to `2 ^ 53` samples into an empty histogram of another range, unit or precision costs no more than the
coarser of the two: a quantile of the copy is equivalent, in the copy or in the source, to the sample of that rank, and so
stands for it with the precision of one of them. -/
theorem C103_quantile {h s h' : Hist T} (R : Reachable fp T h) (Rs : Reachable fp T s) {l : List (Nat × Nat)}
    (h0 : h.len = 0) (Hs : Contains s l) (e : h.add s = .ok (h', .ok ())) (hpos : ∀ p ∈ l, p.2 ≠ 0)
    (hl : 0 < numberAll l) (hfit : numberAll l ≤ T.max) (hn : numberAll l ≤ 2 ^ 53) (q : F64) {y : Nat}
    (hy : KthSmallest l (specRank (numberAll l) q) y) :
    ∃ v, h'.valueAtQuantile q = .ok v ∧ (Equiv h v y ∧ Precise fp h v y ∨ Equiv s v y ∧ Precise fp s v y) := by
  have hyU := KthSmallest.le_max Rs.wf Hs hy
  have H0 := C71_empty R h0
  have H' := H0.add_any R Rs Hs e hpos (by
    intro w _
    refine le_trans (number_le_all _ _) ?_
    rw [List.nil_append, numberAll_passedOn]; exact hfit) (by
      have hU : U64MAX = 18446744073709551615 := rfl
      rw [List.nil_append]; norm_num at hn; omega)
  rw [List.nil_append] at H'
  have R' : Reachable fp T h' := .add R Rs e
  have hk := hy.passedOn (lo := s.llo) (fun a b hab => Lay.lo_mono hab)
  rw [← numberAll_passedOn s.llo] at hk
  have hlo : s.llo y ≤ y := Lay.lo_le
  have ev := H'.answer R' (by rw [numberAll_passedOn]; exact hl) (by rw [numberAll_passedOn]; exact hn) q hk
  have hcfg := R.wf.add_config Rs.wf e
  rw [qans_same ⟨hcfg.um, hcfg.mag⟩] at ev
  have hvU : h.qans q (s.llo y) ≤ U64MAX := qans_le q (by omega)
  have heq := (R.wf.equiv_iff hvU (by omega)).mp (qans_equiv R.wf q (y := s.llo y) (by omega))
  refine ⟨_, ev, ?_⟩
  rcases Lay.nested heq with h2 | h2
  · exact Or.inl ⟨(R.wf.equiv_iff hvU hyU).mpr h2, R.precise hyU h2⟩
  · exact Or.inr ⟨(Rs.wf.equiv_iff hvU hyU).mpr h2, Rs.precise hyU h2⟩

/-- `g` is a copy of `s`, by way of the histograms `hs` (the last first, `g` itself included): each was empty, of whatever configuration,
and the one before it was added -/
inductive CopiedVia (fp : Fp) (s : Hist T) : List (Hist T) → Hist T → Prop
  | self : CopiedVia fp s [] s
  | next {hs : List (Hist T)} {g h h' : Hist T} (c : CopiedVia fp s hs g) (R : Reachable fp T h) (h0 : h.len = 0)
      (e : h.add g = .ok (h', .ok ())) : CopiedVia fp s (h' :: hs) h'

theorem CopiedVia.holds {s g : Hist T} {hs : List (Hist T)} (c : CopiedVia fp s hs g) (Rs : Reachable fp T s)
    {l : List (Nat × Nat)} (Hs : Contains s l) (hpos : ∀ p ∈ l, p.2 ≠ 0) (hfit : numberAll l ≤ T.max)
    (hn : numberAll l ≤ 2 ^ 53) :
    ∃ f : Nat → Nat, Reachable fp T g ∧ Contains g (passedOn f l) ∧ (∀ a b, a ≤ b → f a ≤ f b) ∧ (∀ y, f y ≤ y) ∧
      (∀ h ∈ s :: hs, Reachable fp T h) ∧ g ∈ s :: hs ∧
      ∀ um m v y, Lay.idx um m v = Lay.idx um m (f y) →
        Lay.idx um m v = Lay.idx um m y ∨ ∃ h ∈ s :: hs, h.lidx v = h.lidx y := by
  induction c with
  | self =>
    refine ⟨id, Rs, ?_, fun a b h => h, fun y => le_rfl, by simpa using Rs, by simp, fun um m v y h => Or.inl h⟩
    have : passedOn id l = l := by unfold passedOn; exact List.map_id l
    rw [this]; exact Hs
  | @next hs g h h' c R h0 e ih =>
    obtain ⟨f, Rg, Hg, hm, hle, hR, hg, hst⟩ := ih
    have R' : Reachable fp T h' := .add R Rg e
    have hcfg := R.wf.add_config Rg.wf e
    have H' := (C71_empty R h0).add_any R Rg Hg e (by
        intro p hp
        obtain ⟨q, hq, rfl⟩ := List.mem_map.mp hp
        exact hpos q hq) (by
        intro w _
        refine le_trans (number_le_all _ _) ?_
        rw [List.nil_append, numberAll_passedOn, numberAll_passedOn]; exact hfit) (by
        have hU : U64MAX = 18446744073709551615 := rfl
        rw [List.nil_append, numberAll_passedOn]; norm_num at hn; omega)
    have ef : [] ++ passedOn g.llo (passedOn f l) = passedOn (fun y => g.llo (f y)) l := by
      unfold passedOn; rw [List.nil_append, List.map_map]; rfl
    rw [ef] at H'
    refine ⟨_, R', H', fun a b hab => Lay.lo_mono (hm a b hab), fun y => le_trans Lay.lo_le (hle y), ?_, by simp, ?_⟩
    · intro x hx
      simp only [List.mem_cons] at hx
      rcases hx with rfl | rfl | hx
      · exact Rs
      · exact R'
      · exact hR x (by simp [hx])
    · intro um m v y hv
      have sub : ∀ k ∈ s :: hs, k ∈ s :: h' :: hs := fun k hk => by
        simp only [List.mem_cons] at hk ⊢
        tauto
      rcases Lay.nested hv with h2 | h2
      · exact (hst um m v y h2).imp id fun ⟨k, hk, e⟩ => ⟨k, sub k hk, e⟩
      · right
        rcases hst _ _ v y h2 with h3 | ⟨k, hk, e⟩
        · exact ⟨g, sub g hg, h3⟩
        · exact ⟨k, sub k hk, e⟩

/-- C103: nor do errors add up in a chain of copies: however many histograms the samples went through, a quantile of the last is
equivalent, in one of them, to the sample of that rank. -/
theorem C103_chain {s g : Hist T} {hs : List (Hist T)} (c : CopiedVia fp s hs g) (Rs : Reachable fp T s)
    {l : List (Nat × Nat)} (Hs : Contains s l) (hpos : ∀ p ∈ l, p.2 ≠ 0) (hl : 0 < numberAll l) (hfit : numberAll l ≤ T.max)
    (hn : numberAll l ≤ 2 ^ 53) (q : F64) {y : Nat} (hy : KthSmallest l (specRank (numberAll l) q) y) :
    ∃ v, g.valueAtQuantile q = .ok v ∧ ∃ h ∈ s :: hs, Equiv h v y ∧ Precise fp h v y := by
  obtain ⟨f, Rg, Hg, hm, hle, hR, hg, hst⟩ := c.holds Rs Hs hpos hfit hn
  have hyU := KthSmallest.le_max Rs.wf Hs hy
  have hk := hy.passedOn hm
  rw [← numberAll_passedOn f] at hk
  have hfy := hle y
  have ev := Hg.answer Rg (by rw [numberAll_passedOn]; exact hl) (by rw [numberAll_passedOn]; exact hn) q hk
  have hvU : g.qans q (f y) ≤ U64MAX := qans_le q (by omega)
  have heq := (Rg.wf.equiv_iff hvU (by omega)).mp (qans_equiv Rg.wf q (y := f y) (by omega))
  refine ⟨_, ev, ?_⟩
  have fin : ∀ h ∈ s :: hs, h.lidx (g.qans q (f y)) = h.lidx y → ∃ h ∈ s :: hs, Equiv h (g.qans q (f y)) y ∧ Precise fp h (g.qans q (f y)) y :=
    fun h hh h2 => ⟨h, hh, ((hR h hh).wf.equiv_iff hvU hyU).mpr h2, (hR h hh).precise hyU h2⟩
  rcases hst _ _ _ _ heq with h2 | ⟨k, hk, e⟩
  · exact fin g hg h2
  · exact fin k hk e

/-- Neither alternative of `C103_quantile` can be left out: a copy of `demo3` into a finer histogram answers 8 for the median of its samples, 9,
which is equivalent to it only in the source. -/
theorem C103_finer : ∃ t g, Hist.newWithBounds Fp.ideal .u8 1 100 1 = .ok (.ok t) ∧ t.add demo3 = .ok (g, .ok ()) ∧
    CopiedVia Fp.ideal demo3 [g] g ∧ KthSmallest [(5, 3), (9, 200), (0, 1)] (specRank 204 (.fin (1 / 2))) 9 ∧
    g.valueAtQuantile (.fin (1 / 2)) = .ok 8 ∧ ¬ Equiv t 8 9 ∧ Equiv demo3 8 9 := by
  have h : (match Hist.newWithBounds Fp.ideal .u8 1 100 1 with
    | .ok (.ok t) => (match t.add demo3 with
      | .ok (g, .ok ()) => decide (t.len = 0 ∧ g.valueAtQuantile (.fin (1 / 2)) = .ok 8 ∧ t.equivalent 8 9 = .ok false)
      | _ => false)
    | _ => false) = true := by decide +kernel
  split at h
  · rename_i t ht
    split at h
    · rename_i g hg
      obtain ⟨h0, hv, he⟩ := of_decide_eq_true h
      refine ⟨t, g, ht, hg, .next .self (.newWithBounds (by decide) ht) h0 hg, ?_, hv, ?_, by unfold Equiv; decide +kernel⟩
      · unfold KthSmallest; decide +kernel
      · unfold Equiv; rw [he]; decide
    · cases h
  · cases h

/-- and a copy into a coarser one answers 15 for the sample 9, equivalent to it only in the copy -/
theorem C103_coarser : ∃ s t g, Hist.newWithBounds Fp.ideal .u8 1 100 1 = .ok (.ok t) ∧
    recordSeq [(9, 1)] t = .ok (s, .ok ()) ∧ Contains s [(9, 1)] ∧ demo.add s = .ok (g, .ok ()) ∧ demo.len = 0 ∧
    KthSmallest [(9, 1)] (specRank 1 (.fin (1 / 2))) 9 ∧ g.valueAtQuantile (.fin (1 / 2)) = .ok 15 ∧
    ¬ Equiv s 15 9 ∧ Equiv demo 15 9 := by
  have h : (match Hist.newWithBounds Fp.ideal .u8 1 100 1 with
    | .ok (.ok t) => (match recordSeq [(9, 1)] t with
      | .ok (s, .ok ()) => (match demo.add s with
        | .ok (g, .ok ()) => decide (t.len = 0 ∧ g.valueAtQuantile (.fin (1 / 2)) = .ok 15 ∧ s.equivalent 15 9 = .ok false)
        | _ => false)
      | _ => false)
    | _ => false) = true := by decide +kernel
  split at h
  · rename_i t ht
    split at h
    · rename_i s hs
      split at h
      · rename_i g hg
        obtain ⟨h0, hv, he⟩ := of_decide_eq_true h
        have R : Reachable Fp.ideal .u8 t := .newWithBounds (by decide) ht
        refine ⟨s, t, g, ht, hs, ?_, hg, by decide +kernel, ?_, hv, ?_, by unfold Equiv; decide +kernel⟩
        · have := C71_record R (C71_empty R h0) (by decide) hs (fun w _ => le_trans (number_le_all _ _) (by decide)) (by decide)
          exact this
        · unfold KthSmallest; decide +kernel
        · unfold Equiv; rw [he]; decide
      · cases h
    · cases h
  · cases h

/-- the hypotheses of `C103_add`, with samples on both sides -/
example : ∃ t g, Reachable Fp.ideal .u8 t ∧ Contains t [(3, 2)] ∧ t.add demo3 = .ok (g, .ok ()) ∧
    demo3.lowestEquivalent 5 = .ok 4 ∧ demo3.lowestEquivalent 9 = .ok 8 ∧ demo3.lowestEquivalent 0 = .ok 0 := by
  have h : (match Hist.newWithBounds Fp.ideal .u8 1 100 1 with
    | .ok (.ok t) => (match recordSeq [(3, 2)] t with
      | .ok (s, .ok ()) => (match s.add demo3 with
        | .ok (g, .ok ()) => decide (t.len = 0)
        | _ => false)
      | _ => false)
    | _ => false) = true := by decide +kernel
  split at h
  · rename_i t ht
    split at h
    · rename_i s hs
      split at h
      · rename_i g hg
        have h0 := of_decide_eq_true h
        have R : Reachable Fp.ideal .u8 t := .newWithBounds (by decide) ht
        have := C71_record R (C71_empty R h0) (by decide) hs (fun w _ => le_trans (number_le_all _ _) (by decide)) (by decide)
        exact ⟨s, g, reachable_recordSeq R (by decide) hs, this, hg, by decide +kernel, by decide +kernel, by decide +kernel⟩
      · cases h
    · cases h
  · cases h

end Hdr
