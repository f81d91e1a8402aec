import Verif.Props.Query
import Verif.Props.Config

/-!
# C53: summing histograms

`MergeTree` is any way of adding up a collection with `+`; `Hist.sum` is `iter::Sum`.
-/

namespace Hdr

variable {T : CounterTy} {fp : Fp}

/-- a fully parenthesised sum of histograms -/
inductive MergeTree (T : CounterTy) where
  | leaf (h : Hist T)
  | node (l r : MergeTree T)

def MergeTree.leaves : MergeTree T → List (Hist T)
  | .leaf h => [h]
  | .node l r => l.leaves ++ r.leaves

/-- evaluate with `+` (which panics if `add` fails) -/
def MergeTree.eval : MergeTree T → M (Hist T)
  | .leaf h => .ok h
  | .node l r => do
    let a ← l.eval
    let b ← r.eval
    a.addAssign b

/-- a histogram with the configuration of `h0` whose `len()` is the (saturating) sum of its counts and whose `max()`
is not `u64::MAX`, nor `u64::MAX - 1` unless 0 is alone in its class -/
structure Mergeable (fp : Fp) (h0 x : Hist T) : Prop where
  reach : Reachable fp T x
  same : SameSettings h0 x
  len : x.len = min x.counts.sum U64MAX
  top : ∀ m, x.max = .ok m → m < U64MAX
  unit : x.max = .ok (U64MAX - 1) → x.highestEquivalent 0 = .ok 0

/-- two histograms agree on counts and `len()`, and if not empty on `max()` and `min_nz()` -/
structure SameContent (a b : Hist T) : Prop where
  count : ∀ v n, v ≤ U64MAX → (HasCount a v n ↔ HasCount b v n)
  len : a.len = b.len
  max : a.len ≠ 0 → a.max = b.max
  minNz : a.len ≠ 0 → a.minNz = b.minNz

/-! ### the invariant -/

def sumCnt (l : List (Hist T)) (j : Nat) : Nat := (l.map fun x => x.counts.getD j 0).sum
def sumLen (l : List (Hist T)) : Nat := (l.map (·.totalCount)).sum
def maxOf (l : List (Hist T)) : Nat := ((l.filter fun x => decide (x.totalCount ≠ 0)).map Hist.lmax).foldr Max.max 0
def minOf (l : List (Hist T)) : Nat :=
  ((l.filter fun x => decide (x.totalCount ≠ 0)).map Hist.lminNz).foldr Min.min U64MAX

theorem foldr_max_append (a b : List Nat) :
    (a ++ b).foldr Max.max 0 = Max.max (a.foldr Max.max 0) (b.foldr Max.max 0) := by
  induction a with
  | nil => simp
  | cons x a ih => simp only [List.cons_append, List.foldr_cons, ih]; omega

theorem foldr_min_append (a b : List Nat) :
    (a ++ b).foldr Min.min U64MAX = Min.min (a.foldr Min.min U64MAX) (b.foldr Min.min U64MAX) := by
  induction a with
  | nil =>
    have : b.foldr Min.min U64MAX ≤ U64MAX := by
      induction b with
      | nil => exact le_rfl
      | cons y b ih => simp only [List.foldr_cons]; omega
    simp only [List.nil_append, List.foldr_nil]; omega
  | cons x a ih => simp only [List.cons_append, List.foldr_cons, ih]; omega

theorem maxOf_append (a b : List (Hist T)) : maxOf (a ++ b) = Max.max (maxOf a) (maxOf b) := by
  unfold maxOf; rw [List.filter_append, List.map_append, foldr_max_append]
theorem minOf_append (a b : List (Hist T)) : minOf (a ++ b) = Min.min (minOf a) (minOf b) := by
  unfold minOf; rw [List.filter_append, List.map_append, foldr_min_append]
theorem sumCnt_append (a b : List (Hist T)) (j : Nat) : sumCnt (a ++ b) j = sumCnt a j + sumCnt b j := by
  unfold sumCnt; rw [List.map_append, List.sum_append]
theorem sumLen_append (a b : List (Hist T)) : sumLen (a ++ b) = sumLen a + sumLen b := by
  unfold sumLen; rw [List.map_append, List.sum_append]

theorem empty_of_sumLen {l : List (Hist T)} (h : sumLen l = 0) :
    l.filter (fun x => decide (x.totalCount ≠ 0)) = [] := by
  rw [List.filter_eq_nil_iff]
  intro x hx
  have key : ∀ l : List (Hist T), x ∈ l → x.totalCount ≤ sumLen l := by
    intro l hx
    induction l with
    | nil => cases hx
    | cons y l ih =>
      have e : sumLen (y :: l) = y.totalCount + sumLen l := rfl
      rcases List.mem_cons.mp hx with rfl | h
      · omega
      · have := ih h; omega
  have := key l hx
  have : x.totalCount = 0 := by omega
  simp [this]

theorem maxOf_zero {l : List (Hist T)} (h : sumLen l = 0) : maxOf l = 0 := by
  unfold maxOf; rw [empty_of_sumLen h]; rfl
theorem minOf_zero {l : List (Hist T)} (h : sumLen l = 0) : minOf l = U64MAX := by
  unfold minOf; rw [empty_of_sumLen h]; rfl

theorem maxOf_lt {l : List (Hist T)} {b : Nat} (hb : 0 < b) (h : ∀ x ∈ l, x.lmax < b) : maxOf l < b := by
  induction l with
  | nil => exact hb
  | cons x l ih =>
    have e := maxOf_append [x] l
    rw [List.singleton_append] at e
    have h1 : maxOf [x] ≤ x.lmax := by
      unfold maxOf
      by_cases h0 : x.totalCount = 0 <;> simp [h0]
    have h2 := h x (by simp)
    have h3 := ih (fun y hy => h y (by simp [hy]))
    omega

theorem sumCnt_perm {a b : List (Hist T)} (p : a.Perm b) (j : Nat) : sumCnt a j = sumCnt b j :=
  (p.map _).sum_eq
theorem sumLen_perm {a b : List (Hist T)} (p : a.Perm b) : sumLen a = sumLen b := (p.map _).sum_eq
theorem maxOf_perm {a b : List (Hist T)} (p : a.Perm b) : maxOf a = maxOf b :=
  ((p.filter _).map _).foldr_op_eq
theorem minOf_perm {a b : List (Hist T)} (p : a.Perm b) : minOf a = minOf b :=
  ((p.filter _).map _).foldr_op_eq

/-- `g` is a correct sum of the histograms in `l` -/
structure SumOf (fp : Fp) (h0 : Hist T) (l : List (Hist T)) (g : Hist T) : Prop where
  reach : Reachable fp T g
  same : SameSettings h0 g
  cnt : ∀ j, g.counts.getD j 0 = min (sumCnt l j) T.max
  tot : g.totalCount = min (sumLen l) U64MAX
  max : sumLen l ≠ 0 → g.lmax = maxOf l
  minNz : sumLen l ≠ 0 → g.lminNz = minOf l
  top : maxOf l < U64MAX
  unit : maxOf l = U64MAX - 1 → fp.log2Floor h0.low = 0

theorem Mergeable.lmax_lt {h0 x : Hist T} (m : Mergeable fp h0 x) : x.lmax < U64MAX := m.top _ m.reach.wf.max_eq

theorem Mergeable.unit_one {h0 x : Hist T} (m : Mergeable fp h0 x) (h : x.lmax = U64MAX - 1) : fp.log2Floor h0.low = 0 := by
  have W := m.reach.wf
  have h1 := m.unit (by rw [W.max_eq, h])
  have h2 := W.unit_one h1
  rw [W.um] at h2
  rw [m.same.low]; exact h2

theorem maxOf_one (x : Hist T) : maxOf [x] = 0 ∨ maxOf [x] = x.lmax := by
  unfold maxOf
  by_cases h0 : x.totalCount = 0 <;> simp [h0]

theorem Mergeable.sumOf {h0 x : Hist T} (m : Mergeable fp h0 x) : SumOf fp h0 [x] x := by
  have W := m.reach.wf
  have htop : maxOf [x] < U64MAX :=
    maxOf_lt (by decide) (by intro y hy; rw [List.mem_singleton] at hy; subst hy; exact m.lmax_lt)
  have ht := W.tot
  have hunit : maxOf [x] = U64MAX - 1 → fp.log2Floor h0.low = 0 := by
    intro h
    rcases maxOf_one x with h1 | h1
    · rw [h1] at h; cases h
    · exact m.unit_one (h1 ▸ h)
  refine ⟨m.reach, m.same, fun j => ?_, ?_, fun h => ?_, fun h => ?_, htop, hunit⟩
  · have := W.getD_le j
    simp only [sumCnt, List.map_cons, List.map_nil, List.sum_cons, List.sum_nil]; omega
  · simp only [sumLen, List.map_cons, List.map_nil, List.sum_cons, List.sum_nil]; omega
  · have h0 : x.totalCount ≠ 0 := by simpa [sumLen] using h
    simp [maxOf, h0]
  · have h0 : x.totalCount ≠ 0 := by simpa [sumLen] using h
    have := lminNz_le W.minle
    simp [minOf, h0, this]

theorem SameSettings.symm {a b : Hist T} (h : SameSettings a b) : SameSettings b a :=
  ⟨h.low.symm, h.high.symm, h.sigfig.symm⟩
theorem SameSettings.trans {a b c : Hist T} (h : SameSettings a b) (k : SameSettings b c) : SameSettings a c :=
  ⟨h.low.trans k.low, h.high.trans k.high, h.sigfig.trans k.sigfig⟩

theorem SumOf.add {h0 : Hist T} {l1 l2 : List (Hist T)} {a b : Hist T} (A : SumOf fp h0 l1 a) (B : SumOf fp h0 l2 b)
    (hx : ExactTotal b) : ∃ g, a.addAssign b = .ok g ∧ SumOf fp h0 (l1 ++ l2) g := by
  have W := A.reach.wf
  have Ws := B.reach.wf
  have S : SameSettings a b := A.same.symm.trans B.same
  obtain ⟨hum, hmag⟩ := W.same_layout Ws S.low S.sigfig
  have hm := W.same_matching Ws S.low S.high S.sigfig
  have hU : U64MAX = 18446744073709551615 := rfl
  have hBt := B.tot
  have hAt := A.tot
  have htop : maxOf (l1 ++ l2) < U64MAX := by
    have := A.top; have := B.top; rw [maxOf_append]; omega
  have hunit : maxOf (l1 ++ l2) = U64MAX - 1 → fp.log2Floor h0.low = 0 := by
    intro h
    rw [maxOf_append] at h
    rcases Nat.le_total (maxOf l1) (maxOf l2) with hle | hle
    · exact B.unit (by omega)
    · exact A.unit (by omega)
  have hntop : b.totalCount ≠ 0 → ¬ a.ltop < b.lmax := by
    intro hne hc
    have e1 := (W.same_ltop Ws S.low S.high S.sigfig).mp hc
    have e2 := B.max (by omega)
    have := B.top
    omega
  obtain ⟨g, r, e, W', hr⟩ := W.add_spec Ws
  have Rg : Reachable fp T g := .add A.reach B.reach e
  have hok : r = .ok () := by
    cases r with
    | ok u => rfl
    | error x =>
      cases x with
      | ResizeFailedUsizeTypeTooSmall => exact hr.elim
      | OtherAddendValueExceedsRange => exact absurd hr.2.2.1 (hntop hr.1)
  subst hok
  refine ⟨g, by unfold Hist.addAssign; rw [e]; rfl, ?_⟩
  rcases hr with ⟨hz, rfl⟩ | ⟨hnz, -, hcfg, hlen, hhigh, hcnt, hcopy, htot, hstat⟩
  · have h2 : sumLen l2 = 0 := by omega
    have hb : ∀ j, sumCnt l2 j = 0 := by
      intro j
      have h3 := B.cnt j
      rw [Ws.getD_zero_of_empty hz] at h3
      have : 0 < T.max := T_max_pos T
      omega
    refine ⟨Rg, A.same, fun j => ?_, ?_, fun h => ?_, fun h => ?_, htop, hunit⟩
    · rw [A.cnt, sumCnt_append, hb]; rfl
    · rw [sumLen_append, h2]; exact hAt
    · rw [sumLen_append] at h
      rw [A.max (by omega), maxOf_append, maxOf_zero h2]; omega
    · rw [sumLen_append] at h
      have h4 := A.minNz (by omega)
      have := lminNz_le W.minle
      rw [h4, minOf_append, minOf_zero h2]; omega
  · have h2 : sumLen l2 ≠ 0 := by omega
    have hbm := B.max h2
    have hbn := B.minNz h2
    refine ⟨Rg, ?_, fun j => ?_, ?_, fun _ => ?_, fun _ => ?_, htop, hunit⟩
    · refine A.same.trans ⟨hcfg.low.symm, ?_, hcfg.sig.symm⟩
      unfold Hist.addGrown at hhigh
      rw [if_neg (hntop hnz)] at hhigh
      exact hhigh.symm
    · rw [hcnt, moved_same hum hmag, A.cnt, B.cnt, sumCnt_append]; omega
    · rw [sumLen_append]
      by_cases hz : a.totalCount = 0
      · rw [(hcopy ⟨hm.1, hz⟩).2.1]; omega
      · rw [htot (fun hc => hz hc.2)]
        unfold ExactTotal at hx
        omega
    · rw [maxOf_append]
      by_cases hz : a.totalCount = 0
      · obtain ⟨-, -, c2, -⟩ := hcopy ⟨hm.1, hz⟩
        have e1 : g.lmax = b.lmax := by
          unfold Hist.lmax Hist.lhi Hist.llo Hist.lwid
          rw [c2, hcfg.um, hcfg.mag, hum, hmag]
        rw [e1, hbm, maxOf_zero (show sumLen l1 = 0 by omega)]; omega
      · obtain ⟨c1, -⟩ := hstat ⟨hm.1, hz⟩
        have ham := A.max (by omega)
        by_cases hlt : a.lmax < b.lmax
        · rw [if_pos hlt] at c1
          have hx' : b.lmax ≠ U64MAX - 1 ∨ a.unitMag = 0 := by
            by_cases h : b.lmax = U64MAX - 1
            · right
              rw [W.um, show a.lowestDiscernible = h0.low from A.same.low.symm]
              exact B.unit (by omega)
            · exact Or.inl h
          rw [lmax_adopt W Ws hcfg hum hmag (by omega) hx' c1]; omega
        · rw [if_neg hlt] at c1
          have : g.lmax = a.lmax := by
            unfold Hist.lmax Hist.lhi Hist.llo Hist.lwid
            rw [c1, hcfg.um, hcfg.mag]
          rw [this]; omega
    · rw [minOf_append]
      by_cases hz : a.totalCount = 0
      · obtain ⟨-, -, -, c3⟩ := hcopy ⟨hm.1, hz⟩
        have e1 : g.lminNz = b.lminNz := by
          unfold Hist.lminNz Hist.llo
          rw [c3, hcfg.um, hcfg.mag, hum, hmag]
        have := lminNz_le Ws.minle
        rw [e1, minOf_zero (show sumLen l1 = 0 by omega)]; omega
      · obtain ⟨-, c1⟩ := hstat ⟨hm.1, hz⟩
        have ham := A.minNz (by omega)
        by_cases hlt : b.lminNz < a.lminNz
        · rw [if_pos hlt] at c1
          rw [lminNz_adopt W Ws hcfg hum hmag hlt c1]; omega
        · rw [if_neg hlt] at c1
          have : g.lminNz = a.lminNz := by
            unfold Hist.lminNz Hist.llo
            rw [c1, hcfg.um, hcfg.mag]
          rw [this]; omega

theorem SumOf.sumLoop {h0 : Hist T} (xs : List (Hist T)) (hx : ∀ x ∈ xs, Mergeable fp h0 x) :
    ∀ {l : List (Hist T)} {a : Hist T}, SumOf fp h0 l a → ∃ g, a.sumLoop xs = .ok g ∧ SumOf fp h0 (l ++ xs) g := by
  induction xs with
  | nil => intro l a A; exact ⟨a, rfl, by rw [List.append_nil]; exact A⟩
  | cons x xs ih =>
    intro l a A
    have m := hx x (by simp)
    obtain ⟨g, e, G⟩ := A.add m.sumOf m.len
    obtain ⟨g', e', G'⟩ := ih (fun y hy => hx y (by simp [hy])) G
    refine ⟨g', ?_, ?_⟩
    · unfold Hist.sumLoop; rw [e, M.ok_bind, e']
    · rw [List.append_assoc, List.singleton_append] at G'; exact G'

theorem sum_sumOf {h0 : Hist T} {xs : List (Hist T)} (hne : xs ≠ []) (hx : ∀ x ∈ xs, Mergeable fp h0 x) :
    ∃ g, Hist.sum fp xs = .ok g ∧ SumOf fp h0 xs g := by
  cases xs with
  | nil => exact absurd rfl hne
  | cons x xs =>
    obtain ⟨g, e, G⟩ := (hx x (by simp)).sumOf.sumLoop xs (fun y hy => hx y (by simp [hy]))
    exact ⟨g, e, by simpa using G⟩

theorem SumOf.same_content {h0 : Hist T} {l1 l2 : List (Hist T)} {a b : Hist T} (A : SumOf fp h0 l1 a)
    (B : SumOf fp h0 l2 b) (p : l1.Perm l2) : SameContent a b := by
  have W := A.reach.wf
  have Ws := B.reach.wf
  have S : SameSettings a b := A.same.symm.trans B.same
  obtain ⟨hum, hmag⟩ := W.same_layout Ws S.low S.sigfig
  have hA := A.tot
  have hB := B.tot
  refine ⟨fun v n hv => ?_, ?_, fun h => ?_, fun h => ?_⟩
  · rw [W.hasCount_iff hv, Ws.hasCount_iff hv, A.cnt, B.cnt, sumCnt_perm p]
    unfold Hist.lidx; rw [hum, hmag]
  · unfold Hist.len; rw [hA, hB, sumLen_perm p]
  · unfold Hist.len at h
    rw [W.max_eq, Ws.max_eq, A.max (by omega), B.max (by rw [← sumLen_perm p]; omega), maxOf_perm p]
  · unfold Hist.len at h
    rw [W.minNz_eq, Ws.minNz_eq, A.minNz (by omega), B.minNz (by rw [← sumLen_perm p]; omega), minOf_perm p]

/-- C53, order (partial: requires of every summand that `len()` is the sum of the counts and that `max()` is below
`u64::MAX`, or `u64::MAX - 1` if the unit is above 1; of a sum without samples `max()` and `min_nz()` are left out. All of
this is needed, see `C53_refuted`, `C53_top_refuted`, `C53_unit_refuted`, `C53_no_samples_refuted`): `iter::Sum` does not panic, and its result does not depend on the order. Counters may
saturate. -/
theorem C53_sum_order_partial {h0 : Hist T} {xs ys : List (Hist T)} (p : xs.Perm ys) (hne : xs ≠ [])
    (hx : ∀ x ∈ xs, Mergeable fp h0 x) :
    ∃ a b, Hist.sum fp xs = .ok a ∧ Hist.sum fp ys = .ok b ∧ SameSettings h0 a ∧ SameSettings h0 b ∧
      SameContent a b := by
  obtain ⟨a, e, A⟩ := sum_sumOf hne hx
  obtain ⟨b, e', B⟩ := sum_sumOf (xs := ys) (fun h => hne (by subst h; exact p.eq_nil)) (fun x h => hx x (p.mem_iff.mpr h))
  exact ⟨a, b, e, e', A.same, B.same, A.same_content B p⟩

theorem sum_sumCnt (l : List (Hist T)) (n : Nat) (hl : ∀ x ∈ l, x.counts.length = n) :
    ((List.range n).map (sumCnt l)).sum = (l.map fun x => x.counts.sum).sum := by
  induction l with
  | nil =>
    apply List.sum_eq_zero
    intro x hx
    rw [List.mem_map] at hx
    obtain ⟨i, -, rfl⟩ := hx
    rfl
  | cons x l ih =>
    have e : ∀ j, sumCnt (x :: l) j = x.counts.getD j 0 + sumCnt l j := fun j => rfl
    have e2 : (List.range n).map (sumCnt (x :: l)) = (List.range n).map fun j => x.counts.getD j 0 + sumCnt l j :=
      List.map_congr_left fun j _ => e j
    rw [e2, List.sum_map_add, ih (fun y hy => hl y (by simp [hy])), List.map_cons, List.sum_cons]
    congr 1
    rw [← hl x (by simp), sum_range_getD]

theorem sumLen_sat (l : List (Hist T)) (hl : ∀ x ∈ l, x.totalCount = min x.counts.sum U64MAX) :
    min (sumLen l) U64MAX = min (l.map fun x => x.counts.sum).sum U64MAX := by
  induction l with
  | nil => rfl
  | cons x l ih =>
    have := ih (fun y hy => hl y (by simp [hy]))
    have h2 := hl x (by simp)
    have e : sumLen (x :: l) = x.totalCount + sumLen l := rfl
    rw [e, List.map_cons, List.sum_cons]
    omega

theorem SumOf.exact {h0 : Hist T} {l : List (Hist T)} {g : Hist T} (G : SumOf fp h0 l g) (W0 : WF fp h0)
    (hx : ∀ x ∈ l, Mergeable fp h0 x) (hs : ∀ j, sumCnt l j ≤ T.max) : ExactTotal g := by
  have hlen : ∀ x : Hist T, WF fp x → SameSettings h0 x → x.counts.length = h0.counts.length := by
    intro x Wx S
    obtain ⟨-, hmag⟩ := W0.same_layout Wx S.low S.sigfig
    rw [Wx.len, W0.len, ← W0.same_bc Wx S.low S.high S.sigfig, hmag]
  unfold ExactTotal
  rw [G.tot, sumLen_sat l (fun x h => (hx x h).len),
    ← sum_sumCnt l h0.counts.length (fun x h => hlen x (hx x h).reach.wf (hx x h).same)]
  congr 1
  rw [← sum_range_getD g.counts, hlen g G.reach.wf G.same]
  congr 1
  apply List.map_congr_left
  intro j _
  rw [G.cnt]
  have := hs j
  omega

theorem tree_sumOf {h0 : Hist T} (W0 : WF fp h0) (t : MergeTree T) (hx : ∀ x ∈ t.leaves, Mergeable fp h0 x)
    (hs : ∀ j, sumCnt t.leaves j ≤ T.max) : ∃ g, t.eval = .ok g ∧ SumOf fp h0 t.leaves g := by
  induction t with
  | leaf h => exact ⟨h, rfl, (hx h (by simp [MergeTree.leaves])).sumOf⟩
  | node l r ihl ihr =>
    have hl : ∀ x ∈ l.leaves, Mergeable fp h0 x := fun x h => hx x (by simp [MergeTree.leaves, h])
    have hr : ∀ x ∈ r.leaves, Mergeable fp h0 x := fun x h => hx x (by simp [MergeTree.leaves, h])
    have e : ∀ j, sumCnt (MergeTree.node l r).leaves j = sumCnt l.leaves j + sumCnt r.leaves j := fun j =>
      sumCnt_append _ _ j
    obtain ⟨a, ea, A⟩ := ihl hl (fun j => by have := hs j; rw [e] at this; omega)
    have hsr : ∀ j, sumCnt r.leaves j ≤ T.max := fun j => by have := hs j; rw [e] at this; omega
    obtain ⟨b, eb, B⟩ := ihr hr hsr
    obtain ⟨g, eg, G⟩ := A.add B (B.exact W0 hr hsr)
    refine ⟨g, ?_, G⟩
    unfold MergeTree.eval
    rw [ea, M.ok_bind, eb, M.ok_bind, eg]

/-- C53, grouping (partial: as above, and no class may overflow its counter in the total, see `C53_overflow_refuted`): however the sum is
parenthesised and ordered, it does not panic and gives the same as `iter::Sum`. -/
theorem C53_sum_grouping_partial {h0 : Hist T} (R0 : Reachable fp T h0) (t : MergeTree T) {ys : List (Hist T)}
    (p : t.leaves.Perm ys) (hx : ∀ x ∈ t.leaves, Mergeable fp h0 x)
    (hs : ∀ (v : Nat) (f : Hist T → Nat), v ≤ U64MAX → (∀ x ∈ t.leaves, HasCount x v (f x)) →
      (t.leaves.map f).sum ≤ T.max) :
    ∃ a b, t.eval = .ok a ∧ Hist.sum fp ys = .ok b ∧ SameSettings h0 a ∧ SameSettings h0 b ∧ SameContent a b := by
  have W0 := R0.wf
  have hne : ys ≠ [] := by
    intro h; subst h
    have := p.eq_nil
    have hl : ∀ t : MergeTree T, t.leaves ≠ [] := by
      intro t
      induction t with
      | leaf h => simp [MergeTree.leaves]
      | node l r ihl _ => simp [MergeTree.leaves, ihl]
    exact hl t this
  have hlay : ∀ x ∈ t.leaves, ∀ v, x.lidx v = h0.lidx v ∧ x.counts.length = h0.counts.length := by
    intro x h v
    have m := hx x h
    have Wx := m.reach.wf
    obtain ⟨hum, hmag⟩ := W0.same_layout Wx m.same.low m.same.sigfig
    refine ⟨by unfold Hist.lidx; rw [hum, hmag], ?_⟩
    rw [Wx.len, W0.len, ← W0.same_bc Wx m.same.low m.same.high m.same.sigfig, hmag]
  have hsat : ∀ j, sumCnt t.leaves j ≤ T.max := by
    intro j
    by_cases hj : j < h0.counts.length
    · have hv := W0.lval_le' hj
      refine hs (h0.lval j) (fun x => x.counts.getD j 0) hv fun x h => ?_
      rw [(hx x h).reach.wf.hasCount_iff hv, (hlay x h _).1, show h0.lidx (h0.lval j) = j from Lay.idx_val]
    · have : sumCnt t.leaves j = 0 := by
        apply List.sum_eq_zero
        intro n hn
        rw [List.mem_map] at hn
        obtain ⟨x, h, rfl⟩ := hn
        exact getD_ge (by rw [(hlay x h 0).2]; omega)
      omega
  obtain ⟨a, ea, A⟩ := tree_sumOf W0 t hx hsat
  obtain ⟨b, eb, B⟩ := sum_sumOf hne (fun x h => hx x (p.mem_iff.mpr h))
  exact ⟨a, b, ea, eb, A.same, B.same, A.same_content B p⟩

theorem demo_mergeable : Mergeable Fp.ideal demo demo :=
  ⟨.newWithBounds (by decide) demo_eq, ⟨rfl, rfl, rfl⟩, by decide +kernel, by
    intro m hm
    have : demo.max = .ok 0 := by decide +kernel
    rw [this] at hm; cases hm; decide, by decide +kernel⟩

theorem demo2_mergeable : Mergeable Fp.ideal demo demo2 :=
  ⟨demo2_reachable, ⟨rfl, rfl, rfl⟩, by decide +kernel, by
    intro m hm
    have : demo2.max = .ok 15 := by decide +kernel
    rw [this] at hm; cases hm; decide, by decide +kernel⟩

/-- two orders of a three-element sum whose counters saturate -/
example : ∃ a b, Hist.sum Fp.ideal [demo2, demo, demo2] = .ok a ∧ Hist.sum Fp.ideal [demo, demo2, demo2] = .ok b ∧
    SameSettings demo a ∧ SameSettings demo b ∧ SameContent a b :=
  C53_sum_order_partial (List.Perm.swap demo demo2 [demo2]) (by simp) (by
    intro x hx
    simp only [List.mem_cons, List.not_mem_nil, or_false] at hx
    rcases hx with rfl | rfl | rfl <;> first | exact demo2_mergeable | exact demo_mergeable)

/-- `demo2` after `record_n(9, 200)`: the counter of 8..15 is saturated, `len()` is not the sum of the counts -/
def demo2S : Hist .u8 := { demo2 with totalCount := 360, counts := [0, 0, 60, 0, 255] }

theorem demo2S_reachable : Reachable Fp.ideal .u8 demo2S :=
  .recordN (v := 9) (c := 200) (r := .ok ()) demo2_reachable (by decide) (by decide) (by decide +kernel)

/-- Without the condition on `len()` the order matters: once a counter of a summand has saturated, `len()` of the sum
depends on which operand is added to which. -/
theorem C53_refuted :
    ∃ (x y a b : Hist .u8), Reachable Fp.ideal .u8 x ∧ Reachable Fp.ideal .u8 y ∧ SameSettings x y ∧
      Hist.sum Fp.ideal [x, y] = .ok a ∧ Hist.sum Fp.ideal [y, x] = .ok b ∧ a.len ≠ b.len :=
  ⟨demo2, demo2S, { demo2 with totalCount := 475, counts := [0, 0, 120, 0, 255] },
    { demo2 with totalCount := 520, counts := [0, 0, 120, 0, 255] }, demo2_reachable, demo2S_reachable,
    ⟨rfl, rfl, rfl⟩, by decide +kernel, by decide +kernel, by decide⟩

/-- A summand that holds `u64::MAX` can only come first: in any other place the sum panics. -/
theorem C53_top_refuted :
    ∃ (x y a : Hist .u8), Reachable Fp.ideal .u8 x ∧ Reachable Fp.ideal .u8 y ∧ SameSettings x y ∧
      x.max = .ok U64MAX ∧ Hist.sum Fp.ideal [x, y] = .ok a ∧ Hist.sum Fp.ideal [y, x] = .error .expect :=
  ⟨demoTop1, demoTop, demoTop1, demoTop1_reachable, demoTop_reachable, ⟨rfl, rfl, rfl⟩, by decide +kernel, by decide +kernel,
    by decide +kernel⟩

/-- With a unit of 4, the order decides whether `max()` of the sum is `u64::MAX - 1` or `u64::MAX`. -/
theorem C53_unit_refuted :
    ∃ (x y a b : Hist .u8), Reachable Fp.ideal .u8 x ∧ Reachable Fp.ideal .u8 y ∧ SameSettings x y ∧
      Hist.sum Fp.ideal [x, y] = .ok a ∧ Hist.sum Fp.ideal [y, x] = .ok b ∧
      a.max = .ok U64MAX ∧ b.max = .ok (U64MAX - 1) :=
  ⟨demoTopU5, demoTopUT,
    { demoTopU with maxValue := U64MAX, minNonZero := 4, totalCount := 2, counts := 0 :: 1 :: List.replicate 60 0 ++ [1] },
    { demoTopU with maxValue := U64MAX - 100, minNonZero := 4, totalCount := 2, counts := 0 :: 1 :: List.replicate 60 0 ++ [1] },
    .recordN (v := 5) (c := 1) (r := .ok ()) demoTopU_reachable (by decide) (by decide) C17_max_refuted.1,
    .recordN (v := U64MAX - 100) (c := 1) (r := .ok ()) demoTopU_reachable (by decide) (by decide) C17_max_refuted.2.1,
    ⟨rfl, rfl, rfl⟩, by decide +kernel, by decide +kernel, by decide +kernel, by decide +kernel⟩

/-- Without samples, `max()` of the sum is that of the first summand: 3 after `reset()`, 0 when new, with unit 4. -/
theorem C53_no_samples_refuted :
    ∃ (x y a b : Hist .u64), Reachable Fp.ideal .u64 x ∧ Reachable Fp.ideal .u64 y ∧ SameSettings x y ∧
      Hist.sum Fp.ideal [x, y] = .ok a ∧ Hist.sum Fp.ideal [y, x] = .ok b ∧ a.max = .ok 0 ∧ b.max = .ok 3 :=
  ⟨demoU, demoU.reset, demoU, demoU.reset, demoU_reachable, .reset demoU_reachable, ⟨rfl, rfl, rfl⟩, by decide +kernel,
    by decide +kernel, by decide +kernel, by decide +kernel⟩

/-- `demo` after `record_n(9, 200)` -/
def demo200 : Hist .u8 := { demo with maxValue := 9, minNonZero := 9, totalCount := 200, counts := [0, 0, 0, 0, 200] }

/-- If a class overflows its counter, `len()` depends on the grouping. -/
theorem C53_overflow_refuted :
    ∃ (x : Hist .u8) (a b : Hist .u8), Reachable Fp.ideal .u8 x ∧ Mergeable Fp.ideal x x ∧
      (MergeTree.node (.node (.leaf x) (.leaf x)) (.leaf x)).eval = .ok a ∧
      (MergeTree.node (.leaf x) (.node (.leaf x) (.leaf x))).eval = .ok b ∧ a.len ≠ b.len :=
  have R : Reachable Fp.ideal .u8 demo200 :=
    .recordN (v := 9) (c := 200) (r := .ok ()) (.newWithBounds (by decide) demo_eq) (by decide) (by decide) (by decide +kernel)
  have hm : demo200.max = .ok 15 := by
    decide +kernel
  ⟨demo200, { demo with maxValue := 9, minNonZero := 9, totalCount := 600, counts := [0, 0, 0, 0, 255] },
    { demo with maxValue := 9, minNonZero := 9, totalCount := 455, counts := [0, 0, 0, 0, 255] }, R,
    ⟨R, ⟨rfl, rfl, rfl⟩, by decide +kernel, fun m e => by rw [hm] at e; cases e; decide, by decide +kernel⟩,
    by decide +kernel, by decide +kernel, by decide⟩

/-- The sum of no histograms at all does not panic: it is an empty auto-resizing histogram of three digits. -/
theorem C53_sum_empty : ∃ h : Hist T, Hist.sum fp [] = .ok h ∧ IsFresh h 1 2 3 true := by
  obtain ⟨h, e⟩ : ∃ h : Hist T, Hist.new fp T 3 = .ok (.ok h) := (C01_new fp T 3).1 (by decide)
  refine ⟨h, ?_, C02_fresh_new e⟩
  show (Hist.new fp T 3 >>= _) = _
  rw [e]
  rfl

end Hdr
