import Verif.Proofs.RankStep
import Verif.Props.Samples
import Mathlib.Order.Interval.Set.UnorderedInterval

/-!
# C101, C102: how quantiles move when samples are added, enlarged or merged
-/

namespace Hdr
variable {fp : Fp} {T T' : CounterTy}

/-! ## C101 -/

/-- C101: recording moves every quantile towards the value recorded, and not beyond it: the new answer lies between
the old one and the value (or one equivalent to it).  For all quantiles, also those outside 0 to 1 and NaN. -/
theorem C101_record {h h' : Hist T} (R : Reachable fp T h) {l : List (Nat × Nat)} (H : Contains h l)
    (h0 : 0 < numberAll l) {v c : Nat} (hv : v ≤ U64MAX) (hc : c ≤ T.max) (e : h.recordN v c = .ok (h', .ok ()))
    (hfit : ∀ w, w ≤ U64MAX → (number (l ++ [(v, c)]) fun x => Equiv h x w) ≤ T.max)
    (hn : numberAll l + c ≤ 2 ^ 53) (q : F64) :
    ∃ x x' w, h.valueAtQuantile q = .ok x ∧ h'.valueAtQuantile q = .ok x' ∧ Equiv h w v ∧ x' ∈ Set.uIcc x w := by
  have W := R.wf
  have hU : U64MAX = 18446744073709551615 := rfl
  have es : recordSeq [(v, c)] h = .ok (h', .ok ()) := by rw [recordSeq_cons, e]; rfl
  have hval : ∀ p ∈ [(v, c)], p.1 ≤ U64MAX ∧ p.2 ≤ T.max := by simp [hv, hc]
  have htot : numberAll (l ++ [(v, c)]) = numberAll l + c := by rw [numberAll_append]; simp [numberAll]
  have H' := C71_record R H hval es hfit (by rw [htot]; norm_num at hn; omega)
  have R' : Reachable fp T h' := .recordN R hv hc e
  obtain ⟨y, hyU, hy, ey⟩ := H.answers R h0 (by omega) q
  obtain ⟨y', hyU', hy', ey'⟩ := H'.answers R' (by rw [htot]; omega) (by rw [htot]; omega) q
  obtain ⟨_, _, e2, W2, hr⟩ := W.recordSeq_spec [(v, c)] hval
  rw [es] at e2
  injection e2 with e2
  injection e2 with e2 e3
  subst e2; subst e3
  have cfg := hr.1.cfg
  have hq : ∀ z, h'.qans q z = h.qans q z := fun z => qans_same ⟨cfg.um, cfg.mag⟩ q z
  rw [hq] at ey'
  refine ⟨_, _, h.qans q v, ey, ey', qans_equiv W q hv, ?_⟩
  rw [htot] at hy'
  obtain ⟨r1, r2⟩ := specRank_add (n := numberAll l) (c := c) hn q
  have nle : ∀ x, number (l ++ [(v, c)]) (fun z => z ≤ x) = number l (fun z => z ≤ x) + if v ≤ x then c else 0 := by
    intro x; rw [number_append, number_cons]; simp [number]
  have nlt : ∀ x, number (l ++ [(v, c)]) (fun z => z < x) = number l (fun z => z < x) + if v < x then c else 0 := by
    intro x; rw [number_append, number_cons]; simp [number]
  obtain ⟨y1, y2⟩ := hy
  rw [Set.mem_uIcc]
  rcases Nat.lt_or_ge y v with hlt | hge
  · left
    refine ⟨qans_mono q hyU' (hy'.ge_of ?_), qans_mono q hv (hy'.le_of ?_)⟩
    · rw [nlt, if_neg (by omega)]; omega
    · rw [nle, if_pos le_rfl]
      have : number l (fun z => z ≤ y) ≤ number l (fun z => z ≤ v) := number_le fun p _ hp => by omega
      omega
  · right
    refine ⟨qans_mono q hyU' (hy'.ge_of ?_), qans_mono q hyU (hy'.le_of ?_)⟩
    · rw [nlt, if_neg (by omega)]
      have : number l (fun z => z < v) ≤ number l (fun z => z < y) := number_le fun p _ hp => by omega
      omega
    · rw [nle, if_pos hge]; omega

/-- C101: larger samples have larger quantiles.  `l` and `l'` are as many samples, and there are never more of `l'` than
of `l` up to any bound.  The histograms agree on the lowest discernible value and the precision, not necessarily on
range, counter type or anything else. -/
theorem C101_larger {h : Hist T} {h' : Hist T'} (R : Reachable fp T h) (R' : Reachable fp T' h') (hlow : h.low = h'.low)
    (hsig : h.sigfig = h'.sigfig) {l l' : List (Nat × Nat)} (H : Contains h l) (H' : Contains h' l')
    (heq : numberAll l' = numberAll l) (h0 : 0 < numberAll l) (hn : numberAll l ≤ 2 ^ 53)
    (hle : ∀ x, number l' (fun v => v ≤ x) ≤ number l (fun v => v ≤ x)) :
    (∀ q, ∃ x x', h.valueAtQuantile q = .ok x ∧ h'.valueAtQuantile q = .ok x' ∧ x ≤ x') ∧
    (∀ v, v ≤ U64MAX → ∃ x x' : ℚ, h.quantileBelow v = .ok (.fin x) ∧ h'.quantileBelow v = .ok (.fin x') ∧ x' ≤ x) := by
  have W := R.wf
  have W' := R'.wf
  have hs := W.same_slots W' hlow hsig
  constructor
  · intro q
    obtain ⟨y, hyU, hy, ey⟩ := H.answers R h0 hn q
    obtain ⟨y', hyU', hy', ey'⟩ := H'.answers R' (by omega) (by omega) q
    refine ⟨_, _, ey, ey', ?_⟩
    rw [← qans_same hs]
    refine qans_mono q hyU' (hy.le_of ?_)
    have := hle y'
    have := hy'.2
    rw [heq] at this
    omega
  · intro v hv
    refine ⟨_, _, C73_quantile_below R H h0 hn hv, C73_quantile_below R' H' (by omega) (by omega) hv, F64.rndQ_mono ?_⟩
    rw [heq]
    have hp : (0 : ℚ) < numberAll l := by exact_mod_cast h0
    refine div_le_div_of_nonneg_right ?_ hp.le
    have key : ∀ {S : CounterTy} {g : Hist S} {k : List (Nat × Nat)}, WF fp g → Contains g k →
        (number k fun x => x ≤ v ∨ Equiv g x v) = number k fun x => x ≤ g.lval (g.lidx v + 1) - 1 := by
      intro S g k Wg Hg
      refine number_congr fun p hp => ?_
      rw [Wg.equiv_iff (Hg.le Wg hp) hv]
      have h1 : p.1 < g.lval (g.lidx v + 1) ↔ g.lidx p.1 < g.lidx v + 1 := Lay.lt_val_iff
      have h2 : v < g.lval (g.lidx v + 1) := Lay.lt_val_iff.mpr (Nat.lt_succ_self _)
      have h3 : p.1 ≤ v → g.lidx p.1 ≤ g.lidx v := fun h => Lay.idx_mono h
      have h4 : ¬ p.1 ≤ v → g.lidx v ≤ g.lidx p.1 := fun h => Lay.idx_mono (by omega)
      constructor
      · rintro (h | h)
        · have := h1.mpr (by have := h3 h; omega); omega
        · have := h1.mpr (by omega); omega
      · intro h
        have := h1.mp (by omega)
        by_cases hpv : p.1 ≤ v
        · exact Or.inl hpv
        · right; have := h4 hpv; omega
    rw [key W H, key W' H']
    have : h.lval (h.lidx v + 1) = h'.lval (h'.lidx v + 1) := by
      unfold Hist.lval Hist.lidx; rw [hs.1, hs.2]
    rw [this]
    exact_mod_cast hle _

/-- larger, sample by sample -/
theorem number_of_forall₂ {xs ys : List Nat} (hxy : List.Forall₂ (· ≤ ·) xs ys) (b : Nat) :
    number (ys.map fun y => (y, 1)) (fun v => v ≤ b) ≤ number (xs.map fun x => (x, 1)) (fun v => v ≤ b) := by
  induction hxy with
  | nil => exact le_rfl
  | cons h _ ih =>
    rw [List.map_cons, List.map_cons, number_cons, number_cons]
    dsimp only
    split <;> split <;> omega

/-- recording single samples within the range, from the constructor on -/
theorem fresh_holds {low high sigfig : Nat} (hh : high ≤ U64MAX) {h0 : Hist T}
    (e0 : Hist.newWithBounds fp T low high sigfig = .ok (.ok h0)) {xs : List Nat} (hx : ∀ x ∈ xs, x ≤ high)
    (hfit : xs.length ≤ T.max) (hn : xs.length ≤ 2 ^ 53) :
    ∃ h, recordSeq (xs.map fun x => (x, 1)) h0 = .ok (h, .ok ()) ∧ Reachable fp T h ∧
      Contains h (xs.map fun x => (x, 1)) ∧ h.low = h0.low ∧ h.sigfig = h0.sigfig := by
  have R0 : Reachable fp T h0 := .newWithBounds hh e0
  have hl : ∀ p ∈ xs.map fun x => (x, 1), p.1 ≤ U64MAX ∧ p.2 ≤ T.max := by
    intro p hp
    obtain ⟨x, hx', rfl⟩ := List.mem_map.mp hp
    exact ⟨le_trans (hx x hx') hh, T_max_pos T⟩
  have hhigh : h0.high = high := (C02_fresh_bounds hh e0).high
  have hcov : ∀ x ∈ xs, h0.Covers x := fun x hx' => (C03_range R0).1 x (by rw [hhigh]; exact hx x hx')
  obtain ⟨h, r, e, W, hr⟩ := R0.wf.recordSeq_spec _ hl
  have hr0 : r = .ok () := by
    cases r with
    | ok u => rfl
    | error er =>
      exfalso
      obtain ⟨-, -, l1, p, l2, el, -, hge, -⟩ := hr
      have hp : p ∈ xs.map fun x => (x, 1) := by rw [el]; simp
      obtain ⟨x, hx', rfl⟩ := List.mem_map.mp hp
      have := (R0.wf.covers_iff x).mp (hcov x hx')
      dsimp only at hge
      omega
  subst hr0
  have H0 : Contains h0 [] := C71_empty R0 (C02_fresh_bounds hh e0).len
  have hU : U64MAX = 18446744073709551615 := rfl
  have hall := numberAll_ones xs
  have H : Contains h (xs.map fun x => (x, 1)) := by
    have := C71_record R0 H0 hl e (fun w _ => by
      rw [List.nil_append]
      exact le_trans (number_le_all _ _) (by omega)) (by rw [List.nil_append]; norm_num at hn; omega)
    rwa [List.nil_append] at this
  exact ⟨h, e, reachable_recordSeq R0 hl e, H, hr.1.cfg.low, hr.1.cfg.sig⟩

theorem number_perm {l l' : List (Nat × Nat)} (hp : l.Perm l') (P : Nat → Prop) [DecidablePred P] : number l P = number l' P := by
  unfold number
  exact ((hp.filter _).map _).sum_eq

/-- C101, from the constructor on: record samples in one histogram, and as many in another one constructed with the
same lowest value and precision, each at least as large as its counterpart, in any order.  Then no quantile is smaller. -/
theorem C101_end_to_end {low high high' sigfig : Nat} (hh : high ≤ U64MAX) (hh' : high' ≤ U64MAX) {h0 : Hist T} {h0' : Hist T'}
    (e0 : Hist.newWithBounds fp T low high sigfig = .ok (.ok h0))
    (e0' : Hist.newWithBounds fp T' low high' sigfig = .ok (.ok h0'))
    {xs ys zs : List Nat} (hxy : List.Forall₂ (· ≤ ·) xs ys) (hp : zs.Perm ys) (hx : ∀ x ∈ xs, x ≤ high)
    (hz : ∀ z ∈ zs, z ≤ high') (hfit : xs.length ≤ T.max) (hfit' : xs.length ≤ T'.max) (hn : xs.length ≤ 2 ^ 53) :
    ∃ h h', recordSeq (xs.map fun x => (x, 1)) h0 = .ok (h, .ok ()) ∧
      recordSeq (zs.map fun z => (z, 1)) h0' = .ok (h', .ok ()) ∧
      ∀ q, xs ≠ [] → ∃ a b, h.valueAtQuantile q = .ok a ∧ h'.valueAtQuantile q = .ok b ∧ a ≤ b := by
  have hlen : zs.length = xs.length := by rw [hp.length_eq, hxy.length_eq]
  obtain ⟨h, e, R, H, l1, s1⟩ := fresh_holds hh e0 hx hfit hn
  obtain ⟨h', e', R', H', l2, s2⟩ := fresh_holds hh' e0' hz (by omega) (by omega)
  refine ⟨h, h', e, e', fun q hne => ?_⟩
  have hxl : 0 < xs.length := List.length_pos_iff.mpr hne
  have F := C02_fresh_bounds hh e0
  have F' := C02_fresh_bounds hh' e0'
  refine (C101_larger R R' (by rw [l1, l2, F.low, F'.low]) (by rw [s1, s2, F.sigfig, F'.sigfig]) H H' ?_ ?_ ?_ ?_).1 q
  · rw [numberAll_ones, numberAll_ones, hlen]
  · rwa [numberAll_ones]
  · rwa [numberAll_ones]
  · intro x
    rw [number_perm (hp.map _)]
    exact number_of_forall₂ hxy x

/-- the 204 samples of `demo3` and 50 more of 6: the first decile moves from the class of 9 to that of 6 -/
example : ∃ h', demo3.recordN 6 50 = .ok (h', .ok ()) ∧ (∃ x x' w, demo3.valueAtQuantile (.fin (1 / 10)) = .ok x ∧
    h'.valueAtQuantile (.fin (1 / 10)) = .ok x' ∧ Equiv demo3 w 6 ∧ x' ∈ Set.uIcc x w) ∧
    demo3.valueAtQuantile (.fin (1 / 10)) = .ok 15 ∧ h'.valueAtQuantile (.fin (1 / 10)) = .ok 7 := by
  obtain ⟨h', e, hv⟩ : ∃ h', demo3.recordN 6 50 = .ok (h', .ok ()) ∧ h'.valueAtQuantile (.fin (1 / 10)) = .ok 7 :=
    okThen (by decide +kernel)
  exact ⟨h', e, C101_record demo3_reachable demo3_holds (by decide) (by decide) (by decide) e
    (fun w _ => le_trans (number_le_all _ _) (by decide)) (by decide) _, by decide +kernel, hv⟩

example : ∃ h h', recordSeq ([9, 2, 6].map fun x => (x, 1)) demo = .ok (h, .ok ()) ∧
      recordSeq ([6, 9, 4].map fun z => (z, 1)) demo = .ok (h', .ok ()) ∧
      ∀ q, [9, 2, 6] ≠ [] → ∃ a b, h.valueAtQuantile q = .ok a ∧ h'.valueAtQuantile q = .ok b ∧ a ≤ b :=
  C101_end_to_end (ys := [9, 4, 6]) (by decide) (by decide) demo_eq demo_eq (by decide) (by decide) (by decide) (by decide)
    (by decide) (by decide) (by decide)

/-! ## C102 -/

/-- exact ranks of a union -/
theorem exactRank_union {m n : Nat} (hm : 0 < m) (hn : 0 < n) {x : ℚ} (h0 : 0 ≤ x) :
    exactRank (m + n) x ≤ exactRank m x + exactRank n x ∧ exactRank m x + exactRank n x ≤ exactRank (m + n) x + 1 := by
  unfold exactRank
  have e : x * ((m + n : ℕ) : ℚ) = x * m + x * n := by push_cast; ring
  rw [e]
  have hmq : (0 : ℚ) < m := by exact_mod_cast hm
  have hnq : (0 : ℚ) < n := by exact_mod_cast hn
  have h1 : ⌈x * m + x * n⌉ ≤ ⌈x * m⌉ + ⌈x * n⌉ := Int.ceil_add_le _ _
  have h2 : ⌈x * m⌉ + ⌈x * n⌉ ≤ ⌈x * m + x * n⌉ + 1 := Int.ceil_add_ceil_le _ _
  rcases eq_or_lt_of_le h0 with rfl | hx
  · simp
  · have h3 : 0 < ⌈x * m⌉ := Int.ceil_pos.mpr (mul_pos hx hmq)
    have h4 : 0 < ⌈x * n⌉ := Int.ceil_pos.mpr (mul_pos hx hnq)
    omega

/-- C102 (partial: provided the rank in the union is the sum of the two ranks, or one less, which is so without rounding, see
`C102_exact`, `C102_dyadic`, but not always, `C102_refuted`, `C102_below_refuted`): a quantile of two merged histograms lies
between the quantiles of the two. -/
theorem C102_merge_partial {h s h' : Hist T} (R : Reachable fp T h) (Rs : Reachable fp T s) (hlow : h.low = s.low)
    (hsig : h.sigfig = s.sigfig) {l l' : List (Nat × Nat)} (H : Contains h l) (Hs : Contains s l')
    (e : h.add s = .ok (h', .ok ())) (hpos : ∀ p ∈ l', p.2 ≠ 0)
    (hfit : ∀ w, w ≤ U64MAX → (number (l ++ l') fun v => Equiv h v w) ≤ T.max)
    (h0 : 0 < numberAll l) (h0' : 0 < numberAll l') (hn : numberAll l + numberAll l' ≤ 2 ^ 53)
    {q : F64} (u1 : specRank (numberAll l + numberAll l') q ≤ specRank (numberAll l) q + specRank (numberAll l') q)
    (u2 : specRank (numberAll l) q + specRank (numberAll l') q ≤ specRank (numberAll l + numberAll l') q + 1) :
    ∃ a b m, h.valueAtQuantile q = .ok a ∧ s.valueAtQuantile q = .ok b ∧
      h'.valueAtQuantile q = .ok m ∧ m ∈ Set.uIcc a b := by
  have W := R.wf
  have Ws := Rs.wf
  have hU : U64MAX = 18446744073709551615 := rfl
  have htot : numberAll (l ++ l') = numberAll l + numberAll l' := numberAll_append l l'
  have hss := W.same_slots Ws hlow hsig
  have hco : ∀ a b, a ≤ U64MAX → b ≤ U64MAX → Equiv s a b → Equiv h a b := by
    intro a b ha hb hab
    rw [Ws.equiv_iff ha hb] at hab
    rw [W.equiv_iff ha hb]
    unfold Hist.lidx at hab ⊢
    rw [hss.1, hss.2]; exact hab
  have H' := C71_add R Rs H Hs hco e hpos hfit (by rw [htot]; norm_num at hn; omega)
  have R' : Reachable fp T h' := .add R Rs e
  have hs' : h.unitMag = h'.unitMag ∧ h.subBucketHalfCountMag = h'.subBucketHalfCountMag := by
    obtain ⟨h1, r, ea, -, hr⟩ := W.add_spec Ws
    rw [ea] at e; cases e
    rcases hr with ⟨-, rfl⟩ | ⟨-, -, hcfg, -⟩
    · exact ⟨rfl, rfl⟩
    · exact ⟨hcfg.um.symm, hcfg.mag.symm⟩
  obtain ⟨y, hyU, hy, ey⟩ := H.answers R h0 (by omega) q
  obtain ⟨z, hzU, hz, ez⟩ := Hs.answers Rs h0' (by omega) q
  obtain ⟨m, hmU, hm, em⟩ := H'.answers R' (by omega) (by omega) q
  rw [htot] at hm
  rw [← qans_same hs'] at em
  rw [← qans_same hss] at ez
  refine ⟨_, _, _, ey, ez, em, ?_⟩
  have up : ∀ t, y ≤ t → z ≤ t → m ≤ t := fun t ht1 ht2 => hm.le_of (by
    rw [number_append]
    have a1 : number l (fun v => v ≤ y) ≤ number l (fun v => v ≤ t) := number_le fun p _ hp => by omega
    have a2 : number l' (fun v => v ≤ z) ≤ number l' (fun v => v ≤ t) := number_le fun p _ hp => by omega
    have := hy.2
    have := hz.2
    omega)
  have dn : ∀ t, t ≤ y → t ≤ z → t ≤ m := fun t ht1 ht2 => hm.ge_of (by
    rw [number_append]
    have a1 : number l (fun v => v < t) ≤ number l (fun v => v < y) := number_le fun p _ hp => by omega
    have a2 : number l' (fun v => v < t) ≤ number l' (fun v => v < z) := number_le fun p _ hp => by omega
    have := hy.1
    have := hz.1
    omega)
  rw [Set.mem_uIcc]
  rcases Nat.le_total y z with hyz | hyz
  · exact Or.inl ⟨qans_mono _ hmU (dn y le_rfl hyz), qans_mono _ hzU (up z hyz le_rfl)⟩
  · exact Or.inr ⟨qans_mono _ hmU (dn z hyz le_rfl), qans_mono _ hyU (up y le_rfl hyz)⟩

/-- C102, for ranks that f64 rounding does not change. -/
theorem C102_exact {h s h' : Hist T} (R : Reachable fp T h) (Rs : Reachable fp T s) (hlow : h.low = s.low)
    (hsig : h.sigfig = s.sigfig) {l l' : List (Nat × Nat)} (H : Contains h l) (Hs : Contains s l')
    (e : h.add s = .ok (h', .ok ())) (hpos : ∀ p ∈ l', p.2 ≠ 0)
    (hfit : ∀ w, w ≤ U64MAX → (number (l ++ l') fun v => Equiv h v w) ≤ T.max)
    (h0 : 0 < numberAll l) (h0' : 0 < numberAll l') (hn : numberAll l + numberAll l' ≤ 2 ^ 53)
    {x : ℚ} (hx : 0 ≤ x)
    (e1 : specRank (numberAll l) (.fin x) = exactRank (numberAll l) x)
    (e2 : specRank (numberAll l') (.fin x) = exactRank (numberAll l') x)
    (e3 : specRank (numberAll l + numberAll l') (.fin x) = exactRank (numberAll l + numberAll l') x) :
    ∃ a b m, h.valueAtQuantile (.fin x) = .ok a ∧ s.valueAtQuantile (.fin x) = .ok b ∧
      h'.valueAtQuantile (.fin x) = .ok m ∧ m ∈ Set.uIcc a b := by
  obtain ⟨u1, u2⟩ := exactRank_union h0 h0' hx
  exact C102_merge_partial R Rs hlow hsig H Hs e hpos hfit h0 h0' hn (by rw [e1, e2, e3]; exact u1) (by rw [e1, e2, e3]; exact u2)

/-- binary fractions are not affected by rounding: the median, quartiles, eighths … -/
theorem specRank_dyadic {n k j : Nat} (hj : j ≤ 1074) (hk : k ≤ 2 ^ j) (hn : k * n ≤ 2 ^ 53) (hn' : n ≤ 2 ^ 53) :
    specRank n (.fin (k / 2 ^ j)) = exactRank n (k / 2 ^ j) := by
  have hU : U64MAX = 18446744073709551615 := rfl
  have hx1 : (k : ℚ) / 2 ^ j ≤ 1 := by
    rw [div_le_one (by positivity)]; exact_mod_cast hk
  show max 1 (min ⌈F64.rndQ (min _ 1 * F64.rndQ n)⌉.toNat U64MAX) = _
  rw [min_eq_left hx1, F64.rndQ_nat hn', F64.rndQ_exact (k * n : ℕ) (-j) (by omega) ?_ ?_]
  · unfold exactRank
    have h1 : (k : ℚ) / 2 ^ j * n ≤ n := by
      have := mul_le_mul_of_nonneg_right hx1 (show (0 : ℚ) ≤ n by positivity)
      linarith
    have h2 : ⌈(k : ℚ) / 2 ^ j * n⌉ ≤ n := Int.ceil_le.mpr (by exact_mod_cast h1)
    norm_num at hn'
    omega
  · rw [abs_of_nonneg (by positivity)]; exact_mod_cast hn
  · rw [zpow_neg, zpow_natCast]; push_cast; ring

/-- C102, for binary fractions: the median, quartiles, eighths, …, of up to `2 ^ 53` divided by the numerator samples. -/
theorem C102_dyadic {h s h' : Hist T} (R : Reachable fp T h) (Rs : Reachable fp T s) (hlow : h.low = s.low)
    (hsig : h.sigfig = s.sigfig) {l l' : List (Nat × Nat)} (H : Contains h l) (Hs : Contains s l')
    (e : h.add s = .ok (h', .ok ())) (hpos : ∀ p ∈ l', p.2 ≠ 0)
    (hfit : ∀ w, w ≤ U64MAX → (number (l ++ l') fun v => Equiv h v w) ≤ T.max)
    (h0 : 0 < numberAll l) (h0' : 0 < numberAll l') (hn : numberAll l + numberAll l' ≤ 2 ^ 53)
    {k j : Nat} (hj : j ≤ 1074) (hk : k ≤ 2 ^ j) (hkn : k * (numberAll l + numberAll l') ≤ 2 ^ 53) :
    ∃ a b m, h.valueAtQuantile (.fin (k / 2 ^ j)) = .ok a ∧ s.valueAtQuantile (.fin (k / 2 ^ j)) = .ok b ∧
      h'.valueAtQuantile (.fin (k / 2 ^ j)) = .ok m ∧ m ∈ Set.uIcc a b := by
  have hle : k * numberAll l ≤ 2 ^ 53 := le_trans (Nat.mul_le_mul_left k (by omega)) hkn
  have hle' : k * numberAll l' ≤ 2 ^ 53 := le_trans (Nat.mul_le_mul_left k (by omega)) hkn
  exact C102_exact R Rs hlow hsig H Hs e hpos hfit h0 h0' hn (by positivity)
    (specRank_dyadic hj hk hle (by omega)) (specRank_dyadic hj hk hle' (by omega)) (specRank_dyadic hj hk hkn hn)

/-- the f64 next above a third -/
def aThird : F64 := .fin (6004799503160662 / 2 ^ 54)

/-- what the two refutations look at -/
def mergedThirds (xs ys : List (Nat × Nat)) : M (Nat × Nat × Nat) := do
  let (a, _) ← recordSeq xs demo
  let (b, _) ← recordSeq ys demo
  let (m, _) ← a.add b
  pure (← a.valueAtQuantile aThird, ← b.valueAtQuantile aThird, ← m.valueAtQuantile aThird)

theorem mergedThirds_ok {xs ys : List (Nat × Nat)} {x y z : Nat} (hx : ∀ p ∈ xs, p.1 ≤ 15 ∧ p.2 ≤ 255)
    (hy : ∀ p ∈ ys, p.1 ≤ 15 ∧ p.2 ≤ 255) (e : mergedThirds xs ys = .ok (x, y, z)) :
    ∃ (a b m : Hist .u8) (r : Except AdditionError Unit), Reachable Fp.ideal .u8 a ∧ Reachable Fp.ideal .u8 b ∧
      a.add b = .ok (m, r) ∧
      a.valueAtQuantile aThird = .ok x ∧ b.valueAtQuantile aThird = .ok y ∧ m.valueAtQuantile aThird = .ok z := by
  have hl : ∀ {l : List (Nat × Nat)}, (∀ p ∈ l, p.1 ≤ 15 ∧ p.2 ≤ 255) → ∀ p ∈ l, p.1 ≤ U64MAX ∧ p.2 ≤ CounterTy.max .u8 :=
    fun h p hp => ⟨le_trans (h p hp).1 (by decide), (h p hp).2⟩
  unfold mergedThirds at e
  obtain ⟨⟨a, ra⟩, ea, e⟩ := M.bind_eq_ok.mp e
  obtain ⟨⟨b, rb⟩, eb, e⟩ := M.bind_eq_ok.mp e
  obtain ⟨⟨m, r⟩, em, e⟩ := M.bind_eq_ok.mp e
  obtain ⟨x', ex, e⟩ := M.bind_eq_ok.mp e
  obtain ⟨y', ey, e⟩ := M.bind_eq_ok.mp e
  obtain ⟨z', ez, e⟩ := M.bind_eq_ok.mp e
  cases e
  exact ⟨a, b, m, r, reachable_recordSeq demo_reachable (hl hx) ea, reachable_recordSeq demo_reachable (hl hy) eb, em, ex, ey, ez⟩

/-- C102 fails for other quantiles: 12 samples, four of them 1 and the others 9, and 3 samples, one of them 1 and the others
9. Both histograms answer 1 for the f64 next above a third, and the merged one 15 (the class of 9) … -/
theorem C102_refuted : ∃ (a b m : Hist .u8) (r : Except AdditionError Unit), Reachable Fp.ideal .u8 a ∧
    Reachable Fp.ideal .u8 b ∧ a.add b = .ok (m, r) ∧
    a.valueAtQuantile aThird = .ok 1 ∧ b.valueAtQuantile aThird = .ok 1 ∧ m.valueAtQuantile aThird = .ok 15 :=
  mergedThirds_ok (xs := [(1, 4), (9, 8)]) (ys := [(1, 1), (9, 2)]) (by decide) (by decide) (by decide +kernel)

/-- … and the other way round: 9 samples, three of them 1, and 15 samples, five of them 1 -/
theorem C102_below_refuted : ∃ (a b m : Hist .u8) (r : Except AdditionError Unit), Reachable Fp.ideal .u8 a ∧
    Reachable Fp.ideal .u8 b ∧ a.add b = .ok (m, r) ∧
    a.valueAtQuantile aThird = .ok 15 ∧ b.valueAtQuantile aThird = .ok 15 ∧ m.valueAtQuantile aThird = .ok 1 :=
  mergedThirds_ok (xs := [(1, 3), (9, 6)]) (ys := [(1, 5), (9, 10)]) (by decide) (by decide) (by decide +kernel)

/-- an instance of `C102_dyadic`: the medians 7 and 15, and the median of all, 7 -/
example : ∃ a b m, recordSeq [(5, 3), (9, 1)] demo = .ok (a, .ok ()) ∧ recordSeq [(9, 2)] demo = .ok (b, .ok ()) ∧
    a.add b = .ok (m, .ok ()) ∧ ∃ x y z, a.valueAtQuantile (.fin ((1 : Nat) / 2 ^ 1)) = .ok x ∧
      b.valueAtQuantile (.fin ((1 : Nat) / 2 ^ 1)) = .ok y ∧ m.valueAtQuantile (.fin ((1 : Nat) / 2 ^ 1)) = .ok z ∧
      z ∈ Set.uIcc x y := by
  obtain ⟨a, ea, b, eb, m, em⟩ : ∃ a, recordSeq [(5, 3), (9, 1)] demo = .ok (a, .ok ()) ∧
      ∃ b, recordSeq [(9, 2)] demo = .ok (b, .ok ()) ∧ ∃ m, a.add b = .ok (m, .ok ()) :=
    ⟨_, rfl, _, rfl, _, rfl⟩
  have la : ∀ p ∈ [(5, 3), (9, 1)], p.1 ≤ U64MAX ∧ p.2 ≤ CounterTy.max .u8 := by decide
  have lb : ∀ p ∈ [(9, 2)], p.1 ≤ U64MAX ∧ p.2 ≤ CounterTy.max .u8 := by decide
  have Ra := reachable_recordSeq demo_reachable la ea
  have Rb := reachable_recordSeq demo_reachable lb eb
  have Ha := C71_record demo_reachable (C71_empty demo_reachable rfl) la ea
    (fun w _ => le_trans (number_le_all _ _) (by decide)) (by decide)
  have Hb := C71_record demo_reachable (C71_empty demo_reachable rfl) lb eb
    (fun w _ => le_trans (number_le_all _ _) (by decide)) (by decide)
  have ca : a.low = b.low ∧ a.sigfig = b.sigfig := by
    cases ea; cases eb; exact ⟨rfl, rfl⟩
  exact ⟨a, b, m, ea, eb, em, C102_dyadic Ra Rb ca.1 ca.2 Ha Hb em (by decide)
    (fun w _ => le_trans (number_le_all _ _) (by decide)) (by decide) (by decide) (by decide) (by decide) (by decide) (by decide)⟩

end Hdr
