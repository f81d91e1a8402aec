import Verif.Spec.Twin
import Verif.Proofs.Restat
import Verif.Proofs.Deserialize

/-!
# Histograms that differ only in the raw cached statistics

The raw cached maximum and minimum of a histogram are seen only through their classes. Two histograms that agree in
everything else, and in these classes, keep doing so whatever is done with both.
-/

namespace Hdr

variable {T : CounterTy} {fp : Fp}

/-- other raw statistics -/
def Hist.stats (x y : Nat) (h : Hist T) : Hist T := { h with maxValue := x, minNonZero := y }

/-- both panic alike, or both end, with related results -/
def Rel {α β : Type} (R : α → β → Prop) : M α → M β → Prop
  | .ok a, .ok b => R a b
  | .error e, .error e' => e = e'
  | _, _ => False

section
variable {α β γ δ : Type}

theorem Rel.bind {R : α → β → Prop} {S : γ → δ → Prop} {m : M α} {m' : M β} {f : α → M γ} {g : β → M δ}
    (H : Rel R m m') (K : ∀ a b, R a b → Rel S (f a) (g b)) : Rel S (m >>= f) (m' >>= g) := by
  cases m <;> cases m'
  · exact H
  · exact H.elim
  · exact H.elim
  · exact K _ _ H

theorem Rel.step {S : γ → δ → Prop} {m : M α} {f : α → M γ} {g : α → M δ}
    (K : ∀ a, m = .ok a → Rel S (f a) (g a)) : Rel S (m >>= f) (m >>= g) := by
  cases m
  · rfl
  · exact K _ rfl

theorem Rel.eq {m m' : M α} : Rel Eq m m' ↔ m = m' := by
  cases m <;> cases m' <;> simp [Rel]

theorem Rel.map {R : α → β → Prop} {S : γ → δ → Prop} {m : M α} {m' : M β} {f : α → γ} {g : β → δ}
    (H : Rel R m m') (K : ∀ a b, R a b → S (f a) (g b)) : Rel S (f <$> m) (g <$> m') := by
  cases m <;> cases m'
  · exact H
  · exact H.elim
  · exact H.elim
  · exact K _ _ H

theorem Rel.self {R : α → α → Prop} {m : M α} (H : ∀ a, m = .ok a → R a a) : Rel R m m := by
  cases m
  · rfl
  · exact H _ rfl

theorem Rel.self_iff {R : α → α → Prop} {m : M α} : Rel R m m ↔ ∀ a, m = .ok a → R a a := by
  constructor
  · rintro H a rfl; exact H
  · exact Rel.self
end

/-- raw maxima of the same class -/
structure MaxLike (h : Hist T) (x x' : Nat) : Prop where
  le : x ≤ U64MAX
  le' : x' ≤ U64MAX
  masked : x = 0 ∨ x ||| h.unitMagMask = x
  masked' : x' = 0 ∨ x' ||| h.unitMagMask = x'
  zero : x = 0 ↔ x' = 0
  top : x = U64MAX ↔ x' = U64MAX
  cls : h.lidx x = h.lidx x'

/-- raw minima of the same class -/
structure MinLike (h : Hist T) (y y' : Nat) : Prop where
  le : y ≤ U64MAX
  le' : y' ≤ U64MAX
  top : y = U64MAX ↔ y' = U64MAX
  cls : h.lidx y = h.lidx y'

/-- equal but for raw statistics of the same classes -/
def Twin (a b : Hist T) : Prop :=
  LayoutOK a ∧ ∃ x y, b = a.stats x y ∧ MaxLike a a.maxValue x ∧ MinLike a a.minNonZero y

/-- related results of calls -/
def TwinRes {ε : Type} (p q : Hist T × ε) : Prop := Twin p.1 q.1 ∧ p.2 = q.2

/-- the layout is that of the other -/
structure SameShape {F : CounterTy} (a : Hist T) (g : Hist F) : Prop where
  sbc : g.subBucketCount = a.subBucketCount
  half : g.subBucketHalfCount = a.subBucketHalfCount
  mag : g.subBucketHalfCountMag = a.subBucketHalfCountMag
  um : g.unitMag = a.unitMag
  lzb : g.leadingZeroCountBase = a.leadingZeroCountBase
  mask : g.subBucketMask = a.subBucketMask
  ummask : g.unitMagMask = a.unitMagMask

theorem SameShape.layout {a g : Hist T} (S : SameShape a g) (L : LayoutOK a) : LayoutOK g := by
  constructor
  · rw [S.sbc, S.mag, L.sbc]
  · rw [S.half, S.mag, L.half]
  · rw [S.mag]; exact L.mag17
  · rw [S.um, S.mag]; exact L.sum62
  · rw [S.lzb, S.um, S.mag]; exact L.lzb
  · rw [S.mask, S.um, S.mag]; exact L.mask
  · rw [S.ummask, S.um]; exact L.ummask

theorem SameShape.maxLike {a g : Hist T} (S : SameShape a g) {x x' : Nat} (M : MaxLike a x x') : MaxLike g x x' := by
  refine ⟨M.le, M.le', ?_, ?_, M.zero, M.top, ?_⟩
  · rw [S.ummask]; exact M.masked
  · rw [S.ummask]; exact M.masked'
  · unfold Hist.lidx; rw [S.um, S.mag]; exact M.cls

theorem SameShape.minLike {a g : Hist T} (S : SameShape a g) {x x' : Nat} (M : MinLike a x x') : MinLike g x x' := by
  refine ⟨M.le, M.le', M.top, ?_⟩
  unfold Hist.lidx; rw [S.um, S.mag]; exact M.cls

theorem MaxLike.symm {h : Hist T} {x x' : Nat} (M : MaxLike h x x') : MaxLike h x' x :=
  ⟨M.le', M.le, M.masked', M.masked, M.zero.symm, M.top.symm, M.cls.symm⟩

theorem MaxLike.self {h : Hist T} {x x' : Nat} (M : MaxLike h x x') : MaxLike h x x :=
  ⟨M.le, M.le, M.masked, M.masked, Iff.rfl, Iff.rfl, rfl⟩

theorem MinLike.self {h : Hist T} {x x' : Nat} (M : MinLike h x x') : MinLike h x x :=
  ⟨M.le, M.le, Iff.rfl, rfl⟩

/-- the shape is that of `a`, the raw statistics are alike -/
theorem Twin.of {a g g' : Hist T} {x y : Nat} (L : LayoutOK a) (S : SameShape a g) (M : MaxLike a g.maxValue x)
    (N : MinLike a g.minNonZero y) (e : g' = g.stats x y) : Twin g g' :=
  ⟨S.layout L, x, y, e, S.maxLike M, S.minLike N⟩

/-- change everything but shape and raw statistics, in both alike -/
theorem Twin.mk {a g g' : Hist T} {x y : Nat} (L : LayoutOK a) (M : MaxLike a a.maxValue x)
    (N : MinLike a a.minNonZero y) (S : SameShape a g) (hx : g.maxValue = a.maxValue)
    (hy : g.minNonZero = a.minNonZero) (e : g' = g.stats x y) : Twin g g' :=
  ⟨S.layout L, x, y, e, by rw [hx]; exact S.maxLike M, by rw [hy]; exact S.minLike N⟩

theorem Twin.self {a b : Hist T} (t : Twin a b) : Twin a a := by
  obtain ⟨L, x, y, rfl, M, N⟩ := t
  exact ⟨L, a.maxValue, a.minNonZero, rfl, M.self, N.self⟩

theorem Twin.shape {a b : Hist T} (t : Twin a b) : SameShape a b := by
  obtain ⟨L, x, y, rfl, M, N⟩ := t
  constructor <;> rfl

/-! ### statistics -/

theorem Twin.max {a b : Hist T} (t : Twin a b) : b.max = a.max := by
  obtain ⟨L, x, y, rfl, M, N⟩ := t
  unfold Hist.max
  show (if x = ORIGINAL_MAX then _ else a.highestEquivalent x) = _
  by_cases h0 : a.maxValue = 0
  · rw [if_pos (show x = ORIGINAL_MAX from M.zero.mp h0), if_pos (show _ = ORIGINAL_MAX from h0)]
  · rw [if_neg (show ¬ x = ORIGINAL_MAX from fun e => h0 (M.zero.mpr e)), if_neg (show ¬ _ = ORIGINAL_MAX from h0),
      highestEquivalent_eq L M.le', highestEquivalent_eq L M.le]
    by_cases ht : a.maxValue = U64MAX
    · rw [ht, M.top.mp ht]
    · rw [lhi_eq_of_lidx M.cls ht (fun e => ht (M.top.mpr e))]

theorem Twin.minNz {a b : Hist T} (t : Twin a b) : b.minNz = a.minNz := by
  obtain ⟨L, x, y, rfl, M, N⟩ := t
  unfold Hist.minNz
  show (if y = ORIGINAL_MIN then _ else a.lowestEquivalent y) = _
  by_cases h0 : a.minNonZero = U64MAX
  · rw [if_pos (show y = ORIGINAL_MIN from N.top.mp h0), if_pos (show _ = ORIGINAL_MIN from h0)]
  · rw [if_neg (show ¬ y = ORIGINAL_MIN from fun e => h0 (N.top.mpr e)), if_neg (show ¬ _ = ORIGINAL_MIN from h0),
      lowestEquivalent_eq L N.le', lowestEquivalent_eq L N.le,
      show a.llo a.minNonZero = a.llo y from Lay.lo_eq_iff.mpr N.cls]

theorem or_mask_mono {um v w : Nat} (h : v ≤ w) : v ||| (2 ^ um - 1) ≤ w ||| (2 ^ um - 1) := by
  have key : ∀ z : Nat, z ||| (2 ^ um - 1) = z / 2 ^ um * 2 ^ um + (2 ^ um - 1) := by
    intro z
    have hp : 0 < 2 ^ um := by positivity
    have e1 : (z ||| (2 ^ um - 1)) / 2 ^ um = z / 2 ^ um := by
      rw [← Nat.shiftRight_eq_div_pow, ← Nat.shiftRight_eq_div_pow]
      apply Nat.eq_of_testBit_eq
      intro i
      simp [Nat.testBit_shiftRight, Nat.testBit_two_pow_sub_one]
    have e2 : (z ||| (2 ^ um - 1)) % 2 ^ um = 2 ^ um - 1 := by
      rw [← Nat.and_two_pow_sub_one_eq_mod]
      apply Nat.eq_of_testBit_eq
      intro i
      simp only [Nat.testBit_and, Nat.testBit_or, Nat.testBit_two_pow_sub_one]
      cases decide (i < um) <;> simp
    have := Nat.div_add_mod (z ||| (2 ^ um - 1)) (2 ^ um)
    rw [e1, e2] at this
    rw [Nat.mul_comm]; exact this.symm
  rw [key v, key w]
  have := Nat.mul_le_mul_right (2 ^ um) (Nat.div_le_div_right (c := 2 ^ um) h)
  omega

theorem or_mask_idem (v m : Nat) : (v ||| m) ||| m = v ||| m := by
  rw [Nat.or_assoc, Nat.or_self]

/-- a new maximum in both -/
theorem MaxLike.update {h : Hist T} (L : LayoutOK h) {x x' v : Nat} (M : MaxLike h x x') (hv : v ≤ U64MAX) :
    MaxLike h (if x < v ||| h.unitMagMask then v ||| h.unitMagMask else x)
      (if x' < v ||| h.unitMagMask then v ||| h.unitMagMask else x') := by
  have hw : v ||| h.unitMagMask ≤ U64MAX := by
    rw [L.ummask]; exact or_mask_le hv (by have := L.sum62; omega)
  have hi := or_mask_idem v h.unitMagMask
  generalize v ||| h.unitMagMask = w at *
  have W : ∀ z z', MaxLike h z z' → z < w → ¬ z' < w → MaxLike h w z' := by
    intro z z' Z h1 h2
    have hz : z' ≠ 0 := fun e => by have := Z.zero.mpr e; omega
    refine ⟨hw, Z.le', .inr hi, Z.masked', ⟨fun e => by omega, fun e => absurd e hz⟩,
      ⟨fun e => by have := Z.le'; omega, fun e => ?_⟩, ?_⟩
    · have := Z.top.mpr e; omega
    · refine le_antisymm (Lay.idx_mono (by omega)) (le_trans (le_of_eq Z.cls.symm) (Lay.idx_mono h1.le))
  by_cases h1 : x < w <;> by_cases h2 : x' < w
  · rw [if_pos h1, if_pos h2]
    exact ⟨hw, hw, .inr hi, .inr hi, Iff.rfl, Iff.rfl, rfl⟩
  · rw [if_pos h1, if_neg h2]; exact W x x' M h1 h2
  · rw [if_neg h1, if_pos h2]; exact (W x' x M.symm h2 h1).symm
  · rw [if_neg h1, if_neg h2]; exact M

theorem Twin.updateMax {a b : Hist T} (t : Twin a b) {v : Nat} (hv : v ≤ U64MAX) :
    Twin (a.updateMax v) (b.updateMax v) := by
  obtain ⟨L, x, y, rfl, M, N⟩ := t
  have e : ∀ g : Hist T, g.updateMax v = { g with maxValue := if g.maxValue < v ||| g.unitMagMask then v ||| g.unitMagMask else g.maxValue } := by
    intro g; unfold Hist.updateMax; dsimp only; split <;> rfl
  rw [e, e]
  have M' := M.update L hv
  exact Twin.of L (by constructor <;> rfl) M' N rfl

/-- a new minimum in both -/
theorem MinLike.update {h : Hist T} {x x' w : Nat} (M : MinLike h x x') :
    MinLike h (if w < x then w else x) (if w < x' then w else x') := by
  by_cases h1 : w < x <;> by_cases h2 : w < x'
  · rw [if_pos h1, if_pos h2]
    have := M.le
    exact ⟨by omega, by omega, Iff.rfl, rfl⟩
  · rw [if_pos h1, if_neg h2]
    have := M.le; have := M.le'; have := M.top
    refine ⟨by omega, by omega, by omega, ?_⟩
    apply le_antisymm
    · rw [← M.cls]; exact Lay.idx_mono h1.le
    · exact Lay.idx_mono (by omega)
  · rw [if_neg h1, if_pos h2]
    have := M.le; have := M.le'; have := M.top
    refine ⟨by omega, by omega, by omega, ?_⟩
    apply le_antisymm
    · exact Lay.idx_mono (by omega)
    · rw [M.cls]; exact Lay.idx_mono h2.le
  · rw [if_neg h1, if_neg h2]; exact M

theorem Twin.updateMin {a b : Hist T} (t : Twin a b) {v : Nat} :
    Twin (a.updateMin v) (b.updateMin v) := by
  obtain ⟨L, x, y, rfl, M, N⟩ := t
  have e : ∀ g : Hist T, ¬ v ≤ g.unitMagMask → g.updateMin v = { g with minNonZero := if v &&& Hist.notU64 g.unitMagMask < g.minNonZero then v &&& Hist.notU64 g.unitMagMask else g.minNonZero } := by
    intro g hg; unfold Hist.updateMin; rw [if_neg hg]; dsimp only; split <;> rfl
  by_cases hg : v ≤ a.unitMagMask
  · have f : ∀ g : Hist T, v ≤ g.unitMagMask → g.updateMin v = g := by
      intro g hg; unfold Hist.updateMin; rw [if_pos hg]
    rw [f a hg, f (a.stats x y) hg]
    exact ⟨L, x, y, rfl, M, N⟩
  · rw [e a hg, e (a.stats x y) hg]
    exact Twin.of L (by constructor <;> rfl) M N.update rfl

/-- with the raw maximum masked, `v` exceeds it exactly if `v` masked does -/
theorem lt_masked {h : Hist T} (L : LayoutOK h) {x v : Nat} (hx : x = 0 ∨ x ||| h.unitMagMask = x) (h0 : x ≠ 0) :
    x < v ↔ x < v ||| h.unitMagMask := by
  constructor
  · intro e; exact lt_of_lt_of_le e Nat.left_le_or
  · intro e
    by_contra hc
    have := or_mask_mono (um := h.unitMag) (show v ≤ x by omega)
    rw [← L.ummask] at this
    rcases hx with hx | hx <;> omega

theorem Twin.updateMinMax {a b : Hist T} (t : Twin a b) {v : Nat} (hv : v ≤ U64MAX) :
    Twin (a.updateMinMax v) (b.updateMinMax v) := by
  obtain ⟨L, x, y, rfl, M, N⟩ := t
  rw [updateMinMax_eq, updateMinMax_eq]
  have M' : MaxLike a (a.newMax v) ((a.stats x y).newMax v) := by
    have M' := M.update L hv
    unfold Hist.newMax
    show MaxLike a (if a.maxValue < v then v ||| a.unitMagMask else a.maxValue) (if x < v then v ||| a.unitMagMask else x)
    by_cases h0 : a.maxValue = 0
    · rw [h0, M.zero.mp h0]
      by_cases hz : 0 < v
      · rw [if_pos hz]
        have hw : v ||| a.unitMagMask ≤ U64MAX := by
          rw [L.ummask]; exact or_mask_le hv (by have := L.sum62; omega)
        exact ⟨hw, hw, .inr (or_mask_idem _ _), .inr (or_mask_idem _ _), Iff.rfl, Iff.rfl, rfl⟩
      · rw [if_neg hz]
        exact ⟨Nat.zero_le _, Nat.zero_le _, .inl rfl, .inl rfl, Iff.rfl, Iff.rfl, rfl⟩
    · have h0' : x ≠ 0 := fun e => h0 (M.zero.mpr e)
      rw [if_congr (lt_masked L M.masked h0) rfl rfl, if_congr (lt_masked L M.masked' h0') rfl rfl]
      exact M'
  have N' : MinLike a (a.newMin v) ((a.stats x y).newMin v) := by
    have N' := N.update (w := v &&& Hist.notU64 a.unitMagMask)
    unfold Hist.newMin
    show MinLike a (if v < a.minNonZero ∧ a.unitMagMask < v then _ else _) (if v < y ∧ a.unitMagMask < v then v &&& Hist.notU64 a.unitMagMask else y)
    by_cases hg : a.unitMagMask < v
    · -- below the raw minimum, which may be in the same unit
      have hle : v &&& Hist.notU64 a.unitMagMask ≤ v := Nat.and_le_left
      have hi : a.lidx (v &&& Hist.notU64 a.unitMagMask) = a.lidx v := by
        rw [L.ummask, and_not_mask hv (by have := L.sum62; omega)]
        exact unit_idx _ _ _
      have Q : ∀ z z', MinLike a z z' → v < z → ¬ v < z' →
          MinLike a (v &&& Hist.notU64 a.unitMagMask) z' := by
        intro z z' Z h1 h2
        have := Z.le; have := Z.le'; have := Z.top
        refine ⟨by omega, by omega, by omega, ?_⟩
        rw [hi]
        apply le_antisymm
        · rw [← Z.cls]; exact Lay.idx_mono h1.le
        · exact Lay.idx_mono (by omega)
      simp only [hg, and_true]
      by_cases h1 : v < a.minNonZero <;> by_cases h2 : v < y
      · rw [if_pos h1, if_pos h2]
        exact ⟨by omega, by omega, Iff.rfl, rfl⟩
      · rw [if_pos h1, if_neg h2]; exact Q _ _ N h1 h2
      · rw [if_neg h1, if_pos h2]
        have Z := Q _ _ ⟨N.le', N.le, N.top.symm, N.cls.symm⟩ h2 h1
        exact ⟨Z.le', Z.le, Z.top.symm, Z.cls.symm⟩
      · rw [if_neg h1, if_neg h2]; exact N
    · rw [if_neg (by omega), if_neg (by omega)]; exact N
  exact Twin.of L (by constructor <;> rfl) M' N' rfl

/-! ### bounds -/

theorem shlU64_le {a n r : Nat} (e : shlU64 a n = .ok r) : r ≤ U64MAX := by
  unfold shlU64 at e
  split at e
  · cases e
    exact U64MAX_lt.mpr (Nat.mod_lt _ (by norm_num))
  · cases e

theorem valueFromLoc_le {h : Hist T} {b s r : Nat} (e : h.valueFromLoc b s = .ok r) : r ≤ U64MAX := by
  unfold Hist.valueFromLoc at e
  obtain ⟨_, -, e⟩ := M.bind_eq_ok.mp e
  exact shlU64_le e

theorem valueFor_le {h : Hist T} {i r : Nat} (e : h.valueFor i = .ok r) : r ≤ U64MAX := by
  unfold Hist.valueFor at e
  obtain ⟨_, -, e⟩ := M.bind_eq_ok.mp e
  obtain ⟨_, -, e⟩ := M.bind_eq_ok.mp e
  obtain ⟨_, -, e⟩ := M.bind_eq_ok.mp e
  obtain ⟨_, -, e⟩ := M.bind_eq_ok.mp e
  obtain ⟨_, -, e⟩ := M.bind_eq_ok.mp e
  split at e
  · obtain ⟨_, -, e⟩ := M.bind_eq_ok.mp e
    exact valueFromLoc_le e
  · exact valueFromLoc_le e

theorem highestEquivalent_le' {h : Hist T} {v r : Nat} (e : h.highestEquivalent v = .ok r) : r ≤ U64MAX := by
  unfold Hist.highestEquivalent at e
  split at e
  · cases e; exact le_rfl
  · obtain ⟨n, hn, e⟩ := M.bind_eq_ok.mp e
    unfold Hist.nextNonEquivalent at hn
    obtain ⟨l, -, hn⟩ := M.bind_eq_ok.mp hn
    obtain ⟨w, -, hn⟩ := M.bind_eq_ok.mp hn
    cases hn
    unfold subU at e
    have : Hdr.satAdd l w ≤ U64MAX := Nat.min_le_right _ _
    split at e
    · cases e; omega
    · cases e

theorem lowestEquivalent_le' {h : Hist T} {v r : Nat} (e : h.lowestEquivalent v = .ok r) : r ≤ U64MAX := by
  unfold Hist.lowestEquivalent at e
  obtain ⟨_, -, e⟩ := M.bind_eq_ok.mp e
  obtain ⟨_, -, e⟩ := M.bind_eq_ok.mp e
  exact valueFromLoc_le e

theorem max_le' {h : Hist T} {r : Nat} (e : h.max = .ok r) : r ≤ U64MAX := by
  unfold Hist.max at e
  split at e
  · cases e; exact Nat.zero_le _
  · exact highestEquivalent_le' e

theorem minNz_le' {h : Hist T} {r : Nat} (e : h.minNz = .ok r) : r ≤ U64MAX := by
  unfold Hist.minNz at e
  split at e
  · cases e; exact le_rfl
  · exact lowestEquivalent_le' e

/-! ### recording -/

section
variable (h : Hist T) (x y : Nat)
theorem stats_mutAt (v : Nat) : (h.stats x y).mutAt v = h.mutAt v := rfl
theorem stats_indexFor (v : Nat) : (h.stats x y).indexFor v = h.indexFor v := rfl
theorem stats_valueFor (i : Nat) : (h.stats x y).valueFor i = h.valueFor i := rfl
theorem stats_lastIndex : (h.stats x y).lastIndex = h.lastIndex := rfl
theorem stats_highest (v : Nat) : (h.stats x y).highestEquivalent v = h.highestEquivalent v := rfl
theorem stats_lowest (v : Nat) : (h.stats x y).lowestEquivalent v = h.lowestEquivalent v := rfl
theorem stats_median (v : Nat) : (h.stats x y).medianEquivalent v = h.medianEquivalent v := rfl
end

theorem Twin.finishRecord {a b : Hist T} (t : Twin a b) {v c : Nat} (hv : v ≤ U64MAX) :
    Twin (a.finishRecord v c) (b.finishRecord v c) := by
  have t' := t.updateMinMax hv
  unfold Hist.finishRecord
  have ht : (a.updateMinMax v).totalCount = (b.updateMinMax v).totalCount := by
    obtain ⟨L, x, y, e, M, N⟩ := t'
    rw [e]; rfl
  dsimp only
  rw [ht]
  obtain ⟨L, x, y, e, M, N⟩ := t'
  rw [e]
  exact Twin.of L (by constructor <;> rfl) M N rfl

theorem Twin.bumpSat {a b : Hist T} (t : Twin a b) (i c : Nat) : Twin (a.bumpSat i c) (b.bumpSat i c) := by
  obtain ⟨L, x, y, rfl, M, N⟩ := t
  exact Twin.of L (by constructor <;> rfl) M N rfl

theorem Twin.resize {a b : Hist T} (t : Twin a b) (v : Nat) : Rel Twin (a.resize v) (b.resize v) := by
  obtain ⟨L, x, y, rfl, M, N⟩ := t
  unfold Hist.resize
  refine Rel.step (m := mulU64 2 a.lowestDiscernible) fun l2 _ => ?_
  refine Rel.step fun _ _ => ?_
  refine Rel.step (m := a.bucketsToCover v) fun bn _ => ?_
  refine Rel.step (m := a.numBins bn) fun len _ => ?_
  exact Twin.of L (by constructor <;> rfl) M N rfl

theorem Twin.recordAfterResize {a b : Hist T} (t : Twin a b) {v c : Nat} (hv : v ≤ U64MAX) :
    Rel TwinRes (a.recordAfterResize v c) (b.recordAfterResize v c) := by
  obtain ⟨L, x, y, rfl, M, N⟩ := t
  unfold Hist.recordAfterResize
  rw [stats_mutAt]
  refine Rel.step fun o _ => Rel.step fun i _ => ?_
  refine Rel.step (m := expectM (T.checkedAdd (a.counts.getD i 0) c)) fun z _ => ?_
  refine ⟨?_, rfl⟩
  apply Twin.finishRecord _ hv
  exact Twin.of L (by constructor <;> rfl) M N rfl

theorem Twin.recordNInner {a b : Hist T} (t : Twin a b) {v c : Nat} (hv : v ≤ U64MAX) (clamp : Bool)
    (hc : clamp = true → a.highestTrackable ≤ U64MAX ∧ a.lowestDiscernible ≤ U64MAX) :
    Rel TwinRes (a.recordNInner v c clamp) (b.recordNInner v c clamp) := by
  have tt := t
  obtain ⟨L, x, y, rfl, M, N⟩ := tt
  unfold Hist.recordNInner
  rw [stats_mutAt]
  refine Rel.step fun o _ => ?_
  cases o with
  | some i => exact ⟨(t.bumpSat i c).finishRecord hv, rfl⟩
  | none =>
    dsimp only
    cases clamp with
    | true =>
      rw [if_pos rfl, if_pos rfl]
      have hw : (if a.highestTrackable < v then a.highestTrackable else a.lowestDiscernible) ≤ U64MAX := by
        have := hc rfl
        split
        · exact this.1
        · exact this.2
      refine Rel.step (m := a.mutAt (if a.highestTrackable < v then a.highestTrackable else a.lowestDiscernible)) fun o _ => ?_
      refine Rel.step fun i _ => ?_
      exact ⟨(t.bumpSat i c).finishRecord hw, rfl⟩
    | false =>
      rw [if_neg Bool.false_ne_true, if_neg Bool.false_ne_true]
      show Rel TwinRes (if (!a.autoResize) = true then _ else _) (if (!a.autoResize) = true then _ else _)
      by_cases ha : (!a.autoResize) = true
      · rw [if_pos ha, if_pos ha]; exact ⟨t, rfl⟩
      · rw [if_neg ha, if_neg ha]
        refine Rel.bind (t.resize v) fun g g' tg => ?_
        obtain ⟨L, x, y, rfl, M, N⟩ := tg
        rw [stats_lastIndex]
        refine Rel.step fun last _ => ?_
        rw [stats_valueFor]
        refine Rel.step fun lv _ => ?_
        rw [stats_highest]
        refine Rel.step fun ht _ => ?_
        apply Twin.recordAfterResize _ hv
        exact Twin.of L (by constructor <;> rfl) M N rfl

theorem Twin.recordN {a b : Hist T} (t : Twin a b) {v c : Nat} (hv : v ≤ U64MAX) :
    Rel TwinRes (a.recordN v c) (b.recordN v c) := t.recordNInner hv false (by simp)

theorem Twin.saturatingRecordN {a b : Hist T} (t : Twin a b) {v c : Nat} (hv : v ≤ U64MAX)
    (hc : a.highestTrackable ≤ U64MAX ∧ a.lowestDiscernible ≤ U64MAX) :
    Rel Twin (a.saturatingRecordN v c) (b.saturatingRecordN v c) := by
  unfold Hist.saturatingRecordN
  refine Rel.bind (t.recordNInner hv true (fun _ => hc)) ?_
  rintro ⟨g, r⟩ ⟨g', r'⟩ ⟨tg, er⟩
  dsimp only at er tg
  subst er
  cases r
  · rfl
  · exact tg

theorem Twin.correctLoop (c interval : Nat) : ∀ (n : Nat) (a b : Hist T) (v : Nat), Twin a b → v ≤ U64MAX →
    Rel TwinRes (Hist.correctLoop c interval n a v) (Hist.correctLoop c interval n b v)
  | 0, _, _, _, _, _ => rfl
  | n + 1, a, b, v, t, hv => by
    simp only [Hist.correctLoop]
    by_cases hi : interval ≤ v
    · rw [if_pos hi, if_pos hi]
      refine Rel.bind (t.recordN hv) ?_
      rintro ⟨g, r⟩ ⟨g', r'⟩ ⟨tg, er⟩
      dsimp only at er tg
      subst er
      cases r
      · exact ⟨tg, rfl⟩
      · dsimp only
        refine Rel.step fun m hm => ?_
        rw [subU_ok hi] at hm
        cases hm
        exact Twin.correctLoop c interval n _ _ _ tg (by omega)
    · rw [if_neg hi, if_neg hi]
      exact ⟨t, rfl⟩

theorem Twin.recordNCorrect {a b : Hist T} (t : Twin a b) {v c i : Nat} (hv : v ≤ U64MAX) :
    Rel TwinRes (a.recordNCorrect v c i) (b.recordNCorrect v c i) := by
  unfold Hist.recordNCorrect
  refine Rel.bind (t.recordN hv) ?_
  rintro ⟨g, r⟩ ⟨g', r'⟩ ⟨tg, er⟩
  dsimp only at er tg
  subst er
  cases r
  · exact ⟨tg, rfl⟩
  · dsimp only
    by_cases h0 : i = 0
    · rw [if_pos h0, if_pos h0]; exact ⟨tg, rfl⟩
    rw [if_neg h0, if_neg h0]
    by_cases h1 : i < v
    · rw [if_pos h1, if_pos h1]
      refine Rel.step fun m hm => ?_
      rw [subU_ok h1.le] at hm
      cases hm
      exact Twin.correctLoop _ _ _ _ _ _ tg (by omega)
    · rw [if_neg h1, if_neg h1]; exact ⟨tg, rfl⟩

/-! ### adding -/

theorem stats_countAtIndex (h : Hist T) (x y i : Nat) : (h.stats x y).countAtIndex i = h.countAtIndex i := rfl

theorem Twin.addRecordLoop {s s' : Hist T} (ts : Twin s s') : ∀ (l : List Nat) (a b : Hist T), Twin a b →
    Rel Twin (Hist.addRecordLoop s l a) (Hist.addRecordLoop s' l b)
  | [], _, _, t => t
  | i :: is, a, b, t => by
    simp only [Hist.addRecordLoop]
    have key : s'.countAtIndex i = s.countAtIndex i ∧ s'.valueFor i = s.valueFor i := by
      obtain ⟨L, x, y, rfl, M, N⟩ := ts
      exact ⟨rfl, rfl⟩
    rw [key.1, key.2]
    refine Rel.step fun c _ => ?_
    by_cases hc : c ≠ 0
    · rw [if_pos hc, if_pos hc]
      refine Rel.step fun v hv => ?_
      refine Rel.bind (t.recordN (valueFor_le hv)) ?_
      rintro ⟨g, r⟩ ⟨g', r'⟩ ⟨tg, er⟩
      dsimp only at er tg
      subst er
      cases r
      · rfl
      · exact ts.addRecordLoop is _ _ tg
    · rw [if_neg hc, if_neg hc]
      exact ts.addRecordLoop is _ _ t

theorem Twin.addBody {a b s s' : Hist T} (t : Twin a b) (ts : Twin s s') :
    Rel Twin (a.addBody s) (b.addBody s') := by
  have emax := ts.max
  have emin := ts.minNz
  have tt := t
  have tts := ts
  obtain ⟨L, x, y, rfl, M, N⟩ := tt
  obtain ⟨Ls, xs, ys, rfl, Ms, Ns⟩ := tts
  unfold Hist.addBody
  dsimp only
  rw [emax, emin]
  show Rel Twin (if ((a.bucketCount == s.bucketCount && a.subBucketCount == s.subBucketCount && a.unitMag == s.unitMag) && a.isEmpty) = true
    then _ else if (a.bucketCount == s.bucketCount && a.subBucketCount == s.subBucketCount && a.unitMag == s.unitMag) = true then _ else _)
    (if ((a.bucketCount == s.bucketCount && a.subBucketCount == s.subBucketCount && a.unitMag == s.unitMag) && a.isEmpty) = true
    then _ else if (a.bucketCount == s.bucketCount && a.subBucketCount == s.subBucketCount && a.unitMag == s.unitMag) = true then _ else _)
  generalize hm : (a.bucketCount == s.bucketCount && a.subBucketCount == s.subBucketCount && a.unitMag == s.unitMag) = m
  by_cases h1 : (m && a.isEmpty) = true
  · rw [if_pos h1, if_pos h1]
    refine Rel.step (m := assertM (decide (a.counts.length = s.counts.length))) fun _ _ => ?_
    have hm' : m = true := by revert h1; cases m <;> simp
    rw [hm', Bool.and_eq_true, Bool.and_eq_true, beq_iff_eq, beq_iff_eq, beq_iff_eq] at hm
    have S : SameShape a s := by
      have hmag : s.subBucketHalfCountMag = a.subBucketHalfCountMag := by
        have e := hm.1.2
        rw [L.sbc, Ls.sbc] at e
        have := Nat.pow_right_injective (le_refl 2) e
        omega
      refine ⟨hm.1.2.symm, ?_, hmag, hm.2.symm, ?_, ?_, ?_⟩
      · rw [L.half, Ls.half, hmag]
      · rw [L.lzb, Ls.lzb, hmag, hm.2]
      · rw [L.mask, Ls.mask, hmag, hm.2]
      · rw [L.ummask, Ls.ummask, hm.2]
    have S' : SameShape s a := ⟨S.sbc.symm, S.half.symm, S.mag.symm, S.um.symm, S.lzb.symm, S.mask.symm, S.ummask.symm⟩
    exact Twin.of L (by constructor <;> rfl) (S'.maxLike Ms) (S'.minLike Ns) rfl
  rw [if_neg h1, if_neg h1]
  by_cases h2 : m = true
  · rw [if_pos h2, if_pos h2]
    refine Rel.step (m := Hist.addCountsLoop T a.counts s.counts 0) ?_
    rintro ⟨cs, obs⟩ -
    dsimp only
    have t1 : Twin ({ a with counts := cs, totalCount := Hdr.satAdd a.totalCount obs } : Hist T)
        ({ a.stats x y with counts := cs, totalCount := Hdr.satAdd a.totalCount obs } : Hist T) :=
      Twin.of L (by constructor <;> rfl) M N rfl
    show Rel Twin (do
        let mx ← s.max
        let hmx ← ({ a with counts := cs, totalCount := Hdr.satAdd a.totalCount obs } : Hist T).max
        let mn ← s.minNz
        let hmn ← (if hmx < mx then ({ a with counts := cs, totalCount := Hdr.satAdd a.totalCount obs } : Hist T).updateMax mx
          else ({ a with counts := cs, totalCount := Hdr.satAdd a.totalCount obs } : Hist T)).minNz
        pure (if mn < hmn then (if hmx < mx then ({ a with counts := cs, totalCount := Hdr.satAdd a.totalCount obs } : Hist T).updateMax mx
          else ({ a with counts := cs, totalCount := Hdr.satAdd a.totalCount obs } : Hist T)).updateMin mn
          else (if hmx < mx then ({ a with counts := cs, totalCount := Hdr.satAdd a.totalCount obs } : Hist T).updateMax mx
          else ({ a with counts := cs, totalCount := Hdr.satAdd a.totalCount obs } : Hist T))))
      (do
        let mx ← s.max
        let hmx ← ({ a.stats x y with counts := cs, totalCount := Hdr.satAdd a.totalCount obs } : Hist T).max
        let mn ← s.minNz
        let hmn ← (if hmx < mx then ({ a.stats x y with counts := cs, totalCount := Hdr.satAdd a.totalCount obs } : Hist T).updateMax mx
          else ({ a.stats x y with counts := cs, totalCount := Hdr.satAdd a.totalCount obs } : Hist T)).minNz
        pure (if mn < hmn then (if hmx < mx then ({ a.stats x y with counts := cs, totalCount := Hdr.satAdd a.totalCount obs } : Hist T).updateMax mx
          else ({ a.stats x y with counts := cs, totalCount := Hdr.satAdd a.totalCount obs } : Hist T)).updateMin mn
          else (if hmx < mx then ({ a.stats x y with counts := cs, totalCount := Hdr.satAdd a.totalCount obs } : Hist T).updateMax mx
          else ({ a.stats x y with counts := cs, totalCount := Hdr.satAdd a.totalCount obs } : Hist T))))
    generalize ({ a with counts := cs, totalCount := Hdr.satAdd a.totalCount obs } : Hist T) = g at *
    generalize ({ a.stats x y with counts := cs, totalCount := Hdr.satAdd a.totalCount obs } : Hist T) = g' at *
    rw [t1.max]
    refine Rel.step fun mx hmx => Rel.step fun gm _ => Rel.step fun mn hmn => ?_
    have t2 : Twin (if gm < mx then g.updateMax mx else g) (if gm < mx then g'.updateMax mx else g') := by
      split
      · exact t1.updateMax (max_le' hmx)
      · exact t1
    rw [t2.minNz]
    refine Rel.step fun hmn _ => ?_
    show Twin _ _
    by_cases hlt : mn < hmn
    · rw [if_pos hlt, if_pos hlt]; exact t2.updateMin
    · rw [if_neg hlt, if_neg hlt]; exact t2
  · rw [if_neg h2, if_neg h2]
    refine Rel.step fun smax _ => ?_
    rw [stats_indexFor]
    refine Rel.step fun o _ => Rel.step fun omi _ => ?_
    rw [stats_countAtIndex]
    refine Rel.step fun oc _ => ?_
    rw [stats_valueFor]
    refine Rel.step fun v hv => ?_
    refine Rel.bind (t.recordN (valueFor_le hv)) ?_
    rintro ⟨g, r⟩ ⟨g', r'⟩ ⟨tg, er⟩
    dsimp only at er tg
    subst er
    cases r
    · rfl
    · exact ts.addRecordLoop _ _ _ tg

theorem Twin.add {a b s s' : Hist T} (t : Twin a b) (ts : Twin s s') : Rel TwinRes (a.add s) (b.add s') := by
  have emax := ts.max
  have tt := t
  obtain ⟨L, x, y, rfl, M, N⟩ := tt
  have he : s'.isEmpty = s.isEmpty := by obtain ⟨L, x, y, rfl, M, N⟩ := ts; rfl
  unfold Hist.add
  rw [emax, he]
  by_cases h0 : s.isEmpty = true
  · rw [if_pos h0, if_pos h0]; exact ⟨t, rfl⟩
  rw [if_neg h0, if_neg h0, stats_lastIndex]
  refine Rel.step fun last _ => ?_
  rw [stats_valueFor]
  refine Rel.step fun lv _ => ?_
  rw [stats_highest]
  refine Rel.step fun top _ => Rel.step fun smax hs => ?_
  by_cases h1 : top < smax
  · rw [if_pos h1, if_pos h1]
    show Rel TwinRes (if (!a.autoResize) = true then _ else _) (if (!a.autoResize) = true then _ else _)
    by_cases ha : (!a.autoResize) = true
    · rw [if_pos ha, if_pos ha]; exact ⟨t, rfl⟩
    · rw [if_neg ha, if_neg ha]
      refine Rel.bind (t.resize smax) fun g g' tg => ?_
      refine Rel.bind (tg.addBody ts) fun g g' tg => ?_
      exact ⟨tg, rfl⟩
  · rw [if_neg h1, if_neg h1]
    refine Rel.bind (t.addBody ts) fun g g' tg => ?_
    exact ⟨tg, rfl⟩

/-! ### resetting and subtracting -/

theorem Twin.resetStats {a : Hist T} (L : LayoutOK a) :
    Twin ((a.resetMax ORIGINAL_MAX).resetMin ORIGINAL_MIN) ((a.resetMax ORIGINAL_MAX).resetMin ORIGINAL_MIN) := by
  have hz : ORIGINAL_MAX ||| a.unitMagMask = a.unitMagMask := Nat.zero_or _
  have hm := mask_le L
  refine Twin.of (x := a.unitMagMask) (y := U64MAX) L (by constructor <;> rfl) ?_ ?_ ?_
  · show MaxLike a (ORIGINAL_MAX ||| a.unitMagMask) _
    rw [hz]
    exact ⟨hm, hm, .inr (Nat.or_self _), .inr (Nat.or_self _), Iff.rfl, Iff.rfl, rfl⟩
  · exact ⟨le_rfl, le_rfl, Iff.rfl, rfl⟩
  · unfold Hist.stats Hist.resetMin Hist.resetMax
    dsimp only
    rw [hz]
    rfl

theorem Twin.reset {a b : Hist T} (t : Twin a b) : Twin a.reset b.reset := by
  obtain ⟨L, x, y, rfl, M, N⟩ := t
  have L' : LayoutOK a.clear := SameShape.layout (by constructor <;> rfl) L
  exact Twin.resetStats L'

theorem Twin.clear {a b : Hist T} (t : Twin a b) : Twin a.clear b.clear := by
  obtain ⟨L, x, y, rfl, M, N⟩ := t
  exact Twin.of L (by constructor <;> rfl) M N rfl

theorem Twin.auto {a b : Hist T} (t : Twin a b) (e : Bool) : Twin (a.auto e) (b.auto e) := by
  obtain ⟨L, x, y, rfl, M, N⟩ := t
  exact Twin.of L (by constructor <;> rfl) M N rfl

theorem Twin.updateHistogram {a b : Hist T} (t : Twin a b) (s : Hist.RestatState) :
    Rel Twin (s.updateHistogram a) (s.updateHistogram b) := by
  unfold Hist.RestatState.updateHistogram
  have h1 : Rel Twin (a.applyMaxIndex s.maxIndex) (b.applyMaxIndex s.maxIndex) := by
    cases s.maxIndex with
    | none => exact t
    | some i =>
      have e : b.valueFor i = a.valueFor i ∧ ∀ v, b.highestEquivalent v = a.highestEquivalent v := by
        obtain ⟨L, x, y, rfl, M, N⟩ := t; exact ⟨rfl, fun _ => rfl⟩
      simp only [Hist.applyMaxIndex]
      rw [e.1]
      refine Rel.step fun v _ => ?_
      rw [e.2]
      refine Rel.step fun m hm => ?_
      exact t.updateMax (highestEquivalent_le' hm)
  refine Rel.bind h1 fun g g' tg => ?_
  have h2 : Rel Twin (g.applyMinIndex s.minIndex) (g'.applyMinIndex s.minIndex) := by
    cases s.minIndex with
    | none => exact tg
    | some i =>
      have e : g'.valueFor i = g.valueFor i := by
        obtain ⟨L, x, y, rfl, M, N⟩ := tg; rfl
      simp only [Hist.applyMinIndex]
      rw [e]
      refine Rel.step fun v _ => ?_
      exact tg.updateMin
  refine Rel.bind h2 fun k k' tk => ?_
  obtain ⟨L, x, y, rfl, M, N⟩ := tk
  exact Twin.of L (by constructor <;> rfl) M N rfl

theorem Twin.restat {a b : Hist T} (t : Twin a b) (n : Nat) : Rel Twin (a.restat n) (b.restat n) := by
  obtain ⟨L, x, y, rfl, M, N⟩ := t
  unfold Hist.restat
  refine Rel.step (m := assertM (decide (n ≤ a.counts.length))) fun _ _ => ?_
  exact (Twin.resetStats L).updateHistogram _

theorem Twin.subtractLoop {s s' : Hist T} (ts : Twin s s') (p q : Nat) : ∀ (l : List Nat) (a b : Hist T) (r : Bool), Twin a b →
    Rel TwinRes (Hist.subtractLoop s p q l a r) (Hist.subtractLoop s' p q l b r)
  | [], _, _, _, t => ⟨t, rfl⟩
  | i :: is, a, b, r, t => by
    simp only [Hist.subtractLoop]
    have key : s'.countAtIndex i = s.countAtIndex i ∧ s'.valueFor i = s.valueFor i := by
      obtain ⟨L, x, y, rfl, M, N⟩ := ts
      exact ⟨rfl, rfl⟩
    rw [key.1, key.2]
    refine Rel.step fun c _ => ?_
    by_cases hc : c ≠ 0
    · rw [if_pos hc, if_pos hc]
      refine Rel.step fun v hv => ?_
      have tt := t
      obtain ⟨L, x, y, rfl, M, N⟩ := tt
      rw [stats_mutAt]
      refine Rel.step fun o _ => ?_
      cases o with
      | none => rfl
      | some j =>
        dsimp only
        show Rel TwinRes (match checkedSub (a.counts.getD j 0) c with | none => _ | some c => _)
          (match checkedSub (a.counts.getD j 0) c with | none => _ | some c => _)
        cases checkedSub (a.counts.getD j 0) c with
        | none => exact ⟨t, rfl⟩
        | some d =>
          dsimp only
          have t1 : Twin ({ a with counts := a.counts.set j d } : Hist T) ({ a.stats x y with counts := a.counts.set j d } : Hist T) :=
            Twin.of L (by constructor <;> rfl) M N rfl
          generalize (r || decide (v ≤ p) || decide (q ≤ v)) = r'
          cases r' with
          | true =>
            rw [if_pos rfl, if_pos rfl]
            exact ts.subtractLoop p q is _ _ _ t1
          | false =>
            rw [if_neg (by decide), if_neg (by decide)]
            refine Rel.step (m := expectM (checkedSub a.totalCount c)) fun z _ => ?_
            apply ts.subtractLoop p q is _ _ _
            exact Twin.of L (by constructor <;> rfl) M N rfl
    · rw [if_neg hc, if_neg hc]
      exact ts.subtractLoop p q is _ _ _ t

theorem Twin.min {a b : Hist T} (t : Twin a b) : b.min = a.min := by
  have e := t.minNz
  obtain ⟨L, x, y, rfl, M, N⟩ := t
  unfold Hist.min
  rw [e]
  rfl

theorem Twin.subtract {a b s s' : Hist T} (t : Twin a b) (ts : Twin s s') :
    Rel TwinRes (a.subtract s) (b.subtract s') := by
  have emax := ts.max
  have e1 := t.max
  have e2 := t.min
  have tt := t
  obtain ⟨L, x, y, rfl, M, N⟩ := tt
  have he : s'.isEmpty = s.isEmpty ∧ s'.distinctValues = s.distinctValues := by
    obtain ⟨L, x, y, rfl, M, N⟩ := ts; exact ⟨rfl, rfl⟩
  unfold Hist.subtract
  rw [emax, he.1, he.2, e1, e2]
  by_cases h0 : s.isEmpty = true
  · rw [if_pos h0, if_pos h0]; exact ⟨t, rfl⟩
  rw [if_neg h0, if_neg h0, stats_lastIndex]
  refine Rel.step fun last _ => ?_
  rw [stats_valueFor]
  refine Rel.step fun lv _ => ?_
  rw [stats_highest]
  refine Rel.step fun top _ => Rel.step fun smax hs => ?_
  rw [stats_highest]
  refine Rel.step fun sh _ => ?_
  by_cases h1 : top < sh
  · rw [if_pos h1, if_pos h1]; exact ⟨t, rfl⟩
  rw [if_neg h1, if_neg h1]
  refine Rel.step fun mn _ => ?_
  rw [stats_highest]
  refine Rel.step fun oh _ => Rel.step fun mx _ => ?_
  rw [stats_lowest]
  refine Rel.step fun ol _ => ?_
  refine Rel.bind (ts.subtractLoop oh ol _ _ _ _ t) ?_
  rintro ⟨g, r⟩ ⟨g', r'⟩ ⟨tg, er⟩
  dsimp only at er tg
  subst er
  cases r with
  | error e => exact ⟨tg, rfl⟩
  | ok r =>
    cases r with
    | true =>
      dsimp only
      rw [if_pos rfl, if_pos rfl]
      have hd : g'.distinctValues = g.distinctValues := by obtain ⟨L, x, y, rfl, M, N⟩ := tg; rfl
      rw [hd]
      refine Rel.bind (tg.restat _) fun k k' tk => ⟨tk, rfl⟩
    | false => exact ⟨tg, rfl⟩

theorem Twin.setTo {a b s s' : Hist T} (t : Twin a b) (ts : Twin s s') : Rel TwinRes (a.setTo s) (b.setTo s') :=
  t.reset.add ts

/-! ### queries and iterators -/

section
variable {P : Type} (h : Hist T) (x y : Nat)

theorem stats_iterNextLoop (pk : Picker P) : ∀ (n : Nat) (s : IterState P),
    (h.stats x y).iterNextLoop pk n s = h.iterNextLoop pk n s
  | 0, _ => rfl
  | n + 1, s => by
    simp only [Hist.iterNextLoop]
    rw [show (h.stats x y).iterPass pk s = h.iterPass pk s from rfl]
    congr 1
    refine congrArg _ (funext fun r => ?_)
    cases r with
    | finished s => rfl
    | emitted s v => rfl
    | again s => exact stats_iterNextLoop pk n s

theorem stats_iterCollect (pk : Picker P) : ∀ (n : Nat) (s : IterState P),
    (h.stats x y).iterCollect pk n s = h.iterCollect pk n s
  | 0, _ => rfl
  | n + 1, s => by
    simp only [Hist.iterCollect, Hist.iterNext]
    rw [stats_iterNextLoop]
    refine congrArg _ (funext fun r => ?_)
    obtain ⟨s', _ | v⟩ := r
    · rfl
    · dsimp only
      rw [stats_iterCollect pk n s']

theorem stats_countBetweenLoop : ∀ (l : List Nat) (t : Nat), (h.stats x y).countBetweenLoop l t = h.countBetweenLoop l t
  | [], _ => rfl
  | i :: is, t => by
    simp only [Hist.countBetweenLoop]
    refine congrArg _ (funext fun c => ?_)
    exact stats_countBetweenLoop is _

theorem stats_quantileLoop (target : Nat) (z : Bool) : ∀ (l : List Nat) (i t : Nat),
    (h.stats x y).quantileLoop target z l i t = h.quantileLoop target z l i t
  | [], _, _ => rfl
  | c :: cs, i, t => by
    simp only [Hist.quantileLoop]
    refine congrArg _ (funext fun c => ?_)
    rw [stats_quantileLoop target z cs]
    rfl

theorem stats_meanLoop : ∀ (l : List IterValue) (t : F64), (h.stats x y).meanLoop l t = h.meanLoop l t
  | [], _ => rfl
  | v :: vs, t => by
    simp only [Hist.meanLoop]
    refine congrArg _ (funext fun c => ?_)
    rw [stats_meanLoop vs]
    rfl

theorem stats_stdevLoop (m : F64) : ∀ (l : List IterValue) (t : F64), (h.stats x y).stdevLoop m l t = h.stdevLoop m l t
  | [], _ => rfl
  | v :: vs, t => by
    simp only [Hist.stdevLoop]
    refine congrArg _ (funext fun c => ?_)
    rw [stats_stdevLoop m vs]

theorem stats_zeroRun (limit : Nat) : ∀ (n i z : Nat), V2.zeroRun (h.stats x y) limit n i z = V2.zeroRun h limit n i z
  | 0, _, _ => rfl
  | n + 1, i, z => by
    simp only [V2.zeroRun]
    split
    · refine congrArg _ (funext fun c => ?_)
      rw [stats_zeroRun limit n]
    · rfl

theorem stats_encodeStep (limit i : Nat) : V2.encodeStep (h.stats x y) limit i = V2.encodeStep h limit i := by
  unfold V2.encodeStep
  refine congrArg _ (funext fun c => ?_)
  rw [stats_zeroRun]
  rfl

theorem stats_encodeLoop (limit : Nat) : ∀ (n i : Nat) (buf : List UInt8) (w : Nat),
    V2.encodeLoop (h.stats x y) limit n i buf w = V2.encodeLoop h limit n i buf w
  | 0, _, _, _ => rfl
  | n + 1, i, buf, w => by
    simp only [V2.encodeLoop]
    split
    · rw [stats_encodeStep]
      refine congrArg _ (funext fun r => ?_)
      obtain ⟨j, _ | k⟩ := r
      · rfl
      · dsimp only
        refine congrArg _ (funext fun r => ?_)
        refine congrArg _ (funext fun r => ?_)
        exact stats_encodeLoop limit n _ _ _
    · rfl
end

section
variable {a b : Hist T} (t : Twin a b)
include t

theorem Twin.iterNew {P : Type} (p : P) : b.iterNew p = a.iterNew p := by
  have e := t.max
  obtain ⟨L, x, y, rfl, M, N⟩ := t
  unfold Hist.iterNew
  rw [e]
  rfl

theorem Twin.iterCollect {P : Type} (pk : Picker P) (n : Nat) (s : IterState P) :
    b.iterCollect pk n s = a.iterCollect pk n s := by
  obtain ⟨L, x, y, rfl, M, N⟩ := t
  exact stats_iterCollect a x y pk n s

theorem Twin.iterAll (n : Nat) : b.iterAll n = a.iterAll n := by
  unfold Hist.iterAll
  rw [t.iterNew]
  refine congrArg _ (funext fun s => t.iterCollect _ _ _)

theorem Twin.iterRecorded (n : Nat) : b.iterRecorded n = a.iterRecorded n := by
  unfold Hist.iterRecorded
  rw [t.iterNew]
  refine congrArg _ (funext fun s => t.iterCollect _ _ _)

theorem Twin.iterLinear (step n : Nat) : b.iterLinear step n = a.iterLinear step n := by
  have e1 : b.linearPicker = a.linearPicker := by obtain ⟨L, x, y, rfl, M, N⟩ := t; rfl
  have e2 : b.linearNew step = a.linearNew step := by
    unfold Hist.linearNew
    simp only [t.iterNew]
    obtain ⟨L, x, y, rfl, M, N⟩ := t; rfl
  unfold Hist.iterLinear
  rw [e1, e2]
  refine congrArg _ (funext fun s => t.iterCollect _ _ _)

theorem Twin.iterLog (start : Nat) (base : F64) (n : Nat) : b.iterLog start base n = a.iterLog start base n := by
  have e1 : b.logPicker = a.logPicker := by obtain ⟨L, x, y, rfl, M, N⟩ := t; rfl
  have e2 : b.logNew start base = a.logNew start base := by
    unfold Hist.logNew
    simp only [t.iterNew]
    obtain ⟨L, x, y, rfl, M, N⟩ := t; rfl
  unfold Hist.iterLog
  rw [e1, e2]
  refine congrArg _ (funext fun s => t.iterCollect _ _ _)

theorem Twin.iterQuantiles (lg : F64 → Nat) (ticks n : Nat) :
    Hist.iterQuantiles lg b ticks n = Hist.iterQuantiles lg a ticks n := by
  have e1 : Hist.quantilePicker lg b = Hist.quantilePicker lg a := by obtain ⟨L, x, y, rfl, M, N⟩ := t; rfl
  have e2 : b.quantileNew ticks = a.quantileNew ticks := by
    unfold Hist.quantileNew
    simp only [t.iterNew]
  unfold Hist.iterQuantiles
  rw [e1, e2]
  refine congrArg _ (funext fun s => t.iterCollect _ _ _)

theorem Twin.mean : b.mean = a.mean := by
  have e := t.iterRecorded
  obtain ⟨L, x, y, rfl, M, N⟩ := t
  unfold Hist.mean
  simp only [e, stats_meanLoop]
  rfl

theorem Twin.variance : b.variance = a.variance := by
  have e := t.iterRecorded
  have e' := t.mean
  obtain ⟨L, x, y, rfl, M, N⟩ := t
  unfold Hist.variance
  simp only [e, e', stats_stdevLoop]
  rfl

theorem Twin.stdev : b.stdev = a.stdev := by
  have e := t.variance
  obtain ⟨L, x, y, rfl, M, N⟩ := t
  unfold Hist.stdev
  simp only [e]
  rfl

theorem Twin.valueAtQuantile (q : F64) : b.valueAtQuantile q = a.valueAtQuantile q := by
  obtain ⟨L, x, y, rfl, M, N⟩ := t
  exact stats_quantileLoop ..

theorem Twin.countBetween (v w : Nat) : b.countBetween v w = a.countBetween v w := by
  obtain ⟨L, x, y, rfl, M, N⟩ := t
  unfold Hist.countBetween
  simp only [stats_countBetweenLoop]
  rfl

theorem Twin.serialize (junk : Nat → UInt8) : V2.serialize junk b = V2.serialize junk a := by
  have e := t.max
  obtain ⟨L, x, y, rfl, M, N⟩ := t
  have e1 : V2.maxEncodedSize (a.stats x y) = V2.maxEncodedSize a := by
    unfold V2.maxEncodedSize
    rw [e]
    rfl
  have e2 : ∀ buf, V2.encodeCounts (a.stats x y) buf = V2.encodeCounts a buf := by
    intro buf
    unfold V2.encodeCounts
    simp only [e, stats_encodeLoop]
    rfl
  unfold V2.serialize
  simp only [e1, e2]
  rfl
end

theorem Twin.eq {a b s s' : Hist T} (t : Twin a b) (ts : Twin s s') : b.eq s' = a.eq s := by
  have e1 := t.max
  have e2 := t.minNz
  have e3 := ts.max
  have e4 := ts.minNz
  obtain ⟨L, x, y, rfl, M, N⟩ := t
  obtain ⟨Ls, xs, ys, rfl, Ms, Ns⟩ := ts
  unfold Hist.eq
  rw [e1, e2, e3, e4]
  rfl

/-! ### corrections -/

theorem twin_iterEmit_le {P : Type} {h : Hist T} {s : IterState P} {q : Option F64} {v : IterValue}
    (e : h.iterEmit s ⟨q, none⟩ = .ok v) : v.valueIteratedTo ≤ U64MAX := by
  unfold Hist.iterEmit at e
  dsimp only at e
  obtain ⟨w, -, e⟩ := M.bind_eq_ok.mp e
  obtain ⟨z, hz, e⟩ := M.bind_eq_ok.mp e
  obtain ⟨c, -, e⟩ := M.bind_eq_ok.mp e
  cases e
  exact highestEquivalent_le' hz

theorem twin_iterPick_le {h : Hist T} {s s' : IterState (Option Nat)} {v : IterValue}
    (e : h.iterPick Hist.recordedPicker s = .ok (.emitted s' v)) : v.valueIteratedTo ≤ U64MAX := by
  unfold Hist.iterPick at e
  simp only [Hist.recordedPicker] at e
  by_cases hc : s.countAtIndex ≠ 0 ∧ s.picker ≠ some s.currentIndex
  · rw [if_pos hc] at e
    simp only [M.ok_bind] at e
    obtain ⟨z, hz, e⟩ := M.bind_eq_ok.mp e
    cases e
    exact twin_iterEmit_le hz
  · rw [if_neg hc] at e
    simp only [M.ok_bind] at e
    obtain ⟨z, hz, e⟩ := M.bind_eq_ok.mp e
    cases e

theorem twin_iterPass_le {h : Hist T} {s s' : IterState (Option Nat)} {v : IterValue}
    (e : h.iterPass Hist.recordedPicker s = .ok (.emitted s' v)) : v.valueIteratedTo ≤ U64MAX := by
  unfold Hist.iterPass at e
  split at e
  · cases e
  split at e
  · obtain ⟨⟨p, more⟩, -, e⟩ := M.bind_eq_ok.mp e
    dsimp only at e
    split at e
    · exact twin_iterPick_le e
    · cases e
  · obtain ⟨_, -, e⟩ := M.bind_eq_ok.mp e
    obtain ⟨_, -, e⟩ := M.bind_eq_ok.mp e
    exact twin_iterPick_le e

theorem twin_iterNextLoop_le {h : Hist T} : ∀ (n : Nat) {s s' : IterState (Option Nat)} {v : IterValue},
    h.iterNextLoop Hist.recordedPicker n s = .ok (s', some v) → v.valueIteratedTo ≤ U64MAX
  | 0, _, _, _, e => by cases e
  | n + 1, s, s', v, e => by
    simp only [Hist.iterNextLoop] at e
    split at e
    · cases e
    · obtain ⟨r, hr, e⟩ := M.bind_eq_ok.mp e
      cases r with
      | finished s => cases e
      | emitted s w => cases e; exact twin_iterPass_le hr
      | again s => exact twin_iterNextLoop_le n e

theorem twin_iterCollect_le {h : Hist T} : ∀ (n : Nat) {s : IterState (Option Nat)} {vs : List IterValue},
    h.iterCollect Hist.recordedPicker n s = .ok vs → ∀ v ∈ vs, v.valueIteratedTo ≤ U64MAX
  | 0, _, _, e => by cases e
  | n + 1, s, vs, e => by
    simp only [Hist.iterCollect] at e
    obtain ⟨⟨s', r⟩, hr, e⟩ := M.bind_eq_ok.mp e
    cases r with
    | none => cases e; simp
    | some w =>
      dsimp only at e
      obtain ⟨ws, hw, e⟩ := M.bind_eq_ok.mp e
      cases e
      intro v hv
      rcases List.mem_cons.mp hv with rfl | hv
      · exact twin_iterNextLoop_le _ hr
      · exact twin_iterCollect_le n hw v hv

theorem twin_iterRecorded_le {h : Hist T} {n : Nat} {vs : List IterValue} (e : h.iterRecorded n = .ok vs) :
    ∀ v ∈ vs, v.valueIteratedTo ≤ U64MAX := by
  unfold Hist.iterRecorded at e
  obtain ⟨s, -, e⟩ := M.bind_eq_ok.mp e
  exact twin_iterCollect_le n e

theorem Twin.addCorrectLoop (i : Nat) : ∀ (vs : List IterValue) (a b : Hist T), (∀ v ∈ vs, v.valueIteratedTo ≤ U64MAX) →
    Twin a b → Rel TwinRes (Hist.addCorrectLoop i vs a) (Hist.addCorrectLoop i vs b)
  | [], _, _, _, t => ⟨t, rfl⟩
  | v :: vs, a, b, hv, t => by
    simp only [Hist.addCorrectLoop]
    refine Rel.bind (t.recordNCorrect (hv v (by simp))) ?_
    rintro ⟨g, r⟩ ⟨g', r'⟩ ⟨tg, er⟩
    dsimp only at er tg
    subst er
    cases r
    · exact ⟨tg, rfl⟩
    · exact Twin.addCorrectLoop i vs _ _ (fun v h => hv v (by simp [h])) tg

theorem Twin.addCorrect {a b s s' : Hist T} (t : Twin a b) (ts : Twin s s') (i : Nat) :
    Rel TwinRes (a.addCorrect s i) (b.addCorrect s' i) := by
  unfold Hist.addCorrect
  have e := ts.iterRecorded
  have hf : s'.recordedFuel = s.recordedFuel := by obtain ⟨L, x, y, rfl, M, N⟩ := ts; rfl
  rw [e, hf]
  exact Rel.step fun vs hvs => Twin.addCorrectLoop i vs _ _ (twin_iterRecorded_le hvs) t

theorem Twin.setToCorrected {a b s s' : Hist T} (t : Twin a b) (ts : Twin s s') (i : Nat) :
    Rel TwinRes (a.setToCorrected s i) (b.setToCorrected s' i) := t.reset.addCorrect ts i

/-! ### new histograms -/

theorem newWithBounds_twin {low high sigfig : Nat} {h : Hist T}
    (e : Hist.newWithBounds fp T low high sigfig = .ok (.ok h)) : Twin h h := by
  unfold Hist.newWithBounds at e
  rw [newUnsized_eq, M.ok_bind] at e
  have key : ∀ g : Except CreationError (Hist T), g = (if low < 1 then .error .LowIsZero
        else if U64MAX / 2 < low then .error .LowExceedsMax
        else if high < 2 * low then .error .HighLessThanTwiceLow
        else if 5 < sigfig then .error .SigFigExceedsMax
        else if 63 < fp.log2Floor low + Hist.subBucketCountMag sigfig then
          .error .CannotRepresentSigFigBeyondLow
        else .ok (Hist.blank fp T low high sigfig)) → (∃ e, g = .error e) ∨
        (g = .ok (Hist.blank fp T low high sigfig) ∧ Twin (Hist.blank fp T low high sigfig) (Hist.blank fp T low high sigfig)) := by
    intro g hg
    split at hg
    · exact .inl ⟨_, hg⟩
    split at hg
    · exact .inl ⟨_, hg⟩
    split at hg
    · exact .inl ⟨_, hg⟩
    split at hg
    · exact .inl ⟨_, hg⟩
    split at hg
    · exact .inl ⟨_, hg⟩
    rename_i h4 h5
    refine .inr ⟨hg, ?_⟩
    refine Twin.of (x := 0) (y := U64MAX) (show LayoutOK (Hist.blank fp T low high sigfig) from blank_layout (by omega) (by omega)) (by constructor <;> rfl) ?_ ?_ rfl
    · exact ⟨Nat.zero_le _, Nat.zero_le _, .inl rfl, .inl rfl, Iff.rfl, Iff.rfl, rfl⟩
    · exact ⟨le_rfl, le_rfl, Iff.rfl, rfl⟩
  rcases key _ rfl with ⟨x, hx⟩ | ⟨hg, t⟩
  · rw [hx] at e; cases e
  · rw [hg] at e
    dsimp only at e
    obtain ⟨k, hk, e⟩ := M.bind_eq_ok.mp e
    cases e
    exact Rel.self_iff.mp (t.resize high) _ hk

theorem new_twin {sigfig : Nat} {h : Hist T} (e : Hist.new fp T sigfig = .ok (.ok h)) : Twin h h := by
  unfold Hist.new at e
  obtain ⟨r, hr, e⟩ := M.bind_eq_ok.mp e
  cases r with
  | error x => cases e
  | ok g => cases e; exact (newWithBounds_twin hr).auto true

theorem newFrom_twin {F : CounterTy} {s : Hist F} {h : Hist T} (e : Hist.newFrom fp T s = .ok h) : Twin h h := by
  unfold Hist.newFrom at e
  obtain ⟨r, hr, e⟩ := M.bind_eq_ok.mp e
  cases r with
  | error x => cases e
  | ok g =>
    cases e
    obtain ⟨L, x, y, e, M, N⟩ := newWithBounds_twin hr
    exact Twin.of (x := g.maxValue) (y := g.minNonZero) L (by constructor <;> rfl) M.self N.self rfl

theorem Twin.newFrom {F : CounterTy} {a b : Hist F} (t : Twin a b) : Hist.newFrom fp T b = Hist.newFrom fp T a := by
  obtain ⟨L, x, y, rfl, M, N⟩ := t
  rfl

theorem Twin.cloneCorrect {a b : Hist T} (t : Twin a b) (i : Nat) :
    Rel Twin (Hist.cloneCorrect fp a i) (Hist.cloneCorrect fp b i) := by
  unfold Hist.cloneCorrect
  have hf : b.recordedFuel = a.recordedFuel := by obtain ⟨L, x, y, rfl, M, N⟩ := t; rfl
  rw [t.newFrom, t.iterRecorded, hf]
  refine Rel.step fun c hc => Rel.step fun vs hvs => ?_
  refine Rel.bind (Twin.addCorrectLoop i vs _ _ (twin_iterRecorded_le hvs) (newFrom_twin hc)) ?_
  rintro ⟨g, r⟩ ⟨g', r'⟩ ⟨tg, er⟩
  dsimp only at er tg
  subst er
  cases r
  · rfl
  · exact tg

theorem advance_h {s s' : V2.DecodeState T} {n : Nat} (e : V2.advance s n = .ok s') : s'.h = s.h := by
  unfold V2.advance at e
  split at e
  · cases e; rfl
  · cases e

theorem onDecodedNum_twin {checks : Bool} {s s' : V2.DecodeState T} {n : Int}
    (e : V2.onDecodedNum checks s n = .ok (.ok s')) (t : Twin s.h s.h) : Twin s'.h s'.h := by
  unfold V2.onDecodedNum at e
  split at e
  · obtain ⟨z, -, e⟩ := M.bind_eq_ok.mp e
    split at e
    · cases e
    · have e' := Except.ok.inj e
      rw [advance_h e']; exact t
  · have e' := Except.ok.inj e
    unfold V2.onCount at e'
    split at e'
    · split at e'
      · unfold V2.setCountAtIndex at e'
        split at e'
        · cases e'
        · rename_i g hg
          rw [advance_h e']
          split at hg
          · cases hg
            obtain ⟨L, x, y, -, M, N⟩ := t
            exact Twin.of (x := s.h.maxValue) (y := s.h.minNonZero) L (by constructor <;> rfl) M.self N.self rfl
          · cases hg
      · rw [advance_h e']; exact t
    · cases e'

theorem slowLoop_twin {checks : Bool} : ∀ (n : Nat) {r : List UInt8} {s s' : V2.DecodeState T},
    V2.slowLoop checks n r s = .ok (.ok s') → Twin s.h s.h → Twin s'.h s'.h
  | 0, _, _, _, e, _ => by cases e
  | n + 1, r, s, s', e, t => by
    simp only [V2.slowLoop] at e
    split at e
    · cases e; exact t
    split at e
    · cases e
    · obtain ⟨k, hk, e⟩ := M.bind_eq_ok.mp e
      cases k with
      | error x => cases e
      | ok k => exact slowLoop_twin n e (onDecodedNum_twin hk t)

theorem deserV2_twin {checks : Bool} {r rest : List UInt8} {h : Hist T}
    (e : V2.deserV2 fp T checks r = .ok (.ok (h, rest))) : Twin h h := by
  unfold V2.deserV2 at e
  split at e
  · cases e
  obtain ⟨g, hg, e⟩ := M.bind_eq_ok.mp e
  cases g with
  | error x => cases e
  | ok g =>
    dsimp only at e
    split at e
    · cases e
    obtain ⟨k, hk, e⟩ := M.bind_eq_ok.mp e
    cases k with
    | error x => cases e
    | ok k =>
      cases e
      rw [V2.decodePayload_eq _ _ _ _ (Nat.lt_succ_self _)] at hk
      obtain ⟨s, hs, hk⟩ := M.bind_eq_ok.mp hk
      cases s with
      | error x => cases hk
      | ok s =>
        dsimp only at hk
        obtain ⟨q, hq, hk⟩ := M.bind_eq_ok.mp hk
        cases hk
        exact Rel.self_iff.mp ((slowLoop_twin _ hs (newWithBounds_twin hg)).updateHistogram _) _ hq

theorem deserialize_twin {z : V2.Zlib} {checks : Bool} {r rest : List UInt8} {h : Hist T}
    (e : V2.deserialize fp z T checks r = .ok (.ok (h, rest))) : Twin h h := by
  unfold V2.deserialize at e
  split at e
  · cases e
  split at e
  · exact deserV2_twin e
  split at e
  · unfold V2.deserV2Compressed at e
    split at e
    · cases e
    dsimp only at e
    split at e
    · cases e
    split at e
    · cases e
    obtain ⟨k, hk, e⟩ := M.bind_eq_ok.mp e
    rcases k with x | ⟨k, u⟩
    · cases e
    · cases e; exact deserV2_twin hk
  · cases e

end Hdr
