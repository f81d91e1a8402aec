import Verif.Props.SameSamples
import Verif.Props.QuantileAgree

/-!
# C109: mean and standard deviation of the samples of two histograms taken together
-/

namespace Hdr

variable {T T' T'' : CounterTy} {fp : Fp}

/-! ### averages over two lists -/

theorem sum_split (l : List (Nat × Nat)) (f : Nat → ℚ) (t : ℚ) :
    (l.map fun p => (f p.1 - t) ^ 2 * (p.2 : ℚ)).sum =
      (l.map fun p => f p.1 ^ 2 * (p.2 : ℚ)).sum - 2 * t * (l.map fun p => f p.1 * (p.2 : ℚ)).sum + t ^ 2 * numberAll l := by
  rw [numberAll_cast]
  induction l with
  | nil => simp
  | cons p l ih =>
    simp only [List.map_cons, List.sum_cons]
    rw [ih]; ring

theorem avg_append {l l' : List (Nat × Nat)} (h0 : 0 < numberAll l) (h0' : 0 < numberAll l') (f : Nat → ℚ) :
    avg (l ++ l') f = (numberAll l * avg l f + numberAll l' * avg l' f) / (numberAll l + numberAll l' : ℕ) := by
  have hn : (0 : ℚ) < numberAll l := by exact_mod_cast h0
  have hm : (0 : ℚ) < numberAll l' := by exact_mod_cast h0'
  unfold avg
  rw [numberAll_append, List.map_append, List.sum_append]
  field_simp

theorem meanSq_append {l l' : List (Nat × Nat)} (h0 : 0 < numberAll l) (h0' : 0 < numberAll l') (f : Nat → ℚ) :
    meanSq (l ++ l') f (avg (l ++ l') f) =
      (numberAll l * meanSq l f (avg l f) + numberAll l' * meanSq l' f (avg l' f)) / (numberAll l + numberAll l' : ℕ) +
      numberAll l * numberAll l' * (avg l f - avg l' f) ^ 2 / (numberAll l + numberAll l' : ℕ) ^ 2 := by
  have hn : (0 : ℚ) < numberAll l := by exact_mod_cast h0
  have hm : (0 : ℚ) < numberAll l' := by exact_mod_cast h0'
  rw [avg_append h0 h0']
  unfold meanSq avg
  rw [numberAll_append, sum_split, sum_split, sum_split, List.map_append, List.sum_append, List.map_append, List.sum_append,
    numberAll_append]
  generalize (l.map fun p => f p.1 ^ 2 * (p.2 : ℚ)).sum = a
  generalize (l'.map fun p => f p.1 ^ 2 * (p.2 : ℚ)).sum = a'
  generalize (l.map fun p => f p.1 * (p.2 : ℚ)).sum = b
  generalize (l'.map fun p => f p.1 * (p.2 : ℚ)).sum = b'
  push_cast
  field_simp
  ring

theorem avg_nonneg (l : List (Nat × Nat)) {f : Nat → ℚ} (hf : ∀ p ∈ l, 0 ≤ f p.1) : 0 ≤ avg l f := by
  unfold avg
  refine div_nonneg (List.sum_nonneg ?_) (by positivity)
  intro x hx
  obtain ⟨p, hp, rfl⟩ := List.mem_map.mp hx
  exact mul_nonneg (hf p hp) (by positivity)

theorem avg_le {l : List (Nat × Nat)} (h0 : 0 < numberAll l) {f : Nat → ℚ} {b : ℚ} (hf : ∀ p ∈ l, f p.1 ≤ b) : avg l f ≤ b := by
  have hn : (0 : ℚ) < numberAll l := by exact_mod_cast h0
  unfold avg
  rw [div_le_iff₀ hn, numberAll_cast, ← List.sum_map_mul_left]
  exact sum_le fun p hp => mul_le_mul_of_nonneg_right (hf p hp) (by positivity)

/-! ### one histogram -/

/-- the middle of the class of a value, as a number -/
def mid (h : Hist T) (y : Nat) : ℚ := h.lmed (h.lidx y)

theorem Contains.moment1 {h : Hist T} (R : Reachable fp T h) {l : List (Nat × Nat)} (H : Contains h l) (h0 : 0 < numberAll l) :
    ∃ x, h.mean = .ok (.fin x) ∧ |x - avg l (mid h)| ≤ avg l (mid h) / 2 ^ 28 := by
  have W := R.wf
  have hlen : h.len = numberAll l := H.len
  obtain ⟨ms, hm⟩ := C52_medians R W.contents
  obtain ⟨x, e, -, hx⟩ := C52_mean R W.contents hm (by omega)
  refine ⟨x, e, ?_⟩
  have hμ := H.medianMean W hm
  rw [hμ] at hx
  exact hx

theorem Contains.moment2 {h : Hist T} (R : Reachable fp T h) {l : List (Nat × Nat)} (H : Contains h l) (h0 : 0 < numberAll l)
    {b : Nat} (hb : ∀ p ∈ l, mid h p.1 ≤ b) :
    ∃ s, h.stdev = .ok (.fin s) ∧ |(s : ℝ) - Real.sqrt (meanSq l (mid h) (avg l (mid h)) : ℚ)| ≤ b / 2 ^ 26 ∧
      Real.sqrt (meanSq l (mid h) (avg l (mid h)) : ℚ) ≤ b := by
  have W := R.wf
  have C := W.contents
  have hlen : h.len = numberAll l := H.len
  obtain ⟨ms, hms⟩ := C52_medians R C
  have hB : MediansLe b h.contents ms := by
    refine mediansLe_of hms ?_
    intro c hc hne k ek
    obtain ⟨i, hi, rfl⟩ := (W.mem_classes C).mp hc
    rw [show (h.lcls i).lo = h.lval i from rfl, (W.median_top hi).2.1] at ek
    injection ek with ek
    rw [← ek]
    have hne : h.counts.getD i 0 ≠ 0 := hne
    rw [H.slot W hi, hits_eq_number] at hne
    obtain ⟨p, hp, rfl, -⟩ := number_pos hne
    have := hb p hp
    unfold mid at this
    exact_mod_cast this
  obtain ⟨s, e, h1, h2⟩ := C64_stdev R C hms (by omega) (by rw [W.sum_classes C, H.sum W, hlen]) hB
  have hv : exactStdev h h.contents ms = Real.sqrt (meanSq l (mid h) (avg l (mid h)) : ℚ) := by
    unfold exactStdev
    rw [H.variance W hms, H.medianMean W hms]
    rfl
  rw [hv] at h1 h2
  exact ⟨s, e, h1, h2⟩

theorem mid_same {h : Hist T} {g : Hist T'} (hs : h.unitMag = g.unitMag ∧ h.subBucketHalfCountMag = g.subBucketHalfCountMag) :
    mid h = mid g := by
  funext y
  unfold mid Hist.lmed Hist.lval Hist.lidx Hist.lwid
  rw [hs.1, hs.2]

/-! ### two histograms -/

/-- C109 (1): the mean of the samples of two histograms taken together, in a third one of the same precision, is the average of the
two means weighted with the numbers of samples, up to rounding. -/
theorem C109_mean {h : Hist T} {g : Hist T'} {k : Hist T''} (R : Reachable fp T h) (R' : Reachable fp T' g)
    (R'' : Reachable fp T'' k) (hlow : h.low = k.low) (hsig : h.sigfig = k.sigfig) (glow : g.low = k.low)
    (gsig : g.sigfig = k.sigfig) {l l' : List (Nat × Nat)} (H : Contains h l) (H' : Contains g l') (H'' : Contains k (l ++ l'))
    (h0 : 0 < numberAll l) (h0' : 0 < numberAll l') :
    ∃ x y z, h.mean = .ok (.fin x) ∧ g.mean = .ok (.fin y) ∧ k.mean = .ok (.fin z) ∧
      |z - (h.len * x + g.len * y) / (h.len + g.len)| ≤ (h.len * x + g.len * y) / (h.len + g.len) / 2 ^ 26 := by
  have e1 := mid_same (R.wf.same_slots R''.wf hlow hsig)
  have e2 := mid_same (R'.wf.same_slots R''.wf glow gsig)
  obtain ⟨x, ex, hx⟩ := H.moment1 R h0
  obtain ⟨y, ey, hy⟩ := H'.moment1 R' h0'
  obtain ⟨z, ez, hz⟩ := H''.moment1 R'' (by rw [numberAll_append]; omega)
  rw [e1] at hx
  rw [e2] at hy
  refine ⟨x, y, z, ex, ey, ez, ?_⟩
  have hl : h.len = numberAll l := H.len
  have hl' : g.len = numberAll l' := H'.len
  have hn : (0 : ℚ) < numberAll l := by exact_mod_cast h0
  have hm : (0 : ℚ) < numberAll l' := by exact_mod_cast h0'
  have p1 : 0 ≤ avg l (mid k) := avg_nonneg l fun p _ => by unfold mid; positivity
  have p2 : 0 ≤ avg l' (mid k) := avg_nonneg l' fun p _ => by unfold mid; positivity
  rw [avg_append h0 h0'] at hz
  rw [hl, hl']
  push_cast at hz
  generalize avg l (mid k) = μ at *
  generalize avg l' (mid k) = ν at *
  generalize (numberAll l : ℚ) = n at *
  generalize (numberAll l' : ℚ) = m at *
  have hs : 0 < n + m := by linarith
  have key : |(n * x + m * y) / (n + m) - (n * μ + m * ν) / (n + m)| ≤ (n * μ + m * ν) / (n + m) / 2 ^ 28 := by
    rw [← sub_div, abs_div, abs_of_pos hs, div_right_comm, div_le_div_iff_of_pos_right hs]
    have e : n * x + m * y - (n * μ + m * ν) = n * (x - μ) + m * (y - ν) := by ring
    rw [e]
    refine le_trans (abs_add_le _ _) ?_
    rw [abs_mul, abs_mul, abs_of_pos hn, abs_of_pos hm]
    have a1 := mul_le_mul_of_nonneg_left hx hn.le
    have a2 := mul_le_mul_of_nonneg_left hy hm.le
    have e : (n * μ + m * ν) / 2 ^ 28 = n * (μ / 2 ^ 28) + m * (ν / 2 ^ 28) := by ring
    rw [e]
    linarith
  have p3 : 0 ≤ (n * μ + m * ν) / (n + m) := by positivity
  generalize (n * μ + m * ν) / (n + m) = A at *
  generalize (n * x + m * y) / (n + m) = B at *
  rw [abs_le] at key hz ⊢
  norm_num at key hz ⊢
  constructor <;> linarith [key.1, key.2, hz.1, hz.2]

theorem sq_near {s v b : ℝ} (hv0 : 0 ≤ v) (h1 : |s - v| ≤ b / 2 ^ 26) (h2 : v ≤ b) : |s ^ 2 - v ^ 2| ≤ b ^ 2 / 2 ^ 24 := by
  have hb : 0 ≤ b := hv0.trans h2
  have e : s ^ 2 - v ^ 2 = (s - v) * (s - v + 2 * v) := by ring
  rw [e, abs_mul]
  have h3 : |s - v + 2 * v| ≤ b / 2 ^ 26 + 2 * b := by
    refine le_trans (abs_add_le _ _) ?_
    rw [abs_of_nonneg (by linarith : (0 : ℝ) ≤ 2 * v)]
    linarith
  calc _ ≤ b / 2 ^ 26 * (b / 2 ^ 26 + 2 * b) := mul_le_mul h1 h3 (abs_nonneg _) (by positivity)
    _ ≤ _ := by
      have : 0 ≤ b ^ 2 := by positivity
      have e : b / 2 ^ 26 * (b / 2 ^ 26 + 2 * b) = b ^ 2 * (1 / 2 ^ 52 + 1 / 2 ^ 25) := by ring
      rw [e, div_eq_mul_one_div]
      refine mul_le_mul_of_nonneg_left ?_ this
      norm_num

/-- C109 (2): the squared standard deviation of the samples taken together is the weighted average of the two squared standard
deviations, plus the squared difference of the means times the product of the two shares, up to rounding: `2 ^ -22` of the square
of a bound on the middles of the samples' classes. -/
theorem C109_stdev {h : Hist T} {g : Hist T'} {k : Hist T''} (R : Reachable fp T h) (R' : Reachable fp T' g)
    (R'' : Reachable fp T'' k) (hlow : h.low = k.low) (hsig : h.sigfig = k.sigfig) (glow : g.low = k.low)
    (gsig : g.sigfig = k.sigfig) {l l' : List (Nat × Nat)} (H : Contains h l) (H' : Contains g l') (H'' : Contains k (l ++ l'))
    (h0 : 0 < numberAll l) (h0' : 0 < numberAll l') {b : Nat}
    (hb : ∀ p ∈ l ++ l', ∃ m, k.medianEquivalent p.1 = .ok m ∧ m ≤ b) :
    ∃ x y s t u, h.mean = .ok (.fin x) ∧ g.mean = .ok (.fin y) ∧ h.stdev = .ok (.fin s) ∧ g.stdev = .ok (.fin t) ∧
      k.stdev = .ok (.fin u) ∧
      |u ^ 2 - ((h.len * s ^ 2 + g.len * t ^ 2) / (h.len + g.len) + h.len * g.len * (x - y) ^ 2 / (h.len + g.len) ^ 2)| ≤
        b ^ 2 / 2 ^ 22 := by
  have W'' := R''.wf
  have e1 := mid_same (R.wf.same_slots W'' hlow hsig)
  have e2 := mid_same (R'.wf.same_slots W'' glow gsig)
  have hmid : ∀ p ∈ l ++ l', mid k p.1 ≤ b := by
    intro p hp
    obtain ⟨m, em, hm⟩ := hb p hp
    have hple := H''.le W'' hp
    rw [medianEquivalent_eq W''.toLayoutOK hple] at em
    injection em with em
    have : mid k p.1 = (m : ℚ) := by
      unfold mid Hist.lmed
      have a1 : k.lval (k.lidx p.1) = k.llo p.1 := Lay.val_idx
      have a2 : k.lwid (k.llo p.1) = k.lwid p.1 := Lay.wid_eq_of_idx Lay.idx_lo
      rw [a1, a2, em]
    rw [this]
    exact_mod_cast hm
  have hml : ∀ p ∈ l, mid k p.1 ≤ b := fun p hp => hmid p (List.mem_append_left _ hp)
  have hml' : ∀ p ∈ l', mid k p.1 ≤ b := fun p hp => hmid p (List.mem_append_right _ hp)
  obtain ⟨x, ex, hx⟩ := H.moment1 R h0
  obtain ⟨y, ey, hy⟩ := H'.moment1 R' h0'
  obtain ⟨s, es, hs, hs2⟩ := H.moment2 R h0 (b := b) (by rw [e1]; exact hml)
  obtain ⟨t, et, ht, ht2⟩ := H'.moment2 R' h0' (b := b) (by rw [e2]; exact hml')
  obtain ⟨u, eu, hu, hu2⟩ := H''.moment2 R'' (by rw [numberAll_append]; omega) hmid
  rw [e1] at hx hs hs2
  rw [e2] at hy ht ht2
  refine ⟨x, y, s, t, u, ex, ey, es, et, eu, ?_⟩
  have hl : h.len = numberAll l := H.len
  have hl' : g.len = numberAll l' := H'.len
  rw [hl, hl']
  have hn : (0 : ℚ) < numberAll l := by exact_mod_cast h0
  have hm : (0 : ℚ) < numberAll l' := by exact_mod_cast h0'
  have p1 : 0 ≤ avg l (mid k) := avg_nonneg l fun p _ => by unfold mid; positivity
  have p2 : 0 ≤ avg l' (mid k) := avg_nonneg l' fun p _ => by unfold mid; positivity
  have q1 : avg l (mid k) ≤ b := avg_le h0 hml
  have q2 : avg l' (mid k) ≤ b := avg_le h0' hml'
  have sq : ∀ (l : List (Nat × Nat)) (t : ℚ), 0 ≤ meanSq l (mid k) t := by
    intro l t
    unfold meanSq
    refine div_nonneg (List.sum_nonneg ?_) (by positivity)
    intro z hz
    obtain ⟨p, hp, rfl⟩ := List.mem_map.mp hz
    positivity
  have near : ∀ {s V : ℚ}, 0 ≤ V → |(s : ℝ) - Real.sqrt (V : ℚ)| ≤ (b : ℝ) / 2 ^ 26 → Real.sqrt (V : ℚ) ≤ (b : ℝ) →
      |s ^ 2 - V| ≤ (b : ℚ) ^ 2 / 2 ^ 24 := by
    intro s V hV a1 a2
    have a3 := sq_near (Real.sqrt_nonneg _) a1 a2
    rw [Real.sq_sqrt (by exact_mod_cast hV)] at a3
    have a4 : ((|s ^ 2 - V| : ℚ) : ℝ) ≤ (((b : ℚ) ^ 2 / 2 ^ 24 : ℚ) : ℝ) := by
      push_cast
      exact a3
    exact Rat.cast_le.mp a4
  have ns := near (sq l _) hs hs2
  have nt := near (sq l' _) ht ht2
  have nu := near (sq (l ++ l') _) hu hu2
  rw [meanSq_append h0 h0'] at nu
  push_cast at nu
  generalize meanSq l (mid k) (avg l (mid k)) = V at *
  generalize meanSq l' (mid k) (avg l' (mid k)) = V' at *
  generalize avg l (mid k) = μ at *
  generalize avg l' (mid k) = ν at *
  generalize (numberAll l : ℚ) = n at *
  generalize (numberAll l' : ℚ) = m at *
  have hb0 : (0 : ℚ) ≤ b := by positivity
  generalize (b : ℚ) = B at *
  have hsum : 0 < n + m := by linarith
  -- the difference of the means
  have hd : |(x - y) ^ 2 - (μ - ν) ^ 2| ≤ B ^ 2 / 2 ^ 25 := by
    have e : (x - y) ^ 2 - (μ - ν) ^ 2 = ((x - μ) - (y - ν)) * ((x - μ) - (y - ν) + 2 * (μ - ν)) := by ring
    have d1 : |(x - μ) - (y - ν)| ≤ B / 2 ^ 27 := by
      refine le_trans (abs_sub _ _) ?_
      norm_num at hx hy ⊢
      linarith
    have d2 : |2 * (μ - ν)| ≤ 2 * B := by
      rw [abs_le]; constructor <;> linarith
    have d3 : |(x - μ) - (y - ν) + 2 * (μ - ν)| ≤ B / 2 ^ 27 + 2 * B := (abs_add_le _ _).trans (by linarith)
    rw [e, abs_mul]
    calc _ ≤ B / 2 ^ 27 * (B / 2 ^ 27 + 2 * B) := mul_le_mul d1 d3 (abs_nonneg _) (by positivity)
      _ = B ^ 2 * (1 / 2 ^ 54 + 1 / 2 ^ 26) := by ring
      _ ≤ B ^ 2 * (1 / 2 ^ 25) := mul_le_mul_of_nonneg_left (by norm_num) (by positivity)
      _ = _ := by ring
  have c1 : |(n * s ^ 2 + m * t ^ 2) / (n + m) - (n * V + m * V') / (n + m)| ≤ B ^ 2 / 2 ^ 24 := by
    rw [← sub_div, abs_div, abs_of_pos hsum, div_le_iff₀ hsum]
    have e : n * s ^ 2 + m * t ^ 2 - (n * V + m * V') = n * (s ^ 2 - V) + m * (t ^ 2 - V') := by ring
    rw [e]
    refine le_trans (abs_add_le _ _) ?_
    rw [abs_mul, abs_mul, abs_of_pos hn, abs_of_pos hm]
    have a1 := mul_le_mul_of_nonneg_left ns hn.le
    have a2 := mul_le_mul_of_nonneg_left nt hm.le
    linarith
  have c2 : |n * m * (x - y) ^ 2 / (n + m) ^ 2 - n * m * (μ - ν) ^ 2 / (n + m) ^ 2| ≤ B ^ 2 / 2 ^ 25 := by
    have e : n * m * (x - y) ^ 2 / (n + m) ^ 2 - n * m * (μ - ν) ^ 2 / (n + m) ^ 2 =
        n * m / (n + m) ^ 2 * ((x - y) ^ 2 - (μ - ν) ^ 2) := by ring
    have r0 : 0 ≤ n * m / (n + m) ^ 2 := by positivity
    have r1 : n * m / (n + m) ^ 2 ≤ 1 := by
      rw [div_le_one (by positivity)]
      nlinarith [mul_pos hn hm, mul_pos hn hn, mul_pos hm hm]
    rw [e, abs_mul, abs_of_nonneg r0]
    calc _ ≤ 1 * (B ^ 2 / 2 ^ 25) := mul_le_mul r1 hd (abs_nonneg _) (by norm_num)
      _ = _ := one_mul _
  generalize (n * s ^ 2 + m * t ^ 2) / (n + m) = A1 at *
  generalize (n * V + m * V') / (n + m) = A2 at *
  generalize n * m * (x - y) ^ 2 / (n + m) ^ 2 = A3 at *
  generalize n * m * (μ - ν) ^ 2 / (n + m) ^ 2 = A4 at *
  have hB2 : 0 ≤ B ^ 2 := by positivity
  generalize B ^ 2 = B2 at *
  rw [abs_le] at nu c1 c2 ⊢
  norm_num at nu c1 c2 ⊢
  constructor <;> linarith [nu.1, nu.2, c1.1, c1.2, c2.1, c2.2]

/-- C109 (3): both laws for the histogram after `add`. -/
theorem C109_add {h s h' : Hist T} (R : Reachable fp T h) (Rs : Reachable fp T s) (hlow : h.low = s.low)
    (hsig : h.sigfig = s.sigfig) {l l' : List (Nat × Nat)} (H : Contains h l) (Hs : Contains s l')
    (e : h.add s = .ok (h', .ok ())) (hpos : ∀ p ∈ l', p.2 ≠ 0)
    (hfit : ∀ w, w ≤ U64MAX → (number (l ++ l') fun v => Equiv h v w) ≤ T.max) (htot : numberAll (l ++ l') ≤ U64MAX)
    (h0 : 0 < numberAll l) (h0' : 0 < numberAll l') {b : Nat}
    (hb : ∀ p ∈ l ++ l', ∃ m, h'.medianEquivalent p.1 = .ok m ∧ m ≤ b) :
    ∃ x y z dx dy dz, h.mean = .ok (.fin x) ∧ s.mean = .ok (.fin y) ∧ h'.mean = .ok (.fin z) ∧
      h.stdev = .ok (.fin dx) ∧ s.stdev = .ok (.fin dy) ∧ h'.stdev = .ok (.fin dz) ∧
      |z - (h.len * x + s.len * y) / (h.len + s.len)| ≤ (h.len * x + s.len * y) / (h.len + s.len) / 2 ^ 26 ∧
      |dz ^ 2 - ((h.len * dx ^ 2 + s.len * dy ^ 2) / (h.len + s.len) + h.len * s.len * (x - y) ^ 2 / (h.len + s.len) ^ 2)| ≤
        b ^ 2 / 2 ^ 22 := by
  have W := R.wf
  have Ws := Rs.wf
  obtain ⟨eu, ec⟩ := W.same_slots Ws hlow hsig
  have hco : ∀ a b, a ≤ U64MAX → b ≤ U64MAX → Equiv s a b → Equiv h a b := by
    intro a b ha hb he
    rw [W.equiv_iff ha hb]
    have := (Ws.equiv_iff ha hb).mp he
    unfold Hist.lidx at this ⊢
    rw [eu, ec]
    exact this
  have H' := C71_add R Rs H Hs hco e hpos hfit htot
  have R' : Reachable fp T h' := .add R Rs e
  have c := W.add_config Ws e
  obtain ⟨x, y, z, ex, ey, ez, hm⟩ := C109_mean R Rs R' c.low.symm c.sig.symm (hlow.symm.trans c.low.symm)
    (hsig.symm.trans c.sig.symm) H Hs H' h0 h0'
  obtain ⟨x', y', dx, dy, dz, ex', ey', e1, e2, e3, hd⟩ := C109_stdev R Rs R' c.low.symm c.sig.symm (hlow.symm.trans c.low.symm)
    (hsig.symm.trans c.sig.symm) H Hs H' h0 h0' hb
  rw [ex] at ex'
  rw [ey] at ey'
  cases ex'
  cases ey'
  exact ⟨x, y, z, dx, dy, dz, ex, ey, ez, e1, e2, e3, hm, hd⟩

/-- the hypotheses of `C109_add`: `demo22` is added to itself -/
example : ∃ g, Reachable Fp.ideal .u8 demo22 ∧ demo22.add demo22 = .ok (g, .ok ()) ∧ Contains demo22 [(5, 5), (9, 17)] ∧
    (∀ w, w ≤ U64MAX → (number ([(5, 5), (9, 17)] ++ [(5, 5), (9, 17)]) fun v => Equiv demo22 v w) ≤ CounterTy.u8.max) ∧
    ∀ p ∈ [(5, 5), (9, 17)] ++ [(5, 5), (9, 17)], ∃ m, g.medianEquivalent p.1 = .ok m ∧ m ≤ 12 := by
  have h : (match demo22.add demo22 with
    | .ok (g, .ok ()) => decide (g.medianEquivalent 5 = .ok 6 ∧ g.medianEquivalent 9 = .ok 12)
    | _ => false) = true := by decide +kernel
  split at h
  · rename_i g hg
    obtain ⟨h1, h2⟩ := of_decide_eq_true h
    refine ⟨g, demo22_reachable, hg, demo22_holds, fun w _ => le_trans (number_le_all _ _) (by decide), ?_⟩
    intro p hp
    simp only [List.cons_append, List.nil_append, List.mem_cons, List.not_mem_nil, or_false] at hp
    rcases hp with rfl | rfl | rfl | rfl
    · exact ⟨6, h1, by decide⟩
    · exact ⟨12, h2, by decide⟩
    · exact ⟨6, h1, by decide⟩
    · exact ⟨12, h2, by decide⟩
  · cases h

end Hdr
