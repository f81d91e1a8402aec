import Verif.Props.Wire
import Verif.Props.RecordExact
import Verif.Props.Panics

/-!
# C36: for which histograms the round trip compares equal

`C36_round_trip_eq_partial` leaves out the histograms whose statistics the reader does not rebuild.  Here: what the reader
makes of the statistics in every case, and exactly when `==` holds.
-/

namespace Hdr

open V2

variable {T : CounterTy} {fp : Fp}

/-- The statistics of `h` are those a reader computes from the counts of the classes `cs`: `len()` is their (saturated) sum,
`min_nz()` the start of the first non-empty class but that of zero, and `max()` the end of the last non-empty class, except
that a unit above 1 turns `u64::MAX - 1` into `u64::MAX`. -/
structure ReadStats (h : Hist T) (cs : List Cls) : Prop where
  len : h.len = min (cs.map (·.count)).sum U64MAX
  max : (∀ c ∈ cs, c.count = 0) ∧ h.max = .ok 0 ∨
    ∃ c ∈ cs, c.count ≠ 0 ∧ (∀ d ∈ cs, d.count ≠ 0 → d.lo ≤ c.lo) ∧
      h.max = .ok (if c.hi = U64MAX - 1 ∧ h.highestEquivalent 0 ≠ .ok 0 then U64MAX else c.hi)
  minNz : (∀ c ∈ cs, c.lo ≠ 0 → c.count = 0) ∧ h.minNz = .ok U64MAX ∨
    ∃ c ∈ cs, c.lo ≠ 0 ∧ c.count ≠ 0 ∧ (∀ d ∈ cs, d.lo ≠ 0 → d.count ≠ 0 → c.lo ≤ d.lo) ∧ h.minNz = .ok c.lo

/-- `max()` of what the deserializer returns, in every case -/
theorem decoded_lmax_eq {g : Hist T} (W : WF fp (V2.decoded g)) :
    (V2.decoded g).lmax = (match lastNz g.counts 0 with
      | none => 0
      | some i => if g.lhi (g.lval i) = U64MAX - 1 ∧ g.unitMag ≠ 0 then U64MAX else g.lhi (g.lval i)) := by
  rcases decoded_lmax W with h1 | ⟨h1, h2, i, h3, h4⟩
  · cases hn : lastNz g.counts 0 with
    | none => rw [hn] at h1; exact h1
    | some i =>
      rw [hn] at h1
      dsimp only at h1 ⊢
      by_cases hc : g.lhi (g.lval i) = U64MAX - 1 ∧ g.unitMag ≠ 0
      · exfalso
        have hm : (V2.decoded g).maxValue = g.lhi (g.lval i) ||| g.unitMagMask := by
          show V2.decMax g = _
          unfold V2.decMax; rw [hn]
        have hmask : g.unitMagMask = 2 ^ g.unitMag - 1 := W.toLayoutOK.ummask
        have hle := W.maxle
        rw [hm, hmask, or_mask_val, hc.1] at hle
        rw [hmask, or_mask_val, hc.1] at hm
        have hU : U64MAX = 18446744073709551615 := rfl
        have h5 : 2 ∣ 2 ^ g.unitMag := dvd_pow_self 2 hc.2
        have h6 : 0 < 2 ^ g.unitMag := by positivity
        generalize 2 ^ g.unitMag = u at *
        have h7 := Nat.div_add_mod (U64MAX - 1) u
        have h8 := Nat.mod_lt (U64MAX - 1) h6
        have h9 : 2 ∣ u * ((U64MAX - 1) / u) := h5.mul_right _
        rw [Nat.mul_comm u] at h7 h9
        generalize (U64MAX - 1) / u * u = w at *
        have htop : (V2.decoded g).maxValue = U64MAX := by omega
        have : (V2.decoded g).lmax = U64MAX := by
          unfold Hist.lmax Hist.lhi
          rw [if_neg (by omega), if_pos htop]
        omega
      · rw [if_neg hc]; exact h1
  · rw [h3]
    dsimp only
    rw [if_pos ⟨h4, h2⟩]; exact h1

theorem WF.forall_classes {h : Hist T} (W : WF fp h) {cs : List Cls} (C : Classes h cs) (P : Cls → Prop) :
    (∀ c ∈ cs, P c) ↔ ∀ i, i < h.counts.length → P (h.lcls i) := by
  constructor
  · intro hp i hi; exact hp _ ((W.mem_classes C).mpr ⟨i, hi, rfl⟩)
  · intro hp c hc
    obtain ⟨i, hi, rfl⟩ := (W.mem_classes C).mp hc
    exact hp i hi

theorem WF.exists_classes {h : Hist T} (W : WF fp h) {cs : List Cls} (C : Classes h cs) (P : Cls → Prop) :
    (∃ c ∈ cs, P c) ↔ ∃ i, i < h.counts.length ∧ P (h.lcls i) := by
  constructor
  · rintro ⟨c, hc, hp⟩
    obtain ⟨i, hi, rfl⟩ := (W.mem_classes C).mp hc
    exact ⟨i, hi, hp⟩
  · rintro ⟨i, hi, hp⟩
    exact ⟨_, (W.mem_classes C).mpr ⟨i, hi, rfl⟩, hp⟩

theorem WF.minNz_exact_iff {h : Hist T} (W : WF fp h) {cs : List Cls} (C : Classes h cs) :
    ((∀ c ∈ cs, c.lo ≠ 0 → c.count = 0) ∧ h.minNz = .ok U64MAX ∨
      ∃ c ∈ cs, c.lo ≠ 0 ∧ c.count ≠ 0 ∧ (∀ d ∈ cs, d.lo ≠ 0 → d.count ≠ 0 → c.lo ≤ d.lo) ∧ h.minNz = .ok c.lo) ↔
      h.lminNz = h.scanMin := by
  have hf := firstNz_spec h.counts 0
  have hcnt : ∀ i, (h.lcls i).count = h.counts.getD i 0 := fun _ => rfl
  have hlo : ∀ i, (h.lcls i).lo = h.lval i := fun _ => rfl
  have all : ∀ (P : Cls → Prop), (∀ c ∈ cs, P c) ↔ ∀ i, i < h.counts.length → P (h.lcls i) := W.forall_classes C
  have ex : ∀ (P : Cls → Prop), (∃ c ∈ cs, P c) ↔ ∃ i, i < h.counts.length ∧ P (h.lcls i) := W.exists_classes C
  rw [all, ex, W.minNz_eq]
  unfold Hist.scanMin
  simp only [Except.ok.injEq, all (fun d => d.lo ≠ 0 → d.count ≠ 0 → _), hcnt, hlo, lval_le_lval, lval_ne_zero]
  cases hn : firstNz h.counts 0 with
  | none =>
    rw [hn] at hf
    simp only [Nat.zero_add] at hf ⊢
    constructor
    · rintro (⟨-, h1⟩ | ⟨i, -, h0, h1, -⟩)
      · exact h1
      · exact absurd (hf i h0) h1
    · intro h1; exact Or.inl ⟨fun i _ => hf i, h1⟩
  | some j =>
    rw [hn] at hf
    simp only [Nat.sub_zero, Nat.zero_add] at hf ⊢
    obtain ⟨-, h0, h2, h3, h4⟩ := hf
    constructor
    · rintro (⟨h1, -⟩ | ⟨i, hi, hi0, h1, h5, h6⟩)
      · exact absurd (h1 j h2 h0) h3
      · have a1 := h4 i hi0 h1
        have a2 := h5 j h2 h0 h3
        have : i = j := by omega
        subst this; exact h6
    · intro h1
      exact Or.inr ⟨j, h2, h0, h3, fun i _ hi0 hi => h4 i hi0 hi, h1⟩

theorem WF.readStats_iff {h : Hist T} (W : WF fp h) {cs : List Cls} (C : Classes h cs) :
    ReadStats h cs ↔ h.totalCount = min h.counts.sum U64MAX
      ∧ h.lmax = (match lastNz h.counts 0 with
        | none => 0
        | some i => if h.lhi (h.lval i) = U64MAX - 1 ∧ h.unitMag ≠ 0 then U64MAX else h.lhi (h.lval i))
      ∧ h.lminNz = h.scanMin := by
  have hl := lastNz_spec h.counts 0
  have hcnt : ∀ i, (h.lcls i).count = h.counts.getD i 0 := fun _ => rfl
  have hlo : ∀ i, (h.lcls i).lo = h.lval i := fun _ => rfl
  have hhi : ∀ i, (h.lcls i).hi = h.lhi (h.lval i) := fun _ => rfl
  have all : ∀ (P : Cls → Prop), (∀ c ∈ cs, P c) ↔ ∀ i, i < h.counts.length → P (h.lcls i) := W.forall_classes C
  have ex : ∀ (P : Cls → Prop), (∃ c ∈ cs, P c) ↔ ∃ i, i < h.counts.length ∧ P (h.lcls i) := W.exists_classes C
  have e2 : ((∀ c ∈ cs, c.count = 0) ∧ h.max = .ok 0 ∨
      ∃ c ∈ cs, c.count ≠ 0 ∧ (∀ d ∈ cs, d.count ≠ 0 → d.lo ≤ c.lo) ∧
        h.max = .ok (if c.hi = U64MAX - 1 ∧ h.highestEquivalent 0 ≠ .ok 0 then U64MAX else c.hi)) ↔
      h.lmax = (match lastNz h.counts 0 with
        | none => 0
        | some i => if h.lhi (h.lval i) = U64MAX - 1 ∧ h.unitMag ≠ 0 then U64MAX else h.lhi (h.lval i)) := by
    rw [all, ex, W.max_eq]
    simp only [ne_eq, W.unit_one_iff, Except.ok.injEq, all (fun d => ¬ d.count = 0 → _), hcnt, hlo, hhi, lval_le_lval]
    cases hn : lastNz h.counts 0 with
    | none =>
      rw [hn] at hl
      simp only at hl ⊢
      constructor
      · rintro (⟨-, h1⟩ | ⟨i, -, h1, -⟩)
        · exact h1
        · exact absurd (hl i) h1
      · intro h1; exact Or.inl ⟨fun i _ => hl i, h1⟩
    | some j =>
      rw [hn] at hl
      simp only [Nat.sub_zero] at hl ⊢
      obtain ⟨-, h2, h3, h4⟩ := hl
      constructor
      · rintro (⟨h1, -⟩ | ⟨i, hi, h1, h5, h6⟩)
        · exact absurd (h1 j h2) h3
        · have a1 := h4 i h1
          have a2 := h5 j h2 h3
          have : i = j := by omega
          subst this; exact h6
      · intro h1
        exact Or.inr ⟨j, h2, h3, fun i _ hi => by have := h4 i hi; omega, h1⟩
  have hlen : (h.len = min (cs.map (·.count)).sum U64MAX) ↔ h.totalCount = min h.counts.sum U64MAX := by
    rw [W.sum_classes C]; rfl
  have hmin := W.minNz_exact_iff C
  constructor
  · intro E; exact ⟨hlen.mp E.len, e2.mp E.max, hmin.mp E.minNz⟩
  · rintro ⟨h1, h2, h3⟩; exact ⟨hlen.mpr h1, e2.mpr h2, hmin.mpr h3⟩

/-- C36: what the reader makes of the statistics, for every histogram. -/
theorem C36_read_stats {h : Hist T} (R : Reachable fp T h) {junk : Nat → UInt8} {bytes : List UInt8} {n : Nat}
    (e : serialize junk h = .ok (.ok (bytes, n))) (z : Zlib) (checks : Bool) (T' : CounterTy) {cs : List Cls}
    (C : Classes h cs) (hfit : ∀ c ∈ cs, c.count ≤ T'.max) :
    ∃ g, deserialize fp z T' checks bytes = .ok (.ok (g, [])) ∧ Classes g cs ∧ ReadStats g cs := by
  have W := R.wf
  obtain ⟨ts, rfl, -, h1, h2, h3, -⟩ := wire_of_ok W e
  have hf : ∀ c ∈ h.counts, c ≤ T'.max := by
    intro c hc
    rw [← W.counts_classes C] at hc
    obtain ⟨d, hd, rfl⟩ := List.mem_map.mp hc
    exact hfit d hd
  have d : deserialize fp z T' checks (wire h ts) = .ok (.ok (asRead T' h, [])) := by
    have d := deserialize_wire W z T' checks h1 h2 h3 hf []
    rw [List.append_nil] at d; exact d
  have Rg : Reachable fp T' _ := .deserialize z checks _ _ d
  have Cg : Classes (asRead T' h) cs := by
    rw [Rg.wf.classes_iff]
    exact W.classes_iff.mp C
  exact ⟨_, d, Cg, (Rg.wf.readStats_iff Cg).mpr ⟨rfl, decoded_lmax_eq Rg.wf, decoded_lminNz⟩⟩

/-- C36: the round trip compares equal exactly if the statistics are those the reader computes; `==` never panics and is
symmetric here. -/
theorem C36_eq_iff {h : Hist T} (R : Reachable fp T h) {junk : Nat → UInt8} {bytes : List UInt8} {n : Nat}
    (e : serialize junk h = .ok (.ok (bytes, n))) (z : Zlib) (checks : Bool) {cs : List Cls} (C : Classes h cs) :
    ∃ g b, deserialize fp z T checks bytes = .ok (.ok (g, [])) ∧ h.eq g = .ok b ∧ g.eq h = .ok b ∧
      (b = true ↔ ReadStats h cs) := by
  have W := R.wf
  obtain ⟨ts, rfl, -, h1, h2, h3, -⟩ := wire_of_ok W e
  have d : deserialize fp z T checks (wire h ts) = .ok (.ok (asRead T h, [])) := by
    have d := deserialize_wire W z T checks h1 h2 h3 W.cmax []
    rw [List.append_nil] at d; exact d
  have Rg : Reachable fp T _ := .deserialize z checks _ _ d
  have W' := Rg.wf
  obtain ⟨b1, f1, g1⟩ := W.eq_spec W'
  obtain ⟨b2, f2, g2⟩ := W'.eq_spec W
  have hm : (asRead T h).lmax = _ := decoded_lmax_eq W'
  have hn : (asRead T h).lminNz = _ := decoded_lminNz
  have k1 : b1 = true ↔ ReadStats h cs := by
    rw [g1, W.readStats_iff C, hm, hn]
    exact ⟨fun ⟨_, _, a, b, c, _⟩ => ⟨a, b, c⟩, fun ⟨a, b, c⟩ => ⟨rfl, rfl, a, b, c, List.prefix_rfl⟩⟩
  have k2 : b2 = true ↔ ReadStats h cs := by
    rw [g2, W.readStats_iff C, hm, hn]
    exact ⟨fun ⟨_, _, a, b, c, _⟩ => ⟨a.symm, b.symm, c.symm⟩,
      fun ⟨a, b, c⟩ => ⟨rfl, rfl, a.symm, b.symm, c.symm, List.prefix_rfl⟩⟩
  have hb : b2 = b1 := by
    rw [Bool.eq_iff_iff, k1, k2]
  exact ⟨_, b1, d, f1, hb ▸ f2, k1⟩

/-- the counterexamples to C36 have statistics other than those a reader computes -/
example : (∀ cs, Classes demoTop1 cs → ¬ ReadStats demoTop1 cs) ∧ (∀ cs, Classes demoU0 cs → ¬ ReadStats demoU0 cs) := by
  have R : Reachable Fp.ideal .u64 demoU0 :=
    reachable_recordSeq (l := [(0, 1)]) demoU_reachable (by decide) (r := .ok ()) (by decide +kernel)
  constructor
  · intro cs C S
    exact absurd ((demoTop1_reachable.wf.readStats_iff C).mp S).2.1 (by decide +kernel)
  · intro cs C S
    exact absurd ((R.wf.readStats_iff C).mp S).2.1 (by decide +kernel)

/-- a histogram to which the theorems apply, with statistics as a reader computes them -/
example : Reachable Fp.ideal .u8 demo3 ∧ Classes demo3 demo3Classes ∧ ReadStats demo3 demo3Classes ∧
    serialize (fun _ => 0) demo3 = .ok (.ok (wire demo3 [1, -2, 3, 200], 45)) :=
  ⟨demo3_reachable, demo3_classes, (demo3_reachable.wf.readStats_iff demo3_classes).mpr (by decide +kernel), by decide +kernel⟩

end Hdr
