import Verif.Props.Merge

/-!
# Exact statistics: what the deserializer computes
-/

namespace Hdr

variable {T : CounterTy} {fp : Fp}

theorem WF.mem_classes {h : Hist T} (W : WF fp h) {cs : List Cls} (C : Classes h cs) {c : Cls} :
    c ∈ cs ↔ ∃ i, i < h.counts.length ∧ h.lcls i = c := by
  rw [W.classes_unique C, List.mem_map]
  simp only [List.mem_range]

theorem lval_le_lval {h : Hist T} {i j : Nat} : h.lval i ≤ h.lval j ↔ i ≤ j := by
  rw [show h.lval i ≤ h.lval j ↔ i ≤ h.lidx (h.lval j) from Lay.val_le_iff,
    show h.lidx (h.lval j) = j from Lay.idx_val]

theorem lval_ne_zero {h : Hist T} {i : Nat} : h.lval i ≠ 0 ↔ i ≠ 0 := by
  have h0 : h.lval 0 = 0 := by
    have e1 : h.lval (h.lidx 0) = h.llo 0 := Lay.val_idx
    have e2 : h.lidx 0 = 0 := Lay.idx_zero
    have e3 : h.llo 0 ≤ 0 := Lay.lo_le
    rw [e2] at e1
    omega
  constructor
  · intro h1 h2; rw [h2] at h1; exact h1 h0
  · intro h1 h2
    have : h.lval i ≤ h.lval 0 := by omega
    rw [lval_le_lval] at this
    omega

/-- exact statistics in terms of the array -/
theorem WF.exactStats_iff {h : Hist T} (W : WF fp h) {cs : List Cls} (C : Classes h cs) :
    ExactStats h cs ↔ h.totalCount = min h.counts.sum U64MAX
      ∧ h.lmax = (match lastNz h.counts 0 with | none => 0 | some i => h.lhi (h.lval i))
      ∧ h.lminNz = h.scanMin := by
  have hU : 0 < U64MAX := by decide
  have hl := lastNz_spec h.counts 0
  have hf := firstNz_spec h.counts 0
  have hcnt : ∀ i, (h.lcls i).count = h.counts.getD i 0 := fun _ => rfl
  have hlo : ∀ i, (h.lcls i).lo = h.lval i := fun _ => rfl
  have hhi : ∀ i, (h.lcls i).hi = h.lhi (h.lval i) := fun _ => rfl
  have hlen : ∀ i, h.counts.getD i 0 ≠ 0 → i < h.counts.length := by
    intro i hi; by_contra hc; exact hi (getD_ge (by omega))
  have hsum := W.sum_classes C
  have all : ∀ P : Cls → Prop, (∀ c ∈ cs, P c) ↔ ∀ i, i < h.counts.length → P (h.lcls i) := by
    intro P
    constructor
    · intro H i hi; exact H _ ((W.mem_classes C).mpr ⟨i, hi, rfl⟩)
    · intro H c hc
      obtain ⟨i, hi, rfl⟩ := (W.mem_classes C).mp hc
      exact H i hi
  have ex : ∀ P : Cls → Prop, (∃ c ∈ cs, P c) ↔ ∃ i, i < h.counts.length ∧ P (h.lcls i) := by
    intro P
    constructor
    · rintro ⟨c, hc, hp⟩
      obtain ⟨i, hi, rfl⟩ := (W.mem_classes C).mp hc
      exact ⟨i, hi, hp⟩
    · rintro ⟨i, hi, hp⟩
      exact ⟨_, (W.mem_classes C).mpr ⟨i, hi, rfl⟩, hp⟩
  have e1 : (h.len = min (cs.map (·.count)).sum U64MAX) ↔ h.totalCount = min h.counts.sum U64MAX := by
    rw [hsum]; rfl
  have e2 : ((∀ c ∈ cs, c.count = 0) ∧ h.max = .ok 0 ∨
      ∃ c ∈ cs, c.count ≠ 0 ∧ (∀ d ∈ cs, d.count ≠ 0 → d.lo ≤ c.lo) ∧ h.max = .ok c.hi) ↔
      h.lmax = (match lastNz h.counts 0 with | none => 0 | some i => h.lhi (h.lval i)) := by
    rw [all, ex, W.max_eq]
    simp only [Except.ok.injEq, all (fun d => d.count ≠ 0 → _), hcnt, hlo, hhi, lval_le_lval]
    cases hn : lastNz h.counts 0 with
    | none =>
      rw [hn] at hl
      simp only at hl ⊢
      constructor
      · rintro (⟨-, h1⟩ | ⟨i, -, h1, -⟩)
        · exact h1
        · exact absurd (hl i) h1
      · intro h1; exact Or.inl ⟨fun i _ => hl i, h1⟩
    | some j =>
      rw [hn] at hl
      simp only [Nat.sub_zero, Nat.zero_add] at hl ⊢
      obtain ⟨-, h2, h3, h4⟩ := hl
      constructor
      · rintro (⟨h1, -⟩ | ⟨i, hi, h1, h5, h6⟩)
        · exact absurd (h1 j h2) h3
        · have a1 := h4 i h1
          have a2 := h5 j h2 h3
          have : i = j := by omega
          subst this; exact h6
      · intro h1
        exact Or.inr ⟨j, h2, h3, fun i _ hi => h4 i hi, h1⟩
  have e3 : ((∀ c ∈ cs, c.lo ≠ 0 → c.count = 0) ∧ h.minNz = .ok U64MAX ∨
      ∃ c ∈ cs, c.lo ≠ 0 ∧ c.count ≠ 0 ∧ (∀ d ∈ cs, d.lo ≠ 0 → d.count ≠ 0 → c.lo ≤ d.lo) ∧ h.minNz = .ok c.lo) ↔
      h.lminNz = h.scanMin := by
    rw [all, ex, W.minNz_eq]
    unfold Hist.scanMin
    simp only [Except.ok.injEq, all (fun d => d.lo ≠ 0 → d.count ≠ 0 → _), hcnt, hlo, lval_le_lval, lval_ne_zero]
    cases hn : firstNz h.counts 0 with
    | none =>
      rw [hn] at hf
      simp only [Nat.zero_add] at hf ⊢
      constructor
      · rintro (⟨-, h1⟩ | ⟨i, -, h0, h1, -⟩)
        · exact h1
        · exact absurd (hf i h0) h1
      · intro h1; exact Or.inl ⟨fun i _ => hf i, h1⟩
    | some j =>
      rw [hn] at hf
      simp only [Nat.sub_zero, Nat.zero_add] at hf ⊢
      obtain ⟨-, h0, h2, h3, h4⟩ := hf
      constructor
      · rintro (⟨h1, -⟩ | ⟨i, hi, hi0, h1, h5, h6⟩)
        · exact absurd (h1 j h2 h0) h3
        · have a1 := h4 i hi0 h1
          have a2 := h5 j h2 h0 h3
          have : i = j := by omega
          subst this; exact h6
      · intro h1
        exact Or.inr ⟨j, h2, h0, h3, fun i _ hi0 hi => h4 i hi0 hi, h1⟩
  constructor
  · intro E; exact ⟨e1.mp E.len, e2.mp E.max, e3.mp E.minNz⟩
  · rintro ⟨h1, h2, h3⟩; exact ⟨e1.mpr h1, e2.mpr h2, e3.mpr h3⟩

/-- `max()` of what the deserializer returns -/
theorem decoded_lmax {g : Hist T} (W : WF fp (V2.decoded g)) :
    (V2.decoded g).lmax = (match lastNz g.counts 0 with | none => 0 | some i => g.lhi (g.lval i)) ∨
      ((V2.decoded g).lmax = U64MAX ∧ g.unitMag ≠ 0 ∧
        ∃ i, lastNz g.counts 0 = some i ∧ g.lhi (g.lval i) = U64MAX - 1) := by
  have L := W.toLayoutOK
  have hmv : (V2.decoded g).maxValue = V2.decMax g := rfl
  have hlast := lastNz_spec g.counts 0
  cases hn : lastNz g.counts 0 with
  | none =>
    left
    unfold Hist.lmax
    rw [hmv]; unfold V2.decMax; rw [hn]; rfl
  | some i =>
    rw [hn] at hlast
    simp only [Nat.sub_zero] at hlast
    have hi : i < (V2.decoded g).counts.length := hlast.2.1
    have hv := W.lval_le' hi
    have hv' : g.lval i ≤ U64MAX := hv
    have hmv2 : (V2.decoded g).maxValue = g.lhi (g.lval i) ||| g.unitMagMask := by
      rw [hmv]; unfold V2.decMax; rw [hn]
    have hidx : (V2.decoded g).lidx (V2.decoded g).maxValue = i := by
      rw [hmv2]
      have e1 : (V2.decoded g).lidx (g.lhi (g.lval i) ||| g.unitMagMask) = (V2.decoded g).lidx (g.lhi (g.lval i)) :=
        lidx_or_mask L _
      rw [e1]
      have e2 : (V2.decoded g).lidx ((V2.decoded g).lhi ((V2.decoded g).lval i)) = (V2.decoded g).lidx ((V2.decoded g).lval i) :=
        lidx_lhi hv
      have e3 : (V2.decoded g).lidx ((V2.decoded g).lval i) = i := Lay.idx_val
      rw [e3] at e2
      exact e2
    have hlv : (V2.decoded g).lidx (g.lval i) = i := Lay.idx_val
    by_cases h0 : (V2.decoded g).maxValue = 0
    · left
      have h1 : g.lhi (g.lval i) = 0 := by
        rw [hmv2] at h0; exact (Nat.or_eq_zero_iff.mp h0).1
      unfold Hist.lmax; rw [if_pos h0]; exact h1.symm
    · by_cases htop : (V2.decoded g).maxValue = U64MAX
      · by_cases hq : g.lhi (g.lval i) = U64MAX
        · left
          unfold Hist.lmax Hist.lhi
          rw [if_neg h0, if_pos htop]
          exact hq.symm
        · right
          refine ⟨by unfold Hist.lmax Hist.lhi; rw [if_neg h0, if_pos htop], ?_, i, rfl, ?_⟩
          · intro hum
            have hm0 : g.unitMagMask = 0 := by
              have := L.ummask
              change g.unitMagMask = _ at this
              rw [this]
              change 2 ^ g.unitMag - 1 = 0
              rw [hum]; rfl
            rw [hmv2, hm0, Nat.or_zero] at htop
            exact hq htop
          · have hne : g.lval i ≠ U64MAX := by
              intro hc
              apply hq
              unfold Hist.lhi; rw [if_pos hc]
            have hcov := hidx
            rw [htop] at hcov
            have hsame : (V2.decoded g).lidx U64MAX = (V2.decoded g).lidx (g.lval i) := by rw [hlv, hcov]
            have a1 : U64MAX < (V2.decoded g).llo U64MAX + (V2.decoded g).lwid U64MAX := Lay.lt_lo_add
            rw [lwid_eq_of_lidx hsame,
              show (V2.decoded g).llo U64MAX = (V2.decoded g).llo (g.lval i) from Lay.lo_eq_iff.mpr hsame] at a1
            change U64MAX < g.llo (g.lval i) + g.lwid (g.lval i) at a1
            unfold Hist.lhi
            rw [if_neg hne]
            omega
      · left
        have hne : g.lval i ≠ U64MAX := by
          intro hc
          apply htop
          rw [hmv2]
          have : g.lhi (g.lval i) = U64MAX := by unfold Hist.lhi; rw [if_pos hc]
          have h5 := W.maxle
          rw [hmv2, this] at h5
          rw [this]
          exact Nat.le_antisymm h5 Nat.left_le_or
        unfold Hist.lmax
        rw [if_neg h0]
        exact lhi_eq_of_lidx (by rw [hidx, hlv]) htop hne

theorem decoded_lminNz {g : Hist T} : (V2.decoded g).lminNz = g.scanMin := by
  have hm : (V2.decoded g).minNonZero = g.scanMin := rfl
  unfold Hist.lminNz
  rw [hm]
  split
  · rename_i h; exact h.symm
  · rename_i h
    unfold Hist.scanMin at *
    cases hf : firstNz g.counts 0 with
    | none => rw [hf] at h; exact absurd rfl h
    | some i => exact Lay.lo_val

end Hdr
