import Verif.Props.SampleIter

/-!
# C84: the last item of `iter_quantiles`, for any number of samples
-/

namespace Hdr

variable {T : CounterTy} {fp : Fp} {lg : F64 → Nat}

/-- C84 (2), for any number of samples: the last item of `iter_quantiles` is for quantile 1 and shows the first sample up to which
the number of samples, as a binary64 number, is that of all samples: this is so of the samples from the one shown on (and those
equivalent to it), and of no other. -/
theorem C84_quantiles_last_exact {h : Hist T} (R : Reachable fp T h) {l : List (Nat × Nat)} (H : Contains h l)
    (h0 : 0 < numberAll l) (L : Log2Law lg) {t : Nat} (ht : 0 < t) (ht32 : t < 2 ^ 32) {fuel : Nat} {items : List IterValue}
    (hi : Hist.iterQuantiles lg h t fuel = .ok items) :
    ∃ it, items.getLast? = some it ∧ it.quantileIteratedTo = .fin 1 ∧ ShowsSample h l it ∧
      ∀ p ∈ l, p.2 ≠ 0 →
        (F64.ofNat (number l fun x => x ≤ p.1 ∨ Equiv h x p.1) = F64.ofNat (numberAll l) ↔
          it.valueIteratedTo ≤ p.1 ∨ Equiv h p.1 it.valueIteratedTo) := by
  have W := R.wf
  have C := W.contents
  have hlen : h.len = numberAll l := H.len
  have hU : h.len ≤ U64MAX := W.tot
  obtain ⟨it, h1, h2, hend⟩ := C84_quantiles_end R H h0 L ht ht32 hi
  rw [List.getLast?_eq_getElem?] at h1
  obtain ⟨c, hc, q, h3, h4⟩ := quantile_samples R H h0 L ht ht32 hi h1
  have hq : q = 1 := by
    have h5 := h3.quantileTo
    simp only [h2, F64.fin.injEq] at h5
    exact h5.symm
  subst hq
  have hval : it.valueIteratedTo = c.hi := h3.value
  refine ⟨it, by rw [List.getLast?_eq_getElem?]; exact h1, h2, H.shows W C hc hval h3.filled, ?_⟩
  obtain ⟨hlo, hhi, hidx, -, -⟩ := H.cls W C hc
  intro p hp hp0
  have hple := H.le W hp
  have hpl := H.lidx W hp
  rw [← H.upTo W C hple, hval, W.equiv_iff hple hhi, hidx]
  have hle : countUpTo h.contents p.1 ≤ numberAll l := by
    rw [H.upTo W C hple]; exact number_le_all _ _
  have hclass : ∃ j, j < h.counts.length ∧ c = h.lcls j := by
    obtain ⟨j, hj, rfl⟩ := (W.mem_classes C).mp hc
    exact ⟨j, hj, rfl⟩
  obtain ⟨j, hj, rfl⟩ := hclass
  have hjl : h.lidx (h.lcls j).lo = j := Lay.idx_val
  rw [h4] at hend
  rw [hjl]
  have hdm : h.lcls (h.lidx p.1) ∈ h.contents := (W.mem_classes C).mpr ⟨_, hpl, rfl⟩
  obtain ⟨dlo, dhi, didx, -, dcount⟩ := H.cls W C hdm
  have dl : h.lidx (h.lcls (h.lidx p.1)).lo = h.lidx p.1 := Lay.idx_val
  have dN : countUpTo h.contents (h.lcls (h.lidx p.1)).lo = countUpTo h.contents p.1 := by
    rw [W.countUpTo_eq C, W.countUpTo_eq C]
    unfold Hist.slotOf
    rw [dl]
  have dfill : (h.lcls (h.lidx p.1)).count ≠ 0 := by
    rw [dcount]
    intro hz
    have : p.2 ≤ number l fun x => Equiv h x (h.lcls (h.lidx p.1)).hi := by
      unfold number
      refine List.single_le_sum (by simp) _ (List.mem_map.mpr ⟨p, List.mem_filter.mpr ⟨hp, ?_⟩, rfl⟩)
      simp only [decide_eq_true_eq]
      rw [W.equiv_iff hple dhi, didx, dl]
    omega
  have hpos : 0 < countUpTo h.contents p.1 := by
    rw [← dN, H.upTo_hi W C hdm]
    rw [dcount] at dfill
    exact lt_of_lt_of_le (Nat.pos_of_ne_zero dfill) (number_le fun _ _ h => Or.inr h)
  have bits : ∀ n : ℕ, 0 < n → Bits53 (F64.rndQ (n : ℚ)) := by
    intro n hn
    have hq : (0 : ℚ) < n := by exact_mod_cast hn
    rw [F64.rndQ_pos hq]
    exact F64.rndPos_bits hq
  have hcle : countUpTo h.contents (h.lcls j).lo ≤ numberAll l := by
    rw [H.upTo W C hlo]; exact number_le_all _ _
  rw [F64.ofNat_fin (by omega), F64.ofNat_fin (by omega), F64.fin.injEq] at hend ⊢
  constructor
  · intro e
    by_contra hcon
    push Not at hcon
    have h5 : h.lidx p.1 < j := by
      have : h.lidx p.1 ≤ h.lidx (h.lcls j).hi := Lay.idx_mono hcon.1.le
      rw [hidx, hjl] at this
      omega
    have h6 := h3.first _ hdm dfill (Lay.val_lt_val h5)
    unfold fracUpTo at h6
    rw [dN, Nat.min_eq_left (by omega), hlen] at h6
    have ha : (1 : ℚ) ≤ F64.rndQ (countUpTo h.contents p.1 : ℕ) := F64.one_le_rndQ (by exact_mod_cast hpos)
    have h7 := (F64.one_le_quot (bits _ hpos) (bits _ h0) (by linarith) (F64.one_le_rndQ (by exact_mod_cast h0))).mpr e.ge
    exact absurd h6 (not_lt.mpr h7)
  · intro hor
    have h5 : j ≤ h.lidx p.1 := by
      rcases hor with h5 | h5
      · have : h.lidx (h.lcls j).hi ≤ h.lidx p.1 := Lay.idx_mono h5
        rw [hidx, hjl] at this
        exact this
      · omega
    have h6 : countUpTo h.contents (h.lcls j).lo ≤ countUpTo h.contents p.1 := by
      rw [W.countUpTo_eq C, W.countUpTo_eq C]
      unfold Hist.slotOf
      rw [hjl]
      exact List.Sublist.sum_le_sum (List.take_sublist_take_left (by omega)) (by simp)
    refine le_antisymm (F64.rndQ_mono (by exact_mod_cast hle)) ?_
    rw [← hend]
    exact F64.rndQ_mono (by exact_mod_cast h6)

/-- not the largest sample: up to 4 there are `2 ^ 60` samples of `2 ^ 60 + 1`, the same number in binary64 -/
example : Reachable Fp.ideal .u64 demoHuge ∧ Contains demoHuge [(4, 2 ^ 60), (8, 1)] ∧ 0 < numberAll [(4, 2 ^ 60), (8, 1)] ∧
    F64.ofNat (2 ^ 60) = F64.ofNat (2 ^ 60 + 1) :=
  ⟨demoHuge_reachable, demoHuge_holds, by decide, by decide +kernel⟩

end Hdr
