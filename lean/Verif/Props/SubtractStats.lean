import Verif.Props.Merge
import Verif.Proofs.Exact
import Verif.Props.Samples
import Verif.Props.SyncTotal

/-!
# C114: the statistics after `subtract`, and the difference of two snapshots
-/

namespace Hdr

variable {T : CounterTy} {fp : Fp}

/-! ### when the statistics are not computed anew -/

private theorem loop_quiet {s : Hist T} (Ws : WF fp s) (a b : Nat) : ∀ (is : List Nat) (h h' : Hist T) (r : Bool),
    (∀ i ∈ is, i < s.counts.length) → (∀ i ∈ is, s.counts.getD i 0 ≠ 0 → a < s.lval i ∧ s.lval i < b) →
    Hist.subtractLoop s a b is h false = .ok (h', .ok r) → r = false ∧ h'.minNonZero = h.minNonZero := by
  intro is
  induction is with
  | nil => intro h h' r _ _ e; cases e; exact ⟨rfl, rfl⟩
  | cons i is ih =>
    intro h h' r hi hq e
    have hi' := hi i (by simp)
    have ih' := fun h h' r => ih h h' r (fun k hk => hi k (by simp [hk])) fun k hk => hq k (by simp [hk])
    unfold Hist.subtractLoop at e
    rw [WF.countAtIndex hi', expectM_some, M.ok_bind] at e
    by_cases hc : s.counts.getD i 0 = 0
    · rw [if_neg (by rw [hc]; simp)] at e
      exact ih' _ _ _ e
    · have q := hq i (by simp) hc
      rw [if_pos hc, Ws.valueFor hi', M.ok_bind] at e
      cases hm : h.mutAt (s.lval i) with
      | error x => rw [hm] at e; cases e
      | ok j =>
        rw [hm, M.ok_bind] at e
        cases j with
        | none => cases e
        | some j =>
          dsimp only at e
          cases hs : checkedSub (h.counts.getD j 0) (s.counts.getD i 0) with
          | none => rw [hs] at e; cases e
          | some c =>
            rw [hs] at e
            dsimp only at e
            have hd : (false || decide (s.lval i ≤ a) || decide (b ≤ s.lval i)) = false := by
              simp; omega
            rw [hd, if_neg (by simp)] at e
            cases ht : checkedSub h.totalCount (s.counts.getD i 0) with
            | none => rw [ht] at e; cases e
            | some t =>
              rw [ht, expectM_some, M.ok_bind] at e
              have k := ih' _ _ _ e
              exact ⟨k.1, k.2⟩

private theorem WF.subtract_quiet {h s h' : Hist T} (W : WF fp h) (Ws : WF fp s) (e : h.subtract s = .ok (h', .ok ()))
    (h0 : s.totalCount ≠ 0) (ht : h.totalCount ≠ U64MAX) {mn : Nat} (hmn : h.min = .ok mn)
    (hq : ∀ i, s.counts.getD i 0 ≠ 0 → h.lhi mn < s.lval i ∧ s.lval i < h.llo h.lmax) :
    h'.minNonZero = h.minNonZero := by
  have hpos := W.len_pos
  have L := W.toLayoutOK
  have hlm : s.lmax ≤ U64MAX := lmax_le
  have hmnle : mn ≤ U64MAX := by
    rw [W.min_eq] at hmn
    cases hmn
    split
    · decide
    · exact lminNz_le W.minle
  unfold Hist.subtract Hist.isEmpty at e
  rw [if_neg (by simpa using h0), W.lastIndex, M.ok_bind, W.valueFor (by omega), M.ok_bind,
    highestEquivalent_eq L (W.lval_le (by omega)), M.ok_bind, Ws.max_eq, M.ok_bind,
    highestEquivalent_eq L hlm, M.ok_bind] at e
  split at e
  · cases e
  rw [hmn, M.ok_bind, highestEquivalent_eq L hmnle, M.ok_bind, W.max_eq, M.ok_bind,
    lowestEquivalent_eq L lmax_le, M.ok_bind] at e
  have hr : (h.totalCount == U64MAX) = false := by simpa using ht
  rw [hr] at e
  unfold Hist.distinctValues at e
  cases hl : Hist.subtractLoop s (h.lhi mn) (h.llo h.lmax) (List.range s.counts.length) h false with
  | error x => rw [hl] at e; cases e
  | ok p =>
    obtain ⟨g, r⟩ := p
    rw [hl, M.ok_bind] at e
    cases r with
    | error x => cases e
    | ok r =>
      obtain ⟨rfl, hg⟩ := loop_quiet Ws _ _ _ _ _ _ (fun i hi => List.mem_range.mp hi) (fun i _ => hq i) hl
      dsimp only at e
      rw [if_neg (by simp)] at e
      cases e
      exact hg

private theorem last_keep {l l' : List Nat} (hle : ∀ j, l'.getD j 0 ≤ l.getD j 0) {i : Nat} (e : lastNz l 0 = some i)
    (hk : l'.getD i 0 ≠ 0) : lastNz l' 0 = some i := by
  have h1 := lastNz_spec l 0
  have h2 := lastNz_spec l' 0
  rw [e] at h1
  cases e' : lastNz l' 0 with
  | none => rw [e'] at h2; exact absurd (h2 i) hk
  | some j =>
    rw [e'] at h2
    obtain ⟨-, -, -, h1⟩ := h1
    obtain ⟨-, -, h3, h2⟩ := h2
    rw [Nat.sub_zero] at h3
    have a := h2 i hk
    have b := h1 j (by have := hle j; omega)
    congr 1
    omega

private theorem first_keep {l l' : List Nat} (hle : ∀ j, l'.getD j 0 ≤ l.getD j 0) {i : Nat} (e : firstNz l 0 = some i)
    (hk : l'.getD i 0 ≠ 0) : firstNz l' 0 = some i := by
  have h1 := firstNz_spec l 0
  have h2 := firstNz_spec l' 0
  rw [e] at h1
  obtain ⟨-, hi0, -, -, h1⟩ := h1
  cases e' : firstNz l' 0 with
  | none => rw [e'] at h2; exact absurd (h2 i (by omega)) hk
  | some j =>
    rw [e'] at h2
    obtain ⟨-, hj0, -, h3, h2⟩ := h2
    rw [Nat.sub_zero] at h3
    have a := h2 i (by omega) hk
    have b := h1 j (by omega) (by have := hle j; omega)
    congr 1
    omega

/-- a rescan makes the statistics exact, if samples remain, none in the class of the largest of all values -/
private theorem WF.restated_exact {h g : Hist T} (W : WF fp g) (hg : g = h.restated)
    {i : Nat} (hi : lastNz g.counts 0 = some i) (ht : i ≠ g.lidx U64MAX) (hl : g.lval i ≤ U64MAX) :
    g.lmax = g.lhi (g.lval i) ∧ g.lminNz = g.scanMin := by
  have L := W.toLayoutOK
  have hc : g.counts = h.counts := by rw [hg]; rfl
  have hm : g.maxValue = g.lhi (g.lval i) ||| g.unitMagMask := by
    have e1 : g.maxValue = h.scanMax := by rw [hg]; rfl
    rw [e1]
    unfold Hist.scanMax
    rw [← hc, hi]
    rw [hg]; rfl
  have hn : g.minNonZero = g.scanMin := by
    have e1 : g.minNonZero = h.scanMin := by rw [hg]; rfl
    rw [e1, hg]; rfl
  have hx : g.lidx (g.lval i) = i := Lay.idx_val
  constructor
  · unfold Hist.lmax
    rw [hm]
    split
    · rename_i h0
      have : g.lhi (g.lval i) ≤ g.lhi (g.lval i) ||| g.unitMagMask := Nat.left_le_or
      omega
    · refine lhi_eq_of_lidx ?_ ?_ ?_
      · rw [lidx_or_mask L, lidx_lhi hl]
      · intro e
        have : g.lidx (g.lhi (g.lval i) ||| g.unitMagMask) = i := by rw [lidx_or_mask L, lidx_lhi hl, hx]
        rw [e] at this
        exact ht this.symm
      · intro e; rw [e] at hx; exact ht hx.symm
  · unfold Hist.lminNz
    rw [hn]
    split
    · rename_i h0; exact h0.symm
    · unfold Hist.scanMin at *
      cases hf : firstNz g.counts 0 with
      | none => rename_i h0; rw [hf] at h0; exact absurd rfl h0
      | some j => exact Lay.lo_val

private theorem lhi_lt_iff {h : Hist T} {m v : Nat} (hm : m ≤ U64MAX) (hv : v < U64MAX) :
    h.lhi m < v ↔ h.lidx m < h.lidx v := by
  constructor
  · intro a
    have b : h.lidx (h.lhi m) ≤ h.lidx v := Lay.idx_mono a.le
    rw [lidx_lhi hm] at b
    refine lt_of_le_of_ne b fun c => ?_
    have d := (Lay.idx_eq_iff.mp c.symm).2
    unfold Hist.lhi Hist.llo Hist.lwid at a
    rw [Nat.min_def] at a
    split at a
    · omega
    · split at a <;> omega
  · intro a
    by_contra c
    have b : h.lidx v ≤ h.lidx (h.lhi m) := Lay.idx_mono (by omega)
    rw [lidx_lhi hm] at b
    omega

private theorem lt_llo_iff {h : Hist T} {m v : Nat} : v < h.llo m ↔ h.lidx v < h.lidx m := by
  unfold Hist.llo Hist.lidx
  rw [← Lay.val_idx]
  exact Lay.lt_val_iff

private theorem sum_le_of_getD : ∀ {l l' : List Nat}, (∀ j, l'.getD j 0 ≤ l.getD j 0) → l'.length = l.length →
    l'.sum ≤ l.sum
  | [], [], _, _ => le_refl _
  | [], _ :: _, _, e => by simp at e
  | _ :: _, [], _, _ => Nat.zero_le _
  | a :: l, b :: l', h, e => by
    have h0 := h 0
    have := sum_le_of_getD (l := l) (l' := l') (fun j => by have := h (j + 1); simpa using this) (by simpa using e)
    simp only [List.getD_cons_zero, List.sum_cons] at *
    omega

private theorem moved_ne {h s : Hist T} {i : Nat} (hi : s.counts.getD i 0 ≠ 0) :
    moved h s (List.range s.counts.length) (h.lidx (s.lval i)) ≠ 0 := by
  have hl : i < s.counts.length := by by_contra hc; exact hi (getD_ge (by omega))
  unfold moved
  intro e
  have := List.sum_eq_zero_iff.mp e (s.counts.getD i 0) (List.mem_map.mpr ⟨i, List.mem_range.mpr hl, by simp⟩)
  exact hi this

/-- C114 (partial: the unrestricted claim is refuted below).  `h` has exact statistics, the largest below the class
of the largest of all values, and some but not all of its samples are subtracted.  Then the statistics of the
difference are exact in exactly these cases: a sample equivalent to `min()` or to `max()` was taken away, or the total
was the largest one, or a sample equivalent to `min_nz()` is left.  In every other case only `min_nz()` is wrong: it
is what it was before. -/
theorem C114_subtract_partial {h s h' : Hist T} (R : Reachable fp T h) (Rs : Reachable fp T s) {cs ss cs' : List Cls}
    (C : Classes h cs) (Cs : Classes s ss) (C' : Classes h' cs') (X : ExactStats h cs) {mn mz mx : Nat}
    (hmn : h.min = .ok mn) (hmz : h.minNz = .ok mz) (hmx : h.max = .ok mx) (htop : ¬ Equiv h mx U64MAX)
    (e : h.subtract s = .ok (h', .ok ())) (hs : ∃ c ∈ ss, c.count ≠ 0) (hne : ∃ c ∈ cs', c.count ≠ 0) :
    (ExactStats h' cs' ↔ h.len = U64MAX ∨ (∃ c ∈ ss, c.count ≠ 0 ∧ (Equiv h c.lo mn ∨ Equiv h c.lo mx)) ∨
      ∃ n, HasCount h' mz n ∧ n ≠ 0) ∧
    (¬ ExactStats h' cs' → h'.len = (cs'.map (·.count)).sum ∧ h'.min = .ok mn ∧ h'.max = .ok mx ∧
      h'.minNz = .ok mz ∧ HasCount h' mz 0) := by
  have W := R.wf
  have Ws := Rs.wf
  obtain ⟨h1, r, e1, W', hr⟩ := W.subtract_spec Ws
  rw [e1] at e; cases e
  obtain ⟨c0, hc0, hc0n⟩ := hs
  obtain ⟨k0, hk0, rfl⟩ := (Ws.mem_classes Cs).mp hc0
  replace hc0n : s.counts.getD k0 0 ≠ 0 := hc0n
  rcases hr with ⟨h0, -⟩ | ⟨h0, -, hln, hcnt, hcfg, htot⟩
  · exact absurd (Ws.getD_zero_of_empty h0 k0) hc0n
  have hidx : ∀ v, h'.lidx v = h.lidx v := fun v => by rw [hcfg]
  have hval : ∀ v, h'.lval v = h.lval v := fun v => by rw [hcfg]
  have hhi : ∀ v, h'.lhi v = h.lhi v := fun v => by rw [hcfg]; rfl
  have hle : ∀ j, h'.counts.getD j 0 ≤ h.counts.getD j 0 := fun j => by have := hcnt j; omega
  rw [W.max_eq] at hmx; cases hmx
  rw [W.minNz_eq] at hmz; cases hmz
  have hmzle : h.lminNz ≤ U64MAX := lminNz_le W.minle
  have hmnle : mn ≤ U64MAX := by
    have := hmn
    rw [W.min_eq] at this
    cases this
    split
    · decide
    · exact hmzle
  rw [W.equiv_iff lmax_le (le_refl _)] at htop
  have X' := (W.exactStats_iff C).mp X
  -- the largest class
  obtain ⟨c1, hc1, hc1n⟩ := hne
  obtain ⟨k1, hk1, rfl⟩ := (W'.mem_classes C').mp hc1
  replace hc1n : h'.counts.getD k1 0 ≠ 0 := hc1n
  have hl1 := lastNz_spec h.counts 0
  have hl2 := lastNz_spec h'.counts 0
  cases hi : lastNz h.counts 0 with
  | none => rw [hi] at hl1; have := hl1 k1; have := hle k1; omega
  | some i =>
  cases hi' : lastNz h'.counts 0 with
  | none => rw [hi'] at hl2; exact absurd (hl2 k1) hc1n
  | some i' =>
  rw [hi] at hl1
  rw [hi'] at hl2
  obtain ⟨-, hil, hin, hi2⟩ := hl1
  obtain ⟨-, hil', hin', hi2'⟩ := hl2
  rw [Nat.sub_zero] at hil hin hil' hin'
  have hii : i' ≤ i := by have := hi2 i' (by have := hle i'; omega); omega
  have hmx : h.lmax = h.lhi (h.lval i) := by have := X'.2.1; rw [hi] at this; exact this
  have hvle : h.lval i ≤ U64MAX := W.lval_le hil
  have hxi : h.lidx h.lmax = i := by rw [hmx, lidx_lhi hvle]; exact Lay.idx_val
  have hlt : i < h.lidx U64MAX := by
    have : h.lidx h.lmax ≤ h.lidx U64MAX := Lay.idx_mono lmax_le
    omega
  -- what is subtracted was there
  have hthere : ∀ k, s.counts.getD k 0 ≠ 0 → h.counts.getD (h.lidx (s.lval k)) 0 ≠ 0 ∧ h.lidx (s.lval k) ≤ i ∧
      s.lval k < U64MAX := by
    intro k hk
    have hkl : k < s.counts.length := by by_contra hc; exact hk (getD_ge (by omega))
    have a := moved_ne (h := h) hk
    have b := hcnt (h.lidx (s.lval k))
    have c : h.counts.getD (h.lidx (s.lval k)) 0 ≠ 0 := by omega
    have := hi2 _ c
    refine ⟨c, by omega, lt_of_le_of_ne (Ws.lval_le hkl) fun he => ?_⟩
    rw [he] at this
    omega
  -- the smallest class
  have hmin : ∀ k, h.counts.getD k 0 ≠ 0 → h.lidx mn ≤ k := by
    intro k hk
    have := hmn
    rw [W.min_eq] at this
    cases this
    split
    · have : h.lidx 0 = 0 := Lay.idx_zero
      omega
    · rename_i hz
      have hf := firstNz_spec h.counts 0
      rw [X'.2.2]
      unfold Hist.scanMin
      have hk0 : k ≠ 0 := by rintro rfl; exact hz (.inr hk)
      cases hj : firstNz h.counts 0 with
      | none => rw [hj] at hf; exact absurd (hf k (by omega)) hk
      | some j =>
        rw [hj] at hf
        have := hf.2.2.2.2 k (by omega) hk
        have hx : h.lidx (h.lval j) = j := Lay.idx_val
        simp only
        omega
  have hsame : ∀ k, (∀ m, s.counts.getD m 0 ≠ 0 → h.lidx (s.lval m) ≠ k) → h'.counts.getD k 0 = h.counts.getD k 0 := by
    intro k hk
    have hz : moved h s (List.range s.counts.length) k = 0 := by
      by_contra hc
      refine hc ?_
      unfold moved
      apply List.sum_eq_zero
      intro x hx
      rw [List.mem_map] at hx
      obtain ⟨m, -, rfl⟩ := hx
      by_cases hm : s.counts.getD m 0 = 0
      · rw [hm, ite_self]
      · rw [if_neg (hk m hm)]
    have := hcnt k
    omega
  have hR : (∃ c ∈ ss, c.count ≠ 0 ∧ (Equiv h c.lo mn ∨ Equiv h c.lo h.lmax)) ↔
      ∃ k, s.counts.getD k 0 ≠ 0 ∧ (h.lidx (s.lval k) = h.lidx mn ∨ h.lidx (s.lval k) = i) := by
    constructor
    · rintro ⟨c, hc, hcn, hq⟩
      obtain ⟨k, hk, rfl⟩ := (Ws.mem_classes Cs).mp hc
      have hv : s.lval k ≤ U64MAX := Ws.lval_le hk
      rw [W.equiv_iff (v := (s.lcls k).lo) hv hmnle, W.equiv_iff (v := (s.lcls k).lo) hv lmax_le, hxi] at hq
      exact ⟨k, hcn, hq⟩
    · rintro ⟨k, hcn, hq⟩
      have hk : k < s.counts.length := by by_contra hc; exact hcn (getD_ge (by omega))
      have hv : s.lval k ≤ U64MAX := Ws.lval_le hk
      refine ⟨s.lcls k, (Ws.mem_classes Cs).mpr ⟨k, hk, rfl⟩, hcn, ?_⟩
      rw [W.equiv_iff (v := (s.lcls k).lo) hv hmnle, W.equiv_iff (v := (s.lcls k).lo) hv lmax_le, hxi]
      exact hq
  have hN : (∃ n, HasCount h' h.lminNz n ∧ n ≠ 0) ↔ h'.counts.getD (h.lidx h.lminNz) 0 ≠ 0 := by
    simp only [W'.hasCount_iff hmzle, hidx]
    simp
  have hlen : h.len = h.totalCount := rfl
  rw [hR, hN, hlen, W'.exactStats_iff C', hi']
  clear hR hN
  dsimp only
  rw [hval, hhi]
  have hA : ∀ {g : Hist T}, h' = g.restated → h'.lmax = h'.lhi (h'.lval i') ∧ h'.lminNz = h'.scanMin := fun hg =>
    W'.restated_exact hg hi' (by rw [hidx]; omega) (W'.lval_le hil')
  rw [hhi, hval] at hA
  by_cases hQ : h.totalCount = U64MAX ∨ ∃ k, s.counts.getD k 0 ≠ 0 ∧ (h.lidx (s.lval k) = h.lidx mn ∨ h.lidx (s.lval k) = i)
  · rcases htot with ⟨t, hg⟩ | ⟨-, -, t, hb⟩
    · have := hA hg
      exact ⟨⟨fun _ => hQ.elim .inl fun q => .inr (.inl q), fun _ => ⟨t, this⟩⟩, fun q => absurd ⟨t, this⟩ q⟩
    · exfalso
      rcases hQ with q | ⟨k, hk, q⟩
      · exact t q
      · have b := hb k hk
        have b2 := (lhi_lt_iff hmnle (hthere k hk).2.2).mp (b.2 mn hmn)
        have b1 := lt_llo_iff.mp b.1
        omega
  · obtain ⟨q1, q2⟩ := not_or.mp hQ
    have hq : ∀ k, s.counts.getD k 0 ≠ 0 → h.lidx mn < h.lidx (s.lval k) ∧ h.lidx (s.lval k) < i := by
      intro k hk
      obtain ⟨a1, a2, -⟩ := hthere k hk
      have a3 := hmin _ a1
      constructor
      · exact lt_of_le_of_ne a3 fun he => q2 ⟨k, hk, .inl he.symm⟩
      · exact lt_of_le_of_ne a2 fun he => q2 ⟨k, hk, .inr he⟩
    clear q2 hQ
    have hquiet := W.subtract_quiet Ws e1 h0 q1 hmn fun k hk => by
      obtain ⟨a, b⟩ := hq k hk
      exact ⟨(lhi_lt_iff hmnle (hthere k hk).2.2).mpr a, lt_llo_iff.mpr (by omega)⟩
    have hmz : h'.lminNz = h.lminNz := by
      unfold Hist.lminNz
      rw [hquiet, hcfg]
    have hki : h'.counts.getD i 0 = h.counts.getD i 0 := hsame i fun m hm => by have := hq m hm; omega
    have hkn : h'.counts.getD (h.lidx mn) 0 = h.counts.getD (h.lidx mn) 0 := hsame _ fun m hm => (hq m hm).1.ne'
    have hii' : i' = i := by
      have := last_keep hle hi (by omega)
      rw [hi'] at this
      exact Option.some.inj this
    subst hii'
    have htl : h'.totalCount = min h'.counts.sum U64MAX := by
      rcases htot with ⟨t, -⟩ | ⟨-, t, -, -⟩
      · exact t
      · have := X'.1
        have := W'.tot
        omega
    have hml : h'.lmax = h.lmax := by
      rcases htot with ⟨-, t⟩ | ⟨t, -, -⟩
      · rw [(hA t).1, hmx]
      · rw [t]; rfl
    cases hj : firstNz h.counts 0 with
    | none =>
      exfalso
      have hf := firstNz_spec h.counts 0
      rw [hj] at hf
      have a := hq k0 hc0n
      exact (hthere k0 hc0n).1 (hf _ (by omega))
    | some j =>
    have hsm : h.lminNz = h.lval j := by rw [X'.2.2]; unfold Hist.scanMin; rw [hj]
    have hxj : h.lidx h.lminNz = j := by rw [hsm]; exact Lay.idx_val
    have hf := firstNz_spec h.counts 0
    rw [hj] at hf
    obtain ⟨-, hj0, hjl, hjn, hjm⟩ := hf
    rw [Nat.sub_zero] at hjl hjn
    have hji : j ≤ i' := by have := hi2 j hjn; omega
    have hS : h.lminNz = h'.scanMin ↔ h'.counts.getD j 0 ≠ 0 := by
      constructor
      · intro he
        unfold Hist.scanMin at he
        have hf' := firstNz_spec h'.counts 0
        cases hj' : firstNz h'.counts 0 with
        | none =>
          rw [hj'] at he
          dsimp only at he
          rw [he] at hxj
          omega
        | some j' =>
          rw [hj'] at he hf'
          dsimp only at he
          rw [hval] at he
          have : h.lidx (h.lval j') = j' := Lay.idx_val
          rw [← he, hxj] at this
          subst this
          exact hf'.2.2.2.1
      · intro hn
        unfold Hist.scanMin
        rw [first_keep hle hj hn]
        dsimp only
        rw [hval, hsm]
    rw [hxj, hmz, hml, hS]
    refine ⟨⟨fun a => .inr (.inr a.2.2), fun a => ?_⟩, fun a => ?_⟩
    · rcases a with a | a | a
      · exact absurd a q1
      · obtain ⟨k, hk, q⟩ := a
        have := hq k hk
        omega
      · exact ⟨htl, hmx, a⟩
    · have hz : h'.counts.getD j 0 = 0 := by
        by_contra hc
        exact a ⟨htl, hmx, hc⟩
      have ht0 : h.totalCount ≠ 0 := fun h0 => hin (W.getD_zero_of_empty h0 i')
      have ht0' : h'.totalCount ≠ 0 := fun h0 => hin' (W'.getD_zero_of_empty h0 i')
      rw [W'.max_eq, W'.minNz_eq, hmz, hml, W'.hasCount_iff hmzle, hidx, hxj, hz, W'.min_eq, hmz]
      refine ⟨?_, ?_, rfl, rfl, rfl⟩
      · have e2 : (cs'.map (·.count)).sum = h'.counts.sum := W'.sum_classes C'
        have e3 : h'.len = h'.totalCount := rfl
        have e4 := X'.1
        have e5 := W'.tot
        have e6 : h'.counts.sum ≤ h.counts.sum := sum_le_of_getD hle hln
        omega
      · have hmn' := hmn
        rw [W.min_eq] at hmn'
        have c0 : h.counts.getD 0 0 ≠ 0 := by
          intro c0
          rw [if_neg (fun q => q.elim ht0 fun q => q c0)] at hmn'
          cases hmn'
          rw [hxj] at hkn
          omega
        rw [if_pos (.inr c0)] at hmn'
        cases hmn'
        have : h.lidx 0 = 0 := Lay.idx_zero
        rw [this] at hkn
        rw [if_pos (.inr (by omega))]

/-- C114 (the unrestricted claim is false): take `{0, 9}`, add `{5}` and subtract it again.  All counts are as before,
but `min_nz()` still tells the class of 5, where nothing is left, and the result is not equal to the histogram one
started from. -/
theorem C114_refuted :
    ∃ a b c d : Hist .u8, recordSeq [(0, 1), (9, 1)] demo = .ok (a, .ok ()) ∧ recordSeq [(5, 1)] demo = .ok (b, .ok ()) ∧
      a.add b = .ok (c, .ok ()) ∧ c.subtract b = .ok (d, .ok ()) ∧ a.minNz = .ok 8 ∧ d.minNz = .ok 4 ∧
      d.countAt 4 = .ok 0 ∧ d.contents.map (·.count) = a.contents.map (·.count) ∧ d.len = a.len ∧ d.eq a = .ok false := by
  have h : (match recordSeq [(0, 1), (9, 1)] demo, recordSeq [(5, 1)] demo with
    | .ok (a, .ok ()), .ok (b, .ok ()) => (match a.add b with
      | .ok (c, .ok ()) => (match c.subtract b with
        | .ok (d, .ok ()) => decide (a.minNz = .ok 8 ∧ d.minNz = .ok 4 ∧
            d.countAt 4 = .ok 0 ∧ d.contents.map (·.count) = a.contents.map (·.count) ∧ d.len = a.len ∧ d.eq a = .ok false)
        | _ => false)
      | _ => false)
    | _, _ => false) = true := by decide +kernel
  split at h
  · rename_i a b ea eb
    split at h
    · rename_i c ec
      split at h
      · rename_i d ed
        exact ⟨a, b, c, d, ea, eb, ec, ed, of_decide_eq_true h⟩
      · cases h
    · cases h
  · cases h

/-- C114, the use of `subtract` on snapshots: `h` holds the samples `l₀` (say, a copy taken earlier) and `h2` came from
it by recording the samples `l`.  Unless `h` reports the largest of all values, subtracting it from `h2` succeeds and
what is left are the samples recorded in between, in number and in place. -/
theorem C114_snapshot {h h2 : Hist T} (R : Reachable fp T h) {l0 l : List (Nat × Nat)} (H : Contains h l0)
    (hl : ∀ p ∈ l, p.1 ≤ U64MAX ∧ p.2 ≤ T.max) (e : recordSeq l h = .ok (h2, .ok ()))
    (hfit : ∀ w, w ≤ U64MAX → (number (l0 ++ l) fun v => Equiv h v w) ≤ T.max) (htot : numberAll (l0 ++ l) ≤ U64MAX)
    (htop : h.max ≠ .ok U64MAX) :
    ∃ d, h2.subtract h = .ok (d, .ok ()) ∧ Contains d l := by
  have R2 := reachable_recordSeq R hl e
  have W := R.wf
  have W2 := R2.wf
  have H2 := C71_record R H hl e hfit htot
  obtain ⟨h3, r3, e3, -, E⟩ := W.recordSeq_spec l hl
  rw [e3] at e; cases e
  obtain ⟨E, -⟩ := E
  have hco : ∀ a b, a ≤ U64MAX → b ≤ U64MAX → Equiv h a b → Equiv h2 a b := fun a b ha hb q => by
    rw [W2.equiv_iff ha hb, E.cfg.lidx, E.cfg.lidx]
    exact (W.equiv_iff ha hb).mp q
  obtain ⟨d, r, e', -, hr⟩ := W2.subtract_spec W
  cases r with
  | ok u => exact ⟨d, e', C71_subtract R2 R (Sync.Contains.perm List.perm_append_comm H2) H hco e'⟩
  | error x =>
    exfalso
    cases x with
    | SubtrahendValueExceedsMinuendRange =>
      have h2 := hr.2.1
      rw [W2.ltop_lt_lhi_iff lmax_le, W2.covers_iff, E.cfg.lidx, W.lidx_lmax] at h2
      have a := W.maxcov
      have b := E.len
      rcases h2 with h2 | h2
      · omega
      · exact htop (by rw [W.max_eq, h2])
    | SubtrahendCountExceedsMinuendCount =>
      obtain ⟨j, hj⟩ := hr.2.2
      rw [H.moved W2 W hco, H2.all W2, hits_eq_number, hits_eq_number, number_append] at hj
      omega

/-- taking away all three samples of the class of `min_nz()`, but not the zero: `min_nz()` is wrong -/
example : ∃ s d, demo.recordN 5 3 = .ok (s, .ok ()) ∧ demo3.subtract s = .ok (d, .ok ()) ∧
    ¬ ExactStats d d.contents ∧ d.minNz = .ok 4 ∧ d.max = .ok 15 ∧ d.min = .ok 0 := by
  obtain ⟨s, e1, hs⟩ : ∃ s, demo.recordN 5 3 = .ok (s, .ok ()) ∧
    s = { demo with maxValue := 5, minNonZero := 5, totalCount := 3, counts := [0, 0, 0, 3, 0] } := okThen (by decide +kernel)
  obtain ⟨d, e2, hd⟩ : ∃ d, demo3.subtract s = .ok (d, .ok ()) ∧
    d = { demo3 with totalCount := 201, counts := [1, 0, 0, 0, 200] } := by subst hs; exact okThen (by decide +kernel)
  have Rs : Reachable Fp.ideal .u8 s := .recordN demo_reachable (by decide) (by decide) e1
  have W := demo3_reachable.wf
  have Wd : WF Fp.ideal d := by
    obtain ⟨d', r, e3, w, -⟩ := W.subtract_spec Rs.wf
    rw [e3] at e2; cases e2; exact w
  have key := C114_subtract_partial demo3_reachable Rs W.classes Rs.wf.classes Wd.contents
    ((W.exactStats_iff W.classes).mpr (by decide +kernel)) (mn := 0) (mz := 4) (mx := 15) (by decide) (by decide) (by decide)
    (by unfold Equiv; decide) e2 (by rw [hs]; decide +kernel) (by rw [hd]; decide +kernel)
  have hn : ¬ ExactStats d d.contents := by
    rw [Wd.exactStats_iff Wd.contents, hd]
    decide +kernel
  have := key.2 hn
  exact ⟨s, d, e1, e2, hn, this.2.2.2.1, this.2.2.1, this.2.1⟩

/-- the difference of `demo3` after two more records and `demo3` itself -/
example : ∃ g d, recordSeq [(2, 4), (5, 1)] demo3 = .ok (g, .ok ()) ∧ g.subtract demo3 = .ok (d, .ok ()) ∧
    Contains d [(2, 4), (5, 1)] := by
  obtain ⟨g, e, -⟩ : ∃ g, recordSeq [(2, 4), (5, 1)] demo3 = .ok (g, .ok ()) ∧ g.len = 209 := okThen (by decide +kernel)
  obtain ⟨d, ed, hd⟩ := C114_snapshot demo3_reachable demo3_holds (by decide) e
    (fun w _ => le_trans (number_le_all _ _) (by decide)) (by decide) (by decide)
  exact ⟨g, d, e, ed, hd⟩

end Hdr
