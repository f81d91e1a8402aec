import Verif.Proofs.Samples
import Verif.Props.Wire

/-!
# C71–C75: the answers of a histogram and the samples it was given
-/

namespace Hdr

variable {T : CounterTy} {fp : Fp}

/-! ## C71: what a histogram holds -/

theorem number_ge {l : List (Nat × Nat)} {P : Nat → Prop} [DecidablePred P] {p : Nat × Nat} (hp : p ∈ l) (h : P p.1) :
    p.2 ≤ number l P := by
  induction l with
  | nil => simp at hp
  | cons q l ih =>
    rw [number_cons]
    rcases List.mem_cons.mp hp with rfl | hp
    · rw [if_pos h]; omega
    · have := ih hp
      omega

/-- C71 (1): an empty histogram holds no samples. -/
theorem C71_empty {h : Hist T} (R : Reachable fp T h) (h0 : h.len = 0) : Contains h [] :=
  holds_of_slots R.wf (fun p hp => by simp at hp) (fun i => by rw [R.wf.getD_zero_of_empty h0]; rfl) h0

/-- C71 (2): after successful recordings, with or without resizing, a histogram holds what it held and what was recorded,
as long as no counter overflows. -/
theorem C71_record {h h' : Hist T} (R : Reachable fp T h) {l l' : List (Nat × Nat)} (H : Contains h l)
    (hl : ∀ p ∈ l', p.1 ≤ U64MAX ∧ p.2 ≤ T.max) (e : recordSeq l' h = .ok (h', .ok ()))
    (hfit : ∀ w, w ≤ U64MAX → (number (l ++ l') fun v => Equiv h v w) ≤ T.max) (htot : numberAll (l ++ l') ≤ U64MAX) :
    Contains h' (l ++ l') := by
  have W := R.wf
  obtain ⟨h1, r1, e1, W1, hr⟩ := W.recordSeq_spec l' hl
  rw [e1] at e; cases e
  obtain ⟨E, hcov⟩ := hr
  have hU : ∀ p ∈ l ++ l', p.1 ≤ U64MAX := fun p hp => by
    rcases List.mem_append.mp hp with hp | hp
    · exact H.le W hp
    · exact (hl p hp).1
  refine holds_of_slots W1 ?_ ?_ ?_
  · intro p hp
    rw [E.cfg.lidx]
    rcases List.mem_append.mp hp with hp | hp
    · exact lt_of_lt_of_le (H.lidx W hp) E.len
    · exact hcov p hp
  · intro i
    have hh := H.all W i
    have hs : h.hits (l ++ l') i = h.hits l i + h.hits l' i := by
      rw [hits_eq_number, hits_eq_number, hits_eq_number, number_append]
    rw [E.counts, hh, E.cfg.hits, ← hs]
    by_cases hi : i < h'.counts.length
    · have hv := W1.lval_le' hi
      have := hfit (h'.lval i) hv
      rw [number_equiv W hU hv, ← E.cfg.lidx, show h'.lidx (h'.lval i) = i from Lay.idx_val] at this
      omega
    · have h2 := E.counts i
      rw [getD_ge (by omega), hh, ← hs] at h2
      have := T_max_pos T
      omega
  · have := H.len
    unfold Hist.len at this
    rw [E.total, this, numberAll_append]
    rw [numberAll_append] at htot
    unfold numberAll at *
    omega

/-- C71 (3): and after `record_n_correct`, the value and the series it hides. -/
theorem C71_correct {h h' : Hist T} (R : Reachable fp T h) {l : List (Nat × Nat)} (H : Contains h l) {v c i : Nat}
    (hv : v ≤ U64MAX) (hc : c ≤ T.max) (e : h.recordNCorrect v c i = .ok (h', .ok ()))
    (hfit : ∀ w, w ≤ U64MAX → (number (l ++ (v :: hiddenSeries v i).map fun x => (x, c)) fun v => Equiv h v w) ≤ T.max)
    (htot : numberAll (l ++ (v :: hiddenSeries v i).map fun x => (x, c)) ≤ U64MAX) :
    Contains h' (l ++ (v :: hiddenSeries v i).map fun x => (x, c)) := by
  rw [C15_correct] at e
  exact C71_record R H (correct_valid hv hc) e hfit htot

/-- C71 (4): merging a histogram whose classes are contained in those of the receiver unites the samples. -/
theorem C71_add {h s h' : Hist T} (R : Reachable fp T h) (Rs : Reachable fp T s) {l l' : List (Nat × Nat)} (H : Contains h l)
    (Hs : Contains s l') (hco : ∀ a b, a ≤ U64MAX → b ≤ U64MAX → Equiv s a b → Equiv h a b)
    (e : h.add s = .ok (h', .ok ())) (hpos : ∀ p ∈ l', p.2 ≠ 0)
    (hfit : ∀ w, w ≤ U64MAX → (number (l ++ l') fun v => Equiv h v w) ≤ T.max) (htot : numberAll (l ++ l') ≤ U64MAX) :
    Contains h' (l ++ l') := by
  have W := R.wf
  have Ws := Rs.wf
  obtain ⟨h1, r, e1, W', hr⟩ := W.add_spec Ws
  rw [e1] at e; cases e
  rcases hr with ⟨h0, rfl⟩ | ⟨h0, -, hcfg, hlen, -, hcnt, hcopy, htt, -⟩
  · have hz : numberAll l' = 0 := by rw [← Hs.len]; exact h0
    have hnil : l' = [] := by
      cases l' with
      | nil => rfl
      | cons p l' =>
        exfalso
        have := hpos p (by simp)
        unfold numberAll at hz
        rw [List.map_cons, List.sum_cons] at hz
        omega
    rw [hnil, List.append_nil]
    exact H
  · obtain ⟨Wg, hcov, hcfgg, hget, -, -, -, hleng, -⟩ := W.addGrown (s := s)
    have hm := Hs.moved W Ws hco
    have hU : ∀ p ∈ l ++ l', p.1 ≤ U64MAX := fun p hp => by
      rcases List.mem_append.mp hp with hp | hp
      · exact H.le W hp
      · exact Hs.le Ws hp
    refine holds_of_slots W' ?_ ?_ ?_
    · intro p hp
      rw [hcfg.lidx]
      rcases List.mem_append.mp hp with hp | hp
      · have := H.lidx W hp
        omega
      · have hpU := Hs.le Ws hp
        have hi := Hs.lidx Ws hp
        have hne : s.counts.getD (s.lidx p.1) 0 ≠ 0 := by
          rw [Hs.slot Ws hi, hits_eq_number]
          intro hz
          have h2 := number_ge (P := fun v => s.lidx v = s.lidx p.1) hp rfl
          have := hpos p hp
          omega
        have h2 := Ws.trackMax _ hne
        rw [← Ws.lidx_lmax] at h2
        have h3 : s.llo p.1 ≤ s.llo s.lmax := llo_le_of_lidx h2
        have h4 : s.llo s.lmax ≤ s.lmax := Lay.lo_le
        have h5 : s.llo p.1 ≤ p.1 := Lay.lo_le
        have h6 : h.lidx (s.llo p.1) = h.lidx p.1 := (W.equiv_iff (by omega) hpU).mp
          (hco _ _ (by omega) hpU ((Ws.equiv_iff (by omega) hpU).mpr Lay.idx_lo))
        rw [hcfgg.lidx] at hcov
        have h7 : h.lidx (s.llo p.1) ≤ h.lidx s.lmax := Lay.idx_mono (by omega)
        omega
    · intro i
      rw [hcnt, hm, H.all W i, hits_eq_number, hits_eq_number, ← number_append, hits_eq_number]
      simp only [hcfg.lidx]
      by_cases hi : i < h'.counts.length
      · have hv := W'.lval_le' hi
        have := hfit (h'.lval i) hv
        rw [number_equiv W hU hv, ← hcfg.lidx, show h'.lidx (h'.lval i) = i from Lay.idx_val, hits_eq_number] at this
        omega
      · have h2 := hcnt i
        rw [getD_ge (by omega), hm, H.all W i, hits_eq_number, hits_eq_number, ← number_append] at h2
        have := T_max_pos T
        omega
    · have e1 := H.len
      have e2 := Hs.len
      unfold Hist.len at e1 e2
      rw [numberAll_append] at htot ⊢
      by_cases hz : (h.addGrown s).matching s ∧ h.totalCount = 0
      · rw [(hcopy hz).2.1]
        omega
      · rw [htt hz, Hs.sum Ws]
        omega

theorem sum_of_slots {h : Hist T} {l : List (Nat × Nat)} (hl : ∀ p ∈ l, h.lidx p.1 < h.counts.length)
    (hc : ∀ i, h.counts.getD i 0 = h.hits l i) : h.counts.sum = numberAll l := by
  rw [← sum_range_getD]
  simp only [hc]
  exact sum_hits _ l hl

/-- C71 (5): subtracting such a histogram takes its samples away. -/
theorem C71_subtract {h s h' : Hist T} (R : Reachable fp T h) (Rs : Reachable fp T s) {l l' : List (Nat × Nat)}
    (H : Contains h (l ++ l')) (Hs : Contains s l') (hco : ∀ a b, a ≤ U64MAX → b ≤ U64MAX → Equiv s a b → Equiv h a b)
    (e : h.subtract s = .ok (h', .ok ())) : Contains h' l := by
  have W := R.wf
  have Ws := Rs.wf
  have hm := Hs.moved W Ws hco
  have hap : ∀ i, h.hits (l ++ l') i = h.hits l i + h.hits l' i := fun i => by
    rw [hits_eq_number, hits_eq_number, hits_eq_number, number_append]
  have hlid : ∀ p ∈ l, h.lidx p.1 < h.counts.length := fun p hp => H.lidx W (by simp [hp])
  have hlen : h.totalCount = numberAll l + numberAll l' := by rw [← numberAll_append]; exact H.len
  obtain ⟨h1, r, e1, W', hr⟩ := W.subtract_spec Ws
  rw [e1] at e; cases e
  rcases hr with ⟨h0, rfl⟩ | ⟨h0, -, hln, hcnt, hcfg, htot⟩
  · have hz : numberAll l' = 0 := by rw [← Hs.len]; exact h0
    refine holds_of_slots W' hlid (fun i => ?_) (by omega)
    have := number_le_all l' fun v => h'.lidx v = i
    rw [H.all W', hap, hits_eq_number l']
    omega
  · have hli : ∀ v, h'.lidx v = h.lidx v := fun v => by rw [hcfg]
    have hsl : ∀ i, h'.counts.getD i 0 = h'.hits l i := fun i => by
      have h2 := hcnt i
      rw [hm, H.all W, hap] at h2
      have h3 : h'.hits l i = h.hits l i := by rw [hits_eq_number, hits_eq_number]; simp only [hli]
      omega
    have hld : ∀ p ∈ l, h'.lidx p.1 < h'.counts.length := fun p hp => by rw [hli, hln]; exact hlid p hp
    refine holds_of_slots W' hld hsl ?_
    have hs := sum_of_slots hld hsl
    have hs0 := H.sum W
    rw [numberAll_append] at hs0
    have hU := W.tot
    rcases htot with ⟨h2, -⟩ | ⟨-, h2, -⟩ <;> omega

/-- C71 (6): a histogram read back from its serialized form, with a counter type large enough, holds the same samples. -/
theorem C71_serialize {h : Hist T} (R : Reachable fp T h) {l : List (Nat × Nat)} (H : Contains h l) {junk : Nat → UInt8}
    {bytes : List UInt8} {n : Nat} (e : V2.serialize junk h = .ok (.ok (bytes, n))) (z : V2.Zlib) (checks : Bool)
    (T' : CounterTy) (hfit : ∀ w, w ≤ U64MAX → (number l fun v => Equiv h v w) ≤ T'.max) :
    ∃ g : Hist T', V2.deserialize fp z T' checks bytes = .ok (.ok (g, [])) ∧ Reachable fp T' g ∧ Contains g l ∧
      g.low = h.low ∧ g.high = h.high ∧ g.sigfig = h.sigfig := by
  have W := R.wf
  obtain ⟨ts, rfl, -, h1, h2, h3, -⟩ := wire_of_ok W e
  have hf : ∀ c ∈ h.counts, c ≤ T'.max := by
    intro c hc
    obtain ⟨i, hi, rfl⟩ := List.getElem_of_mem hc
    have e1 : h.counts.getD i 0 = h.counts[i] := by
      rw [List.getD_eq_getElem?_getD, List.getElem?_eq_getElem hi]; rfl
    have := hfit (h.lval i) (W.lval_le' hi)
    rw [number_equiv W (fun p hp => H.le W hp) (W.lval_le' hi), show h.lidx (h.lval i) = i from Lay.idx_val, ← H.slot W hi,
      e1] at this
    exact this
  have d : V2.deserialize fp z T' checks (V2.wire h ts) = .ok (.ok (asRead T' h, [])) := by
    have d := V2.deserialize_wire W z T' checks h1 h2 h3 hf []
    rw [List.append_nil] at d; exact d
  have Rg : Reachable fp T' _ := .deserialize z checks _ _ d
  refine ⟨_, d, Rg, ?_, rfl, rfl, rfl⟩
  refine holds_of_slots Rg.wf (fun p hp => H.lidx W hp) (fun i => H.all W i) ?_
  have ht : h.totalCount = numberAll l := H.len
  have := W.tot
  show Min.min h.counts.sum U64MAX = _
  rw [H.sum W]
  omega

/-- an instance of (2): three values recorded 204 times in an empty histogram, of the classes 4–7, 8–15 and 0 -/
theorem demo3_holds : Contains demo3 [(5, 3), (9, 200), (0, 1)] := by
  have := C71_record (l' := [(5, 3), (9, 200), (0, 1)]) demo_reachable (C71_empty demo_reachable rfl) (by decide) demo3_eq
    (fun w _ => le_trans (number_le_all _ _) (by decide)) (by decide)
  exact this

example : demo3.countAt 6 = .ok 3 ∧ demo3.countAt 12 = .ok 200 ∧ demo3.countAt 1 = .ok 0 ∧ demo3.len = 204 := by decide

/-- an instance of (3): the stall of 9 with an expected interval of 3 is recorded as 9, 6 and 3 -/
example : ∃ h, demo.recordNCorrect 9 1 3 = .ok (h, .ok ()) ∧ h.len = 3 ∧ Contains h [(9, 1), (6, 1), (3, 1)] := by
  obtain ⟨h, e, hl⟩ : ∃ h, demo.recordNCorrect 9 1 3 = .ok (h, .ok ()) ∧ h.len = 3 := okThen (by decide +kernel)
  refine ⟨h, e, hl, ?_⟩
  exact C71_correct (l := []) demo_reachable (C71_empty demo_reachable rfl) (by decide) (by decide) e
    (fun w _ => le_trans (number_le_all _ _) (by decide)) (by decide)

/-- an instance of (4) and (5): `demo3` added to an empty histogram, and taken away again -/
example : ∃ h h', demo.add demo3 = .ok (h, .ok ()) ∧ Contains h [(5, 3), (9, 200), (0, 1)] ∧
    h.subtract demo3 = .ok (h', .ok ()) ∧ Contains h' [] := by
  obtain ⟨h, e, hl⟩ : ∃ h, demo.add demo3 = .ok (h, .ok ()) ∧ h = demo3 := okThen (by decide +kernel)
  subst hl
  obtain ⟨h', e', -⟩ : ∃ h', demo3.subtract demo3 = .ok (h', .ok ()) ∧ h'.len = 0 := okThen (by decide +kernel)
  refine ⟨_, h', e, ?_, e', ?_⟩
  · exact C71_add (l := []) (l' := [(5, 3), (9, 200), (0, 1)]) demo_reachable demo3_reachable (C71_empty demo_reachable rfl)
      demo3_holds (fun a b ha hb hab => (demo_reachable.wf.equiv_iff ha hb).mpr ((demo3_reachable.wf.equiv_iff ha hb).mp hab)) e
      (by decide) (fun w _ => le_trans (number_le_all _ _) (by decide)) (by decide)
  · exact C71_subtract (l := []) (l' := [(5, 3), (9, 200), (0, 1)]) demo3_reachable demo3_reachable demo3_holds demo3_holds
      (fun _ _ _ _ h => h) e'

/-- the condition on the counters is needed: 300 samples in `u8` counters are not held -/
theorem C71_saturated : ∃ h, recordSeq [(5, 200), (5, 100)] demo = .ok (h, .ok ()) ∧ h.len = 300 ∧ h.countAt 5 = .ok 255 :=
  okThen (by decide +kernel)

/-! ## C72: quantiles -/

/-- C72 (1): every rank up to the number of samples belongs to exactly one value. -/
theorem C72_rank {l : List (Nat × Nat)} {k : Nat} (h0 : 0 < k) (hk : k ≤ numberAll l) : ∃! y, KthSmallest l k y := by
  obtain ⟨y, hy⟩ := KthSmallest.exists h0 hk
  exact ⟨y, hy, fun z hz => hz.unique hy⟩

/-- C72 (2): up to 2^53 samples, `value_at_quantile` answers a value equivalent to the sample of the rank asked for, so
within the precision of the histogram; not below it (the beginning of its class, so not above it, for the quantile 0). -/
theorem C72_quantile {h : Hist T} (R : Reachable fp T h) {l : List (Nat × Nat)} (H : Contains h l) (h0 : 0 < numberAll l)
    (hn : numberAll l ≤ 2 ^ 53) (q : F64) {y : Nat} (hy : KthSmallest l (specRank (numberAll l) q) y) :
    ∃ v, h.valueAtQuantile q = .ok v ∧ Equiv h v y ∧ Precise fp h v y ∧
      (q = .fin 0 → v ≤ y) ∧ (q ≠ .fin 0 → y ≤ v ∨ y = U64MAX ∧ v = U64MAX - 1) := by
  have W := R.wf
  have C := W.contents
  have hlen : h.len = numberAll l := H.len
  have hsum : h.len = (h.contents.map (·.count)).sum := by
    rw [W.sum_classes C, H.sum W, hlen]
  obtain ⟨c, hc, ev⟩ := C25_found R C hsum (by omega) (by omega) q
  rw [hlen] at hc
  have hcc := H.rank W C hy hc
  obtain ⟨p, hp, rfl, -⟩ := hy.mem
  have hyU := H.le W hp
  have hi := H.lidx W hp
  have elo : c.lo = h.llo p.1 := by rw [hcc]; exact Lay.val_idx
  have hlo : h.llo p.1 ≤ p.1 := Lay.lo_le
  have ilo : h.lidx (h.llo p.1) = h.lidx p.1 := Lay.idx_lo
  have ehi : c.hi = h.lhi (h.llo p.1) := by
    rw [hcc]
    show h.lhi (h.lval (h.lidx p.1)) = _
    rw [show h.lval (h.lidx p.1) = h.llo p.1 from Lay.val_idx]
  have ihi : h.lidx c.hi = h.lidx p.1 := by rw [ehi, lidx_lhi (by omega), ilo]
  refine ⟨_, ev, ?_⟩
  by_cases hq : q = .fin 0
  · rw [if_pos hq, elo]
    refine ⟨(W.equiv_iff (by omega) hyU).mpr ilo, R.precise hyU ilo, fun _ => hlo, fun hc => absurd hq hc⟩
  · rw [if_neg hq]
    have hcU : c.hi ≤ U64MAX := by rw [ehi]; exact lhi_le
    refine ⟨(W.equiv_iff hcU hyU).mpr ihi, R.precise hyU ihi, fun hc => absurd hc hq, fun _ => ?_⟩
    by_cases hT : p.1 = U64MAX
    · have hlt : p.1 < h.llo p.1 + h.lwid p.1 := Lay.lt_lo_add
      by_cases h2 : h.llo p.1 = U64MAX
      · left
        rw [ehi, h2]
        unfold Hist.lhi
        rw [if_pos rfl]
        omega
      · right
        refine ⟨hT, ?_⟩
        have e3 : h.llo (h.llo p.1) = h.llo p.1 := Lay.lo_eq_iff.mpr ilo
        have e4 : h.lwid (h.llo p.1) = h.lwid p.1 := lwid_eq_of_lidx ilo
        rw [ehi]
        unfold Hist.lhi
        rw [if_neg h2, e3, e4]
        omega
    · left
      have : h.lhi (h.llo p.1) = h.lhi p.1 := lhi_eq_of_lidx ilo (by omega) hT
      rw [ehi, this]
      exact lhi_ge hyU

/-- C72 (2), for every quantile: the rank asked for is that of a sample. -/
theorem C72_every_quantile {h : Hist T} (R : Reachable fp T h) {l : List (Nat × Nat)} (H : Contains h l)
    (h0 : 0 < numberAll l) (hn : numberAll l ≤ 2 ^ 53) (q : F64) :
    ∃ y v, KthSmallest l (specRank (numberAll l) q) y ∧ h.valueAtQuantile q = .ok v ∧ Precise fp h v y := by
  have hle := specRank_le (numberAll l) q
  rw [specRank_one h0 hn] at hle
  obtain ⟨y, hy, -⟩ := C72_rank (specRank_pos (numberAll l) q) hle
  obtain ⟨v, ev, -, hp, -⟩ := C72_quantile R H h0 hn q hy
  exact ⟨y, v, hy, ev, hp⟩

/-- C72 (3): so for a quantile `x` from 0 to 1 the answer stands for the sample of rank `⌈x · n⌉` (at least 1), or the one
before it. -/
theorem C72_exact_rank {h : Hist T} (R : Reachable fp T h) {l : List (Nat × Nat)} (H : Contains h l) (h0 : 0 < numberAll l)
    (hn : numberAll l ≤ 2 ^ 53) {x : ℚ} (hx0 : 0 ≤ x) (hx1 : x ≤ 1) :
    ∃ k y v, (k = exactRank (numberAll l) x ∨ k + 1 = exactRank (numberAll l) x) ∧ KthSmallest l k y ∧
      h.valueAtQuantile (.fin x) = .ok v ∧ Precise fp h v y := by
  have hle := specRank_le (numberAll l) (.fin x)
  rw [specRank_one h0 hn] at hle
  obtain ⟨y, hy, -⟩ := C72_rank (specRank_pos (numberAll l) (.fin x)) hle
  obtain ⟨v, ev, -, hp, -⟩ := C72_quantile R H h0 hn (.fin x) hy
  exact ⟨_, y, v, C25_rounding hn hx0 hx1, hy, ev, hp⟩

/-- an instance of (2): the quantile 0.015 of `demo3` (rank 4 of 204) is answered with 7, the sample is 5 -/
example : specRank (numberAll [(5, 3), (9, 200), (0, 1)]) (.fin (15 / 1000)) = 4 ∧
    KthSmallest [(5, 3), (9, 200), (0, 1)] 4 5 ∧ ¬ KthSmallest [(5, 3), (9, 200), (0, 1)] 5 5 ∧
    KthSmallest [(5, 3), (9, 200), (0, 1)] 5 9 ∧
    demo3.valueAtQuantile (.fin (15 / 1000)) = .ok 7 ∧ demo3.valueAtQuantile (.fin (1 / 2)) = .ok 15 := by
  refine ⟨by decide +kernel, by unfold KthSmallest; decide, by unfold KthSmallest; decide, by unfold KthSmallest; decide,
    by decide +kernel, by decide +kernel⟩

theorem sum_filter_ite {α : Type} (l : List α) (P : α → Prop) [DecidablePred P] (f : α → Nat) :
    ((l.filter fun x => decide (P x)).map f).sum = (l.map fun x => if P x then f x else 0).sum := by
  induction l with
  | nil => rfl
  | cons x l ih =>
    by_cases h : P x
    · rw [List.filter_cons_of_pos (by simpa using h)]; simp [h, ih]
    · rw [List.filter_cons_of_neg (by simpa using h)]; simp [h, ih]

theorem number_ones (xs : List Nat) (P : Nat → Prop) [DecidablePred P] :
    number (xs.map fun x => (x, 1)) P = xs.countP fun x => decide (P x) := by
  induction xs with
  | nil => rfl
  | cons x xs ih =>
    rw [List.map_cons, number_cons, ih, List.countP_cons]
    simp only [decide_eq_true_eq]
    omega

theorem numberAll_ones (xs : List Nat) : numberAll (xs.map fun x => (x, 1)) = xs.length := by
  unfold numberAll
  induction xs with
  | nil => rfl
  | cons x xs ih =>
    rw [List.map_cons, List.map_cons, List.sum_cons, ih, List.length_cons]
    omega

/-- C72 (4): in a sorted list the `k`-th smallest is the `k`-th -/
theorem C72_sorted {xs s : List Nat} (hp : s.Perm xs) (hs : s.Pairwise (· ≤ ·)) {k y : Nat} (hk : s[k]? = some y) :
    KthSmallest (xs.map fun x => (x, 1)) (k + 1) y := by
  obtain ⟨hlt, rfl⟩ := List.getElem?_eq_some_iff.mp hk
  unfold KthSmallest
  rw [number_ones, number_ones, ← hp.countP_eq, ← hp.countP_eq]
  have hs' := hs
  have e : s = s.take k ++ s[k] :: s.drop (k + 1) := by
    rw [List.getElem_cons_drop, List.take_append_drop]
  generalize s[k] = y at *
  have hlk : (s.take k).length = k := by rw [List.length_take]; omega
  generalize s.take k = a at *
  generalize s.drop (k + 1) = b at *
  subst e
  rw [List.pairwise_append, List.pairwise_cons] at hs
  obtain ⟨-, ⟨h1, -⟩, h2⟩ := hs
  constructor
  · rw [List.countP_append]
    have h3 : (y :: b).countP (fun x => decide (x < y)) = 0 := by
      rw [List.countP_eq_zero]
      intro x hx
      rcases List.mem_cons.mp hx with rfl | hx
      · simp
      · have := h1 x hx
        simp only [decide_eq_true_eq]
        omega
    have h4 := List.countP_le_length (p := fun x => decide (x < y)) (l := a)
    omega
  · rw [List.countP_append, List.countP_cons]
    have h3 : a.countP (fun x => decide (x ≤ y)) = a.length := by
      rw [List.countP_eq_length]
      intro x hx
      simpa using h2 x hx y (by simp)
    simp only [le_refl, decide_true, if_true]
    omega

/-- C72 (5): from the constructor to the answer: record up to `2 ^ 53` samples, at most as many as a counter can count, each at
most `high`.  Then every quantile is answered with a value that stands, with the precision of the histogram, for the sample of
that rank in the sorted list of samples. -/
theorem C72_end_to_end {low high sigfig : Nat} (hh : high ≤ U64MAX) {h0 : Hist T}
    (e0 : Hist.newWithBounds fp T low high sigfig = .ok (.ok h0)) {xs s : List Nat} (hx : ∀ x ∈ xs, x ≤ high)
    (hfit : xs.length ≤ T.max) (hn : xs.length ≤ 2 ^ 53) (hp : s.Perm xs) (hs : s.Pairwise (· ≤ ·)) :
    ∃ h, recordSeq (xs.map fun x => (x, 1)) h0 = .ok (h, .ok ()) ∧
      ∀ q, xs ≠ [] → ∃ y v, s[specRank xs.length q - 1]? = some y ∧ h.valueAtQuantile q = .ok v ∧ Precise fp h0 v y := by
  have R0 : Reachable fp T h0 := .newWithBounds hh e0
  have hl : ∀ p ∈ xs.map fun x => (x, 1), p.1 ≤ U64MAX ∧ p.2 ≤ T.max := by
    intro p hp
    obtain ⟨x, hx', rfl⟩ := List.mem_map.mp hp
    exact ⟨le_trans (hx x hx') hh, T_max_pos T⟩
  have hhigh : h0.high = high := (C02_fresh_bounds hh e0).high
  have hcov : ∀ x ∈ xs, h0.Covers x := fun x hx' => (C03_range R0).1 x (by rw [hhigh]; exact hx x hx')
  obtain ⟨h, r, e, W, hr⟩ := R0.wf.recordSeq_spec _ hl
  have hr0 : r = .ok () := by
    cases r with
    | ok u => rfl
    | error er =>
      exfalso
      obtain ⟨-, -, l1, p, l2, el, -, hge, -⟩ := hr
      have hp : p ∈ xs.map fun x => (x, 1) := by rw [el]; simp
      obtain ⟨x, hx', rfl⟩ := List.mem_map.mp hp
      have := (R0.wf.covers_iff x).mp (hcov x hx')
      dsimp only at hge
      omega
  subst hr0
  refine ⟨h, e, fun q hne => ?_⟩
  have hsx := hp.length_eq
  have hxl : 0 < xs.length := List.length_pos_iff.mpr hne
  have hle := specRank_le xs.length q
  rw [specRank_one hxl hn] at hle
  have hlt : specRank xs.length q - 1 < s.length := by omega
  obtain ⟨y, hy⟩ : ∃ y, s[specRank xs.length q - 1]? = some y := ⟨_, List.getElem?_eq_getElem hlt⟩
  have R : Reachable fp T h := reachable_recordSeq R0 hl e
  have H0 : Contains h0 [] := C71_empty R0 (C02_fresh_bounds hh e0).len
  have hU : U64MAX = 18446744073709551615 := rfl
  have hall := numberAll_ones xs
  have H : Contains h (xs.map fun x => (x, 1)) := by
    have := C71_record R0 H0 hl e (fun w _ => by
      rw [List.nil_append]
      exact le_trans (number_le_all _ _) (by omega)) (by rw [List.nil_append]; norm_num at hn; omega)
    rwa [List.nil_append] at this
  have hk := C72_sorted hp hs hy
  have hpos := specRank_pos xs.length q
  rw [show specRank xs.length q - 1 + 1 = specRank xs.length q by omega, ← hall] at hk
  obtain ⟨v, ev, -, hpv, -⟩ := C72_quantile R H (by omega) (by omega) q hk
  refine ⟨y, v, hy, ev, ?_⟩
  have hc := hr.1.cfg
  unfold Precise unit Hist.low Hist.sigfig at hpv ⊢
  rw [hc.low, hc.sig] at hpv
  exact hpv

/-- an instance of (5): three samples; the median is 6, answered as 7 -/
example : ∃ h, recordSeq ([9, 2, 6].map fun x => (x, 1)) demo = .ok (h, .ok ()) ∧ h.valueAtQuantile (.fin (1 / 2)) = .ok 7 ∧
    [2, 6, 9][specRank 3 (.fin (1 / 2)) - 1]? = some 6 ∧ (∃ v, h.valueAtQuantile (.fin (1 / 2)) = .ok v ∧ Precise Fp.ideal demo v 6) := by
  obtain ⟨h, e, hv⟩ : ∃ h, recordSeq ([9, 2, 6].map fun x => (x, 1)) demo = .ok (h, .ok ()) ∧
    h.valueAtQuantile (.fin (1 / 2)) = .ok 7 := okThen (by decide +kernel)
  obtain ⟨h', e', hq⟩ := C72_end_to_end (xs := [9, 2, 6]) (s := [2, 6, 9]) (by decide) demo_eq (by decide) (by decide)
    (by decide) (by decide) (by decide)
  rw [e] at e'
  cases e'
  have hk : [2, 6, 9][specRank 3 (.fin (1 / 2)) - 1]? = some 6 := by decide +kernel
  obtain ⟨y, v, hy, ev, hp⟩ := hq (.fin (1 / 2)) (by simp)
  obtain rfl : y = 6 := Option.some.inj (hy.symm.trans hk)
  exact ⟨h, e, hv, hk, v, ev, hp⟩

/-! ## C73: counting -/

/-- C73 (1): `count_between` counts the samples between the two values, those equivalent to either included. -/
theorem C73_count_between {h : Hist T} (R : Reachable fp T h) {l : List (Nat × Nat)} (H : Contains h l) {lo hi : Nat}
    (hc : h.Covers lo) (hlh : lo ≤ hi) (hU : hi ≤ U64MAX) :
    h.countBetween lo hi = .ok (number l fun v => lo ≤ v ∧ v ≤ hi ∨ Equiv h v lo ∨ Equiv h v hi) := by
  have W := R.wf
  have hi1 := (W.covers_iff lo).mp hc
  rw [W.countBetween_eq (by omega) hU, Nat.min_eq_left (show h.lidx lo ≤ h.counts.length - 1 by omega)]
  generalize hb : min (h.lidx hi) (h.counts.length - 1) = b
  have h1 := sum_slots (h := h) (fun i => if h.lidx lo ≤ i ∧ i ≤ b then (1 : ℕ) else 0) h.counts.length l
    fun p hp => H.lidx W hp
  simp only [Nat.cast_id] at h1
  have e1 : (((List.range h.counts.length).filter fun i => decide (h.lidx lo ≤ i ∧ i ≤ b)).map fun i => h.counts.getD i 0).sum
      = number l fun v => h.lidx lo ≤ h.lidx v ∧ h.lidx v ≤ b := by
    rw [sum_filter_ite]
    refine Eq.trans ?_ (h1.trans ?_)
    · congr 1
      apply List.map_congr_left
      intro i hi
      rw [H.slot W (List.mem_range.mp hi)]
      split <;> simp
    · unfold number
      rw [sum_filter_ite]
      congr 1
      apply List.map_congr_left
      intro p _
      split <;> simp
  rw [e1]
  have h2 := number_le_all l fun v => h.lidx lo ≤ h.lidx v ∧ h.lidx v ≤ b
  have h3 : h.totalCount = numberAll l := H.len
  have h4 := W.tot
  rw [Nat.min_eq_left (by omega)]
  congr 1
  refine number_congr fun p hp => ?_
  have hpU := H.le W hp
  have hpi := H.lidx W hp
  rw [W.equiv_iff hpU (by omega), W.equiv_iff hpU hU]
  have hm : h.lidx lo ≤ h.lidx hi := Lay.idx_mono hlh
  subst hb
  constructor
  · rintro ⟨h5, h6⟩
    by_contra hcon
    push Not at hcon
    obtain ⟨c1, c2, c3⟩ := hcon
    rcases lt_or_ge p.1 lo with h7 | h7
    · have : h.lidx p.1 ≤ h.lidx lo := Lay.idx_mono h7.le
      omega
    · have : h.lidx hi ≤ h.lidx p.1 := Lay.idx_mono (c1 h7).le
      omega
  · rintro (⟨h5, h6⟩ | h5 | h5)
    · have : h.lidx lo ≤ h.lidx p.1 := Lay.idx_mono h5
      have : h.lidx p.1 ≤ h.lidx hi := Lay.idx_mono h6
      omega
    · omega
    · omega

/-- C73 (2): `quantile_below` is the share of the samples that are not above the value, those equivalent to it included,
rounded once (with up to `2 ^ 53` samples). -/
theorem C73_quantile_below {h : Hist T} (R : Reachable fp T h) {l : List (Nat × Nat)} (H : Contains h l) (h0 : 0 < numberAll l)
    (hn : numberAll l ≤ 2 ^ 53) {v : Nat} (hv : v ≤ U64MAX) :
    h.quantileBelow v = .ok (.fin (F64.rndQ ((number l fun x => x ≤ v ∨ Equiv h x v : ℕ) / (numberAll l : ℚ)))) := by
  have W := R.wf
  have C := W.contents
  have hlen : h.len = numberAll l := H.len
  have hl : h.len = (h.contents.map (·.count)).sum := by rw [W.sum_classes C, H.sum W, hlen]
  have hp := W.len_pos
  rw [C27_value_exact_partial R C hl (by omega) (by omega) hv, hlen, W.countUpTo_eq C,
    H.take W (by unfold Hist.slotOf; omega)]
  congr 5
  refine number_congr fun p hp' => ?_
  have h1 := H.lidx W hp'
  rw [W.equiv_iff (H.le W hp') hv]
  unfold Hist.slotOf
  constructor
  · intro h2
    by_contra hc
    push Not at hc
    have h3 : h.lidx v ≤ h.lidx p.1 := Lay.idx_mono (by omega)
    omega
  · rintro (h2 | h2)
    · have h3 : h.lidx p.1 ≤ h.lidx v := Lay.idx_mono h2
      omega
    · omega

/-- instances: between 6 and 8 there is no sample, but 5 is equivalent to 6 and 9 to 8 -/
example : demo3.Covers 6 ∧ demo3.countBetween 6 8 = .ok 203 ∧ demo3.countBetween 0 3 = .ok 1 ∧
    demo3.quantileBelow 4 = .ok (.fin (F64.rndQ (4 / 204))) := by
  refine ⟨by decide, by decide, by decide, ?_⟩
  rw [C73_quantile_below demo3_reachable demo3_holds (by decide) (by decide) (by decide)]
  have : (number [(5, 3), (9, 200), (0, 1)] fun x => x ≤ 4 ∨ Equiv demo3 x 4) = 4 := by decide +kernel
  rw [this]
  norm_num [numberAll]

/-! ## C74: the mean -/

/-- the mean of the class medians, in terms of the samples -/
theorem Contains.medianMean {h : Hist T} {l : List (Nat × Nat)} (H : Contains h l) (W : WF fp h) {ms : List Nat}
    (hm : Medians h h.contents ms) :
    exactMean h h.contents ms = avg l fun y => (h.lmed (h.lidx y) : ℚ) := by
  rw [W.exactMean_eq W.contents hm, H.meanSum W, show h.totalCount = numberAll l from H.len, Nat.cast_list_sum, List.map_map]
  unfold avg
  congr 3
  funext p
  simp only [Function.comp_apply]
  push_cast
  rfl

/-- C74: the mean is that of the samples up to half a unit plus half of one part in `10 ^ sigfig`, and rounding. -/
theorem C74_mean {h : Hist T} (R : Reachable fp T h) {l : List (Nat × Nat)} (H : Contains h l) (h0 : 0 < numberAll l) :
    ∃ x, h.mean = .ok (.fin x) ∧
      |x - sampleMean l| ≤ spread fp h (sampleMean l) + (sampleMean l + spread fp h (sampleMean l)) / 2 ^ 28 := by
  have W := R.wf
  have C := W.contents
  have hlen : h.len = numberAll l := H.len
  obtain ⟨ms, hm⟩ := C52_medians R C
  obtain ⟨x, e, -, hx⟩ := C52_mean R C hm (by omega)
  refine ⟨x, e, ?_⟩
  have hμ := H.medianMean W hm
  have hs : sampleMean l = avg l fun y => (y : ℚ) := rfl
  have h1 := avg_near (l := l) h0 (f := fun y => (h.lmed (h.lidx y) : ℚ)) (g := fun y => (y : ℚ)) (a := (unit fp h / 2 : ℕ))
    (b := 1 / (2 * 10 ^ h.sigfig)) (fun p hp => by
      have := R.median_near (H.le W hp)
      unfold spread at this
      rw [mul_one_div]
      exact this)
  rw [← hμ, ← hs, mul_one_div] at h1
  change |_| ≤ spread fp h (sampleMean l) at h1
  rw [abs_le] at h1 hx ⊢
  constructor <;> linarith

/-- an instance: the samples of `demo3` have the mean 1815/204 ≈ 8.9, the answer is near 2418/204 ≈ 11.9; with no
significant digit asked for, half of the mean may be lost -/
example : sampleMean [(5, 3), (9, 200), (0, 1)] = 1815 / 204 ∧ spread Fp.ideal demo3 (1815 / 204) = 1815 / 408 ∧
    demo3.mean = .ok (.fin (6672612683199669 / 562949953421312)) := by
  refine ⟨by norm_num [sampleMean, numberAll], ?_, ?_⟩
  · have h1 : unit Fp.ideal demo3 = 1 := by decide
    unfold spread
    rw [h1, show demo3.sigfig = 0 from rfl]
    norm_num
  · decide +kernel

/-! ## C75: the standard deviation -/

theorem wsq_sum (c a : Nat → ℝ) (is : List Nat) : wsq c a is = (is.map fun i => a i ^ 2 * c i).sum := by
  induction is with
  | nil => rfl
  | cons i is ih => rw [List.map_cons, List.sum_cons, ← ih, show wsq c a (i :: is) = c i * a i ^ 2 + wsq c a is from rfl]; ring

theorem cast_sum (l : List (Nat × Nat)) (f : Nat × Nat → ℚ) : (((l.map f).sum : ℚ) : ℝ) = (l.map fun p => (f p : ℝ)).sum := by
  induction l with
  | nil => simp
  | cons p l ih => rw [List.map_cons, List.sum_cons, List.map_cons, List.sum_cons, Rat.cast_add, ih]

/-- the variance of the class medians, in terms of the samples -/
theorem Contains.variance {h : Hist T} {l : List (Nat × Nat)} (H : Contains h l) (W : WF fp h) {ms : List Nat}
    (hm : Medians h h.contents ms) :
    exactVariance h h.contents ms
      = meanSq l (fun y => (h.lmed (h.lidx y) : ℚ)) (exactMean h h.contents ms) := by
  have h1 : ((exactVariance h h.contents ms : ℚ) : ℝ)
      = ((meanSq l (fun y => (h.lmed (h.lidx y) : ℚ)) (exactMean h h.contents ms) : ℚ) : ℝ) := by
    unfold exactVariance meanSq
    generalize exactMean h h.contents ms = μ
    rw [W.classes_unique W.contents] at hm ⊢
    rw [Rat.cast_div, Rat.cast_div, W.weightedSq_eq μ _ WF.range_lt hm, wsq_sum, H.len]
    congr 1
    have h2 := sum_slots (R := ℝ) (h := h) (fun i => (((h.lmed i : ℚ) - μ : ℚ) : ℝ) ^ 2) h.counts.length l
      fun p hp => H.lidx W hp
    rw [cast_sum]
    refine Eq.trans ?_ (h2.trans ?_)
    · congr 1
      apply List.map_congr_left
      intro i hi
      rw [H.slot W (List.mem_range.mp hi)]
      rfl
    · congr 1
      apply List.map_congr_left
      intro p _
      push_cast
      rfl
  exact_mod_cast h1

/-- C75: the standard deviation is that of the samples up to half a unit plus half of one part in `10 ^ sigfig` of the largest
sample, and rounding. -/
theorem C75_stdev {h : Hist T} (R : Reachable fp T h) {l : List (Nat × Nat)} (H : Contains h l) (h0 : 0 < numberAll l) {m : Nat}
    (hm : ∀ p ∈ l, p.1 ≤ m) :
    ∃ s, h.stdev = .ok (.fin s) ∧
      |(s : ℝ) - sampleStdev l| ≤ ((spread fp h m + (m + spread fp h m) / 2 ^ 26 : ℚ) : ℝ) := by
  have W := R.wf
  have C := W.contents
  have hlen : h.len = numberAll l := H.len
  obtain ⟨ms, hms⟩ := C52_medians R C
  have hE : 0 ≤ spread fp h m := by unfold spread; positivity
  have hnear : ∀ p ∈ l, |(h.lmed (h.lidx p.1) : ℚ) - p.1| ≤ spread fp h m := by
    intro p hp
    refine le_trans (R.median_near (H.le W hp)) ?_
    unfold spread
    have h1 : (p.1 : ℚ) ≤ m := by exact_mod_cast hm p hp
    have h2 := div_le_div_of_nonneg_right h1 (by positivity : (0 : ℚ) ≤ 2 * 10 ^ h.sigfig)
    linarith
  have hb : MediansLe ⌊(m : ℚ) + spread fp h m⌋₊ h.contents ms := by
    refine mediansLe_of hms ?_
    intro c hc hne k ek
    obtain ⟨i, hi, rfl⟩ := (W.mem_classes C).mp hc
    rw [show (h.lcls i).lo = h.lval i from rfl, (W.median_top hi).2.1] at ek
    injection ek with ek
    rw [← ek]
    have hne : h.counts.getD i 0 ≠ 0 := hne
    rw [H.slot W hi, hits_eq_number] at hne
    obtain ⟨p, hp, rfl, -⟩ := number_pos hne
    have h1 := hnear p hp
    have h2 : (p.1 : ℚ) ≤ m := by exact_mod_cast hm p hp
    rw [abs_le] at h1
    refine Nat.le_floor ?_
    show (h.lmed (h.lidx p.1) : ℚ) ≤ _
    linarith [h1.2]
  obtain ⟨s, e, h1, -⟩ := C64_stdev R C hms (by omega) (by rw [W.sum_classes C, H.sum W, hlen]) hb
  refine ⟨s, e, ?_⟩
  have hfl : ((⌊(m : ℚ) + spread fp h m⌋₊ : ℚ) : ℝ) ≤ ((m + spread fp h m : ℚ) : ℝ) :=
    Rat.cast_le.mpr (Nat.floor_le (by positivity))
  have hμ : exactMean h h.contents ms = avg l fun y => (h.lmed (h.lidx y) : ℚ) := H.medianMean W hms
  have d1 : exactStdev h h.contents ms ≤ sampleStdev l + (spread fp h m : ℚ) := by
    unfold exactStdev sampleStdev
    rw [H.variance W hms, hμ]
    refine le_trans (Real.sqrt_le_sqrt (Rat.cast_le.mpr (meanSq_min h0 _ (sampleMean l)))) ?_
    exact meanSq_shift h0 hE _ hnear
  have d2 : sampleStdev l ≤ exactStdev h h.contents ms + (spread fp h m : ℚ) := by
    unfold exactStdev sampleStdev
    rw [H.variance W hms]
    refine le_trans (Real.sqrt_le_sqrt (Rat.cast_le.mpr (meanSq_min h0 (fun y => (y : ℚ)) (exactMean h h.contents ms)))) ?_
    exact meanSq_shift h0 hE _ fun p hp => by rw [abs_sub_comm]; exact hnear p hp
  rw [Rat.cast_natCast] at hfl
  rw [Rat.cast_add, Rat.cast_div, show (((2 ^ 26 : ℚ)) : ℝ) = 2 ^ 26 by norm_num]
  generalize (⌊(m : ℚ) + spread fp h m⌋₊ : ℝ) = b at *
  generalize ((m + spread fp h m : ℚ) : ℝ) = M at *
  generalize ((spread fp h m : ℚ) : ℝ) = E at *
  generalize exactStdev h h.contents ms = σ at *
  generalize sampleStdev l = τ at *
  rw [abs_le] at h1 ⊢
  have h2 : b / 2 ^ 26 ≤ M / 2 ^ 26 := div_le_div_of_nonneg_right hfl (by positivity)
  generalize b / 2 ^ 26 = b' at *
  generalize M / 2 ^ 26 = M' at *
  constructor <;> linarith [h1.1, h1.2]

/-- an instance: the samples of `demo3` vary by 0.8, the answer is 1.1; with no significant digit asked for, half of the largest
sample may be lost -/
example : sampleVariance [(5, 3), (9, 200), (0, 1)] = 2875 / 4624 ∧
    demo3.stdev = .ok (.fin (4961462269272499 / 4503599627370496)) ∧ (∀ p ∈ [(5, 3), (9, 200), (0, 1)], p.1 ≤ 9) := by
  refine ⟨by norm_num [sampleVariance, sampleMean, numberAll], by decide +kernel, by decide⟩

end Hdr
