import Verif.Props.AddStats
import Verif.Props.Rebuild
import Verif.Props.Twin
import Verif.Props.Wire

/-!
# C116, C117: histograms of the same samples cannot be told apart, collecting them as bytes
-/

namespace Hdr

variable {T : CounterTy} {fp : Fp}

/-- C116 (1): two histograms of the same counter type, configuration and auto-resize setting that hold the same samples
and have exact statistics are `==`, and no program can tell them apart (`Alike`, see C97), however they were made. -/
theorem C116_same {h g : Hist T} (R : Reachable fp T h) (Rg : Reachable fp T g) (S : SameSettings h g)
    (ha : h.isAutoResize = g.isAutoResize) {l : List (Nat × Nat)} (H : Contains h l) (G : Contains g l)
    {cs ds : List Cls} (C : Classes h cs) (D : Classes g ds) (X : ExactStats h cs) (Y : ExactStats g ds) :
    h.eq g = .ok true ∧ Alike fp ⟨T, h⟩ ⟨T, g⟩ := by
  have W := R.wf
  have Wg := Rg.wf
  obtain ⟨s1, s2⟩ := W.same_slots Wg S.low S.sigfig
  have hidx : ∀ v, h.lidx v = g.lidx v := fun v => by unfold Hist.lidx; rw [s1, s2]
  have hval : ∀ v, h.lval v = g.lval v := fun v => by unfold Hist.lval; rw [s1, s2]
  have hhi : ∀ v, h.lhi v = g.lhi v := fun v => by unfold Hist.lhi Hist.llo Hist.lwid; rw [s1, s2]
  have hlen : h.counts.length = g.counts.length := by
    rw [W.len, Wg.len, s2, W.same_bc Wg S.low S.high S.sigfig]
  have hc : h.counts = g.counts := by
    refine List.ext_getElem hlen fun i hi hi' => ?_
    have h1 := H.all W i
    have h2 := G.all Wg i
    have h3 : h.hits l i = g.hits l i := by rw [hits_eq_number, hits_eq_number]; simp only [hidx]
    rw [h3, ← h2] at h1
    simpa [List.getD, hi, hi'] using h1
  obtain ⟨-, x2, x3⟩ := (W.exactStats_iff C).mp X
  obtain ⟨-, y2, y3⟩ := (Wg.exactStats_iff D).mp Y
  have e : h.eq g = .ok true := by
    obtain ⟨b, e, hb⟩ := W.eq_spec Wg
    rw [e, hb.mpr ⟨S.low, S.sigfig, H.len.trans G.len.symm, ?_, ?_, by rw [hc]⟩]
    · rw [x2, y2, hc]
      simp only [hval, hhi]
    · rw [x3, y3]
      unfold Hist.scanMin
      rw [hc]
      simp only [hval]
  exact ⟨e, T, h, g, rfl, rfl, R, Rg, e, S.high, ha⟩

theorem counts_below {h0 x : Hist T} (W0 : WF fp h0) (W : WF fp x) (hidx : ∀ v, x.lidx v = h0.lidx v) {k : List (Nat × Nat)}
    (K : Contains x k) {N : Nat} (hfit : ∀ w, w ≤ U64MAX → (number k fun v => Equiv h0 v w) < N) :
    ∀ c ∈ x.contents, c.count < N := by
  intro c hc
  obtain ⟨i, hi, rfl⟩ := (W.mem_classes W.contents).mp hc
  have e : (x.lcls i).count = x.counts.getD i 0 := rfl
  have hv : x.lval i ≤ U64MAX := W.lval_le hi
  have h1 := hfit (x.lval i) hv
  rw [number_equiv W0 (fun p hp => K.le W hp) hv, hits_eq_number, ← hidx,
    show x.lidx (x.lval i) = i from Lay.idx_val] at h1
  rw [e, K.slot W hi, hits_eq_number]
  simp only [hidx]
  exact h1

private theorem fits {a b : Hist T} (Wa : WF fp a) (Wb : WF fp b) {l l' : List (Nat × Nat)} (Ka : Contains a l) (Kb : Contains b l')
    (hidx : ∀ v, b.lidx v = a.lidx v) (hle : ∀ p ∈ l ++ l', p.1 ≤ U64MAX)
    (hfit : ∀ w, w ≤ U64MAX → (number (l ++ l') fun v => Equiv a v w) ≤ T.max) :
    ∀ c ∈ a.contents, ∀ d ∈ b.contents, c.lo = d.lo → c.count + d.count ≤ T.max := by
  intro c hc d hd e
  obtain ⟨i, hi, rfl⟩ := (Wa.mem_classes Wa.contents).mp hc
  obtain ⟨j, hj, rfl⟩ := (Wb.mem_classes Wb.contents).mp hd
  have e : a.lval i = b.lval j := e
  have hij : i = j := by
    have h1 : a.lidx (a.lval i) = i := Lay.idx_val
    have h2 : b.lidx (b.lval j) = j := Lay.idx_val
    rw [← e, hidx, h1] at h2
    exact h2
  subst hij
  have h1 := hfit _ (Wa.lval_le hi)
  rw [number_equiv Wa hle (Wa.lval_le hi), hits_eq_number, number_append, show a.lidx (a.lval i) = i from Lay.idx_val] at h1
  have e1 : (a.lcls i).count = a.counts.getD i 0 := rfl
  have e2 : (b.lcls i).count = b.counts.getD i 0 := rfl
  rw [e1, e2, Ka.slot Wa hi, Kb.slot Wb hj, hits_eq_number, hits_eq_number]
  simp only [hidx]
  exact h1

theorem record_blank {h0 : Hist T} (R0 : Reachable fp T h0) (B : Blank h0) {k : List (Nat × Nat)}
    (hl : ∀ p ∈ k, h0.Covers p.1 ∧ 0 < p.2 ∧ p.2 ≤ T.max)
    (hfit : ∀ w, w ≤ U64MAX → (number k fun v => Equiv h0 v w) ≤ T.max) (htot : numberAll k ≤ U64MAX)
    (htop : ∀ p ∈ k, ¬ Equiv h0 p.1 U64MAX) (hz : h0.unitMag = 0 ∨ ∃ p ∈ k, p.1 ≠ 0) :
    ∃ a, recordSeq k h0 = .ok (a, .ok ()) ∧ Reachable fp T a ∧ Contains a k ∧ ExactStats a a.contents ∧
      SameConfig h0 a ∧ a.highestTrackable = h0.highestTrackable ∧
      a.lidx a.lmax ≠ a.lidx U64MAX := by
  have W0 := R0.wf
  have hce := W0.coverEnd_le
  have hv : ∀ p ∈ k, p.1 ≤ U64MAX ∧ p.2 ≤ T.max := fun p hp => by
    have := (hl p hp).1
    unfold Hist.Covers at this
    exact ⟨by omega, (hl p hp).2.2⟩
  obtain ⟨a, e, a1, a2, a3⟩ := W0.recordSeq_covered hv fun p hp => (W0.covers_iff _).mp (hl p hp).1
  have R := reachable_recordSeq R0 hv e
  have W := R.wf
  have K : Contains a k := by
    have := C71_record R0 (C71_empty R0 B.len) hv e hfit htot
    simpa using this
  have c : SameConfig h0 a := by
    obtain ⟨h3, r3, e3, -, E⟩ := W0.recordSeq_spec k hv
    rw [e3] at e; cases e
    exact E.1.cfg
  have X := (recordSeq_exactStats_of_total R0 B hv (fun p hp => (hl p hp).2.1) e W.contents (K.exact W) htop hz).1
  refine ⟨a, e, R, K, X, c, a1, ?_⟩
  obtain ⟨-, x2, -⟩ := (W.exactStats_iff W.contents).mp X
  have hlast := lastNz_spec a.counts 0
  cases hi : lastNz a.counts 0 with
  | none =>
    rw [hi] at x2
    rw [x2, show a.lidx 0 = 0 from Lay.idx_zero]
    intro q
    have := W.minpos
    have h1 : a.lidx a.minNonZero ≤ a.lidx U64MAX := Lay.idx_mono W.minle
    omega
  | some i =>
    rw [hi] at x2 hlast
    obtain ⟨-, hil, hin, -⟩ := hlast
    rw [Nat.sub_zero] at hil hin
    dsimp only at x2
    rw [x2, lidx_lhi (W.lval_le hil), show a.lidx (a.lval i) = i from Lay.idx_val]
    rw [K.slot W hil, hits_eq_number] at hin
    obtain ⟨p, hp, e1, -⟩ := number_pos hin
    intro q
    refine htop p hp ((W0.equiv_iff (hv p hp).1 le_rfl).mpr ?_)
    rw [← c.lidx, ← c.lidx, e1, q]

/-- a histogram that came from the blank `h0` and reports its samples `k` exactly -/
structure Made (fp : Fp) (h0 a : Hist T) (k : List (Nat × Nat)) : Prop where
  R : Reachable fp T a
  K : Contains a k
  X : ExactStats a a.contents
  c : SameConfig h0 a
  t : a.highestTrackable = h0.highestTrackable

theorem Made.add {h0 a b : Hist T} (W0 : WF fp h0) {l l' : List (Nat × Nat)} (A : Made fp h0 a l) (D : Made fp h0 b l')
    (hle : ∀ p ∈ l ++ l', p.1 ≤ U64MAX) (hpos : ∀ p ∈ l', 0 < p.2)
    (hfit : ∀ w, w ≤ U64MAX → (number (l ++ l') fun v => Equiv h0 v w) ≤ T.max) (htot : numberAll (l ++ l') ≤ U64MAX)
    (nb : b.lidx b.lmax ≠ b.lidx U64MAX) : ∃ m, a.add b = .ok (m, .ok ()) ∧ Made fp h0 m (l ++ l') := by
  obtain ⟨Ra, Ka, Xa, ca, ta⟩ := A
  obtain ⟨Rb, Kb, Xb, cb, tb⟩ := D
  have Wa := Ra.wf
  have Wb := Rb.wf
  have S : SameSettings a b := ⟨ca.low.trans cb.low.symm, ta.trans tb.symm, ca.sig.trans cb.sig.symm⟩
  have hmx : b.max ≠ .ok U64MAX := fun q => nb (by rw [Wb.max_eq] at q; rw [Except.ok.inj q])
  obtain ⟨m, em, -, -, -, -, -, -, k⟩ := C17_add_same_partial Ra Rb S (.inl hmx)
  obtain ⟨k1, k2⟩ := k hmx
  have Rm : Reachable fp T m := .add Ra Rb em
  have Wm := Rm.wf
  have hfit' : ∀ w, w ≤ U64MAX → (number (l ++ l') fun v => Equiv a v w) ≤ T.max := fun w hw => by
    have h1 := hfit w hw
    rw [number_equiv W0 hle hw, hits_eq_number] at h1
    rw [number_equiv Wa hle hw, hits_eq_number]
    simp only [ca.lidx]
    exact h1
  have Km : Contains m (l ++ l') := C71_add Ra Rb Ka Kb
    (fun x y hx hy q => by
      rw [Wa.equiv_iff hx hy, ca.lidx, ca.lidx]
      rw [Wb.equiv_iff hx hy, cb.lidx, cb.lidx] at q
      exact q) em (fun p hp => (hpos p hp).ne') hfit' htot
  have Xm := C115_add Ra Rb S Wa.contents Wb.contents Wm.contents Xa Xb Wb.max_eq
    (by rw [Wb.equiv_iff lmax_le le_rfl]; exact nb) em (fits Wa Wb Ka Kb (fun v => (cb.lidx v).trans (ca.lidx v).symm) hle hfit')
  exact ⟨m, em, Rm, Km, Xm, ⟨k2.trans ca.auto, k1.low.trans ca.low, k1.sigfig.trans ca.sig,
    (Wm.same_slots Wa k1.low k1.sigfig).1.trans ca.um, (Wm.same_slots Wa k1.low k1.sigfig).2.trans ca.mag⟩, k1.high.trans ta⟩

theorem Made.alike {h0 m g : Hist T} {k : List (Nat × Nat)} (A : Made fp h0 m k) (B : Made fp h0 g k) :
    m.eq g = .ok true ∧ Alike fp ⟨T, m⟩ ⟨T, g⟩ :=
  C116_same A.R B.R ⟨A.c.low.trans B.c.low.symm, A.t.trans B.t.symm, A.c.sig.trans B.c.sig.symm⟩
    (A.c.auto.trans B.c.auto.symm) A.K B.K A.R.wf.contents B.R.wf.contents A.X B.X

/-- C116 (2): Recording samples into two histograms and adding them up cannot be told apart from recording them all into one.
`h0` is a blank histogram, `l` and `l'` are samples in its range; no counter overflows, no sample is in the class of
`u64::MAX`, and with a unit above 1 both have a sample that is not 0. -/
theorem C116_merge {h0 : Hist T} (R0 : Reachable fp T h0) (B : Blank h0) {l l' : List (Nat × Nat)}
    (hl : ∀ p ∈ l ++ l', h0.Covers p.1 ∧ 0 < p.2 ∧ p.2 ≤ T.max)
    (hfit : ∀ w, w ≤ U64MAX → (number (l ++ l') fun v => Equiv h0 v w) ≤ T.max) (htot : numberAll (l ++ l') ≤ U64MAX)
    (htop : ∀ p ∈ l ++ l', ¬ Equiv h0 p.1 U64MAX)
    (hz : h0.highestEquivalent 0 = .ok 0 ∨ (∃ p ∈ l, p.1 ≠ 0) ∧ ∃ p ∈ l', p.1 ≠ 0) :
    ∃ a b m g, recordSeq l h0 = .ok (a, .ok ()) ∧ recordSeq l' h0 = .ok (b, .ok ()) ∧ a.add b = .ok (m, .ok ()) ∧
      recordSeq (l ++ l') h0 = .ok (g, .ok ()) ∧ m.eq g = .ok true ∧ Alike fp ⟨T, m⟩ ⟨T, g⟩ := by
  have W0 := R0.wf
  have hnum := fun w => number_append l l' fun v => Equiv h0 v w
  have hall := numberAll_append l l'
  replace hz := hz.imp_left W0.unit_one
  obtain ⟨a, ea, Ra, Ka, Xa, ca, ta, -⟩ := record_blank R0 B (k := l) (fun p hp => hl p (by simp [hp]))
    (fun w hw => by have := hfit w hw; have := hnum w; omega) (by omega) (fun p hp => htop p (by simp [hp]))
    (hz.imp_right And.left)
  obtain ⟨b, eb, Rb, Kb, Xb, cb, tb, nb⟩ := record_blank R0 B (k := l') (fun p hp => hl p (by simp [hp]))
    (fun w hw => by have := hfit w hw; have := hnum w; omega) (by omega) (fun p hp => htop p (by simp [hp]))
    (hz.imp_right And.right)
  obtain ⟨g, eg, Rg, Kg, Xg, cg, tg, -⟩ := record_blank R0 B (k := l ++ l') hl hfit htot htop
    (hz.imp_right fun ⟨⟨p, hp, h1⟩, _⟩ => ⟨p, by simp [hp], h1⟩)
  have hle : ∀ p ∈ l ++ l', p.1 ≤ U64MAX := fun p hp => Kg.le Rg.wf hp
  obtain ⟨m, em, A⟩ := Made.add W0 ⟨Ra, Ka, Xa, ca, ta⟩ ⟨Rb, Kb, Xb, cb, tb⟩ hle (fun p hp => (hl p (by simp [hp])).2.1) hfit htot nb
  exact ⟨a, b, m, g, ea, eb, em, eg, A.alike ⟨Rg, Kg, Xg, cg, tg⟩⟩

private theorem sum_made {h0 : Hist T} (R0 : Reachable fp T h0) (B : Blank h0) : ∀ {ls : List (List (Nat × Nat))} {k : List (Nat × Nat)}
    {x : Hist T}, Made fp h0 x k → (∀ p ∈ k ++ ls.flatten, h0.Covers p.1 ∧ 0 < p.2 ∧ p.2 ≤ T.max) →
    (∀ w, w ≤ U64MAX → (number (k ++ ls.flatten) fun v => Equiv h0 v w) ≤ T.max) → numberAll (k ++ ls.flatten) ≤ U64MAX →
    (∀ p ∈ k ++ ls.flatten, ¬ Equiv h0 p.1 U64MAX) → (∀ l ∈ ls, h0.unitMag = 0 ∨ ∃ p ∈ l, p.1 ≠ 0) →
    ∃ hs m, List.Forall₂ (fun l a => recordSeq l h0 = .ok (a, .ok ())) ls hs ∧ Hist.sumLoop x hs = .ok m ∧
      Made fp h0 m (k ++ ls.flatten) := by
  intro ls
  have W0 := R0.wf
  have hce := W0.coverEnd_le
  induction ls with
  | nil => intro k x A _ _ _ _ _; exact ⟨[], x, .nil, rfl, by simpa using A⟩
  | cons l ls ih =>
    intro k x A hl hfit htot htop hz
    have e1 : k ++ (l :: ls).flatten = (k ++ l) ++ ls.flatten := by simp
    rw [e1] at hl hfit htot htop ⊢
    have n1 := fun w => number_append (k ++ l) ls.flatten fun v => Equiv h0 v w
    have n2 := fun w => number_append k l fun v => Equiv h0 v w
    have n3 := numberAll_append (k ++ l) ls.flatten
    have n4 := numberAll_append k l
    obtain ⟨b, eb, Rb, Kb, Xb, cb, tb, nb⟩ := record_blank R0 B (k := l) (fun p hp => hl p (by simp [hp]))
      (fun w hw => by have := hfit w hw; have := n1 w; have := n2 w; omega) (by omega) (fun p hp => htop p (by simp [hp]))
      (hz l (by simp))
    obtain ⟨m, em, A'⟩ := A.add W0 ⟨Rb, Kb, Xb, cb, tb⟩ (fun p hp => by
        have := (hl p (by rw [List.mem_append]; exact .inl hp)).1
        unfold Hist.Covers at this
        omega)
      (fun p hp => (hl p (by simp [hp])).2.1)
      (fun w hw => by have := hfit w hw; have := n1 w; omega) (by omega) nb
    obtain ⟨hs, m', hf, es, A2⟩ := ih A' hl hfit htot htop fun l hl => hz l (by simp [hl])
    refine ⟨b :: hs, m', .cons eb hf, ?_, A2⟩
    simp only [Hist.sumLoop, Hist.addAssign, em, M.ok_bind]
    exact es

/-- C116 (3): so for any number of parts: recording each part into a copy of the blank `h0` and summing the histograms up
(`iter::Sum`) cannot be told apart from recording all samples into one. -/
theorem C116_sum {h0 : Hist T} (R0 : Reachable fp T h0) (B : Blank h0) {ls : List (List (Nat × Nat))} (hne : ls ≠ [])
    (hl : ∀ p ∈ ls.flatten, h0.Covers p.1 ∧ 0 < p.2 ∧ p.2 ≤ T.max)
    (hfit : ∀ w, w ≤ U64MAX → (number ls.flatten fun v => Equiv h0 v w) ≤ T.max) (htot : numberAll ls.flatten ≤ U64MAX)
    (htop : ∀ p ∈ ls.flatten, ¬ Equiv h0 p.1 U64MAX)
    (hz : h0.highestEquivalent 0 = .ok 0 ∨ ∀ l ∈ ls, ∃ p ∈ l, p.1 ≠ 0) :
    ∃ hs m g, List.Forall₂ (fun l a => recordSeq l h0 = .ok (a, .ok ())) ls hs ∧ Hist.sum fp hs = .ok m ∧
      recordSeq ls.flatten h0 = .ok (g, .ok ()) ∧ m.eq g = .ok true ∧ Alike fp ⟨T, m⟩ ⟨T, g⟩ := by
  have W0 := R0.wf
  replace hz : ∀ l ∈ ls, h0.unitMag = 0 ∨ ∃ p ∈ l, p.1 ≠ 0 := fun l hl =>
    hz.elim (fun q => .inl (W0.unit_one q)) fun q => .inr (q l hl)
  cases ls with
  | nil => exact absurd rfl hne
  | cons l ls =>
    rw [List.flatten_cons] at *
    have n1 := fun w => number_append l ls.flatten fun v => Equiv h0 v w
    have n2 := numberAll_append l ls.flatten
    obtain ⟨g, eg, Rg, Kg, Xg, cg, tg, -⟩ := record_blank R0 B hl hfit htot htop
      ((hz l (by simp)).imp_right fun ⟨p, hp, h1⟩ => ⟨p, by simp [hp], h1⟩)
    obtain ⟨b, eb, Rb, Kb, Xb, cb, tb, -⟩ := record_blank R0 B (k := l) (fun p hp => hl p (by simp [hp]))
      (fun w hw => by have := hfit w hw; have := n1 w; omega) (by omega) (fun p hp => htop p (by simp [hp]))
      (hz l (by simp))
    obtain ⟨hs, m, hf, es, A⟩ := sum_made R0 B ⟨Rb, Kb, Xb, cb, tb⟩ hl hfit htot htop fun l hl => hz l (by simp [hl])
    exact ⟨b :: hs, m, g, .cons eb hf, es, eg, A.alike ⟨Rg, Kg, Xg, cg, tg⟩⟩

/-- both in `demo`: 5 and 9 on one side, 0 and 5 on the other -/
example : ∃ a b m g, recordSeq [(5, 3), (9, 20)] demo = .ok (a, .ok ()) ∧ recordSeq [(0, 1), (5, 2)] demo = .ok (b, .ok ()) ∧
    a.add b = .ok (m, .ok ()) ∧ recordSeq ([(5, 3), (9, 20)] ++ [(0, 1), (5, 2)]) demo = .ok (g, .ok ()) ∧
    m.eq g = .ok true ∧ Alike Fp.ideal ⟨.u8, m⟩ ⟨.u8, g⟩ :=
  C116_merge demo_reachable (Blank.newWithBounds (by decide) demo_eq) (by decide +kernel)
    (fun w _ => le_trans (number_le_all _ _) (by decide)) (by decide)
    (by unfold Equiv; decide) (.inl (by decide))

/-- three parts, one of them empty; 8 and 9 are equivalent, so one counter is exactly full -/
example : ∃ hs m g, List.Forall₂ (fun l a => recordSeq l demo = .ok (a, .ok ())) [[(9, 200)], [], [(9, 50), (8, 5)]] hs ∧
    Hist.sum Fp.ideal hs = .ok m ∧ recordSeq [[(9, 200)], [], [(9, 50), (8, 5)]].flatten demo = .ok (g, .ok ()) ∧
    m.eq g = .ok true ∧ Alike Fp.ideal ⟨.u8, m⟩ ⟨.u8, g⟩ :=
  C116_sum demo_reachable (Blank.newWithBounds (by decide) demo_eq) (by decide) (by decide +kernel)
    (fun w _ => le_trans (number_le_all _ _) (by decide)) (by decide)
    (by unfold Equiv; decide) (.inl (by decide))

/-! ## C117 -/

private theorem near_top {h : Hist T} (hu : h.unitMag ≠ 0) : h.lidx (U64MAX - 1) = h.lidx U64MAX := by
  have hl : Nat.log2 (U64MAX - 1) = Nat.log2 U64MAX := by decide
  show Lay.idx _ _ _ = Lay.idx _ _ _
  unfold Lay.idx Lay.wid Lay.bkt
  rw [hl]
  congr 1
  generalize Nat.log2 U64MAX - _ = b
  obtain ⟨j, hj⟩ : ∃ j, h.unitMag + b = 1 + j := ⟨h.unitMag + b - 1, by omega⟩
  rw [hj, Nat.pow_add, ← Nat.div_div_eq_div_mul, ← Nat.div_div_eq_div_mul]
  rfl

/-- reading back a histogram recorded from a blank one: nothing is lost, whatever follows -/
theorem Made.read {h0 a : Hist T} {k : List (Nat × Nat)} (ha : h0.isAutoResize = false) (A : Made fp h0 a k)
    (hfit : ∀ w, w ≤ U64MAX → (number k fun v => Equiv h0 v w) ≤ T.max) (W0 : WF fp h0)
    (nb : a.lidx a.lmax ≠ a.lidx U64MAX) {b : List UInt8} (e : Encodes ⟨T, a⟩ b) (z : V2.Zlib) (checks : Bool) :
    ∃ g : Hist T, (∀ tail, V2.deserialize fp z T checks (b ++ tail) = .ok (.ok (g, tail))) ∧ Made fp h0 g k ∧
      g.lidx g.lmax ≠ g.lidx U64MAX := by
  obtain ⟨R, K, X, c, t⟩ := A
  have W := R.wf
  obtain ⟨junk, e⟩ := e
  have hle : ∀ p ∈ k, p.1 ≤ U64MAX := fun p hp => K.le W hp
  obtain ⟨g, d, Rg, Kg, -⟩ := C71_serialize R K e z checks T fun w hw => by
    have h1 := hfit w hw
    rw [number_equiv W0 hle hw, hits_eq_number] at h1
    rw [number_equiv W hle hw, hits_eq_number]
    simp only [c.lidx]
    exact h1
  obtain ⟨ts, rfl, -, h1, h2, h3, -⟩ := wire_of_ok W e
  have d' := fun tail => V2.deserialize_wire W z T checks h1 h2 h3 W.cmax tail
  have hg : g = asRead T a := by
    have := d' []
    rw [List.append_nil, d] at this
    cases this
    rfl
  subst hg
  have Wg := Rg.wf
  have hx : a.max = .ok (U64MAX - 1) → a.unitMag = 0 := fun q => by
    by_contra hu
    rw [W.max_eq] at q
    have q := Except.ok.inj q
    apply nb
    rw [q]
    exact near_top hu
  obtain ⟨b1, -⟩ := decoded_eq_both W W.contents X hx Wg
  obtain ⟨b, eb, hb⟩ := W.eq_spec Wg
  rw [b1] at eb
  obtain ⟨-, -, f1, f2, f3, -⟩ := hb.mp (Except.ok.inj eb).symm
  obtain ⟨x1, x2, x3⟩ := (W.exactStats_iff W.contents).mp X
  refine ⟨asRead T a, d', ⟨Rg, Kg, (Wg.exactStats_iff Wg.contents).mpr ⟨f1.symm.trans x1, f2.symm.trans x2, f3.symm.trans x3⟩,
    ⟨ha.symm, c.low, c.sig, c.um, c.mag⟩, t⟩, ?_⟩
  rw [← f2]
  exact nb

theorem sum_parts {h0 : Hist T} (W0 : WF fp h0) : ∀ {ls : List (List (Nat × Nat))} {gs : List (Hist T)},
    List.Forall₂ (fun l b => Made fp h0 b l ∧ b.lidx b.lmax ≠ b.lidx U64MAX) ls gs → ∀ {k : List (Nat × Nat)} {x : Hist T},
    Made fp h0 x k → (∀ p ∈ k ++ ls.flatten, h0.Covers p.1 ∧ 0 < p.2) →
    (∀ w, w ≤ U64MAX → (number (k ++ ls.flatten) fun v => Equiv h0 v w) ≤ T.max) → numberAll (k ++ ls.flatten) ≤ U64MAX →
    ∃ m, Hist.sumLoop x gs = .ok m ∧ Made fp h0 m (k ++ ls.flatten) := by
  intro ls gs F
  have hce := W0.coverEnd_le
  induction F with
  | nil => intro k x A _ _ _; exact ⟨x, rfl, by simpa using A⟩
  | @cons l b ls gs hb _ ih =>
    intro k x A hl hfit htot
    have e1 : k ++ (l :: ls).flatten = (k ++ l) ++ ls.flatten := by simp
    rw [e1] at hl hfit htot ⊢
    have n1 := fun w => number_append (k ++ l) ls.flatten fun v => Equiv h0 v w
    have n3 := numberAll_append (k ++ l) ls.flatten
    obtain ⟨m, em, A'⟩ := A.add W0 hb.1 (fun p hp => by
        have := (hl p (by rw [List.mem_append]; exact .inl hp)).1
        unfold Hist.Covers at this
        omega)
      (fun p hp => (hl p (by simp [hp])).2)
      (fun w hw => by have := hfit w hw; have := n1 w; omega) (by omega) hb.2
    obtain ⟨m', es, A2⟩ := ih A' hl hfit htot
    refine ⟨m', ?_, A2⟩
    simp only [Hist.sumLoop, Hist.addAssign, em, M.ok_bind]
    exact es

/-- the histograms recorded from the parts, and what is read back from their encodings -/
private theorem parts_read {h0 : Hist T} (R0 : Reachable fp T h0) (B : Blank h0) (ha : h0.isAutoResize = false) (z : V2.Zlib)
    (checks : Bool) (tail : List UInt8) {P : Hist T → List UInt8 → Prop}
    (hP : ∀ {a b}, Reachable fp T a → P a b → (∀ c ∈ a.contents, c.count ≤ T.max) → ∃ b', Encodes ⟨T, a⟩ b' ∧ ∀ tail g,
      V2.deserialize fp z T checks (b' ++ tail) = .ok (.ok (g, tail)) →
      V2.deserialize fp z T checks (b ++ tail) = .ok (.ok (g, tail))) :
    ∀ {ls : List (List (Nat × Nat))}, (∀ p ∈ ls.flatten, h0.Covers p.1 ∧ 0 < p.2 ∧ p.2 ≤ T.max) →
    (∀ w, w ≤ U64MAX → (number ls.flatten fun v => Equiv h0 v w) ≤ T.max ∧
      (number ls.flatten fun v => Equiv h0 v w) < 9223372036854775808) → numberAll ls.flatten ≤ U64MAX →
    (∀ p ∈ ls.flatten, ¬ Equiv h0 p.1 U64MAX) → (∀ l ∈ ls, h0.unitMag = 0 ∨ ∃ p ∈ l, p.1 ≠ 0) →
    ∃ hs, List.Forall₂ (fun l a => recordSeq l h0 = .ok (a, .ok ())) ls hs ∧ (∀ a ∈ hs, ∃ b, Encodes ⟨T, a⟩ b) ∧
      ∀ {bs : List (List UInt8)}, List.Forall₂ P hs bs → ∃ gs : List (Hist T),
        readAll fp z checks (ls.map fun _ => T) (bs.flatten ++ tail) = .ok (.ok (gs.map fun g => ⟨T, g⟩, tail)) ∧
        List.Forall₂ (fun l b => Made fp h0 b l ∧ b.lidx b.lmax ≠ b.lidx U64MAX) ls gs := by
  intro ls
  have W0 := R0.wf
  induction ls with
  | nil =>
    intro _ _ _ _ _
    exact ⟨[], .nil, by simp, fun F => by cases F; exact ⟨[], rfl, .nil⟩⟩
  | cons l ls ih =>
    intro hl hfit htot htop hz
    rw [List.flatten_cons] at hl hfit htot htop
    have n1 := fun w => number_append l ls.flatten fun v => Equiv h0 v w
    have n2 := numberAll_append l ls.flatten
    have hf1 : ∀ w, w ≤ U64MAX → (number l fun v => Equiv h0 v w) ≤ T.max := fun w hw => by
      have := (hfit w hw).1; have := n1 w; omega
    have hf2 : ∀ w, w ≤ U64MAX → (number l fun v => Equiv h0 v w) < 9223372036854775808 := fun w hw => by
      have := (hfit w hw).2; have := n1 w; omega
    obtain ⟨hs, F, E, G⟩ := ih (fun p hp => hl p (List.mem_append_right _ hp))
      (fun w hw => by have := (hfit w hw).1; have := (hfit w hw).2; have := n1 w; omega) (by omega)
      (fun p hp => htop p (List.mem_append_right _ hp)) fun l hl => hz l (by simp [hl])
    obtain ⟨a, ea, Ra, Ka, Xa, ca, ta, na⟩ := record_blank R0 B (k := l) (fun p hp => hl p (by simp [hp])) hf1 (by omega)
      (fun p hp => htop p (by simp [hp])) (hz l (by simp))
    refine ⟨a :: hs, .cons ea F, fun x hx => ?_, fun F' => ?_⟩
    · rcases List.mem_cons.mp hx with rfl | hx
      · obtain ⟨b, n, e⟩ := (C41_serialize_outcome Ra Ra.wf.contents (fun _ => 0)).2.1 fun c hc =>
          Nat.le_of_lt_succ (counts_below W0 Ra.wf ca.lidx Ka hf2 c hc)
        obtain ⟨ts, -, rfl, -⟩ := wire_of_ok Ra.wf e
        exact ⟨b, _, e⟩
      · exact E x hx
    · cases F' with
      | @cons _ b _ bs hb F' =>
        obtain ⟨gs, er, Fg⟩ := G F'
        obtain ⟨b', hb', hd⟩ := hP Ra hb fun c hc => Nat.le_of_lt_succ (counts_below W0 Ra.wf ca.lidx Ka (fun w hw => Nat.lt_succ_of_le (hf1 w hw)) c hc)
        obtain ⟨g, d, A, ng⟩ := Made.read ha ⟨Ra, Ka, Xa, ca, ta⟩ hf1 W0 na hb' z checks
        refine ⟨g :: gs, ?_, .cons ⟨A, ng⟩ Fg⟩
        simp only [List.map_cons, List.flatten_cons, List.append_assoc, readAll, hd _ _ (d _), M.ok_bind, er]

/-- the end of both theorems of C117 -/
private theorem collect {h0 : Hist T} (R0 : Reachable fp T h0) (B : Blank h0) (ha : h0.isAutoResize = false)
    {ls : List (List (Nat × Nat))} (hne : ls ≠ []) (hl : ∀ p ∈ ls.flatten, h0.Covers p.1 ∧ 0 < p.2 ∧ p.2 ≤ T.max)
    (hfit : ∀ w, w ≤ U64MAX → (number ls.flatten fun v => Equiv h0 v w) ≤ T.max ∧
      (number ls.flatten fun v => Equiv h0 v w) < 9223372036854775808) (htot : numberAll ls.flatten ≤ U64MAX)
    (htop : ∀ p ∈ ls.flatten, ¬ Equiv h0 p.1 U64MAX) (hz : h0.highestEquivalent 0 = .ok 0 ∨ ∀ l ∈ ls, ∃ p ∈ l, p.1 ≠ 0)
    (z : V2.Zlib) (checks : Bool) (tail : List UInt8) {P : Hist T → List UInt8 → Prop}
    (hP : ∀ {a b}, Reachable fp T a → P a b → (∀ c ∈ a.contents, c.count ≤ T.max) → ∃ b', Encodes ⟨T, a⟩ b' ∧ ∀ tail g,
      V2.deserialize fp z T checks (b' ++ tail) = .ok (.ok (g, tail)) →
      V2.deserialize fp z T checks (b ++ tail) = .ok (.ok (g, tail))) :
    ∃ hs g, List.Forall₂ (fun l a => recordSeq l h0 = .ok (a, .ok ())) ls hs ∧ recordSeq ls.flatten h0 = .ok (g, .ok ()) ∧
      (∀ a ∈ hs, ∃ b, Encodes ⟨T, a⟩ b) ∧
      ∀ {bs : List (List UInt8)}, List.Forall₂ P hs bs → ∃ (gs : List (Hist T)) (m : Hist T),
        readAll fp z checks (ls.map fun _ => T) (bs.flatten ++ tail) = .ok (.ok (gs.map fun g => ⟨T, g⟩, tail)) ∧
        Hist.sum fp gs = .ok m ∧ m.eq g = .ok true ∧ Alike fp ⟨T, m⟩ ⟨T, g⟩ := by
  have W0 := R0.wf
  replace hz : ∀ l ∈ ls, h0.unitMag = 0 ∨ ∃ p ∈ l, p.1 ≠ 0 := fun l hl =>
    hz.elim (fun q => .inl (W0.unit_one q)) fun q => .inr (q l hl)
  obtain ⟨hs, F, E, G⟩ := parts_read R0 B ha z checks tail hP hl hfit htot htop hz
  cases ls with
  | nil => exact absurd rfl hne
  | cons l ls =>
    obtain ⟨g, eg, Rg, Kg, Xg, cg, tg, -⟩ := record_blank R0 B hl (fun w hw => (hfit w hw).1) htot htop
      ((hz l (by simp)).imp_right fun ⟨p, hp, h1⟩ => ⟨p, by simp [hp], h1⟩)
    refine ⟨hs, g, F, eg, E, fun F' => ?_⟩
    obtain ⟨gs, er, Fg⟩ := G F'
    cases Fg with
    | @cons _ b _ gs hb Fg =>
      obtain ⟨m, es, A⟩ := sum_parts W0 Fg hb.1 (fun p hp => ⟨(hl p hp).1, (hl p hp).2.1⟩) (fun w hw => (hfit w hw).1) htot
      exact ⟨b :: gs, m, er, es, A.alike ⟨Rg, Kg, Xg, cg, tg⟩⟩

/-- C117 (1): Samples recorded in many places, each into a copy of the blank `h0`; every histogram serialized; the encodings sent one
after the other in one stream; the receiver reads them all and sums them up. The result cannot be told apart from recording all
samples into one histogram, and the stream is read up to the end of the last encoding. (Auto-resize off, samples in range and
not in the class of `u64::MAX`, no counter overflows or exceeds `i64::MAX`, with a unit above 1 every part has a sample
that is not 0.) -/
theorem C117_collect {h0 : Hist T} (R0 : Reachable fp T h0) (B : Blank h0) (ha : h0.isAutoResize = false)
    {ls : List (List (Nat × Nat))} (hne : ls ≠ []) (hl : ∀ p ∈ ls.flatten, h0.Covers p.1 ∧ 0 < p.2 ∧ p.2 ≤ T.max)
    (hfit : ∀ w, w ≤ U64MAX → (number ls.flatten fun v => Equiv h0 v w) ≤ T.max ∧
      (number ls.flatten fun v => Equiv h0 v w) < 9223372036854775808) (htot : numberAll ls.flatten ≤ U64MAX)
    (htop : ∀ p ∈ ls.flatten, ¬ Equiv h0 p.1 U64MAX) (hz : h0.highestEquivalent 0 = .ok 0 ∨ ∀ l ∈ ls, ∃ p ∈ l, p.1 ≠ 0)
    (z : V2.Zlib) (checks : Bool) (tail : List UInt8) :
    ∃ hs g, List.Forall₂ (fun l a => recordSeq l h0 = .ok (a, .ok ())) ls hs ∧ recordSeq ls.flatten h0 = .ok (g, .ok ()) ∧
      (∀ a ∈ hs, ∃ b, Encodes ⟨T, a⟩ b) ∧
      ∀ {bs : List (List UInt8)}, List.Forall₂ (fun a b => Encodes ⟨T, a⟩ b) hs bs → ∃ (gs : List (Hist T)) (m : Hist T),
        readAll fp z checks (ls.map fun _ => T) (bs.flatten ++ tail) = .ok (.ok (gs.map fun g => ⟨T, g⟩, tail)) ∧
        Hist.sum fp gs = .ok m ∧ m.eq g = .ok true ∧ Alike fp ⟨T, m⟩ ⟨T, g⟩ :=
  collect R0 B ha hne hl hfit htot htop hz z checks tail fun _ hb _ => ⟨_, hb, fun _ _ d => d⟩

/-- `b` is what the V2 serializer or the V2+DEFLATE serializer wrote for `a` -/
def Sent (z : V2.Zlib) (a : Hist T) (b : List UInt8) : Prop :=
  ∃ junk, V2.serialize junk a = .ok (.ok (b, b.length)) ∨ V2.serializeDeflate z junk a = .ok (.ok (b, b.length))

/-- what was sent is read like an encoding of the V2 serializer -/
theorem sent_encodes {z : V2.Zlib} (hzl : z.Lawful) (checks : Bool) {a : Hist T} {b : List UInt8} (R : Reachable fp T a)
    (hb : Sent z a b) (hc : ∀ c ∈ a.contents, c.count ≤ T.max) : ∃ b', Encodes ⟨T, a⟩ b' ∧ ∀ tail g,
      V2.deserialize fp z T checks (b' ++ tail) = .ok (.ok (g, tail)) →
      V2.deserialize fp z T checks (b ++ tail) = .ok (.ok (g, tail)) := by
  obtain ⟨junk, hb | hb⟩ := hb
  · exact ⟨b, ⟨junk, hb⟩, fun _ _ d => d⟩
  · obtain ⟨c1, c2⟩ := C42_deflate R hzl junk
    obtain ⟨r, -, hs⟩ := V2.serialize_spec R.wf
    have hs := hs junk
    cases r with
    | none => rw [c1 _ hs] at hb; cases hb
    | some ts =>
      obtain ⟨out, eo, -, -, hg⟩ := c2 _ _ hs
      rw [eo] at hb
      cases hb
      refine ⟨_, ⟨junk, hs⟩, fun tail g d => ?_⟩
      obtain ⟨g', d1, d2, -⟩ := hg T checks tail R.wf.contents hc
      rw [d1] at d
      cases d
      exact d2

/-- C117 (2): The same if every part is encoded by the V2 or the V2+DEFLATE serializer, in any mixture, given a correct zlib. -/
theorem C117_mixed {h0 : Hist T} (R0 : Reachable fp T h0) (B : Blank h0) (ha : h0.isAutoResize = false)
    {ls : List (List (Nat × Nat))} (hne : ls ≠ []) (hl : ∀ p ∈ ls.flatten, h0.Covers p.1 ∧ 0 < p.2 ∧ p.2 ≤ T.max)
    (hfit : ∀ w, w ≤ U64MAX → (number ls.flatten fun v => Equiv h0 v w) ≤ T.max ∧
      (number ls.flatten fun v => Equiv h0 v w) < 9223372036854775808) (htot : numberAll ls.flatten ≤ U64MAX)
    (htop : ∀ p ∈ ls.flatten, ¬ Equiv h0 p.1 U64MAX) (hz : h0.highestEquivalent 0 = .ok 0 ∨ ∀ l ∈ ls, ∃ p ∈ l, p.1 ≠ 0)
    {z : V2.Zlib} (hzl : z.Lawful) (checks : Bool) (tail : List UInt8) :
    ∃ hs g, List.Forall₂ (fun l a => recordSeq l h0 = .ok (a, .ok ())) ls hs ∧ recordSeq ls.flatten h0 = .ok (g, .ok ()) ∧
      (∀ a ∈ hs, ∃ b c, Encodes ⟨T, a⟩ b ∧ (∃ junk, V2.serializeDeflate z junk a = .ok (.ok (c, c.length)))) ∧
      ∀ {bs : List (List UInt8)}, List.Forall₂ (Sent z) hs bs → ∃ (gs : List (Hist T)) (m : Hist T),
        readAll fp z checks (ls.map fun _ => T) (bs.flatten ++ tail) = .ok (.ok (gs.map fun g => ⟨T, g⟩, tail)) ∧
        Hist.sum fp gs = .ok m ∧ m.eq g = .ok true ∧ Alike fp ⟨T, m⟩ ⟨T, g⟩ := by
  obtain ⟨hs, g, F, eg, E, G⟩ := collect R0 B ha hne hl hfit htot htop hz z checks tail (P := Sent z) fun R hb hc =>
    sent_encodes hzl checks R hb hc
  refine ⟨hs, g, F, eg, fun a ha' => ?_, G⟩
  obtain ⟨b, junk, e⟩ := E a ha'
  obtain ⟨l, hl', er⟩ : ∃ l ∈ ls, recordSeq l h0 = .ok (a, .ok ()) := by
    clear G E eg hne hl hfit htot htop hz
    induction F with
    | nil => simp at ha'
    | @cons l x ls xs h1 _ ih =>
      rcases List.mem_cons.mp ha' with rfl | h2
      · exact ⟨l, by simp, h1⟩
      · obtain ⟨l', h3, h4⟩ := ih h2
        exact ⟨l', by simp [h3], h4⟩
  have R : Reachable fp T a := reachable_recordSeq R0 (fun p hp => by
    have h1 := hl p (List.mem_flatten.mpr ⟨l, hl', hp⟩)
    have h2 := h1.1
    have := R0.wf.coverEnd_le
    unfold Hist.Covers at h2
    exact ⟨by omega, h1.2.2⟩) er
  obtain ⟨out, eo, -⟩ := (C42_deflate R hzl junk).2 _ _ e
  exact ⟨b, out, ⟨junk, e⟩, junk, eo⟩

/-- two parts -/
example (z : V2.Zlib) (tail : List UInt8) : ∃ hs g,
    List.Forall₂ (fun l a => recordSeq l demo = .ok (a, .ok ())) [[(5, 3), (9, 20)], [(0, 1), (5, 2)]] hs ∧
    recordSeq [(5, 3), (9, 20), (0, 1), (5, 2)] demo = .ok (g, .ok ()) ∧ (∀ a ∈ hs, ∃ b, Encodes ⟨.u8, a⟩ b) ∧
    ∀ {bs : List (List UInt8)}, List.Forall₂ (fun a b => Encodes ⟨.u8, a⟩ b) hs bs → ∃ (gs : List (Hist .u8)) (m : Hist .u8),
      readAll Fp.ideal z true [.u8, .u8] (bs.flatten ++ tail) = .ok (.ok (gs.map fun g => ⟨.u8, g⟩, tail)) ∧
      Hist.sum Fp.ideal gs = .ok m ∧ m.eq g = .ok true ∧ Alike Fp.ideal ⟨.u8, m⟩ ⟨.u8, g⟩ :=
  C117_collect (ls := [[(5, 3), (9, 20)], [(0, 1), (5, 2)]]) demo_reachable (Blank.newWithBounds (by decide) demo_eq) rfl
    (by decide) (by decide +kernel)
    (fun w _ => ⟨le_trans (number_le_all _ _) (by decide), lt_of_le_of_lt (number_le_all _ _) (by decide)⟩) (by decide)
    (by unfold Equiv; decide) (.inl (by decide)) z true tail

/-- a correct zlib, for which the same samples meet the hypotheses of `C117_mixed` -/
example : ∃ hs g, List.Forall₂ (fun l a => recordSeq l demo = .ok (a, .ok ())) [[(5, 3), (9, 20)], [(0, 1), (5, 2)]] hs ∧
    recordSeq [(5, 3), (9, 20), (0, 1), (5, 2)] demo = .ok (g, .ok ()) ∧
    ∀ {bs : List (List UInt8)}, List.Forall₂ (Sent V2.Zlib.stored) hs bs → ∃ (gs : List (Hist .u8)) (m : Hist .u8),
      readAll Fp.ideal V2.Zlib.stored true [.u8, .u8] bs.flatten = .ok (.ok (gs.map fun g => ⟨.u8, g⟩, [])) ∧
      Hist.sum Fp.ideal gs = .ok m ∧ m.eq g = .ok true := by
  obtain ⟨hs, g, h1, h2, -, h3⟩ := C117_mixed (ls := [[(5, 3), (9, 20)], [(0, 1), (5, 2)]]) demo_reachable
    (Blank.newWithBounds (by decide) demo_eq) rfl (by decide) (by decide +kernel)
    (fun w _ => ⟨le_trans (number_le_all _ _) (by decide), lt_of_le_of_lt (number_le_all _ _) (by decide)⟩) (by decide)
    (by unfold Equiv; decide) (.inl (by decide)) (z := V2.Zlib.stored)
    ⟨fun _ => rfl, fun _ => rfl, fun bs => by show bs.length ≤ _; omega⟩ true []
  refine ⟨hs, g, h1, h2, fun F => ?_⟩
  obtain ⟨gs, m, e1, e2, e3, -⟩ := h3 F
  rw [List.append_nil] at e1
  exact ⟨gs, m, e1, e2, e3⟩

end Hdr
