import Verif.Props.SyncAlike

/-!
# C121: histograms grown in any way from the same samples cannot be told apart
-/

namespace Hdr

open V2

variable {T : CounterTy} {fp : Fp}

/-- `Grown fp z checks h0 a l`: the histogram `a` was grown from the histogram `h0` by any number of calls that add
samples, and `l` are the samples it should hold.  `w.samples h0` are the samples of a call of `record_n`,
`record_n_correct` or `saturating_record_n` (see C90). -/
inductive Grown (fp : Fp) (z : Zlib) (checks : Bool) (h0 : Hist T) : Hist T → List (Nat × Nat) → Prop
  /-- `h0`, or a clone of it -/
  | start : Grown fp z checks h0 h0 []
  /-- a recording that stays clear of `u64::MAX` -/
  | record {a b l} {w : Sync.Write T} : Grown fp z checks h0 a l → w.Plain fp h0 → w.Recording → w.run a = .ok b →
      Sync.Fits h0 (l ++ w.samples h0) → Grown fp z checks h0 b (l ++ w.samples h0)
  /-- `add` -/
  | add {a b m l l'} : Grown fp z checks h0 a l → Grown fp z checks h0 b l' → a.add b = .ok (m, .ok ()) →
      Sync.Fits h0 (l ++ l') → Grown fp z checks h0 m (l ++ l')
  /-- `reset` -/
  | reset {a l} : Grown fp z checks h0 a l → Grown fp z checks h0 a.reset []
  /-- `new_from` -/
  | newFrom {a b l} : Grown fp z checks h0 a l → Hist.newFrom fp T a = .ok b → Grown fp z checks h0 b []
  /-- encoded by the V2 or the V2+DEFLATE serializer and read back, from any position of a stream -/
  | read {a g l bytes tail rest} : Grown fp z checks h0 a l → Sent z a bytes →
      deserialize fp z T checks (bytes ++ tail) = .ok (.ok (g, rest)) → Grown fp z checks h0 g l

private theorem Made.len_eq {h0 a : Hist T} {k : List (Nat × Nat)} (W0 : WF fp h0) (A : Made fp h0 a k) :
    a.counts.length = h0.counts.length := by
  have W := A.R.wf
  rw [W.len, W0.len, A.c.mag, W.same_bc W0 A.c.low A.t A.c.sig]

private theorem Made.counts_le {h0 a : Hist T} {k : List (Nat × Nat)} (A : Made fp h0 a k) :
    ∀ c ∈ a.contents, c.count ≤ T.max := by
  have W := A.R.wf
  intro c hc
  obtain ⟨i, -, rfl⟩ := (W.mem_classes W.contents).mp hc
  exact W.getD_le i

private theorem Made.notTop {h0 a : Hist T} {k : List (Nat × Nat)} (A : Made fp h0 a k)
    (hb : ∀ p ∈ k, h0.lidx p.1 < h0.lidx U64MAX) : a.lidx a.lmax ≠ a.lidx U64MAX := by
  have W := A.R.wf
  obtain ⟨-, x2, -⟩ := (W.exactStats_iff W.contents).mp A.X
  have hlast := lastNz_spec a.counts 0
  cases hi : lastNz a.counts 0 with
  | none =>
    rw [hi] at x2
    rw [x2, show a.lidx 0 = 0 from Lay.idx_zero]
    intro q
    have := W.minpos
    have h1 : a.lidx a.minNonZero ≤ a.lidx U64MAX := Lay.idx_mono W.minle
    omega
  | some i =>
    rw [hi] at x2 hlast
    obtain ⟨-, hil, hin, -⟩ := hlast
    rw [Nat.sub_zero] at hil hin
    dsimp only at x2
    rw [x2, lidx_lhi (W.lval_le hil), show a.lidx (a.lval i) = i from Lay.idx_val]
    rw [A.K.all W] at hin
    obtain ⟨p, hp, rfl⟩ := of_hits_pos hin
    have := hb p hp
    rw [A.c.lidx, A.c.lidx]
    omega

private theorem Made.write {h0 a b : Hist T} {k : List (Nat × Nat)} (W0 : WF fp h0) (ha : h0.autoResize = false)
    (hu : h0.unitMag = 0) (A : Made fp h0 a k) (hb : ∀ p ∈ k, h0.lidx p.1 < h0.lidx U64MAX) {w : Sync.Write T}
    (hw : w.Plain fp h0) (hr : w.Recording) (e : w.run a = .ok b) (f : Sync.Fits h0 (k ++ w.samples h0)) :
    Made fp h0 b (k ++ w.samples h0) := by
  have W := A.R.wf
  have hv := Sync.samples_valid W0 hw hr
  have H : Sync.Holds fp h0 (fun j => a.counts.getD j 0) (a, []) := by
    refine ⟨W, A.c, (A.len_eq W0).ge, fun _ => A.t, fun j => ?_⟩
    have := W.getD_le j
    simp only [Sync.samplesOf, Hist.hits]
    simpa using this
  obtain ⟨g, eg, es, K⟩ := Sync.write_recorded (b := false) W0 w (a, []) hw hr ⟨H, fun h => by cases h⟩
  dsimp only at eg es
  rw [e] at eg
  cases eg
  have hv' : ∀ p ∈ w.samples h0, p.1 ≤ U64MAX ∧ p.2 ≤ T.max := fun p hp => ⟨(hv p hp).1, (hv p hp).2.1⟩
  have Rb : Reachable fp T b := reachable_recordSeq A.R hv' es
  have Kb : Contains b (k ++ w.samples h0) := by
    refine C71_record A.R A.K hv' es (Sync.fits_same W0 W A.c ?_ f) f.2
    intro p hp
    exact (List.mem_append.mp hp).elim (fun hp => A.K.le W hp) fun hp => (hv p hp).1
  refine ⟨Rb, Kb, ?_, K.1.cfg, K.1.high ha⟩
  refine recordSeq_keeps_exact W (A.c.um.trans hu) A.X ?_ hv' (fun p hp => Nat.pos_of_ne_zero (hv p hp).2.2) es
    (Kb.exact Rb.wf) ?_
  · intro j hj
    rw [A.K.all W] at hj
    obtain ⟨p, hp, rfl⟩ := of_hits_pos hj
    rw [A.c.lidx, A.c.lidx]
    exact hb p hp
  · intro p hp
    rw [A.c.lidx, A.c.lidx]
    exact Sync.samples_below W0 ha hw hr p hp

private theorem Grown.made {h0 a : Hist T} {z : Zlib} {checks : Bool} {l : List (Nat × Nat)} (R0 : Reachable fp T h0)
    (B : Blank h0) (ha : h0.autoResize = false) (hu : h0.unitMag = 0) (hz : z.Lawful) (G : Grown fp z checks h0 a l) :
    Made fp h0 a l ∧ Sync.Fits h0 l ∧ ∀ p ∈ l, h0.lidx p.1 < h0.lidx U64MAX ∧ p.2 ≤ T.max ∧ p.2 ≠ 0 := by
  have W0 := R0.wf
  have f0 : Sync.Fits h0 [] := Sync.Fits.few (by simp [numberAll])
  induction G with
  | start => exact ⟨Sync.made_blank R0 B hu ⟨rfl, rfl, rfl, rfl, rfl⟩ rfl, f0, by simp⟩
  | @record a b l w _ hw hr e f ih =>
    obtain ⟨A, -, hb⟩ := ih
    refine ⟨A.write W0 ha hu (fun p hp => (hb p hp).1) hw hr e f, f, fun p hp => ?_⟩
    rcases List.mem_append.mp hp with hp | hp
    · exact hb p hp
    · exact ⟨Sync.samples_below W0 ha hw hr p hp, (Sync.samples_valid W0 hw hr p hp).2⟩
  | @add a b m l l' _ _ e f ih ih' =>
    obtain ⟨A, -, hb⟩ := ih
    obtain ⟨D, -, hb'⟩ := ih'
    obtain ⟨m', e', M⟩ := A.add W0 D
      (fun p hp => (List.mem_append.mp hp).elim (fun hp => A.K.le A.R.wf hp) fun hp => D.K.le D.R.wf hp)
      (fun p hp => Nat.pos_of_ne_zero (hb' p hp).2.2) f.1 f.2 (D.notTop fun p hp => (hb' p hp).1)
    rw [e] at e'
    cases e'
    exact ⟨M, f, fun p hp => (List.mem_append.mp hp).elim (hb p) (hb' p)⟩
  | @reset a l _ ih =>
    obtain ⟨A, -, -⟩ := ih
    exact ⟨Sync.made_blank (.reset A.R) (Blank.reset A.R) (A.c.um.trans hu) ⟨A.c.auto, A.c.low, A.c.sig, A.c.um, A.c.mag⟩ A.t,
      f0, by simp⟩
  | @newFrom a b l _ e ih =>
    obtain ⟨A, -, -⟩ := ih
    obtain ⟨g, eg, Wg, -, -, -, a1, a2, a3, a4, a5, a6, -⟩ := A.R.wf.newFrom_eq (T := T)
    obtain ⟨gx, egx, F⟩ := C02_fresh_from (T := T) A.R
    rw [e] at eg egx
    cases eg; cases egx
    have Bb : Blank b := ⟨F.len, F.minNz, 0, by omega, F.max, (Wg.equiv_iff (by omega) (by omega)).mpr rfl⟩
    exact ⟨Sync.made_blank (.newFrom A.R e) Bb (a5.trans (A.c.um.trans hu))
      ⟨a1.trans A.c.auto, a2.trans A.c.low, a4.trans A.c.sig, a5.trans A.c.um, a6.trans A.c.mag⟩ (a3.trans A.t), f0, by simp⟩
  | @read a g l bytes tail rest _ e d ih =>
    obtain ⟨A, f, hb⟩ := ih
    obtain ⟨b', e', hd⟩ := sent_encodes hz checks A.R e A.counts_le
    obtain ⟨g', d', M, -⟩ := A.read ha f.1 W0 (A.notTop fun p hp => (hb p hp).1) e' z checks
    rw [hd _ _ (d' tail)] at d
    cases d
    exact ⟨M, f, hb⟩

/-- C121 (1): a histogram grown in any way from a blank one of unit 1 that does not resize cannot be told apart from one into
which its samples were recorded one by one, in any order, given a correct zlib. -/
theorem C121_grown {h0 a : Hist T} {z : Zlib} {checks : Bool} {l k : List (Nat × Nat)} (R0 : Reachable fp T h0) (B : Blank h0)
    (ha : h0.isAutoResize = false) (hunit : h0.highestEquivalent 0 = .ok 0) (hz : z.Lawful) (G : Grown fp z checks h0 a l) (hk : k.Perm l) :
    ∃ g, recordSeq k h0 = .ok (g, .ok ()) ∧ a.eq g = .ok true ∧ Alike fp ⟨T, a⟩ ⟨T, g⟩ := by
  have W := R0.wf
  have hu := W.unit_one hunit
  obtain ⟨A, f, hb⟩ := G.made R0 B ha hu hz
  have A' : Made fp h0 a k := ⟨A.R, Sync.Contains.perm hk.symm A.K, A.X, A.c, A.t⟩
  have f' := Sync.Fits.perm hk.symm f
  have hm : ∀ p ∈ k, p ∈ l := fun p hp => hk.mem_iff.mp hp
  obtain ⟨g, eg, Rg, Kg, Xg, cg, tg, -⟩ := record_blank R0 B (k := k) (fun p hp => ⟨(W.covers_iff _).mpr (by
      have h3 := (A.R.wf.covers_iff _).mp (A'.K.covered p hp)
      rwa [A.c.lidx, A.len_eq W] at h3), Nat.pos_of_ne_zero (hb p (hm p hp)).2.2, (hb p (hm p hp)).2.1⟩)
    f'.1 f'.2 (fun p hp q => by
      rw [W.equiv_iff (A'.K.le A.R.wf hp) le_rfl] at q
      exact absurd q (hb p (hm p hp)).1.ne) (.inl hu)
  exact ⟨g, eg, A'.alike ⟨Rg, Kg, Xg, cg, tg⟩⟩

/-- C121 (2): so two histograms grown in two ways from the same samples cannot be told apart. -/
theorem C121_two {h0 a b : Hist T} {z : Zlib} {checks : Bool} {l k : List (Nat × Nat)} (R0 : Reachable fp T h0) (B : Blank h0)
    (ha : h0.isAutoResize = false) (hunit : h0.highestEquivalent 0 = .ok 0) (hz : z.Lawful) (G : Grown fp z checks h0 a l)
    (G' : Grown fp z checks h0 b k) (hk : k.Perm l) : a.eq b = .ok true ∧ Alike fp ⟨T, a⟩ ⟨T, b⟩ := by
  have hu := R0.wf.unit_one hunit
  obtain ⟨A, -, -⟩ := G.made R0 B ha hu hz
  obtain ⟨D, -, -⟩ := G'.made R0 B ha hu hz
  exact A.alike ⟨D.R, Sync.Contains.perm hk D.K, D.X, D.c, D.t⟩

/-- C121 (3): and nothing fails on the way: recording, adding a histogram so grown, and reading back what was serialized
succeed, and so does serializing if no counter exceeds `i64::MAX`. -/
theorem C121_steps {h0 a b : Hist T} {z : Zlib} {checks : Bool} {l l' : List (Nat × Nat)} (R0 : Reachable fp T h0) (B : Blank h0)
    (ha : h0.isAutoResize = false) (hunit : h0.highestEquivalent 0 = .ok 0) (hz : z.Lawful) (G : Grown fp z checks h0 a l)
    (G' : Grown fp z checks h0 b l') :
    (∀ w : Sync.Write T, w.Plain fp h0 → w.Recording → ∃ g, w.run a = .ok g) ∧
    (Sync.Fits h0 (l ++ l') → ∃ m, a.add b = .ok (m, .ok ())) ∧
    (∀ bytes, Sent z a bytes → ∃ g, ∀ tail, deserialize fp z T checks (bytes ++ tail) = .ok (.ok (g, tail))) ∧
    ((∀ w, w ≤ U64MAX → (number l fun v => Equiv h0 v w) < 9223372036854775808) →
      ∃ b c, Encodes ⟨T, a⟩ b ∧ ∃ junk, serializeDeflate z junk a = .ok (.ok (c, c.length))) := by
  have W0 := R0.wf
  have hu := W0.unit_one hunit
  obtain ⟨A, f, hb⟩ := G.made R0 B ha hu hz
  obtain ⟨D, -, hb'⟩ := G'.made R0 B ha hu hz
  refine ⟨fun w hw hr => ?_, fun f => ?_, fun bytes e => ?_, fun hn => ?_⟩
  · have H : Sync.Holds fp h0 (fun j => a.counts.getD j 0) (a, []) := by
      refine ⟨A.R.wf, A.c, (A.len_eq W0).ge, fun _ => A.t, fun j => ?_⟩
      have := A.R.wf.getD_le j
      simp only [Sync.samplesOf, Hist.hits]
      simpa using this
    obtain ⟨g, eg, -⟩ := Sync.write_recorded (b := false) W0 w (a, []) hw hr ⟨H, fun h => by cases h⟩
    exact ⟨g, eg⟩
  · obtain ⟨m, e, -⟩ := A.add W0 D
      (fun p hp => (List.mem_append.mp hp).elim (fun hp => A.K.le A.R.wf hp) fun hp => D.K.le D.R.wf hp)
      (fun p hp => Nat.pos_of_ne_zero (hb' p hp).2.2) f.1 f.2 (D.notTop fun p hp => (hb' p hp).1)
    exact ⟨m, e⟩
  · obtain ⟨b', e', hd⟩ := sent_encodes hz checks A.R e A.counts_le
    obtain ⟨g, d, -⟩ := A.read ha f.1 W0 (A.notTop fun p hp => (hb p hp).1) e' z checks
    exact ⟨g, fun tail => hd _ _ (d tail)⟩
  · obtain ⟨b, n, e⟩ := (C41_serialize_outcome A.R A.R.wf.contents (fun _ => 0)).2.1 fun c hc =>
      Nat.le_of_lt_succ (counts_below W0 A.R.wf A.c.lidx A.K hn c hc)
    obtain ⟨ts, -, rfl, -⟩ := wire_of_ok A.R.wf e
    obtain ⟨out, eo, -⟩ := (C42_deflate A.R hz (fun _ => 0)).2 _ _ e
    exact ⟨b, out, ⟨_, e⟩, _, eo⟩

/-- 5 is recorded three times and 40, which is out of range, once with saturation; the result is compressed and read back;
another histogram, with 9 and its correction, is added, and the sum holds the samples 5, 15, 9 and 5 -/
example : ∃ m, Grown Fp.ideal Zlib.stored true demo m [(5, 3), (15, 1), (9, 1), (5, 1)] ∧
    ∃ g, recordSeq [(5, 1), (5, 3), (9, 1), (15, 1)] demo = .ok (g, .ok ()) ∧ m.eq g = .ok true ∧
      Alike Fp.ideal ⟨.u8, m⟩ ⟨.u8, g⟩ := by
  have B : Blank demo := Blank.newWithBounds (by decide) demo_eq
  have hz : Zlib.stored.Lawful := ⟨fun _ => rfl, fun _ => rfl, fun bs => by show bs.length ≤ _; omega⟩
  have st := fun {a b : Hist .u8} {l l'} (G : Grown Fp.ideal Zlib.stored true demo a l) (G' : Grown Fp.ideal Zlib.stored true demo b l') =>
    C121_steps demo_reachable B rfl (by decide) hz G G'
  have G0 : Grown Fp.ideal Zlib.stored true demo demo [] := .start
  have p1 : (Sync.Write.recordN 5 3 : Sync.Write .u8).Plain Fp.ideal demo := ⟨by decide, by decide, Or.inr (by decide)⟩
  have p2 : (Sync.Write.saturatingRecordN 40 1 : Sync.Write .u8).Plain Fp.ideal demo :=
    ⟨by decide, by decide, by rw [if_neg (by decide)]; decide⟩
  have p3 : (Sync.Write.recordNCorrect 9 1 4 : Sync.Write .u8).Plain Fp.ideal demo := ⟨by decide, by decide, Or.inr (by decide)⟩
  obtain ⟨a1, e1⟩ := (st G0 G0).1 _ p1 (Nat.succ_ne_zero _)
  have G1 := Grown.record G0 p1 (Nat.succ_ne_zero _) e1 (Sync.Fits.few (by decide))
  obtain ⟨a2, e2⟩ := (st G1 G0).1 _ p2 (Nat.succ_ne_zero _)
  have G2 := Grown.record G1 p2 (Nat.succ_ne_zero _) e2 (Sync.Fits.few (by decide +kernel))
  obtain ⟨-, bytes, -, junk, eb⟩ := (st G2 G0).2.2.2 fun w _ => lt_of_le_of_lt (number_le_all _ _) (by decide +kernel)
  obtain ⟨a3, e3⟩ := (st G2 G0).2.2.1 bytes ⟨junk, .inr eb⟩
  have G3 := Grown.read (tail := []) G2 ⟨junk, .inr eb⟩ (e3 [])
  obtain ⟨b1, f1⟩ := (st G0 G0).1 _ p3 (Nat.succ_ne_zero _)
  have H1 := Grown.record G0 p3 (Nat.succ_ne_zero _) f1 (Sync.Fits.few (by decide +kernel))
  have hfit : Sync.Fits demo ((([] ++ (Sync.Write.recordN 5 3).samples demo) ++ (Sync.Write.saturatingRecordN 40 1).samples demo) ++
      ([] ++ (Sync.Write.recordNCorrect 9 1 4).samples demo)) := Sync.Fits.few (by decide +kernel)
  obtain ⟨m, em⟩ := (st G3 H1).2.1 hfit
  have G := Grown.add G3 H1 em hfit
  have hs : (([] ++ (Sync.Write.recordN 5 3).samples demo) ++ (Sync.Write.saturatingRecordN 40 1).samples demo) ++
      ([] ++ (Sync.Write.recordNCorrect 9 1 4).samples demo) = [(5, 3), (15, 1), (9, 1), (5, 1)] := by decide +kernel
  rw [hs] at G
  exact ⟨m, G, C121_grown demo_reachable B rfl (by decide) hz G (by decide +kernel)⟩

end Hdr
