import Verif.Proofs.SyncSafe
import Verif.Proofs.Bridge
import Verif.Proofs.Merge

/-!
# Concurrent recording with the real histograms
-/

namespace Hdr.Sync

variable {T : CounterTy} {fp : Fp}

/-- all samples of some writes -/
def samplesOf (h : Hist T) (ws : List (Write T)) : List (Nat × Nat) := ws.flatMap (Write.samples h)

theorem hits_append (h : Hist T) (l1 l2 : List (Nat × Nat)) (j : Nat) :
    h.hits (l1 ++ l2) j = h.hits l1 j + h.hits l2 j := by simp [Hist.hits]

/-- the histogram holds `base` and the samples of its writes -/
structure Holds (fp : Fp) (h0 : Hist T) (base : Nat → Nat) (x : Hist T × List (Write T)) : Prop where
  wf : WF fp x.1
  cfg : SameConfig h0 x.1
  len : h0.counts.length ≤ x.1.counts.length
  high : h0.autoResize = false → x.1.highestTrackable = h0.highestTrackable
  counts : ∀ j, x.1.counts.getD j 0 = min (base j + h0.hits (samplesOf h0 x.2) j) T.max

/-- a histogram that can be merged -/
def Local (fp : Fp) (h0 : Hist T) (x : Hist T × List (Write T)) : Prop :=
  Holds fp h0 (fun _ => 0) x ∧ (h0.autoResize = false → h0.lidx x.1.maxValue < h0.lidx U64MAX)

theorem Holds.len_eq {h0 : Hist T} {base : Nat → Nat} {x : Hist T × List (Write T)} (W : WF fp h0) (h : Holds fp h0 base x)
    (ha : h0.autoResize = false) : x.1.counts.length = h0.counts.length := by
  rw [h.wf.len, W.len, h.wf.bc, W.bc]
  unfold Hist.lbkt
  rw [h.cfg.um, h.cfg.mag, h.high ha]

theorem max_after_lt {h : Hist T} {l : List (Nat × Nat)} {m n : Nat} (hm : m < n) (hl : ∀ p ∈ l, h.lidx p.1 < n) :
    h.maxAfter l m < n := by
  unfold Hist.maxAfter
  induction l generalizing m with
  | nil => exact hm
  | cons p l ih =>
    exact ih (by have := hl p (by simp); dsimp only; omega) fun q hq => hl q (by simp [hq])

/-- a histogram that holds `base` and the samples of its writes and, if `b`, can be merged -/
def Keeps (fp : Fp) (h0 : Hist T) (b : Bool) (base : Nat → Nat) (x : Hist T × List (Write T)) : Prop :=
  Holds fp h0 base x ∧ (b = true → h0.autoResize = false → h0.lidx x.1.maxValue < h0.lidx U64MAX)

theorem Keeps.effect {b : Bool} {base : Nat → Nat} {h0 g : Hist T} {x : Hist T × List (Write T)} {l : List (Nat × Nat)} {w : Write T}
    (L : Keeps fp h0 b base x) (Wg : WF fp g) (E : SeqEffect x.1 l g) (hw : w.samples h0 = l)
    (hh : h0.autoResize = false → g.highestTrackable = h0.highestTrackable)
    (hl : b = true → h0.autoResize = false → ∀ p ∈ l, h0.lidx p.1 < h0.lidx U64MAX) : Keeps fp h0 b base (g, x.2 ++ [w]) := by
  refine ⟨⟨Wg, L.1.cfg.trans E.cfg, le_trans L.1.len E.len, hh, fun j => ?_⟩, fun hb ha => ?_⟩
  · have h1 := E.counts j
    have h2 := L.1.counts j
    rw [L.1.cfg.hits] at h1
    dsimp only at h1 h2 ⊢
    rw [h1, h2]
    have : h0.hits (samplesOf h0 (x.2 ++ [w])) j = h0.hits (samplesOf h0 x.2) j + h0.hits l j := by
      unfold samplesOf
      rw [List.flatMap_append, hits_append]
      simp [hw]
    rw [this]
    omega
  · have := E.max
    rw [L.1.cfg.lidx, L.1.cfg.lidx] at this
    dsimp only
    rw [this]
    refine max_after_lt (L.2 hb ha) fun p hp => ?_
    rw [L.1.cfg.lidx]
    exact hl hb ha p hp

theorem top_lt {h : Hist T} (W : WF fp h) {v : Nat} (hv : v ≤ U64MAX) (hn : ¬ Equiv h v U64MAX) :
    h.lidx v < h.lidx U64MAX := by
  rw [W.equiv_iff hv le_rfl] at hn
  have : h.lidx v ≤ h.lidx U64MAX := Lay.idx_mono hv
  omega

theorem Keeps.skip {b : Bool} {base : Nat → Nat} {h0 : Hist T} {x : Hist T × List (Write T)} {w : Write T} (L : Keeps fp h0 b base x) (hw : w.samples h0 = []) :
    Keeps fp h0 b base (x.1, x.2 ++ [w]) :=
  L.effect L.1.wf (SeqEffect.nil L.1.wf) hw L.1.high (by simp)

/-- a sequence of recordings that is accepted whole -/
theorem Keeps.recordSeq {b : Bool} {base : Nat → Nat} {h0 : Hist T} (W : WF fp h0) {x : Hist T × List (Write T)} {l : List (Nat × Nat)} {w : Write T}
    (L : Keeps fp h0 b base x) (hw : w.samples h0 = l) (hv : ∀ p ∈ l, p.1 ≤ U64MAX ∧ p.2 ≤ T.max)
    (hc : h0.autoResize = true ∨ ∀ p ∈ l, h0.Covers p.1)
    (hl : b = true → h0.autoResize = false → ∀ p ∈ l, h0.lidx p.1 < h0.lidx U64MAX) :
    ∃ g, recordSeq l x.1 = .ok (g, .ok ()) ∧ Keeps fp h0 b base (g, x.2 ++ [w]) := by
  cases ha : h0.autoResize with
  | true =>
    obtain ⟨g, r, e, Wg, hr⟩ := L.1.wf.recordSeq_spec l hv
    cases r with
    | error x => exact absurd (hr.2.1.symm.trans (L.1.cfg.auto.trans ha)) (by simp)
    | ok u => exact ⟨g, e, L.effect Wg hr.1 hw (fun h => by rw [ha] at h; cases h) (fun _ h => by rw [ha] at h; cases h)⟩
  | false =>
    have hc : ∀ p ∈ l, h0.Covers p.1 := by
      rcases hc with hc | hc
      · rw [ha] at hc; cases hc
      · exact hc
    obtain ⟨g, e, Wg, E, -, hh, -⟩ := L.1.wf.recordSeq_cov l hv (fun p hp => by
      have := (W.covers_iff p.1).mp (hc p hp)
      rw [L.1.cfg.lidx]
      exact lt_of_lt_of_le this L.1.len)
    exact ⟨g, e, L.effect Wg E hw (fun _ => hh.trans (L.1.high ha)) hl⟩

theorem recordN_seq (h : Hist T) (v c : Nat) : h.recordN v c = recordSeq [(v, c)] h := by
  rw [recordSeq_cons]
  cases h.recordN v c with
  | error p => rfl
  | ok r =>
    obtain ⟨g, r⟩ := r
    cases r with
    | error e => rfl
    | ok u => rfl

theorem Keeps.refused {b : Bool} {base : Nat → Nat} {h0 : Hist T} (W : WF fp h0) {x : Hist T × List (Write T)} {v c : Nat} (L : Keeps fp h0 b base x)
    (hv : v ≤ U64MAX) (hc : c ≤ T.max) (hn : ¬ (h0.autoResize = true ∨ h0.Covers v)) :
    x.1.recordN v c = .ok (x.1, .error .ValueOutOfRangeResizeDisabled) := by
  have ha : h0.autoResize = false := by
    cases h : h0.autoResize
    · rfl
    · exact absurd (Or.inl h) hn
  rw [L.1.wf.recordN_eq hv hc, if_neg]
  rw [L.1.cfg.lidx, L.1.len_eq W ha, L.1.cfg.auto]
  rintro (h | h)
  · exact hn (Or.inr ((W.covers_iff v).mpr h))
  · exact hn (Or.inl h)

theorem correct_lt {h0 : Hist T} {v c i b : Nat} (hb : h0.lidx v < b) :
    ∀ p ∈ (v :: hiddenSeries v i).map (fun x => (x, c)), h0.lidx p.1 < b := by
  intro p hp
  obtain ⟨x, hx, rfl⟩ := List.mem_map.mp hp
  rcases List.mem_cons.mp hx with rfl | hx
  · exact hb
  · have : h0.lidx x ≤ h0.lidx v := Lay.idx_mono (hiddenSeries_lt hx).1.le
    dsimp only; omega

theorem greatest_eq {g : Hist T} (W : WF fp g) : greatest g = g.lmax := by
  unfold greatest; rw [W.max_eq]; rfl

theorem hits_records {h0 g : Hist T} (W : WF fp g) (j : Nat) :
    h0.hits (Cls.records g.contents) j = moved h0 g (List.range g.counts.length) j := by
  rw [W.contents_eq]
  unfold Hist.hits Cls.records moved
  rw [List.map_map, List.map_map]
  rfl

/-- merging another histogram into one that keeps its writes -/
theorem Keeps.merge {b : Bool} {base : Nat → Nat} {h0 g : Hist T} (W : WF fp h0) {x : Hist T × List (Write T)}
    (L : Keeps fp h0 b base x) (Wg : WF fp g) (hp : h0.autoResize = true ∨ h0.lidx g.lmax < h0.lidx U64MAX) :
    ∃ y r, x.1.add g = .ok (y, r) ∧ Keeps fp h0 b base (y, x.2 ++ [.add g]) := by
  have hcov : h0.autoResize = false → (x.1.ltop < g.lmax ↔ ¬ h0.Covers g.lmax) := by
    intro ha
    have hx : x.1.Covers g.lmax ↔ h0.Covers g.lmax := by
      rw [L.1.wf.covers_iff, W.covers_iff, L.1.cfg.lidx, L.1.len_eq W ha]
    rw [L.1.wf.ltop_lt_iff lmax_le, hx]
    refine or_iff_left fun hU => ?_
    rcases hp with hp | hp
    · rw [ha] at hp; cases hp
    · rw [hU] at hp; omega
  have skip : (h0.autoResize = false ∧ ¬ h0.Covers g.lmax) ∨ g.totalCount = 0 →
      Keeps fp h0 b base (x.1, x.2 ++ [.add g]) := by
    intro h
    refine ⟨⟨L.1.wf, L.1.cfg, L.1.len, L.1.high, fun j => ?_⟩, L.2⟩
    have h1 : h0.hits (samplesOf h0 (x.2 ++ [.add g])) j = h0.hits (samplesOf h0 x.2) j := by
      unfold samplesOf
      rw [List.flatMap_append, hits_append]
      have : h0.hits (List.flatMap (Write.samples h0) [Write.add g]) j = 0 := by
        simp only [List.flatMap_cons, List.flatMap_nil, List.append_nil, Write.samples]
        split
        · rename_i hc
          rcases h with ⟨ha, hn⟩ | h
          · rw [greatest_eq Wg, ha] at hc
            rcases hc with hc | hc
            · cases hc
            · exact absurd hc hn
          · rw [hits_records Wg]
            unfold moved
            have hz := Wg.getD_zero_of_empty h
            apply List.sum_eq_zero
            intro y hy
            obtain ⟨i, -, rfl⟩ := List.mem_map.mp hy
            rw [hz i]; split <;> rfl
        · rfl
      omega
    dsimp only
    rw [h1]
    exact L.1.counts j
  obtain ⟨y, r, e, Wy, hr⟩ := L.1.wf.add_spec Wg
  refine ⟨y, r, e, ?_⟩
  cases r with
  | error q =>
    cases q with
    | OtherAddendValueExceedsRange =>
      obtain ⟨-, ha, hlt, rfl⟩ := hr
      have ha := L.1.cfg.auto.symm.trans ha
      exact skip (Or.inl ⟨ha, (hcov ha).mp hlt⟩)
    | ResizeFailedUsizeTypeTooSmall => exact hr.elim
  | ok u =>
    rcases hr with ⟨h0', rfl⟩ | ⟨-, hauto, c, hl, hh, hc, -⟩
    · exact skip (Or.inr h0')
    · have hacc : h0.autoResize = true ∨ h0.Covers g.lmax := by
        cases ha : h0.autoResize with
        | true => exact Or.inl rfl
        | false =>
          right
          by_contra hn
          have := hauto ((hcov ha).mpr hn)
          rw [L.1.cfg.auto, ha] at this; cases this
      refine ⟨⟨Wy, L.1.cfg.trans c, ?_, fun ha => ?_, fun j => ?_⟩, fun hb ha => ?_⟩
      · dsimp only; rw [hl]
        exact le_trans L.1.len (L.1.wf.addGrown (s := g)).2.2.2.2.2.2.2.1
      · dsimp only; rw [hh]
        unfold Hist.addGrown
        rw [if_neg (fun hlt => by
          rcases hacc with h | h
          · rw [ha] at h; cases h
          · exact (hcov ha).mp hlt h)]
        exact L.1.high ha
      · dsimp only
        rw [hc, moved_config L.1.cfg, L.1.counts]
        have : h0.hits (samplesOf h0 (x.2 ++ [.add g])) j =
            h0.hits (samplesOf h0 x.2) j + moved h0 g (List.range g.counts.length) j := by
          unfold samplesOf
          rw [List.flatMap_append, hits_append, ← hits_records Wg]
          simp only [List.flatMap_cons, List.flatMap_nil, List.append_nil, Write.samples]
          rw [if_pos (by rw [greatest_eq Wg]; exact hacc)]
        rw [this]
        omega
      · have h1 := L.1.wf.add_max_lt Wg e (n := h0.lidx U64MAX)
        simp only [L.1.cfg.lidx] at h1
        refine h1 (L.2 hb ha) ?_
        rcases hp with hp | hp
        · rw [ha] at hp; cases hp
        · exact hp

/-- what one class contributes to `add_correct` -/
def corrected (i : Nat) (p : Nat × Nat) : List (Nat × Nat) := (p.1 :: hiddenSeries p.1 i).map fun x => (x, p.2)

theorem addCorrect_contents {g : Hist T} (Wg : WF fp g) (h : Hist T) (i : Nat) :
    h.addCorrect g i = recordSeq ((Cls.nonempty g.contents).flatMap (corrected i)) h := by
  rw [Wg.addCorrect_eq, ← Wg.recItems_classes Wg.contents, List.flatMap_map]
  rfl

theorem nonempty_sorted {g : Hist T} (Wg : WF fp g) :
    (Cls.nonempty g.contents).Pairwise fun a b => a.1 ≤ b.1 := by
  rw [Wg.contents_eq]
  unfold Cls.nonempty
  refine List.Pairwise.map _ (R := fun a b : Cls => a.hi ≤ b.hi) (fun _ _ h => h) (List.Pairwise.filter _ ?_)
  refine List.pairwise_map.mpr (List.Pairwise.imp_of_mem ?_ List.pairwise_lt_range)
  intro i j hi hj hij
  have hi := List.mem_range.mp hi
  have hj := List.mem_range.mp hj
  have e1 : g.lidx (g.lhi (g.lval i)) = i := by rw [lidx_lhi (Wg.lval_le hi)]; exact Lay.idx_val
  have e2 : g.lidx (g.lval j) = j := Lay.idx_val
  have h1 : g.lhi (g.lval i) ≤ g.lval j := by
    by_contra hn
    have : g.lidx (g.lval j) ≤ g.lidx (g.lhi (g.lval i)) := Lay.idx_mono (by omega)
    omega
  exact h1.trans (lhi_ge (Wg.lval_le hj))

theorem nonempty_le {g : Hist T} (Wg : WF fp g) {p : Nat × Nat} (hp : p ∈ Cls.nonempty g.contents) :
    p.1 ≤ U64MAX ∧ p.2 ≤ T.max ∧ (p.1 ≤ g.lmax ∨ p.1 < 2 ^ 63) := by
  rw [Wg.contents_eq] at hp
  unfold Cls.nonempty at hp
  obtain ⟨c, hc, rfl⟩ := List.mem_map.mp hp
  rw [List.mem_filter] at hc
  obtain ⟨hc, h0⟩ := hc
  obtain ⟨i, hi, rfl⟩ := List.mem_map.mp hc
  have hi := List.mem_range.mp hi
  have h0 : g.counts.getD i 0 ≠ 0 := by
    intro hz
    have : (g.lcls i).count = 0 := hz
    rw [this] at h0
    cases h0
  refine ⟨lhi_le, Wg.getD_le i, ?_⟩
  change g.lhi (g.lval i) ≤ g.lmax ∨ g.lhi (g.lval i) < 2 ^ 63
  have hti := Wg.trackMax i h0
  by_cases hm : g.maxValue = 0
  · right
    rw [hm, show g.lidx 0 = 0 from Lay.idx_zero] at hti
    have : i = 0 := by omega
    subst this
    have e1 : g.lidx (g.lhi (g.lval 0)) = 0 := by rw [lidx_lhi (Wg.lval_le hi)]; exact Lay.idx_val
    have h1 := Lay.idx_eq_zero_iff.mp e1
    have h2 : 2 ^ g.unitMag ≤ 2 ^ 62 := Nat.pow_le_pow_right (by omega) (by have := Wg.toLayoutOK.sum62; omega)
    omega
  · left
    have hml : g.lmax = g.lhi g.maxValue := by unfold Hist.lmax; rw [if_neg hm]
    by_cases hU : g.maxValue = U64MAX
    · rw [hml, hU, show g.lhi U64MAX = U64MAX by unfold Hist.lhi; rw [if_pos rfl]]
      exact lhi_le
    · have hv : g.lval i ≤ g.maxValue := Lay.val_le_iff.mpr hti
      have hle := Wg.maxle
      rcases eq_or_lt_of_le hti with he | hlt
      · rw [hml, lhi_eq_of_lidx (v := g.lval i) (w := g.maxValue) (by rw [← he]; exact Lay.idx_val) (by omega) hU]
      · have e1 : g.lidx (g.lhi (g.lval i)) = i := by rw [lidx_lhi (Wg.lval_le hi)]; exact Lay.idx_val
        have h1 : g.lhi (g.lval i) ≤ g.maxValue := by
          by_contra hn
          have : g.lidx g.maxValue ≤ g.lidx (g.lhi (g.lval i)) := Lay.idx_mono (by omega)
          omega
        exact h1.trans Wg.maxValue_le_lmax

theorem below_top {h : Hist T} (W : WF fp h) {v : Nat} (hv : v < 2 ^ 63) : h.lidx v < h.lidx U64MAX := by
  have hm : h.lidx v ≤ h.lidx U64MAX := Lay.idx_mono (by have hU : U64MAX = 18446744073709551615 := rfl; omega)
  refine lt_of_le_of_ne hm fun he => ?_
  have hb := Lay.bkt_eq_of_idx he
  have h1 : Nat.log2 U64MAX = 63 := by decide
  have h2 : Nat.log2 v ≤ 62 := by
    by_cases h0 : v = 0
    · subst h0; simp
    · have := (Nat.log2_lt h0).mpr hv; omega
  have := W.toLayoutOK.sum62
  unfold Lay.bkt at hb
  omega

theorem split_refused {α : Type} {P : Nat → Prop} [DecidablePred P] (hP : ∀ a b, a ≤ b → P b → P a)
    (f : Nat × Nat → List α) {ps : List (Nat × Nat)} (hs : ps.Pairwise fun a b => a.1 ≤ b.1) :
    ∃ l1 l2, ps = l1 ++ l2 ∧ (∀ p ∈ l1, P p.1) ∧ (l2 = [] ∨ ∃ p rest, l2 = p :: rest ∧ ¬ P p.1) ∧
      (ps.flatMap fun p => if P p.1 then f p else []) = l1.flatMap f := by
  induction ps with
  | nil => exact ⟨[], [], rfl, by simp, Or.inl rfl, rfl⟩
  | cons p ps ih =>
    rw [List.pairwise_cons] at hs
    by_cases h : P p.1
    · obtain ⟨l1, l2, rfl, h1, h2, h3⟩ := ih hs.2
      refine ⟨p :: l1, l2, rfl, by simpa using ⟨h, fun a b m => h1 (a, b) m⟩, h2, ?_⟩
      rw [List.flatMap_cons, if_pos h, h3, List.flatMap_cons]
    · refine ⟨[], p :: ps, rfl, by simp, Or.inr ⟨p, ps, rfl, h⟩, ?_⟩
      rw [List.flatMap_nil, List.flatMap_eq_nil_iff]
      intro q hq
      rw [if_neg]
      rcases List.mem_cons.mp hq with rfl | hq
      · exact h
      · exact fun hc => h (hP _ _ (hs.1 q hq) hc)

theorem Keeps.addCorrect {b : Bool} {base : Nat → Nat} {h0 g : Hist T} (W : WF fp h0) {x : Hist T × List (Write T)}
    (L : Keeps fp h0 b base x) (Wg : WF fp g) (i : Nat)
    (hp : h0.autoResize = true ∨ h0.lidx g.lmax < h0.lidx U64MAX) :
    ∃ y r, x.1.addCorrect g i = .ok (y, r) ∧ Keeps fp h0 b base (y, x.2 ++ [.addCorrect g i]) := by
  obtain ⟨l1, l2, hl, h1, h2, h3⟩ := split_refused (P := fun v => h0.autoResize = true ∨ h0.Covers v) (by
    rintro a b hab (h | h)
    · exact Or.inl h
    · right
      rw [W.covers_iff] at h ⊢
      exact lt_of_le_of_lt (Lay.idx_mono hab) h) (corrected i) (nonempty_sorted Wg)
  have hmem : ∀ p ∈ l1, p ∈ Cls.nonempty g.contents := fun p hp => by rw [hl]; simp [hp]
  obtain ⟨y, e, Ly⟩ := L.recordSeq W (w := .addCorrect g i) (l := l1.flatMap (corrected i)) h3 (by
      intro q hq
      obtain ⟨p, hp, hq⟩ := List.mem_flatMap.mp hq
      obtain ⟨a1, a2, -⟩ := nonempty_le Wg (hmem p hp)
      exact correct_valid a1 a2 q hq) (by
      cases ha : h0.autoResize with
      | true => exact Or.inl rfl
      | false =>
        right
        intro q hq
        obtain ⟨p, hp, hq⟩ := List.mem_flatMap.mp hq
        rcases h1 p hp with h | h
        · rw [ha] at h; cases h
        · exact (W.covers_iff _).mpr (correct_lt ((W.covers_iff _).mp h) q hq)) (by
      intro _ ha q hq
      obtain ⟨p, hp', hq⟩ := List.mem_flatMap.mp hq
      refine correct_lt ?_ q hq
      rcases hp with hp | hp
      · rw [ha] at hp; cases hp
      · rcases (nonempty_le Wg (hmem p hp')).2.2 with h | h
        · exact lt_of_le_of_lt (Lay.idx_mono h) hp
        · exact below_top W h)
  rw [addCorrect_contents Wg, hl, List.flatMap_append, recordSeq_append, e, M.ok_bind]
  rcases h2 with rfl | ⟨p, rest, rfl, hn⟩
  · exact ⟨y, .ok (), rfl, Ly⟩
  · obtain ⟨a1, a2, -⟩ := nonempty_le Wg (p := p) (by rw [hl]; simp)
    refine ⟨y, .error .ValueOutOfRangeResizeDisabled, ?_, Ly⟩
    dsimp only
    rw [List.flatMap_cons]
    unfold corrected
    rw [List.map_cons, List.cons_append, recordSeq_cons, Ly.refused W a1 a2 hn]; rfl

theorem Write.Plain.counted {h0 : Hist T} {w : Write T} (hw : w.Plain fp h0) : w.Counted fp h0 := by
  cases w with
  | recordN v c => exact ⟨hw.1, hw.2.1⟩
  | recordNCorrect v c i => exact ⟨hw.1, hw.2.1⟩
  | saturatingRecordN v c => exact ⟨hw.1, hw.2.1, fun h => by have := hw.2.2; rwa [if_pos h] at this⟩
  | add | addCorrect | subtract => exact hw

theorem write_keeps {b : Bool} {base : Nat → Nat} {h0 : Hist T} (W : WF fp h0) (w : Write T) (x : Hist T × List (Write T))
    (hw : w.Counted fp h0) (hb : b = true → w.Plain fp h0) (L : Keeps fp h0 b base x) : ∃ y, (HistOps.concrete fp T).traced.write w x = .ok y ∧ Keeps fp h0 b base y := by
  suffices h : ∃ g, w.run x.1 = .ok g ∧ Keeps fp h0 b base (g, x.2 ++ [w]) by
    obtain ⟨g, e, Lg⟩ := h
    refine ⟨_, ?_, Lg⟩
    simp only [HistOps.traced, HistOps.concrete, e]; rfl
  cases w with
  | recordN v c =>
    obtain ⟨hv, hc⟩ := hw
    by_cases ha : h0.autoResize = true ∨ h0.Covers v
    · obtain ⟨g, e, Lg⟩ := L.recordSeq W (w := .recordN v c) (l := [(v, c)]) (by simp [Write.samples, ha])
        (by simpa using ⟨hv, hc⟩) (by simpa using ha) (by
          intro hb' h
          rcases (hb hb').2.2 with hp | hp
          · rw [h] at hp; cases hp
          · simpa using top_lt W hv hp)
      refine ⟨g, ?_, Lg⟩
      simp only [Write.run]
      rw [recordN_seq, e]; rfl
    · refine ⟨x.1, ?_, L.skip (by simp [Write.samples, ha])⟩
      simp only [Write.run]
      rw [L.refused W hv hc ha]; rfl
  | recordNCorrect v c i =>
    obtain ⟨hv, hc⟩ := hw
    by_cases ha : h0.autoResize = true ∨ h0.Covers v
    · obtain ⟨g, e, Lg⟩ := L.recordSeq W (w := .recordNCorrect v c i) (l := (v :: hiddenSeries v i).map fun x => (x, c))
        (by simp only [Write.samples]; rw [if_pos ha]) (correct_valid hv hc) (by
          rcases ha with ha | ha
          · exact Or.inl ha
          · right
            intro p hp
            exact (W.covers_iff _).mpr (correct_lt ((W.covers_iff v).mp ha) p hp)) (by
          intro hb' h
          rcases (hb hb').2.2 with hp | hp
          · rw [h] at hp; cases hp
          · exact correct_lt (top_lt W hv hp))
      refine ⟨g, ?_, Lg⟩
      simp only [Write.run]
      rw [recordNCorrect_eq, e]; rfl
    · refine ⟨x.1, ?_, L.skip (by simp only [Write.samples]; rw [if_neg ha])⟩
      simp only [Write.run]
      rw [recordNCorrect_eq, List.map_cons, recordSeq_cons, L.refused W hv hc ha]; rfl
  | saturatingRecordN v c =>
    obtain ⟨hv, hc, hp⟩ := hw
    have hcl : x.1.clampTo v = if h0.Covers v then v else h0.highestTrackable := by
      unfold Hist.clampTo
      rw [L.1.cfg.lidx]
      by_cases hcov : h0.Covers v
      · rw [if_pos hcov, if_pos (lt_of_lt_of_le ((W.covers_iff v).mp hcov) L.1.len)]
      · have ha : h0.autoResize = false := by
          cases h : h0.autoResize
          · rfl
          · exact absurd (hp h) hcov
        rw [if_neg hcov, L.1.len_eq W ha, if_neg (fun h => hcov ((W.covers_iff v).mpr h)), L.1.high ha]
    have hclc : h0.Covers (if h0.Covers v then v else h0.highestTrackable) := by
      split
      · assumption
      · exact (W.covers_iff _).mpr W.high_cov
    have hcle : (if h0.Covers v then v else h0.highestTrackable) ≤ U64MAX := by
      split
      · exact hv
      · exact W.highmax
    obtain ⟨g, e, Lg⟩ := L.recordSeq W (w := .saturatingRecordN v c)
      (l := [(if h0.Covers v then v else h0.highestTrackable, c)]) rfl
      (by simpa using ⟨hcle, hc⟩) (Or.inr (by simpa using hclc)) (by
        intro hb' h
        have hp := (hb hb').2.2
        rw [if_neg (by rw [h]; simp)] at hp
        have ht := top_lt W hv hp
        simp only [List.mem_singleton, forall_eq]
        split
        · exact ht
        · rename_i hcov
          have h1 := W.high_cov
          rw [W.covers_iff] at hcov
          omega)
    refine ⟨g, ?_, Lg⟩
    simp only [Write.run]
    rw [L.1.wf.saturatingRecordN_eq hv, hcl]
    rw [← recordN_seq, L.1.wf.recordN_cov hcle hc (by
      rw [L.1.cfg.lidx]; exact lt_of_lt_of_le ((W.covers_iff _).mp hclc) L.1.len)] at e
    cases e; rfl
  | add g =>
    obtain ⟨Rg, hp⟩ := hw
    rw [greatest_eq Rg.wf] at hp
    obtain ⟨y, r, e, Ly⟩ := L.merge W Rg.wf (hp.imp id (top_lt W lmax_le))
    refine ⟨y, ?_, Ly⟩
    simp only [Write.run, e]; rfl
  | addCorrect g i =>
    obtain ⟨Rg, hp⟩ := hw
    rw [greatest_eq Rg.wf] at hp
    obtain ⟨y, r, e, Ly⟩ := L.addCorrect W Rg.wf i (hp.imp id (top_lt W lmax_le))
    refine ⟨y, ?_, Ly⟩
    simp only [Write.run, e]; rfl
  | subtract => exact hw.elim

theorem write_fine {h0 : Hist T} (W : WF fp h0) (w : Write T) (x : Hist T × List (Write T)) (hw : w.Plain fp h0)
    (L : Local fp h0 x) : ∃ y, (HistOps.concrete fp T).traced.write w x = .ok y ∧ Local fp h0 y := by
  obtain ⟨y, e, k⟩ := write_keeps (b := true) W w x hw.counted (fun _ => hw) ⟨L.1, fun _ => L.2⟩
  exact ⟨y, e, k.1, k.2 rfl⟩

theorem fresh_fine {h0 : Hist T} {base : Nat → Nat} {x : Hist T × List (Write T)} (W : WF fp h0) (h : Holds fp h0 base x) :
    ∃ y, (HistOps.concrete fp T).traced.fresh x = .ok y ∧ Local fp h0 y := by
  obtain ⟨g, e, Wg, ht, hm, -, ha, hlo, hh, hs, hu, hg, -, hle⟩ := h.wf.newFrom_eq (T := T)
  refine ⟨(g, []), ?_, ⟨Wg, ⟨ha.trans h.cfg.auto, hlo.trans h.cfg.low, hs.trans h.cfg.sig, hu.trans h.cfg.um,
    hg.trans h.cfg.mag⟩, by dsimp only; rw [hle]; exact h.len, fun hf => hh.trans (h.high hf), fun j => ?_⟩, fun _ => ?_⟩
  · simp only [HistOps.traced, HistOps.concrete, e]; rfl
  · dsimp only
    rw [Wg.getD_zero_of_empty ht]
    simp [samplesOf, Hist.hits]
  · dsimp only
    rw [hm]
    have h1 := lidx_top W.toLayoutOK
    have h2 : h0.lidx 0 = 0 := Lay.idx_eq_zero_iff.mpr (Nat.two_pow_pos _)
    omega

theorem add_fine {h0 : Hist T} (_W : WF fp h0) (base : Nat → Nat) (m x : Hist T × List (Write T))
    (hm : Holds fp h0 base m) (hx : Local fp h0 x) :
    ∃ y, (HistOps.concrete fp T).traced.add m x = .ok y ∧ Holds fp h0 base y := by
  suffices h : ∃ g, addExpect m.1 x.1 = .ok g ∧ Holds fp h0 base (g, m.2 ++ x.2) by
    obtain ⟨g, e, hg⟩ := h
    refine ⟨_, ?_, hg⟩
    simp only [HistOps.traced, HistOps.concrete, e]; rfl
  have hcfg : SameConfig m.1 x.1 :=
    ⟨hx.1.cfg.auto.trans hm.cfg.auto.symm, hx.1.cfg.low.trans hm.cfg.low.symm, hx.1.cfg.sig.trans hm.cfg.sig.symm,
      hx.1.cfg.um.trans hm.cfg.um.symm, hx.1.cfg.mag.trans hm.cfg.mag.symm⟩
  have fit : h0.autoResize = false → ¬ m.1.ltop < x.1.lmax := by
    intro ha
    rw [hm.wf.same_ltop hx.1.wf hcfg.low.symm (by unfold Hist.high; rw [hm.high ha, hx.1.high ha]) hcfg.sig.symm]
    intro ht
    have h1 := hx.1.wf.lidx_lmax
    rw [ht, hx.1.cfg.lidx, hx.1.cfg.lidx] at h1
    have := hx.2 ha
    omega
  have hcount : ∀ g : Hist T, (∀ j, g.counts.getD j 0 = min (m.1.counts.getD j 0 + x.1.counts.getD j 0) T.max) →
      ∀ j, g.counts.getD j 0 = min (base j + h0.hits (samplesOf h0 (m.2 ++ x.2)) j) T.max := by
    intro g hg j
    rw [hg, hm.counts, hx.1.counts]
    unfold samplesOf
    rw [List.flatMap_append, hits_append]
    omega
  obtain ⟨g, r, e, Wg, hr⟩ := hm.wf.add_spec hx.1.wf
  cases r with
  | error x =>
    cases x with
    | OtherAddendValueExceedsRange => exact absurd hr.2.2.1 (fit (hm.cfg.auto.symm.trans hr.2.1))
    | ResizeFailedUsizeTypeTooSmall => exact hr.elim
  | ok u =>
    refine ⟨g, by unfold addExpect; rw [e]; rfl, ?_⟩
    rcases hr with ⟨h0', rfl⟩ | ⟨-, hauto, c, hl, hh, hc, -⟩
    · refine ⟨Wg, hm.cfg, hm.len, hm.high, hcount _ fun j => ?_⟩
      rw [hx.1.wf.getD_zero_of_empty h0']
      have := hm.wf.getD_le j
      dsimp only; omega
    · refine ⟨Wg, hm.cfg.trans c, ?_, fun ha => ?_, hcount _ fun j => ?_⟩
      · dsimp only; rw [hl]
        exact le_trans hm.len (hm.wf.addGrown (s := x.1)).2.2.2.2.2.2.2.1
      · dsimp only; rw [hh]
        unfold Hist.addGrown
        rw [if_neg (fit ha)]
        exact hm.high ha
      · rw [hc, moved_same hcfg.um.symm hcfg.mag.symm]

theorem hist_fine {h0 : Hist T} (W : WF fp h0) (base : Nat → Nat) :
    Fine (HistOps.concrete fp T).traced (Write.Plain fp h0) (Holds fp h0 base) (Local fp h0) where
  freshM _ hh := fresh_fine W hh
  freshL _ hh := fresh_fine W hh.1
  add m h hm hh := add_fine W base m h hm hh
  write w h hw hh := write_fine W w h hw hh

theorem holds_init {h0 : Hist T} (W : WF fp h0) : Holds fp h0 (fun j => h0.counts.getD j 0) (h0, []) where
  wf := W
  cfg := SameConfig.refl h0
  len := le_rfl
  high _ := rfl
  counts j := by have := W.getD_le j; simp only [samplesOf, Hist.hits]; simp; exact this

/-! ## Writes that only need to work -/

/-- a histogram with the settings of `h0`, as long as `h0` and, if `b`, possible to merge -/
structure Base (fp : Fp) (h0 : Hist T) (b : Bool) (x : Hist T) : Prop where
  wf : WF fp x
  cfg : SameConfig h0 x
  len : h0.counts.length ≤ x.counts.length
  high : h0.autoResize = false → x.highestTrackable = h0.highestTrackable
  max : b = true → h0.autoResize = false → h0.lidx x.maxValue < h0.lidx U64MAX

theorem Base.keeps {h0 x : Hist T} {b : Bool} (B : Base fp h0 b x) (ws : List (Write T)) (hs : samplesOf h0 ws = []) :
    Keeps fp h0 b (fun j => x.counts.getD j 0) (x, ws) := by
  refine ⟨⟨B.wf, B.cfg, B.len, B.high, fun j => ?_⟩, B.max⟩
  have := B.wf.getD_le j
  dsimp only
  rw [hs]
  simp only [Hist.hits, List.map_nil, List.sum_nil]
  omega

theorem Keeps.base {h0 : Hist T} {b : Bool} {base : Nat → Nat} {x : Hist T × List (Write T)} (L : Keeps fp h0 b base x) :
    Base fp h0 b x.1 := ⟨L.1.wf, L.1.cfg, L.1.len, L.1.high, L.2⟩

theorem base_fresh {h0 x : Hist T} {b : Bool} (W : WF fp h0) (B : Base fp h0 b x) :
    ∃ y, Hist.newFrom fp T x = .ok y ∧ Base fp h0 true y := by
  obtain ⟨y, e, L⟩ := fresh_fine W (B.keeps [] rfl).1
  simp only [HistOps.traced, HistOps.concrete] at e
  rw [M.bind_eq_ok] at e
  obtain ⟨z, h, e⟩ := e
  cases e
  exact ⟨z, h, L.1.wf, L.1.cfg, L.1.len, L.1.high, fun _ => L.2⟩

theorem base_add {h0 m x : Hist T} (W : WF fp h0) (hm : Base fp h0 false m) (hx : Base fp h0 true x) :
    ∃ y, addExpect m x = .ok y ∧ Base fp h0 false y := by
  have hcfg : SameConfig m x :=
    ⟨hx.cfg.auto.trans hm.cfg.auto.symm, hx.cfg.low.trans hm.cfg.low.symm, hx.cfg.sig.trans hm.cfg.sig.symm,
      hx.cfg.um.trans hm.cfg.um.symm, hx.cfg.mag.trans hm.cfg.mag.symm⟩
  have fit : h0.autoResize = false → ¬ m.ltop < x.lmax := by
    intro ha
    rw [hm.wf.same_ltop hx.wf hcfg.low.symm (by unfold Hist.high; rw [hm.high ha, hx.high ha]) hcfg.sig.symm]
    intro ht
    have h1 := hx.wf.lidx_lmax
    rw [ht, hx.cfg.lidx, hx.cfg.lidx] at h1
    have := hx.max rfl ha
    omega
  obtain ⟨y, r, e, L⟩ := (hm.keeps [] rfl).merge W hx.wf (by
    cases ha : h0.autoResize with
    | true => exact Or.inl rfl
    | false =>
      right
      have h1 := hx.wf.lidx_lmax
      rw [hx.cfg.lidx, hx.cfg.lidx] at h1
      rw [h1]
      exact hx.max rfl ha)
  obtain ⟨g, r', e', -, hr⟩ := hm.wf.add_spec hx.wf
  dsimp only at e
  rw [e] at e'; cases e'
  refine ⟨y, ?_, L.base⟩
  unfold addExpect
  cases r with
  | error q =>
    cases q with
    | OtherAddendValueExceedsRange => exact absurd hr.2.2.1 (fit (hm.cfg.auto.symm.trans hr.2.1))
    | ResizeFailedUsizeTypeTooSmall => exact hr.elim
  | ok u => rw [e]; rfl

theorem base_write {h0 x : Hist T} {b : Bool} {w : Write T} (W : WF fp h0) (hw : w.Safe fp h0) (B : Base fp h0 b x) :
    ∃ y, w.run x = .ok y ∧ Base fp h0 b y := by
  have plain : w.Plain fp h0 → ∃ y, w.run x = .ok y ∧ Base fp h0 b y := by
    intro hp
    obtain ⟨y, e, L⟩ := write_keeps W w (x, []) hp.counted (fun _ => hp) (B.keeps [] rfl)
    simp only [HistOps.traced, HistOps.concrete] at e
    rw [M.bind_eq_ok] at e
    obtain ⟨z, h, e⟩ := e
    cases e
    exact ⟨z, h, L.base⟩
  cases w with
  | recordN v c => exact plain hw
  | recordNCorrect v c i => exact plain hw
  | add g => exact plain hw
  | addCorrect g i => exact plain hw
  | saturatingRecordN v c =>
    cases ha : h0.autoResize with
    | false =>
      refine plain ⟨hw.1, hw.2.1, ?_⟩
      rw [if_neg (by rw [ha]; simp)]
      exact hw.2.2.resolve_left (by rw [ha]; simp)
    | true =>
      refine ⟨x.recorded (x.clampTo v) c, ?_, ?_, B.cfg.trans ⟨rfl, rfl, rfl, rfl, rfl⟩, ?_, ?_, ?_⟩
      · simp only [Write.run]; rw [B.wf.saturatingRecordN_eq hw.1]
      · exact B.wf.recorded (B.wf.clampTo_le hw.1) (B.wf.clampTo_cov _)
      · simpa [Hist.recorded] using B.len
      · rw [ha]; intro h; cases h
      · rw [ha]; intro _ h; cases h
  | subtract g =>
    obtain ⟨y, r, e, Wy, Ly, -⟩ := B.wf.subtract_full (Reachable.wf hw)
    refine ⟨y, ?_, Wy, B.cfg.trans ?_, ?_, ?_, ?_⟩
    · simp only [Write.run, e]; rfl
    · rw [Ly.same]; exact ⟨rfl, rfl, rfl, rfl, rfl⟩
    · rw [Ly.len]; exact B.len
    · intro h; rw [Ly.same]; exact B.high h
    · intro hb ha
      have := Ly.max
      rw [B.cfg.lidx, B.cfg.lidx] at this
      exact lt_of_le_of_lt this (B.max hb ha)

theorem safe_fine {h0 : Hist T} (W : WF fp h0) :
    Fine (HistOps.concrete fp T) (Write.Safe fp h0) (Base fp h0 false) (Base fp h0 true) where
  freshM _ hh := base_fresh W hh
  freshL _ hh := base_fresh W hh
  add _ _ hm hh := base_add W hm hh
  write _ _ hw hh := base_write W hw hh

theorem base_init {h0 : Hist T} (W : WF fp h0) : Base fp h0 false h0 :=
  ⟨W, SameConfig.refl h0, le_rfl, fun _ => rfl, fun h => by cases h⟩

theorem counted_le {h0 : Hist T} (W : WF fp h0) {w : Write T} (hw : w.Counted fp h0) : ∀ p ∈ w.samples h0, p.1 ≤ U64MAX := by
  intro p hp
  cases w with
  | recordN v c =>
    simp only [Write.samples] at hp
    split at hp
    · simp at hp; subst hp; exact hw.1
    · simp at hp
  | recordNCorrect v c i =>
    simp only [Write.samples] at hp
    split at hp
    · exact (correct_valid hw.1 hw.2 p hp).1
    · simp at hp
  | saturatingRecordN v c =>
    simp only [Write.samples, List.mem_singleton] at hp
    subst hp
    dsimp only
    split
    · exact hw.1
    · exact W.highmax
  | add g =>
    simp only [Write.samples] at hp
    split at hp
    · have Wg := hw.1.wf
      rw [Wg.contents_eq] at hp
      obtain ⟨c, hc, rfl⟩ := List.mem_map.mp hp
      obtain ⟨i, hi, rfl⟩ := List.mem_map.mp hc
      exact Wg.lval_le (List.mem_range.mp hi)
    · simp at hp
  | addCorrect g i =>
    simp only [Write.samples] at hp
    obtain ⟨q, hq, hp⟩ := List.mem_flatMap.mp hp
    split at hp
    · obtain ⟨a1, a2, -⟩ := nonempty_le hw.1.wf hq
      exact (correct_valid a1 a2 p hp).1
    · simp at hp
  | subtract => exact hw.elim

theorem samples_le {h0 : Hist T} (W : WF fp h0) {w : Write T} (hw : w.Plain fp h0) : ∀ p ∈ w.samples h0, p.1 ≤ U64MAX :=
  counted_le W hw.counted

/-- from an execution without lists to one with lists -/
theorem lift_exec {fp : Fp} {h0 : Hist T} {ls : List (Label (Write T))} {x : M (Sys (Hist T))}
    (e : exec (HistOps.concrete fp T) ls (Sys.init h0) = some x) :
    ∃ y, exec (HistOps.concrete fp T).traced ls (Sys.init (h0, [])) = some y ∧ eraseOut (some y) = some x := by
  have := erase_exec (o := HistOps.concrete fp T) (ls := ls) (s := Sys.init (h0, []))
  rw [show (Sys.init (h0, ([] : List (Write T)))).erase = Sys.init h0 from rfl, e] at this
  cases h : exec (HistOps.concrete fp T).traced ls (Sys.init (h0, [])) with
  | none => rw [h] at this; cases this
  | some y => rw [h] at this; exact ⟨y, rfl, this.symm⟩

end Hdr.Sync
