import Verif.Spec.Panics
import Verif.Proofs.StepPanics
import Verif.Props.Api
import Verif.Props.Stdev
import Verif.Props.Inverse
import Verif.Props.Ticks

/-!
# C80: exactly which calls panic
-/

namespace Hdr

variable {T : CounterTy} {fp : Fp} {lg : F64 → Nat}

/-! ## `value_at_quantile` -/

theorem quantileLoop_cons (h : Hist T) (target : Nat) (z : Bool) (c : Nat) (cs : List Nat) (i total : Nat) :
    h.quantileLoop target z (c :: cs) i total = (do
      let total ← addU64 total c
      if target ≤ total then do
        let v ← h.valueFor i
        if z then h.lowestEquivalent v else h.highestEquivalent v
      else h.quantileLoop target z cs (i + 1) total) := rfl

theorem quantileLoop_overflow (h : Hist T) {target : Nat} (ht : target ≤ U64MAX) (z : Bool) {c : Nat} {post : List Nat} :
    ∀ (pre : List Nat) (i total : Nat), total + pre.sum < target → U64MAX < total + pre.sum + c →
      h.quantileLoop target z (pre ++ c :: post) i total = .error .overflow := by
  intro pre
  induction pre with
  | nil =>
    intro i total h1 h2
    rw [List.nil_append, quantileLoop_cons]
    simp only [List.sum_nil] at h1 h2
    rw [show addU64 total c = .error .overflow from if_neg (by omega)]
    rfl
  | cons x pre ih =>
    intro i total h1 h2
    rw [List.sum_cons] at h1 h2
    rw [List.cons_append, quantileLoop_cons, show addU64 total x = .ok (total + x) from if_pos (by omega), M.ok_bind,
      if_neg (by omega)]
    exact ih (i + 1) (total + x) (by omega) (by omega)

theorem WF.quantileLoop_total {h : Hist T} (W : WF fp h) (target : Nat) (z : Bool) :
    ∀ (cs : List Nat) (i total : Nat), i + cs.length ≤ h.counts.length → total < target →
      (∃ k, k < cs.length ∧ total + (cs.take k).sum < target ∧ target ≤ total + (cs.take k).sum + cs.getD k 0 ∧
        h.quantileLoop target z cs i total = .ok (if z then h.lval (i + k) else h.lhi (h.lval (i + k)))) ∨
      (total + cs.sum < target ∧ h.quantileLoop target z cs i total = .ok 0) ∨
      (∃ k, k < cs.length ∧ total + (cs.take k).sum < target ∧ U64MAX < total + (cs.take k).sum + cs.getD k 0) := by
  intro cs
  induction cs with
  | nil => intro i total _ ht; right; left; exact ⟨by simpa using ht, rfl⟩
  | cons c cs ih =>
    intro i total hi ht
    rw [List.length_cons] at hi
    by_cases hov : U64MAX < total + c
    · right; right
      exact ⟨0, by simp, by simpa using ht, by simpa using hov⟩
    rw [quantileLoop_cons, show addU64 total c = .ok (total + c) from if_pos (by omega), M.ok_bind]
    by_cases hc : target ≤ total + c
    · rw [if_pos hc]
      left
      refine ⟨0, by simp, by simpa using ht, by simpa using hc, ?_⟩
      have L := W.toLayoutOK
      have hlt : i < h.counts.length := by omega
      rw [valueFor_eq L (lt_of_lt_of_le hlt W.len_le_all), M.ok_bind, Nat.add_zero]
      cases z with
      | true =>
        rw [if_pos rfl, if_pos rfl, lowestEquivalent_eq L (W.lval_le' hlt)]
        exact congrArg _ Lay.lo_val
      | false =>
        rw [if_neg (by decide), if_neg (by decide), highestEquivalent_eq L (W.lval_le' hlt)]
    · rw [if_neg hc]
      rcases ih (i + 1) (total + c) (by omega) (by omega) with ⟨k, k1, k2, k3, k4⟩ | ⟨k1, k2⟩ | ⟨k, k1, k2, k3⟩
      · left
        refine ⟨k + 1, by simp; omega, ?_, ?_, ?_⟩
        · rw [List.take_succ_cons, List.sum_cons]; omega
        · rw [List.take_succ_cons, List.sum_cons, List.getD_cons_succ]; omega
        · rw [k4, show i + 1 + k = i + (k + 1) by omega]
      · right; left
        exact ⟨by rw [List.sum_cons]; omega, k2⟩
      · right; right
        refine ⟨k + 1, by simp; omega, ?_, ?_⟩
        · rw [List.take_succ_cons, List.sum_cons]; omega
        · rw [List.take_succ_cons, List.sum_cons, List.getD_cons_succ]; omega

theorem specRank_le_max (n : Nat) (q : F64) : specRank n q ≤ U64MAX := by
  have hU : (1 : Nat) ≤ U64MAX := by decide
  cases q <;> simp only [specRank] <;> omega

theorem WF.counts_classes {h : Hist T} (W : WF fp h) {cs : List Cls} (C : Classes h cs) : cs.map (·.count) = h.counts := by
  rw [W.classes_unique C, List.map_map]
  refine List.ext_getElem (by simp) ?_
  intro i h1 h2
  simp only [List.getElem_map, List.getElem_range, Function.comp]
  show h.counts.getD i 0 = _
  rw [List.getD_eq_getElem?_getD, List.getElem?_eq_getElem h2]
  rfl

theorem WF.rank_overflow {h : Hist T} (W : WF fp h) {cs : List Cls} (C : Classes h cs) {q : F64}
    (ho : RankOverflows cs (specRank h.len q)) : h.valueAtQuantile q = .error .overflow := by
  obtain ⟨pre, c, post, e, h1, h2⟩ := ho
  unfold Hist.valueAtQuantile
  simp only
  rw [rank_eq W.tot, ← W.counts_classes C, e, List.map_append, List.map_cons]
  exact quantileLoop_overflow h (specRank_le_max _ _) _ _ 0 0 (by rw [Nat.zero_add]; exact h1) (by rw [Nat.zero_add]; exact h2)

/-- C25, without any condition: `value_at_quantile` panics exactly if adding up the counts exceeds `u64::MAX` before the
rank is reached; otherwise it answers from the class that holds the rank, or 0 if there is none. -/
theorem C25_outcome {h : Hist T} (R : Reachable fp T h) {cs : List Cls} (C : Classes h cs) (q : F64) :
    (RankOverflows cs (specRank h.len q) ∧ h.valueAtQuantile q = .error .overflow) ∨
    (¬ RankOverflows cs (specRank h.len q) ∧ ∃ c, AtRank cs (specRank h.len q) c ∧
      h.valueAtQuantile q = .ok (if q = .fin 0 then c.lo else c.hi)) ∨
    (¬ RankOverflows cs (specRank h.len q) ∧ (cs.map (·.count)).sum < specRank h.len q ∧ h.valueAtQuantile q = .ok 0) := by
  have W := R.wf
  have hno : ∀ {x}, h.valueAtQuantile q = .ok x → ¬ RankOverflows cs (specRank h.len q) := by
    intro x hx ho
    rw [W.rank_overflow C ho] at hx
    cases hx
  have hq : h.valueAtQuantile q = h.quantileLoop (specRank h.totalCount q) (F64.feq (Hist.capQuantile q) (.fin 0)) h.counts 0 0 := by
    unfold Hist.valueAtQuantile
    simp only
    rw [rank_eq W.tot]
  have hp := specRank_pos h.totalCount q
  rcases W.quantileLoop_total (specRank h.totalCount q) (F64.feq (Hist.capQuantile q) (.fin 0)) h.counts 0 0 (by omega)
    (by omega) with ⟨k, k1, k2, k3, k4⟩ | ⟨k1, k2⟩ | ⟨k, k1, k2, k3⟩
  · right; left
    rw [← hq] at k4
    refine ⟨hno k4, ?_⟩
    obtain ⟨pre, post, e1, e2⟩ := W.classes_split C k1
    refine ⟨h.lcls k, ⟨pre, post, e1, by rw [e2]; show _ < specRank h.totalCount q; omega, ?_⟩, ?_⟩
    · rw [e2]
      have : (h.lcls k).count = h.counts.getD k 0 := rfl
      show specRank h.totalCount q ≤ _
      omega
    · rw [k4, Nat.zero_add]
      have h1 : (h.lcls k).lo = h.lval k := rfl
      have h2 : (h.lcls k).hi = h.lhi (h.lval k) := rfl
      rw [h1, h2]
      by_cases hz : q = .fin 0
      · rw [if_pos hz, if_pos ((feq_cap q).mpr hz)]
      · rw [if_neg hz, if_neg (fun hc => hz ((feq_cap q).mp hc))]
  · right; right
    rw [← hq] at k2
    refine ⟨hno k2, ?_, k2⟩
    rw [W.sum_classes C]
    show _ < specRank h.totalCount q
    omega
  · left
    have ho : RankOverflows cs (specRank h.len q) := by
      obtain ⟨pre, post, e1, e2⟩ := W.classes_split C k1
      refine ⟨pre, h.lcls k, post, e1, by rw [e2]; show _ < specRank h.totalCount q; omega, ?_⟩
      rw [e2]
      have : (h.lcls k).count = h.counts.getD k 0 := rfl
      omega
    exact ⟨ho, W.rank_overflow C ho⟩

/-! ## Iterators -/

/-- C31, the remaining cases: outside the conditions of `C31_linear_partial`, `iter_linear` panics. -/
theorem C31_panic {h : Hist T} (R : Reachable fp T h) {step n : Nat} (hs : 0 < step) (hs64 : step ≤ U64MAX)
    (hn : LinearSteps h step n)
    (hbad : U64MAX + 1 < (n + 1) * step ∨
      (h.sigfig = 0 ∧ h.Covers U64MAX ∧ ∃ l, h.lowestEquivalent U64MAX = .ok l ∧ l < n * step))
    {fuel : Nat} (hf : n < fuel) : h.iterLinear step fuel = .error .overflow := by
  have W := R.wf
  obtain ⟨m, hm, S⟩ := W.linSchedErr hs hn hbad
  unfold Hist.iterLinear Hist.linearNew
  rw [assertM_true (decide_eq_true hs), M.ok_bind]
  have h0 : subU step 1 = .ok (linLevel step 0) := by
    unfold subU linLevel
    rw [if_pos (by omega), Nat.zero_add, Nat.one_mul]
  have h1 : linLevel step 0 ≤ U64MAX := by
    unfold linLevel
    omega
  rw [h0, M.ok_bind, lowestEquivalent_eq W.toLayoutOK h1, M.ok_bind]
  exact W.schedErrCollect S (by omega)

/-- an iterator that never picks yields nothing -/
theorem WF.iterCollect_none {P : Type} {h : Hist T} (W : WF fp h) {pk : Picker P} {p : P} (k : Nat)
    (hpick : ∀ i t, i < h.counts.length → pk.pick p i t (h.counts.getD i 0) = .ok (p, none)) (d : Nat) :
    ∀ i cai t c, i + d = h.counts.length →
      h.iterCollect pk (k + 1)
        { totalCountToIndex := t, countSinceLastIteration := c
          countAtIndex := cai, currentIndex := i, lastPickedIndex := none, maxValueIndex := h.lidx h.maxValue
          fresh := true, ended := false, picker := p }
        = .ok [] := by
  induction d with
  | zero =>
    intro i cai t c hi
    rw [iterCollect_unfold _ _ _ _ (show i ≤ _ by omega), if_neg (by simp), iterPass_end (show i = _ by omega), M.ok_bind]
  | succ d ih =>
    intro i cai t c hi
    have hlt : i < h.counts.length := by omega
    rw [iterCollect_unfold _ _ _ _ hlt.le, if_neg (by simp), iterPass_before hlt rfl,
      iterLoad_fresh rfl hlt, M.ok_bind]
    rw [W.iterPick_none (p := p) hlt (hpick _ _ hlt), M.ok_bind]
    exact ih (i + 1) _ _ _ (by omega)

/-- C33 (4): on an empty histogram, `iter_quantiles` yields nothing. -/
theorem C33_empty {h : Hist T} (R : Reachable fp T h) (h0 : h.len = 0) {t : Nat} (ht : 0 < t) {fuel : Nat} (hf : 0 < fuel) :
    Hist.iterQuantiles lg h t fuel = .ok [] := by
  have W := R.wf
  have hz : ∀ i, h.counts.getD i 0 = 0 := by
    intro i
    have h1 := W.totsum
    rw [show h.totalCount = 0 from h0] at h1
    have hU : U64MAX = 18446744073709551615 := rfl
    have h2 : h.counts.getD i 0 ≤ h.counts.sum := by
      by_cases hi : i < h.counts.length
      · have h3 := take_succ_sum hi
        have h4 := take_drop_sum h.counts (i + 1)
        omega
      · rw [List.getD_eq_getElem?_getD, List.getElem?_eq_none (by omega)]
        exact Nat.zero_le _
    omega
  unfold Hist.iterQuantiles Hist.quantileNew
  rw [assertM_true (decide_eq_true ht), M.ok_bind, W.iterNew_eq, M.ok_bind]
  obtain ⟨f, rfl⟩ : ∃ f, fuel = f + 1 := ⟨fuel - 1, by omega⟩
  refine W.iterCollect_none f ?_ h.counts.length 0 0 0 0 (by omega)
  intro i t _
  rw [hz]
  rfl

/-! ## C80 -/

namespace V2

theorem bigEndian_length (n x : Nat) : (Format.bigEndian n x).length = n := by rw [bigEndian_eq, beBytes_length]

theorem bigEndian_exists {p : List UInt8} (hp : p.length = 4) : ∃ n, n < 2 ^ 32 ∧ p = Format.bigEndian 4 n := by
  refine ⟨beVal p, ?_, ?_⟩
  · have := beVal_lt p
    rw [hp] at this
    exact lt_of_lt_of_eq this (by norm_num)
  · rw [bigEndian_eq, ← hp, beBytes_beVal]

theorem bigEndian_inj {a b : Nat} (ha : a < 2 ^ 32) (hb : b < 2 ^ 32) (h : Format.bigEndian 4 a = Format.bigEndian 4 b) :
    a = b := by
  rw [bigEndian_eq, bigEndian_eq] at h
  have h1 := beVal_go 4 a 0
  have h2 := beVal_go 4 b 0
  rw [h, h2] at h1
  omega

end V2

namespace Api

theorem forget_error {α : Type} {m : M α} {e : Panic} (h : m = .error e) : forget m = .error e := by rw [h]; rfl

/-- the two outcomes of a query, for every sufficiently large number of `next` calls -/
def Decided (F : Nat) (run : Nat → M Unit) (P : Prop) : Prop :=
  ∀ fuel, F ≤ fuel → (P → run fuel = .error .overflow ∨ run fuel = .error .assert) ∧ (¬ P → run fuel = .ok ())

theorem rank_decided {h : Hist T} (R : Reachable fp T h) {cs : List Cls} (C : Classes h cs) (q : F64) :
    Decided 0 (fun _ => forget (h.valueAtQuantile q)) (RankOverflows cs (specRank h.len q)) := by
  intro fuel _
  rcases C25_outcome R C q with ⟨h1, h2⟩ | ⟨h1, c, -, h2⟩ | ⟨h1, -, h2⟩
  · exact ⟨fun _ => .inl (forget_error h2), fun hc => absurd h1 hc⟩
  · exact ⟨fun hc => absurd hc h1, fun _ => forget_ok h2⟩
  · exact ⟨fun hc => absurd hc h1, fun _ => forget_ok h2⟩

theorem ok_decided {m : Nat → M Unit} (h : ∀ fuel, m fuel = .ok ()) : Decided 0 m False :=
  fun fuel _ => ⟨fun hc => hc.elim, fun _ => h fuel⟩

theorem linear_decided {h : Hist T} (R : Reachable fp T h) {step : Nat} (hs : step ≤ U64MAX) :
    ∃ F, Decided F (fun fuel => forget (h.iterLinear step fuel)) (step = 0 ∨ LinearOverflows h step) := by
  by_cases h0 : step = 0
  · subst h0
    exact ⟨0, fun fuel _ => ⟨fun _ => .inr rfl, fun hc => absurd (.inl rfl) hc⟩⟩
  · obtain ⟨n, hn, -⟩ := C31_steps R (Nat.pos_of_ne_zero h0)
    refine ⟨n + 1, fun fuel hf => ⟨?_, ?_⟩⟩
    · rintro (hc | ⟨n', hn', hbad⟩)
      · exact absurd hc h0
      · have : n' = n := hn'.unique hn
        subst this
        exact .inl (forget_error (C31_panic R (Nat.pos_of_ne_zero h0) hs hn' hbad (by omega)))
    · intro hgood
      rw [not_or] at hgood
      have hg : ¬ _ := fun hb => hgood.2 ⟨n, hn, hb⟩
      rw [not_or] at hg
      obtain ⟨items, hi, -⟩ := C31_linear_partial R R.wf.classes (Nat.pos_of_ne_zero h0) hn (by omega)
        (fun hsig hcov l hl => by
          by_contra hlt
          exact hg.2 ⟨hsig, hcov, l, hl, by omega⟩)
      exact forget_ok (hi fuel (by omega))

theorem log_decided {h : Hist T} (R : Reachable fp T h) {start : Nat} {b : F64} (hs : start ≤ U64MAX) (hv : b.Valid) :
    ∃ F, Decided F (fun fuel => forget (h.iterLog start b fuel)) (start = 0 ∨ F64.lt (.fin 1) b = false) := by
  by_cases h0 : start = 0
  · subst h0
    exact ⟨0, fun fuel _ => ⟨fun _ => .inr rfl, fun hc => absurd (.inl rfl) hc⟩⟩
  · have hpos := Nat.pos_of_ne_zero h0
    cases hb : F64.lt (.fin 1) b with
    | false =>
      refine ⟨0, fun fuel _ => ⟨fun _ => .inr (forget_error ?_), fun hc => absurd (.inr rfl) hc⟩⟩
      unfold Hist.iterLog Hist.logNew
      rw [assertM_true (decide_eq_true hpos), M.ok_bind, hb]
      rfl
    | true =>
      obtain ⟨n, items, -, h1, -⟩ := C32_log R R.wf.classes hpos hs hv hb
      refine ⟨n + 1, fun fuel hf => ⟨?_, fun _ => forget_ok (h1 fuel (by omega))⟩⟩
      rintro (hc | hc)
      · exact absurd hc h0
      · cases hc

theorem quantiles_decided {h : Hist T} (R : Reachable fp T h) (L : Log2Law lg) {t : Nat} (ht : t < 2 ^ 32) :
    ∃ F, Decided F (fun fuel => forget (Hist.iterQuantiles lg h t fuel)) (t = 0) := by
  by_cases h0 : t = 0
  · subst h0
    exact ⟨0, fun fuel _ => ⟨fun _ => .inr rfl, fun hc => absurd rfl hc⟩⟩
  · by_cases hl : h.len = 0
    · exact ⟨1, fun fuel hf => ⟨fun hc => absurd hc h0,
        fun _ => forget_ok (C33_empty R hl (Nat.pos_of_ne_zero h0) (by omega))⟩⟩
    · obtain ⟨items, h1, -⟩ := C33_run R hl R.wf.classes L (Nat.pos_of_ne_zero h0) ht
      exact ⟨2 ^ 53 + 2, fun fuel hf => ⟨fun hc => absurd hc h0, fun _ => forget_ok (h1 fuel hf)⟩⟩

theorem float_decided {h : Hist T} (R : Reachable fp T h) {cs : List Cls} (C : Classes h cs) (L : Log2Law lg)
    {q : FloatQuery} (hf : q.Fits) : ∃ F, Decided F (fun fuel => q.run lg fuel h) (q.Panics h cs) := by
  cases q with
  | valueAtQuantile q => exact ⟨0, rank_decided R C q⟩
  | valueAtPercentile p => exact ⟨0, rank_decided R C (F64.div p (.fin 100))⟩
  | quantileBelow v =>
    obtain ⟨x, e, -⟩ := C27_total R (v := v) hf
    exact ⟨0, ok_decided fun _ => forget_ok e⟩
  | percentileBelow v =>
    obtain ⟨x, y, -, e, -⟩ := C56_below R (v := v) hf
    exact ⟨0, ok_decided fun _ => forget_ok e⟩
  | mean =>
    refine ⟨0, ok_decided fun _ => ?_⟩
    by_cases h0 : h.len = 0
    · exact forget_ok (C52_empty h h0)
    · obtain ⟨ms, hm⟩ := C52_medians R C
      obtain ⟨x, e, -⟩ := C52_mean R C hm h0
      exact forget_ok e
  | stdev =>
    obtain ⟨s, e, -⟩ := C64_total R
    exact ⟨0, ok_decided fun _ => forget_ok e⟩
  | iterLinear step => exact linear_decided R hf
  | iterLog start b => exact log_decided R hf.1 hf.2
  | iterQuantiles t => exact quantiles_decided R L hf

theorem deserialize_decided (E : Env) (T : CounterTy) (m : List UInt8) :
    (MessagePanics E T m ↔ V2.deserialize E.fp E.z T E.checks m = .error .overflow) ∧
    (¬ MessagePanics E T m ↔ ∃ r, V2.deserialize E.fp E.z T E.checks m = .ok r) := by
  have key : ∀ p, V2.deserialize E.fp E.z T E.checks m = .error p ↔ p = .overflow ∧ MessagePanics E T m := by
    intro p
    by_cases hc : m.take 4 = Format.bigEndian 4 0x1c849314
    · have hm : m = Format.bigEndian 4 0x1c849314 ++ m.drop 4 := by rw [← hc]; exact (List.take_append_drop 4 m).symm
      by_cases hl : (m.drop 4).length < 4
      · have h1 := (C70_compressed (fp := E.fp) (T := T) (z := E.z) (checks := E.checks) (body := []) (n := 0)
          (by norm_num)).2.2 (m.drop 4) hl
        rw [← hm] at h1
        rw [h1]
        constructor
        · intro h; cases h
        · rintro ⟨-, ⟨h, -⟩ | ⟨n, body, -, e, -⟩⟩
          · exact absurd hc h
          · exfalso
            have := congrArg List.length e
            have e4 : ∀ x, (Format.bigEndian 4 x).length = 4 := fun x => V2.bigEndian_length 4 x
            rw [List.length_append, List.length_append, e4, e4] at this
            rw [List.length_drop] at hl
            omega
      · obtain ⟨n, hn, hb⟩ : ∃ n, n < 2 ^ 32 ∧ (m.drop 4).take 4 = Format.bigEndian 4 n := V2.bigEndian_exists (by
          rw [List.length_take]; omega)
        have hm2 : m = Format.bigEndian 4 0x1c849314 ++ Format.bigEndian 4 n ++ (m.drop 4).drop 4 := by
          rw [← hb, List.append_assoc, List.take_append_drop]
          exact hm
        have h1 := (C70_compressed (fp := E.fp) (T := T) (z := E.z) (checks := E.checks) (body := (m.drop 4).drop 4) hn).2.1 p
        rw [← hm2] at h1
        rw [h1]
        refine and_congr_right fun _ => ⟨fun h => .inr ⟨n, _, hn, hm2, h⟩, ?_⟩
        rintro (⟨h, -⟩ | ⟨n', body', hn', e, hr⟩)
        · exact absurd hc h
        · have e2 := hm2.symm.trans e
          rw [List.append_assoc, List.append_assoc] at e2
          have e3 := List.append_cancel_left e2
          obtain ⟨e4, e5⟩ := List.append_inj e3 (by rw [V2.bigEndian_length, V2.bigEndian_length])
          rw [e5]
          rw [V2.bigEndian_inj hn hn' e4]
          exact hr
    · rw [C70_panic hc]
      refine and_congr_right fun _ => ⟨fun h => .inl ⟨hc, h⟩, ?_⟩
      rintro (⟨-, h⟩ | ⟨n, body, -, e, -⟩)
      · exact h
      · exfalso
        apply hc
        rw [e, List.append_assoc, List.take_left' (V2.bigEndian_length 4 _)]
  refine ⟨⟨fun h => (key _).mpr ⟨rfl, h⟩, fun h => ((key _).mp h).2⟩, ?_, ?_⟩
  · intro h
    cases e : V2.deserialize E.fp E.z T E.checks m with
    | ok r => exact ⟨r, rfl⟩
    | error p => exact absurd ((key p).mp e).2 h
  · rintro ⟨r, e⟩ hp
    rw [(key _).mpr ⟨rfl, hp⟩] at e
    cases e

theorem full_decided (E : Env) (L : Log2Law E.lg) {st : List AnyHist} (G : Good E.fp st) {c : FullCall} (hf : c.Fits st) :
    ∃ F, (c.Panics E st → ∀ fuel, F ≤ fuel → c.run E fuel st = .error .overflow ∨ c.run E fuel st = .error .assert) ∧
      (¬ c.Panics E st → ∃ st', Good E.fp st' ∧ ∀ fuel, F ≤ fuel → c.run E fuel st = .ok st') := by
  cases c with
  | safe c =>
    obtain ⟨st', e, G'⟩ := call_ok G hf
    exact ⟨0, fun hc => hc.elim, fun _ => ⟨st', G', fun _ _ => e⟩⟩
  | float i q =>
    obtain ⟨hi, hq⟩ := hf
    have e : st[i]? = some st[i] := List.getElem?_eq_getElem hi
    have R := G.get e
    obtain ⟨F, hF⟩ := float_decided (lg := E.lg) R R.wf.classes L hq
    have hrun : ∀ fuel, (FullCall.float i q).run E fuel st = (q.run E.lg fuel st[i].h >>= fun _ => pure st) := by
      intro fuel
      simp only [FullCall.run, e]
    refine ⟨F, ?_, ?_⟩
    · rintro ⟨x, cs, ex, C, hp⟩ fuel hfu
      rw [e] at ex
      cases ex
      rw [R.wf.classes_unique C] at hp
      rw [hrun]
      rcases (hF fuel hfu).1 hp with h1 | h1
      · left; exact congrArg (· >>= fun _ => pure st) h1
      · right; exact congrArg (· >>= fun _ => pure st) h1
    · intro hp
      refine ⟨st, G, fun fuel hfu => ?_⟩
      rw [hrun]
      exact congrArg (· >>= fun _ => pure st) ((hF fuel hfu).2 (fun h => hp ⟨_, _, e, R.wf.classes, h⟩))
  | deserialize T bytes =>
    obtain ⟨h1, h2⟩ := deserialize_decided E T bytes
    refine ⟨0, fun hp fuel _ => ?_, fun hp => ?_⟩
    · left
      simp only [FullCall.run]
      rw [h1.mp hp]
      rfl
    · obtain ⟨r, e⟩ := h2.mp hp
      cases r with
      | error x => exact ⟨st, G, fun fuel _ => by simp only [FullCall.run, e, M.ok_bind]; rfl⟩
      | ok y =>
        obtain ⟨h, rest⟩ := y
        exact ⟨st ++ [⟨T, h⟩], G.append (.deserialize _ _ _ _ e), fun fuel _ => by simp only [FullCall.run, e, M.ok_bind]; rfl⟩

end Api

/-- C80 (1): each floating-point query and each iterator with a parameter panics exactly if `FloatQuery.Panics` says so;
iterators end. The panics are arithmetic overflows and failed assertions. -/
theorem C80_query {h : Hist T} (R : Reachable fp T h) {cs : List Cls} (C : Classes h cs) (L : Log2Law lg)
    {q : Api.FloatQuery} (hf : q.Fits) :
    ∃ F, ∀ fuel, F ≤ fuel →
      (q.Panics h cs → q.run lg fuel h = .error .overflow ∨ q.run lg fuel h = .error .assert) ∧
      (¬ q.Panics h cs → q.run lg fuel h = .ok ()) := Api.float_decided R C L hf

/-- C80 (2): every call of the API, made in any state whose histograms are all reachable, panics exactly if
`FullCall.Panics` says so; otherwise it leaves such a state. -/
theorem C80_call (E : Api.Env) (L : Log2Law E.lg) {st : List AnyHist} (G : ∀ x ∈ st, Reachable E.fp x.T x.h)
    {c : Api.FullCall} (hf : c.Fits st) :
    ∃ F, (c.Panics E st → ∀ fuel, F ≤ fuel → c.run E fuel st = .error .overflow ∨ c.run E fuel st = .error .assert) ∧
      (¬ c.Panics E st → ∃ st', (∀ x ∈ st', Reachable E.fp x.T x.h) ∧ ∀ fuel, F ≤ fuel → c.run E fuel st = .ok st') :=
  Api.full_decided E L G hf

open Api in
/-- C80 (3): a program that makes any finite number of calls of the whole API either runs without a panic, and then holds
reachable histograms only, or comes to a call that `FullCall.Panics` lists, and panics there. -/
theorem C80_program (E : Env) (L : Log2Law E.lg) (p : FullProgram) (hp : ∀ st c, p st = some c → c.Fits st) (n : Nat) :
    ∃ F, (∃ st, (∀ x ∈ st, Reachable E.fp x.T x.h) ∧ ∀ fuel, F ≤ fuel → runFull E fuel p n [] = .ok st) ∨
      (∃ k st c, k < n ∧ (∀ fuel, F ≤ fuel → runFull E fuel p k [] = .ok st) ∧ p st = some c ∧ c.Panics E st ∧
        ∀ fuel, F ≤ fuel → runFull E fuel p n [] = .error .overflow ∨ runFull E fuel p n [] = .error .assert) := by
  have : ∀ (n : Nat) (s : List AnyHist), Good E.fp s →
      ∃ F, (∃ st, Good E.fp st ∧ ∀ fuel, F ≤ fuel → runFull E fuel p n s = .ok st) ∨
      (∃ k st c, k < n ∧ (∀ fuel, F ≤ fuel → runFull E fuel p k s = .ok st) ∧ p st = some c ∧ c.Panics E st ∧
        ∀ fuel, F ≤ fuel → runFull E fuel p n s = .error .overflow ∨ runFull E fuel p n s = .error .assert) := by
    intro n
    induction n with
    | zero => intro s G; exact ⟨0, .inl ⟨s, G, fun _ _ => rfl⟩⟩
    | succ n ih =>
      intro s G
      cases e : p s with
      | none =>
        refine ⟨0, .inl ⟨s, G, fun fuel _ => ?_⟩⟩
        unfold runFull
        rw [e]
        rfl
      | some c =>
        have hrun : ∀ fuel k, runFull E fuel p (k + 1) s = (c.run E fuel s >>= fun st => runFull E fuel p k st) := by
          intro fuel k
          conv_lhs => unfold runFull
          rw [e]
        obtain ⟨F1, h1, h2⟩ := full_decided E L G (hp s c e)
        by_cases hc : c.Panics E s
        · refine ⟨F1, .inr ⟨0, s, c, by omega, fun _ _ => rfl, e, hc, fun fuel hf => ?_⟩⟩
          rw [hrun]
          rcases h1 hc fuel hf with h | h
          · left; rw [h]; rfl
          · right; rw [h]; rfl
        · obtain ⟨s', G', h3⟩ := h2 hc
          obtain ⟨F2, h4⟩ := ih s' G'
          have hgo : ∀ fuel, max F1 F2 ≤ fuel → ∀ k, runFull E fuel p (k + 1) s = runFull E fuel p k s' := by
            intro fuel hf k
            rw [hrun, h3 fuel (by omega), M.ok_bind]
          refine ⟨max F1 F2, ?_⟩
          rcases h4 with ⟨st, Gst, h5⟩ | ⟨k, st, c', hk, h5, h6, h7, h8⟩
          · exact .inl ⟨st, Gst, fun fuel hf => (hgo fuel hf n).trans (h5 fuel (by omega))⟩
          · refine .inr ⟨k + 1, st, c', by omega, fun fuel hf => (hgo fuel hf k).trans (h5 fuel (by omega)), h6, h7,
              fun fuel hf => ?_⟩
            rw [hgo fuel hf n]
            exact h8 fuel (by omega)
  exact this n [] (by intro x hx; cases hx)

/-- the panics that can occur, and neighbouring calls that do not: `demoU` after one sample at 5 and `u64::MAX` at 100, and
`demoTop` after a sample at `2^63` -/
example : ∃ h, recordSeq [(5, 1), (100, U64MAX)] demoU = .ok (h, .ok ()) ∧
    RankOverflows [⟨0, 3, 0⟩, ⟨4, 7, 1⟩, ⟨8, 15, 0⟩, ⟨16, 31, 0⟩, ⟨32, 63, 0⟩, ⟨64, 127, U64MAX⟩, ⟨128, 255, 0⟩]
      (specRank h.len (.fin 1)) ∧
    h.valueAtQuantile (.fin 1) = .error .overflow ∧ h.valueAtQuantile (.fin 0) = .ok 4 := by
  obtain ⟨h, e, h1, h2, h3⟩ := okThen (P := fun h : Hist .u64 => h.len = U64MAX ∧ h.valueAtQuantile (.fin 1) = .error .overflow ∧
    h.valueAtQuantile (.fin 0) = .ok 4) (m := recordSeq [(5, 1), (100, U64MAX)] demoU) (by decide +kernel)
  refine ⟨h, e, ⟨[⟨0, 3, 0⟩, ⟨4, 7, 1⟩, ⟨8, 15, 0⟩, ⟨16, 31, 0⟩, ⟨32, 63, 0⟩], _, _, rfl, ?_, by decide⟩, h2, h3⟩
  rw [h1]
  decide +kernel

example : ∃ h, demoTop.recordN (2 ^ 63) 1 = .ok (h, .ok ()) ∧ LinearSteps h (2 ^ 62) 3 ∧ h.sigfig = 0 ∧ h.Covers U64MAX ∧
    h.lowestEquivalent U64MAX = .ok (2 ^ 63) ∧ h.iterLinear (2 ^ 62) 4 = .error .overflow := by
  obtain ⟨h, e, h1, h7, h2, h3, h4, h5, h6⟩ := okThen (P := fun h : Hist .u8 => h.max = .ok (U64MAX - 1) ∧
    h.lowestEquivalent (U64MAX - 1) = .ok (2 ^ 63) ∧
    h.lowestEquivalent U64MAX = .ok (2 ^ 63) ∧ h.equivalent (3 * 2 ^ 62 - 1) U64MAX = .ok true ∧ h.sigfig = 0 ∧
    h.Covers U64MAX ∧ h.iterLinear (2 ^ 62) 4 = .error .overflow) (m := demoTop.recordN (2 ^ 63) 1) (by decide +kernel)
  refine ⟨h, e, ⟨⟨by decide, ?_, fun hc => hc.2.2 h3⟩, ?_⟩, h4, h5, h2, h6⟩
  · intro m l hm hl
    rw [h1] at hm
    cases hm
    rw [h7] at hl
    cases hl
    decide
  · rintro j ⟨h0, hj, -⟩
    have := hj _ _ h1 h7
    omega

end Hdr
