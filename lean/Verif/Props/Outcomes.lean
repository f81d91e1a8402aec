import Verif.Props.Panics
import Verif.Props.Width
import Verif.Props.Merge

/-!
# Exact outcomes for C06, C20, C22, C26 and C78

The partial theorems on these claims leave out cases in which the code violates them.  Here: what happens in every case.
-/

namespace Hdr

variable {T : CounterTy} {fp : Fp}

/-! ## C06 -/

/-- C06: the values equivalent to 0 are those below the power of two given by the `log2` in use, so the lowest discernible
value is distinguished from 0 exactly if that power does not exceed it. -/
theorem C06_iff {low high sigfig v : Nat} {h : Hist T} (hh : high ≤ U64MAX)
    (e : Hist.newWithBounds fp T low high sigfig = .ok (.ok h)) (hv : v ≤ U64MAX) :
    h.equivalent 0 v = .ok (decide (v < 2 ^ fp.log2Floor low)) := by
  obtain ⟨W, rfl, -⟩ := newWithBounds_wf hh e
  rw [equivalent_eq W.toLayoutOK (by omega) hv]
  refine congrArg Except.ok ?_
  have h3 : (Hist.fresh fp T low high sigfig).unitMag = fp.log2Floor low := rfl
  rw [Bool.eq_iff_iff, beq_iff_eq, decide_eq_true_eq, ← h3, ← Lay.idx_eq_zero_iff, Lay.lo_eq_iff, Lay.idx_zero]
  exact eq_comm

/-- with the correctly rounded `log2`, `2^50 - 1` is equivalent to 0, `2^50` is not -/
example : ∃ h : Hist .u8, Hist.newWithBounds Fp.rounding .u8 (2 ^ 50 - 1) (2 ^ 51) 0 = .ok (.ok h) ∧
    h.equivalent 0 (2 ^ 50 - 1) = .ok true ∧ h.equivalent 0 (2 ^ 50) = .ok false :=
  ⟨_, rfl, by decide, by decide⟩

/-! ## C20 -/

/-- C20: after an `add` that saturated no counter, `subtract` of the same histogram undoes it exactly if the source is empty or
its `max()` is not `u64::MAX`; otherwise it is refused and nothing changes. -/
theorem C20_undo_iff {h s h1 : Hist T} (R : Reachable fp T h) (Rs : Reachable fp T s)
    (hx : h.len = min h.counts.sum U64MAX) (hxs : s.len = min s.counts.sum U64MAX)
    (e : h.add s = .ok (h1, .ok ())) (hns : ∀ c ∈ h1.counts, c < T.max) :
    (s.len = 0 ∨ s.max ≠ .ok U64MAX → ∃ h2, h1.subtract s = .ok (h2, .ok ()) ∧ h2.len = h.len ∧
      (∀ v a, v ≤ U64MAX → HasCount h v a → HasCount h2 v a)) ∧
    (s.len ≠ 0 ∧ s.max = .ok U64MAX → h1.subtract s = .ok (h1, .error .SubtrahendValueExceedsMinuendRange)) := by
  have Ws := Rs.wf
  have R1 : Reachable fp T h1 := .add R Rs e
  have C := Ws.classes
  obtain ⟨h2, r, e2, h3, -, h5, h6⟩ := C21_subtract_outcome_partial R1 Rs C Ws.max_eq
  constructor
  · intro hc
    by_cases hm : s.max = .ok U64MAX
    · have h0 : s.len = 0 := hc.resolve_right (fun hn => hn hm)
      obtain ⟨rfl, rfl⟩ := h6 h0
      have hsame : h2 = h := by
        obtain ⟨h', r', e', -, hr⟩ := R.wf.add_spec Ws
        rw [e] at e'
        cases e'
        rcases hr with ⟨-, hr⟩ | ⟨hn, -⟩
        · exact hr
        · exact absurd h0 hn
      exact ⟨_, e2, by rw [hsame], fun v a _ hv => by rw [hsame]; exact hv⟩
    · exact C20_subtract_undoes_add_partial R Rs hx hxs hm e hns
  · rintro ⟨h0, hm⟩
    have hl : s.lmax = U64MAX := by
      rw [Ws.max_eq] at hm; injection hm
    have hr := h3.mpr ⟨h0, Or.inr hl⟩
    rw [e2, h5 hr, hr]

/-- the hypotheses: 5 twice and 9 added to a histogram with three samples of 5 -/
example : ∃ h s h1 : Hist .u8, recordSeq [(5, 3)] demo = .ok (h, .ok ()) ∧ recordSeq [(5, 2), (9, 1)] demo = .ok (s, .ok ()) ∧
    h.add s = .ok (h1, .ok ()) ∧ h.len = min h.counts.sum U64MAX ∧ s.len = min s.counts.sum U64MAX ∧
    (∀ c ∈ h1.counts, c < CounterTy.u8.max) ∧ s.max ≠ .ok U64MAX :=
  ⟨_, _, _, rfl, rfl, rfl, by decide +kernel⟩

/-! ## C22 -/

/-- C22: what `set_to` does in every case, for equal settings. It never panics. It is refused, leaving the target emptied, exactly
if the source is not empty, its `max()` is `u64::MAX` and the target does not resize itself. Otherwise the counts and `len()`
are those of the source. The tracked extremes are those of the source too, unless it is empty: then the target is as after
`reset()`. -/
theorem C22_set_to_outcome {h s : Hist T} (R : Reachable fp T h) (Rs : Reachable fp T s) (S : SameSettings h s) :
    ∃ h' r, h.setTo s = .ok (h', r) ∧ (r = .ok () ∨ r = .error .OtherAddendValueExceedsRange) ∧
      (r = .error .OtherAddendValueExceedsRange ↔ s.len ≠ 0 ∧ s.max = .ok U64MAX ∧ h.isAutoResize = false) ∧
      (r = .error .OtherAddendValueExceedsRange → h' = h.reset) ∧
      (s.len = 0 → h' = h.reset) ∧
      (r = .ok () → (∀ v a, v ≤ U64MAX → (HasCount h' v a ↔ HasCount s v a)) ∧ h'.len = s.len ∧
        (s.len ≠ 0 → h'.max = s.max ∧ h'.minNz = s.minNz ∧ h'.min = s.min)) := by
  have Rr := Reachable.reset R
  have Ws := Rs.wf
  have Wr := Rr.wf
  have Sr : SameSettings h.reset s := ⟨S.low, S.high, S.sigfig⟩
  obtain ⟨hum, hmag⟩ := Wr.same_layout Ws Sr.low Sr.sigfig
  have hm := Wr.same_matching Ws Sr.low Sr.high Sr.sigfig
  have hlt : h.reset.ltop < s.lmax ↔ s.max = .ok U64MAX := by
    rw [Wr.same_ltop Ws Sr.low Sr.high Sr.sigfig, Ws.max_eq]
    exact ⟨fun h => by rw [h], fun h => by injection h⟩
  obtain ⟨h', r, e, W', hr⟩ := Wr.add_spec Ws
  have hidx : ∀ v, s.lidx v = h.reset.lidx v := fun v => by unfold Hist.lidx; rw [hum, hmag]
  refine ⟨h', r, e, ?_⟩
  cases r with
  | error x =>
    cases x with
    | ResizeFailedUsizeTypeTooSmall => exact hr.elim
    | OtherAddendValueExceedsRange =>
      obtain ⟨h0, ha, hl, rfl⟩ := hr
      exact ⟨.inr rfl, ⟨fun _ => ⟨h0, hlt.mp hl, ha⟩, fun _ => rfl⟩, fun _ => rfl, fun _ => rfl, fun hc => by cases hc⟩
  | ok u =>
    refine ⟨.inl rfl, ⟨fun hc => (by cases hc), ?_⟩, fun hc => (by cases hc), ?_, fun _ => ?_⟩
    · rintro ⟨h0, hmx, ha⟩
      rcases hr with ⟨h1, -⟩ | ⟨-, h1, -⟩
      · exact absurd h1 h0
      · exact absurd (h1 (hlt.mpr hmx)) (by rw [show h.reset.autoResize = h.isAutoResize from rfl, ha]; decide)
    · intro h0
      rcases hr with ⟨-, h1⟩ | ⟨h1, -⟩
      · exact h1
      · exact absurd h0 h1
    · unfold Hist.len
      rcases hr with ⟨h0, rfl⟩ | ⟨h0, -, hcfg, hlen, hhigh, hcnt, hcopy, -⟩
      · refine ⟨fun v a hv => ?_, ?_, fun hn => absurd h0 hn⟩
        · rw [Wr.hasCount_iff hv, Ws.hasCount_iff hv, Wr.getD_zero_of_empty rfl, Ws.getD_zero_of_empty h0]
        · rw [h0]; rfl
      · obtain ⟨h1, h2, h3, h4⟩ := hcopy ⟨hm.1, rfl⟩
        have e2 : h'.lminNz = s.lminNz := by
          unfold Hist.lminNz Hist.llo
          rw [h4, hcfg.um, hcfg.mag, hum, hmag]
        refine ⟨fun v a hv => ?_, h2, fun _ => ⟨?_, ?_, ?_⟩⟩
        · rw [W'.hasCount_iff hv, Ws.hasCount_iff hv, h1, hcfg.lidx, hidx]
        · rw [W'.max_eq, Ws.max_eq]
          refine congrArg Except.ok ?_
          unfold Hist.lmax Hist.lhi Hist.llo Hist.lwid
          rw [h3, hcfg.um, hcfg.mag, hum, hmag]
        · rw [W'.minNz_eq, Ws.minNz_eq, e2]
        · rw [W'.min_eq, Ws.min_eq, h1, h2, e2]

/-- a refused `set_to`: the target's sample is gone -/
example : SameSettings demoTop demoTop1 ∧
    ∃ h, demoTop.recordN 5 1 = .ok (h, .ok ()) ∧
      h.setTo demoTop1 = .ok (h.reset, .error .OtherAddendValueExceedsRange) :=
  ⟨⟨rfl, rfl, rfl⟩, okThen (by decide +kernel)⟩

/-! ## C26 -/

theorem specRank_zero (n : Nat) : specRank n (.fin 0) = 1 := by
  show max 1 (min ⌈F64.rndQ (min 0 1 * F64.rndQ n)⌉.toNat U64MAX) = 1
  have h1 : min (0 : ℚ) 1 = 0 := min_eq_left (by norm_num)
  rw [h1, zero_mul, F64.rndQ_zero, Int.ceil_zero]
  rfl

/-- C26: in every histogram that holds a sample, `value_at_quantile(0.0)` is the start of the first non-empty class; it
never panics. -/
theorem C26_zero {h : Hist T} (R : Reachable fp T h) {cs : List Cls} (C : Classes h cs) :
    (∃ c ∈ cs, c.count ≠ 0 ∧ (∀ d ∈ cs, d.count ≠ 0 → c.lo ≤ d.lo) ∧ h.valueAtQuantile (.fin 0) = .ok c.lo) ∨
    ((∀ c ∈ cs, c.count = 0) ∧ h.valueAtQuantile (.fin 0) = .ok 0) := by
  have W := R.wf
  have hsort := W.classes_sorted C
  rcases C25_outcome R C (.fin 0) with ⟨⟨pre, c, post, e, h1, h2⟩, -⟩ | ⟨-, c, hc, e⟩ | ⟨-, hs, e⟩
  · exfalso
    rw [specRank_zero] at h1
    have hm : c ∈ cs := by rw [e]; simp
    obtain ⟨i, hi, rfl⟩ := (W.mem_classes C).mp hm
    have h3 : (h.lcls i).count ≤ T.max := by
      rw [show (h.lcls i).count = h.counts.getD i 0 from rfl, List.getD_eq_getElem?_getD, List.getElem?_eq_getElem hi]
      exact W.cmax _ (List.getElem_mem hi)
    have h4 : T.max ≤ U64MAX := T_max_le T
    omega
  · left
    rw [specRank_zero] at hc
    exact ⟨c, hc.mem, hc.count_ne, fun d hd h0 => hc.first hsort hd h0, by rw [e, if_pos rfl]⟩
  · right
    rw [specRank_zero] at hs
    refine ⟨fun c hc => ?_, e⟩
    have := List.single_le_sum (l := cs.map (·.count)) (by simp) c.count (List.mem_map.mpr ⟨c, hc, rfl⟩)
    omega

/-- C26: the rank asked for by quantile 1.0 is `len()` as binary64 can express it, at most `u64::MAX`; C25_outcome says what
is answered for a rank. -/
theorem C26_one_rank (n : Nat) : specRank n (.fin 1) = max 1 (min ⌈F64.rndQ n⌉.toNat U64MAX) := by
  show max 1 (min ⌈F64.rndQ (min 1 1 * F64.rndQ n)⌉.toNat U64MAX) = _
  rw [min_self, one_mul, F64.rndQ_idem]

/-- C26: `value_at_quantile(1.0)` is the end of the last non-empty class if that class holds the rank; for a larger
rank the answer is 0, for a smaller one it is the end of an earlier class. (If the counts exceed `u64::MAX`: `C25_outcome`.) -/
theorem C26_one {h : Hist T} (R : Reachable fp T h) {cs : List Cls} (C : Classes h cs) {pre post : List Cls} {c : Cls}
    (ec : cs = pre ++ c :: post) (hp : ∀ d ∈ post, d.count = 0)
    (hs : (cs.map (·.count)).sum ≤ U64MAX) {r : Nat} (hr : r = max 1 (min ⌈F64.rndQ h.len⌉.toNat U64MAX)) :
    ((cs.map (·.count)).sum < r → h.valueAtQuantile (.fin 1) = .ok 0) ∧
    ((cs.map (·.count)).sum - c.count < r → r ≤ (cs.map (·.count)).sum → h.valueAtQuantile (.fin 1) = .ok c.hi) ∧
    (r ≤ (cs.map (·.count)).sum - c.count →
      ∃ d ∈ pre, d.count ≠ 0 ∧ d.lo < c.lo ∧ h.valueAtQuantile (.fin 1) = .ok d.hi) := by
  rw [← C26_one_rank] at hr
  have W := R.wf
  have hpost : (post.map (·.count)).sum = 0 := by
    clear ec
    induction post with
    | nil => rfl
    | cons d l ih =>
      rw [List.map_cons, List.sum_cons, hp d (by simp), ih (fun d hd => hp d (by simp [hd]))]
  have hsum : (cs.map (·.count)).sum = (pre.map (·.count)).sum + c.count := by
    rw [ec, List.map_append, List.sum_append, List.map_cons, List.sum_cons, hpost]; omega
  have hno : ¬ RankOverflows cs (specRank h.len (.fin 1)) := by
    rintro ⟨p, d, q, e, -, h2⟩
    have : (cs.map (·.count)).sum = (p.map (·.count)).sum + (d.count + (q.map (·.count)).sum) := by
      rw [e, List.map_append, List.sum_append, List.map_cons, List.sum_cons]
    omega
  have h1ne : (F64.fin 1) ≠ .fin 0 := by intro h; injection h with h; norm_num at h
  have hat : ∀ d, AtRank cs r d → (cs.map (·.count)).sum < r → False := by
    rintro d ⟨p, q, e, -, h2⟩ h3
    have : (cs.map (·.count)).sum = (p.map (·.count)).sum + (d.count + (q.map (·.count)).sum) := by
      rw [e, List.map_append, List.sum_append, List.map_cons, List.sum_cons]
    omega
  rcases C25_outcome R C (.fin 1) with ⟨ho, -⟩ | ⟨-, d, hd, e⟩ | ⟨-, hlt, e⟩
  · exact absurd ho hno
  · rw [if_neg h1ne] at e
    rw [← hr] at hd
    refine ⟨fun hlt => (hat d hd hlt).elim, fun h1 h2 => ?_, fun h1 => ?_⟩
    · have : AtRank cs r c := ⟨pre, post, ec, by omega, by omega⟩
      rw [e, hd.unique this]
    · have hsort := W.classes_sorted C
      obtain ⟨p, q, e', h2, h3⟩ := hd
      have hmem : d ∈ pre := by
        by_contra hnot
        have hlen : pre.length ≤ p.length := by
          by_contra hlt
          apply hnot
          have e3 : (pre ++ c :: post)[p.length]? = some d := by rw [← ec, e']; simp
          rw [List.getElem?_append_left (by omega)] at e3
          exact List.mem_of_getElem? e3
        have hpre : pre <+: p := by
          rw [ec] at e'
          exact List.prefix_of_prefix_length_le (List.prefix_append pre (c :: post)) (e' ▸ List.prefix_append p (d :: q)) hlen
        obtain ⟨t, rfl⟩ := hpre
        rw [List.map_append, List.sum_append] at h2
        omega
      refine ⟨d, hmem, by omega, ?_, e⟩
      rw [ec, List.pairwise_append] at hsort
      exact (hsort.2.2 d hmem c (by simp)).1
  · rw [← hr] at hlt
    exact ⟨fun _ => e, fun _ h2 => by omega, fun h2 => by omega⟩

/-- a histogram that meets the hypotheses -/
example : demo3Classes = [⟨0, 0, 1⟩, ⟨1, 1, 0⟩, ⟨2, 3, 0⟩, ⟨4, 7, 3⟩] ++ ⟨8, 15, 200⟩ :: [] ∧ Classes demo3 demo3Classes ∧
    (demo3Classes.map (·.count)).sum ≤ U64MAX ∧ demo3.valueAtQuantile (.fin 1) = .ok 15 :=
  ⟨rfl, demo3_classes, by decide, by decide +kernel⟩

/-! ## C78 -/

theorem Target.outcome_exact {bits : Nat} (hb : bits ≤ 64) {E : Type} {h h' : Hist T} {small : E} {r : Except E Unit} :
    (Target.generous bits hb).outcome h small (.ok (h', r)) =
      if h'.distinctValues ≤ h.distinctValues then .ok (h', r)
      else if 2 ^ bits ≤ h'.distinctValues then .ok (h, .error small)
      else if T.bytes * h'.distinctValues ≤ (2 ^ bits - 1) / 2 then .ok (h', r) else .error .capacity := by
  have hp : 0 < 2 ^ bits := by positivity
  have hu : (Target.generous bits hb).usizeMax = 2 ^ bits - 1 := rfl
  have ha : (Target.generous bits hb).allocates T.bytes h'.distinctValues
      = decide (T.bytes * h'.distinctValues ≤ (2 ^ bits - 1) / 2) := rfl
  unfold Target.outcome
  rw [M.ok_bind]
  dsimp only
  by_cases c0 : h'.distinctValues ≤ h.distinctValues
  · rw [if_pos c0, if_pos c0]; rfl
  rw [if_neg c0, if_neg c0, hu, ha]
  by_cases c1 : 2 ^ bits ≤ h'.distinctValues
  · rw [if_pos c1, if_pos (by omega)]; rfl
  · rw [if_neg c1, if_neg (by omega)]
    by_cases c2 : T.bytes * h'.distinctValues ≤ (2 ^ bits - 1) / 2
    · rw [if_pos c2, if_pos (by simpa using c2)]; rfl
    · rw [if_neg c2, if_neg (by simpa using c2)]

/-- C78: what the constructor does on a target with pointers of `bits` bits: the error `UsizeTypeTooSmall` if the slots are
more than `usize::MAX`, a capacity panic if there are not so many but they take more than `isize::MAX` bytes, otherwise what
it does on a 64-bit target. -/
theorem C78_new_exact {bits : Nat} (hb : bits ≤ 64) (fp : Fp) (T : CounterTy) {low high sigfig : Nat} (hh : high ≤ U64MAX) :
    (∀ h, Hist.newWithBounds fp T low high sigfig = .ok (.ok h) →
      Hist.newWithBoundsOn (.generous bits hb) fp T low high sigfig =
        if 2 ^ bits ≤ h.distinctValues then .ok (.error .UsizeTypeTooSmall)
        else if T.bytes * h.distinctValues ≤ (2 ^ bits - 1) / 2 then .ok (.ok h) else .error .capacity) ∧
    (∀ err, Hist.newWithBounds fp T low high sigfig = .ok (.error err) →
      Hist.newWithBoundsOn (.generous bits hb) fp T low high sigfig = .ok (.error err)) := by
  rw [newWithBoundsOn_eq _ fp T hh]
  refine ⟨fun h e => ?_, fun err e => by rw [e]; rfl⟩
  rw [e]
  have hp : 0 < 2 ^ bits := by positivity
  have hu : (Target.generous bits hb).usizeMax = 2 ^ bits - 1 := rfl
  have ha : (Target.generous bits hb).allocates T.bytes h.counts.length
      = decide (T.bytes * h.counts.length ≤ (2 ^ bits - 1) / 2) := rfl
  show (if (Target.generous bits hb).usizeMax < h.counts.length then Except.ok (Except.error CreationError.UsizeTypeTooSmall)
    else if (Target.generous bits hb).allocates T.bytes h.counts.length then .ok (.ok h) else .error .capacity : M _) = _
  rw [hu, ha]
  unfold Hist.distinctValues
  by_cases c1 : 2 ^ bits ≤ h.counts.length
  · rw [if_pos c1, if_pos (by omega)]
  · rw [if_neg c1, if_neg (by omega)]
    by_cases c2 : T.bytes * h.counts.length ≤ (2 ^ bits - 1) / 2
    · rw [if_pos c2, if_pos (by simpa using c2)]
    · rw [if_neg c2, if_neg (by simpa using c2)]

/-- C78: recording and adding, likewise: nothing but the growth of the array can differ from a 64-bit target. An operation
that would make the array longer is refused with the histogram unchanged if there would be more slots than `usize::MAX`, and
is a capacity panic if they would take more than `isize::MAX` bytes. -/
theorem C78_grow_exact {bits : Nat} (hb : bits ≤ 64) {h s : Hist T} (R : ReachableOn (.generous bits hb) fp T h)
    (Rs : ReachableOn (.generous bits hb) fp T s) {v c : Nat} (hv : v ≤ U64MAX) (hc : c ≤ T.max) {h' : Hist T}
    {r : Except RecordError Unit} (e : h.recordN v c = .ok (h', r)) {g : Hist T} {q : Except AdditionError Unit}
    (e' : h.add s = .ok (g, q)) :
    (h.recordNOn (.generous bits hb) v c =
      if h'.distinctValues ≤ h.distinctValues then .ok (h', r)
      else if 2 ^ bits ≤ h'.distinctValues then .ok (h, .error .ResizeFailedUsizeTypeTooSmall)
      else if T.bytes * h'.distinctValues ≤ (2 ^ bits - 1) / 2 then .ok (h', r) else .error .capacity) ∧
    (h.addOn (.generous bits hb) s =
      if g.distinctValues ≤ h.distinctValues then .ok (g, q)
      else if 2 ^ bits ≤ g.distinctValues then .ok (h, .error .ResizeFailedUsizeTypeTooSmall)
      else if T.bytes * g.distinctValues ≤ (2 ^ bits - 1) / 2 then .ok (g, q) else .error .capacity) := by
  obtain ⟨e1, -, e3⟩ := C76_grow R Rs hv hc 0
  rw [e1, e3, e, e']
  exact ⟨Target.outcome_exact hb, Target.outcome_exact hb⟩

end Hdr
