import Verif.Proofs.WidthWire

/-!
# C76-C79: targets with a narrower `usize`
-/

namespace Hdr

open V2

variable {T : CounterTy} {fp : Fp} {t : Target}

/-! ## C76: any pointer width -/

/-- C76 (1): the constructor refuses the same settings with the same error on every target. Settings it accepts on a
64-bit target give the same histogram, unless the slots are more than `usize::MAX` (`UsizeTypeTooSmall`) or the memory
for them cannot be had (a panic). -/
theorem C76_new (t : Target) (fp : Fp) (T : CounterTy) {low high sigfig : Nat} (hh : high ≤ U64MAX) :
    (∀ e, Hist.newWithBounds fp T low high sigfig = .ok (.error e) →
      Hist.newWithBoundsOn t fp T low high sigfig = .ok (.error e)) ∧
    ∀ h, Hist.newWithBounds fp T low high sigfig = .ok (.ok h) →
      Hist.newWithBoundsOn t fp T low high sigfig =
        if t.usizeMax < h.distinctValues then .ok (.error .UsizeTypeTooSmall)
        else if t.allocates T.bytes h.distinctValues then .ok (.ok h) else .error .capacity := by
  rw [newWithBoundsOn_eq t fp T hh]
  constructor
  · intro e h; rw [h]; rfl
  · intro g h; rw [h]; rfl

theorem newOn_ok {sigfig : Nat} {h : Hist T} (e : Hist.newOn t fp T sigfig = .ok (.ok h)) :
    Hist.new fp T sigfig = .ok (.ok h) ∧ h.counts.length ≤ t.usizeMax := by
  unfold Hist.newOn at e
  rw [newWithBoundsOn_eq t fp T (by decide), M.bind_eq_ok] at e
  obtain ⟨x, e1, e⟩ := e
  unfold Hist.new
  cases hn : Hist.newWithBounds fp T 1 2 sigfig with
  | error q => rw [hn] at e1; cases e1
  | ok y =>
    rw [hn] at e1
    cases y with
    | error q => cases e1; cases e
    | ok g =>
      simp only [Except.bind] at e1
      split at e1
      · cases e1; cases e
      · split at e1
        · cases e1
          cases e
          exact ⟨rfl, by rename_i h _; simpa using h⟩
        · cases e1

theorem newFromOn_ok {F : CounterTy} {s : Hist F} (W : WF fp s) (hs : s.counts.length ≤ t.usizeMax) {h : Hist T}
    (e : Hist.newFromOn t fp T s = .ok h) : Hist.newFrom fp T s = .ok h ∧ h.counts.length ≤ t.usizeMax := by
  obtain ⟨g, e1, -, -, -, -, -, -, -, -, -, -, -, hl⟩ := W.newFrom_eq (T := T)
  have key : Hist.newFrom fp T s = .ok h := by
    unfold Hist.newFromOn at e
    unfold Hist.newFrom
    rw [newWithBoundsOn_eq t fp T W.highmax, M.bind_eq_ok] at e
    obtain ⟨x, e1, e⟩ := e
    rw [W.new_eq T] at e1 ⊢
    simp only [Except.bind] at e1
    split at e1
    · cases e1; cases e
    · split at e1
      · cases e1
        simp only at e
        rw [M.bind_eq_ok] at e
        obtain ⟨u, -, e⟩ := e
        exact e
      · cases e1
  refine ⟨key, ?_⟩
  rw [e1] at key
  cases key
  omega

/-- `outcome` leaves the histogram alone or gives the result of the 64-bit target -/
theorem Target.outcome_cases {E : Type} {h h' : Hist T} {small : E} {on64 : M (Hist T × Except E Unit)}
    {r : Except E Unit} (e : t.outcome h small on64 = .ok (h', r)) (hl : h.counts.length ≤ t.usizeMax) :
    (h' = h ∧ r = .error small ∨ on64 = .ok (h', r)) ∧ h'.counts.length ≤ t.usizeMax := by
  unfold Target.outcome at e
  rw [M.bind_eq_ok] at e
  obtain ⟨⟨g, q⟩, e1, e⟩ := e
  dsimp only at e
  by_cases c1 : g.distinctValues ≤ h.distinctValues
  · rw [if_pos c1] at e; cases e; exact ⟨.inr e1, le_trans c1 hl⟩
  rw [if_neg c1] at e
  by_cases c2 : t.usizeMax < g.distinctValues
  · rw [if_pos c2] at e; cases e; exact ⟨.inl ⟨rfl, rfl⟩, hl⟩
  rw [if_neg c2] at e
  by_cases c3 : t.allocates T.bytes g.distinctValues = true
  · rw [if_pos c3] at e; cases e; exact ⟨.inr e1, not_lt.mp c2⟩
  · rw [if_neg c3] at e; cases e

theorem deserV2On_len {checks : Bool} {r rest : List UInt8} {h : Hist T}
    (e : deserV2On t fp T checks r = .ok (.ok (h, rest))) : h.counts.length ≤ t.usizeMax := by
  have e64 : deserV2 fp T checks r = .ok (.ok (h, rest)) := by
    rcases deserV2On_weaker (fp := fp) (T := T) t checks r with q | q | q | q
    · rw [← q]; exact e
    all_goals rw [q] at e; cases e
  obtain ⟨hd, h0, payload, ts, hh, e1, hp, hl, N, F, rfl⟩ := (deserV2_iff checks r rest h).mp e64
  rw [deserV2On_accepted t checks hh e1 hp hl N F] at e
  split at e
  · cases e
  split at e
  · cases e
  · simp only [decoded, filled, List.length_map, List.length_range]
    omega

theorem deserializeOn_len {z : Zlib} {checks : Bool} {bytes rest : List UInt8} {h : Hist T}
    (e : deserializeOn t fp z T checks bytes = .ok (.ok (h, rest))) : h.counts.length ≤ t.usizeMax := by
  unfold deserializeOn at e
  split at e
  · cases e
  split at e
  · exact deserV2On_len e
  split at e
  swap
  · cases e
  unfold deserV2CompressedOn at e
  split at e
  · cases e
  split at e
  · cases e
  dsimp only at e
  split at e
  · cases e
  split at e
  · cases e
  rw [M.bind_eq_ok] at e
  obtain ⟨x, e1, e⟩ := e
  rcases x with q | ⟨g, q⟩
  · cases e
  · cases e
    exact deserV2On_len e1

/-- C76 (2): a histogram that can be produced on a target can be produced on a 64-bit one, so everything proved about
reachable histograms holds of it; and its slots are counted by a `usize`. -/
theorem C76_reachable {h : Hist T} (R : ReachableOn t fp T h) : Reachable fp T h ∧ h.distinctValues ≤ t.usizeMax := by
  unfold Hist.distinctValues
  induction R with
  | @newWithBounds T low high sigfig h hh e =>
    have e0 := e
    rw [newWithBoundsOn_eq t fp T hh] at e
    cases hn : Hist.newWithBounds fp T low high sigfig with
    | error q => rw [hn] at e; cases e
    | ok y =>
      rw [hn] at e
      cases y with
      | error q => cases e
      | ok g =>
        simp only [Except.bind] at e
        split at e
        · cases e
        · split at e
          · cases e; exact ⟨.newWithBounds hh hn, by omega⟩
          · cases e
  | new e => exact ⟨.new (newOn_ok e).1, (newOn_ok e).2⟩
  | newFrom _ e ih =>
    obtain ⟨a, b⟩ := newFromOn_ok ih.1.wf ih.2 e
    exact ⟨.newFrom ih.1 a, b⟩
  | @deserialize T h z checks bytes rest e =>
    have e64 : deserialize fp z T checks bytes = .ok (.ok (h, rest)) := by
      rcases deserializeOn_weaker (fp := fp) (T := T) t z checks bytes with q | q | q | q
      · rw [← q]; exact e
      all_goals rw [q] at e; cases e
    exact ⟨.deserialize z checks bytes rest e64, deserializeOn_len e⟩
  | recordN _ hv hc e ih =>
    rw [ih.1.wf.recordNOn_eq hv hc ih.2] at e
    obtain ⟨a, b⟩ := Target.outcome_cases e ih.2
    rcases a with ⟨rfl, -⟩ | a
    · exact ⟨ih.1, b⟩
    · exact ⟨.recordN ih.1 hv hc a, b⟩
  | @saturatingRecordN T h h' v c _ hv hc e ih =>
    rw [ih.1.wf.saturatingRecordNOn_eq v c ih.2] at e
    refine ⟨.saturatingRecordN ih.1 hv hc e, ?_⟩
    rw [ih.1.wf.saturatingRecordN_eq hv] at e
    cases e
    simpa [Hist.recorded] using ih.2
  | recordNCorrect _ hv hc e ih =>
    rw [ih.1.wf.recordNCorrectOn_eq _ hv hc ih.2] at e
    obtain ⟨a, b⟩ := Target.outcome_cases e ih.2
    rcases a with ⟨rfl, -⟩ | a
    · exact ⟨ih.1, b⟩
    · exact ⟨.recordNCorrect ih.1 hv hc a, b⟩
  | add _ _ e ih ihs =>
    rw [ih.1.wf.addOn_eq ihs.1.wf ih.2 ihs.2] at e
    obtain ⟨a, b⟩ := Target.outcome_cases e ih.2
    rcases a with ⟨rfl, -⟩ | a
    · exact ⟨ih.1, b⟩
    · exact ⟨.add ih.1 ihs.1 a, b⟩
  | subtract _ _ e ih ihs =>
    rw [ih.1.wf.subtractOn_eq ihs.1.wf ih.2 ihs.2] at e
    refine ⟨.subtract ih.1 ihs.1 e, ?_⟩
    obtain ⟨g, q, e1, -, L, -⟩ := ih.1.wf.subtract_full ihs.1.wf
    rw [e1] at e
    cases e
    exact L.len ▸ ih.2
  | reset _ ih => exact ⟨.reset ih.1, by simpa [Hist.reset, Hist.resetMax, Hist.resetMin, Hist.clear] using ih.2⟩
  | clear _ ih => exact ⟨.clear ih.1, by simpa [Hist.clear] using ih.2⟩
  | auto b _ ih => exact ⟨.auto b ih.1, ih.2⟩

/-- C76 (3): recording (plain or with correction) and adding do on a target what they do on a 64-bit one (`outcome`):
without a longer array exactly the same; with one, `ResizeFailedUsizeTypeTooSmall` and an unchanged histogram if its
slots are more than `usize::MAX`, a panic if the memory cannot be had, and otherwise the same. -/
theorem C76_grow {h s : Hist T} (R : ReachableOn t fp T h) (Rs : ReachableOn t fp T s) {v c : Nat} (hv : v ≤ U64MAX)
    (hc : c ≤ T.max) (i : Nat) :
    h.recordNOn t v c = t.outcome h .ResizeFailedUsizeTypeTooSmall (h.recordN v c) ∧
    h.recordNCorrectOn t v c i = t.outcome h .ResizeFailedUsizeTypeTooSmall (h.recordNCorrect v c i) ∧
    h.addOn t s = t.outcome h .ResizeFailedUsizeTypeTooSmall (h.add s) := by
  obtain ⟨a, b⟩ := C76_reachable R
  obtain ⟨a', b'⟩ := C76_reachable Rs
  exact ⟨a.wf.recordNOn_eq hv hc b, a.wf.recordNCorrectOn_eq i hv hc b, a.wf.addOn_eq a'.wf b b'⟩

theorem demo_reachableOn (bits : Nat) (hb : bits ≤ 64) (h5 : 5 < 2 ^ (bits - 1)) :
    ReachableOn (.generous bits hb) Fp.ideal .u8 demo := by
  refine .newWithBounds (low := 1) (high := 15) (sigfig := 0) (by decide) ?_
  rw [(C76_new _ _ _ (by decide)).2 demo demo_eq, show demo.distinctValues = 5 from rfl, if_neg, if_pos]
  · simp only [Target.generous, CounterTy.bytes, decide_eq_true_eq]
    cases bits with
    | zero => simp at h5
    | succ b => rw [Nat.add_sub_cancel] at h5; rw [pow_succ]; omega
  · simp only [Target.generous, Target.usizeMax]
    cases bits with
    | zero => simp at h5
    | succ b => rw [Nat.add_sub_cancel] at h5; rw [pow_succ]; omega

/-- on a target with 4-bit pointers, of which at most 7 bytes can be had: recording 16 into `demo`, if it resizes itself,
makes a sixth slot; recording 200 would need nine, which cannot be had; recording 2^15 would need 17, which is the error -/
example : ReachableOn (.generous 4) Fp.ideal .u8 (demo.auto true) := .auto true (demo_reachableOn 4 (by decide) (by decide))

example : ((demo.auto true).recordNOn (.generous 4) 16 1).toOption.map (fun p => (p.1.counts, p.2)) =
      some ([0, 0, 0, 0, 0, 1], .ok ()) ∧
    (demo.auto true).recordNOn (.generous 4) 200 1 = .error .capacity ∧
    (demo.auto true).recordNOn (.generous 4) (2 ^ 15) 1 = .ok (demo.auto true, .error .ResizeFailedUsizeTypeTooSmall) := by
  decide +kernel

/-- C76 (4): saturating recording, subtraction, counts and the values of slots do not depend on the target. -/
theorem C76_same {h s : Hist T} (R : ReachableOn t fp T h) (Rs : ReachableOn t fp T s) (v w c i : Nat) :
    h.saturatingRecordNOn t v c = h.saturatingRecordN v c ∧ h.subtractOn t s = h.subtract s ∧
    h.countAtOn t v = h.countAt v ∧ h.countBetweenOn t v w = h.countBetween v w ∧ h.valueForOn t i = h.valueFor i := by
  obtain ⟨a, b⟩ := C76_reachable R
  obtain ⟨a', b'⟩ := C76_reachable Rs
  exact ⟨a.wf.saturatingRecordNOn_eq v c b, a.wf.subtractOn_eq a'.wf b b', countAtOn_eq b v,
    countBetweenOn_eq b (le_trans b (usizeMax_le t)) v w, a.wf.valueForOn_eq b i⟩

/-- C76 (5): the serializer reserves 40 bytes and 9 for each class up to that of `max()`. If that is more than
`usize::MAX` it returns `UsizeTypeTooSmall`, if the memory cannot be had it panics, and otherwise it does what it does on
a 64-bit target. -/
theorem C76_serialize {h : Hist T} (R : ReachableOn t fp T h) {cs : List Cls} (C : Classes h cs) {m : Nat}
    (hm : h.max = .ok m) (junk : Nat → UInt8) :
    serializeOn t junk h =
      if t.usizeMax < 40 + 9 * (cs.filter fun c => decide (c.lo ≤ m)).length then .ok (.error .UsizeTypeTooSmall)
      else if t.allocates 1 (40 + 9 * (cs.filter fun c => decide (c.lo ≤ m)).length) then serialize junk h
      else .error .capacity := by
  obtain ⟨a, b⟩ := C76_reachable R
  have W := a.wf
  rw [W.max_eq] at hm
  cases hm
  have hcov := W.maxcov
  have e : (cs.filter fun c => decide (c.lo ≤ h.lmax)).length = h.lidx h.maxValue + 1 := by
    have := congrArg List.length (W.classes_max C)
    rw [List.length_map, List.length_take] at this
    omega
  rw [serializeOn_eq W b junk, e, Nat.add_comm 40]

/-- a histogram on a 16-bit target with too many slots to serialize there: `Histogram::<u8>::new_with_bounds(1, 100000, 3)`
with 100000 recorded -/
example : (((Hist.newWithBoundsOn (.generous 16) Fp.ideal .u8 1 100000 3).toOption.bind (·.toOption)).bind
      fun h => (h.recordNOn (.generous 16) 100000 1).toOption).map
    (fun p => (p.2, serializeOn (.generous 16) (fun _ => 0) p.1)) = some (.ok (), .ok (.error .UsizeTypeTooSmall)) := by
  decide +kernel

/-- C76 (6): what the deserializer answers on a target is what it answers on a 64-bit one, or one of the errors
`UsizeTypeTooSmall` and `InvalidParameters`, or a panic for lack of memory. -/
theorem C76_deserialize (t : Target) (fp : Fp) (z : Zlib) (T : CounterTy) (checks : Bool) (bytes : List UInt8) :
    deserializeOn t fp z T checks bytes = deserialize fp z T checks bytes ∨
    deserializeOn t fp z T checks bytes = .ok (.error .UsizeTypeTooSmall) ∨
    deserializeOn t fp z T checks bytes = .ok (.error .InvalidParameters) ∨
    deserializeOn t fp z T checks bytes = .error .capacity :=
  deserializeOn_weaker t z checks bytes

theorem V2.deserializeOn_cookie {z : Zlib} {checks : Bool} (r : List UInt8) :
    deserializeOn t fp z T checks (be32 COOKIE ++ r) = deserV2On t fp T checks r := by
  unfold deserializeOn be32
  rw [readBE_be 4 _ _ (by decide)]
  simp

/-- C76 (7): of the messages a 64-bit target accepts, a target refuses exactly those with more payload bytes, slots or
counts than `usize::MAX`: the first and the last with `UsizeTypeTooSmall`, the second with `InvalidParameters`; it panics if the
memory for the slots or the payload cannot be had, and gives the same histogram for all others. -/
theorem C76_deserialize_accepted (t : Target) {z : Zlib} {checks : Bool} {bytes rest : List UInt8} {low high sigfig : Nat}
    {ts : List Int} (S : Format.Stream bytes low high sigfig ts rest) {h0 : Hist T}
    (e : Hist.newWithBounds fp T low high sigfig = .ok (.ok h0)) (F : Format.Fits T.max h0.distinctValues ts) {n : Nat}
    (hn : bytes.length = 40 + n + rest.length) :
    deserializeOn t fp z T checks bytes =
      if t.usizeMax < n then .ok (.error .UsizeTypeTooSmall)
      else if t.usizeMax < h0.distinctValues then .ok (.error .InvalidParameters)
      else if t.allocates T.bytes h0.distinctValues = false then .error .capacity
      else if n ≠ 0 ∧ t.allocates 1 n = false then .error .capacity
      else if t.usizeMax < (Format.expand ts).length then .ok (.error .UsizeTypeTooSmall)
      else deserialize fp z T checks bytes := by
  have hh : high ≤ U64MAX := by
    have := S.2.1
    have hU : U64MAX = 18446744073709551615 := rfl
    norm_num at this; omega
  obtain ⟨-, -, -, -, -, h5, -⟩ := newWithBounds_wf hh e
  obtain ⟨r', rfl, payload, hr, N⟩ := stream_iff (by omega) S
  have hl : payload.length = n := by
    have h1 := readHeader_exact hr
    rw [h1] at hn
    simp only [List.length_append, be32, be64, beBytes_length] at hn
    omega
  rw [deserialize_cookie, deserializeOn_cookie, deserV2On_accepted t checks hr e rfl rfl N F]
  subst hl
  simp only [ne_eq, List.length_eq_zero_iff]
  rfl

/-- a message that follows the grammar, with 5 bytes of payload and a byte after it; on 4-bit targets there is room for it, and for
17 counts there is not -/
example : Format.Stream (demoBytes [2, 3, 6, 144, 3] ++ [7]) 1 15 0 [1, -2, 3, 200] [7] ∧
    Hist.newWithBounds Fp.ideal .u8 1 15 0 = .ok (.ok demo) ∧ Format.Fits CounterTy.u8.max demo.distinctValues [1, -2, 3, 200] ∧
    (demoBytes [2, 3, 6, 144, 3] ++ [7]).length = 40 + 5 + [(7 : UInt8)].length := by
  refine ⟨⟨by norm_num, by norm_num, by norm_num, [2, 3, 6, 144, 3], by norm_num,
    .cons (u := 2) rfl (.cons (u := 3) rfl (.cons (u := 6) rfl (.cons (u := 400) rfl .nil))), by decide +kernel⟩, demo_eq,
    ⟨by decide, by decide, ?_⟩, by decide +kernel⟩
  intro i hi
  have : (Format.expand [1, -2, 3, 200]).length = 5 := by decide
  rw [List.getD_eq_getElem?_getD, List.getElem?_eq_none (by rw [this]; exact hi)]
  rfl

example : (deserializeOn (.generous 4) Fp.ideal Zlib.stored .u8 true (demoBytes [2, 3, 6, 144, 3] ++ [7])).toOption.map
      (fun x => x.toOption.map fun p => (p.1.counts, p.2)) = some (some ([1, 0, 0, 3, 200], [7])) ∧
    deserializeOn (.generous 4) Fp.ideal Zlib.stored .u8 true (demoBytes [2, 31]) = .ok (.error .UsizeTypeTooSmall) := by
  decide +kernel

/-! ## C77: 32 bits and more -/

theorem Target.Wide.outcome {E : Type} {t : Target} (w : t.Wide) {h : Hist T} {small : E}
    {on64 : M (Hist T × Except E Unit)} (hw : ∀ h' r, on64 = .ok (h', r) → WF fp h') :
    t.outcome h small on64 = on64 := by
  cases on64 with
  | error e => rfl
  | ok p =>
    obtain ⟨h', r⟩ := p
    have W := hw h' r rfl
    unfold Target.outcome
    rw [M.ok_bind]
    dsimp only
    by_cases c1 : h'.distinctValues ≤ h.distinctValues
    · rw [if_pos c1]; rfl
    · have c2 : ¬ t.usizeMax < h'.distinctValues := not_lt.mpr (W.len_wide w)
      have c3 : t.allocates T.bytes h'.distinctValues = true := W.alloc_wide w
      rw [if_neg c1, if_neg c2, if_pos c3]; rfl

example : (Target.generous 32).Wide :=
  ⟨le_rfl, fun size len h => by simp only [Target.generous, decide_eq_true_eq]; norm_num at h ⊢; omega⟩

/-- C77 (1): on targets with pointers of 32 bits or more and 256 MiB to spare, the constructors do what they do on a 64-bit
target. -/
theorem C77_new {t : Target} (w : t.Wide) (fp : Fp) (T : CounterTy) {low high sigfig : Nat} (hh : high ≤ U64MAX) :
    Hist.newWithBoundsOn t fp T low high sigfig = Hist.newWithBounds fp T low high sigfig ∧
    Hist.newOn t fp T sigfig = Hist.new fp T sigfig := by
  refine ⟨newWithBoundsOn_wide w T hh, ?_⟩
  unfold Hist.newOn Hist.new
  rw [newWithBoundsOn_wide w T (by decide)]
  rfl

/-- C77 (2): so do all operations, -/
theorem C77_operations {t : Target} (w : t.Wide) {h s : Hist T} (R : Reachable fp T h) (Rs : Reachable fp T s) {v c : Nat}
    (hv : v ≤ U64MAX) (hc : c ≤ T.max) (i k x : Nat) :
    h.recordNOn t v c = h.recordN v c ∧ h.recordNCorrectOn t v c i = h.recordNCorrect v c i ∧
    h.saturatingRecordNOn t v c = h.saturatingRecordN v c ∧ h.addOn t s = h.add s ∧ h.subtractOn t s = h.subtract s ∧
    h.countAtOn t v = h.countAt v ∧ h.countBetweenOn t v x = h.countBetween v x ∧ h.valueForOn t k = h.valueFor k := by
  have W := R.wf
  have Ws := Rs.wf
  have hl := W.len_wide w
  have hs := Ws.len_wide w
  refine ⟨?_, ?_, W.saturatingRecordNOn_eq v c hl, ?_, W.subtractOn_eq Ws hl hs, countAtOn_eq hl v,
    countBetweenOn_eq hl (le_trans hl (usizeMax_le t)) v x, W.valueForOn_eq hl k⟩
  · rw [W.recordNOn_eq hv hc hl]
    exact w.outcome fun _ _ e => (Reachable.recordN R hv hc e).wf
  · rw [W.recordNCorrectOn_eq i hv hc hl]
    exact w.outcome fun _ _ e => (Reachable.recordNCorrect R hv hc e).wf
  · rw [W.addOn_eq Ws hl hs]
    exact w.outcome fun _ _ e => (Reachable.add R Rs e).wf

/-- C77 (3): the serializer, -/
theorem C77_serialize {t : Target} (w : t.Wide) {h : Hist T} (R : Reachable fp T h) (junk : Nat → UInt8) :
    serializeOn t junk h = serialize junk h := by
  have W := R.wf
  have hl := W.len_wide w
  have h24 := W.len24
  have hcov := W.maxcov
  have hu := w.usize
  norm_num at h24 hu
  rw [serializeOn_eq W hl, if_neg (by omega), if_pos (w.2 _ _ (by norm_num; omega))]

theorem deserializeOn_wide {t : Target} (w : t.Wide) {z : Zlib} {checks : Bool} {bytes rest : List UInt8}
    {low high sigfig : Nat} {ts : List Int} (S : Format.Stream bytes low high sigfig ts rest)
    (hn : bytes.length ≤ 2 ^ 28 + rest.length) (hx : (Format.expand ts).length < 2 ^ 32) :
    deserializeOn t fp z T checks bytes = deserialize fp z T checks bytes := by
  obtain ⟨a1, a2, a3, payload, hl, N, rfl⟩ := S
  have e : ∀ q : List UInt8, Format.bigEndian 4 0x1c849313 ++ Format.bigEndian 4 payload.length ++ Format.bigEndian 4 0 ++
      Format.bigEndian 4 sigfig ++ Format.bigEndian 8 low ++ Format.bigEndian 8 high ++
      Format.bigEndian 8 0x3FF0000000000000 ++ payload ++ q =
      be32 COOKIE ++ (be32 payload.length ++ (be32 0 ++ (be32 sigfig ++ (be64 low ++ (be64 high ++ (be64 ONE_BITS ++
        (payload ++ q))))))) := by
    intro q
    rw [cookie_eq]
    simp only [bigEndian_eq, be32, be64, ONE_BITS, List.append_assoc]
  rw [e] at hn ⊢
  rw [deserialize_cookie, deserializeOn_cookie]
  refine deserV2On_wide w checks fun hd hh => ?_
  simp only [List.length_append, be32, be64, beBytes_length] at hn
  have h255 : sigfig ≤ 255 := by
    by_contra hc
    unfold readHeader be32 be64 at hh
    norm_num at hl a3
    rw [readBE_be 4 _ _ (by norm_num; omega)] at hh
    simp only at hh
    rw [readBE_be 4 _ _ (by norm_num)] at hh
    simp only at hh
    rw [if_neg (by simp), readBE_be 4 _ _ (by norm_num; omega)] at hh
    simp only at hh
    rw [if_pos (by omega)] at hh
    cases hh
  rw [readHeader_be hl h255 a1 a2] at hh
  cases hh
  exact ⟨payload, rest, ts, rfl, rfl, by omega, N, hx⟩

/-- C77 (4): and the deserializer on what any serializer wrote, as any counter type and whatever follows. -/
theorem C77_deserialize {t : Target} (w : t.Wide) {h : Hist T} (R : Reachable fp T h) {junk : Nat → UInt8}
    {bytes : List UInt8} {n : Nat} (e : serialize junk h = .ok (.ok (bytes, n))) (z : Zlib) (checks : Bool) (T' : CounterTy)
    (tail : List UInt8) :
    deserializeOn t fp z T' checks (bytes ++ tail) = deserialize fp z T' checks (bytes ++ tail) := by
  have W := R.wf
  obtain ⟨r, hr, hser⟩ := serialize_spec W
  rw [hser junk] at e
  rcases r with _ | ts
  · cases e
  obtain ⟨h1, h2, h3, -⟩ := hr
  cases e
  have h24 := W.len24
  have hcov := W.maxcov
  norm_num at h24
  have henc := enc_length ts
  have hw := wire_length h ts
  have hx : (Format.expand ts).length = h.lidx h.maxValue + 1 := by
    show (ts.flatMap expand).length = _
    rw [h1, List.length_take]; omega
  have hU : U64MAX = 18446744073709551615 := rfl
  refine deserializeOn_wide w (low := h.lowestDiscernible) (high := h.highestTrackable) (sigfig := h.sigDigits) (ts := ts)
    (rest := tail) ⟨?_, ?_, ?_, enc ts, ?_, numbers_enc h2, ?_⟩ ?_ ?_
  · have := W.low63; norm_num; omega
  · have := W.highmax; norm_num; omega
  · have := W.sig5; norm_num; omega
  · norm_num; omega
  · rw [wire_eq, cookie_eq]
    simp only [bigEndian_eq, be32, be64, ONE_BITS, List.append_assoc]
  · rw [List.length_append, hw]; norm_num; omega
  · rw [hx]; norm_num; omega

/-! ## C78: "a suitable error" on 16 bits -/

/-- C78 (partial: see `C78_refuted`): on a target on which every vector that is not too large for `Vec` can be allocated,
if the slots are more than `usize::MAX` or take at most `isize::MAX` bytes, the constructor returns what it returns on a
64-bit target or the error `UsizeTypeTooSmall`. -/
theorem C78_new_partial {bits : Nat} (hb : bits ≤ 64) (fp : Fp) (T : CounterTy) {low high sigfig : Nat} (hh : high ≤ U64MAX)
    (hx : ∀ h, Hist.newWithBounds fp T low high sigfig = .ok (.ok h) →
      2 ^ bits ≤ h.distinctValues ∨ T.bytes * h.distinctValues < 2 ^ (bits - 1)) :
    Hist.newWithBoundsOn (.generous bits hb) fp T low high sigfig = Hist.newWithBounds fp T low high sigfig ∨
    Hist.newWithBoundsOn (.generous bits hb) fp T low high sigfig = .ok (.error .UsizeTypeTooSmall) := by
  rw [newWithBoundsOn_eq _ fp T hh]
  cases e : Hist.newWithBounds fp T low high sigfig with
  | error e => left; rfl
  | ok x =>
    cases x with
    | error e => left; rfl
    | ok h =>
      simp only [Except.bind]
      split
      · right; rfl
      · left
        rename_i hc
        have hp : 0 < 2 ^ bits := by positivity
        simp only [Target.usizeMax, Target.generous] at hc
        rcases hx h e with h1 | h1
        · unfold Hist.distinctValues at h1; omega
        · rw [if_pos]
          simp only [Target.generous, decide_eq_true_eq]
          unfold Hist.distinctValues at h1
          cases bits with
          | zero => simp only [pow_zero] at hc h1 ⊢; simp at h1 hc; simp [hc]
          | succ b => rw [pow_succ] at hc ⊢; rw [Nat.add_sub_cancel] at h1; omega

theorem Target.outcome_generous {bits : Nat} (hb : bits ≤ 64) {E : Type} {h h' : Hist T} {small : E} {r : Except E Unit}
    (hx : 2 ^ bits ≤ h'.distinctValues ∨ T.bytes * h'.distinctValues < 2 ^ (bits - 1)) :
    (Target.generous bits hb).outcome h small (.ok (h', r)) = .ok (h', r) ∨
    (Target.generous bits hb).outcome h small (.ok (h', r)) = .ok (h, .error small) := by
  unfold Target.outcome
  rw [M.ok_bind]
  dsimp only
  by_cases c1 : h'.distinctValues ≤ h.distinctValues
  · left; rw [if_pos c1]; rfl
  rw [if_neg c1]
  by_cases c2 : (Target.generous bits hb).usizeMax < h'.distinctValues
  · right; rw [if_pos c2]; rfl
  rw [if_neg c2, if_pos]
  · left; rfl
  have hp : 0 < 2 ^ bits := by positivity
  simp only [Target.usizeMax, Target.generous] at c2
  simp only [Target.generous, decide_eq_true_eq]
  generalize h'.distinctValues = n at *
  rcases hx with h1 | h1
  · omega
  · cases bits with
    | zero => simp only [pow_zero] at c2; simp at c2; simp [c2]
    | succ b => rw [pow_succ] at c2 ⊢; rw [Nat.add_sub_cancel] at h1; omega

/-- The same for recording and adding: a longer array than a `usize` counts is the error, one that takes at most
`isize::MAX` bytes is had. -/
theorem C78_grow_partial {bits : Nat} (hb : bits ≤ 64) {h s : Hist T} (R : ReachableOn (.generous bits hb) fp T h)
    (Rs : ReachableOn (.generous bits hb) fp T s) {v c : Nat} (hv : v ≤ U64MAX) (hc : c ≤ T.max) {h' : Hist T}
    {r : Except RecordError Unit} (e : h.recordN v c = .ok (h', r)) {g : Hist T} {q : Except AdditionError Unit}
    (e' : h.add s = .ok (g, q))
    (hx : 2 ^ bits ≤ h'.distinctValues ∨ T.bytes * h'.distinctValues < 2 ^ (bits - 1))
    (hx' : 2 ^ bits ≤ g.distinctValues ∨ T.bytes * g.distinctValues < 2 ^ (bits - 1)) :
    (h.recordNOn (.generous bits hb) v c = .ok (h', r) ∨
      h.recordNOn (.generous bits hb) v c = .ok (h, .error .ResizeFailedUsizeTypeTooSmall)) ∧
    (h.addOn (.generous bits hb) s = .ok (g, q) ∨
      h.addOn (.generous bits hb) s = .ok (h, .error .ResizeFailedUsizeTypeTooSmall)) := by
  obtain ⟨e1, -, e3⟩ := C76_grow R Rs hv hc 0
  rw [e1, e3, e, e']
  exact ⟨Target.outcome_generous hb hx, Target.outcome_generous hb hx'⟩

/-- the hypotheses of the two theorems on 16-bit targets -/
example : ReachableOn (.generous 16) Fp.ideal .u8 (demo.auto true) ∧
    (∀ h, Hist.newWithBounds Fp.ideal .u8 1 15 0 = .ok (.ok h) → 2 ^ 16 ≤ h.distinctValues ∨
      CounterTy.u8.bytes * h.distinctValues < 2 ^ (16 - 1)) :=
  ⟨.auto true (demo_reachableOn 16 (by decide) (by decide)), fun h e => by rw [demo_eq] at e; cases e; right; decide⟩

/-- C78 does not hold in full: an array whose length is a `usize` but whose size in bytes is more than `isize::MAX` is a
"capacity overflow" panic, not an error: 5120 counters of 8 bytes on 16 bits, -/
theorem C78_refuted :
    (Hist.newWithBounds Fp.ideal .u64 1 10000 3).toOption.map (fun x => x.toOption.map (·.distinctValues)) = some (some 5120) ∧
    Hist.newWithBoundsOn (.generous 16) Fp.ideal .u64 1 10000 3 = .error .capacity ∧
    (Hist.newWithBoundsOn (.generous 16) Fp.ideal .u8 1 10000 3).toOption.map (fun x => x.toOption.map (·.distinctValues)) =
      some (some 5120) := by
  decide +kernel

/-- recording 2^63 into `Histogram::<u64>::new(2)`, which resizes itself, -/
theorem C78_record_refuted : ∃ h, Hist.newOn (.generous 16) Fp.ideal .u64 2 = .ok (.ok h) ∧
    h.recordNOn (.generous 16) (2 ^ 63) 1 = .error .capacity ∧
    (h.recordN (2 ^ 63) 1).toOption.map (fun p => (p.1.distinctValues, p.2)) = some (7424, .ok ()) := by
  refine ⟨_, rfl, ?_⟩
  decide +kernel

/-- while with five significant digits there are more slots than a `usize` counts, and the error is returned. -/
theorem C78_error : Hist.newWithBoundsOn (.generous 16) Fp.ideal .u64 1 2 5 = .ok (.error .UsizeTypeTooSmall) := by
  decide +kernel

/-! ## C79: which messages are accepted -/

/-- C79 (partial: see `C79_refuted`): on targets with pointers of 32 bits or more and 256 MiB to spare, a message of at most
256 MiB whose numbers mean less than 2^32 counts is treated as on a 64-bit target: the same histogram or the same
error. -/
theorem C79_deserialize_partial {t : Target} (w : t.Wide) {z : Zlib} {checks : Bool} {bytes rest : List UInt8}
    {low high sigfig : Nat} {ts : List Int} (S : Format.Stream bytes low high sigfig ts rest)
    (hn : bytes.length ≤ 2 ^ 28 + rest.length) (hx : (Format.expand ts).length < 2 ^ 32) :
    deserializeOn t fp z T checks bytes = deserialize fp z T checks bytes :=
  deserializeOn_wide w S hn hx

/-- C79 does not hold in full: a run of 2^32 zeros past the last slot is accepted on a 64-bit target and refused on a
32-bit one, -/
theorem C79_refuted :
    (deserialize Fp.ideal Zlib.stored .u8 true (demoBytes [2, 0xFF, 0xFF, 0xFF, 0xFF, 0x1F])).toOption.map
      (fun x => x.toOption.map fun p => (p.1.counts, p.2)) = some (some ([1, 0, 0, 0, 0], [])) ∧
    deserializeOn (.generous 32) Fp.ideal Zlib.stored .u8 true (demoBytes [2, 0xFF, 0xFF, 0xFF, 0xFF, 0x1F]) =
      .ok (.error .UsizeTypeTooSmall) := by
  decide +kernel

/-- and a header that announces 2^31 bytes of payload, none of which follow, is an error on a 64-bit target with the memory
and a panic on a 32-bit one. -/
theorem C79_announced_refuted :
    deserialize Fp.ideal Zlib.stored .u8 true (be32 COOKIE ++ be32 (2 ^ 31) ++ be32 0 ++ be32 0 ++ be64 1 ++ be64 15 ++
      be64 ONE_BITS) = .ok (.error .IoError) ∧
    deserializeOn (.generous 64) Fp.ideal Zlib.stored .u8 true (be32 COOKIE ++ be32 (2 ^ 31) ++ be32 0 ++ be32 0 ++ be64 1 ++
      be64 15 ++ be64 ONE_BITS) = .ok (.error .IoError) ∧
    deserializeOn (.generous 32) Fp.ideal Zlib.stored .u8 true (be32 COOKIE ++ be32 (2 ^ 31) ++ be32 0 ++ be32 0 ++ be64 1 ++
      be64 15 ++ be64 ONE_BITS) = .error .capacity := by
  decide +kernel

end Hdr
