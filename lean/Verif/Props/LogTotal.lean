import Verif.Spec.LogTotal
import Verif.Props.Log
import Verif.Props.Samples
import Verif.Props.Format

/-!
# C89: the histograms read from a log add up to what was recorded
-/

namespace Hdr.Log

variable {T : CounterTy} {fp : Fp} {ε : Type}

/-- reading the payload of a serializer gives back histograms with the same samples -/
def Restores (fp : Fp) (z : V2.Zlib) (checks : Bool) (T : CounterTy) (ser : Ser ε) : Prop :=
  ∀ {T' : CounterTy} {h : Hist T'} {buf : Bytes} {l : List (Nat × Nat)}, Reachable fp T' h → ser h = .ok (.ok buf) →
    Contains h l → (∀ w, w ≤ U64MAX → (number l fun v => Equiv h v w) ≤ T.max) →
    ∃ g : Hist T, V2.deserialize fp z T checks buf = .ok (.ok (g, [])) ∧ Reachable fp T g ∧ Contains g l ∧
      g.low = h.low ∧ g.high = h.high ∧ g.sigfig = h.sigfig

theorem v2Ser_restores (fp : Fp) (z : V2.Zlib) (checks : Bool) (T : CounterTy) (junk : Nat → UInt8) :
    Restores fp z checks T (v2Ser junk) := by
  intro T' h buf l R e H hfit
  unfold v2Ser at e
  rw [M.bind_eq_ok] at e
  obtain ⟨o, n1, n2⟩ := e
  cases o with
  | error e => cases n2
  | ok p =>
    obtain ⟨bs, n⟩ := p
    cases n2
    exact C71_serialize R H n1 z checks T hfit

theorem deflateSer_restores (fp : Fp) {z : V2.Zlib} (hz : z.Lawful) (checks : Bool) (T : CounterTy) (junk : Nat → UInt8) :
    Restores fp z checks T (deflateSer z junk) := by
  intro T' h buf l R e H hfit
  have W := R.wf
  unfold deflateSer at e
  rw [M.bind_eq_ok] at e
  obtain ⟨o, n1, n2⟩ := e
  cases o with
  | error e => cases n2
  | ok p =>
    obtain ⟨bs, n⟩ := p
    cases n2
    obtain ⟨q1, q2⟩ := C42_deflate R hz junk
    cases hs : V2.serialize junk h with
    | error p =>
      obtain ⟨r, -, hr⟩ := V2.serialize_spec W
      rw [hr junk] at hs
      cases r <;> cases hs
    | ok o =>
      cases o with
      | error x => rw [q1 x hs] at n1; cases n1
      | ok p =>
        obtain ⟨bytes, k⟩ := p
        obtain ⟨out, o1, -, -, o2⟩ := q2 bytes k hs
        rw [o1] at n1
        cases n1
        obtain ⟨g, d, Rg, Hg, hg⟩ := C71_serialize R H hs z checks T hfit
        obtain ⟨g', d1, d2, -⟩ := o2 T checks [] W.classes (fun c hc => by
          obtain ⟨i, hi, rfl⟩ := (W.mem_classes W.classes).mp hc
          have := hfit (h.lval i) (W.lval_le' hi)
          rw [number_equiv W (fun p hp => H.le W hp) (W.lval_le' hi), show h.lidx (h.lval i) = i from Lay.idx_val,
            ← H.slot W hi] at this
          exact this)
        rw [List.append_nil] at d1 d2
        rw [d] at d1
        cases d1
        exact ⟨_, d2, Rg, Hg, hg⟩

theorem addUp_spec {z : V2.Zlib} {checks : Bool} {wanted : Option Str → Bool} {ser : Ser ε}
    (hser : Restores fp z checks T ser) {f : Fmt} {x : F64} {acc0 : Hist T} {ops : List Op} {es : List Entry}
    (I : Intended f x ser ops es) : ∀ {es' : List Entry} {l l0 : List (Nat × Nat)} {acc : Hist T},
    List.Forall₂ SameEntry es es' → Written fp acc0 wanted ops l → Reachable fp T acc → acc.isAutoResize = true →
    (∀ a b, a ≤ U64MAX → b ≤ U64MAX → (Equiv acc a b ↔ Equiv acc0 a b)) → Contains acc l0 →
    (∀ w, w ≤ U64MAX → (number (l0 ++ l) fun v => Equiv acc0 v w) ≤ T.max) → numberAll (l0 ++ l) ≤ U64MAX →
    ∃ acc', addUp fp z checks T wanted es' acc = .ok (some acc') ∧ Reachable fp T acc' ∧ Contains acc' (l0 ++ l) ∧
      acc'.low = acc.low ∧ acc'.sigfig = acc.sigfig := by
  induction I with
  | nil =>
    intro es' l l0 acc hf hw R ha hq H hfit htot
    cases hf
    cases hw
    exact ⟨acc, rfl, R, by rw [List.append_nil]; exact H, rfl, rfl⟩
  | comment _ ih =>
    intro es' l l0 acc hf hw R ha hq H hfit htot
    cases hw with
    | comment hw => exact ih hf hw R ha hq H hfit htot
  | @hist T' h start duration tag ops es m buf hm hs I ih =>
    intro es' l l0 acc hf hw R ha hq H hfit htot
    cases hf with
    | @cons _ e' _ es' k1 k2 =>
    cases k1 with
    | @interval _ _ s' _ d' _ _ t1 t2 =>
    cases hw with
    | @hist _ _ _ _ _ _ l l' Rh Hh hpos hco hw =>
    by_cases hwt : wanted (tag.map Tag.asStr) = true
    · rw [if_pos hwt] at hfit htot ⊢
      have Wh := Rh.wf
      have hle : ∀ p ∈ l', p.1 ≤ U64MAX := fun p hp => Hh.le Wh hp
      obtain ⟨g, d, Rg, Hg, g1, g2, g3⟩ := hser Rh hs Hh (fun w hw => by
        refine le_trans ?_ (hfit w hw)
        rw [number_append, number_append]
        have : (number l' fun v => Equiv h v w) ≤ number l' fun v => Equiv acc0 v w :=
          number_le fun p hp hpw => hco _ _ (hle p hp) hw hpw
        omega)
      have hgco : ∀ a b, a ≤ U64MAX → b ≤ U64MAX → Equiv g a b → Equiv acc a b := by
        intro a b hA hB hgab
        refine (hq a b hA hB).mpr (hco a b hA hB ?_)
        rw [Wh.equiv_iff hA hB]
        rw [Rg.wf.equiv_iff hA hB] at hgab
        obtain ⟨-, e1, e2⟩ := Rg.wf.layout_eq Wh g1 g2 g3
        unfold Hist.lidx at hgab ⊢
        rw [e1, e2] at hgab
        exact hgab
      obtain ⟨acc1, r, e1, W1, hr⟩ := R.wf.add_spec Rg.wf
      have hok : r = .ok () := by
        cases r with
        | ok u => rfl
        | error x =>
          cases x with
          | ResizeFailedUsizeTypeTooSmall => exact hr.elim
          | OtherAddendValueExceedsRange =>
            have := hr.2.1
            rw [show acc.autoResize = acc.isAutoResize from rfl, ha] at this
            cases this
      subst hok
      have R1 : Reachable fp T acc1 := .add R Rg e1
      have H1 : Contains acc1 (l0 ++ l') := by
        refine C71_add R Rg H Hg hgco e1 hpos (fun w hw => ?_) ?_
        · refine le_trans ?_ (hfit w hw)
          rw [← List.append_assoc, number_append _ l]
          have : (number (l0 ++ l') fun v => Equiv acc v w) ≤ number (l0 ++ l') fun v => Equiv acc0 v w :=
            number_le fun p hp hpw => (hq _ _ (by
              rcases List.mem_append.mp hp with hp | hp
              · exact H.le R.wf hp
              · exact hle p hp) hw).mp hpw
          omega
        · rw [← List.append_assoc] at htot
          unfold numberAll at htot ⊢
          rw [List.map_append, List.sum_append] at htot
          omega
      have hcfg : acc1.isAutoResize = true ∧ acc1.low = acc.low ∧ acc1.sigfig = acc.sigfig ∧ ∀ v, acc1.lidx v = acc.lidx v := by
        rcases hr with ⟨-, rfl⟩ | ⟨-, -, hcfg, -⟩
        · exact ⟨ha, rfl, rfl, fun _ => rfl⟩
        · exact ⟨hcfg.auto.trans ha, hcfg.low, hcfg.sig, hcfg.lidx⟩
      obtain ⟨c1, c2, c3, c4⟩ := hcfg
      obtain ⟨acc', p1, p2, p3, p4, p5⟩ := ih (l0 := l0 ++ l') k2 hw R1 c1 (fun a b hA hB => by
        rw [← hq a b hA hB, W1.equiv_iff hA hB, R.wf.equiv_iff hA hB, c4, c4]) H1
        (fun w hw => by rw [List.append_assoc]; exact hfit w hw) (by rw [List.append_assoc]; exact htot)
      refine ⟨acc', ?_, p2, by rw [← List.append_assoc]; exact p3, p4.trans c2, p5.trans c3⟩
      simp only [addUp]
      rw [if_pos hwt, b64_decode_encode]
      simp only
      rw [d, M.ok_bind]
      simp only
      rw [e1, M.ok_bind]
      exact p1
    · rw [if_neg hwt] at hfit htot ⊢
      obtain ⟨acc', p1, p2⟩ := ih k2 hw R ha hq H hfit htot
      refine ⟨acc', ?_, p2⟩
      simp only [addUp]
      rw [if_neg hwt]
      exact p1

theorem addUp_headers {z : V2.Zlib} {checks : Bool} {wanted : Option Str → Bool} {st bt : Option Dur} {es es' : List Entry}
    (h : List.Forall₂ SameEntry (headerEntries st bt ++ es) es') (acc : Hist T) :
    ∃ es'', List.Forall₂ SameEntry es es'' ∧
      addUp fp z checks T wanted es' acc = addUp fp z checks T wanted es'' acc := by
  have one : ∀ {d : Dur} {es es' : List Entry}, List.Forall₂ SameEntry (.startTime d :: es) es' ∨
      List.Forall₂ SameEntry (.baseTime d :: es) es' → ∃ es'', List.Forall₂ SameEntry es es'' ∧
        addUp fp z checks T wanted es' acc = addUp fp z checks T wanted es'' acc := by
    rintro d es es' (h | h)
    · cases h with
      | cons k1 k2 => cases k1; exact ⟨_, k2, by simp only [addUp]⟩
    · cases h with
      | cons k1 k2 => cases k1; exact ⟨_, k2, by simp only [addUp]⟩
  cases st with
  | none =>
    cases bt with
    | none => exact ⟨es', h, rfl⟩
    | some d => exact one (.inr h)
  | some d =>
    obtain ⟨e1, h1, q1⟩ := one (.inl h)
    cases bt with
    | none => exact ⟨e1, h1, q1⟩
    | some d' =>
      obtain ⟨e2, h2, q2⟩ := one (.inr h1)
      exact ⟨e2, h2, q1.trans q2⟩

theorem adds_up {D : Dbl} (L : D.Lawful) {f : Fmt} {b : Builder} {z : V2.Zlib} {checks : Bool} {ser : Ser ε}
    (hser : Restores fp z checks T ser) {ops : List Op} {st bt : Option Dur} {out : Bytes} (hc : ∀ s ∈ b.comments, Plain s)
    (hst : b.startTime = st.map fun d => systemTimeAsFpSeconds (.afterEpoch d))
    (hbt : b.baseTime = bt.map fun d => systemTimeAsFpSeconds (.afterEpoch d))
    (hs : ∀ d, st = some d → d.Loggable) (hb : ∀ d, bt = some d → d.Loggable)
    (hl : ∀ op ∈ ops, op.Loggable b.maxValueDivisor) (h : writeLog f b ser ops = .ok (.ok out))
    {acc : Hist T} (R : Reachable fp T acc) (ha : acc.isAutoResize = true) {l0 l : List (Nat × Nat)} (H : Contains acc l0)
    {wanted : Option Str → Bool} (hw : Written fp acc wanted ops l)
    (hfit : ∀ w, w ≤ U64MAX → (number (l0 ++ l) fun v => Equiv acc v w) ≤ T.max) (htot : numberAll (l0 ++ l) ≤ U64MAX) :
    ∃ es acc', Yields D (Iter.new out) (es.map .ok) ∧ addUp fp z checks T wanted es acc = .ok (some acc') ∧
      Reachable fp T acc' ∧ Contains acc' (l0 ++ l) ∧ acc'.low = acc.low ∧ acc'.sigfig = acc.sigfig := by
  obtain ⟨es, es', h1, h2, h3⟩ := C43_round_trip_partial L hc hst hbt hs hb hl h
  obtain ⟨es'', h4, h5⟩ := addUp_headers (fp := fp) (z := z) (checks := checks) (wanted := wanted) h2 acc
  obtain ⟨acc', h6, h7⟩ := addUp_spec hser h1 h4 hw R ha (fun _ _ _ _ => Iff.rfl) H hfit htot
  exact ⟨es', acc', h3, h5.trans h6, h7⟩

/-- C89 (1): Write histograms of any counter types to a log with the V2 serializer. Parsing the log and adding up the
histograms with the wanted tags, in a histogram that resizes itself, succeeds and gives what the accumulator held before and
every sample of the histograms written with these tags, once. (The conditions on comments and times are those of C43; no
counter may overflow, and the accumulator must not distinguish more values than the histograms written.) -/
theorem C89_adds_up {D : Dbl} (L : D.Lawful) {f : Fmt} {b : Builder} {junk : Nat → UInt8} (z : V2.Zlib) (checks : Bool)
    {ops : List Op} {st bt : Option Dur} {out : Bytes} (hc : ∀ s ∈ b.comments, Plain s)
    (hst : b.startTime = st.map fun d => systemTimeAsFpSeconds (.afterEpoch d))
    (hbt : b.baseTime = bt.map fun d => systemTimeAsFpSeconds (.afterEpoch d))
    (hs : ∀ d, st = some d → d.Loggable) (hb : ∀ d, bt = some d → d.Loggable)
    (hl : ∀ op ∈ ops, op.Loggable b.maxValueDivisor) (h : writeLog f b (v2Ser junk) ops = .ok (.ok out))
    {acc : Hist T} (R : Reachable fp T acc) (ha : acc.isAutoResize = true) {l0 l : List (Nat × Nat)} (H : Contains acc l0)
    {wanted : Option Str → Bool} (hw : Written fp acc wanted ops l)
    (hfit : ∀ w, w ≤ U64MAX → (number (l0 ++ l) fun v => Equiv acc v w) ≤ T.max) (htot : numberAll (l0 ++ l) ≤ U64MAX) :
    ∃ es acc', Yields D (Iter.new out) (es.map .ok) ∧ addUp fp z checks T wanted es acc = .ok (some acc') ∧
      Reachable fp T acc' ∧ Contains acc' (l0 ++ l) ∧ acc'.low = acc.low ∧ acc'.sigfig = acc.sigfig :=
  adds_up L (v2Ser_restores fp z checks T junk) hc hst hbt hs hb hl h R ha H hw hfit htot

/-- C89 (2): The same for the V2+DEFLATE serializer, given a correct zlib. -/
theorem C89_adds_up_deflate {D : Dbl} (L : D.Lawful) {f : Fmt} {b : Builder} {junk : Nat → UInt8} {z : V2.Zlib} (hz : z.Lawful)
    (checks : Bool) {ops : List Op} {st bt : Option Dur} {out : Bytes} (hc : ∀ s ∈ b.comments, Plain s)
    (hst : b.startTime = st.map fun d => systemTimeAsFpSeconds (.afterEpoch d))
    (hbt : b.baseTime = bt.map fun d => systemTimeAsFpSeconds (.afterEpoch d))
    (hs : ∀ d, st = some d → d.Loggable) (hb : ∀ d, bt = some d → d.Loggable)
    (hl : ∀ op ∈ ops, op.Loggable b.maxValueDivisor) (h : writeLog f b (deflateSer z junk) ops = .ok (.ok out))
    {acc : Hist T} (R : Reachable fp T acc) (ha : acc.isAutoResize = true) {l0 l : List (Nat × Nat)} (H : Contains acc l0)
    {wanted : Option Str → Bool} (hw : Written fp acc wanted ops l)
    (hfit : ∀ w, w ≤ U64MAX → (number (l0 ++ l) fun v => Equiv acc v w) ≤ T.max) (htot : numberAll (l0 ++ l) ≤ U64MAX) :
    ∃ es acc', Yields D (Iter.new out) (es.map .ok) ∧ addUp fp z checks T wanted es acc = .ok (some acc') ∧
      Reachable fp T acc' ∧ Contains acc' (l0 ++ l) ∧ acc'.low = acc.low ∧ acc'.sigfig = acc.sigfig :=
  adds_up L (deflateSer_restores fp hz checks T junk) hc hst hbt hs hb hl h R ha H hw hfit htot

/-- the hypotheses, for the log `logDemo`: with all tags wanted its calls wrote the 204 samples of `demo3` (and none of
`demo`), which fit a `u8` histogram that resizes itself -/
example : Written Fp.ideal (demo.auto true) (fun _ => true)
    [.comment "one".toList, .hist demo3 ⟨1, 0⟩ ⟨2, 0⟩ (some ⟨"x".toList⟩), .hist demo ⟨3, 0⟩ ⟨4, 0⟩ none]
    [(5, 3), (9, 200), (0, 1)] ∧ Reachable Fp.ideal .u8 (demo.auto true) ∧ (demo.auto true).isAutoResize = true ∧
    Contains (demo.auto true) [] := by
  have R : Reachable Fp.ideal .u8 (demo.auto true) := .auto true demo_reachable
  refine ⟨.comment (.hist (l' := [(5, 3), (9, 200), (0, 1)]) (l := []) demo3_reachable demo3_holds (by decide) ?_
    (.hist (l' := []) (l := []) demo_reachable (C71_empty demo_reachable rfl) (by simp) ?_ .nil)), R, rfl, C71_empty R rfl⟩
  · intro a b hA hB e
    rw [R.wf.equiv_iff hA hB]
    exact (demo3_reachable.wf.equiv_iff hA hB).mp e
  · intro a b hA hB e
    rw [R.wf.equiv_iff hA hB]
    exact (demo_reachable.wf.equiv_iff hA hB).mp e

/-- adding up the entries of `logDemo`: those with the tag, or those without -/
example : List.map (fun w => (addUp Fp.ideal V2.Zlib.stored true .u8 w
      [.startTime ⟨1700000000, 0⟩, .baseTime ⟨5, 0⟩,
        .interval ⟨some ['x'], ⟨1, 0⟩, ⟨2, 0⟩, [], "HISTEwAAAAUAAAAAAAAAAAAAAAAAAAABAAAAAAAAAA8/8AAAAAAAAAIDBpAD".toList⟩,
        .interval ⟨none, ⟨3, 0⟩, ⟨4, 0⟩, [], "HISTEwAAAAEAAAAAAAAAAAAAAAAAAAABAAAAAAAAAA8/8AAAAAAAAAA=".toList⟩]
      (demo.auto true)).toOption.map (fun o => o.map (·.counts))) [fun t => t == some ['x'], fun t => t == none] =
    [some (some [1, 0, 0, 3, 200]), some (some [0, 0, 0, 0, 0])] := by decide +kernel

end Hdr.Log
