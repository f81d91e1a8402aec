import Verif.Props.Format
import Verif.Proofs.WidthWire

/-!
# C60: equal bytes mean exactly equal settings, equal counts and the same class of `max()`
-/

namespace Hdr

open V2

variable {T : CounterTy} {fp : Fp}

theorem V2.wire_drop (h : Hist T) (ts : List Int) : (wire h ts).drop 40 = enc ts := by
  have h1 : (wire h ts).length = 40 + (enc ts).length := wire_length h ts
  unfold wire at *
  rw [List.drop_append_of_le_length (by simp only [List.length_append] at *; omega)]
  rw [List.drop_eq_nil_of_le (by simp only [List.length_append] at *; omega), List.nil_append]

/-- the slots written are determined by the bytes -/
theorem V2.same_bytes_slots {T' : CounterTy} {h : Hist T} {g : Hist T'} (W : WF fp h) (W' : WF fp g)
    {junk junk' : Nat → UInt8} {bytes : List UInt8} {n n' : Nat} (e : serialize junk h = .ok (.ok (bytes, n)))
    (e' : serialize junk' g = .ok (.ok (bytes, n'))) : h.lidx h.maxValue = g.lidx g.maxValue := by
  obtain ⟨ts, rfl, -, h1, h2, -⟩ := wire_of_ok W e
  obtain ⟨us, hb, -, g1, g2, -⟩ := wire_of_ok W' e'
  have h3 : enc ts = enc us := by
    have := congrArg (List.drop 40) hb
    rwa [wire_drop, wire_drop] at this
  have h4 : ts = us := numbers_unique (numbers_enc h2) (h3 ▸ numbers_enc g2)
  rw [h4, g1] at h1
  have h5 := congrArg List.length h1
  rw [List.length_take, List.length_take] at h5
  have := W.maxcov
  have := W'.maxcov
  omega

/-- C60: two histograms, whatever their counter types, have the same encoding exactly if their settings, all their counts and
the classes of their `max()` agree. -/
theorem C60_same_bytes {T' : CounterTy} {h : Hist T} {g : Hist T'} (R : Reachable fp T h) (R' : Reachable fp T' g)
    {junk junk' : Nat → UInt8} {bytes bytes' : List UInt8} {n n' : Nat} (e : serialize junk h = .ok (.ok (bytes, n)))
    (e' : serialize junk' g = .ok (.ok (bytes', n'))) {m m' : Nat} (hm : h.max = .ok m) (hm' : g.max = .ok m') :
    bytes = bytes' ↔ h.low = g.low ∧ h.high = g.high ∧ h.sigfig = g.sigfig ∧
      (∀ v, v ≤ U64MAX → h.countAt v = g.countAt v) ∧ Equiv h m m' := by
  constructor
  · rintro rfl
    obtain ⟨a, b, c, d⟩ := C60_injective R R' e e'
    refine ⟨a, b, c, d, ?_⟩
    have h1 := same_bytes_slots R.wf R'.wf e e'
    rw [R.wf.max_eq] at hm
    rw [R'.wf.max_eq] at hm'
    cases hm
    cases hm'
    rw [R.wf.equiv_iff lmax_le lmax_le, R.wf.lidx_lmax, h1, ← R'.wf.lidx_lmax]
    obtain ⟨-, e1, e2⟩ := R.wf.layout_eq R'.wf a b c
    unfold Hist.lidx
    rw [e1, e2]
  · rintro ⟨a, b, c, d, q⟩
    have := C60_canonical R R' a b c d hm hm' q junk junk'
    rw [e, e'] at this
    simp only [Except.ok.injEq, Prod.mk.injEq] at this
    exact this.1

/-- C60: writing again what was read back gives the same bytes exactly if the class of `max()` holds samples, or there are none
and `max()` is in the class of 0. -/
theorem C60_reserialize_iff {h : Hist T} (R : Reachable fp T h) {cs : List Cls} (C : Classes h cs) {m : Nat}
    (hm : h.max = .ok m) {junk : Nat → UInt8} {bytes rest : List UInt8} {n : Nat}
    (e : serialize junk h = .ok (.ok (bytes, n))) {z : Zlib} {checks : Bool} {T' : CounterTy} {g : Hist T'}
    (d : deserialize fp z T' checks bytes = .ok (.ok (g, rest))) (junk' : Nat → UInt8) :
    serialize junk' g = .ok (.ok (bytes, n)) ↔
      (∃ n, HasCount h m n ∧ n ≠ 0) ∨ ((∀ c ∈ cs, c.count = 0) ∧ Equiv h m 0) := by
  refine ⟨fun es => ?_, fun hx => C60_reserialize_partial R C hm hx e d junk'⟩
  have W := R.wf
  have Rg : Reachable fp T' g := .deserialize z checks _ _ d
  have hsame := same_bytes_slots W Rg.wf e es
  have hfit : ¬ ∃ c ∈ cs, T'.max < c.count := by
    intro hfit
    have := (C61_counter_type R C e z checks T' []).2 hfit
    rw [List.append_nil, d] at this
    cases this
  obtain ⟨ts, rfl, -, h1, h2, h3, -⟩ := wire_of_ok W e
  have hf : ∀ c ∈ h.counts, c ≤ T'.max := by
    intro c hc
    obtain ⟨i, hi, rfl⟩ := List.getElem_of_mem hc
    by_contra hlt
    refine hfit ⟨h.lcls i, (W.mem_classes C).mpr ⟨i, hi, rfl⟩, ?_⟩
    have e1 : (h.lcls i).count = h.counts[i] := by
      show h.counts.getD i 0 = _
      rw [List.getD_eq_getElem?_getD, List.getElem?_eq_getElem hi]; rfl
    rw [e1]; omega
  have d' := deserialize_wire W z T' checks h1 h2 h3 hf []
  rw [List.append_nil, d] at d'
  simp only [Except.ok.injEq, Prod.mk.injEq] at d'
  obtain ⟨rfl, -⟩ := d'
  have hlast := lastNz_spec h.counts 0
  have hidx := decoded_idx Rg.wf
  have key : h.lidx h.maxValue = (lastNz h.counts 0).getD 0 := hsame.trans hidx
  rw [W.max_eq] at hm
  cases hm
  cases hn : lastNz h.counts 0 with
  | none =>
    rw [hn] at hlast key
    right
    refine ⟨fun c hc => ?_, ?_⟩
    · obtain ⟨i, -, rfl⟩ := (W.mem_classes C).mp hc
      exact hlast i
    · rw [W.equiv_iff lmax_le (Nat.zero_le _), W.lidx_lmax, key]
      exact Lay.idx_zero.symm
  | some j =>
    rw [hn] at hlast key
    simp only [Nat.sub_zero, Nat.zero_add] at hlast
    left
    refine ⟨h.counts.getD j 0, ?_, hlast.2.2.1⟩
    rw [W.hasCount_iff lmax_le, W.lidx_lmax, key]
    rfl

/-- instances: `C60_refuted` has a histogram for which the bytes differ; `demo3` one for which they do not -/
example : demo3.max = .ok 15 ∧ HasCount demo3 15 200 := ⟨by decide, Or.inl (by decide +kernel)⟩

/-- instances: the same samples in another counter type, and one sample more -/
example : (serialize (fun _ => 0) demo3).toOption.bind Except.toOption = some (Format.v2 1 15 0 [1, 0, 0, 3, 200], 45) ∧
    (∃ h, demo3.recordN 0 1 = .ok (h, .ok ()) ∧ h.max = .ok 15 ∧
      serialize (fun _ => 0) h = .ok (.ok (Format.v2 1 15 0 [2, 0, 0, 3, 200], 45))) :=
  ⟨by decide +kernel, okThen (by decide +kernel)⟩

end Hdr
