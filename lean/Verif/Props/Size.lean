import Verif.Props.Format
import Verif.Props.Samples
import Verif.Spec.Demo

/-!
# C113: the size of a serialized histogram
-/

namespace Hdr

variable {T : CounterTy} {fp : Fp}

open Format V2

private theorem leb_len_pos (k x : Nat) : 1 ≤ (leb128 k x).length := by
  cases k with
  | zero => exact le_rfl
  | succ k =>
    rw [leb128]
    split
    · exact le_rfl
    · rw [List.length_cons]; omega

private theorem leb_len_max : ∀ (k x : Nat), (leb128 k x).length ≤ k + 1 := by
  intro k
  induction k with
  | zero => intro x; exact le_rfl
  | succ k ih =>
    intro x
    rw [leb128]
    split
    · rw [List.length_singleton]; omega
    · rw [List.length_cons]; have := ih (x / 128); omega

private theorem leb_len_le : ∀ (j k x : Nat), x < 128 ^ (j + 1) → (leb128 k x).length ≤ j + 1 := by
  intro j
  induction j with
  | zero =>
    intro k x hx
    cases k with
    | zero => exact le_rfl
    | succ k => rw [leb128, if_pos (by simpa using hx)]; exact le_rfl
  | succ j ih =>
    intro k x hx
    cases k with
    | zero => show 1 ≤ _; omega
    | succ k =>
      rw [leb128]
      split
      · rw [List.length_singleton]; omega
      · rw [List.length_cons]
        have := ih k (x / 128) (by rw [pow_succ] at hx; omega)
        omega

private theorem number_len_pos (t : Int) : 1 ≤ (Format.number t).length := leb_len_pos _ _

private theorem number_len_max (t : Int) : (Format.number t).length ≤ 9 := leb_len_max _ _

private theorem zeros_len {z : Nat} (hz : z ≤ 2 ^ 24) : ((zeros z).flatMap Format.number).length ≤ 4 := by
  match z with
  | 0 => decide
  | 1 => decide
  | z + 2 =>
    rw [zeros, List.flatMap_cons, List.flatMap_nil, List.append_nil]
    refine leb_len_le 3 8 _ ?_
    unfold zigzag
    rw [if_neg (by omega)]
    omega

private theorem runs_len : ∀ (cs : List Nat) (z : Nat), z + cs.length ≤ 2 ^ 24 →
    (cs.filter (· ≠ 0)).length ≤ ((runs z cs).flatMap Format.number).length ∧
    ((runs z cs).flatMap Format.number).length ≤ 13 * (cs.filter (· ≠ 0)).length + 4 := by
  intro cs
  induction cs with
  | nil => intro z hz; exact ⟨Nat.zero_le _, by rw [runs]; exact zeros_len hz⟩
  | cons c cs ih =>
    intro z hz
    rw [List.length_cons] at hz
    match c with
    | 0 =>
      rw [runs, List.filter_cons_of_neg (by simp)]
      exact ih (z + 1) (by omega)
    | c + 1 =>
      have h1 := zeros_len (z := z) (by omega)
      have h2 := number_len_pos ((c + 1 : Nat) : Int)
      have h3 := number_len_max ((c + 1 : Nat) : Int)
      have h4 := ih 0 (by omega)
      rw [runs, List.filter_cons_of_pos (by simp), List.flatMap_append, List.flatMap_cons, List.length_append,
        List.length_append, List.length_cons]
      omega

private theorem v2_len (low high sigfig : Nat) (counts : List Nat) :
    (v2 low high sigfig counts).length = 40 + (payload counts).length := by
  unfold v2 bigEndian
  simp only [List.length_append, List.length_map, List.length_reverse, List.length_range]

/-- C113: A serialization takes 40 bytes, one to nine for the count of each class that holds samples, and at most four for the
empty classes before each of them and after the last: the size depends on how many classes hold samples, not on the range of
the histogram. -/
theorem C113_size {h : Hist T} (R : Reachable fp T h) {cs : List Cls} (C : Classes h cs) {junk : Nat → UInt8}
    {bytes : List UInt8} {n : Nat} (e : serialize junk h = .ok (.ok (bytes, n))) :
    40 + (Cls.nonempty cs).length ≤ bytes.length ∧ bytes.length ≤ 44 + 13 * (Cls.nonempty cs).length := by
  have W := R.wf
  have O := C41_serialize_outcome R C junk
  have hser : ∀ c ∈ cs, c.count ≤ 9223372036854775807 := by
    by_contra hc
    push Not at hc
    have := O.1 hc
    rw [e] at this
    cases this
  obtain ⟨r, er⟩ : ∃ m, h.max = .ok m := ⟨_, W.max_eq⟩
  have F := C59_format R C hser er junk
  rw [e] at F
  injection F with F
  injection F with F
  injection F with F _
  have hlen : ((cs.filter fun c => decide (c.lo ≤ r)).map (·.count)).length ≤ 2 ^ 24 := by
    have h1 := List.length_filter_le (fun c : Cls => decide (c.lo ≤ r)) cs
    have h2 : cs.length = h.counts.length := by rw [W.classes_unique C, List.length_map, List.length_range]
    have h3 : h.counts.length < 2 ^ 24 := lt_of_le_of_lt W.len_le_all (Lay.allSlots_lt W.mag17)
    rw [List.length_map]
    omega
  have K := runs_len _ 0 (by rw [Nat.zero_add]; exact hlen)
  have hk : (((cs.filter fun c => decide (c.lo ≤ r)).map (·.count)).filter (· ≠ 0)).length = (Cls.nonempty cs).length := by
    unfold Cls.nonempty
    rw [List.length_map, List.filter_map, List.length_map, List.filter_filter]
    congr 1
    apply List.filter_congr
    intro c hc
    by_cases h0 : c.count = 0
    · simp [h0]
    · obtain ⟨m, em, hm⟩ := O.2.2 c hc h0
      rw [er] at em
      cases em
      simp [h0, hm]
  rw [hk] at K
  rw [F, v2_len]
  unfold payload
  omega

/-- C113: In terms of the samples: if they are given as `l`, pairs of a value and how often it occurs, at most 44 bytes and 13 for
each pair. -/
theorem C113_samples {h : Hist T} (R : Reachable fp T h) {l : List (Nat × Nat)} (H : Contains h l) {junk : Nat → UInt8}
    {bytes : List UInt8} {n : Nat} (e : serialize junk h = .ok (.ok (bytes, n))) : bytes.length ≤ 44 + 13 * l.length := by
  have W := R.wf
  have S := (C113_size R W.classes e).2
  suffices hk : (Cls.nonempty ((List.range h.counts.length).map h.lcls)).length ≤ l.length by omega
  unfold Cls.nonempty
  rw [List.length_map, List.filter_map, List.length_map]
  have hsub : (List.range h.counts.length).filter ((fun c : Cls => decide (c.count ≠ 0)) ∘ h.lcls) ⊆
      l.map fun p => h.lidx p.1 := by
    intro i hi
    rw [List.mem_filter, List.mem_range] at hi
    obtain ⟨hi, h0⟩ := hi
    have h0 : h.counts.getD i 0 ≠ 0 := of_decide_eq_true h0
    rw [H.slot W hi, hits_eq_number] at h0
    rw [List.mem_map]
    by_contra hc
    apply h0
    have : number l (fun v => h.lidx v = i) ≤ number l (fun _ => False) :=
      number_le fun p hp hq => hc ⟨p, hp, hq⟩
    have z : number l (fun _ => False) = 0 := by simp [number]
    omega
  have := (List.subperm_of_subset (List.nodup_range.filter _) hsub).length_le
  rwa [List.length_map] at this

/-- three classes that hold samples: between 43 and 83 bytes, in fact 45 -/
example : ∃ bytes n, serialize (fun _ => 0) demo3 = .ok (.ok (bytes, n)) ∧ bytes.length = 45 ∧
    bytes.length ≤ 44 + 13 * [(5, 3), (9, 200), (0, 1)].length := by
  have h : (match serialize (fun _ => 0) demo3 with
    | .ok (.ok (bytes, _)) => decide (bytes.length = 45)
    | _ => false) = true := by decide +kernel
  split at h
  · rename_i bytes n e
    exact ⟨bytes, n, e, of_decide_eq_true h, C113_samples demo3_reachable demo3_holds e⟩
  · cases h

end Hdr
