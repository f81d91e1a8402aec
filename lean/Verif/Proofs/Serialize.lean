import Verif.Model.V2
import Verif.Proofs.Varint
import Verif.Spec.Format
import Verif.Proofs.Subtract

/-!
# The serializer, evaluated
-/

namespace Hdr.V2

variable {T : CounterTy} {fp : Fp}

/-- the counts a written number stands for -/
def expand (t : Int) : List Nat := if t < 0 then List.replicate (-t).toNat 0 else [t.toNat]

/-- the bytes of a list of written numbers -/
def enc (ts : List Int) : List UInt8 := ts.flatMap fun t => leb 8 (zigZagEncode t)

theorem enc_cons (t : Int) (ts : List Int) : enc (t :: ts) = leb 8 (zigZagEncode t) ++ enc ts := rfl

theorem enc_length (ts : List Int) : (enc ts).length ≤ 9 * ts.length := by
  induction ts with
  | nil => simp [enc]
  | cons t ts ih =>
    rw [enc_cons, List.length_append, List.length_cons]
    have := (leb_length 8 (zigZagEncode t)).2
    omega

theorem getUnchecked_eq (h : Hist T) {i : Nat} (hi : i < h.counts.length) :
    getUnchecked h i = .ok (h.counts.getD i 0) := by
  unfold getUnchecked
  rw [getElem?_getD_lt hi]

theorem zeroRun_spec (h : Hist T) {limit : Nat} (hl : limit < h.counts.length) (fuel : Nat) :
    ∀ (index zc : Nat), index ≤ limit + 1 → limit + 1 - index < fuel →
    ∃ k, zeroRun h limit fuel index zc = .ok (index + k, zc + k) ∧ index + k ≤ limit + 1
      ∧ (∀ j, j < k → h.counts.getD (index + j) 0 = 0)
      ∧ (index + k ≤ limit → h.counts.getD (index + k) 0 ≠ 0) := by
  induction fuel with
  | zero => intro i z _ h; omega
  | succ fuel ih =>
    intro index zc h1 h2
    unfold zeroRun
    by_cases hi : index ≤ limit
    · rw [if_pos hi, getUnchecked_eq h (by omega), M.ok_bind]
      by_cases hc : h.counts.getD index 0 = 0
      · rw [if_pos hc]
        obtain ⟨k, e, hk, hz, hn⟩ := ih (index + 1) (zc + 1) (by omega) (by omega)
        refine ⟨k + 1, ?_, by omega, ?_, by rwa [show index + (k + 1) = index + 1 + k by omega]⟩
        · rw [e]; congr 2 <;> omega
        · intro j hj
          rcases j with _ | j
          · exact hc
          · have := hz j (by omega)
            rwa [show index + (j + 1) = index + 1 + j by omega]
      · rw [if_neg hc]
        exact ⟨0, rfl, by omega, by intro j hj; omega, fun _ => hc⟩
    · rw [if_neg hi]
      exact ⟨0, rfl, by omega, by intro j hj; omega, fun h => absurd h hi⟩

theorem slice_eq_replicate {l : List Nat} {i k : Nat} (hk : i + k ≤ l.length)
    (hz : ∀ j, j < k → l.getD (i + j) 0 = 0) : (l.drop i).take k = List.replicate k 0 := by
  apply List.ext_getElem
  · simp; omega
  · intro n h1 h2
    simp at h1
    have := hz n h1.1
    rw [List.getD_eq_getElem?_getD, List.getElem?_eq_getElem (by omega)] at this
    simpa using this

theorem slice_one {l : List Nat} {i : Nat} (hi : i < l.length) : (l.drop i).take 1 = [l.getD i 0] := by
  rw [List.drop_eq_getElem_cons hi, List.getD_eq_getElem?_getD, List.getElem?_eq_getElem hi]
  rfl

/-- numbers an `i64` holds, except its minimum -/
def Tok (t : Int) : Prop := -9223372036854775808 < t ∧ t ≤ 9223372036854775807

theorem encodeStep_spec (h : Hist T) {limit index : Nat} (hl : limit < h.counts.length)
    (hlen : h.counts.length < 2 ^ 24) (hi : index ≤ limit) :
    ∃ index' r, encodeStep h limit index = .ok (index', r) ∧ index < index' ∧ index' ≤ limit + 1 ∧
      match r with
      | .ok t => expand t = (h.counts.drop index).take (index' - index) ∧ Tok t
          ∧ (h.counts.getD index 0 ≤ 9223372036854775807)
          ∧ (∀ j, index ≤ j → j < index' → h.counts.getD j 0 ≤ 9223372036854775807)
          ∧ ((0 < t ∧ index' = index + 1) ∨ ([t] = Format.zeros (index' - index) ∧
              (index' ≤ limit → h.counts.getD index' 0 ≠ 0)))
      | .error e => e = .CountNotSerializable ∧ 9223372036854775807 < h.counts.getD index 0 := by
  norm_num at hlen
  unfold encodeStep
  rw [getUnchecked_eq h (by omega), M.ok_bind]
  by_cases hc : h.counts.getD index 0 = 0
  · rw [if_pos hc]
    obtain ⟨k, e, hk, hz, hn⟩ := zeroRun_spec h hl (h.counts.length + 2) (index + 1) 1 (by omega) (by omega)
    rw [e, M.ok_bind]
    simp only
    have hall : ∀ j, j < k + 1 → h.counts.getD (index + j) 0 = 0 := by
      intro j hj
      rcases j with _ | j
      · exact hc
      · have := hz j (by omega)
        rwa [show index + (j + 1) = index + 1 + j by omega]
    by_cases h1 : 1 < 1 + k
    · rw [if_pos h1]
      refine ⟨_, _, rfl, by omega, by omega, ?_⟩
      simp only
      refine ⟨?_, by unfold Tok; omega, by omega, ?_, .inr ⟨?_, hn⟩⟩
      · unfold expand
        rw [if_pos (by omega), slice_eq_replicate (k := index + 1 + k - index) (by omega) (fun j hj => hall j (by omega))]
        congr 1; omega
      · intro j h1 h2
        have := hall (j - index) (by omega)
        rw [show index + (j - index) = j by omega] at this
        omega
      · obtain ⟨k, rfl⟩ : ∃ k', k = k' + 1 := ⟨k - 1, by omega⟩
        rw [show index + 1 + (k + 1) - index = k + 2 by omega, show 1 + (k + 1) = k + 2 by omega]
        rfl
    · rw [if_neg h1, hc]
      refine ⟨_, _, rfl, by omega, by omega, ?_⟩
      simp only [toI64]
      refine ⟨?_, by unfold Tok; simp, by simp, ?_, .inr ⟨?_, hn⟩⟩
      · rw [show index + 1 + k - index = 1 by omega, slice_one (by omega), hc]
        rfl
      · intro j h1 h2
        rw [show j = index by omega, hc]; simp
      · rw [show index + 1 + k - index = 1 by omega]
        rfl
  · rw [if_neg hc]
    refine ⟨_, _, rfl, by omega, by omega, ?_⟩
    unfold toI64
    by_cases hm : h.counts.getD index 0 ≤ 9223372036854775807
    · simp only [if_pos hm]
      refine ⟨?_, ?_, hm, ?_, .inl ⟨by omega, trivial⟩⟩
      · rw [show index + 1 - index = 1 by omega, slice_one (by omega)]
        unfold expand
        rw [if_neg (by omega)]
        simp
      · unfold Tok; omega
      · intro j h1 h2; rw [show j = index by omega]; exact hm
    · simp only [if_neg hm]
      exact ⟨trivial, by omega⟩

theorem encodeLoop_succ (h : Hist T) (limit fuel index : Nat) (buf : List UInt8) (written : Nat) :
    encodeLoop h limit (fuel + 1) index buf written =
      if index ≤ limit then
        encodeStep h limit index >>= fun p => match p with
          | (_, .error e) => pure (.error e)
          | (index, .ok n) => varintWriteAt (zigZagEncode n) buf written >>= fun q =>
              addU64 written q.2 >>= fun w => encodeLoop h limit fuel index q.1 w
      else pure (.ok (buf, written)) := by
  rfl

theorem varintWriteAt_eq (zz : Nat) (buf : List UInt8) (w : Nat) (hw : w + 9 ≤ buf.length) :
    varintWriteAt zz buf w =
      .ok (buf.take w ++ leb 8 zz ++ buf.drop (w + (leb 8 zz).length), (leb 8 zz).length) := by
  unfold varintWriteAt
  rw [if_pos (by omega), varintWrite_eq _ _ (by simp; omega), M.ok_bind]
  simp [List.drop_drop]

theorem splice_take (buf p : List UInt8) (w : Nat) (hw : w ≤ buf.length) :
    (buf.take w ++ p ++ buf.drop (w + p.length)).take (w + p.length) = buf.take w ++ p := by
  rw [List.take_append_of_le_length (by simp; omega), List.take_of_length_le (by simp)]

theorem splice_drop (buf p : List UInt8) (w k : Nat) (hw : w ≤ buf.length) :
    (buf.take w ++ p ++ buf.drop (w + p.length)).drop (w + p.length + k) = buf.drop (w + p.length + k) := by
  rw [List.drop_append, List.drop_of_length_le (by simp; omega), List.nil_append, List.drop_drop]
  congr 1
  simp; omega

theorem runs_pos {t : Int} (ht : 0 < t) (cs : List Nat) : Format.runs 0 (expand t ++ cs) = t :: Format.runs 0 cs := by
  unfold expand
  rw [if_neg (by omega)]
  obtain ⟨n, rfl⟩ : ∃ n : Nat, t = (n + 1 : Nat) := ⟨(t - 1).toNat, by omega⟩
  rfl

theorem runs_replicate (k : Nat) : ∀ (z : Nat) (cs : List Nat), Format.runs z (List.replicate k 0 ++ cs) = Format.runs (z + k) cs := by
  induction k with
  | zero => intro z cs; rfl
  | succ k ih =>
    intro z cs
    show Format.runs (z + 1) (List.replicate k 0 ++ cs) = _
    rw [ih]
    congr 1; omega

theorem runs_zeros {k : Nat} {cs : List Nat} (h : ∀ c r, cs = c :: r → c ≠ 0) :
    Format.runs 0 (List.replicate k 0 ++ cs) = Format.zeros k ++ Format.runs 0 cs := by
  rw [runs_replicate, Nat.zero_add]
  cases cs with
  | nil => simp [Format.runs, Format.zeros]
  | cons c r =>
    cases c with
    | zero => exact absurd rfl (h 0 r rfl)
    | succ c => rfl

theorem expand_zeros {t : Int} {k : Nat} (h : [t] = Format.zeros (k + 1)) : expand t = List.replicate (k + 1) 0 := by
  cases k with
  | zero =>
    simp only [Format.zeros, List.cons.injEq, and_true] at h
    rw [h]; rfl
  | succ k =>
    simp only [Format.zeros, List.cons.injEq, and_true] at h
    rw [h]
    unfold expand
    rw [if_pos (by omega)]
    congr 1

theorem encodeLoop_spec (h : Hist T) {limit : Nat} (hl : limit < h.counts.length)
    (hlen : h.counts.length < 2 ^ 24) (n : Nat) :
    ∀ index, index ≤ limit + 1 → limit + 1 - index ≤ n →
    ∃ r : Option (List Int),
      (match r with
       | none => ∃ j, index ≤ j ∧ j ≤ limit ∧ 9223372036854775807 < h.counts.getD j 0
       | some ts => ts.flatMap expand = (h.counts.drop index).take (limit + 1 - index) ∧ (∀ t ∈ ts, Tok t)
           ∧ ts.length ≤ limit + 1 - index
           ∧ (∀ j, index ≤ j → j ≤ limit → h.counts.getD j 0 ≤ 9223372036854775807)
           ∧ ts = Format.runs 0 ((h.counts.drop index).take (limit + 1 - index))) ∧
      ∀ (fuel : Nat) (buf : List UInt8) (w : Nat), limit + 1 - index < fuel →
        w + 9 * (limit + 1 - index) ≤ buf.length → w + 9 * (limit + 1 - index) ≤ U64MAX →
        encodeLoop h limit fuel index buf w =
          .ok (match r with
            | none => .error .CountNotSerializable
            | some ts => .ok (buf.take w ++ enc ts ++ buf.drop (w + (enc ts).length), w + (enc ts).length)) := by
  induction n with
  | zero =>
    intro index h1 h2
    refine ⟨some [], ⟨by simp; omega, by simp, by simp, by intro j; omega,
      by rw [show limit + 1 - index = 0 by omega]; rfl⟩, ?_⟩
    intro fuel buf w hf _ _
    obtain ⟨f, rfl⟩ : ∃ f, fuel = f + 1 := ⟨fuel - 1, by omega⟩
    rw [encodeLoop_succ, if_neg (by omega)]
    simp [enc]
  | succ n ih =>
    intro index h1 h2
    by_cases hi : index ≤ limit
    swap
    · refine ⟨some [], ⟨by simp; omega, by simp, by simp, by intro j; omega,
      by rw [show limit + 1 - index = 0 by omega]; rfl⟩, ?_⟩
      intro fuel buf w hf _ _
      obtain ⟨f, rfl⟩ : ∃ f, fuel = f + 1 := ⟨fuel - 1, by omega⟩
      rw [encodeLoop_succ, if_neg (by omega)]
      simp [enc]
    obtain ⟨index', r, es, hi1, hi2, hr⟩ := encodeStep_spec h hl hlen hi
    rcases r with e | t
    · obtain ⟨rfl, hbig⟩ := hr
      refine ⟨none, ⟨index, le_rfl, hi, hbig⟩, ?_⟩
      intro fuel buf w hf _ _
      obtain ⟨f, rfl⟩ : ∃ f, fuel = f + 1 := ⟨fuel - 1, by omega⟩
      rw [encodeLoop_succ, if_pos hi, es, M.ok_bind]
      rfl
    · simp only at hr
      obtain ⟨hx, htok, -, hsm, hrun⟩ := hr
      obtain ⟨r', hr', hloop⟩ := ih index' (by omega) (by omega)
      have hstep : ∀ (f : Nat) (buf : List UInt8) (w : Nat),
          w + 9 * (limit + 1 - index) ≤ buf.length → w + 9 * (limit + 1 - index) ≤ U64MAX →
          encodeLoop h limit (f + 1) index buf w =
            encodeLoop h limit f index' (buf.take w ++ leb 8 (zigZagEncode t) ++ buf.drop (w + (leb 8 (zigZagEncode t)).length))
              (w + (leb 8 (zigZagEncode t)).length) := by
        intro f buf w hb hu
        have hlb := (leb_length 8 (zigZagEncode t)).2
        rw [encodeLoop_succ, if_pos hi, es, M.ok_bind]
        simp only
        rw [varintWriteAt_eq _ _ _ (by omega), M.ok_bind]
        simp only
        rw [addU64_ok (by omega), M.ok_bind]
      rcases r' with _ | ts
      · refine ⟨none, ?_, ?_⟩
        · obtain ⟨j, a, b, c⟩ := hr'
          exact ⟨j, by omega, b, c⟩
        · intro fuel buf w hf hb hu
          obtain ⟨f, rfl⟩ : ∃ f, fuel = f + 1 := ⟨fuel - 1, by omega⟩
          have hlb := leb_length 8 (zigZagEncode t)
          rw [hstep f buf w hb hu, hloop f _ _ (by omega) (by simp; omega) (by omega)]
      · refine ⟨some (t :: ts), ?_, ?_⟩
        · obtain ⟨a, b, c, d, f⟩ := hr'
          refine ⟨?_, ?_, by simp; omega, ?_, ?_⟩
          · rw [List.flatMap_cons, hx, a]
            have : h.counts.drop index' = (h.counts.drop index).drop (index' - index) := by
              rw [List.drop_drop]; congr 1; omega
            rw [this, ← List.take_add]
            congr 1; omega
          · intro x hxm
            rcases List.mem_cons.mp hxm with rfl | hxm
            · exact htok
            · exact b x hxm
          · intro j hj1 hj2
            by_cases hj : j < index'
            · exact hsm j hj1 hj
            · exact d j (by omega) hj2
          · have hsplit : (h.counts.drop index).take (limit + 1 - index)
                = expand t ++ (h.counts.drop index').take (limit + 1 - index') := by
              have : h.counts.drop index' = (h.counts.drop index).drop (index' - index) := by
                rw [List.drop_drop]; congr 1; omega
              rw [hx, this, ← List.take_add]
              congr 1; omega
            rw [hsplit, f]
            rcases hrun with ⟨ht, -⟩ | ⟨hzr, hnz⟩
            · rw [runs_pos ht]
            · obtain ⟨k, hk⟩ : ∃ k, index' - index = k + 1 := ⟨index' - index - 1, by omega⟩
              rw [hk] at hzr
              rw [expand_zeros hzr, runs_zeros, ← hzr]
              · rfl
              · intro c cs e
                by_cases hlim : index' ≤ limit
                · have h0 := hnz hlim
                  rw [List.drop_eq_getElem_cons (by omega), show limit + 1 - index' = (limit - index') + 1 by omega,
                    List.take_succ_cons] at e
                  injection e with e1 e2
                  rw [List.getD_eq_getElem?_getD, List.getElem?_eq_getElem (by omega)] at h0
                  rw [← e1]; exact h0
                · rw [show limit + 1 - index' = 0 by omega] at e
                  cases e
        · intro fuel buf w hf hb hu
          obtain ⟨f, rfl⟩ : ∃ f, fuel = f + 1 := ⟨fuel - 1, by omega⟩
          have hlb := leb_length 8 (zigZagEncode t)
          rw [hstep f buf w hb hu, hloop f _ _ (by omega) (by simp; omega) (by omega)]
          simp only [enc_cons]
          generalize leb 8 (zigZagEncode t) = p at *
          generalize enc ts = q
          rw [splice_take _ _ _ (by omega), splice_drop _ _ _ _ (by omega)]
          simp only [List.length_append, List.append_assoc, Nat.add_assoc]

theorem beBytes_length (k x : Nat) : (beBytes k x).length = k := by
  induction k with
  | zero => rfl
  | succ k ih => simp [beBytes, ih]

/-- the bytes of a serialized histogram whose counts are written as the numbers `ts` -/
def wire (h : Hist T) (ts : List Int) : List UInt8 :=
  be32 COOKIE ++ be32 (enc ts).length ++ be32 0 ++ be32 h.sigDigits ++ be64 h.lowestDiscernible
    ++ be64 h.highestTrackable ++ be64 ONE_BITS ++ enc ts

theorem wire_length (h : Hist T) (ts : List Int) : (wire h ts).length = 40 + (enc ts).length := by
  unfold wire
  simp only [List.length_append, be32, be64, beBytes_length]

theorem header_length (h : Hist T) : (header h).length = 40 := by
  unfold header
  simp only [List.length_append, be32, be64, beBytes_length]

theorem header_patch (h : Hist T) (n : Nat) :
    (header h).take 4 ++ be32 n ++ (header h).drop 8 =
      be32 COOKIE ++ be32 n ++ be32 0 ++ be32 h.sigDigits ++ be64 h.lowestDiscernible
        ++ be64 h.highestTrackable ++ be64 ONE_BITS := by
  unfold header
  have e1 : ∀ (a b : List UInt8), a.length = 4 → (a ++ b).take 4 = a := fun a b ha => by
    rw [← ha]; exact List.take_left' rfl
  have e2 : ∀ (a b c : List UInt8), a.length = 4 → b.length = 4 → (a ++ (b ++ c)).drop 8 = c :=
    fun a b c ha hb => by
      rw [← List.append_assoc]; exact List.drop_left' (by simp [ha, hb])
  simp only [List.append_assoc]
  rw [e1 _ _ (by simp [be32, beBytes_length]), e2 _ _ _ (by simp [be32, beBytes_length]) (by simp [be32, beBytes_length])]

/-- Evaluation of `serialize` on a valid histogram. -/
theorem serialize_spec {h : Hist T} (W : WF fp h) :
    ∃ r : Option (List Int),
      (match r with
       | none => ∃ j, j ≤ h.lidx h.maxValue ∧ 9223372036854775807 < h.counts.getD j 0
       | some ts => ts.flatMap expand = h.counts.take (h.lidx h.maxValue + 1) ∧ (∀ t ∈ ts, Tok t)
           ∧ ts.length ≤ h.lidx h.maxValue + 1
           ∧ (∀ j, j ≤ h.lidx h.maxValue → h.counts.getD j 0 ≤ 9223372036854775807)
           ∧ ts = Format.runs 0 (h.counts.take (h.lidx h.maxValue + 1))) ∧
      ∀ junk, serialize junk h = .ok (match r with
        | none => .error .CountNotSerializable
        | some ts => .ok (wire h ts, (wire h ts).length)) := by
  have hall : h.counts.length < 2 ^ 24 :=
    lt_of_le_of_lt W.len_le_all (Lay.allSlots_lt W.mag17)
  have hcov := W.maxcov
  obtain ⟨r, hr, hloop⟩ := encodeLoop_spec h hcov hall (h.lidx h.maxValue + 1) 0 (by omega) (by omega)
  refine ⟨r, ?_, ?_⟩
  · rcases r with _ | ts
    · obtain ⟨j, -, a, b⟩ := hr; exact ⟨j, a, b⟩
    · obtain ⟨a, b, c, d, f⟩ := hr
      exact ⟨by simpa using a, b, by simpa using c, fun j hj => d j (by omega) hj, by simpa using f⟩
  · intro junk
    generalize hlim : h.lidx h.maxValue = limit at *
    norm_num at hall
    have hU : U64MAX = 18446744073709551615 := rfl
    have hidx : h.indexFor h.lmax = .ok (some limit) := by
      rw [indexFor_eq W.toLayoutOK lmax_le, W.lidx_lmax, hlim]
    have hmx : maxEncodedSize h = .ok (some ((limit + 1) * 9 + 40)) := by
      unfold maxEncodedSize
      rw [W.max_eq, M.ok_bind, hidx, M.ok_bind]
      simp only
      rw [addU64_ok (by omega), M.ok_bind, if_pos (by omega), if_pos (by unfold HEADER_SIZE; omega)]
      rfl
    unfold serialize
    rw [hmx, M.ok_bind]
    simp only [header_length, HEADER_SIZE]
    rw [assertM_true (by simp), M.ok_bind]
    unfold encodeCounts
    rw [W.max_eq, M.ok_bind, hidx, M.ok_bind]
    simp only [expectM, M.ok_bind]
    rw [assertM_true (by simp; omega), M.ok_bind,
      hloop _ _ _ (by omega) (by simp; omega) (by omega), M.ok_bind]
    rcases r with _ | ts
    · rfl
    · simp only
      have hlen : (enc ts).length ≤ 9 * (limit + 1) := by
        have := enc_length ts
        have := hr.2.2.1
        omega
      have hmod : (0 + (enc ts).length) % 2 ^ 32 = (enc ts).length := by
        rw [Nat.zero_add]; apply Nat.mod_eq_of_lt; norm_num; omega
      rw [addU64_ok (by omega), M.ok_bind, hmod, header_patch]
      have hw := wire_length h ts
      rw [if_pos (by
        simp only [List.length_append, be32, be64, beBytes_length, List.take_zero, List.length_nil]; omega)]
      rw [M.pure_eq]
      congr 3
      · rw [List.take_zero, List.nil_append, ← List.append_assoc]
        rw [show _ ++ enc ts = wire h ts from rfl]
        exact List.take_left' (by rw [hw, Nat.zero_add])
      · rw [hw]; omega

end Hdr.V2
