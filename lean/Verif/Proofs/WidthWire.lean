import Verif.Proofs.Width
import Verif.Props.Decode

/-!
# Lemmas for targets with a narrower `usize`: serialization
-/

namespace Hdr.V2

variable {fp : Fp} {T : CounterTy} {t : Target}

theorem usizeMax_le (t : Target) : t.usizeMax ≤ U64MAX := by
  have h := Nat.pow_le_pow_right (n := 2) (by norm_num) t.bits_le
  unfold Target.usizeMax
  norm_num at h ⊢
  have hU : U64MAX = 18446744073709551615 := rfl
  omega

/-! ### serializer -/

theorem setB_ok {buf b' : List UInt8} {i : Nat} {b : UInt8} (e : setB buf i b = .ok b') :
    i < buf.length ∧ b'.length = buf.length := by
  unfold setB at e
  split at e
  · cases e; exact ⟨by assumption, by simp⟩
  · cases e

/-- the last byte of a number -/
theorem setB_last {buf b' : List UInt8} {i k l : Nat} {b : UInt8}
    (e : (do let buf ← setB buf i b; pure (buf, k) : M (List UInt8 × Nat)) = .ok (b', l)) :
    i < buf.length ∧ b'.length = buf.length ∧ l = k := by
  rw [M.bind_eq_ok] at e
  obtain ⟨c, e1, e⟩ := e
  cases e
  exact ⟨(setB_ok e1).1, (setB_ok e1).2, rfl⟩

theorem varintWrite_ok {zz k : Nat} {buf b' : List UInt8} (e : varintWrite zz buf = .ok (b', k)) :
    k ≤ buf.length ∧ b'.length = buf.length := by
  unfold varintWrite at e
  split at e
  · obtain ⟨a, b, c⟩ := setB_last e; omega
  rw [M.bind_eq_ok] at e; obtain ⟨b1, e1, e⟩ := e; have h1 := setB_ok e1
  split at e
  · obtain ⟨a, b, c⟩ := setB_last e; omega
  rw [M.bind_eq_ok] at e; obtain ⟨b2, e2, e⟩ := e; have h2 := setB_ok e2
  split at e
  · obtain ⟨a, b, c⟩ := setB_last e; omega
  rw [M.bind_eq_ok] at e; obtain ⟨b3, e3, e⟩ := e; have h3 := setB_ok e3
  split at e
  · obtain ⟨a, b, c⟩ := setB_last e; omega
  rw [M.bind_eq_ok] at e; obtain ⟨b4, e4, e⟩ := e; have h4 := setB_ok e4
  split at e
  · obtain ⟨a, b, c⟩ := setB_last e; omega
  rw [M.bind_eq_ok] at e; obtain ⟨b5, e5, e⟩ := e; have h5 := setB_ok e5
  split at e
  · obtain ⟨a, b, c⟩ := setB_last e; omega
  rw [M.bind_eq_ok] at e; obtain ⟨b6, e6, e⟩ := e; have h6 := setB_ok e6
  split at e
  · obtain ⟨a, b, c⟩ := setB_last e; omega
  rw [M.bind_eq_ok] at e; obtain ⟨b7, e7, e⟩ := e; have h7 := setB_ok e7
  split at e
  · obtain ⟨a, b, c⟩ := setB_last e; omega
  rw [M.bind_eq_ok] at e; obtain ⟨b8, e8, e⟩ := e; have h8 := setB_ok e8
  obtain ⟨a, b, c⟩ := setB_last e; omega

theorem varintWriteAt_ok {zz w k : Nat} {buf b' : List UInt8} (e : varintWriteAt zz buf w = .ok (b', k)) :
    w + k ≤ buf.length ∧ b'.length = buf.length := by
  unfold varintWriteAt at e
  split at e
  · rename_i hw
    rw [M.bind_eq_ok] at e
    obtain ⟨⟨c, n⟩, e1, e⟩ := e
    cases e
    obtain ⟨h1, h2⟩ := varintWrite_ok e1
    rw [List.length_drop] at h1 h2
    rw [List.length_append, List.length_take, h2]
    omega
  · cases e

theorem encodeLoopOn_eq (h : Hist T) (limit fuel : Nat) : ∀ (index : Nat) (buf : List UInt8) (w : Nat),
    buf.length ≤ t.usizeMax → buf.length ≤ U64MAX →
    encodeLoopOn t h limit fuel index buf w = encodeLoop h limit fuel index buf w := by
  induction fuel with
  | zero => intros; rfl
  | succ fuel ih =>
    intro index buf w hb hb64
    unfold encodeLoopOn encodeLoop
    split
    swap
    · rfl
    cases encodeStep h limit index with
    | error e => rfl
    | ok p =>
      obtain ⟨i, q⟩ := p
      cases q with
      | error e => rfl
      | ok n =>
        simp only [M.ok_bind]
        cases e : varintWriteAt (zigZagEncode n) buf w with
        | error e => rfl
        | ok q =>
          obtain ⟨b, k⟩ := q
          obtain ⟨h1, h2⟩ := varintWriteAt_ok e
          simp only [M.ok_bind]
          rw [addU64_ok (by omega), show t.add w k = .ok (w + k) from if_pos (by omega)]
          simp only [M.ok_bind]
          exact ih _ _ _ (by omega) (by omega)

/-- `serialize` on a target -/
theorem serializeOn_eq {h : Hist T} (W : WF fp h) (hl : h.counts.length ≤ t.usizeMax) (junk : Nat → UInt8) :
    serializeOn t junk h =
      if t.usizeMax < 9 * (h.lidx h.maxValue + 1) + 40 then .ok (.error .UsizeTypeTooSmall)
      else if t.allocates 1 (9 * (h.lidx h.maxValue + 1) + 40) then serialize junk h
      else .error .capacity := by
  have hall : h.counts.length < 2 ^ 24 := lt_of_le_of_lt W.len_le_all (Lay.allSlots_lt W.mag17)
  have hcov := W.maxcov
  obtain ⟨r, hr, hser⟩ := serialize_spec W
  have hs := hser junk
  generalize hlim : h.lidx h.maxValue = limit at *
  norm_num at hall
  have hU : U64MAX = 18446744073709551615 := rfl
  have hidx : h.indexFor h.lmax = .ok (some limit) := by
    rw [indexFor_eq W.toLayoutOK lmax_le, W.lidx_lmax, hlim]
  have hon : h.indexForOn t h.lmax = .ok (some limit) := by
    unfold Hist.indexForOn
    rw [hidx, M.ok_bind]
    simp only
    rw [Target.toUsize_some (by omega)]; rfl
  have hmx : maxEncodedSizeOn t h =
      .ok (if t.usizeMax < 9 * (limit + 1) + 40 then none else some (9 * (limit + 1) + 40)) := by
    unfold maxEncodedSizeOn
    rw [W.max_eq, M.ok_bind, hon, M.ok_bind]
    simp only
    rw [show t.add limit 1 = .ok (limit + 1) from if_pos (by omega), M.ok_bind, Nat.mul_comm (limit + 1) 9]
    by_cases h1 : t.usizeMax < 9 * (limit + 1)
    · rw [Target.toUsize_none h1, if_pos (by omega)]; rfl
    · rw [Target.toUsize_some (by omega)]
      simp only [HEADER_SIZE]
      by_cases h2 : t.usizeMax < 9 * (limit + 1) + 40
      · rw [Target.toUsize_none h2, if_pos h2]; rfl
      · rw [Target.toUsize_some (by omega), if_neg h2]; rfl
  have hmx64 : maxEncodedSize h = .ok (some (9 * (limit + 1) + 40)) := by
    unfold maxEncodedSize
    rw [W.max_eq, M.ok_bind, hidx, M.ok_bind]
    simp only
    rw [addU64_ok (by omega), M.ok_bind, if_pos (by omega), if_pos (by unfold HEADER_SIZE; omega), Nat.mul_comm]
    rfl
  unfold serializeOn
  rw [hmx, M.ok_bind]
  by_cases hu : t.usizeMax < 9 * (limit + 1) + 40
  · rw [if_pos hu, if_pos hu]; rfl
  rw [if_neg hu, if_neg hu]
  simp only
  rw [Target.grow_more _ _ _ _ (by omega)]
  by_cases hal : t.allocates 1 (9 * (limit + 1) + 40) = true
  swap
  · rw [if_neg hal, if_neg hal]; rfl
  rw [if_pos hal, if_pos hal, M.ok_bind]
  unfold serialize at hs ⊢
  rw [hmx64, M.ok_bind] at hs ⊢
  simp only [header_length, HEADER_SIZE] at hs ⊢
  rw [assertM_true (by simp), M.ok_bind] at hs ⊢
  rw [M.ok_bind]
  have henc : ∀ buf : List UInt8, buf.length = 9 * (limit + 1) → encodeCountsOn t h buf = encodeCounts h buf := by
    intro buf hb
    unfold encodeCountsOn encodeCounts
    have hloop := encodeLoopOn_eq (t := t) h limit (h.counts.length + 2) 0 buf 0 (by omega) (by omega)
    rw [W.max_eq, M.ok_bind, M.ok_bind, hidx, hon, M.ok_bind, M.ok_bind]
    simp only [expectM, M.ok_bind, hloop]
  rw [henc _ (by simp)]
  cases hc : encodeCounts h (List.map junk (List.range (9 * (limit + 1) + 40 - 40))) with
  | error e => rfl
  | ok q =>
    cases q with
    | error e => rfl
    | ok p =>
      obtain ⟨tail, n⟩ := p
      rw [hc] at hs
      simp only [M.ok_bind] at hs ⊢
      -- the 64-bit run gives the number of bytes
      have hn : n ≤ 9 * (limit + 1) := by
        rcases r with _ | ts
        · exfalso
          simp only at hs
          rw [M.bind_eq_ok] at hs
          obtain ⟨a, e1, e2⟩ := hs
          split at e2 <;> cases e2
        · simp only at hs
          rw [M.bind_eq_ok] at hs
          obtain ⟨a, e1, e2⟩ := hs
          split at e2
          · simp only [M.pure_eq, Except.ok.injEq, Prod.mk.injEq] at e2
            have h1 := e2.2
            have := wire_length h ts
            have := enc_length ts
            have := hr.2.2.1
            unfold addU64 at e1
            split at e1
            · cases e1; omega
            · cases e1
          · cases e2
      rw [addU64_ok (by omega), show t.add 40 n = .ok (40 + n) from if_pos (by omega)]

/-! ### deserializer -/

/-- the target does the same or refuses -/
def Same {α : Type} (on64 onT : M (Except DeserializeError α)) : Prop :=
  onT = on64 ∨ onT = .ok (.error .UsizeTypeTooSmall)

theorem advanceOn_eq {s : DecodeState T} {n : Nat} (ht : t.usizeMax ≤ U64MAX) :
    advanceOn t s n = if t.usizeMax < s.destIndex + n then .error .UsizeTypeTooSmall else advance s n := by
  unfold advanceOn advance
  by_cases h : s.destIndex + n ≤ t.usizeMax
  · rw [if_pos h, if_neg (by omega), if_pos (by omega)]
  · rw [if_neg h, if_pos (by omega)]

theorem advance_ok {s s' : DecodeState T} {n : Nat} (e : advance s n = .ok s') : s'.destIndex = s.destIndex + n := by
  unfold advance at e
  split at e
  · cases e; rfl
  · cases e

theorem onCountOn_sim {s : DecodeState T} (n : Int) (ht : t.usizeMax ≤ U64MAX) :
    (onCountOn t s n = onCount s n ∨ onCountOn t s n = .error .UsizeTypeTooSmall) ∧
    ∀ s', onCount s n = .ok s' → s.destIndex ≤ s'.destIndex ∧
      onCountOn t s n = if t.usizeMax < s'.destIndex then .error .UsizeTypeTooSmall else .ok s' := by
  have key : ∀ (u : DecodeState T) (k : Nat), s.destIndex ≤ u.destIndex →
      (advanceOn t u k = advance u k ∨ advanceOn t u k = .error .UsizeTypeTooSmall) ∧
      ∀ s', advance u k = .ok s' → s.destIndex ≤ s'.destIndex ∧
        advanceOn t u k = if t.usizeMax < s'.destIndex then .error .UsizeTypeTooSmall else .ok s' := by
    intro u k hu
    rw [advanceOn_eq ht]
    constructor
    · split
      · right; rfl
      · left; rfl
    · intro s' e
      have := advance_ok e
      rw [this, e]
      exact ⟨by omega, rfl⟩
  unfold onCountOn onCount
  split
  · split
    · cases setCountAtIndex s.h s.destIndex n.toNat with
      | none => exact ⟨.inl rfl, fun _ e => (by cases e)⟩
      | some h => exact key _ _ (le_refl _)
    · exact key _ _ (le_refl _)
  · exact ⟨.inl rfl, fun _ e => (by cases e)⟩

theorem onDecodedNumOn_sim (checks : Bool) (s : DecodeState T) (n : Int) (ht : t.usizeMax ≤ U64MAX) :
    Same (onDecodedNum checks s n) (onDecodedNumOn t checks s n) ∧
    ∀ s', onDecodedNum checks s n = .ok (.ok s') → s.destIndex ≤ s'.destIndex ∧
      onDecodedNumOn t checks s n = if t.usizeMax < s'.destIndex then .ok (.error .UsizeTypeTooSmall) else .ok (.ok s') := by
  unfold Same onDecodedNumOn onDecodedNum
  by_cases hn : n < 0
  · rw [if_pos hn, if_pos hn]
    cases negI64 checks n with
    | error e => exact ⟨.inl rfl, fun _ e => (by cases e)⟩
    | ok z =>
      simp only [M.ok_bind]
      cases hz : Hdr.toUsize z with
      | none => exact ⟨.inl rfl, fun _ e => (by cases e)⟩
      | some k =>
        simp only [Option.bind_some]
        by_cases hk : k ≤ t.usizeMax
        · rw [Target.toUsize_some hk]
          simp only [M.pure_eq, Except.ok.injEq]
          rw [advanceOn_eq ht]
          constructor
          · split
            · right; rfl
            · left; rfl
          · intro s' e
            have := advance_ok e
            rw [this, e]
            refine ⟨by omega, ?_⟩
            split <;> rfl
        · rw [Target.toUsize_none (by omega)]
          refine ⟨.inr rfl, fun s' e => ?_⟩
          simp only [M.pure_eq, Except.ok.injEq] at e
          have := advance_ok e
          exact ⟨by omega, by rw [if_pos (by omega)]; rfl⟩
  · rw [if_neg hn, if_neg hn]
    obtain ⟨h1, h2⟩ := onCountOn_sim (t := t) (s := s) n ht
    refine ⟨?_, fun s' e => ?_⟩
    · rcases h1 with h | h
      · left; rw [h]
      · right; rw [h]; rfl
    · simp only [M.pure_eq, Except.ok.injEq] at e
      obtain ⟨a, b⟩ := h2 s' e
      refine ⟨a, ?_⟩
      rw [b]; split <;> rfl

theorem slowLoopOn_sim (checks : Bool) (ht : t.usizeMax ≤ U64MAX) (fuel : Nat) : ∀ (r : List UInt8) (s : DecodeState T),
    Same (slowLoop checks fuel r s) (slowLoopOn t checks fuel r s) ∧
    (s.destIndex ≤ t.usizeMax → ∀ s', slowLoop checks fuel r s = .ok (.ok s') → s.destIndex ≤ s'.destIndex ∧
      slowLoopOn t checks fuel r s = if t.usizeMax < s'.destIndex then .ok (.error .UsizeTypeTooSmall) else .ok (.ok s')) ∧
    ∀ s', slowLoop checks fuel r s = .ok (.ok s') → s.destIndex ≤ s'.destIndex := by
  induction fuel with
  | zero => intro r s; exact ⟨.inl rfl, fun _ s' e => (by cases e), fun s' e => (by cases e)⟩
  | succ fuel ih =>
    intro r s
    unfold Same slowLoopOn slowLoop
    by_cases hr : r = []
    · rw [if_pos hr, if_pos hr]
      refine ⟨.inl rfl, fun hs s' e => ?_, fun s' e => ?_⟩
      · cases e; exact ⟨le_rfl, by rw [if_neg (by omega)]; rfl⟩
      · cases e; exact le_rfl
    rw [if_neg hr, if_neg hr]
    cases varintRead r with
    | none => exact ⟨.inl rfl, fun _ s' e => (by cases e), fun s' e => (by cases e)⟩
    | some p =>
      obtain ⟨zz, r'⟩ := p
      simp only
      obtain ⟨h1, h2⟩ := onDecodedNumOn_sim (t := t) checks s (zigZagDecode zz) ht
      cases hd : onDecodedNum checks s (zigZagDecode zz) with
      | error e =>
        refine ⟨?_, fun _ s' e => (by cases e), fun s' e => (by cases e)⟩
        rcases h1 with h | h
        · left; rw [h, hd]; rfl
        · right; rw [h]; rfl
      | ok x =>
        cases x with
        | error e =>
          refine ⟨?_, fun _ s' e => (by cases e), fun s' e => (by cases e)⟩
          rcases h1 with h | h
          · left; rw [h, hd]; rfl
          · right; rw [h]; rfl
        | ok s1 =>
          obtain ⟨a, b⟩ := h2 s1 hd
          obtain ⟨i1, i2, i3⟩ := ih r' s1
          rw [b]
          simp only [M.ok_bind]
          by_cases hu : t.usizeMax < s1.destIndex
          · rw [if_pos hu]
            refine ⟨.inr rfl, fun hs s' e => ?_, fun s' e => ?_⟩
            · have := i3 s' e
              exact ⟨by omega, by rw [if_pos (by omega)]; rfl⟩
            · have := i3 s' e; omega
          · rw [if_neg hu]
            simp only [M.ok_bind]
            refine ⟨i1, fun hs s' e => ?_, fun s' e => ?_⟩
            · obtain ⟨c, d⟩ := i2 (by omega) s' e
              exact ⟨by omega, d⟩
            · have := i3 s' e; omega

theorem fastLoopOn_sim (checks : Bool) (ht : t.usizeMax ≤ U64MAX) (payload : List UInt8) (fuel : Nat) :
    ∀ (i : Nat) (s : DecodeState T),
    Same (fastLoop checks payload fuel i s) (fastLoopOn t checks payload fuel i s) ∧
    (s.destIndex ≤ t.usizeMax → ∀ p, fastLoop checks payload fuel i s = .ok (.ok p) → s.destIndex ≤ p.2.destIndex ∧
      fastLoopOn t checks payload fuel i s =
        if t.usizeMax < p.2.destIndex then .ok (.error .UsizeTypeTooSmall) else .ok (.ok p)) ∧
    ∀ p, fastLoop checks payload fuel i s = .ok (.ok p) → s.destIndex ≤ p.2.destIndex := by
  induction fuel with
  | zero => intro r s; exact ⟨.inl rfl, fun _ s' e => (by cases e), fun s' e => (by cases e)⟩
  | succ fuel ih =>
    intro i s
    unfold Same fastLoopOn fastLoop
    by_cases hr : i < payload.length - 9
    swap
    · rw [if_neg hr, if_neg hr]
      refine ⟨.inl rfl, fun hs s' e => ?_, fun s' e => ?_⟩
      · cases e; exact ⟨le_rfl, by rw [if_neg (by dsimp only; omega)]; rfl⟩
      · cases e; exact le_rfl
    rw [if_pos hr, if_pos hr]
    cases varintReadSlice ((payload.drop i).take 9) with
    | error e => exact ⟨.inl rfl, fun _ s' e => (by cases e), fun s' e => (by cases e)⟩
    | ok p =>
      obtain ⟨zz, n⟩ := p
      simp only [M.ok_bind]
      obtain ⟨h1, h2⟩ := onDecodedNumOn_sim (t := t) checks s (zigZagDecode zz) ht
      cases hd : onDecodedNum checks s (zigZagDecode zz) with
      | error e =>
        refine ⟨?_, fun _ s' e => (by cases e), fun s' e => (by cases e)⟩
        rcases h1 with h | h
        · left; rw [h, hd]; rfl
        · right; rw [h]; rfl
      | ok x =>
        cases x with
        | error e =>
          refine ⟨?_, fun _ s' e => (by cases e), fun s' e => (by cases e)⟩
          rcases h1 with h | h
          · left; rw [h, hd]; rfl
          · right; rw [h]; rfl
        | ok s1 =>
          obtain ⟨a, b⟩ := h2 s1 hd
          obtain ⟨i1, i2, i3⟩ := ih (i + n) s1
          rw [b]
          simp only [M.ok_bind]
          by_cases hu : t.usizeMax < s1.destIndex
          · rw [if_pos hu]
            refine ⟨.inr rfl, fun hs s' e => ?_, fun s' e => ?_⟩
            · have := i3 s' e
              exact ⟨by omega, by rw [if_pos (by omega)]; rfl⟩
            · have := i3 s' e; omega
          · rw [if_neg hu]
            simp only [M.ok_bind]
            refine ⟨i1, fun hs s' e => ?_, fun s' e => ?_⟩
            · obtain ⟨c, d⟩ := i2 (by omega) s' e
              exact ⟨by omega, d⟩
            · have := i3 s' e; omega

theorem decodePayloadOn_sim (checks : Bool) (ht : t.usizeMax ≤ U64MAX) (h : Hist T) (payload : List UInt8) :
    Same (decodePayload checks h payload) (decodePayloadOn t checks h payload) := by
  unfold Same decodePayloadOn decodePayload
  obtain ⟨f1, f2, -⟩ := fastLoopOn_sim checks ht payload (payload.length + 1) 0 (⟨0, Hist.RestatState.new, h⟩ : DecodeState T)
  rcases f1 with f | f
  · rw [f]
    cases fastLoop checks payload (payload.length + 1) 0 (⟨0, Hist.RestatState.new, h⟩ : DecodeState T) with
    | error e => exact .inl rfl
    | ok x =>
      cases x with
      | error e => exact .inl rfl
      | ok p =>
        obtain ⟨i, s⟩ := p
        simp only [M.ok_bind]
        rcases (slowLoopOn_sim (t := t) checks ht (payload.length + 1) (payload.drop i) s).1 with g | g
        · left; rw [g]; rfl
        · right; rw [g]; rfl
  · right; rw [f]; rfl

/-- a payload accepted on a 64-bit target -/
theorem decodePayloadOn_accepted (checks : Bool) (ht : t.usizeMax ≤ U64MAX) {h : Hist T} (W : WF fp h)
    (hz : ∀ i, h.counts.getD i 0 = 0) {payload : List UInt8} {ts : List Int} {h' : Hist T} (N : Format.Numbers payload ts)
    (e : decodePayload checks h payload = .ok (.ok h')) :
    decodePayloadOn t checks h payload =
      if t.usizeMax < (Format.expand ts).length then .ok (.error .UsizeTypeTooSmall) else .ok (.ok h') := by
  have e0 := e
  unfold decodePayload at e
  rw [M.bind_eq_ok] at e
  obtain ⟨x, ef, e⟩ := e
  cases x with
  | error q => cases e
  | ok p =>
  obtain ⟨i, s1⟩ := p
  simp only at e
  rw [M.bind_eq_ok] at e
  obtain ⟨y, es, e⟩ := e
  cases y with
  | error q => cases e
  | ok s2 =>
  simp only at e
  -- the same state from the slow loop alone
  have hfs := fast_slow checks payload payload.length 0 (⟨0, Hist.RestatState.new, h⟩ : DecodeState T)
    (payload.length + 1) (payload.length + 1) (by omega) (by omega) (by omega) (by omega)
  rw [ef, M.ok_bind] at hfs
  simp only at hfs
  rw [es, List.drop_zero, slow_steps checks N _ (by omega)] at hfs
  obtain ⟨-, P, -⟩ := (steps_iff checks ts (dinv_init W hz) (by simp)).2 s2 hfs.symm
  have hd : s2.destIndex = (Format.expand ts).length := by rw [P.dest]; simp
  rw [← hd]
  obtain ⟨-, f2, f3⟩ := fastLoopOn_sim (t := t) checks ht payload (payload.length + 1) 0
    (⟨0, Hist.RestatState.new, h⟩ : DecodeState T)
  obtain ⟨a, b⟩ := f2 (by simp) _ ef
  obtain ⟨-, g2, g3⟩ := slowLoopOn_sim (t := t) checks ht (payload.length + 1) (payload.drop i) s1
  have hm := g3 _ es
  unfold decodePayloadOn
  rw [b]
  by_cases h1 : t.usizeMax < s1.destIndex
  · rw [if_pos h1, if_pos (by omega)]; rfl
  rw [if_neg h1]
  simp only [M.ok_bind]
  obtain ⟨-, d⟩ := g2 (by omega) _ es
  rw [d]
  by_cases h2 : t.usizeMax < s2.destIndex
  · rw [if_pos h2, if_pos h2]; rfl
  · rw [if_neg h2, if_neg h2]
    exact e

/-- what a target may answer where a 64-bit one answers `on64` -/
def Weaker {α : Type} (on64 onT : M (Except DeserializeError α)) : Prop :=
  onT = on64 ∨ onT = .ok (.error .UsizeTypeTooSmall) ∨ onT = .ok (.error .InvalidParameters) ∨ onT = .error .capacity

theorem deserV2On_weaker (t : Target) (checks : Bool) (r : List UInt8) :
    Weaker (deserV2 fp T checks r) (deserV2On t fp T checks r) := by
  have ht := usizeMax_le t
  unfold Weaker deserV2On
  cases hl : readLenOn t r with
  | error e =>
    simp only
    unfold readLenOn at hl
    cases h1 : readBE 4 r with
    | none =>
      rw [h1] at hl
      cases hl
      left
      unfold deserV2 readHeader
      rw [h1]
    | some p =>
      obtain ⟨n, r1⟩ := p
      rw [h1] at hl
      simp only at hl
      split at hl
      · cases hl; right; left; rfl
      · cases hl
  | ok u =>
  simp only
  unfold deserV2
  cases hh : readHeader r with
  | error e => left; rfl
  | ok hd =>
  simp only
  obtain ⟨-, -, b3, -⟩ := readHeader_ok hh
  rw [newWithBoundsOn_eq t fp T b3]
  cases hn : Hist.newWithBounds fp T hd.low hd.high hd.digits with
  | error e => left; rfl
  | ok x =>
  cases x with
  | error e => left; rfl
  | ok h =>
  simp only [Except.bind, M.ok_bind]
  split
  · right; right; left; rfl
  split
  swap
  · right; right; right; rfl
  simp only [M.ok_bind]
  unfold Target.grow
  split
  · simp only [M.ok_bind]
    cases readN hd.payloadLen hd.rest with
    | none => left; rfl
    | some q =>
      obtain ⟨payload, rest⟩ := q
      simp only
      rcases decodePayloadOn_sim checks ht h payload with e | e
      · left; rw [e]; rfl
      · right; left; rw [e]; rfl
  split
  swap
  · right; right; right; rfl
  simp only [M.ok_bind]
  cases readN hd.payloadLen hd.rest with
  | none => left; rfl
  | some q =>
    obtain ⟨payload, rest⟩ := q
    simp only
    rcases decodePayloadOn_sim checks ht h payload with e | e
    · left; rw [e]; rfl
    · right; left; rw [e]; rfl

theorem deserializeOn_weaker (t : Target) (z : Zlib) (checks : Bool) (bytes : List UInt8) :
    Weaker (deserialize fp z T checks bytes) (deserializeOn t fp z T checks bytes) := by
  unfold deserializeOn deserialize
  cases readBE 4 bytes with
  | none => left; rfl
  | some p =>
  obtain ⟨cookie, r⟩ := p
  simp only
  split
  · exact deserV2On_weaker t checks r
  split
  swap
  · left; rfl
  unfold deserV2CompressedOn deserV2Compressed readLenOn
  cases readBE 4 r with
  | none => left; rfl
  | some p =>
  obtain ⟨n, r1⟩ := p
  simp only
  cases t.toUsize n with
  | none => right; left; rfl
  | some k =>
  simp only
  cases readBE 4 (z.inflate (r1.take n)) with
  | none => left; rfl
  | some q =>
  obtain ⟨c, inner⟩ := q
  simp only
  split
  · left; rfl
  rcases deserV2On_weaker (fp := fp) (T := T) t checks inner with e | e | e | e
  · left; rw [e]; rfl
  · right; left; rw [e]; rfl
  · right; right; left; rw [e]; rfl
  · right; right; right; rw [e]; rfl

/-- a message accepted on a 64-bit target -/
theorem deserV2On_accepted (t : Target) (checks : Bool) {r rest payload : List UInt8} {hd : Header} {h0 : Hist T}
    {ts : List Int} (hh : readHeader r = .ok hd)
    (e1 : Hist.newWithBounds fp T hd.low hd.high hd.digits = .ok (.ok h0)) (hp : hd.rest = payload ++ rest)
    (hl : payload.length = hd.payloadLen) (N : Format.Numbers payload ts) (F : Format.Fits T.max h0.counts.length ts) :
    deserV2On t fp T checks r =
      if t.usizeMax < payload.length then .ok (.error .UsizeTypeTooSmall)
      else if t.usizeMax < h0.counts.length then .ok (.error .InvalidParameters)
      else if t.allocates T.bytes h0.counts.length = false then .error .capacity
      else if payload ≠ [] ∧ t.allocates 1 payload.length = false then .error .capacity
      else if t.usizeMax < (Format.expand ts).length then .ok (.error .UsizeTypeTooSmall)
      else deserV2 fp T checks r := by
  have ht := usizeMax_le t
  have hlen : readLenOn t r = if t.usizeMax < payload.length then .error .UsizeTypeTooSmall else .ok () := by
    have := readHeader_exact hh
    unfold readLenOn
    rw [this]
    simp only [be32, List.append_assoc]
    rw [readBE_be 4 _ _ (by have := readHeader_len hh; norm_num at this ⊢; omega)]
    simp only
    rw [← hl]
    by_cases hu : t.usizeMax < payload.length
    · rw [Target.toUsize_none hu, if_pos hu]
    · rw [Target.toUsize_some (by omega), if_neg hu]
  obtain ⟨-, -, b3, -⟩ := readHeader_ok hh
  obtain ⟨W, e0, -⟩ := newWithBounds_wf b3 e1
  have hz : ∀ i, h0.counts.getD i 0 = 0 := by rw [e0]; exact fresh_getD _ _ _
  have hrn : readN hd.payloadLen hd.rest = some (payload, rest) := by
    unfold readN
    rw [if_pos (by rw [hp, ← hl]; simp), hp, List.take_left' hl, List.drop_left' hl]
  have hdp := (decodePayload_iff checks W hz (by rw [e0]; rfl) (by rw [e0]; rfl) payload (decoded (filled h0 ts))).mpr
    ⟨ts, N, F, rfl⟩
  have hdo := decodePayloadOn_accepted (t := t) checks ht W hz N hdp
  have h64 := (deserV2_iff (fp := fp) checks r rest (decoded (filled h0 ts))).mpr ⟨hd, h0, payload, ts, hh, e1, hp, hl, N, F, rfl⟩
  unfold deserV2On
  rw [h64, hlen]
  by_cases c1 : t.usizeMax < payload.length
  · rw [if_pos c1, if_pos c1]; rfl
  rw [if_neg c1, if_neg c1, hh]
  simp only
  rw [newWithBoundsOn_eq t fp T b3, e1]
  simp only [Except.bind]
  by_cases c2 : t.usizeMax < h0.counts.length
  · rw [if_pos c2, if_pos c2]; rfl
  rw [if_neg c2, if_neg c2]
  by_cases c3 : t.allocates T.bytes h0.counts.length = false
  · rw [if_neg (by simp [c3]), if_pos c3]; rfl
  rw [if_pos (by simpa using c3), if_neg c3]
  simp only [M.ok_bind]
  have hg : t.grow 1 0 hd.payloadLen = if payload ≠ [] ∧ t.allocates 1 payload.length = false then .error .capacity else .ok () := by
    rw [← hl]
    unfold Target.grow
    cases payload with
    | nil => rfl
    | cons b bs =>
      rw [if_neg (by simp)]
      cases t.allocates 1 (b :: bs).length <;> simp
  rw [hg]
  by_cases c4 : payload ≠ [] ∧ t.allocates 1 payload.length = false
  · rw [if_pos c4, if_pos c4]; rfl
  rw [if_neg c4, if_neg c4, M.ok_bind, hrn]
  simp only
  rw [hdo]
  by_cases c5 : t.usizeMax < (Format.expand ts).length
  · rw [if_pos c5, if_pos c5]; rfl
  · rw [if_neg c5, if_neg c5]; rfl

/-! ### numbers that stay within `usize` -/

/-- how many slots a number covers -/
def span (n : Int) : Nat := if n < 0 then (-n).toNat else 1

theorem expand_length_cons (n : Int) (ts : List Int) :
    (Format.expand (n :: ts)).length = span n + (Format.expand ts).length := by
  unfold Format.expand span
  rw [List.flatMap_cons, List.length_append]
  split <;> simp

theorem onDecodedNumOn_same (checks : Bool) (s : DecodeState T) (n : Int) (ht : t.usizeMax ≤ U64MAX)
    (hs : s.destIndex + span n ≤ t.usizeMax) :
    onDecodedNumOn t checks s n = onDecodedNum checks s n ∧
    ∀ s', onDecodedNum checks s n = .ok (.ok s') → s'.destIndex = s.destIndex + span n := by
  have adv : ∀ (u : DecodeState T) (k : Nat), u.destIndex + k ≤ t.usizeMax → advanceOn t u k = advance u k := by
    intro u k hu
    rw [advanceOn_eq ht, if_neg (by omega)]
  unfold onDecodedNumOn onDecodedNum
  unfold span at hs ⊢
  by_cases hn : n < 0
  · rw [if_pos hn] at hs ⊢
    rw [if_pos hn, if_pos hn]
    by_cases hmin : n = -9223372036854775808
    · subst hmin
      unfold negI64
      rw [if_pos rfl]
      cases checks with
      | true => exact ⟨rfl, fun _ e => (by cases e)⟩
      | false => exact ⟨rfl, fun _ e => (by cases e)⟩
    · unfold negI64
      rw [if_neg hmin]
      simp only [M.ok_bind, Hdr.toUsize]
      rw [if_pos (by omega)]
      simp only [Option.bind_some]
      rw [Target.toUsize_some (by omega)]
      simp only
      rw [adv _ _ hs]
      refine ⟨rfl, fun s' e => ?_⟩
      simp only [M.pure_eq, Except.ok.injEq] at e
      exact advance_ok e
  · rw [if_neg hn] at hs ⊢
    rw [if_neg hn, if_neg hn]
    unfold onCountOn onCount
    split
    · split
      · cases setCountAtIndex s.h s.destIndex n.toNat with
        | none => exact ⟨rfl, fun _ e => (by cases e)⟩
        | some h =>
          simp only
          rw [adv (⟨s.destIndex, s.restat.onNonzeroCount s.destIndex n.toNat, h⟩ : DecodeState T) 1 hs]
          refine ⟨rfl, fun s' e => ?_⟩
          simp only [M.pure_eq, Except.ok.injEq] at e
          have := advance_ok e; exact this
      · rw [adv _ _ hs]
        refine ⟨rfl, fun s' e => ?_⟩
        simp only [M.pure_eq, Except.ok.injEq] at e
        exact advance_ok e
    · exact ⟨rfl, fun _ e => (by cases e)⟩

theorem slowLoopOn_same (checks : Bool) (ht : t.usizeMax ≤ U64MAX) {r : List UInt8} {ts : List Int}
    (N : Format.Numbers r ts) : ∀ {f : Nat} (s : DecodeState T), s.destIndex + (Format.expand ts).length ≤ t.usizeMax →
    slowLoopOn t checks f r s = slowLoop checks f r s := by
  induction N with
  | nil => intro f s _; cases f <;> rfl
  | @cons bs r u ts h N ih =>
    intro f s hs
    cases f with
    | zero => rfl
    | succ f =>
      rw [readLeb_eq] at h
      have hne : bs ≠ [] := by rintro rfl; cases h
      obtain ⟨hu, -⟩ := unleb_bound _ _ _ _ h
      rw [expand_length_cons] at hs
      unfold slowLoopOn slowLoop
      rw [if_neg hne, if_neg hne, varintRead_eq, h]
      simp only
      rw [unzigzag_eq (by norm_num at hu ⊢; omega)]
      obtain ⟨a, b⟩ := onDecodedNumOn_same (t := t) checks s (Format.unzigzag u) ht (by omega)
      rw [a]
      cases hd : onDecodedNum checks s (Format.unzigzag u) with
      | error e => rfl
      | ok x =>
        cases x with
        | error e => rfl
        | ok s1 =>
          simp only [M.ok_bind]
          have := b s1 hd
          exact ih s1 (by omega)

theorem fastLoopOn_same (checks : Bool) (ht : t.usizeMax ≤ U64MAX) (payload : List UInt8) (fuel : Nat) :
    ∀ (i : Nat) (s : DecodeState T) (ts : List Int), Format.Numbers (payload.drop i) ts →
      s.destIndex + (Format.expand ts).length ≤ t.usizeMax →
    fastLoopOn t checks payload fuel i s = fastLoop checks payload fuel i s ∧
    ∀ i' s', fastLoop checks payload fuel i s = .ok (.ok (i', s')) → ∃ us, Format.Numbers (payload.drop i') us ∧
      s'.destIndex + (Format.expand us).length ≤ t.usizeMax := by
  induction fuel with
  | zero => intro i s ts N hs; exact ⟨rfl, fun _ _ e => (by cases e)⟩
  | succ fuel ih =>
    intro i s ts N hs
    unfold fastLoopOn
    rw [fastLoop_succ]
    by_cases hr : i < payload.length - 9
    swap
    · rw [if_neg hr, if_neg hr]
      refine ⟨rfl, fun i' s' e => ?_⟩
      cases e
      exact ⟨ts, N, hs⟩
    rw [if_pos hr, if_pos hr]
    obtain ⟨x, k, -, hu, -, -, hrs⟩ := unleb_take9 (payload.drop i) (by simp; omega)
    generalize hp : payload.drop i = p at *
    cases N with
    | nil => have := congrArg List.length hp; simp at this; omega
    | @cons bs r u ts h N =>
      rw [readLeb_eq, hu] at h
      cases h
      obtain ⟨hu', -⟩ := unleb_bound _ _ _ _ hu
      rw [expand_length_cons] at hs
      rw [hrs]
      simp only [M.ok_bind]
      rw [unzigzag_eq (by norm_num at hu' ⊢; omega)]
      obtain ⟨a, b⟩ := onDecodedNumOn_same (t := t) checks s (Format.unzigzag x) ht (by omega)
      rw [a]
      cases hd : onDecodedNum checks s (Format.unzigzag x) with
      | error e => exact ⟨rfl, fun _ _ e => (by cases e)⟩
      | ok y =>
        cases y with
        | error e => exact ⟨rfl, fun _ _ e => (by cases e)⟩
        | ok s1 =>
          simp only [M.ok_bind]
          have := b s1 hd
          refine ih (i + k) s1 ts ?_ (by omega)
          rw [← List.drop_drop, hp]
          exact N

theorem decodePayloadOn_same (checks : Bool) (ht : t.usizeMax ≤ U64MAX) (h : Hist T) {payload : List UInt8} {ts : List Int}
    (N : Format.Numbers payload ts) (hs : (Format.expand ts).length ≤ t.usizeMax) :
    decodePayloadOn t checks h payload = decodePayload checks h payload := by
  unfold decodePayloadOn decodePayload
  obtain ⟨a, b⟩ := fastLoopOn_same (t := t) checks ht payload (payload.length + 1) 0
    (⟨0, Hist.RestatState.new, h⟩ : DecodeState T) ts (by simpa using N) (by simpa using hs)
  rw [a]
  cases hf : fastLoop checks payload (payload.length + 1) 0 (⟨0, Hist.RestatState.new, h⟩ : DecodeState T) with
  | error e => rfl
  | ok x =>
    cases x with
    | error e => rfl
    | ok p =>
      obtain ⟨i, s⟩ := p
      obtain ⟨us, N', h'⟩ := b i s hf
      simp only [M.ok_bind]
      rw [slowLoopOn_same checks ht N' s h']
      rfl

/-! ### wide targets -/

theorem _root_.Hdr.Target.Wide.usize {t : Target} (w : t.Wide) : 2 ^ 32 ≤ t.usizeMax + 1 := by
  have h := Nat.pow_le_pow_right (n := 2) (by norm_num) w.1
  have : 0 < 2 ^ t.bits := by positivity
  unfold Target.usizeMax
  omega

theorem _root_.Hdr.WF.len24 {h : Hist T} (W : WF fp h) : h.counts.length < 2 ^ 24 :=
  lt_of_le_of_lt W.len_le_all (Lay.allSlots_lt W.mag17)

theorem _root_.Hdr.WF.len_wide {h : Hist T} (W : WF fp h) {t : Target} (w : t.Wide) : h.counts.length ≤ t.usizeMax := by
  have := W.len24
  have := w.usize
  norm_num at *
  omega

theorem _root_.Hdr.WF.alloc_wide {h : Hist T} (W : WF fp h) {t : Target} (w : t.Wide) :
    t.allocates T.bytes h.counts.length = true := by
  have h1 := W.len24
  refine w.2 _ _ ?_
  have : T.bytes ≤ 8 := by cases T <;> decide
  calc T.bytes * h.counts.length ≤ 8 * 2 ^ 24 := Nat.mul_le_mul this h1.le
    _ ≤ 2 ^ 28 := by norm_num

theorem newWithBoundsOn_wide {t : Target} (w : t.Wide) (T : CounterTy) {low high sigfig : Nat} (hh : high ≤ U64MAX) :
    Hist.newWithBoundsOn t fp T low high sigfig = Hist.newWithBounds fp T low high sigfig := by
  rw [newWithBoundsOn_eq t fp T hh]
  cases e : Hist.newWithBounds fp T low high sigfig with
  | error e => rfl
  | ok x =>
    cases x with
    | error e => rfl
    | ok h =>
      have W := (newWithBounds_wf hh e).1
      have := W.len_wide w
      simp only [Except.bind]
      rw [if_neg (by omega), if_pos (W.alloc_wide w)]

theorem deserV2On_wide {t : Target} (w : t.Wide) (checks : Bool) {r : List UInt8}
    (hs : ∀ hd, readHeader r = .ok hd → ∃ payload rest ts, hd.rest = payload ++ rest ∧ payload.length = hd.payloadLen ∧
      payload.length ≤ 2 ^ 28 ∧ Format.Numbers payload ts ∧ (Format.expand ts).length < 2 ^ 32) :
    deserV2On t fp T checks r = deserV2 fp T checks r := by
  have ht := usizeMax_le t
  have hu := w.usize
  have hrl : readLenOn t r = .ok () ∨ readLenOn t r = .error .IoError ∧ readHeader r = .error .IoError := by
    unfold readLenOn readHeader
    cases h1 : readBE 4 r with
    | none => right; exact ⟨rfl, rfl⟩
    | some p =>
      obtain ⟨n, r1⟩ := p
      have := (readBE_some h1).1
      left
      simp only
      rw [Target.toUsize_some (by norm_num at this hu; omega)]
  unfold deserV2On deserV2
  rcases hrl with e | ⟨e, e'⟩
  swap
  · rw [e, e']
  rw [e]
  simp only
  cases hh : readHeader r with
  | error e => rfl
  | ok hd =>
  obtain ⟨payload, rest, ts, h1, h2, h3, N, h4⟩ := hs hd hh
  simp only
  obtain ⟨-, -, b3, -⟩ := readHeader_ok hh
  rw [newWithBoundsOn_wide w T b3]
  have hg : t.grow 1 0 hd.payloadLen = .ok () := by
    unfold Target.grow
    split
    · rfl
    · rw [if_pos (w.2 _ _ (by omega))]
  have hrn : readN hd.payloadLen hd.rest = some (payload, rest) := by
    unfold readN
    rw [if_pos (by rw [h1, ← h2]; simp), h1, List.take_left' h2, List.drop_left' h2]
  simp only [hg, hrn, M.ok_bind]
  have hd := fun h : Hist T => decodePayloadOn_same (t := t) checks ht h N (by norm_num at hu h4; omega)
  simp only [hd]
  rfl

/-! ### what the serializer writes -/

theorem numbers_enc {ts : List Int} (ht : ∀ n ∈ ts, Tok n) : Format.Numbers (enc ts) ts := by
  induction ts with
  | nil => exact .nil
  | cons n ts ih =>
    have hn := ht n (by simp)
    unfold Tok at hn
    have h1 : (-2 ^ 63 : Int) ≤ n := by norm_num; omega
    have h2 : n < (2 ^ 63 : Int) := by norm_num; omega
    have hz := zigZagEncode_lt h1 h2
    have e : n = Format.unzigzag (zigZagEncode n) := by
      rw [← unzigzag_eq hz, zigZag_roundtrip h1 h2]
    have N := Format.Numbers.cons (bs := enc (n :: ts)) (u := zigZagEncode n) (r := enc ts)
      (by rw [readLeb_eq, enc_cons, unleb_leb]; norm_num at hz ⊢; omega) (ih fun m hm => ht m (by simp [hm]))
    rw [← e] at N
    exact N

end Hdr.V2
