import Verif.Proofs.Serialize
import Verif.Proofs.Restat

/-!
# The deserializer, evaluated
-/

namespace Hdr.V2

variable {T : CounterTy} {fp : Fp}

/-! ### fixed-width integers -/

theorem asU8_toNat (x : Nat) : (asU8 x).toNat = x % 256 := by
  unfold asU8; rw [UInt8.toNat_ofNat']

theorem beVal_go (k x acc : Nat) :
    (beBytes k x).foldl (fun a b => a * 256 + b.toNat) acc = acc * 256 ^ k + x % 256 ^ k := by
  induction k generalizing acc with
  | zero => simp [beBytes, Nat.mod_one]
  | succ k ih =>
    simp only [beBytes, List.foldl_cons, ih, asU8_toNat]
    have : x % 256 ^ (k + 1) = x / 256 ^ k % 256 * 256 ^ k + x % 256 ^ k := by
      rw [pow_succ, Nat.mod_mul]; ring
    rw [this, pow_succ]; ring

theorem readBE_be (k x : Nat) (r : List UInt8) (hx : x < 256 ^ k) :
    readBE k (beBytes k x ++ r) = some (x, r) := by
  unfold readBE readN
  rw [if_pos (by simp [beBytes_length])]
  simp only [Option.map_some]
  rw [List.take_left' (beBytes_length k x), List.drop_left' (beBytes_length k x)]
  unfold beVal
  rw [beVal_go, Nat.zero_mul, Nat.zero_add, Nat.mod_eq_of_lt hx]

theorem beVal_lt (bs : List UInt8) : beVal bs < 256 ^ bs.length := by
  have : ∀ (bs : List UInt8) (acc : Nat),
      bs.foldl (fun a b => a * 256 + b.toNat) acc < (acc + 1) * 256 ^ bs.length := by
    intro bs
    induction bs with
    | nil => intro acc; simp
    | cons b bs ih =>
      intro acc
      simp only [List.foldl_cons, List.length_cons]
      refine lt_of_lt_of_le (ih _) ?_
      rw [pow_succ, mul_comm (256 ^ bs.length), ← mul_assoc]
      apply Nat.mul_le_mul_right
      have := toNat_lt b
      omega
  have h := this bs 0
  unfold beVal
  simpa using h

theorem readBE_some {n : Nat} {r : List UInt8} {x : Nat} {r' : List UInt8} (h : readBE n r = some (x, r')) :
    x < 256 ^ n ∧ ∃ p, p.length = n ∧ r = p ++ r' := by
  unfold readBE readN at h
  split at h
  · rename_i hn
    simp only [Option.map_some, Option.some.injEq, Prod.mk.injEq] at h
    obtain ⟨rfl, rfl⟩ := h
    have hl : (r.take n).length = n := by simp; omega
    refine ⟨?_, r.take n, hl, (List.take_append_drop n r).symm⟩
    have := beVal_lt (r.take n)
    rwa [hl] at this
  · simp at h

/-! ### the two loops are one -/

/-- the numbers of a payload processed one after the other -/
theorem slowLoop_succ (checks : Bool) (fuel : Nat) (r : List UInt8) (s : DecodeState T) :
    slowLoop checks (fuel + 1) r s =
      if r = [] then pure (.ok s) else
        match varintRead r with
        | none => pure (.error .IoError)
        | some (zz, r) => onDecodedNum checks s (zigZagDecode zz) >>= fun x => match x with
            | .error e => pure (.error e)
            | .ok s => slowLoop checks fuel r s := by rfl

theorem slowLoop_stable (checks : Bool) (n : Nat) : ∀ (r : List UInt8) (s : DecodeState T) (f g : Nat),
    r.length ≤ n → r.length < f → r.length < g → slowLoop checks f r s = slowLoop checks g r s := by
  induction n with
  | zero =>
    intro r s f g h1 h2 h3
    obtain ⟨f, rfl⟩ : ∃ k, f = k + 1 := ⟨f - 1, by omega⟩
    obtain ⟨g, rfl⟩ : ∃ k, g = k + 1 := ⟨g - 1, by omega⟩
    have : r = [] := List.length_eq_zero_iff.mp (by omega)
    rw [slowLoop_succ, slowLoop_succ, if_pos this, if_pos this]
  | succ n ih =>
    intro r s f g h1 h2 h3
    obtain ⟨f, rfl⟩ : ∃ k, f = k + 1 := ⟨f - 1, by omega⟩
    obtain ⟨g, rfl⟩ : ∃ k, g = k + 1 := ⟨g - 1, by omega⟩
    rw [slowLoop_succ, slowLoop_succ]
    by_cases hr : r = []
    · rw [if_pos hr, if_pos hr]
    rw [if_neg hr, if_neg hr]
    cases hv : varintRead r with
    | none => rfl
    | some p =>
      obtain ⟨zz, r'⟩ := p
      rw [varintRead_eq] at hv
      obtain ⟨-, p, hp, hp1, -⟩ := unleb_bound _ _ _ _ hv
      have hl : r'.length < r.length := by rw [hp, List.length_append]; omega
      simp only
      congr 1
      funext x
      cases x with
      | error e => rfl
      | ok s' => exact ih r' s' f g (by omega) (by omega) (by omega)

theorem fastLoop_succ (checks : Bool) (payload : List UInt8) (fuel i : Nat) (s : DecodeState T) :
    fastLoop checks payload (fuel + 1) i s =
      if i < payload.length - 9 then
        varintReadSlice ((payload.drop i).take 9) >>= fun p =>
          onDecodedNum checks s (zigZagDecode p.1) >>= fun x => match x with
            | .error e => pure (.error e)
            | .ok s => fastLoop checks payload fuel (i + p.2) s
      else pure (.ok (i, s)) := by rfl

theorem unleb_take9 (r : List UInt8) (hr : 9 ≤ r.length) :
    ∃ x n, unleb 8 (r.take 9) = some (x, (r.take 9).drop n) ∧ unleb 8 r = some (x, r.drop n) ∧ n ≤ 9 ∧ 1 ≤ n
      ∧ varintReadSlice (r.take 9) = .ok (x, n) := by
  obtain ⟨x, n, h1, h2, h3, h4⟩ := varintReadSlice_eq (r.take 9) (by simp; omega)
  obtain ⟨x', n', h1', h2', h3', h4'⟩ := varintReadSlice_eq r hr
  have : varintReadSlice (r.take 9) = varintReadSlice r := by
    rcases r with _ | ⟨b0, _ | ⟨b1, _ | ⟨b2, _ | ⟨b3, _ | ⟨b4, _ | ⟨b5, _ | ⟨b6, _ | ⟨b7, _ | ⟨b8, r⟩⟩⟩⟩⟩⟩⟩⟩⟩ <;>
      simp only [List.length_nil, List.length_cons] at hr <;> try omega
    rfl
  rw [this, h1'] at h1
  simp only [Except.ok.injEq, Prod.mk.injEq] at h1
  obtain ⟨rfl, rfl⟩ := h1
  rw [varintRead_eq] at h2 h2'
  exact ⟨_, _, h2, h2', h4, h3, by rw [this, h1']⟩

/-- the fast loop followed by the leftover loop behaves as the leftover loop from the start -/
theorem fast_slow (checks : Bool) (payload : List UInt8) (n : Nat) :
    ∀ (i : Nat) (s : DecodeState T) (f g : Nat), i ≤ payload.length → payload.length - i ≤ n →
      payload.length - i < f → payload.length - i < g →
    (fastLoop checks payload f i s >>= fun x => match x with
      | .error e => (pure (.error e) : M (Except DeserializeError (DecodeState T)))
      | .ok (i, s) => slowLoop checks (payload.length + 1) (payload.drop i) s) =
    slowLoop checks g (payload.drop i) s := by
  induction n with
  | zero =>
    intro i s f g h0 h1 h2 h3
    obtain ⟨f, rfl⟩ : ∃ k, f = k + 1 := ⟨f - 1, by omega⟩
    rw [fastLoop_succ, if_neg (by omega), M.pure_eq, M.ok_bind]
    simp only
    exact slowLoop_stable checks (payload.length) _ _ _ _ (by simp) (by simp; omega) (by simp; omega)
  | succ n ih =>
    intro i s f g h0 h1 h2 h3
    obtain ⟨f, rfl⟩ : ∃ k, f = k + 1 := ⟨f - 1, by omega⟩
    rw [fastLoop_succ]
    by_cases hi : i < payload.length - 9
    swap
    · rw [if_neg hi, M.pure_eq, M.ok_bind]
      simp only
      exact slowLoop_stable checks (payload.length) _ _ _ _ (by simp) (by simp; omega) (by simp; omega)
    rw [if_pos hi]
    obtain ⟨x, k, -, hu, hk9, hk1, hrs⟩ := unleb_take9 (payload.drop i) (by simp; omega)
    obtain ⟨g, rfl⟩ : ∃ k, g = k + 1 := ⟨g - 1, by omega⟩
    rw [hrs, M.ok_bind, slowLoop_succ, if_neg (by intro h; have := congrArg List.length h; simp at this; omega),
      varintRead_eq, hu]
    simp only
    rw [M.bind_assoc]
    congr 1
    funext y
    cases y with
    | error e => rfl
    | ok s' =>
      simp only
      rw [ih (i + k) s' f g (by omega) (by omega) (by omega) (by omega), List.drop_drop]

/-- `decodePayload` as one loop -/
theorem decodePayload_eq (checks : Bool) (h : Hist T) (payload : List UInt8) (g : Nat)
    (hg : payload.length < g) :
    decodePayload checks h payload =
      slowLoop checks g payload ⟨0, Hist.RestatState.new, h⟩ >>= fun x => match x with
        | .error e => pure (.error e)
        | .ok s => s.restat.updateHistogram s.h >>= fun h => pure (.ok h) := by
  have e := fast_slow checks payload payload.length 0 (⟨0, Hist.RestatState.new, h⟩ : DecodeState T)
    (payload.length + 1) g (by omega) (by omega) (by omega) (by omega)
  rw [List.drop_zero] at e
  rw [← e]
  unfold decodePayload
  rw [M.bind_assoc]
  congr 1
  funext x
  cases x with
  | error e => rfl
  | ok p => rfl

/-! ### invariant of decoding -/

theorem restatLoop_zeros (l : List Nat) (b : Nat) (s : Hist.RestatState) (hz : ∀ j, l.getD j 0 = 0) :
    Hist.restatLoop l b s = s := by
  induction l generalizing b with
  | nil => rfl
  | cons c cs ih =>
    have h0 := hz 0
    simp only [List.getD_cons_zero] at h0
    subst h0
    show Hist.restatLoop cs (b + 1) _ = s
    rw [if_neg (by simp)]
    exact ih _ fun j => by simpa using hz (j + 1)

theorem restatLoop_set (l : List Nat) (b i c : Nat) (s : Hist.RestatState) (hi : i < l.length)
    (hc : c ≠ 0) (hz : ∀ j, i ≤ j → l.getD j 0 = 0) :
    Hist.restatLoop (l.set i c) b s = (Hist.restatLoop l b s).onNonzeroCount (b + i) c := by
  induction l generalizing b i s with
  | nil => simp at hi
  | cons x xs ih =>
    rcases i with _ | i
    · have hx : x = 0 := by simpa using hz 0 (by omega)
      have hxs : ∀ j, xs.getD j 0 = 0 := fun j => by simpa using hz (j + 1) (by omega)
      rw [List.set_cons_zero]
      show Hist.restatLoop xs (b + 1) _ = _
      rw [if_pos hc, restatLoop_zeros _ _ _ hxs]
      show _ = (Hist.restatLoop xs (b + 1) _).onNonzeroCount _ _
      rw [hx, if_neg (by simp), restatLoop_zeros _ _ _ hxs, Nat.add_zero]
    · rw [List.set_cons_succ]
      show Hist.restatLoop (xs.set i c) (b + 1) _ = (Hist.restatLoop xs (b + 1) _).onNonzeroCount _ _
      rw [ih _ _ _ (by simpa using hi) (fun j hj => by simpa using hz (j + 1) (by omega))]
      congr 1; omega

/-- what holds while a payload is decoded into the fresh histogram `h0` -/
structure DInv (h0 : Hist T) (s : DecodeState T) : Prop where
  cfg : s.h = { h0 with counts := s.h.counts }
  len : s.h.counts.length = h0.counts.length
  zero : ∀ j, s.destIndex ≤ j → s.h.counts.getD j 0 = 0
  cmax : ∀ c ∈ s.h.counts, c ≤ T.max
  rs : s.restat = Hist.restatLoop s.h.counts 0 Hist.RestatState.new

theorem onCount_inv {h0 : Hist T} {s : DecodeState T} (I : DInv h0 s) (n : Int) (s' : DecodeState T)
    (hs : onCount s n = .ok s') : DInv h0 s' := by
  unfold onCount at hs
  split at hs
  swap
  · simp at hs
  rename_i hmax
  split at hs
  · rename_i hpos
    unfold setCountAtIndex at hs
    by_cases hd : s.destIndex < s.h.counts.length
    · rw [if_pos hd] at hs
      simp only [advance] at hs
      split at hs
      swap
      · simp at hs
      simp only [Except.ok.injEq] at hs
      subst hs
      refine ⟨?_, ?_, ?_, ?_, ?_⟩
      · simp only; rw [I.cfg]
      · simp only [List.length_set]; exact I.len
      · intro j hj
        simp only at hj ⊢
        rw [getD_set, if_neg (by omega)]
        exact I.zero j (by omega)
      · intro c hc
        simp only at hc
        rcases List.mem_or_eq_of_mem_set hc with hc | rfl
        · exact I.cmax c hc
        · omega
      · simp only
        rw [restatLoop_set _ _ _ _ _ hd (by omega) (fun j hj => I.zero j hj), ← I.rs, Nat.zero_add]
    · rw [if_neg hd] at hs
      simp at hs
  · unfold advance at hs
    split at hs
    swap
    · simp at hs
    simp only [Except.ok.injEq] at hs
    subst hs
    exact ⟨I.cfg, I.len, fun j hj => I.zero j (by simp only at hj; omega), I.cmax, I.rs⟩

theorem onDecodedNum_spec (checks : Bool) {h0 : Hist T} {s : DecodeState T} (I : DInv h0 s) (n : Int)
    (hn : checks = true → n ≠ -9223372036854775808) :
    ∃ r, onDecodedNum checks s n = .ok r ∧ ∀ s', r = .ok s' → DInv h0 s' := by
  unfold onDecodedNum
  by_cases h : n < 0
  · rw [if_pos h]
    unfold negI64
    have hadv : ∀ k s', advance s k = .ok s' → DInv h0 s' := by
      intro k s' hs
      unfold advance at hs
      split at hs
      · simp only [Except.ok.injEq] at hs
        subst hs
        exact ⟨I.cfg, I.len, fun j hj => I.zero j (by simp only at hj; omega), I.cmax, I.rs⟩
      · simp at hs
    by_cases hm : n = -9223372036854775808
    · have hc : checks = false := by
        cases checks
        · rfl
        · exact absurd hm (hn rfl)
      subst hm hc
      exact ⟨_, rfl, by simp⟩
    · rw [if_neg hm, M.ok_bind]
      unfold toUsize
      rw [if_pos (by omega)]
      exact ⟨_, rfl, fun s' hs => hadv _ s' hs⟩
  · rw [if_neg h]
    exact ⟨_, rfl, fun s' hs => onCount_inv I n s' hs⟩

/-- nine `0xFF` bytes: the only encoding of the number that decodes to `i64::MIN` -/
def poison : List UInt8 := List.replicate 9 0xFF

theorem unleb_max (k : Nat) (r r' : List UInt8) (h : unleb k r = some (128 ^ k * 256 - 1, r')) :
    r = List.replicate (k + 1) 0xFF ++ r' := by
  induction k generalizing r with
  | zero =>
    rcases r with _ | ⟨b, r⟩
    · simp [unleb] at h
    · simp only [unleb, Option.some.injEq, Prod.mk.injEq] at h
      obtain ⟨h1, rfl⟩ := h
      have : b = 0xFF := UInt8.toNat.inj (by rw [h1]; rfl)
      rw [this]; rfl
  | succ k ih =>
    rcases r with _ | ⟨b, r⟩
    · simp [unleb] at h
    · simp only [unleb] at h
      have h1 : 1 ≤ 128 ^ k := Nat.one_le_pow _ _ (by norm_num)
      split at h
      · rename_i hb
        simp only [Option.some.injEq, Prod.mk.injEq] at h
        rw [pow_succ] at h
        generalize 128 ^ k = P at *
        omega
      · cases hu : unleb k r with
        | none => rw [hu] at h; simp at h
        | some q =>
          obtain ⟨y, r2⟩ := q
          rw [hu] at h
          simp only [Option.map_some, Option.some.injEq, Prod.mk.injEq] at h
          obtain ⟨h2, rfl⟩ := h
          rw [pow_succ] at h2
          have hb := toNat_lt b
          have hy : y = 128 ^ k * 256 - 1 ∧ b.toNat = 255 := by
            generalize 128 ^ k = P at *
            omega
          rw [hy.1] at hu
          rw [ih r hu]
          have : b = 0xFF := UInt8.toNat.inj (by rw [hy.2]; rfl)
          rw [this]
          rfl

theorem zigZagDecode_min {u : Nat} (hu : u < 2 ^ 64) (h : zigZagDecode u = -9223372036854775808) :
    u = 128 ^ 8 * 256 - 1 := by
  rw [zigZagDecode_eq hu] at h
  split at h <;> norm_num at hu ⊢ <;> omega

theorem slowLoop_spec (checks : Bool) {h0 : Hist T} (n : Nat) : ∀ (r : List UInt8) (s : DecodeState T) (f : Nat),
    r.length ≤ n → r.length < f → DInv h0 s → (checks = true → ¬ poison <:+: r) →
    ∃ x, slowLoop checks f r s = .ok x ∧ ∀ s', x = .ok s' → DInv h0 s' := by
  induction n with
  | zero =>
    intro r s f h1 h2 I _
    obtain ⟨f, rfl⟩ : ∃ k, f = k + 1 := ⟨f - 1, by omega⟩
    have : r = [] := List.length_eq_zero_iff.mp (by omega)
    rw [slowLoop_succ, if_pos this]
    exact ⟨_, rfl, fun s' hs => by simp only [Except.ok.injEq] at hs; subst hs; exact I⟩
  | succ n ih =>
    intro r s f h1 h2 I hp
    obtain ⟨f, rfl⟩ : ∃ k, f = k + 1 := ⟨f - 1, by omega⟩
    rw [slowLoop_succ]
    by_cases hr : r = []
    · rw [if_pos hr]
      exact ⟨_, rfl, fun s' hs => by simp only [Except.ok.injEq] at hs; subst hs; exact I⟩
    rw [if_neg hr]
    cases hv : varintRead r with
    | none => exact ⟨_, rfl, fun s' hs => by simp at hs⟩
    | some p =>
      obtain ⟨zz, r'⟩ := p
      simp only
      rw [varintRead_eq] at hv
      obtain ⟨hzz, p, hrp, hp1, -⟩ := unleb_bound _ _ _ _ hv
      have hl : r'.length < r.length := by rw [hrp, List.length_append]; omega
      obtain ⟨x, e, hx⟩ := onDecodedNum_spec checks I (zigZagDecode zz) (by
        intro hc hmin
        have := zigZagDecode_min (by norm_num at hzz ⊢; exact hzz) hmin
        rw [this] at hv
        exact hp hc ⟨[], r', by rw [unleb_max 8 r r' hv]; rfl⟩)
      rw [e, M.ok_bind]
      cases x with
      | error e => exact ⟨_, rfl, fun s' hs => by simp at hs⟩
      | ok s' =>
        simp only
        refine ih r' s' f (by omega) (by omega) (hx s' rfl) ?_
        intro hc hin
        apply hp hc
        rw [hrp]
        exact hin.trans (List.suffix_append p r').isInfix

/-! ### statistics after decoding -/

/-- cached maximum set by the deserializer -/
def decMax (h : Hist T) : Nat :=
  match lastNz h.counts 0 with
  | none => 0
  | some i => h.lhi (h.lval i) ||| h.unitMagMask

/-- the histogram the deserializer returns for decoded counts -/
def decoded (h : Hist T) : Hist T :=
  { h with maxValue := decMax h, minNonZero := h.scanMin, totalCount := Min.min h.counts.sum U64MAX }

theorem applyMaxIndex_zero {h : Hist T} (L : LayoutOK h) {i : Nat} (hi : i < h.lall)
    (hm : h.maxValue = 0) :
    h.applyMaxIndex (some i) = .ok { h with maxValue := h.lhi (h.lval i) ||| h.unitMagMask } := by
  have hv : h.lval i ≤ U64MAX := U64MAX_lt.mpr ((Lay.val_lt_iff L.sum62).mpr hi)
  unfold Hist.applyMaxIndex
  simp only
  rw [valueFor_eq L hi, M.ok_bind, highestEquivalent_eq L hv, M.ok_bind, M.pure_eq]
  unfold Hist.updateMax
  simp only
  split
  · rfl
  · have e1 : h.lhi (h.lval i) ||| h.unitMagMask = h.maxValue := by omega
    rw [e1]

theorem updateHistogram_eq {h : Hist T} (L : LayoutOK h) (hlen : h.counts.length ≤ h.lall)
    (hmax : h.maxValue = 0) (hmin : h.minNonZero = U64MAX) :
    (Hist.restatLoop h.counts 0 Hist.RestatState.new).updateHistogram h = .ok (decoded h) := by
  rw [restatLoop_eq _ _ _ (by simp [Hist.RestatState.new])]
  unfold Hist.RestatState.updateHistogram
  simp only [Hist.RestatState.new, Option.or_none, Option.none_or, Nat.zero_add]
  unfold decoded decMax Hist.scanMin
  have hl := lastNz_spec h.counts 0
  have hf := firstNz_spec h.counts 0
  cases h1 : lastNz h.counts 0 with
  | none =>
    rw [h1] at hl
    cases h2 : firstNz h.counts 0 with
    | none =>
      show Except.ok { h with totalCount := _ } = Except.ok { h with maxValue := 0, minNonZero := U64MAX, totalCount := _ }
      cases h
      simp only at hmax hmin
      subst hmax hmin
      rfl
    | some j =>
      rw [h2] at hf
      exact absurd (hl (j - 0)) hf.2.2.2.1
  | some i =>
    rw [h1] at hl
    obtain ⟨-, hi, -, -⟩ := hl
    simp only
    rw [applyMaxIndex_zero L (by omega) hmax, M.ok_bind]
    cases h2 : firstNz h.counts 0 with
    | none =>
      show Except.ok { h with maxValue := _, totalCount := _ } = Except.ok { h with maxValue := _, minNonZero := U64MAX, totalCount := _ }
      cases h
      simp only at hmin
      subst hmin
      rfl
    | some j =>
      rw [h2] at hf
      obtain ⟨-, hj0, hj, -, -⟩ := hf
      simp only
      let h'' : Hist T := { h with maxValue := h.lhi (h.lval i) ||| h.unitMagMask }
      have L'' : LayoutOK h'' := ⟨L.sbc, L.half, L.mag17, L.sum62, L.lzb, L.mask, L.ummask⟩
      have hja : j < h''.lall := by
        show j < h.lall
        omega
      rw [show Hist.applyMinIndex _ (some j) = _ from applyMinIndex_eq L'' hj0 hja hmin, M.ok_bind]
      rfl

theorem decoded_wf {h : Hist T} (W : WFc fp h) : WF fp (decoded h) := by
  have R := W.restated
  by_cases he : ∃ i, lastNz h.counts 0 = some i
  · obtain ⟨i, hi⟩ := he
    have : decoded h = h.restated := by
      unfold decoded decMax Hist.restated Hist.scanMax
      rw [hi]
    rw [this]; exact R
  · have hn : lastNz h.counts 0 = none := by
      cases hh : lastNz h.counts 0 with
      | none => rfl
      | some i => exact absurd ⟨i, hh⟩ he
    have hz := lastNz_spec h.counts 0
    rw [hn] at hz
    have L := W.toLayoutOK
    have Wc : WFc fp (decoded h) :=
      { (⟨L.sbc, L.half, L.mag17, L.sum62, L.lzb, L.mask, L.ummask⟩ : LayoutOK (decoded h)) with
        sig5 := W.sig5, mag := W.mag, low1 := W.low1, low63 := W.low63, highlow := W.highlow,
        highmax := W.highmax, um := W.um, bc := W.bc, len := W.len, cmax := W.cmax }
    have hm0 : (decoded h).maxValue = 0 := by
      show decMax h = 0
      unfold decMax; rw [hn]
    refine Wc.mk_wf (Nat.min_le_right _ _) le_rfl (by rw [hm0]; simp) ?_ R.minle R.minpos ?_ R.trackMin
    · rw [hm0]
      show Lay.idx _ _ 0 < _
      rw [Lay.idx_zero]; exact W.len_pos
    · intro i hi
      exact absurd (hz i) hi

end Hdr.V2
