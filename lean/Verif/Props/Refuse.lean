import Verif.Props.Decode
import Verif.Props.Config
import Verif.Spec.Refuse

/-!
# C70: which error the deserializer returns, and when it panics
-/

namespace Hdr

open V2

variable {T : CounterTy} {fp : Fp}

namespace V2

/-! ## Fields -/

theorem beVal_value (bs : List UInt8) : beVal bs = Format.value bs := by
  unfold beVal Format.value
  congr 1
  funext x b
  rw [Nat.mul_comm]

theorem value_lt (bs : List UInt8) : Format.value bs < 256 ^ bs.length := by
  unfold Format.value
  have key : ∀ (l : List UInt8) (x n : Nat), x < 256 ^ n →
      l.foldl (fun x (b : UInt8) => 256 * x + b.toNat) x < 256 ^ (n + l.length) := by
    intro l
    induction l with
    | nil => intro x n h; exact h
    | cons b l ih =>
      intro x n h
      rw [List.foldl_cons, List.length_cons, ← Nat.add_assoc, Nat.add_right_comm]
      refine ih _ _ ?_
      have := b.toNat_lt
      rw [Nat.pow_succ]
      omega
  simpa using key bs 0 0 (by norm_num)

theorem field_lt (k n : Nat) (bs : List UInt8) : Format.field k n bs < 256 ^ n := by
  refine (value_lt _).trans_le (Nat.pow_le_pow_right (by norm_num) ?_)
  simp

theorem readBE_field {k n : Nat} {m : List UInt8} (h : k + n ≤ m.length) :
    readBE n (m.drop k) = some (Format.field k n m, m.drop (k + n)) := by
  unfold readBE readN
  rw [if_pos (by rw [List.length_drop]; omega)]
  simp only [Option.map_some, beVal_value, List.drop_drop]
  rfl

theorem readBE_short {k n : Nat} {m : List UInt8} (hn : 0 < n) (h : m.length < k + n) : readBE n (m.drop k) = none := by
  unfold readBE readN
  rw [if_neg (by rw [List.length_drop]; omega)]
  rfl

theorem header_fields (m : List UInt8) : readHeader (m.drop 4) =
    if m.length < 12 then .error .IoError
    else if Format.field 8 4 m ≠ 0 then .error .UnsupportedFeature
    else if m.length < 16 then .error .IoError
    else if 255 < Format.field 12 4 m then .error .InvalidParameters
    else if m.length < 40 then .error .IoError
    else if Format.field 32 8 m ≠ 0x3FF0000000000000 then .error .UnsupportedFeature
    else .ok ⟨Format.field 4 4 m, Format.field 12 4 m, Format.field 16 8 m, Format.field 24 8 m, m.drop 40⟩ := by
  unfold readHeader
  by_cases h8 : m.length < 8
  · rw [readBE_short (by norm_num) h8, if_pos (by omega)]
  rw [readBE_field (by omega)]
  simp only
  by_cases h12 : m.length < 12
  · rw [readBE_short (by norm_num) h12, if_pos (by omega)]
  rw [readBE_field (by omega), if_neg h12]
  simp only
  by_cases ho : Format.field 8 4 m ≠ 0
  · rw [if_pos (by simpa using ho), if_pos ho]
  rw [if_neg (by simpa using ho), if_neg ho]
  by_cases h16 : m.length < 16
  · rw [readBE_short (by norm_num) h16, if_pos (by omega)]
  rw [readBE_field (by omega), if_neg h16]
  simp only
  by_cases hd : 255 < Format.field 12 4 m
  · rw [if_pos (by simpa using hd), if_pos hd]
  rw [if_neg (by simpa using hd), if_neg hd]
  by_cases h24 : m.length < 24
  · rw [readBE_short (by norm_num) h24, if_pos (by omega)]
  rw [readBE_field (by omega)]
  simp only
  by_cases h32 : m.length < 32
  · rw [readBE_short (by norm_num) h32, if_pos (by omega)]
  rw [readBE_field (by omega)]
  simp only
  by_cases h40 : m.length < 40
  · rw [readBE_short (by norm_num) h40, if_pos (by omega)]
  rw [readBE_field (by omega), if_neg h40]
  rfl

/-! ## The checklist -/

theorem fails_or_passes (n : Nat) (cs : List Format.Check) : Format.Passes n cs ∨ ∃ e, Format.Fails n cs e := by
  induction cs with
  | nil => exact Or.inl (by simp [Format.Passes])
  | cons c cs ih =>
    by_cases h1 : n < c.needs
    · exact Or.inr ⟨_, .short h1⟩
    by_cases h2 : c.holds
    · rcases ih with h | ⟨e, h⟩
      · left
        intro d hd
        rcases List.mem_cons.mp hd with rfl | hd
        · exact ⟨by omega, h2⟩
        · exact h d hd
      · exact Or.inr ⟨e, .later (by omega) h2 h⟩
    · exact Or.inr ⟨_, .wrong (by omega) h2⟩

/-- the constructor accepts these settings -/
def Settings (fp : Fp) (low high sigfig : Nat) : Prop := firstViolation fp low high sigfig = none

theorem constructor_ok {low high sigfig : Nat} (hh : high ≤ U64MAX) (h : Settings fp low high sigfig) :
    ∃ h0, Hist.newWithBounds fp T low high sigfig = .ok (.ok h0) := by
  obtain ⟨r, e, h1⟩ := C01_constructor fp T hh (low := low) (sigfig := sigfig)
  unfold Settings at h
  rw [h] at h1
  obtain ⟨h0, rfl⟩ := h1
  exact ⟨h0, e⟩

theorem constructor_err {low high sigfig : Nat} (hh : high ≤ U64MAX) (h : ¬ Settings fp low high sigfig) :
    ∃ x, Hist.newWithBounds fp T low high sigfig = .ok (.error x) := by
  obtain ⟨r, e, h1⟩ := C01_constructor fp T hh (low := low) (sigfig := sigfig)
  unfold Settings at h
  cases hv : firstViolation fp low high sigfig with
  | none => exact absurd hv h
  | some x => rw [hv] at h1; exact ⟨x, by rw [e, h1]⟩

/-- what `deser_v2` makes of the message from its cookie on -/
def afterCookie (fp : Fp) (T : CounterTy) (checks : Bool) (m : List UInt8) : M (Except DeserializeError (Hist T × List UInt8)) :=
  match readBE 4 m with
  | none => pure (.error .IoError)
  | some (cookie, r) => if cookie ≠ COOKIE then pure (.error .InvalidCookie) else deserV2 fp T checks r

theorem afterCookie_fails {checks : Bool} {m : List UInt8} {e : DeserializeError}
    (F : Format.Fails m.length (Format.checklist (Settings fp) m) e) : afterCookie fp T checks m = .ok (.error e) := by
  have hf : Format.field 24 8 m ≤ U64MAX := by
    have := field_lt 24 8 m
    have hU : U64MAX = 18446744073709551615 := rfl
    norm_num at this; omega
  have hr : ∀ h : ¬ m.length < 4, readBE 4 m = some (Format.field 0 4 m, m.drop 4) := fun h =>
    readBE_field (k := 0) (n := 4) (m := m) (by omega)
  unfold afterCookie
  unfold Format.checklist at F
  rcases F with h | ⟨h, hw⟩ | ⟨h1, c1, F⟩
  · have : readBE 4 m = none := readBE_short (k := 0) (by norm_num) (by simpa using h)
    rw [this]; rfl
  · rw [hr (by simpa using h)]
    simp only
    rw [if_pos (by exact hw)]; rfl
  simp only at h1 c1
  rw [hr (by omega)]
  simp only
  rw [if_neg (by rw [c1]; simp [cookie_eq])]
  unfold deserV2
  rw [header_fields]
  rcases F with h | ⟨h, hw⟩ | ⟨h2, c2, F⟩
  · rw [if_pos h]; rfl
  · rw [if_neg (by simpa using h), if_pos hw]; rfl
  simp only at h2 c2
  rw [if_neg (by omega), if_neg (by simpa using c2)]
  rcases F with h | ⟨h, hw⟩ | ⟨h3, c3, F⟩
  · rw [if_pos h]; rfl
  · rw [if_neg (by simpa using h), if_pos (by simpa using hw)]; rfl
  simp only at h3 c3
  rw [if_neg (by omega), if_neg (by simpa using c3)]
  rcases F with h | ⟨h, hw⟩ | ⟨h4, c4, F⟩
  · rw [if_pos h]; rfl
  · rw [if_neg (by simpa using h), if_pos hw]; rfl
  simp only at h4 c4
  rw [if_neg (by omega), if_neg (by simpa using c4)]
  simp only
  rcases F with h | ⟨h, hw⟩ | ⟨h5, c5, F⟩
  · exact absurd h (by simpa using h4)
  · obtain ⟨x, ex⟩ := constructor_err (T := T) hf hw
    rw [ex]; rfl
  simp only at c5
  obtain ⟨h0, e0⟩ := constructor_ok (T := T) hf c5
  rw [e0]
  rcases F with h | ⟨h, hw⟩ | ⟨h6, c6, F⟩
  · simp only at h
    simp only [M.ok_bind]
    have : readN (Format.field 4 4 m) (m.drop 40) = none := by
      unfold readN
      rw [if_neg (by rw [List.length_drop]; omega)]
    rw [this]; rfl
  · exact absurd trivial hw
  · cases F

theorem afterCookie_passes {checks : Bool} {m : List UInt8} (P : Format.Passes m.length (Format.checklist (Settings fp) m)) :
    ∃ h0 : Hist T, Hist.newWithBounds fp T (Format.field 16 8 m) (Format.field 24 8 m) (Format.field 12 4 m) = .ok (.ok h0) ∧
      afterCookie fp T checks m = decodePayload checks h0 ((m.drop 40).take (Format.field 4 4 m)) >>= fun x => match x with
        | .error e => pure (.error e)
        | .ok h => pure (.ok (h, (m.drop 40).drop (Format.field 4 4 m))) := by
  have hf : Format.field 24 8 m ≤ U64MAX := by
    have := field_lt 24 8 m
    have hU : U64MAX = 18446744073709551615 := rfl
    norm_num at this; omega
  unfold Format.checklist Format.Passes at P
  simp only [List.forall_mem_cons] at P
  obtain ⟨⟨h1, c1⟩, ⟨h2, c2⟩, ⟨h3, c3⟩, ⟨h4, c4⟩, ⟨h5, c5⟩, ⟨h6, -⟩, -⟩ := P
  obtain ⟨h0, e0⟩ := constructor_ok (T := T) hf c5
  refine ⟨h0, e0, ?_⟩
  unfold afterCookie
  have hr : readBE 4 m = some (Format.field 0 4 m, m.drop 4) := readBE_field (k := 0) (n := 4) (m := m) (by omega)
  rw [hr]
  simp only
  rw [if_neg (by rw [c1]; simp [cookie_eq])]
  unfold deserV2
  rw [header_fields, if_neg (by omega), if_neg (by simpa using c2), if_neg (by omega), if_neg (by omega), if_neg (by omega),
    if_neg (by simpa using c4)]
  simp only
  rw [e0, M.ok_bind]
  simp only
  have : readN (Format.field 4 4 m) (m.drop 40) =
      some ((m.drop 40).take (Format.field 4 4 m), (m.drop 40).drop (Format.field 4 4 m)) := by
    unfold readN
    rw [if_pos (by rw [List.length_drop]; omega)]
  rw [this]
  rfl

/-! ## The payload -/

/-- the result of a refusal -/
def outcome {α : Type} : Format.Refusal → M (Except DeserializeError α)
  | .error e => .ok (.error e)
  | .overflow => .error .overflow

theorem readLeb_append {k u : Nat} {l r : List UInt8} (x : List UInt8) (h : Format.readLeb k l = some (u, r)) :
    Format.readLeb k (l ++ x) = some (u, r ++ x) := by
  induction l generalizing k u with
  | nil => cases k <;> cases h
  | cons b l ih =>
    cases k with
    | zero => cases h; rfl
    | succ k =>
      simp only [Format.readLeb, List.cons_append] at h ⊢
      split at h
      · rename_i hb
        cases h
        rw [if_pos hb]
      · rename_i hb
        rw [if_neg hb]
        rw [Option.map_eq_some_iff] at h
        obtain ⟨⟨v, r'⟩, h1, h2⟩ := h
        cases h2
        rw [ih h1]; rfl

theorem readLeb_split {k u : Nat} {l r : List UInt8} (h : Format.readLeb k l = some (u, r)) :
    ∃ q, l = q ++ r ∧ q ≠ [] ∧ Format.readLeb k q = some (u, []) := by
  induction l generalizing k u with
  | nil => cases k <;> cases h
  | cons b l ih =>
    cases k with
    | zero => cases h; exact ⟨[b], rfl, by simp, rfl⟩
    | succ k =>
      simp only [Format.readLeb] at h
      split at h
      · rename_i hb
        cases h
        exact ⟨[b], rfl, by simp, by simp [Format.readLeb, hb]⟩
      · rename_i hb
        rw [Option.map_eq_some_iff] at h
        obtain ⟨⟨v, r'⟩, h1, h2⟩ := h
        cases h2
        obtain ⟨q, rfl, -, h3⟩ := ih h1
        exact ⟨b :: q, rfl, by simp, by simp only [Format.readLeb]; rw [if_neg hb, h3]; rfl⟩

theorem numbers_append {p q : List UInt8} {ts us : List Int} (N : Format.Numbers p ts) (M : Format.Numbers q us) :
    Format.Numbers (p ++ q) (ts ++ us) := by
  induction N with
  | nil => exact M
  | cons h _ ih => exact .cons (readLeb_append q h) ih

theorem slow_prefix (checks : Bool) {p : List UInt8} {ts : List Int} (N : Format.Numbers p ts) (r : List UInt8) :
    ∀ {f : Nat} (s : DecodeState T), (p ++ r).length < f → ∃ f', r.length < f' ∧
      slowLoop checks f (p ++ r) s = steps checks ts s >>= fun x => match x with
        | .error e => pure (.error e)
        | .ok s => slowLoop checks f' r s := by
  induction N with
  | nil => intro f s hf; exact ⟨f, by simpa using hf, by simp only [steps, M.ok_bind]; rfl⟩
  | @cons bs q u ts h N ih =>
    intro f s hf
    obtain ⟨f, rfl⟩ : ∃ k, f = k + 1 := ⟨f - 1, by omega⟩
    have h' := readLeb_append r h
    obtain ⟨q0, hq, hq0, -⟩ := readLeb_split h
    rw [readLeb_eq] at h'
    have hne : bs ++ r ≠ [] := by
      rw [hq]; intro e
      simp at e
      exact hq0 e.1
    obtain ⟨hu, -⟩ := unleb_bound _ _ _ _ h'
    have hl : (q ++ r).length < f := by
      have : 0 < q0.length := List.length_pos_iff.mpr hq0
      rw [hq] at hf
      simp only [List.length_append] at hf ⊢
      omega
    have hz : zigZagDecode u = Format.unzigzag u := unzigzag_eq (by norm_num at hu ⊢; omega)
    cases e : onDecodedNum checks s (Format.unzigzag u) with
    | error x =>
      refine ⟨f, by simp at hl; omega, ?_⟩
      rw [slowLoop_succ, if_neg hne, varintRead_eq, h']
      simp only [steps, hz, e]
      rfl
    | ok x =>
      cases x with
      | error x =>
        refine ⟨f, by simp at hl; omega, ?_⟩
        rw [slowLoop_succ, if_neg hne, varintRead_eq, h']
        simp only [steps, hz, e]
        rfl
      | ok s1 =>
        obtain ⟨f', hf', e'⟩ := ih s1 hl
        refine ⟨f', hf', ?_⟩
        rw [slowLoop_succ, if_neg hne, varintRead_eq, h']
        simp only [steps, hz, e, M.ok_bind]
        exact e'

theorem bad_number {checks : Bool} {max slots pos : Nat} {t : Int} {o : Format.Refusal} {s : DecodeState T}
    (hm : max = T.max) (hs : s.h.counts.length = slots) (hp : s.destIndex = pos)
    (B : Format.BadNumber checks max slots pos t o) : onDecodedNum checks s t = outcome o := by
  subst hm hs hp
  have hU : U64MAX = 18446744073709551615 := rfl
  unfold onDecodedNum
  cases B with
  | large h =>
    rw [if_neg (by omega)]
    unfold onCount
    rw [if_neg (by omega)]; rfl
  | late h1 h2 h3 =>
    rw [if_neg (by omega)]
    unfold onCount
    rw [if_pos h2, if_pos h1]
    unfold setCountAtIndex
    rw [if_neg (by omega)]; rfl
  | far h1 h2 h3 =>
    norm_num at h1 h3
    rw [expand_one] at h3
    by_cases h : t < 0
    · rw [if_pos h]
      rw [if_pos h, List.length_replicate] at h3
      unfold negI64
      rw [if_neg (by omega), M.ok_bind]
      unfold toUsize
      rw [if_pos (by omega)]
      simp only
      unfold advance
      rw [if_neg (by omega)]; rfl
    · rw [if_neg h]
      rw [if_neg h, List.length_singleton] at h3
      unfold onCount
      rw [if_pos (by omega), if_neg (by omega)]
      unfold advance
      rw [if_neg (by omega)]; rfl
  | min =>
    rw [if_pos (by norm_num)]
    cases checks
    · rfl
    · rfl

theorem fits_ok {h : Hist T} {ts : List Int}
    (F : Format.Fits T.max h.counts.length ts) : Ok ts (⟨0, Hist.RestatState.new, h⟩ : DecodeState T) := by
  have hU : U64MAX = 18446744073709551615 := rfl
  obtain ⟨h1, h2, h3⟩ := F
  refine ⟨fun t ht => ?_, ?_, fun i hi => h3 i (by simpa using hi)⟩
  · have := h1 t ht
    norm_num at this
    omega
  · simp only [Nat.zero_add]
    norm_num at h2; omega

theorem payload_bad {checks : Bool} {h : Hist T} (W : WF fp h) (hz : ∀ i, h.counts.getD i 0 = 0) {payload : List UInt8}
    {o : Format.Refusal} (B : Format.BadPayload checks T.max h.counts.length payload o) :
    decodePayload checks h payload = outcome o := by
  obtain ⟨p, r, ts, rfl, N, F, B⟩ := B
  rw [decodePayload_eq checks h (p ++ r) ((p ++ r).length + 1) (by omega)]
  have I := dinv_init W hz
  obtain ⟨s', e1⟩ := (steps_iff checks ts I (by simp)).1 (fits_ok F)
  obtain ⟨-, P, -⟩ := (steps_iff checks ts I (by simp)).2 s' e1
  obtain ⟨f, hf, e2⟩ := slow_prefix checks N r (⟨0, Hist.RestatState.new, h⟩ : DecodeState T) (f := (p ++ r).length + 1) (by omega)
  rw [e2, e1]
  simp only [M.ok_bind]
  obtain ⟨f, rfl⟩ : ∃ k, f = k + 1 := ⟨f - 1, by omega⟩
  rw [slowLoop_succ]
  rcases B with ⟨hr, hn, rfl⟩ | ⟨u, r', hu, B⟩
  · rw [readLeb_eq] at hn
    rw [if_neg hr, varintRead_eq, hn]
    rfl
  · have hr : r ≠ [] := by rintro rfl; cases hu
    rw [readLeb_eq] at hu
    obtain ⟨hb, -⟩ := unleb_bound _ _ _ _ hu
    rw [if_neg hr, varintRead_eq, hu]
    simp only
    rw [unzigzag_eq (by norm_num at hb ⊢; omega), bad_number rfl P.len (by rw [P.dest]; simp) B]
    cases o <;> rfl

theorem expand_append (ts us : List Int) : Format.expand (ts ++ us) = Format.expand ts ++ Format.expand us := by
  unfold Format.expand; rw [List.flatMap_append]

/-- numbers that can be stored, and one more that is not bad -/
theorem fits_snoc {checks : Bool} {max slots : Nat} (hslots : slots < 2 ^ 64) {ts : List Int} {t : Int}
    (F : Format.Fits max slots ts) (ht : -2 ^ 63 ≤ t) (hb : ∀ o, ¬ Format.BadNumber checks max slots (Format.expand ts).length t o) :
    Format.Fits max slots (ts ++ [t]) := by
  obtain ⟨h1, h2, h3⟩ := F
  have g1 : ¬ (max : Int) < t := fun h => hb _ (.large h)
  have g2 : t ≠ -2 ^ 63 := by rintro rfl; exact hb _ .min
  have g3 : 0 < t → (Format.expand ts).length < slots := by
    intro h
    by_contra hc
    exact hb _ (.late h (by omega) (by omega))
  have g4 : (Format.expand ts).length + (Format.expand [t]).length < 2 ^ 64 := by
    by_cases h : 0 < t
    · have := g3 h
      rw [expand_one, if_neg (by omega), List.length_singleton]
      norm_num at hslots ⊢; omega
    · by_contra hc
      exact hb _ (.far (by norm_num at ht g2 ⊢; omega) (by omega) (by omega))
  refine ⟨?_, ?_, ?_⟩
  · intro x hx
    rcases List.mem_append.mp hx with hx | hx
    · exact h1 x hx
    · rw [List.mem_singleton] at hx
      subst hx
      exact ⟨by norm_num at ht g2 ⊢; omega, by omega⟩
  · rw [expand_append, List.length_append]; exact g4
  · intro i hi
    rw [expand_append, getD_append]
    split
    · exact h3 i hi
    · rename_i hl
      rw [expand_one]
      split
      · rw [List.getD_eq_getElem?_getD, List.getElem?_replicate]
        split <;> rfl
      · rename_i hneg
        rcases Nat.eq_zero_or_pos (i - (Format.expand ts).length) with h0 | h0
        · have : t = 0 := by
            by_contra hne
            have := g3 (by omega)
            omega
          rw [h0, this]; rfl
        · obtain ⟨j, hj⟩ : ∃ j, i - (Format.expand ts).length = j + 1 := ⟨i - (Format.expand ts).length - 1, by omega⟩
          rw [hj]; rfl

theorem payload_total (checks : Bool) (max : Nat) {slots : Nat} (hslots : slots < 2 ^ 64) (payload : List UInt8) :
    (∃ ts, Format.Numbers payload ts ∧ Format.Fits max slots ts) ∨ ∃ o, Format.BadPayload checks max slots payload o := by
  have key : ∀ (n : Nat) (p r : List UInt8) (ts : List Int), r.length ≤ n → Format.Numbers p ts → Format.Fits max slots ts →
      (∃ ts, Format.Numbers (p ++ r) ts ∧ Format.Fits max slots ts) ∨ ∃ o, Format.BadPayload checks max slots (p ++ r) o := by
    intro n
    induction n with
    | zero =>
      intro p r ts hn N F
      have : r = [] := List.length_eq_zero_iff.mp (by omega)
      subst this
      exact Or.inl ⟨ts, by simpa using N, F⟩
    | succ n ih =>
      intro p r ts hn N F
      by_cases hr : r = []
      · subst hr
        exact Or.inl ⟨ts, by simpa using N, F⟩
      cases hu : Format.readLeb 8 r with
      | none => exact Or.inr ⟨_, p, r, ts, rfl, N, F, Or.inl ⟨hr, hu, rfl⟩⟩
      | some x =>
        obtain ⟨u, r'⟩ := x
        by_cases hb : ∃ o, Format.BadNumber checks max slots (Format.expand ts).length (Format.unzigzag u) o
        · obtain ⟨o, hb⟩ := hb
          exact Or.inr ⟨o, p, r, ts, rfl, N, F, Or.inr ⟨u, r', hu, hb⟩⟩
        · obtain ⟨q, rfl, hq, hq1⟩ := readLeb_split hu
          have N1 : Format.Numbers q [Format.unzigzag u] := .cons hq1 .nil
          have hq2 : 0 < q.length := List.length_pos_iff.mpr hq
          rw [List.length_append] at hn
          rw [← List.append_assoc]
          exact ih (p ++ q) r' _ (by omega) (numbers_append N N1)
            (fits_snoc hslots F (by have := numbers_range N1 _ (List.mem_singleton.mpr rfl); norm_num; omega) (fun o h => hb ⟨o, h⟩))
  exact key payload.length [] payload [] le_rfl .nil ⟨by simp, by simp [expand_nil], by simp [expand_nil]⟩

end V2

/-- The message `m` is refused with outcome `o`: a check fails, or all hold and the payload is bad. -/
def Refused (fp : Fp) (T : CounterTy) (checks : Bool) (m : List UInt8) (o : Format.Refusal) : Prop :=
  (∃ e, Format.Fails m.length (Format.checklist (Settings fp) m) e ∧ o = .error e) ∨
  Format.Passes m.length (Format.checklist (Settings fp) m) ∧
    ∃ h0 : Hist T, Hist.newWithBounds fp T (Format.field 16 8 m) (Format.field 24 8 m) (Format.field 12 4 m) = .ok (.ok h0) ∧
      Format.BadPayload checks T.max h0.distinctValues ((m.drop 40).take (Format.field 4 4 m)) o

namespace V2

theorem afterCookie_refused {checks : Bool} {m : List UInt8} {o : Format.Refusal} (R : Refused fp T checks m o) :
    afterCookie fp T checks m = outcome o := by
  rcases R with ⟨e, F, rfl⟩ | ⟨P, h0, e0, B⟩
  · exact afterCookie_fails F
  · obtain ⟨h1, e1, e⟩ := afterCookie_passes (T := T) (checks := checks) P
    rw [e0] at e1
    cases e1
    have hf : Format.field 24 8 m ≤ U64MAX := by
      have := field_lt 24 8 m
      have hU : U64MAX = 18446744073709551615 := rfl
      norm_num at this; omega
    obtain ⟨W, ef, -⟩ := newWithBounds_wf hf e0
    rw [e, payload_bad W (by rw [ef]; exact fresh_getD _ _ _) B]
    cases o <;> rfl

theorem afterCookie_total (fp : Fp) (T : CounterTy) (checks : Bool) (m : List UInt8) :
    (∃ x, afterCookie fp T checks m = .ok (.ok x)) ∨ ∃ o, Refused fp T checks m o := by
  rcases fails_or_passes m.length (Format.checklist (Settings fp) m) with P | ⟨e, F⟩
  · obtain ⟨h0, e0, e⟩ := afterCookie_passes (T := T) (checks := checks) P
    have hf : Format.field 24 8 m ≤ U64MAX := by
      have := field_lt 24 8 m
      have hU : U64MAX = 18446744073709551615 := rfl
      norm_num at this; omega
    obtain ⟨W, ef, -⟩ := newWithBounds_wf hf e0
    have hs : h0.counts.length < 2 ^ 64 := by
      have := W.len_small
      have hU : U64MAX = 18446744073709551615 := rfl
      norm_num; omega
    rcases payload_total checks T.max hs ((m.drop 40).take (Format.field 4 4 m)) with ⟨ts, N, F⟩ | ⟨o, B⟩
    · left
      rw [e, (decodePayload_iff checks W (by rw [ef]; exact fresh_getD _ _ _) (by rw [ef]; rfl) (by rw [ef]; rfl) _ _).mpr
        ⟨ts, N, F, rfl⟩]
      exact ⟨_, rfl⟩
    · exact Or.inr ⟨o, Or.inr ⟨P, h0, e0, B⟩⟩
  · exact Or.inr ⟨_, Or.inl ⟨e, F, rfl⟩⟩

theorem afterCookie_iff {checks : Bool} {m : List UInt8} (o : Format.Refusal) :
    afterCookie fp T checks m = outcome o ↔ Refused fp T checks m o := by
  constructor
  · intro e
    rcases afterCookie_total fp T checks m with ⟨x, ex⟩ | ⟨o', R⟩
    · rw [ex] at e; cases o <;> cases e
    · have e' := afterCookie_refused R
      rw [e] at e'
      have : o = o' := by cases o <;> cases o' <;> cases e' <;> rfl
      rw [this]; exact R
  · exact afterCookie_refused

theorem afterCookie_panic {checks : Bool} {m : List UInt8} {p : Panic} (e : afterCookie fp T checks m = .error p) :
    p = .overflow := by
  rcases afterCookie_total fp T checks m with ⟨x, ex⟩ | ⟨o', R⟩
  · rw [ex] at e; cases e
  · have e' := afterCookie_refused R
    rw [e] at e'
    cases o' <;> cases e'
    rfl

theorem deserialize_afterCookie {z : Zlib} {checks : Bool} {m : List UInt8} (h : m.take 4 ≠ Format.bigEndian 4 0x1c849314) :
    deserialize fp z T checks m = afterCookie fp T checks m := by
  unfold deserialize afterCookie
  cases e : readBE 4 m with
  | none => rfl
  | some x =>
    obtain ⟨c, r⟩ := x
    simp only
    by_cases hc : c = COOKIE
    · rw [if_pos hc, if_neg (by simpa using hc)]
    · rw [if_neg hc, if_pos hc, if_neg]
      rintro rfl
      apply h
      rw [readBE_exact e, List.take_left' (beBytes_length _ _), bigEndian_eq]
      decide

theorem deserialize_inflated {z : Zlib} {checks : Bool} {body : List UInt8} {n : Nat} (hn : n < 2 ^ 32)
    {x : M (Except DeserializeError (Hist T × List UInt8))} (hx : ∀ y, x ≠ .ok (.ok y)) :
    deserialize fp z T checks (Format.bigEndian 4 0x1c849314 ++ Format.bigEndian 4 n ++ body) = x ↔
    afterCookie fp T checks (z.inflate (body.take n)) = x := by
  have e0 : deserialize fp z T checks (Format.bigEndian 4 0x1c849314 ++ Format.bigEndian 4 n ++ body) =
      deserV2Compressed fp z T checks (be32 n ++ body) := by
    unfold deserialize
    rw [bigEndian_eq, bigEndian_eq, List.append_assoc, readBE_be 4 _ _ (by norm_num)]
    simp only
    rw [if_neg (by decide), if_pos (by decide)]; rfl
  rw [e0]
  unfold deserV2Compressed be32 afterCookie
  rw [readBE_be 4 _ _ (by norm_num at hn ⊢; omega)]
  simp only
  cases readBE 4 (z.inflate (body.take n)) with
  | none => exact Iff.rfl
  | some y =>
    obtain ⟨c, r⟩ := y
    simp only
    by_cases hc : c ≠ COOKIE
    · rw [if_pos hc, if_pos hc]
    · rw [if_neg hc, if_neg hc]
      cases deserV2 fp T checks r with
      | error p => exact Iff.rfl
      | ok y => cases y with
        | error e => exact Iff.rfl
        | ok y => exact iff_of_false (fun h => hx _ h.symm) (fun h => hx _ h.symm)

end V2

/-- C70 (1): a message without the cookie of compressed messages is refused with exactly the error described: that of the
first check that fails, or that of the first number of the payload that is cut off or cannot be stored. -/
theorem C70_error {z : Zlib} {checks : Bool} {m : List UInt8} (hc : m.take 4 ≠ Format.bigEndian 4 0x1c849314)
    (e : DeserializeError) :
    deserialize fp z T checks m = .ok (.error e) ↔ Refused fp T checks m (.error e) := by
  rw [deserialize_afterCookie hc]
  exact afterCookie_iff (.error e)

/-- C70 (2): it makes the deserializer panic exactly if all checks hold and, after numbers that can be stored, the payload
has the number -2^63, in a build with overflow checks. -/
theorem C70_panic {z : Zlib} {checks : Bool} {m : List UInt8} (hc : m.take 4 ≠ Format.bigEndian 4 0x1c849314) (p : Panic) :
    deserialize fp z T checks m = .error p ↔ p = .overflow ∧ Refused fp T checks m .overflow := by
  rw [deserialize_afterCookie hc]
  constructor
  · intro e
    obtain rfl := afterCookie_panic e
    exact ⟨rfl, (afterCookie_iff .overflow).mp e⟩
  · rintro ⟨rfl, R⟩
    exact (afterCookie_iff .overflow).mpr R

/-- C70 (3): a compressed message is refused exactly if what it inflates to is no acceptable uncompressed message, with the
same outcome. A message that ends before its length is refused with `IoError`. -/
theorem C70_compressed {z : Zlib} {checks : Bool} {body : List UInt8} {n : Nat} (hn : n < 2 ^ 32) :
    (∀ e, deserialize fp z T checks (Format.bigEndian 4 0x1c849314 ++ Format.bigEndian 4 n ++ body) = .ok (.error e) ↔
      Refused fp T checks (z.inflate (body.take n)) (.error e)) ∧
    (∀ p, deserialize fp z T checks (Format.bigEndian 4 0x1c849314 ++ Format.bigEndian 4 n ++ body) = .error p ↔
      p = .overflow ∧ Refused fp T checks (z.inflate (body.take n)) .overflow) ∧
    (∀ m : List UInt8, m.length < 4 → deserialize fp z T checks (Format.bigEndian 4 0x1c849314 ++ m) = .ok (.error .IoError)) := by
  refine ⟨fun e => ?_, fun p => ?_, fun m hm => ?_⟩
  · rw [deserialize_inflated hn (by intro y h; cases h)]
    exact afterCookie_iff (.error e)
  · rw [deserialize_inflated hn (by intro y h; cases h)]
    constructor
    · intro e
      obtain rfl := afterCookie_panic e
      exact ⟨rfl, (afterCookie_iff .overflow).mp e⟩
    · rintro ⟨rfl, R⟩
      exact (afterCookie_iff .overflow).mpr R
  · unfold deserialize
    rw [bigEndian_eq, readBE_be 4 _ _ (by norm_num)]
    simp only
    rw [if_neg (by decide), if_pos (by decide)]
    unfold deserV2Compressed
    have : readBE 4 m = none := readBE_short (k := 0) (by norm_num) (by simpa using hm)
    rw [this]; rfl

/-! ### Cases -/

/-- a header for `Histogram::<u8>::new_with_bounds(1, 15, 0)` with a payload -/
def demoMessage (payload : List UInt8) : List UInt8 :=
  Format.bigEndian 4 0x1c849313 ++ Format.bigEndian 4 payload.length ++ Format.bigEndian 4 0 ++ Format.bigEndian 4 0
    ++ Format.bigEndian 8 1 ++ Format.bigEndian 8 15 ++ Format.bigEndian 8 0x3FF0000000000000 ++ payload

/-- the checklist and the payload, taken literally: 300 does not fit a `u8` -/
example : Refused Fp.ideal .u8 true (demoMessage [2, 0xd8, 0x04]) (.error .UnsuitableCounterType) := by
  refine Or.inr ⟨?_, demo, demo_eq, [2], [0xd8, 0x04], [1], by decide, .cons (u := 2) rfl .nil,
    ⟨by decide, by decide, fun i hi => ?_⟩, Or.inr ⟨600, [], rfl, .large (by decide)⟩⟩
  · unfold Format.checklist Format.Passes
    simp only [List.forall_mem_cons]
    exact ⟨by decide, by decide, by decide, by decide, ⟨by decide, by unfold Settings; decide⟩, by decide, by simp⟩
  · obtain ⟨j, rfl⟩ : ∃ j, i = j + 1 := ⟨i - 1, by have : 5 ≤ i := hi; omega⟩
    rfl

/-- cut off in the header, in the payload, in a number -/
example : Refused Fp.ideal .u8 true ((demoMessage [2]).take 39) (.error .IoError) ∧
    Refused Fp.ideal .u8 true ((demoMessage [2]).take 40) (.error .IoError) ∧
    Refused Fp.ideal .u8 true (demoMessage [2, 0x80]) (.error .IoError) :=
  ⟨(C70_error (z := Zlib.stored) (by decide) _).mp (by decide +kernel),
    (C70_error (z := Zlib.stored) (by decide) _).mp (by decide +kernel),
    (C70_error (z := Zlib.stored) (by decide) _).mp (by decide +kernel)⟩

/-- the sixth class, past the last one -/
example : Refused Fp.ideal .u8 true (demoMessage [9, 2]) (.error .EncodedArrayTooLong) :=
  (C70_error (z := Zlib.stored) (by decide) _).mp (by decide +kernel)

/-- three runs of 2^63-1 zeros, with overflow checks and without -/
example : ∀ checks, Refused Fp.ideal .u8 checks (demoMessage (List.replicate 3 [0xfd, 255, 255, 255, 255, 255, 255, 255, 255]).flatten)
    (.error .UsizeTypeTooSmall) := fun checks => by
  cases checks
  · exact (C70_error (z := Zlib.stored) (by decide) _).mp (by decide +kernel)
  · exact (C70_error (z := Zlib.stored) (by decide) _).mp (by decide +kernel)

/-- the number -2^63 -/
example : Refused Fp.ideal .u8 true (demoMessage (.replicate 9 255)) .overflow ∧
    Refused Fp.ideal .u8 false (demoMessage (.replicate 9 255)) (.error .UsizeTypeTooSmall) :=
  ⟨((C70_panic (z := Zlib.stored) (by decide) .overflow).mp (by decide +kernel)).2,
    (C70_error (z := Zlib.stored) (by decide) _).mp (by decide +kernel)⟩

end Hdr
