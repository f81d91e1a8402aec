import Verif.Proofs.LogWrite
import Verif.Spec.LogDemo
import Verif.Props.Wire

/-!
# Interval logs: C43, C44, C45, C46, C54
-/

namespace Hdr

open Hdr.Log Hdr.F64

variable {T : CounterTy} {ε : Type} {fp : Fp}

/-! ## C44 -/

/-- C44 (1): on every input the iterator yields some entries, no more than there are bytes, and then either ends or
reports one error and ends; it never panics. (`Yields` includes that it goes on answering `None`.) The offset of an error
is where reading stopped: what is before it reads to the same entries and no error, what is after it yields an error at
its very beginning. -/
theorem C44_total {D : Dbl} (L : D.Lawful) (i : Bytes) : ∃ (es : List Entry) (tail : List (Except Nat Entry)),
    Yields D (Iter.new i) (es.map .ok ++ tail) ∧ es.length + tail.length ≤ i.length ∧
      (tail = [] ∨ ∃ o, tail = [.error o] ∧ o < i.length ∧ Yields D (Iter.new (i.take o)) (es.map .ok) ∧
        Yields D (Iter.new (i.drop o)) [.error 0]) := by
  obtain ⟨es, x, h⟩ := reads_exists D i
  have hl := reads_length h
  cases x with
  | none => exact ⟨es, [], reads_yields_new L h, by simpa using hl, Or.inl rfl⟩
  | some r =>
    obtain ⟨p, rfl, h2, h3⟩ := reads_split h
    have hr : 0 < r.length := by
      generalize hx : some r = x at h3
      cases h3 with
      | nil => cases hx
      | skip _ _ h5 => subst hx; have := reads_length h5; simp at this ⊢
      | stuck h4 _ => cases hx; exact List.length_pos_iff.mpr h4
    refine ⟨es, [.error p.length], ?_, ?_, Or.inr ⟨p.length, rfl, by rw [List.length_append]; omega, ?_, ?_⟩⟩
    · have := reads_yields_new L h
      simpa [errs] using this
    · simp at hl ⊢; omega
    · rw [List.take_left']
      · simpa [errs] using reads_yields_new L h2
      · rfl
    · rw [List.drop_left']
      · simpa [errs] using reads_yields_new L h3
      · rfl

/-- C44 (2): what the iterator yields is determined, so C44 (1) describes every run. -/
theorem C44_determined {D : Dbl} {it : Iter} {xs ys : List (Except Nat Entry)} (h : Yields D it xs) (h' : Yields D it ys) :
    xs = ys := yields_unique h h'

/-- text with an entry, a comment and something else -/
def logSample : Bytes := Str.bytes "#[StartTime: 12.5 s]\n# x\n1.0,2.5,3.000,AB\r\noops\n".toList

example : Dbl.decimal.Lawful ∧ ∃ it it', (Iter.new logSample).next Dbl.decimal = .ok (some (.ok (.startTime ⟨12, 500000000⟩)), it) ∧
    it.next Dbl.decimal = .ok (some (.ok (.interval ⟨none, ⟨1, 0⟩, ⟨2, 500000000⟩, Str.bytes "3.000".toList, "AB".toList⟩)), it') ∧
    ∃ it2, it'.next Dbl.decimal = .ok (some (.error 43), it2) :=
  ⟨Dbl.decimal_lawful, ⟨logSample.length, logSample.drop 21, false⟩, ⟨logSample.length, logSample.drop 43, false⟩,
    by decide +kernel, by decide +kernel, ⟨logSample.length, logSample.drop 43, true⟩, by decide +kernel⟩

/-! ## C46 -/

/-- C46 (1): `S.F` parses to `S` seconds and the fraction `0.F`, rounded down to nanoseconds, whatever the number of
digits; what follows the digits is left. -/
theorem C46_duration {S F : Str} (hS : Digits S) (hS0 : S ≠ []) (hF : Digits F) (hF0 : F ≠ []) (hfit : decVal S ≤ U64MAX)
    {rest : Bytes} (hr : ∀ b r, rest = b :: r → isDigit b = false) :
    fractSecDuration (Str.bytes (S ++ '.' :: F) ++ rest) = .ok (some (⟨decVal S, fracNanos F⟩, rest)) := by
  refine fractSecDuration_some.mpr ⟨_, ⟨Str.bytes S, Str.bytes F, F, ?_, ⟨S, fromUtf8_bytes S, ?_⟩,
    ⟨?_, hF.isDigit, fromUtf8_bytes F⟩, rfl⟩, rfl, hr⟩
  · rw [bytes_append, bytes_cons]; rfl
  · rw [parseUnsigned_digits hS hS0, if_pos hfit]
  · intro hh
    have := digits_bytes_length hF.ascii
    rw [hh] at this
    exact hF0 (List.length_eq_zero_iff.mp this.symm)

/-- C46 (2): the value of the result is the number written, less than a nanosecond too small. -/
theorem C46_value (S F : Str) (hF : Digits F) :
    let d : Dur := ⟨decVal S, fracNanos F⟩
    let x : ℚ := decVal S + decVal F / 10 ^ F.length
    d.nanos < 1000000000 ∧ d.val ≤ x ∧ x < d.val + 1 / 1000000000 := by
  intro d x
  have hlt := decVal_lt hF
  have hp : 0 < 10 ^ F.length := by positivity
  refine ⟨?_, ?_⟩
  · show fracNanos F < 1000000000
    unfold fracNanos
    rw [Nat.div_lt_iff_lt_mul hp]
    nlinarith
  · have h1 := Nat.div_mul_le_self (decVal F * 1000000000) (10 ^ F.length)
    have h2 := Nat.lt_div_mul_add (a := decVal F * 1000000000) hp
    have e : d.nanos = decVal F * 1000000000 / 10 ^ F.length := rfl
    rw [← e] at h1 h2
    have h1' : (d.nanos : ℚ) * 10 ^ F.length ≤ decVal F * 1000000000 := by exact_mod_cast h1
    have h2' : (decVal F : ℚ) * 1000000000 < d.nanos * 10 ^ F.length + 10 ^ F.length := by exact_mod_cast h2
    have hp' : (0 : ℚ) < 10 ^ F.length := by positivity
    have es : d.val = decVal S + (d.nanos : ℚ) / 1000000000 := rfl
    have ex : x = decVal S + decVal F / 10 ^ F.length := rfl
    rw [es, ex]
    generalize (10 : ℚ) ^ F.length = p at *
    have k1 : (d.nanos : ℚ) / 1000000000 ≤ decVal F / p := by
      rw [div_le_div_iff₀ (by norm_num) hp']; exact h1'
    have k2 : (decVal F : ℚ) / p < d.nanos / 1000000000 + 1 / 1000000000 := by
      rw [← add_div, div_lt_div_iff₀ hp' (by norm_num)]
      linarith
    constructor <;> linarith

/-- C46 (3): seconds that do not fit are refused, and no input makes the parser panic. -/
theorem C46_overflow {S F : Str} (hS : Digits S) (hbig : U64MAX < decVal S) (rest : Bytes) :
    fractSecDuration (Str.bytes (S ++ '.' :: F) ++ rest) = .ok none ∧ ∀ i, ∃ x, fractSecDuration i = .ok x := by
  refine ⟨?_, fractSecDuration_ok⟩
  obtain ⟨o, ho⟩ := fractSecDuration_ok (Str.bytes (S ++ '.' :: F) ++ rest)
  cases o with
  | none => exact ho
  | some p =>
    exfalso
    obtain ⟨d, r⟩ := p
    obtain ⟨x, ⟨a, b, s, rfl, ha, -, -⟩, h2, -⟩ := fractSecDuration_some.mp ho
    rw [bytes_append, bytes_cons, show String.utf8EncodeChar '.' = [46] by decide] at h2
    have e1 := takeUntil_some.mpr ⟨ha.not_mem (c := 46) (by decide) (by decide), b ++ r, rfl, rfl⟩
    have e2 := takeUntil_some.mpr ⟨(bytes_not_mem (c := '.') (s := S) (by decide)
      (fun h => absurd (hS _ h) (by decide))), Str.bytes F ++ rest, rfl, rfl⟩
    have e3 : a ++ 46 :: (b ++ r) = Str.bytes S ++ 46 :: (Str.bytes F ++ rest) := by simpa using h2.symm
    change takeUntil 46 (Str.bytes S ++ 46 :: (Str.bytes F ++ rest)) = _ at e2
    rw [e3, e2] at e1
    simp only [Option.some.injEq, Prod.mk.injEq] at e1
    obtain ⟨s', h3, h4⟩ := ha
    rw [← e1.1, fromUtf8_bytes] at h3
    cases h3
    have hne : S ≠ [] := by rintro rfl; simp [decVal] at hbig
    rw [parseUnsigned_digits hS hne, if_neg (by omega)] at h4
    cases h4

example : fractSecDuration (Str.bytes "1468603200.1234567899,".toList) = .ok (some (⟨1468603200, 123456789⟩, [44])) ∧
    fracNanos "05".toList = 50000000 ∧ fractSecDuration (Str.bytes "18446744073709551616.0,".toList) = .ok none := by
  decide +kernel

/-! ## C54 -/

/-- C54 (1): the text consists of the 64 letters of the alphabet and padding. -/
theorem C54_alphabet (b : Bytes) : ∀ c ∈ b64Encode b, (b64Val c).isSome ∨ c = '=' := by
  intro c hc
  rcases b64_mem b c hc with h | h
  · left
    have : ∀ c ∈ b64Table, (b64Val c).isSome = true := by decide
    exact this c h
  · exact Or.inr h

/-- C54 (2): so it contains no separator of the log. -/
theorem C54_line_safe (b : Bytes) : ',' ∉ b64Encode b ∧ '\n' ∉ b64Encode b ∧ '\r' ∉ b64Encode b ∧ ' ' ∉ b64Encode b :=
  ⟨b64_not_mem (by decide) (by decide) b, b64_not_mem (by decide) (by decide) b, b64_not_mem (by decide) (by decide) b,
    b64_not_mem (by decide) (by decide) b⟩

/-- C54 (3): decoding gives back the bytes. -/
theorem C54_decode (b : Bytes) : b64Decode (b64Encode b) = some b := b64_decode_encode b

example : b64Encode (Str.bytes "foobar".toList) = "Zm9vYmFy".toList ∧ b64Encode (Str.bytes "fooba".toList) = "Zm9vYmE=".toList ∧
    b64Encode (Str.bytes "foob".toList) = "Zm9vYg==".toList ∧ b64Decode "Zm9vYg=".toList = none := by decide +kernel

/-! ## C45 -/

/-- C45 (1): a tag is a string without separators, and is that string. -/
theorem C45_new (s : Str) : ((Tag.new s).isSome ↔ ∀ c ∈ s, c ≠ ',' ∧ c ≠ '\r' ∧ c ≠ '\n' ∧ c ≠ ' ') ∧
    ∀ t, Tag.new s = some t → t.asStr = s := by
  refine ⟨?_, fun t h => (Tag.new_iff.mp h).1⟩
  rw [Option.isSome_iff_exists]
  constructor
  · rintro ⟨t, h⟩; exact (Tag.new_iff.mp h).2
  · intro h; exact ⟨⟨s⟩, Tag.new_iff.mpr ⟨rfl, h⟩⟩

/-- C45 (2) (partial: the times and the maximum must be such that the line can be read at all, see
`C45_readback_refuted`): the line written for a histogram with a tag is read back as one interval with that tag. -/
theorem C45_readback_partial {D : Dbl} (L : D.Lawful) {f : Fmt} {divisor : F64} {ser : Hist T → M (Except ε Bytes)} {h : Hist T}
    {start duration : Dur} {s : Str} {t : Tag} (ht : Tag.new s = some t) {b : Bytes} (hst : start.Loggable)
    (hdu : duration.Loggable) (hmax : ∃ m q, h.max = .ok m ∧ F64.div (F64.ofNat m) divisor = .fin q)
    (hw : writeHistogram f divisor ser h start duration (some t) = .ok (b, .ok ())) :
    ∃ iv : Interval, Yields D (Iter.new b) [.ok (.interval iv)] ∧ iv.tag = some s := by
  obtain ⟨m, buf, s', d', -, -, -, -, h1⟩ := writeHistogram_reads L hst hdu (fun t' h => ⟨s, by cases h; exact ht⟩) hmax hw
  exact ⟨_, by simpa [errs] using reads_yields_new L h1, by
    show some t.str = some s
    rw [(Tag.new_iff.mp ht).1]⟩

/-- With a time near `2^64` seconds the line is written, but reading it is an error. -/
theorem C45_readback_refuted : ∃ b, Tag.new ['t'] = some ⟨['t']⟩ ∧
    writeHistogram Fmt.halfUp (.fin 1) (v2Ser fun _ => 0) demo3 ⟨U64MAX, 0⟩ ⟨1, 0⟩ (some ⟨['t']⟩) = .ok (b, .ok ()) ∧
    ∃ it, (Iter.new b).next Dbl.decimal = .ok (some (.error 0), it) := by
  have h : ((writeHistogram Fmt.halfUp (.fin 1) (v2Ser fun _ => 0) demo3 ⟨U64MAX, 0⟩ ⟨1, 0⟩ (some ⟨['t']⟩)).toOption.map
      fun p => (p.2.toOption.isSome, ((Iter.new p.1).next Dbl.decimal).toOption.bind fun x => x.1)) = some (true, some (.error 0)) := by
    decide +kernel
  revert h
  cases e : writeHistogram Fmt.halfUp (.fin 1) (v2Ser fun _ => 0) demo3 ⟨U64MAX, 0⟩ ⟨1, 0⟩ (some ⟨['t']⟩) with
  | error x => intro h; cases h
  | ok p =>
    intro h
    obtain ⟨b, r⟩ := p
    cases r with
    | error x => cases h
    | ok u =>
      refine ⟨b, by decide, rfl, ?_⟩
      have h2 : (((Iter.new b).next Dbl.decimal).toOption.bind fun x => x.1) = some (.error 0) := by
        have := congrArg (fun o => o.bind Prod.snd) h
        exact this
      revert h2
      cases e2 : (Iter.new b).next Dbl.decimal with
      | error x => intro h2; cases h2
      | ok y =>
        intro h2
        obtain ⟨y1, y2⟩ := y
        exact ⟨y2, by cases h2; rfl⟩

/-- C45 (3): the parser, though, makes tags `Tag::new` would refuse. -/
theorem C45_parsed_tag_not_valid : ∃ b : Bytes, ∃ iv it, (Iter.new b).next Dbl.decimal = .ok (some (.ok (.interval iv)), it) ∧
    ∃ t, iv.tag = some t ∧ Tag.new t = none :=
  ⟨Str.bytes "Tag=a b,1.0,2.0,3.0,AA==\n".toList,
    ⟨some "a b".toList, ⟨1, 0⟩, ⟨2, 0⟩, Str.bytes "3.0".toList, "AA==".toList⟩, ⟨25, [], false⟩, by decide +kernel,
    "a b".toList, rfl, by decide⟩

example : Tag.new "a=b".toList = some ⟨"a=b".toList⟩ ∧ Tag.new "a,b".toList = none ∧
    ∃ b, writeHistogram Fmt.halfUp (.fin 1) (v2Ser fun _ => 0) demo3 ⟨1, 0⟩ ⟨2, 0⟩ (some ⟨"a=b".toList⟩)
      = .ok (b, .ok ()) ∧ b.take 24 = Str.bytes "Tag=a=b,1.000,2.000,15.0".toList := by
  refine ⟨by decide, by decide, ?_⟩
  have : (match writeHistogram Fmt.halfUp (.fin 1) (v2Ser fun _ => 0) demo3 ⟨1, 0⟩ ⟨2, 0⟩ (some ⟨"a=b".toList⟩) with
    | .ok (b, .ok ()) => decide (b.take 24 = Str.bytes "Tag=a=b,1.000,2.000,15.0".toList)
    | _ => false) = true := by decide +kernel
  split at this
  · rename_i b hb; exact ⟨b, hb, of_decide_eq_true this⟩
  · cases this

/-! ## C43 -/

/-- C43 (1) (partial: without comments that look like time headers, times before the epoch or within 1024 seconds of
2^64, quotients of maximum and divisor that are not finite, see the theorems `C43_…_refuted`): if writing the headers and
all calls succeeded, the parser yields the header times and one interval for each histogram, in order, and nothing else,
not even an error. Tags, payloads and the text of the maximum are the same, times are the same at the precision of the
log. -/
theorem C43_round_trip_partial {D : Dbl} (L : D.Lawful) {f : Fmt} {b : Builder} {ser : Ser ε} {ops : List Op}
    {st bt : Option Dur} {out : Bytes} (hc : ∀ s ∈ b.comments, Plain s)
    (hst : b.startTime = st.map fun d => systemTimeAsFpSeconds (.afterEpoch d))
    (hbt : b.baseTime = bt.map fun d => systemTimeAsFpSeconds (.afterEpoch d))
    (hs : ∀ d, st = some d → d.Loggable) (hb : ∀ d, bt = some d → d.Loggable)
    (hl : ∀ op ∈ ops, op.Loggable b.maxValueDivisor) (h : writeLog f b ser ops = .ok (.ok out)) :
    ∃ es es', Intended f b.maxValueDivisor ser ops es ∧ List.Forall₂ SameEntry (headerEntries st bt ++ es) es' ∧
      Yields D (Iter.new out) (es'.map .ok) := by
  obtain ⟨es, es', h1, h2, h3⟩ := writeLog_reads L hc hst hbt hs hb hl h
  exact ⟨es, es', h1, h2, by simpa [errs] using reads_yields_new L h3⟩

/-- C43 (2): "the same at the precision of the log" is equality for times in whole milliseconds below 2^40 seconds (over
30000 years). -/
theorem C43_exact {d d' : Dur} (h : SameTime d d') (hv : d.Valid) (hms : 1000000 ∣ d.nanos) (hlt : d.secs < 2 ^ 40) : d' = d := by
  obtain ⟨⟨h1, h2⟩, ⟨k', hk'⟩, h3⟩ := h
  obtain ⟨h4, h5⟩ := hv
  obtain ⟨k, hk⟩ := hms
  have e : ∀ (x : Dur) (j : Nat), x.nanos = 1000000 * j → x.val = ((x.secs * 1000 + j : ℕ) : ℚ) / 1000 := by
    intro x j hj
    unfold Dur.val
    rw [hj]
    push_cast
    ring
  have ed := e d k hk
  have ed' := e d' k' hk'
  have hvlt : d.val / 2 ^ 51 < 1 / 2000 := by
    have : (d.secs * 1000 + k : ℕ) < 2 ^ 40 * 1000 := by
      norm_num at hlt ⊢
      omega
    have h6 : ((d.secs * 1000 + k : ℕ) : ℚ) < 2 ^ 40 * 1000 := by exact_mod_cast this
    rw [ed]
    norm_num at h6 ⊢
    linarith
  have h7 : |d'.val - d.val| < 1 / 1000 := by linarith
  rw [ed, ed', abs_lt] at h7
  have h8 : d'.secs * 1000 + k' = d.secs * 1000 + k := by
    have a1 : ((d'.secs * 1000 + k' : ℕ) : ℚ) < ((d.secs * 1000 + k + 1 : ℕ) : ℚ) := by
      push_cast at h7 ⊢; linarith [h7.2]
    have a2 : ((d.secs * 1000 + k : ℕ) : ℚ) < ((d'.secs * 1000 + k' + 1 : ℕ) : ℚ) := by
      push_cast at h7 ⊢; linarith [h7.1]
    have b1 : d'.secs * 1000 + k' < d.secs * 1000 + k + 1 := by exact_mod_cast a1
    have b2 : d.secs * 1000 + k < d'.secs * 1000 + k' + 1 := by exact_mod_cast a2
    omega
  cases d; cases d'
  simp only [Dur.mk.injEq] at *
  omega

theorem intended_mem {f : Fmt} {x : F64} {ser : Ser ε} {ops : List Op} {es : List Entry} (I : Intended f x ser ops es)
    {h : Hist T} {s d : Dur} {tag : Option Tag} (hm : Op.hist h s d tag ∈ ops) :
    ∃ m buf, h.max = .ok m ∧ ser h = .ok (.ok buf) ∧ Entry.interval ⟨tag.map Tag.asStr, s, d,
      Str.bytes (f.fixed3 (F64.div (F64.ofNat m) x)), b64Encode buf⟩ ∈ es := by
  induction I with
  | nil => cases hm
  | comment _ ih =>
    rcases List.mem_cons.mp hm with hm | hm
    · cases hm
    · exact ih hm
  | hist h1 h2 _ ih =>
    rcases List.mem_cons.mp hm with hm | hm
    · cases hm
      exact ⟨_, _, h1, h2, by simp⟩
    · obtain ⟨m, buf, j1, j2, j3⟩ := ih hm
      exact ⟨m, buf, j1, j2, by simp [j3]⟩

theorem forall₂_mem {α β : Type} {R : α → β → Prop} {xs : List α} {ys : List β} (h : List.Forall₂ R xs ys) {x : α}
    (hx : x ∈ xs) : ∃ y ∈ ys, R x y := by
  induction h with
  | nil => cases hx
  | cons h1 _ ih =>
    rcases List.mem_cons.mp hx with rfl | hx
    · exact ⟨_, by simp, h1⟩
    · obtain ⟨y, hy, hr⟩ := ih hx; exact ⟨y, by simp [hy], hr⟩

/-- C43 (3) (partial: as C43 (1)): with the V2 serializer, each histogram written is in the log as an interval with its
tag and times whose payload, decoded from base64 and deserialized, has the histogram's configuration and counts. -/
theorem C43_histograms_partial {D : Dbl} (L : D.Lawful) {f : Fmt} {b : Builder} {junk : Nat → UInt8} {ops : List Op}
    {st bt : Option Dur} {out : Bytes} (hc : ∀ s ∈ b.comments, Plain s)
    (hst : b.startTime = st.map fun d => systemTimeAsFpSeconds (.afterEpoch d))
    (hbt : b.baseTime = bt.map fun d => systemTimeAsFpSeconds (.afterEpoch d))
    (hs : ∀ d, st = some d → d.Loggable) (hb : ∀ d, bt = some d → d.Loggable)
    (hl : ∀ op ∈ ops, op.Loggable b.maxValueDivisor) (h : writeLog f b (v2Ser junk) ops = .ok (.ok out)) :
    ∃ es : List Entry, Yields D (Iter.new out) (es.map .ok) ∧
      ∀ {T : CounterTy} (h : Hist T) (s d : Dur) (tag : Option Tag), Op.hist h s d tag ∈ ops → Reachable fp T h →
        ∃ iv bytes, Entry.interval iv ∈ es ∧ iv.tag = tag.map Tag.asStr ∧ SameTime s iv.start ∧ SameTime d iv.duration ∧
          b64Decode iv.encoded = some bytes ∧
          ∀ (z : V2.Zlib) (checks : Bool), ∃ g, V2.deserialize fp z T checks bytes = .ok (.ok (g, [])) ∧ Restored h g := by
  obtain ⟨es, es', h1, h2, h3⟩ := C43_round_trip_partial L hc hst hbt hs hb hl h
  refine ⟨es', h3, ?_⟩
  intro T h s d tag hm R
  obtain ⟨m, buf, j1, j2, j3⟩ := intended_mem h1 hm
  obtain ⟨e', k1, k2⟩ := forall₂_mem h2 (List.mem_append_right _ j3)
  cases k2 with
  | @interval _ _ s' _ d' _ _ l1 l2 =>
    refine ⟨_, buf, k1, rfl, l1, l2, b64_decode_encode buf, fun z checks => ?_⟩
    unfold v2Ser at j2
    rw [M.bind_eq_ok] at j2
    obtain ⟨o, n1, n2⟩ := j2
    cases o with
    | error e => cases n2
    | ok p =>
      obtain ⟨bs, n⟩ := p
      cases n2
      have C := R.wf.classes
      obtain ⟨g, o1, o2, -⟩ := C36_round_trip R n1 z checks T C (fun c hc => by
        obtain ⟨i, hi, rfl⟩ := (R.wf.mem_classes C).mp hc
        exact R.wf.getD_le i)
      exact ⟨g, o1, o2⟩

/-- a log with comments, both headers and two histograms, one tagged -/
def logDemo : M (Except V2.SerializeError Bytes) :=
  writeLog Fmt.halfUp (((Builder.new.addComment "made by hand\nsecond line".toList).withStartTime (.afterEpoch ⟨1700000000, 0⟩)).withBaseTime
    (.afterEpoch ⟨5, 0⟩)) (v2Ser fun _ => 0)
    [.comment "one".toList, .hist demo3 ⟨1, 0⟩ ⟨2, 0⟩ (some ⟨"x".toList⟩), .hist demo ⟨3, 0⟩ ⟨4, 0⟩ none]

example : (match logDemo with
    | .ok (.ok b) => decide (b = Str.bytes ("#made by hand\n#second line\n#[StartTime: 1700000000.000 (seconds since epoch)]\n" ++
      "#[BaseTime: 5.000 (seconds since epoch)]\n#one\nTag=x,1.000,2.000,15.000," ++
      "HISTEwAAAAUAAAAAAAAAAAAAAAAAAAABAAAAAAAAAA8/8AAAAAAAAAIDBpAD\n3.000,4.000,0.000," ++
      "HISTEwAAAAEAAAAAAAAAAAAAAAAAAAABAAAAAAAAAA8/8AAAAAAAAAA=\n").toList)
    | _ => false) = true := by decide +kernel

example : Plain "made by hand\nsecond line".toList ∧ Dur.Loggable ⟨1700000000, 0⟩ ∧
    Op.Loggable (.fin 1) (.hist demo3 ⟨1, 0⟩ ⟨2, 0⟩ (some ⟨"x".toList⟩)) := by
  refine ⟨by unfold Plain; decide, by unfold Dur.Loggable Dur.Valid; decide, by unfold Dur.Loggable Dur.Valid; decide,
    by unfold Dur.Loggable Dur.Valid; decide, fun t h => ⟨"x".toList, by cases h; decide⟩, 15, 15, by decide, by decide +kernel⟩

/-- C43 fails for comments that look like a header: this log, written with only a comment, reads as a start time. -/
theorem C43_comment_refuted {D : Dbl} (L : D.Lawful) (f : Fmt) (ser : Ser ε) :
    ∃ out, writeLog f (Builder.new.addComment "[StartTime: 1.0 x".toList) ser [] = .ok (.ok out) ∧
      Yields D (Iter.new out) [.ok (.startTime ⟨1, 0⟩)] ∧ headerEntries none none = [] ∧
      ∀ es, Intended f (.fin 1) ser [] es → es = [] := by
  refine ⟨Str.bytes "#[StartTime: 1.0 x\n".toList, ?_, ?_, rfl, fun es h => by cases h; rfl⟩
  · rfl
  · have h : Reads D (Str.bytes "#[StartTime: 1.0 x\n".toList) [.startTime ⟨1, 0⟩] none := by
      have e : Str.bytes "#[StartTime: 1.0 x\n".toList = Str.bytes "#[StartTime: 1.0 x".toList ++ 10 :: [] := by decide
      rw [e]
      refine .entry (e := .startTime ⟨1, 0⟩) ⟨Str.bytes "1.0".toList, Str.bytes "x".toList, ?_, by decide, by decide⟩ .nil
      exact ⟨[49], [48], ['0'], by decide, ⟨['1'], by decide +kernel, by decide⟩, ⟨by decide, by decide, by decide +kernel⟩, by decide⟩
    simpa [errs] using reads_yields_new L h

/-- a header line whose time does not parse is passed over -/
theorem header_lost_reads {D : Dbl} {t : Str} (ht : t = startTimeTag ∨ t = baseTimeTag) {x : Str}
    (hx1 : ' ' ∉ x) (hx2 : '\n' ∉ x) (hx : ∀ d, ¬ DurText (Str.bytes x) d) :
    Reads D (Str.bytes (t ++ x ++ epochText)) [] none := by
  have e : Str.bytes (t ++ x ++ epochText) =
      (Str.bytes t ++ (Str.bytes x ++ 32 :: Str.bytes "(seconds since epoch)]".toList)) ++ 10 :: [] := by
    rw [bytes_append, bytes_append,
      show Str.bytes epochText = 32 :: (Str.bytes "(seconds since epoch)]".toList ++ [10]) by decide]
    simp
  have ht10 : 10 ∉ Str.bytes t := by rcases ht with rfl | rfl <;> decide
  have hno : ∀ t' d, (t' = startTimeTag ∨ t' = baseTimeTag) →
      ¬ HeaderText t' (Str.bytes t ++ (Str.bytes x ++ 32 :: Str.bytes "(seconds since epoch)]".toList)) d := by
    rintro t' d ht' ⟨y, z, h1, -, h3⟩
    have htt : t' = t := by
      rcases ht with rfl | rfl <;> rcases ht' with rfl | rfl
      · rfl
      · rw [startTag_bytes, baseTag_bytes] at h3; simp at h3
      · rw [startTag_bytes, baseTag_bytes] at h3; simp at h3
      · rfl
    subst htt
    have h4 := List.append_cancel_left h3
    have e1 := takeUntil_some.mpr ⟨bytes_not_mem (c := ' ') (by decide) hx1, Str.bytes "(seconds since epoch)]".toList, rfl, rfl⟩
    change takeUntil 32 (Str.bytes x ++ 32 :: Str.bytes "(seconds since epoch)]".toList) = _ at e1
    have e2 := takeUntil_some.mpr ⟨h1.not_mem (c := 32) (by decide) (by decide) (by decide), z, rfl, rfl⟩
    rw [h4, e2] at e1
    simp only [Option.some.injEq, Prod.mk.injEq] at e1
    exact hx d (e1.1 ▸ h1)
  rw [e]
  refine .skip ⟨?_, Or.inl ?_⟩ ?_ .nil
  · have := bytes_not_mem (c := '\n') (by decide) hx2
    change 10 ∉ Str.bytes x at this
    have h2 : 10 ∉ Str.bytes "(seconds since epoch)]".toList := by decide
    simp only [List.mem_append, List.mem_cons]
    rintro (h | h | h | h)
    · exact ht10 h
    · exact this h
    · cases h
    · exact h2 h
  · rcases ht with rfl | rfl
    · rw [startTag_bytes]; exact ⟨_, rfl⟩
    · rw [baseTag_bytes]; exact ⟨_, rfl⟩
  · intro en he
    cases en with
    | startTime d => exact hno _ d (Or.inl rfl) he
    | baseTime d => exact hno _ d (Or.inr rfl) he
    | interval iv =>
      obtain ⟨b, y, h5, h6⟩ := IntervalText.head he
      have : b = 35 := by
        rcases ht with rfl | rfl
        · rw [startTag_bytes] at h5; simp at h5; exact h5.1.symm
        · rw [baseTag_bytes] at h5; simp at h5; exact h5.1.symm
      rw [this] at h6
      revert h6; decide

theorem milli_no_space (n : Nat) : ' ' ∉ milli n := by
  intro hn
  obtain ⟨h1, -, -⟩ := decimal_spec (n / 1000)
  obtain ⟨h4, -, -⟩ := pad3_spec (n := n % 1000) (by omega)
  unfold milli at hn
  rcases List.mem_append.mp hn with hn | hn
  · exact absurd (h1 _ hn) (by decide)
  · rcases List.mem_cons.mp hn with hn | hn
    · cases hn
    · exact absurd (h4 _ hn) (by decide)

/-- the text of a time before the epoch is no duration -/
theorem before_text (f : Fmt) {d : Dur} (hd : d.Valid) (h0 : 0 < d.val) :
    ' ' ∉ f.fixed3 (systemTimeAsFpSeconds (.beforeEpoch d)) ∧
      ∀ d', ¬ DurText (Str.bytes (f.fixed3 (systemTimeAsFpSeconds (.beforeEpoch d)))) d' := by
  obtain ⟨q, e, hq0, hq, -⟩ := fpSeconds hd
  have hqpos : 0 < q := by
    rw [abs_le] at hq
    norm_num at hq
    linarith [hq.1]
  have hq65 : q ≤ 2 ^ 66 := by
    rw [abs_le] at hq
    obtain ⟨h1, h2⟩ := hd
    have h3 : (d.secs : ℚ) ≤ 2 ^ 64 := by
      have : (d.secs : ℚ) ≤ (U64MAX : ℕ) := by exact_mod_cast h1
      rw [U64MAX_q] at this; linarith
    have h4 : (d.nanos : ℚ) < 1000000000 := by exact_mod_cast h2
    have h5 : d.val ≤ 2 ^ 64 + 1 := by
      unfold Dur.val
      have : (d.nanos : ℚ) / 1000000000 ≤ 1 := by rw [div_le_one (by norm_num)]; linarith
      linarith
    norm_num at hq h5 ⊢
    linarith [hq.2]
  have hneg : systemTimeAsFpSeconds (.beforeEpoch d) = .fin (rndQ (q * -1)) := by
    show F64.mul (durationAsFpSeconds d) (.fin (-1)) = _
    rw [e]
    refine rnd_fin ?_
    rw [mul_neg_one, abs_neg, abs_of_pos hqpos]
    refine le_trans hq65 (le_trans ?_ pow128_le)
    norm_num
  have hlt : rndQ (q * -1) < 0 := by
    rw [mul_neg_one, rndQ_neg]
    have : 0 < rndQ q := by
      have hv : 1 / 1000000000 ≤ d.val := by
        unfold Dur.val at h0 ⊢
        by_cases hs : d.secs = 0
        · have hn : 0 < d.nanos := by
            rcases Nat.eq_zero_or_pos d.nanos with h | h
            · rw [hs, h] at h0; norm_num at h0
            · exact h
          have : (1 : ℚ) ≤ d.nanos := by exact_mod_cast hn
          rw [hs]
          have : (1 : ℚ) / 1000000000 ≤ d.nanos / 1000000000 := by
            rw [div_le_div_iff_of_pos_right (by norm_num)]; exact this
          simpa using this
        · have : (1 : ℚ) ≤ d.secs := by exact_mod_cast Nat.pos_of_ne_zero hs
          have h3 : (0 : ℚ) ≤ (d.nanos : ℚ) / 1000000000 := by positivity
          have h4 : (1 : ℚ) / 1000000000 ≤ 1 := by norm_num
          linarith
      have hq9 : 1 / 2000000000 ≤ q := by
        rw [abs_le] at hq
        norm_num at hq hv ⊢
        linarith [hq.1]
      have h2 : (2 : ℚ) ^ (-1022 : ℤ) ≤ q := by
        refine le_trans (zpow_small (k := 31) (by norm_num)) (le_trans ?_ hq9)
        norm_num
      have := (Near.refl q).rnd hqpos.le (Or.inr h2)
      have h3 := this.1
      rw [zero_add, pow_one] at h3
      norm_num at h3
      linarith
    linarith
  have ef : f.fixed3 (systemTimeAsFpSeconds (.beforeEpoch d)) = '-' :: milli (f.ms (-rndQ (q * -1))) := by
    rw [hneg]
    simp only [Fmt.fixed3]
    rw [if_pos hlt]
  rw [ef]
  constructor
  · intro hsp
    rcases List.mem_cons.mp hsp with hsp | hsp
    · cases hsp
    · exact milli_no_space _ hsp
  · intro d' h
    obtain ⟨b, y, h1, h2⟩ := h.head
    rw [bytes_cons, show String.utf8EncodeChar '-' = [45] by decide] at h1
    simp at h1
    rw [← h1.1] at h2
    revert h2; decide

/-- a log with nothing but a start time -/
theorem start_only (f : Fmt) (ser : Ser ε) (t : SysTime) : writeLog f (Builder.new.withStartTime t) ser [] =
    .ok (.ok (Str.bytes (startTimeTag ++ f.fixed3 (systemTimeAsFpSeconds t) ++ epochText))) := by
  unfold writeLog runOps Builder.beginBytes
  rw [M.ok_bind]
  simp only [Builder.withStartTime, Builder.new, headerBytes, F64.feq]
  simp

/-- C43 fails for times before the epoch: the header is written, with a minus sign, and is not an entry when read. -/
theorem C43_before_epoch_refuted {D : Dbl} (L : D.Lawful) (f : Fmt) (ser : Ser ε) {d : Dur} (hd : d.Valid) (h0 : 0 < d.val) :
    ∃ out, writeLog f (Builder.new.withStartTime (.beforeEpoch d)) ser [] = .ok (.ok out) ∧ Yields D (Iter.new out) [] := by
  obtain ⟨h1, h2⟩ := before_text f hd h0
  refine ⟨_, start_only f ser _, ?_⟩
  simpa [errs] using reads_yields_new L (header_lost_reads (Or.inl rfl) h1 (fixed3_no_lf f _) h2)

theorem rndQ_top : rndQ 18446744073709550592 = 18446744073709551616 := by decide +kernel

/-- the text of a time within 1024 seconds of 2^64 is no duration -/
theorem late_text (f : Fmt) {d : Dur} (hd : d.Valid) (hbig : 2 ^ 64 - 1024 ≤ d.secs) :
    ' ' ∉ f.fixed3 (durationAsFpSeconds d) ∧ ∀ d', ¬ DurText (Str.bytes (f.fixed3 (durationAsFpSeconds d))) d' := by
  obtain ⟨q, e, hq0, hq, -⟩ := fpSeconds hd
  have hge : 18446744073709551616 ≤ q := by
    have h1 : 18446744073709551616 ≤ rndQ (d.secs : ℚ) := by
      rw [← rndQ_top]
      refine rndQ_mono ?_
      have : 18446744073709550592 ≤ d.secs := by norm_num at hbig; omega
      exact_mod_cast this
    have h2 : 0 ≤ rndQ ((d.nanos : ℚ) / 1000000000) := rndQ_nonneg (by positivity)
    have h3 := fpSeconds_eq hd
    rw [e] at h3
    injection h3 with h3
    have h4 : rndQ 18446744073709551616 = (18446744073709551616 : ℚ) := by
      have := rndQ_npow2 64
      norm_num at this
      exact this
    rw [h3, ← h4]
    exact rndQ_mono (by linarith)
  have ef : f.fixed3 (durationAsFpSeconds d) = milli (f.ms q) := by
    rw [e]
    simp only [Fmt.fixed3]
    rw [if_neg (by linarith)]
  rw [ef]
  refine ⟨milli_no_space _, ?_⟩
  intro d' h
  have hn : U64MAX < f.ms q / 1000 := by
    have hm := f.near q hq0
    rw [abs_le] at hm
    have h1 : (18446744073709551616 * 1000 : ℚ) < f.ms q + 1 := by linarith [hm.1]
    have h2 : 18446744073709551616 * 1000 < f.ms q + 1 := by exact_mod_cast h1
    have hU : U64MAX = 18446744073709551615 := rfl
    omega
  generalize f.ms q = n at *
  obtain ⟨k1, k2, k3⟩ := decimal_spec (n / 1000)
  have := (C46_overflow (S := decimal (n / 1000)) (F := pad3 (n % 1000)) k1 (by rw [k3]; exact hn) []).1
  rw [List.append_nil] at this
  have h5 := fractSecDuration_some.mpr ⟨_, h, (List.append_nil _).symm, by intro b r' hb; cases hb⟩
  unfold milli at h5
  rw [this] at h5
  cases h5

/-- C43 fails for times the hypothesis of C43 (1) excludes: within 1024 seconds of 2^64 the header is written with
18446744073709551616 seconds or more, and is not an entry when read. -/
theorem C43_time_refuted {D : Dbl} (L : D.Lawful) (f : Fmt) (ser : Ser ε) {d : Dur} (hd : d.Valid)
    (hbig : 2 ^ 64 - 1024 ≤ d.secs) :
    ∃ out, writeLog f (Builder.new.withStartTime (.afterEpoch d)) ser [] = .ok (.ok out) ∧ Yields D (Iter.new out) [] := by
  obtain ⟨h1, h2⟩ := late_text f hd hbig
  refine ⟨_, start_only f ser _, ?_⟩
  simpa [errs, systemTimeAsFpSeconds] using reads_yields_new L (header_lost_reads (Or.inl rfl) h1 (fixed3_no_lf f _) h2)

theorem b64Decode_chars : ∀ {s : Str} {b : Bytes}, b64Decode s = some b → ∀ c ∈ s, (b64Val c).isSome ∨ c = '=' := by
  intro s
  induction s using b64Decode.induct with
  | case1 => intro b _ c hc; cases hc
  | case2 a x =>
    intro b h c hc
    simp only [b64Decode, Option.bind_eq_bind, Option.bind_eq_some_iff] at h
    obtain ⟨n1, h1, n2, h2, -⟩ := h
    simp only [List.mem_cons, List.not_mem_nil, or_false] at hc
    rcases hc with rfl | rfl | rfl | rfl
    · left; rw [h1]; rfl
    · left; rw [h2]; rfl
    · right; rfl
    · right; rfl
  | case3 a x y hy =>
    intro b h c hc
    rw [b64Decode] at h
    · simp only [Option.bind_eq_bind, Option.bind_eq_some_iff] at h
      obtain ⟨n1, h1, n2, h2, n3, h3, -⟩ := h
      simp only [List.mem_cons, List.not_mem_nil, or_false] at hc
      rcases hc with rfl | rfl | rfl | rfl
      · left; rw [h1]; rfl
      · left; rw [h2]; rfl
      · left; rw [h3]; rfl
      · right; rfl
    · exact hy
  | case4 a x y z rest g1 g2 ih =>
    intro b h c hc
    rw [b64Decode] at h
    · simp only [Option.bind_eq_bind, Option.bind_eq_some_iff] at h
      obtain ⟨n1, h1, n2, h2, n3, h3, n4, h4, bs, h5, -⟩ := h
      simp only [List.mem_cons] at hc
      rcases hc with rfl | rfl | rfl | rfl | hc
      · left; rw [h1]; rfl
      · left; rw [h2]; rfl
      · left; rw [h3]; rfl
      · left; rw [h4]; rfl
      · exact ih h5 c hc
    · exact g1
    · exact g2
  | case5 s g1 g2 g3 g4 =>
    intro b h
    rw [b64Decode] at h
    · cases h
    all_goals assumption

theorem mem_trimCr {s : Str} {c : Char} (h : c ∈ s) (hc : c ≠ '\r') : c ∈ trimCr s := by
  unfold trimCr List.rdropWhile
  rw [List.mem_reverse]
  have h1 : c ∈ s.reverse := List.mem_reverse.mpr h
  rw [← List.takeWhile_append_dropWhile (p := fun c => decide (c = '\r')) (l := s.reverse)] at h1
  rcases List.mem_append.mp h1 with h1 | h1
  · have := List.mem_takeWhile_imp h1
    simp at this
    exact absurd this hc
  · exact h1

/-- C43 fails after a failed write: the beginning of the line stays in the log, and the next histogram, though written
successfully, is read as part of it: one entry with the times of the failed one, whose payload is not base64. -/
theorem C43_failed_write_refuted {D : Dbl} (L : D.Lawful) (f : Fmt) (ser : Ser ε) {T1 T2 : CounterTy} {h1 : Hist T1}
    {h2 : Hist T2} {m1 m2 : Nat} {e : ε} {buf : Bytes} {s1 d1 s2 d2 : Dur} (hm1 : h1.max = .ok m1) (hU : m1 ≤ U64MAX) (hm2 : h2.max = .ok m2)
    (hs1 : ser h1 = .ok (.error e)) (hs2 : ser h2 = .ok (.ok buf)) (l1 : s1.Loggable) (l2 : d1.Loggable) :
    ∃ out, runAll f (.fin 1) ser [.hist h1 s1 d1 none, .hist h2 s2 d2 none] = .ok (out, [.error e, .ok ()]) ∧
      ∃ iv, Yields D (Iter.new out) [.ok (.interval iv)] ∧ SameTime s1 iv.start ∧ SameTime d1 iv.duration ∧
        b64Decode iv.encoded = none := by
  obtain ⟨q1, e1⟩ : ∃ q, F64.div (F64.ofNat m1) (.fin 1) = .fin q := by
    rw [ofNat_fin hU]
    simp only [F64.div]
    rw [if_neg (by norm_num), div_one]
    refine ⟨_, rnd_fin ?_⟩
    rw [abs_of_nonneg (rndQ_nonneg (by positivity))]
    exact le_trans (rndQ_u64_le hU) pow64_le
  obtain ⟨s', k1, k2⟩ := time_text f l1
  obtain ⟨d', k3, k4⟩ := time_text f l2
  let line : Str := f.fixed3 (durationAsFpSeconds s2) ++ [','] ++ f.fixed3 (durationAsFpSeconds d2) ++ [',']
    ++ f.fixed3 (F64.div (F64.ofNat m2) (.fin 1)) ++ [','] ++ b64Encode buf
  refine ⟨Str.bytes (f.fixed3 (durationAsFpSeconds s1) ++ [','] ++ f.fixed3 (durationAsFpSeconds d1) ++ [',']
    ++ f.fixed3 (F64.div (F64.ofNat m1) (.fin 1)) ++ [',']) ++ (Str.bytes line ++ [10]), ?_,
    ⟨none, s', d', Str.bytes (f.fixed3 (F64.div (F64.ofNat m1) (.fin 1))), trimCr line⟩, ?_, k2, k4, ?_⟩
  · simp only [runAll, Op.run, writeHistogram, hm1, hm2, hs1, hs2, M.ok_bind, tagText, List.nil_append, List.append_nil]
    simp only [line, bytes_append, List.append_assoc]
  · have h : Reads D (Str.bytes (f.fixed3 (durationAsFpSeconds s1) ++ [','] ++ f.fixed3 (durationAsFpSeconds d1) ++ [',']
        ++ f.fixed3 (F64.div (F64.ofNat m1) (.fin 1)) ++ [',']) ++ (Str.bytes line ++ [10]))
        [.interval ⟨none, s', d', Str.bytes (f.fixed3 (F64.div (F64.ofNat m1) (.fin 1))), trimCr line⟩] none := by
      have e : ∀ x2 x3 x4 x5 : Str, Str.bytes (x2 ++ [','] ++ x3 ++ [','] ++ x4 ++ [',']) ++ (Str.bytes x5 ++ [10]) =
          (([] : Bytes) ++ (Str.bytes x2 ++ 44 :: (Str.bytes x3 ++ 44 :: (Str.bytes x4 ++ 44 :: Str.bytes x5)))) ++ 10 :: [] := by
        intro x2 x3 x4 x5
        simp only [bytes_append, show Str.bytes [','] = [44] by decide]
        simp
      rw [e]
      refine .entry (e := .interval _) ⟨_, _, _, _, _, rfl, k1, k3, ?_, ?_, fromUtf8_bytes _, rfl, rfl⟩ .nil
      · show DblText D (Str.bytes (f.fixed3 (F64.div (F64.ofNat m1) (.fin 1))))
        rw [e1]; exact dbl_text L f q1
      · refine bytes_not_mem (c := '\n') (by decide) ?_
        have g1 := fixed3_no_lf f (durationAsFpSeconds s2)
        have g2 := fixed3_no_lf f (durationAsFpSeconds d2)
        have g3 := fixed3_no_lf f (F64.div (F64.ofNat m2) (.fin 1))
        have g4 : '\n' ∉ b64Encode buf := b64_not_mem (by decide) (by decide) buf
        simp [line, g1, g2, g3, g4]
    simpa [errs] using reads_yields_new L h
  · show b64Decode (trimCr line) = none
    cases hd : b64Decode (trimCr line) with
    | none => rfl
    | some b =>
      exfalso
      have hmem : ',' ∈ trimCr line := by
        refine mem_trimCr ?_ (by decide)
        simp [line]
      have := b64Decode_chars hd ',' hmem
      revert this; decide

example : Dur.Valid ⟨U64MAX, 999999999⟩ ∧ Dur.Valid ⟨0, 1⟩ ∧ 0 < (⟨0, 1⟩ : Dur).val := by
  unfold Dur.Valid Dur.val; decide +kernel

/-- a histogram with one count above `i64::MAX` -/
def demoUnserializable : Hist .u64 :=
  { demo with maxValue := 1, minNonZero := 1, totalCount := 9223372036854775808, counts := [0, 9223372036854775808, 0, 0, 0] }

example : (∃ h0, Hist.newWithBounds Fp.ideal .u64 1 15 0 = .ok (.ok h0) ∧
      h0.recordN 1 9223372036854775808 = .ok (demoUnserializable, .ok ())) ∧
    demoUnserializable.max = .ok 1 ∧ v2Ser (fun _ => 0) demoUnserializable = .ok (.error .CountNotSerializable) ∧
    (∃ buf, v2Ser (fun _ => 0) demo3 = .ok (.ok buf)) ∧ Dur.Loggable ⟨1, 0⟩ := by
  refine ⟨⟨{ demo with counts := demo.counts }, by decide, by decide +kernel⟩, by decide, by decide +kernel, ?_,
    by unfold Dur.Loggable Dur.Valid; decide⟩
  exact ⟨[28, 132, 147, 19, 0, 0, 0, 5, 0, 0, 0, 0, 0, 0, 0, 0, 0, 0, 0, 0, 0, 0, 0, 1, 0, 0, 0, 0, 0, 0, 0, 15, 63, 240,
    0, 0, 0, 0, 0, 0, 2, 3, 6, 144, 3], by decide +kernel⟩

end Hdr
