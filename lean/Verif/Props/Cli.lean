import Verif.Spec.Cli
import Verif.Proofs.LogParse
import Verif.Props.SampleIter

/-!
# C85: the command line tool
-/

namespace Hdr
namespace Cli

open Log (Bytes Str fromUtf8 parseUnsigned SecsText)

variable {fp : Fp} {lg : F64 → Nat}

/-! ### numbers on lines -/

theorem decVal_bytes {s : Str} (h : Log.Digits s) : Log.decVal s = digitsValue s.bytes := by
  unfold Log.decVal digitsValue
  generalize (0 : Nat) = a
  induction s generalizing a with
  | nil => rfl
  | cons c s ih =>
    have hc : c.toNat < 128 := Log.Digits.ascii h c (by simp)
    have hn : (UInt8.ofNat c.toNat).toNat = c.toNat := by
      rw [UInt8.toNat_ofNat']; omega
    rw [Log.bytes_cons, Log.encode_ascii hc, List.singleton_append, List.foldl_cons, List.foldl_cons, hn]
    exact ih (fun d hd => h d (by simp [hd])) _

theorem numeral_iff {x : Nat} {line : Bytes} : Numeral x line ↔ SecsText line x := by
  constructor
  · rintro ⟨ds, hne, hd, hv, hx, hl⟩
    have hd' : ∀ b ∈ ds, Log.isDigit b = true := fun b hb => Log.isDigit_iff.mpr (hd b hb)
    obtain ⟨s, hs⟩ := Log.fromUtf8_digits hd'
    have hD := Log.digits_of_bytes hs hd'
    have hb := Log.bytes_of_fromUtf8 hs
    subst hb
    have hne' : s ≠ [] := by rintro rfl; exact hne rfl
    rw [← decVal_bytes hD] at hv
    rcases hl with rfl | rfl
    · exact ⟨s, hs, by rw [Log.parseUnsigned_digits hD hne', hv, if_pos hx]⟩
    · refine ⟨'+' :: s, ?_, ?_⟩
      · have := Log.fromUtf8_bytes ('+' :: s)
        rw [Log.bytes_cons] at this
        exact this
      · obtain ⟨c, t, rfl⟩ : ∃ c t, s = c :: t := by
          cases s with
          | nil => exact absurd rfl hne'
          | cons c t => exact ⟨c, t, rfl⟩
        show Log.digitsLoop U64MAX (c :: t) 0 = _
        rw [Log.digitsLoop_eq hD (Nat.zero_le _)]
        change (if Log.decVal (c :: t) ≤ U64MAX then some (Log.decVal (c :: t)) else none) = _
        rw [hv, if_pos hx]
  · rintro ⟨s, hs, hp⟩
    have hb := Log.bytes_of_fromUtf8 hs
    subst hb
    have main : ∀ t : Str, t ≠ [] → Log.digitsLoop U64MAX t 0 = some x → Log.Digits t ∧ digitsValue t.bytes = x ∧ x ≤ U64MAX := by
      intro t ht he
      have hD := Log.digitsLoop_some he
      rw [Log.digitsLoop_eq hD (Nat.zero_le _)] at he
      change (if Log.decVal t ≤ U64MAX then some (Log.decVal t) else none) = _ at he
      split at he
      · cases he
        exact ⟨hD, (decVal_bytes hD).symm, by assumption⟩
      · cases he
    have nonempty : ∀ t : Str, t ≠ [] → t.bytes ≠ [] := by
      intro t ht h0
      have := Log.fromUtf8_bytes t
      rw [h0] at this
      have h1 := Log.fromUtf8_bytes []
      rw [Log.bytes_nil, this] at h1
      injection h1 with h1
      exact ht h1
    unfold parseUnsigned at hp
    split at hp
    · cases hp
    · cases hp
    · rename_i t hne
      have ht : t ≠ [] := by rintro rfl; exact hne rfl
      obtain ⟨hD, hv, hx⟩ := main t ht hp
      exact ⟨Str.bytes t, nonempty t ht, fun b hb => Log.isDigit_iff.mp (hD.isDigit b hb), hv, hx, .inr (by
        rw [Log.bytes_cons]; rfl)⟩
    · rename_i h0 _ _
      obtain ⟨hD, hv, hx⟩ := main s h0 hp
      exact ⟨Str.bytes s, nonempty s h0, fun b hb => Log.isDigit_iff.mp (hD.isDigit b hb), hv, hx, .inl rfl⟩

theorem number_eq {x : Nat} {line : Bytes} : number line = .ok x ↔ Numeral x line := by
  rw [numeral_iff]
  unfold number SecsText
  cases h1 : fromUtf8 line with
  | none => simp [expectM, bind, Except.bind]
  | some s =>
    simp only [expectM, M.ok_bind, Option.some.injEq, exists_eq_left']
    cases h2 : parseUnsigned U64MAX s with
    | none => simp
    | some n => simp

/-! ### lines -/

theorem linesLoop_line {t : Bytes} (h : 10 ∉ t) (rest : Bytes) : ∀ cur, linesLoop cur (t ++ 10 :: rest) = chomp (cur ++ t) :: linesLoop [] rest := by
  induction t with
  | nil => intro cur; simp [linesLoop]
  | cons b t ih =>
    intro cur
    have hb : b ≠ 10 := fun hc => h (by simp [hc])
    rw [List.cons_append, linesLoop, if_neg hb, ih (fun hc => h (by simp [hc])), List.append_assoc, List.singleton_append]

theorem linesLoop_end {t : Bytes} (h : 10 ∉ t) : ∀ cur, linesLoop cur t = if cur ++ t = [] then [] else [cur ++ t] := by
  induction t with
  | nil => intro cur; simp [linesLoop]
  | cons b t ih =>
    intro cur
    have hb : b ≠ 10 := fun hc => h (by simp [hc])
    rw [linesLoop, if_neg hb, ih (fun hc => h (by simp [hc])), List.append_assoc, List.singleton_append]

theorem line_cases (i : Bytes) : 10 ∉ i ∨ ∃ t rest, 10 ∉ t ∧ i = t ++ 10 :: rest := by
  induction i with
  | nil => left; simp
  | cons b i ih =>
    by_cases hb : b = 10
    · right; exact ⟨[], i, by simp, by simp [hb]⟩
    · rcases ih with h | ⟨t, rest, h, rfl⟩
      · left; simp [h, Ne.symm hb]
      · right; exact ⟨b :: t, rest, by simp [h, Ne.symm hb], rfl⟩

theorem chomp_cases (t : Bytes) : chomp t = t ∨ t = chomp t ++ [13] := by
  unfold chomp
  split
  · rename_i h
    right
    exact (List.dropLast_append_getLast? 13 h).symm
  · left; rfl

theorem Numeral.clean {x : Nat} {line : Bytes} (h : Numeral x line) : 10 ∉ line ∧ 13 ∉ line ∧ line ≠ [] := by
  rw [numeral_iff] at h
  refine ⟨h.not_mem (by decide) (by decide), h.not_mem (by decide) (by decide), ?_⟩
  rintro rfl
  obtain ⟨b, y, h1, -⟩ := h.ne
  cases h1

/-- the input lists the numbers `xs` exactly if its lines are numerals for them -/
theorem listing_iff {xs : List Nat} {input : Bytes} : Listing xs input ↔ List.Forall₂ Numeral xs (lines input) := by
  constructor
  · intro h
    induction h with
    | nil => exact .nil
    | last hn =>
      obtain ⟨h1, -, h3⟩ := hn.clean
      unfold lines
      rw [linesLoop_end h1, List.nil_append, if_neg h3]
      exact .cons hn .nil
    | @lf x line xs rest hn _ ih =>
      obtain ⟨h1, h2, h3⟩ := hn.clean
      unfold lines
      rw [linesLoop_line h1, List.nil_append]
      have : chomp line = line := (chomp_cases line).resolve_right fun hc => h2 (by rw [hc]; simp)
      rw [this]
      exact .cons hn ih
    | @crlf x line xs rest hn _ ih =>
      obtain ⟨h1, h2, h3⟩ := hn.clean
      unfold lines
      rw [show line ++ 13 :: 10 :: rest = (line ++ [13]) ++ 10 :: rest by simp, linesLoop_line (by simp [h1]), List.nil_append]
      have : chomp (line ++ [13]) = line := by simp [chomp]
      rw [this]
      exact .cons hn ih
  · suffices H : ∀ n (input : Bytes), input.length ≤ n → ∀ xs, List.Forall₂ Numeral xs (lines input) → Listing xs input from
      H _ input le_rfl xs
    intro n
    induction n with
    | zero =>
      intro input hn xs h
      have : input = [] := List.length_eq_zero_iff.mp (by omega)
      subst this
      cases h
      exact .nil
    | succ n ih =>
      intro input hn xs h
      rcases line_cases input with h1 | ⟨t, rest, h1, rfl⟩
      · unfold lines at h
        rw [linesLoop_end h1, List.nil_append] at h
        split at h
        · rename_i h2
          subst h2
          cases h
          exact .nil
        · cases h with
          | cons h2 h3 => cases h3; exact .last h2
      · unfold lines at h
        rw [linesLoop_line h1, List.nil_append] at h
        cases h with
        | cons h2 h3 =>
          have h4 := ih rest (by simp at hn; omega) _ h3
          rcases chomp_cases t with h5 | h5
          · rw [h5] at h2
            exact .lf h2 h4
          · generalize chomp t = u at h2 h5
            subst h5
            rw [List.append_assoc]
            exact .crlf h2 h4

/-! ### recording -/

theorem recordLines_eq {xs : List Nat} {ls : List Bytes} (hF : List.Forall₂ Numeral xs ls) (h : Hist .u64) :
    recordLines h ls = recordSeq (xs.map fun x => (x, 1)) h := by
  induction hF generalizing h with
  | nil => rfl
  | @cons x l xs ls hn _ ih =>
    rw [recordLines, number_eq.mpr hn, M.ok_bind, List.map_cons, recordSeq]
    unfold Hist.record
    congr 1
    funext p
    rcases p with ⟨h', r⟩
    cases r with
    | error e => rfl
    | ok u => exact ih h'

theorem recordLines_ok {ls : List Bytes} : ∀ {h h' : Hist .u64}, recordLines h ls = .ok (h', .ok ()) →
    ∃ xs, List.Forall₂ Numeral xs ls := by
  induction ls with
  | nil => intro h h' _; exact ⟨[], .nil⟩
  | cons l ls ih =>
    intro h h' e
    rw [recordLines] at e
    obtain ⟨x, hx, e⟩ := M.bind_eq_ok.mp e
    obtain ⟨⟨h1, r⟩, -, e⟩ := M.bind_eq_ok.mp e
    cases r with
    | error er => cases e
    | ok u =>
      obtain ⟨xs, hxs⟩ := ih e
      exact ⟨x :: xs, .cons (number_eq.mp hx) hxs⟩

theorem ones_le {xs : List Nat} (h : ∀ x ∈ xs, x ≤ U64MAX) : ∀ p ∈ xs.map fun x => (x, 1), p.1 ≤ U64MAX ∧ p.2 ≤ CounterTy.u64.max := by
  intro p hp
  obtain ⟨x, hx, rfl⟩ := List.mem_map.mp hp
  exact ⟨h x hx, T_max_pos .u64⟩

theorem Listing.le {xs : List Nat} {input : Bytes} (h : Listing xs input) : ∀ x ∈ xs, x ≤ U64MAX := by
  induction h with
  | nil => simp
  | last hn => obtain ⟨_, _, _, _, hx, _⟩ := hn; simpa using hx
  | lf hn _ ih => obtain ⟨_, _, _, _, hx, _⟩ := hn; simpa using ⟨hx, ih⟩
  | crlf hn _ ih => obtain ⟨_, _, _, _, hx, _⟩ := hn; simpa using ⟨hx, ih⟩

/-- the histogram `serializeCmd` records into -/
def start (a : SerializeArgs) (h0 : Hist .u64) : Hist .u64 := if a.resize then h0.auto true else h0

theorem start_reachable {a : SerializeArgs} {h0 : Hist .u64} (R : Reachable fp .u64 h0) : Reachable fp .u64 (start a h0) := by
  unfold start
  split
  · exact .auto true R
  · exact R

theorem start_spec {a : SerializeArgs} (ha : a.max ≤ U64MAX) {h0 : Hist .u64}
    (e0 : Hist.newWithBounds fp .u64 a.min a.max a.sigfig = .ok (.ok h0)) :
    Reachable fp .u64 (start a h0) ∧ (start a h0).len = 0 ∧ (start a h0).low = a.min ∧ (start a h0).sigfig = a.sigfig ∧
      (start a h0).isAutoResize = a.resize ∧ ∀ v, (start a h0).Covers v ↔ h0.Covers v := by
  have F := C02_fresh_bounds ha e0
  refine ⟨start_reachable (.newWithBounds ha e0), ?_, ?_, ?_, ?_, ?_⟩
  · unfold start; split
    · exact F.len
    · exact F.len
  · unfold start; split
    · exact F.low
    · exact F.low
  · unfold start; split
    · exact F.sigfig
    · exact F.sigfig
  · unfold start
    cases h : a.resize with
    | true => rfl
    | false => exact F.auto
  · intro v
    unfold start; split
    · exact Iff.rfl
    · exact Iff.rfl

/-- C85 (1): if the input lists numbers that are covered (or the histogram may grow), the subcommand `serialize` succeeds, and
what it writes is read back as a histogram with the precision asked for that holds exactly these numbers. -/
theorem C85_serialize {z : V2.Zlib} (hz : z.Lawful) (junk : Nat → UInt8) {a : SerializeArgs} (ha : a.max ≤ U64MAX) {h0 : Hist .u64}
    (e0 : Hist.newWithBounds fp .u64 a.min a.max a.sigfig = .ok (.ok h0)) {xs : List Nat} {input : Bytes}
    (hl : Listing xs input) (hc : a.resize = true ∨ ∀ x ∈ xs, h0.Covers x) (hn : xs.length ≤ 9223372036854775807) :
    ∃ bytes, serializeCmd fp z junk a input = .ok (.ok bytes) ∧
      ∀ checks, ∃ g : Hist .u64, V2.deserialize fp z .u64 checks bytes = .ok (.ok (g, [])) ∧ Reachable fp .u64 g ∧
        Contains g (xs.map fun x => (x, 1)) ∧ g.low = a.min ∧ g.sigfig = a.sigfig := by
  obtain ⟨R0, hlen, hlow, hsig, hauto, hcov⟩ := start_spec ha e0
  have hle := ones_le hl.le
  have hU : U64MAX = 18446744073709551615 := rfl
  have hall := numberAll_ones xs
  obtain ⟨h, r, e, W, hr⟩ := R0.wf.recordSeq_spec _ hle
  have hr0 : r = .ok () := by
    obtain ⟨h', r', e', hok⟩ := C14_success R0 hle
    rw [e] at e'
    cases e'
    rw [hok, hauto]
    refine hc.imp id fun hc p hp => ?_
    obtain ⟨x, hx, rfl⟩ := List.mem_map.mp hp
    exact (hcov x).mpr (hc x hx)
  subst hr0
  have R : Reachable fp .u64 h := reachable_recordSeq R0 hle e
  have H : Contains h (xs.map fun x => (x, 1)) := by
    have := C71_record R0 (C71_empty R0 hlen) hle e (fun w _ => by
      rw [List.nil_append]
      exact le_trans (number_le_all _ _) (by rw [hall]; show _ ≤ U64MAX; omega)) (by rw [List.nil_append]; omega)
    rwa [List.nil_append] at this
  have hcnt : ∀ c ∈ h.contents, c.count ≤ 9223372036854775807 := by
    intro c hc
    rw [(H.cls W W.contents hc).2.2.2.2]
    exact le_trans (number_le_all _ _) (by omega)
  have hcfg := hr.1.cfg
  obtain ⟨bytes, n, es⟩ := (C41_serialize_outcome R W.contents junk).2.1 hcnt
  have hfit : ∀ w, (Hdr.number (xs.map fun x => (x, 1)) fun v => Equiv h v w) ≤ CounterTy.u64.max := fun w =>
    le_trans (number_le_all _ _) (by rw [hall]; show _ ≤ U64MAX; omega)
  have cmd : ∀ out, serialize z junk (start a h0) a.compression input = .ok (.ok out) →
      serializeCmd fp z junk a input = .ok (.ok out) := by
    intro out ho
    unfold serializeCmd
    rw [e0, M.ok_bind]
    exact ho
  have erec : recordLines (start a h0) (lines input) = .ok (h, .ok ()) := by
    rw [recordLines_eq (listing_iff.mp hl)]; exact e
  have back : ∀ checks, ∃ g : Hist .u64, V2.deserialize fp z .u64 checks bytes = .ok (.ok (g, [])) ∧ Reachable fp .u64 g ∧
      Contains g (xs.map fun x => (x, 1)) ∧ g.low = a.min ∧ g.sigfig = a.sigfig := by
    intro checks
    obtain ⟨g, h1, h2, h3, h4, -, h5⟩ := C71_serialize R H es z checks .u64 (fun w _ => hfit w)
    refine ⟨g, h1, h2, h3, ?_, ?_⟩
    · rw [h4, ← hlow]; exact hcfg.low
    · rw [h5, ← hsig]; exact hcfg.sig
  cases hcomp : a.compression with
  | false =>
    refine ⟨bytes, cmd _ ?_, back⟩
    unfold serialize
    rw [erec, M.ok_bind, hcomp]
    simp only [Bool.false_eq_true, if_false]
    rw [es, M.ok_bind]
    rfl
  | true =>
    obtain ⟨out, h1, -, -, h2⟩ := (C42_deflate R hz junk).2 bytes n es
    refine ⟨out, cmd _ ?_, fun checks => ?_⟩
    · unfold serialize
      rw [erec, M.ok_bind, hcomp]
      simp only [if_true]
      rw [h1, M.ok_bind]
      rfl
    · obtain ⟨g, h3, h4⟩ := back checks
      obtain ⟨g', h5, h6, -⟩ := h2 .u64 checks [] W.contents (fun c hc => le_trans (hcnt c hc) (by decide))
      rw [List.append_nil] at h5 h6
      rw [h3] at h5
      cases h5
      exact ⟨g, h6, h4⟩

/-- C85 (2): and it succeeds only for such inputs: what is not a listing of numbers is a panic or (if a number out of range
comes first) an error. -/
theorem C85_accepts {z : V2.Zlib} {junk : Nat → UInt8} {a : SerializeArgs} (ha : a.max ≤ U64MAX) {input bytes : Bytes}
    (e : serializeCmd fp z junk a input = .ok (.ok bytes)) :
    ∃ h0 xs, Hist.newWithBounds fp .u64 a.min a.max a.sigfig = .ok (.ok h0) ∧ Listing xs input ∧
      (a.resize = true ∨ ∀ x ∈ xs, h0.Covers x) := by
  unfold serializeCmd at e
  obtain ⟨r, e0, e⟩ := M.bind_eq_ok.mp e
  cases r with
  | error er => cases e
  | ok h0 =>
    obtain ⟨R0, hlen, hlow, hsig, hauto, hcov⟩ := start_spec ha e0
    change serialize z junk (start a h0) a.compression input = _ at e
    unfold serialize at e
    obtain ⟨⟨h, r⟩, e1, e⟩ := M.bind_eq_ok.mp e
    cases r with
    | error er => cases e
    | ok u =>
      obtain ⟨xs, hF⟩ := recordLines_ok e1
      have hl := listing_iff.mpr hF
      refine ⟨h0, xs, e0, hl, ?_⟩
      obtain ⟨h', r', e', hok⟩ := C14_success R0 (ones_le hl.le)
      rw [recordLines_eq hF, e'] at e1
      cases e1
      rcases hok.mp rfl with h1 | h1
      · left; rw [← hauto]; exact h1
      · right
        intro x hx
        exact (hcov x).mp (h1 (x, 1) (List.mem_map.mpr ⟨x, hx, rfl⟩))

/-- C85 (3): a number out of range is the error `ValueOutOfRangeResizeDisabled`, without `--resize`. -/
theorem C85_out_of_range {z : V2.Zlib} {junk : Nat → UInt8} {a : SerializeArgs} (ha : a.max ≤ U64MAX) {h0 : Hist .u64}
    (e0 : Hist.newWithBounds fp .u64 a.min a.max a.sigfig = .ok (.ok h0)) {xs : List Nat} {input : Bytes}
    (hl : Listing xs input) (hr : a.resize = false) (hx : ∃ x ∈ xs, ¬ h0.Covers x) :
    serializeCmd fp z junk a input = .ok (.error (.HistogramRecord .ValueOutOfRangeResizeDisabled)) := by
  obtain ⟨R0, hlen, hlow, hsig, hauto, hcov⟩ := start_spec ha e0
  obtain ⟨h, r, e, W, hs⟩ := R0.wf.recordSeq_spec _ (ones_le hl.le)
  obtain ⟨h', r', e', hok⟩ := C14_success R0 (ones_le hl.le)
  rw [e] at e'
  cases e'
  cases r with
  | ok u =>
    exfalso
    rcases hok.mp rfl with h1 | h1
    · rw [hauto, hr] at h1; cases h1
    · obtain ⟨x, hx, hn⟩ := hx
      exact hn ((hcov x).mp (h1 (x, 1) (List.mem_map.mpr ⟨x, hx, rfl⟩)))
  | error er =>
    obtain ⟨rfl, -⟩ := hs
    unfold serializeCmd
    rw [e0, M.ok_bind]
    show serialize z junk (start a h0) a.compression input = _
    unfold serialize
    rw [recordLines_eq (listing_iff.mp hl), e, M.ok_bind]
    rfl

/-! ### `quantiles` -/

theorem runningTotal_cons (v : IterValue) (vs : List IterValue) (k : Nat) :
    runningTotal (v :: vs) (k + 1) = v.countSinceLastIteration + runningTotal vs k := rfl

theorem rows_ok {items : List IterValue} {sum : Nat} (h : sum + (items.map (·.countSinceLastIteration)).sum ≤ U64MAX) :
    ∃ rs, rows sum items = .ok rs ∧ rs.length = items.length ∧
      ∀ k it, items[k]? = some it → rs[k]? = some (row it (sum + runningTotal items k)) := by
  induction items generalizing sum with
  | nil => exact ⟨[], rfl, rfl, by simp⟩
  | cons v vs ih =>
    rw [List.map_cons, List.sum_cons] at h
    obtain ⟨rs, h1, h2, h3⟩ := ih (sum := sum + v.countSinceLastIteration) (by omega)
    refine ⟨row v (sum + v.countSinceLastIteration) :: rs, ?_, by simp [h2], ?_⟩
    · unfold rows
      rw [addU64_ok (by omega), M.ok_bind, h1, M.ok_bind]
    · intro k it hk
      cases k with
      | zero => cases hk; simp [runningTotal]
      | succ k =>
        rw [runningTotal_cons, ← Nat.add_assoc]
        exact h3 k it hk

theorem lidx_top {h : Hist .u64} (hu : h.unitMag ≠ 0) : h.lidx (U64MAX - 1) = h.lidx U64MAX := by
  have hl : Nat.log2 (U64MAX - 1) = Nat.log2 U64MAX := by decide
  show Lay.idx _ _ _ = Lay.idx _ _ _
  unfold Lay.idx Lay.wid Lay.bkt
  rw [hl]
  congr 1
  generalize Nat.log2 U64MAX - _ = b
  obtain ⟨j, hj⟩ : ∃ j, h.unitMag + b = 1 + j := ⟨h.unitMag + b - 1, by omega⟩
  rw [hj, Nat.pow_add, ← Nat.div_div_eq_div_mul, ← Nat.div_div_eq_div_mul]
  rfl

theorem max_samples {z : V2.Zlib} {checks : Bool} {bytes rest : List UInt8} {h : Hist .u64}
    (e : V2.deserialize fp z .u64 checks bytes = .ok (.ok (h, rest))) {l : List (Nat × Nat)} (H : Contains h l)
    (h0 : 0 < numberAll l) :
    ∃ m, h.max = .ok m ∧ (∃ p ∈ l, Equiv h p.1 m) ∧ ∀ p ∈ l, p.2 ≠ 0 → p.1 ≤ m ∨ Equiv h p.1 m := by
  have R : Reachable fp .u64 h := .deserialize z checks bytes rest e
  have W := R.wf
  have C := W.contents
  obtain ⟨-, -, -, -, hs⟩ := C38_valid e C
  rcases hs with E | ⟨hm, hu, -, c, hc, hc0, hhi⟩
  · rcases E.max with ⟨hz, -⟩ | ⟨c, hc, hc0, hlast, hm⟩
    · exfalso
      have h1 : (h.contents.map (·.count)).sum = numberAll l := by rw [W.sum_classes C, H.sum W]
      have h2 : (h.contents.map (·.count)).sum = 0 := by
        rw [List.map_congr_left hz]
        simp
      omega
    · obtain ⟨g1, g2, g3, g4, g5⟩ := H.cls W C hc
      refine ⟨c.hi, hm, ?_, fun p hp hp0 => ?_⟩
      · obtain ⟨p, hp, he, -⟩ := number_pos (l := l) (P := fun x => Equiv h x c.hi) (by rw [← g5]; exact hc0)
        exact ⟨p, hp, he⟩
      · by_cases hle : p.1 ≤ c.hi
        · exact .inl hle
        · right
          have hi := H.lidx W hp
          have hd : h.lcls (h.lidx p.1) ∈ h.contents := (W.mem_classes C).mpr ⟨_, hi, rfl⟩
          obtain ⟨k1, k2, k3, k4, k5⟩ := H.cls W C hd
          have hidx : h.lidx (h.lcls (h.lidx p.1)).lo = h.lidx p.1 := Lay.idx_val
          have hpos : (h.lcls (h.lidx p.1)).count ≠ 0 := by
            have := number_ge (P := fun x => Equiv h x (h.lcls (h.lidx p.1)).hi) hp (by
              rw [W.equiv_iff (H.le W hp) k2, k3, hidx])
            omega
          have h1 : h.lidx (h.lcls (h.lidx p.1)).lo ≤ h.lidx c.lo := Lay.idx_mono (hlast _ hd hpos)
          have h2 : h.lidx c.hi ≤ h.lidx p.1 := Lay.idx_mono (by omega)
          rw [W.equiv_iff (H.le W hp) g2]
          omega
  · obtain ⟨g1, g2, g3, g4, g5⟩ := H.cls W C hc
    refine ⟨U64MAX, hm, ?_, fun p hp hp0 => .inl (H.le W hp)⟩
    obtain ⟨p, hp, he, -⟩ := number_pos (l := l) (P := fun x => Equiv h x c.hi) (by rw [← g5]; exact hc0)
    refine ⟨p, hp, ?_⟩
    rw [W.equiv_iff (H.le W hp) g2, hhi, lidx_top hu] at he
    rw [W.equiv_iff (H.le W hp) (le_refl _)]
    exact he

theorem F64.lt_of_le_ne {x y : F64} (h : F64.le x y = true) (hn : x ≠ y) : F64.lt x y = true := by
  cases x <;> cases y <;> simp_all [F64.le, F64.lt, F64.feq]

theorem sum_eq_runningTotal (items : List IterValue) :
    (items.map (·.countSinceLastIteration)).sum = runningTotal items (items.length - 1) := by
  unfold runningTotal
  rw [List.take_of_length_le (by omega)]

/-- C85 (4): the subcommand `quantiles`, reading a histogram that holds the numbers `xs` (at least one), prints a table as
described by `TableOf`; and the last row shows the largest number and counts them all, if there are at most `2 ^ 53`. -/
theorem C85_quantiles {z : V2.Zlib} {checks : Bool} {bytes rest : List UInt8} {g : Hist .u64}
    (e : V2.deserialize fp z .u64 checks bytes = .ok (.ok (g, rest))) {xs : List Nat}
    (H : Contains g (xs.map fun x => (x, 1))) (hx : xs ≠ []) (L : Log2Law lg) {ticks : Nat} (ht : 0 < ticks)
    (ht32 : ticks < 2 ^ 32) {fuel : Nat} (hf : 2 ^ 53 + 2 ≤ fuel) :
    ∃ t, quantiles fp z lg checks fuel ticks bytes = .ok (.ok t) ∧ TableOf fp g xs t ∧
      (xs.length ≤ 2 ^ 53 → ∃ r, t.rows.getLast? = some r ∧ r.total = xs.length ∧ ∀ x ∈ xs, x ≤ r.value ∨ Equiv g x r.value) := by
  have R : Reachable fp .u64 g := .deserialize z checks bytes rest e
  have W := R.wf
  have hall := numberAll_ones xs
  have h0 : 0 < numberAll (xs.map fun x => (x, 1)) := by rw [hall]; exact List.length_pos_iff.mpr hx
  have hlen : g.len = numberAll (xs.map fun x => (x, 1)) := H.len
  have htot : g.len ≤ U64MAX := W.tot
  obtain ⟨items, hi, -⟩ := C33_run R (by omega) W.contents L ht ht32
  have hi := hi fuel hf
  obtain ⟨hord, hval⟩ := C33_order R (by omega) L ht ht32 hi
  obtain ⟨last, hl1, hl2, -⟩ := C84_quantiles_end R H h0 L ht ht32 hi
  have hl3 := hl1
  rw [List.getLast?_eq_getElem?] at hl3
  have hitem := fun {k it} (hk : items[k]? = some it) => C84_quantiles R H h0 L ht ht32 hi hk
  have hsum : (items.map (·.countSinceLastIteration)).sum ≤ U64MAX := by
    rw [sum_eq_runningTotal, (hitem hl3).1.upTo]
    have := number_le_all (xs.map fun x => (x, 1)) fun x => x ≤ last.valueIteratedTo ∨ Equiv g x last.valueIteratedTo
    omega
  obtain ⟨rs, hr1, hr2, hr3⟩ := rows_ok (sum := 0) (items := items) (by omega)
  obtain ⟨m, hm1, hm2⟩ := C74_mean R H h0
  have hst := fun {m} (hm : ∀ x ∈ xs, x ≤ m) => C75_stdev R H h0 (m := m) (fun p hp => by
    obtain ⟨x, hx, rfl⟩ := List.mem_map.mp hp
    exact hm x hx)
  obtain ⟨s, hs1, -⟩ := hst (m := U64MAX) (fun x hx => H.le W (p := (x, 1)) (List.mem_map.mpr ⟨x, hx, rfl⟩))
  obtain ⟨mx, hx1, ⟨p, hp, hx2⟩, hx3⟩ := max_samples e H h0
  obtain ⟨x0, hx0, rfl⟩ := List.mem_map.mp hp
  have hrow : ∀ {k r}, rs[k]? = some r → ∃ it, items[k]? = some it ∧ r = row it (runningTotal items k) := by
    intro k r hk
    have hlt : k < items.length := by
      rw [← hr2]
      exact (List.getElem?_eq_some_iff.mp hk).1
    have h1 := hr3 k items[k] (List.getElem?_eq_getElem hlt)
    rw [hk, Nat.zero_add] at h1
    exact ⟨items[k], List.getElem?_eq_getElem hlt, Option.some.inj h1⟩
  have hlast : rs.getLast? = some (row last (runningTotal items (items.length - 1))) := by
    rw [List.getLast?_eq_getElem?, hr2, hr3 _ _ hl3, Nat.zero_add]
  refine ⟨⟨rs, .fin m, .fin s, mx, g.len, g.buckets, g.distinctValues⟩, ?_, ⟨?_, ?_, ?_, ?_, ⟨⟨x0, hx0, hx2⟩, ?_⟩, ?_, ⟨m, rfl, hm2⟩, ⟨s, rfl, ?_⟩⟩, ?_⟩
  · unfold quantiles
    rw [e, M.ok_bind]
    simp only
    rw [hi, M.ok_bind, hr1, M.ok_bind, hm1, M.ok_bind, hs1, M.ok_bind, hx1, M.ok_bind]
    rfl
  · intro r hr
    obtain ⟨k, hk⟩ := List.mem_iff_getElem?.mp hr
    obtain ⟨it, hk', rfl⟩ := hrow hk
    obtain ⟨h1, ⟨p, hp, -, h2⟩, h3⟩ := hitem hk'
    obtain ⟨x, hx, rfl⟩ := List.mem_map.mp hp
    refine ⟨⟨x, hx, h2⟩, ?_, ?_, h3⟩
    · show runningTotal items k = _
      rw [h1.upTo, number_ones]
      rfl
    · show it.quantile = _
      rw [h1.quantile, hall]
      rfl
  · rw [List.pairwise_iff_getElem]
    intro i j hi' hj' hij
    obtain ⟨it, hk, hri⟩ := hrow (List.getElem?_eq_getElem hi')
    obtain ⟨it', hk', hrj⟩ := hrow (List.getElem?_eq_getElem hj')
    obtain ⟨hi'', rfl⟩ := List.getElem?_eq_some_iff.mp hk
    obtain ⟨hj'', rfl⟩ := List.getElem?_eq_some_iff.mp hk'
    have := List.pairwise_iff_getElem.mp hord i j hi'' hj'' hij
    rw [hri, hrj]
    exact ⟨this.1, this.2.1⟩
  · refine ⟨_, hlast, hl2, ?_⟩
    show (if _ then _ else _) = _
    rw [hl2]
    exact if_neg (by decide)
  · intro r hr hne
    obtain ⟨k, hk⟩ := List.mem_iff_getElem?.mp hr
    obtain ⟨it, hk', rfl⟩ := hrow hk
    have := (hval it (List.mem_iff_getElem?.mpr ⟨k, hk'⟩)).2.1
    exact if_pos (F64.lt_of_le_ne this hne)
  · intro x hx
    exact hx3 (x, 1) (List.mem_map.mpr ⟨x, hx, rfl⟩) (by simp)
  · exact hlen.trans hall
  · intro m' hm'
    obtain ⟨s', h1, h2⟩ := hst hm'
    rw [hs1] at h1
    cases h1
    exact h2
  · intro hn
    obtain ⟨it, h1, h2, h3, h4⟩ := C84_quantiles_last_partial R H h0 (by rw [hall]; exact hn) L ht ht32 hi
    rw [hl1] at h1
    cases h1
    exact ⟨_, hlast, h4.trans hall, fun x hx => h3 (x, 1) (List.mem_map.mpr ⟨x, hx, rfl⟩) (by simp)⟩

/-- C85 (5): both together: numbers listed, serialized (compressed or not) and tabulated. -/
theorem C85_pipeline {z : V2.Zlib} (hz : z.Lawful) (junk : Nat → UInt8) {a : SerializeArgs} (ha : a.max ≤ U64MAX) {h0 : Hist .u64}
    (e0 : Hist.newWithBounds fp .u64 a.min a.max a.sigfig = .ok (.ok h0)) {xs : List Nat} {input : Bytes}
    (hl : Listing xs input) (hc : a.resize = true ∨ ∀ x ∈ xs, h0.Covers x) (hx : xs ≠ []) (hn : xs.length ≤ 2 ^ 53)
    (L : Log2Law lg) {ticks : Nat} (ht : 0 < ticks) (ht32 : ticks < 2 ^ 32) {fuel : Nat} (hf : 2 ^ 53 + 2 ≤ fuel) (checks : Bool) :
    ∃ bytes t g, serializeCmd fp z junk a input = .ok (.ok bytes) ∧ quantiles fp z lg checks fuel ticks bytes = .ok (.ok t) ∧
      g.low = a.min ∧ g.sigfig = a.sigfig ∧ TableOf fp (g : Hist .u64) xs t ∧
      ∃ r, t.rows.getLast? = some r ∧ r.total = xs.length ∧ ∀ x ∈ xs, x ≤ r.value ∨ Equiv g x r.value := by
  have : (2 : ℕ) ^ 53 ≤ 9223372036854775807 := by decide
  obtain ⟨bytes, h1, h2⟩ := C85_serialize hz junk ha e0 hl hc (by omega)
  obtain ⟨g, h3, -, h4, h5, h6⟩ := h2 checks
  obtain ⟨t, h7, h8, h9⟩ := C85_quantiles h3 h4 hx L ht ht32 hf
  exact ⟨bytes, t, g, h1, h7, h5, h6, h8, h9 hn⟩

/-- C85 (6): nothing listed: the table has no rows, and all statistics are 0. -/
theorem C85_empty {z : V2.Zlib} {checks : Bool} {bytes rest : List UInt8} {g : Hist .u64}
    (e : V2.deserialize fp z .u64 checks bytes = .ok (.ok (g, rest))) (h0 : g.len = 0) {ticks : Nat} (ht : 0 < ticks)
    {fuel : Nat} (hf : 0 < fuel) :
    ∃ t, quantiles fp z lg checks fuel ticks bytes = .ok (.ok t) ∧ t.rows = [] ∧ t.mean = .fin 0 ∧ t.stdev = .fin 0 ∧
      t.max = 0 ∧ t.len = 0 := by
  have R : Reachable fp .u64 g := .deserialize z checks bytes rest e
  have W := R.wf
  have h0' : g.totalCount = 0 := h0
  have hm : g.mean = .ok (.fin 0) := by unfold Hist.mean; exact if_pos h0'
  have hs : g.stdev = .ok (.fin 0) := by unfold Hist.stdev; exact if_pos h0'
  have hx : g.max = .ok 0 := by
    have C := W.contents
    obtain ⟨-, -, -, -, hv⟩ := C38_valid e C
    have hz : ∀ c ∈ g.contents, c.count = 0 := by
      intro c hc
      have h1 : c.count ≤ (g.contents.map (·.count)).sum := List.single_le_sum (by simp) _ (List.mem_map.mpr ⟨c, hc, rfl⟩)
      have h2 := W.totsum
      rw [← W.sum_classes C, h0'] at h2
      have : U64MAX = 18446744073709551615 := rfl
      omega
    rcases hv with E | ⟨-, -, -, c, hc, hc0, -⟩
    · rcases E.max with ⟨-, h1⟩ | ⟨c, hc, hc0, -⟩
      · exact h1
      · exact absurd (hz c hc) hc0
    · exact absurd (hz c hc) hc0
  refine ⟨⟨[], .fin 0, .fin 0, 0, g.len, g.buckets, g.distinctValues⟩, ?_, rfl, rfl, rfl, rfl, h0⟩
  unfold quantiles
  rw [e, M.ok_bind]
  simp only
  rw [C33_empty R h0 ht hf, M.ok_bind]
  show (Except.ok [] >>= _ : M _) = _
  rw [M.ok_bind, hm, M.ok_bind, hs, M.ok_bind, hx, M.ok_bind]
  rfl

/-- an input: lines ended in both ways, a plus sign, no newline at the end -/
def demoInput : Bytes := [53, 10, 49, 57, 57, 13, 10, 43, 48, 48, 57]

/-- instance of `Listing`: "5", "199", "+009" -/
theorem demoInput_listing : Listing [5, 199, 9] demoInput :=
  .lf (x := 5) (line := [53]) ⟨[53], by decide, by decide, by decide, by decide, .inl rfl⟩
    (.crlf (x := 199) (line := [49, 57, 57]) ⟨[49, 57, 57], by decide, by decide, by decide, by decide, .inl rfl⟩
      (.last (x := 9) ⟨[48, 48, 57], by decide, by decide, by decide, by decide, .inr rfl⟩))

/-- `--min 4 --max 200 --sigfig 0`, without and with `--compression` -/
def demoArgs (compression : Bool) : SerializeArgs := ⟨4, 200, 0, compression, false⟩

/-- instance of `C85_pipeline`, with both formats -/
example (compression : Bool) : ∃ bytes t g, serializeCmd Fp.ideal V2.Zlib.stored (fun _ => 0) (demoArgs compression) demoInput = .ok (.ok bytes) ∧
    quantiles Fp.ideal V2.Zlib.stored floorLog2 true (2 ^ 53 + 2) 5 bytes = .ok (.ok t) ∧
    g.low = 4 ∧ g.sigfig = 0 ∧ TableOf Fp.ideal (g : Hist .u64) [5, 199, 9] t ∧
    ∃ r, t.rows.getLast? = some r ∧ r.total = 3 ∧ ∀ x ∈ [5, 199, 9], x ≤ r.value ∨ Equiv g x r.value :=
  C85_pipeline (a := demoArgs compression) ⟨fun _ => rfl, fun _ => rfl, fun bs => by show bs.length ≤ _; omega⟩ _ (show 200 ≤ U64MAX by decide)
    demoU_eq demoInput_listing (.inr (by decide)) (by simp) (by decide) floorLog2_law
    (by decide) (by decide) (le_refl _) true

/-- a histogram with so many samples that `len()` is saturated -/
def demoOver : Hist .u64 :=
  { demoU with maxValue := 19, minNonZero := 4, totalCount := U64MAX
               counts := [0, 2 ^ 63 - 1, 2 ^ 62, 2 ^ 63 - 1, 0, 0, 0] }

/-- `demoOver` serialized -/
def demoOverBytes : List UInt8 :=
  V2.be32 V2.COOKIE ++ V2.be32 28 ++ V2.be32 0 ++ V2.be32 0 ++ V2.be64 4 ++ V2.be64 200 ++ V2.be64 V2.ONE_BITS ++
    (0 :: (254 :: List.replicate 8 255) ++ List.replicate 9 128 ++ (254 :: List.replicate 8 255))

/-- and read back -/
def demoOver' : Hist .u64 := { demoOver with maxValue := 31 }

/-- the items its table is made of -/
def demoOverItems : List IterValue := (Hist.iterQuantiles floorLog2 demoOver' 1 20).toOption.getD []

/-- An overflow in the table: a histogram with more than `2 ^ 64` samples (recorded with counts) can be serialized, but with
overflow checks compiled in the sum over the rows (cli.rs 160) panics. -/
theorem C85_overflow : recordSeq [(4, 2 ^ 63 - 1), (8, 2 ^ 62), (16, 2 ^ 63 - 1)] demoU = .ok (demoOver, .ok ()) ∧
    ∃ bytes n, V2.serialize (fun _ => 0) demoOver = .ok (.ok (bytes, n)) ∧
      ∀ fuel, 20 ≤ fuel → quantiles Fp.ideal V2.Zlib.stored floorLog2 true fuel 1 bytes = .error .overflow := by
  refine ⟨by decide +kernel, demoOverBytes, 68, by decide +kernel, fun fuel hf => ?_⟩
  have h1 : V2.deserialize Fp.ideal V2.Zlib.stored .u64 true demoOverBytes = .ok (.ok (demoOver', [])) := by decide +kernel
  have h2 : Hist.iterQuantiles floorLog2 demoOver' 1 20 = .ok demoOverItems := by decide +kernel
  have h3 : Hist.iterQuantiles floorLog2 demoOver' 1 fuel = .ok demoOverItems := by
    unfold Hist.iterQuantiles at h2 ⊢
    obtain ⟨s, hs, h2⟩ := M.bind_eq_ok.mp h2
    rw [hs, M.ok_bind]
    exact iterCollect_more 20 s h2 fuel hf
  have h4 : rows 0 demoOverItems = .error .overflow := by decide +kernel
  unfold quantiles
  rw [h1, M.ok_bind]
  simp only
  rw [h3, M.ok_bind, h4]
  rfl

end Cli
end Hdr
