import Verif.Props.Log
import Verif.Proofs.LogLevels
import Verif.Spec.LogText

/-!
# C68, C69: the text of an interval log, written and read
-/

namespace Hdr

open Hdr.Log Hdr.F64

variable {T : CounterTy} {ε : Type} {fp : Fp}

/-! ## C68 -/

namespace Log

theorem decimalLoop_head (k : Nat) : ∀ n < k, decimalLoop k n = ['0'] ∨ (decimalLoop k n).head? ≠ some '0' := by
  induction k with
  | zero => intro n hn; omega
  | succ k ih =>
    intro n hn
    unfold decimalLoop
    split
    · rename_i h
      by_cases h0 : n = 0
      · subst h0; exact Or.inl (by decide)
      · right
        intro e
        have h1 := congrArg (fun o => (o.getD 'x').toNat) e
        simp only [List.head?_cons, Option.getD_some] at h1
        rw [toNat_ofNat_digit h] at h1
        have : ('0' : Char).toNat = 48 := rfl
        omega
    · rename_i h
      right
      have h1 := ih (n / 10) (by omega)
      have h2 := (decimalLoop_spec k (n / 10) (by omega)).2
      obtain ⟨c, t, e⟩ : ∃ c t, decimalLoop k (n / 10) = c :: t := List.exists_cons_of_ne_nil h2.1
      rw [e] at h1 h2 ⊢
      rcases h1 with h1 | h1
      · cases h1
        have : decVal ['0'] = 0 := by decide
        omega
      · exact h1

theorem milli_decimals {n : Nat} {q tol : ℚ} (h : |(n : ℚ) / 1000 - q| ≤ tol) : Decimals q tol (milli n) := by
  obtain ⟨h1, h2, h3⟩ := decimal_spec (n / 1000)
  obtain ⟨h4, h5, h6⟩ := pad3_spec (n := n % 1000) (by omega)
  refine ⟨_, _, rfl, ⟨h1, h2, decimalLoop_head _ _ (by omega)⟩, h4, h5, ?_⟩
  have : decVal (decimal (n / 1000) ++ pad3 (n % 1000)) = n := by
    rw [decVal_append, h3, h5, h6]; omega
  rw [this]; exact h

theorem fixed3_shows (f : Fmt) (x : F64) : Shows x (f.fixed3 x) := by
  cases x with
  | nan => exact .nan
  | pinf => exact .pinf
  | ninf => exact .ninf
  | fin q =>
    simp only [Fmt.fixed3]
    split
    · rename_i h; exact .neg h (milli_decimals (f.near _ (by linarith)))
    · rename_i h; exact .pos (not_lt.mp h) (milli_decimals (f.near _ (not_lt.mp h)))

theorem seconds_text (f : Fmt) {d : Dur} (hd : d.Valid) : SecondsText d (f.fixed3 (durationAsFpSeconds d)) := by
  obtain ⟨q, e, h0, h1, -⟩ := fpSeconds hd
  rw [e]
  simp only [Fmt.fixed3]
  rw [if_neg (by linarith)]
  refine milli_decimals ?_
  have h6 : (f.ms q : ℚ) / 1000 - d.val = ((f.ms q : ℚ) / 1000 - q) + (q - d.val) := by ring
  rw [h6]
  exact le_trans (abs_add_le _ _) (add_le_add (f.near q h0) h1)

theorem epoch_text (f : Fmt) {t : SysTime} (ht : t.Valid) : EpochText t (f.fixed3 (systemTimeAsFpSeconds t)) := by
  cases t with
  | afterEpoch d => exact .after (seconds_text f ht)
  | beforeEpoch d =>
    obtain ⟨hv, h0⟩ := ht
    obtain ⟨q, e, hq0, hq, -⟩ := fpSeconds hv
    have hqpos : 0 < q := by
      rw [abs_le] at hq
      norm_num at hq
      linarith [hq.1]
    have hfix : rndQ q = q := by
      rw [fpSeconds_eq hv] at e
      cases e
      exact rndQ_idem _
    have e2 : systemTimeAsFpSeconds (.beforeEpoch d) = .fin (-q) := by
      show F64.mul (durationAsFpSeconds d) (.fin (-1)) = _
      rw [e]
      have hq65 : q ≤ 2 ^ 66 := by
        rw [abs_le] at hq
        obtain ⟨h1, h2⟩ := hv
        have h3 : (d.secs : ℚ) ≤ 2 ^ 64 := by
          have : (d.secs : ℚ) ≤ (U64MAX : ℕ) := by exact_mod_cast h1
          rw [U64MAX_q] at this; linarith
        have h4 : (d.nanos : ℚ) < 1000000000 := by exact_mod_cast h2
        have h5 : d.val ≤ 2 ^ 64 + 1 := by
          unfold Dur.val
          have : (d.nanos : ℚ) / 1000000000 ≤ 1 := by rw [div_le_one (by norm_num)]; linarith
          linarith
        norm_num at hq h5 ⊢
        linarith [hq.2]
      have : F64.mul (.fin q) (.fin (-1)) = .fin (rndQ (q * -1)) := by
        refine rnd_fin ?_
        rw [mul_neg_one, abs_neg, abs_of_pos hqpos]
        refine le_trans hq65 (le_trans ?_ pow128_le)
        norm_num
      rw [this, mul_neg_one, rndQ_neg, hfix]
    have st := seconds_text f hv
    rw [e] at st
    simp only [Fmt.fixed3] at st
    rw [if_neg (by linarith)] at st
    rw [e2]
    simp only [Fmt.fixed3]
    rw [if_pos (by linarith), neg_neg]
    exact .before st

theorem splitLines_ne (s : Str) : splitLines s ≠ [] := by
  induction s with
  | nil => simp [splitLines]
  | cons c s ih =>
    unfold splitLines
    split
    · simp
    · split <;> simp

theorem commentBytes_eq (s : Str) : commentBytes s = Str.bytes (commentText s) := by
  unfold commentBytes commentText
  have key : ∀ s : Str, ∃ l ls, splitLines s = l :: ls ∧
      s.flatMap (fun c => if c = '\n' then ['\n', '#'] else [c]) ++ ['\n'] = l ++ ['\n'] ++ ls.flatMap (fun l => '#' :: l ++ ['\n']) := by
    intro s
    induction s with
    | nil => exact ⟨[], [], rfl, rfl⟩
    | cons c s ih =>
      obtain ⟨l, ls, h1, h2⟩ := ih
      by_cases hc : c = '\n'
      · refine ⟨[], l :: ls, ?_, ?_⟩
        · rw [splitLines, if_pos hc, h1]
        · rw [List.flatMap_cons, if_pos hc, List.append_assoc, h2]; simp
      · refine ⟨c :: l, ls, ?_, ?_⟩
        · rw [splitLines, if_neg hc, h1]
        · rw [List.flatMap_cons, if_neg hc, List.append_assoc, h2]; simp
  obtain ⟨l, ls, h1, h2⟩ := key s
  have hm : ∀ ls : List Str, ls.flatMap (fun l => Str.bytes ('#' :: l ++ ['\n'])) =
      Str.bytes (ls.flatMap fun l => '#' :: l ++ ['\n']) := by
    intro ls
    induction ls with
    | nil => rfl
    | cons l ls ih => rw [List.flatMap_cons, List.flatMap_cons, bytes_append _ (List.flatMap _ _), ih]
  rw [hm, h1, List.cons_append, h2]
  simp

theorem configure_append (ss : List Setting) (s : Setting) : configure (ss ++ [s]) = (match s with
  | .comment s => (configure ss).addComment s
  | .startTime t => (configure ss).withStartTime t
  | .baseTime t => (configure ss).withBaseTime t
  | .divisor x => (configure ss).withMaxValueDivisor x) := by
  unfold configure
  rw [List.foldl_append]
  rfl

theorem configure_eq (ss : List Setting) : (configure ss).comments = ss.filterMap Setting.comment? ∧
    (configure ss).startTime = (ss.filterMap Setting.start?).getLast?.map systemTimeAsFpSeconds ∧
    (configure ss).baseTime = (ss.filterMap Setting.base?).getLast?.map systemTimeAsFpSeconds ∧
    (configure ss).maxValueDivisor = divisorOf ss := by
  induction ss using List.reverseRecOn with
  | nil => exact ⟨rfl, rfl, rfl, rfl⟩
  | append_singleton ss s ih =>
    obtain ⟨h1, h2, h3, h4⟩ := ih
    rw [configure_append]
    unfold divisorOf at *
    cases s <;>
      simp [Builder.addComment, Builder.withStartTime, Builder.withBaseTime, Builder.withMaxValueDivisor, Setting.comment?,
        Setting.start?, Setting.base?, Setting.divisor?, List.filterMap_append, h1, h2, h3, h4]

theorem headerLine {f : Fmt} {t : Str} {name : String} (ht : t = "#[".toList ++ name.toList ++ ": ".toList) {o : Option SysTime}
    (ho : ∀ x, o = some x → x.Valid) :
    ∃ a, HeaderLine name o a ∧ headerBytes f t (o.map systemTimeAsFpSeconds) = Str.bytes a := by
  cases o with
  | none => exact ⟨[], .none, rfl⟩
  | some x =>
    refine ⟨_, .some (epoch_text f (ho x rfl)), ?_⟩
    subst ht
    rfl

theorem divisorLine (f : Fmt) (x : F64) : ∃ c, DivisorLine x c ∧
    (if !F64.feq x (.fin 1) then Str.bytes (divisorTag ++ f.fixed3 x ++ [']', '\n']) else []) = Str.bytes c := by
  by_cases h : x = .fin 1
  · subst h
    exact ⟨[], .one, by simp [F64.feq, Str.bytes]⟩
  · refine ⟨_, .other h (fixed3_shows f x), ?_⟩
    have : F64.feq x (.fin 1) = false := by
      cases x with
      | nan => rfl
      | pinf => rfl
      | ninf => rfl
      | fin q =>
        simp only [F64.feq, decide_eq_false_iff_not]
        rintro rfl; exact h rfl
    rw [this]
    rfl

theorem b64_length (b : Bytes) : (b64Encode b).length = (b.length + 2) / 3 * 4 := by
  induction b using b64Encode.induct with
  | case1 a b c rest ih => unfold b64Encode; simp only [List.length_cons, ih]; omega
  | case2 a b => simp [b64Encode]
  | case3 a => simp [b64Encode]
  | case4 => rfl

/-- the times in a call are `Duration`s -/
def Op.Valid : Op → Prop
  | .comment _ => True
  | .hist _ start duration _ => start.Valid ∧ duration.Valid

theorem op_text {f : Fmt} {divisor : F64} {ser : Ser ε} {op : Op} (hv : op.Valid) {b : Bytes}
    (h : op.run f divisor ser = .ok (b, .ok ())) : ∃ x, OpText divisor ser op x ∧ b = Str.bytes x := by
  cases op with
  | comment s =>
    simp only [Op.run] at h
    cases h
    exact ⟨_, .comment, commentBytes_eq s⟩
  | @hist T h0 start duration tag =>
    simp only [Op.run, writeHistogram] at h
    rw [M.bind_eq_ok] at h
    obtain ⟨m, hm, h⟩ := h
    rw [M.bind_eq_ok] at h
    obtain ⟨r, hr, h⟩ := h
    cases r with
    | error e => cases h
    | ok buf =>
      cases h
      refine ⟨_, .hist hm hr (seconds_text f hv.1) (seconds_text f hv.2) (fixed3_shows f _) (b64_decode_encode buf)
        (b64_length buf), ?_⟩
      have e1 : tagText tag = tagField tag := by cases tag <;> rfl
      rw [e1]
      simp only [bytes_append]
      rfl

theorem ops_text {f : Fmt} {divisor : F64} {ser : Ser ε} {ops : List Op} (hv : ∀ op ∈ ops, op.Valid) : ∀ {b : Bytes},
    runOps f divisor ser ops = .ok (.ok b) → ∃ xs, List.Forall₂ (OpText divisor ser) ops xs ∧ b = Str.bytes xs.flatten := by
  induction ops with
  | nil => intro b h; cases h; exact ⟨[], .nil, rfl⟩
  | cons op ops ih =>
    intro b h
    simp only [runOps] at h
    rw [M.bind_eq_ok] at h
    obtain ⟨⟨b1, r⟩, h1, h⟩ := h
    cases r with
    | error e => cases h
    | ok u =>
      dsimp only at h
      rw [M.bind_eq_ok] at h
      obtain ⟨r, h2, h⟩ := h
      cases r with
      | error e => cases h
      | ok bs =>
        cases h
        obtain ⟨x, hx, rfl⟩ := op_text (hv op (by simp)) h1
        obtain ⟨xs, hxs, rfl⟩ := ih (fun o ho => hv o (by simp [ho])) h2
        exact ⟨x :: xs, .cons hx hxs, by rw [List.flatten_cons, bytes_append]⟩

theorem bytes_flatMap (ls : List Str) : ls.flatMap commentBytes = Str.bytes (ls.flatMap commentText) := by
  induction ls with
  | nil => rfl
  | cons l ls ih => rw [List.flatMap_cons, List.flatMap_cons, bytes_append, ih, commentBytes_eq]

end Log

/-- C68 (1): a log that was written without an error is exactly the text the calls on builder and writer stand for. -/
theorem C68_text {f : Fmt} {ss : List Setting} {ser : Ser ε} {ops : List Op} {out : Bytes}
    (hs : ∀ t, .startTime t ∈ ss → t.Valid) (hb : ∀ t, .baseTime t ∈ ss → t.Valid) (hv : ∀ op ∈ ops, op.Valid)
    (h : writeLog f (configure ss) ser ops = .ok (.ok out)) : ∃ text, LogText ss ser ops text ∧ out = Str.bytes text := by
  obtain ⟨c1, c2, c3, c4⟩ := configure_eq ss
  unfold writeLog at h
  rw [M.bind_eq_ok] at h
  obtain ⟨r, h1, h⟩ := h
  cases r with
  | error e => cases h
  | ok bs =>
    cases h
    rw [c4] at h1
    obtain ⟨xs, hxs, rfl⟩ := ops_text hv h1
    have mem : ∀ {α : Type} {g : Setting → Option α} {x : α}, (ss.filterMap g).getLast? = some x → ∃ s ∈ ss, g s = some x :=
      fun e => List.mem_filterMap.mp (List.mem_of_getLast? e)
    obtain ⟨a, ha, ea⟩ := headerLine (f := f) (t := startTimeTag) (name := "StartTime") (by decide)
      (o := (ss.filterMap Setting.start?).getLast?) (by
        intro x e
        obtain ⟨s, hs1, hs2⟩ := mem e
        cases s <;> cases hs2
        exact hs _ hs1)
    obtain ⟨b, hb', eb⟩ := headerLine (f := f) (t := baseTimeTag) (name := "BaseTime") (by decide)
      (o := (ss.filterMap Setting.base?).getLast?) (by
        intro x e
        obtain ⟨s, hs1, hs2⟩ := mem e
        cases s <;> cases hs2
        exact hb _ hs1)
    obtain ⟨c, hc, ec⟩ := divisorLine f (divisorOf ss)
    refine ⟨_, ⟨a, b, c, xs, ha, hb', hc, hxs, rfl⟩, ?_⟩
    unfold Builder.beginBytes
    rw [c1, c2, c3, c4, ea, eb, ec, bytes_flatMap]
    simp only [bytes_append]

/-- C68 (2): it is written without an error if every histogram can be serialized. -/
theorem C68_succeeds {f : Fmt} {ss : List Setting} {ser : Ser ε} {ops : List Op}
    (hr : ∀ {T : CounterTy} (h : Hist T) (s d : Dur) (tag : Option Tag), Op.hist h s d tag ∈ ops →
      Reachable fp T h ∧ ∃ buf, ser h = .ok (.ok buf)) :
    ∃ out, writeLog f (configure ss) ser ops = .ok (.ok out) := by
  have key : ∀ divisor, ∃ bs, runOps f divisor ser ops = .ok (.ok bs) := by
    intro divisor
    induction ops with
    | nil => exact ⟨_, rfl⟩
    | cons op ops ih =>
      obtain ⟨bs, e⟩ := ih (fun h s d tag hm => hr h s d tag (by simp [hm]))
      have : ∃ b, op.run f divisor ser = .ok (b, .ok ()) := by
        cases op with
        | comment s => exact ⟨_, rfl⟩
        | hist h s d tag =>
          obtain ⟨R, buf, hb⟩ := hr h s d tag (by simp)
          simp only [Op.run, writeHistogram]
          rw [R.wf.max_eq, M.ok_bind]
          rw [hb]
          exact ⟨_, rfl⟩
      obtain ⟨b, e1⟩ := this
      simp only [runOps, e1, M.ok_bind, e]
      exact ⟨_, rfl⟩
  obtain ⟨bs, e⟩ := key (configure ss).maxValueDivisor
  unfold writeLog
  rw [e]
  exact ⟨_, rfl⟩

/-! ## C69 -/

namespace Log

theorem parseUnsigned_iff {max : Nat} {s : Str} {n : Nat} : parseUnsigned max s = some n ↔
    ∃ sign S : Str, (sign = [] ∨ sign = ['+']) ∧ Digits S ∧ S ≠ [] ∧ decVal S ≤ max ∧ s = sign ++ S ∧ n = decVal S := by
  constructor
  · intro h
    obtain ⟨c, t, rfl, hc, ht⟩ := parseUnsigned_some h
    by_cases hp : c = '+'
    · subst hp
      have hne : t ≠ [] := by rintro rfl; cases h
      have e : parseUnsigned max ('+' :: t) = parseUnsigned max t := by
        obtain ⟨d, u, rfl⟩ := List.exists_cons_of_ne_nil hne
        have hd := ht d (by simp)
        have hd' : d ≠ '+' := by rintro rfl; exact plus_not_digit hd
        rw [parseUnsigned_digits ht hne]
        show digitsLoop max (d :: u) 0 = _
        rw [digitsLoop_eq ht (Nat.zero_le _)]
        rfl
      rw [e, parseUnsigned_digits ht hne] at h
      split at h
      · rename_i hle
        cases h
        exact ⟨['+'], t, Or.inr rfl, ht, hne, hle, rfl, rfl⟩
      · cases h
    · have hd : Digits (c :: t) := by
        intro d hd
        rcases List.mem_cons.mp hd with rfl | hd
        · exact hc.resolve_left hp
        · exact ht d hd
      rw [parseUnsigned_digits hd (by simp)] at h
      split at h
      · rename_i hle
        cases h
        exact ⟨[], _, Or.inl rfl, hd, by simp, hle, rfl, rfl⟩
      · cases h
  · rintro ⟨sign, S, hs, hd, hne, hle, rfl, rfl⟩
    have e := parseUnsigned_digits (max := max) hd hne
    rw [if_pos hle] at e
    rcases hs with rfl | rfl
    · exact e
    · obtain ⟨d, u, rfl⟩ := List.exists_cons_of_ne_nil hne
      show digitsLoop max (d :: u) 0 = _
      rw [digitsLoop_eq hd (Nat.zero_le _)]
      exact if_pos hle

theorem timeText_iff {x : Bytes} {d : Dur} : TimeText x d ↔ DurText x d := by
  constructor
  · rintro ⟨sign, S, F, h1, h2, h3, h4, h5, h6, rfl, rfl⟩
    refine ⟨Str.bytes (sign ++ S), Str.bytes F, F, ?_, ⟨_, fromUtf8_bytes _, parseUnsigned_iff.mpr
      ⟨sign, S, h1, h2, h3, h6, rfl, rfl⟩⟩, ⟨?_, h4.isDigit, fromUtf8_bytes _⟩, rfl⟩
    · rw [bytes_append]; rfl
    · intro e
      have := digits_bytes_length h4.ascii
      rw [e] at this
      exact h5 (List.length_eq_zero_iff.mp this.symm)
  · rintro ⟨a, b, s, rfl, ⟨u, hu, hp⟩, hf, hn⟩
    obtain ⟨sign, S, h1, h2, h3, h6, rfl, h7⟩ := parseUnsigned_iff.mp hp
    obtain ⟨h4, h5⟩ := hf.digits
    refine ⟨sign, S, s, h1, h2, h3, h4, h5, h6, ?_, ?_⟩
    · rw [← bytes_of_fromUtf8 hu, ← bytes_of_fromUtf8 hf.2.2, bytes_append _ ('.' :: s)]; rfl
    · cases d; simp only at h7 hn; rw [h7, hn]

theorem trimCr_iff {s e : Str} : e = trimCr s ↔ e.getLast? ≠ some '\r' ∧ ∃ k, s = e ++ List.replicate k '\r' := by
  constructor
  · rintro rfl
    induction s using List.reverseRecOn with
    | nil => exact ⟨by simp [trimCr], 0, by simp [trimCr]⟩
    | append_singleton s c ih =>
      by_cases hc : c = '\r'
      · have e : trimCr (s ++ [c]) = trimCr s := by
          unfold trimCr
          exact List.rdropWhile_concat_pos _ _ _ (by simp [hc])
        rw [e]
        obtain ⟨h1, k, h2⟩ := ih
        refine ⟨h1, k + 1, ?_⟩
        rw [List.replicate_succ', ← List.append_assoc, ← h2, hc]
      · have e : trimCr (s ++ [c]) = s ++ [c] := by
          unfold trimCr
          exact List.rdropWhile_concat_neg _ _ _ (by simp [hc])
        rw [e]
        exact ⟨by simp [hc], 0, by simp⟩
  · rintro ⟨h, k, rfl⟩
    induction k with
    | zero =>
      rw [List.replicate_zero, List.append_nil]
      rcases List.eq_nil_or_concat e with rfl | ⟨t, c, rfl⟩
      · rfl
      · rw [List.concat_eq_append] at h ⊢
        have hc : c ≠ '\r' := by simpa using h
        unfold trimCr
        exact (List.rdropWhile_concat_neg _ _ _ (by simp [hc])).symm
    | succ k ih =>
      rw [List.replicate_succ', ← List.append_assoc]
      unfold trimCr at *
      rw [List.rdropWhile_concat_pos _ _ _ (by simp)]
      exact ih

theorem tagField_iff {x : Bytes} {t : Option Str} : TagField x t ↔ TagText x t := by
  constructor
  · rintro (_ | ⟨h⟩)
    · rfl
    · rename_i t
      refine ⟨Str.bytes t, bytes_not_mem (c := ',') (by decide) h, fromUtf8_bytes t, ?_⟩
      rw [bytes_append, bytes_append, List.append_assoc]; rfl
  · intro h
    cases t with
    | none => cases h; exact .none
    | some t =>
      obtain ⟨y, h1, h2, rfl⟩ := h
      have hy := bytes_of_fromUtf8 h2
      subst hy
      have h3 : ',' ∉ t := fun hc => h1 ((mem_bytes (c := ',') (by decide) t).mpr hc)
      have := TagField.some h3
      rw [bytes_append, bytes_append, List.append_assoc] at this
      exact this

theorem entryLine_iff {D : Dbl} {k : Bytes} {e : Entry} : EntryLine D k e ↔ ∃ l, k = l ++ [10] ∧ EntryText D l e := by
  constructor
  · rintro (⟨hx, ht⟩ | ⟨hx, ht⟩ | ⟨h1, h2, h3, h4, h5, h6, h7⟩)
    · rename_i x t d
      exact ⟨_, rfl, x, t, timeText_iff.mp hx, ht, by simp; rfl⟩
    · rename_i x t d
      exact ⟨_, rfl, x, t, timeText_iff.mp hx, ht, by simp; rfl⟩
    · rename_i a x y m tag s d e n
      refine ⟨_, rfl, a, x, y, Str.bytes (e ++ List.replicate n '\r'), _, tagField_iff.mp h1, timeText_iff.mp h2,
        timeText_iff.mp h3, ⟨h4, h5⟩, ?_, fromUtf8_bytes _, trimCr_iff.mpr ⟨h7, n, rfl⟩, by simp⟩
      refine bytes_not_mem (c := '\n') (by decide) ?_
      rw [List.mem_append]
      rintro (h | h)
      · exact h6 h
      · have := List.eq_of_mem_replicate h
        revert this; decide
  · rintro ⟨l, rfl, h⟩
    cases e with
    | startTime d =>
      obtain ⟨x, t, h1, h2, rfl⟩ := h
      have := EntryLine.startTime (D := D) (timeText_iff.mpr h1) h2
      simp only [List.append_assoc] at this ⊢
      exact this
    | baseTime d =>
      obtain ⟨x, t, h1, h2, rfl⟩ := h
      have := EntryLine.baseTime (D := D) (timeText_iff.mpr h1) h2
      simp only [List.append_assoc] at this ⊢
      exact this
    | interval iv =>
      obtain ⟨tag, s, d, m, e⟩ := iv
      obtain ⟨x1, x2, x3, x5, u, h1, h2, h3, h4, h5, h6, h7, rfl⟩ := h
      obtain ⟨h8, n, rfl⟩ := trimCr_iff.mp h7
      have hb := bytes_of_fromUtf8 h6
      subst hb
      have h9 : '\n' ∉ e := fun hc => h5 ((mem_bytes (c := '\n') (by decide) _).mpr (List.mem_append_left _ hc))
      have := EntryLine.interval (k := n) (tagField_iff.mpr h1) (timeText_iff.mpr h2) (timeText_iff.mpr h3) h4.1 h4.2 h9 h8
      simp only [List.append_assoc, List.cons_append] at this ⊢
      exact this

theorem line_none_iff {D : Dbl} {k : Bytes} : Line D k none ↔ ∃ l, k = l ++ [10] ∧ Skippable l ∧ ∀ e, ¬ EntryText D l e := by
  have hL : Str.bytes "\"StartTimestamp\"".toList = legendTag.bytes := by decide
  constructor
  · rintro (_ | ⟨h1, h2⟩ | h1)
    · rename_i t
      refine ⟨35 :: t, rfl, ⟨?_, Or.inl ⟨t, rfl⟩⟩, fun e he => h2 e (entryLine_iff.mpr ⟨_, rfl, he⟩)⟩
      simp [h1]
    · rename_i t
      refine ⟨_, rfl, ⟨?_, Or.inr ⟨t, by rw [hL]⟩⟩, ?_⟩
      · rw [List.mem_append]
        rintro (h | h)
        · revert h; decide
        · exact h1 h
      · rw [hL, show legendTag.bytes = 34 :: Str.bytes legendTag.tail by decide]
        intro e he
        cases e with
        | startTime d =>
          obtain ⟨x, t, -, -, h⟩ := he
          rw [startTag_bytes] at h; simp at h
        | baseTime d =>
          obtain ⟨x, t, -, -, h⟩ := he
          rw [baseTag_bytes] at h; simp at h
        | interval iv =>
          obtain ⟨b, y, h, hb⟩ := IntervalText.head he
          rw [List.cons_append] at h
          cases h
          revert hb; decide
  · rintro ⟨l, rfl, ⟨h1, h2⟩, h3⟩
    rcases h2 with ⟨t, rfl⟩ | ⟨t, rfl⟩
    · refine .comment (by simpa using h1) fun e he => ?_
      obtain ⟨l, hl, he⟩ := entryLine_iff.mp he
      have : 35 :: t = l := List.append_cancel_right hl
      subst this
      exact h3 e he
    · rw [← hL]
      exact .legend fun h => h1 (List.mem_append_right _ h)

theorem line_iff {D : Dbl} {k : Bytes} {o : Option Entry} : Line D k o ↔ ∃ l, k = l ++ [10] ∧
    ((∃ e, o = some e ∧ EntryText D l e) ∨ (o = none ∧ Skippable l ∧ ∀ e, ¬ EntryText D l e)) := by
  cases o with
  | none => rw [line_none_iff]; simp
  | some e =>
    constructor
    · rintro (h | _ | _)
      obtain ⟨l, hl, he⟩ := entryLine_iff.mp h
      exact ⟨l, hl, Or.inl ⟨e, rfl, he⟩⟩
    · rintro ⟨l, hl, (⟨e', h, he⟩ | ⟨h, -⟩)⟩
      · cases h; exact .entry (entryLine_iff.mpr ⟨l, hl, he⟩)
      · cases h

end Log

/-- C69 (1): every input is, in this way, a sequence of lines and a rest that does not begin with a line. The iterator yields
the entries among the lines, in order; if the rest is not empty, then one error with the position of the rest. -/
theorem C69_reads {D : Dbl} (L : D.Lawful) (i : Bytes) : ∃ (ls : List (Bytes × Option Entry)) (rest : Bytes),
    (∀ l ∈ ls, Line D l.1 l.2) ∧ i = ls.flatMap Prod.fst ++ rest ∧
    (∀ l e r, Line D l e → rest ≠ l ++ r) ∧
    Yields D (Iter.new i) ((ls.filterMap Prod.snd).map .ok ++ if rest = [] then [] else [.error (i.length - rest.length)]) := by
  obtain ⟨es, x, h⟩ := reads_exists D i
  have key : ∃ (ls : List (Bytes × Option Entry)) (rest : Bytes), (∀ l ∈ ls, Line D l.1 l.2) ∧ i = ls.flatMap Prod.fst ++ rest ∧
      (∀ l e r, Line D l e → rest ≠ l ++ r) ∧ es = ls.filterMap Prod.snd ∧ x = if rest = [] then none else some rest := by
    clear L
    induction h with
    | nil =>
      refine ⟨[], [], by simp, rfl, ?_, rfl, rfl⟩
      intro l e r hl
      obtain ⟨l, rfl, -⟩ := line_iff.mp hl
      simp
    | @entry l r e es x he _ ih =>
      obtain ⟨ls, rest, h1, h2, h3, h4, h5⟩ := ih
      refine ⟨(l ++ [10], some e) :: ls, rest, ?_, ?_, h3, ?_, h5⟩
      · intro k hk
        rcases List.mem_cons.mp hk with rfl | hk
        · exact line_iff.mpr ⟨l, rfl, Or.inl ⟨e, rfl, he⟩⟩
        · exact h1 k hk
      · rw [List.flatMap_cons, h2]; simp
      · simp [h4]
    | @skip l r es x hs hn _ ih =>
      obtain ⟨ls, rest, h1, h2, h3, h4, h5⟩ := ih
      refine ⟨(l ++ [10], none) :: ls, rest, ?_, ?_, h3, ?_, h5⟩
      · intro k hk
        rcases List.mem_cons.mp hk with rfl | hk
        · exact line_iff.mpr ⟨l, rfl, Or.inr ⟨rfl, hs, hn⟩⟩
        · exact h1 k hk
      · rw [List.flatMap_cons, h2]; simp
      · simp [h4]
    | @stuck r hne hst =>
      refine ⟨[], r, by simp, rfl, ?_, rfl, by rw [if_neg hne]⟩
      intro l e t hl hr
      obtain ⟨l, rfl, h⟩ := line_iff.mp hl
      have := hst l t (by rw [hr]; simp)
      rcases h with ⟨e, -, he⟩ | ⟨-, hs, -⟩
      · exact this.2 e he
      · exact this.1 hs
  obtain ⟨ls, rest, h1, h2, h3, h4, h5⟩ := key
  refine ⟨ls, rest, h1, h2, h3, ?_⟩
  have := reads_yields_new L h
  rw [h4, h5] at this
  by_cases hr : rest = []
  · rw [if_pos hr] at this ⊢; exact this
  · rw [if_neg hr] at this ⊢; exact this

/-- C69 (2): the lines are unambiguous: an input begins with at most one line, which is at most one entry. -/
theorem C69_unambiguous {D : Dbl} (L : D.Lawful) {l l' r r' : Bytes} {o o' : Option Entry} (h : Line D l o) (h' : Line D l' o')
    (e : l ++ r = l' ++ r') : l = l' ∧ o = o' ∧ r = r' := by
  obtain ⟨l, rfl, g⟩ := line_iff.mp h
  obtain ⟨l', rfl, g'⟩ := line_iff.mp h'
  simp only [List.append_assoc, List.singleton_append] at e
  have fin : r = r' → l ++ [10] = l' ++ [10] := by
    rintro rfl
    rw [List.append_cancel_right e]
  rcases g with ⟨a, rfl, ha⟩ | ⟨rfl, hs, hn⟩ <;> rcases g' with ⟨b, rfl, hb⟩ | ⟨rfl, hs', hn'⟩
  · have h1 := (logEntry_some L (r := r)).mpr ⟨l, ha, rfl⟩
    have h2 := (logEntry_some L (r := r')).mpr ⟨l', hb, rfl⟩
    rw [e, h2] at h1
    cases h1
    exact ⟨fin rfl, rfl, rfl⟩
  · exact absurd e.symm (skip_no_entry hs' hn' ha)
  · exact absurd e (skip_no_entry hs hn hb)
  · have h1 := (ignoredLine_some (r := r)).mpr ⟨l, hs, rfl⟩
    have h2 := (ignoredLine_some (r := r')).mpr ⟨l', hs', rfl⟩
    rw [e, h2] at h1
    cases h1
    exact ⟨fin rfl, rfl, rfl⟩

/-- lines no writer of this crate writes: a plus sign, a tag with a line feed, carriage returns, the legend -/
def logOdd : Bytes :=
  Str.bytes "\"StartTimestamp\",...\n#[BaseTime: +7.25 x\n#[BaseTime: .5 \nTag=a\nb,1.5,0.1234567891,2.000,QQ\r\r\nTag=x\n".toList

example : ∃ it1 it2 it3, (Iter.new logOdd).next Dbl.decimal = .ok (some (.ok (.baseTime ⟨7, 250000000⟩)), it1) ∧
    it1.next Dbl.decimal = .ok (some (.ok (.interval ⟨some "a\nb".toList, ⟨1, 500000000⟩, ⟨0, 123456789⟩,
      Str.bytes "2.000".toList, "QQ".toList⟩)), it2) ∧ it2.next Dbl.decimal = .ok (some (.error 93), it3) :=
  ⟨⟨logOdd.length, logOdd.drop 41, false⟩, ⟨logOdd.length, logOdd.drop 93, false⟩, ⟨logOdd.length, logOdd.drop 93, true⟩,
    by decide +kernel, by decide +kernel, by decide +kernel⟩

example : Line Dbl.decimal (Str.bytes "#[BaseTime: +7.25 x\n".toList) (some (.baseTime ⟨7, 250000000⟩)) :=
  .entry (.baseTime (x := Str.bytes "+7.25".toList) (t := [120])
    ⟨['+'], ['7'], ['2', '5'], Or.inr rfl, by unfold Digits; decide, by decide, by unfold Digits; decide, by decide, by decide, by decide, by decide⟩ (by decide))

/-- settings: two comments, one with two lines, a time set twice, a divisor -/
def demoSettings : List Setting :=
  [.comment "a\nb".toList, .startTime (.afterEpoch ⟨1, 0⟩), .comment "c".toList, .startTime (.beforeEpoch ⟨2, 500000000⟩),
    .divisor (.fin 2)]

example : ∃ out, writeLog Fmt.halfUp (configure demoSettings) (v2Ser fun _ => 0)
      [.hist demo3 ⟨3, 500000⟩ ⟨1, 0⟩ (some ⟨"t".toList⟩), .comment [] ] = .ok (.ok out) ∧
    (Str.bytes "#a\n#b\n#c\n#[StartTime: -2.500 (seconds since epoch)]\n#[MaxValueDivisor: 2.000]\nTag=t,3.001,1.000,".toList)
      <+: out := by
  have h : ((writeLog Fmt.halfUp (configure demoSettings) (v2Ser fun _ => 0)
      [.hist demo3 ⟨3, 500000⟩ ⟨1, 0⟩ (some ⟨"t".toList⟩), .comment [] ]).toOption.map fun r => r.toOption.map fun out =>
      (Str.bytes "#a\n#b\n#c\n#[StartTime: -2.500 (seconds since epoch)]\n#[MaxValueDivisor: 2.000]\nTag=t,3.001,1.000,".toList).isPrefixOf
        out) = some (some true) := by decide +kernel
  cases e : writeLog Fmt.halfUp (configure demoSettings) (v2Ser fun _ => 0)
      [.hist demo3 ⟨3, 500000⟩ ⟨1, 0⟩ (some ⟨"t".toList⟩), .comment [] ] with
  | error p => rw [e] at h; cases h
  | ok r =>
    cases r with
    | error p => rw [e] at h; cases h
    | ok out =>
      rw [e] at h
      simp only [Except.toOption, Option.map_some, Option.some.injEq] at h
      exact ⟨out, rfl, List.isPrefixOf_iff_prefix.mp h⟩

end Hdr
