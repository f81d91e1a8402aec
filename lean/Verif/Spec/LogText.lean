import Verif.Spec.Log

/-!
# Specification vocabulary: the text of an interval log

What a writer writes, and which lines a reader understands.
-/

namespace Hdr.Log

open Hdr

/-! ## Writing -/

/-- digits without superfluous zeros in front -/
def Whole (a : Str) : Prop := Digits a ∧ a ≠ [] ∧ (a = ['0'] ∨ a.head? ≠ some '0')

/-- `t` is a non-negative number with three decimals, within `tol` of `q` -/
def Decimals (q tol : ℚ) (t : Str) : Prop :=
  ∃ a b : Str, t = a ++ '.' :: b ∧ Whole a ∧ Digits b ∧ b.length = 3 ∧ |(decVal (a ++ b) : ℚ) / 1000 - q| ≤ tol

/-- `{:.3}` -/
inductive Shows : F64 → Str → Prop
  | nan : Shows .nan "NaN".toList
  | pinf : Shows .pinf "inf".toList
  | ninf : Shows .ninf "-inf".toList
  | pos {q : ℚ} {t : Str} : 0 ≤ q → Decimals q (1 / 2000) t → Shows (.fin q) t
  | neg {q : ℚ} {t : Str} : q < 0 → Decimals (-q) (1 / 2000) t → Shows (.fin q) ('-' :: t)

/-- a duration in seconds, to half a millisecond and the precision of `f64` -/
def SecondsText (d : Dur) (t : Str) : Prop := Decimals d.val (1 / 2000 + d.val / 2 ^ 51) t

/-- a point in time in seconds since the epoch -/
inductive EpochText : SysTime → Str → Prop
  | after {d : Dur} {t : Str} : SecondsText d t → EpochText (.afterEpoch d) t
  | before {d : Dur} {t : Str} : SecondsText d t → EpochText (.beforeEpoch d) ('-' :: t)

/-- a value of type `SystemTime`: a time before the epoch is not the epoch -/
def SysTime.Valid : SysTime → Prop
  | .afterEpoch d => d.Valid
  | .beforeEpoch d => d.Valid ∧ 0 < d.val

/-- a call on an `IntervalLogWriterBuilder` -/
inductive Setting where
  | comment (s : Str)
  | startTime (t : SysTime)
  | baseTime (t : SysTime)
  | divisor (x : F64)

/-- the calls on a builder that lead to `begin_log_with` -/
def configure (ss : List Setting) : Builder := ss.foldl (fun b s => match s with
  | .comment s => b.addComment s
  | .startTime t => b.withStartTime t
  | .baseTime t => b.withBaseTime t
  | .divisor x => b.withMaxValueDivisor x) Builder.new

def Setting.comment? : Setting → Option Str | .comment s => some s | _ => none
def Setting.start? : Setting → Option SysTime | .startTime t => some t | _ => none
def Setting.base? : Setting → Option SysTime | .baseTime t => some t | _ => none
def Setting.divisor? : Setting → Option F64 | .divisor x => some x | _ => none

/-- the divisor in force: the one set last, or 1 -/
def divisorOf (ss : List Setting) : F64 := ((ss.filterMap Setting.divisor?).getLast?).getD (.fin 1)

/-- a comment: `#` in front of every line -/
def commentText (s : Str) : Str := '#' :: s.flatMap (fun c => if c = '\n' then ['\n', '#'] else [c]) ++ ['\n']

/-- the line of a time header, if that time was set; the last call counts -/
inductive HeaderLine (name : String) : Option SysTime → Str → Prop
  | none : HeaderLine name none []
  | some {t : SysTime} {x : Str} : EpochText t x →
      HeaderLine name (some t) ("#[".toList ++ name.toList ++ ": ".toList ++ x ++ " (seconds since epoch)]\n".toList)

/-- the line that tells the divisor, unless it is 1 -/
inductive DivisorLine : F64 → Str → Prop
  | one : DivisorLine (.fin 1) []
  | other {x : F64} {t : Str} : x ≠ .fin 1 → Shows x t → DivisorLine x ("#[MaxValueDivisor: ".toList ++ t ++ "]\n".toList)

/-- `Tag=` and the tag, if there is one -/
def tagField : Option Tag → Str
  | none => []
  | some t => "Tag=".toList ++ t.asStr ++ ",".toList

/-- what one call writes -/
inductive OpText {ε : Type} (divisor : F64) (ser : Ser ε) : Op → Str → Prop
  | comment {s : Str} : OpText divisor ser (.comment s) (commentText s)
  | hist {T : CounterTy} {h : Hist T} {start duration : Dur} {tag : Option Tag} {m : Nat} {buf : Bytes} {x y z e : Str} :
      h.max = .ok m → ser h = .ok (.ok buf) → SecondsText start x → SecondsText duration y →
      Shows (F64.div (F64.ofNat m) divisor) z → b64Decode e = some buf → e.length = (buf.length + 2) / 3 * 4 →
      OpText divisor ser (.hist h start duration tag)
        (tagField tag ++ x ++ ",".toList ++ y ++ ",".toList ++ z ++ ",".toList ++ e ++ "\n".toList)

/-- the text of a log: the comments given to the builder in order, the time headers, the divisor, and then what the calls
write, in order -/
def LogText {ε : Type} (ss : List Setting) (ser : Ser ε) (ops : List Op) (text : Str) : Prop :=
  ∃ (a b c : Str) (xs : List Str),
    HeaderLine "StartTime" (ss.filterMap Setting.start?).getLast? a ∧
    HeaderLine "BaseTime" (ss.filterMap Setting.base?).getLast? b ∧
    DivisorLine (divisorOf ss) c ∧ List.Forall₂ (OpText (divisorOf ss) ser) ops xs ∧
    text = (ss.filterMap Setting.comment?).flatMap commentText ++ a ++ b ++ c ++ xs.flatten

/-! ## Reading -/

/-- seconds and a fraction: digits, a point, digits, perhaps with a plus sign in front -/
def TimeText (x : Bytes) (d : Dur) : Prop :=
  ∃ (sign S F : Str), (sign = [] ∨ sign = ['+']) ∧ Digits S ∧ S ≠ [] ∧ Digits F ∧ F ≠ [] ∧ decVal S ≤ U64MAX ∧
    x = Str.bytes (sign ++ S ++ '.' :: F) ∧ d = ⟨decVal S, fracNanos F⟩

/-- the tag in front of an interval, if any: everything up to the comma, line feeds included -/
inductive TagField : Bytes → Option Str → Prop
  | none : TagField [] none
  | some {t : Str} : ',' ∉ t → TagField (Str.bytes ("Tag=".toList ++ t ++ ",".toList)) (some t)

/-- a line, with its line feed, that is an entry -/
inductive EntryLine (D : Dbl) : Bytes → Entry → Prop
  | startTime {x t : Bytes} {d : Dur} : TimeText x d → 10 ∉ t →
      EntryLine D (Str.bytes "#[StartTime: ".toList ++ x ++ 32 :: t ++ [10]) (.startTime d)
  | baseTime {x t : Bytes} {d : Dur} : TimeText x d → 10 ∉ t →
      EntryLine D (Str.bytes "#[BaseTime: ".toList ++ x ++ 32 :: t ++ [10]) (.baseTime d)
  /-- `m` is a number to nom's `double`; carriage returns at the end are dropped -/
  | interval {a x y m : Bytes} {tag : Option Str} {s d : Dur} {e : Str} {k : Nat} : TagField a tag → TimeText x s →
      TimeText y d → 44 ∉ m → D.run (m ++ [44]) = some (m, [44]) → '\n' ∉ e → e.getLast? ≠ some '\r' →
      EntryLine D (a ++ x ++ 44 :: y ++ 44 :: m ++ 44 :: Str.bytes (e ++ List.replicate k '\r') ++ [10])
        (.interval ⟨tag, s, d, m, e⟩)

/-- a line, with its line feed, and the entry it is; a line that begins with `#` or with the legend and is no entry is
skipped -/
inductive Line (D : Dbl) : Bytes → Option Entry → Prop
  | entry {l : Bytes} {e : Entry} : EntryLine D l e → Line D l (some e)
  | comment {t : Bytes} : 10 ∉ t → (∀ e, ¬ EntryLine D (35 :: t ++ [10]) e) → Line D (35 :: t ++ [10]) none
  | legend {t : Bytes} : 10 ∉ t → Line D (Str.bytes "\"StartTimestamp\"".toList ++ t ++ [10]) none

end Hdr.Log
