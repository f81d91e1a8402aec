import Verif.Check.Prelude
import Verif.Model.IntervalLog
import Verif.Spec.LogDemo

/-!
# src/serialization/interval_log/tests.rs, tests/interval_log.rs

Transcribed by hand, as described in Verif/Check/Prelude.lean. `Dbl.decimal` and `Fmt.halfUp` stand for nom's and the
standard library's treatment of numbers. The log file of the repository is repeated here; what zlib makes of each of its
histograms was computed outside of Lean.
Not transcribed: `duration_fp_roundtrip_accuracy`, `write_random_histograms_to_interval_log_then_read` (random numbers).
-/

namespace Hdr.Check.IntervalLog

open Hdr.Log

def text (s : String) : Bytes := Str.bytes s.toList

def ser : Ser V2.SerializeError := v2Ser fun _ => 170

/-- what a builder writes on `begin_log_with` -/
def begun (b : Builder) : Bytes := b.beginBytes Fmt.halfUp

def after (secs nanos : Nat) : SysTime := .afterEpoch ⟨secs, nanos⟩

/-- everything the iterator yields -/
def entries (b : Bytes) : M (List (Except Nat Entry)) := do
  let mut it := Iter.new b
  let mut out := #[]
  for _ in List.range 100 do
    match ← it.next Dbl.decimal with
    | (some e, it') =>
      out := out.push e
      it := it'
    | (none, it') => it := it'
  pure out.toList

-- tests.rs:12 write_header_comment
#guard begun (Builder.new.addComment "foo".toList) = text "#foo\n"

-- tests.rs:25 write_header_then_interval_comment
#guard writeLog Fmt.halfUp ((Builder.new.addComment "foo".toList).addComment "bar".toList) ser [.comment "baz".toList]
  = .ok (.ok (text "#foo\n#bar\n#baz\n"))

/-- tests.rs:46-52: the control characters -/
def controlChars : Str := ((List.range 32) ++ [127] ++ List.range' 128 32).map Char.ofNat

/-- tests.rs:42 write_comment_control_characters_still_parseable -/
def controlLog : M (Except V2.SerializeError Bytes) :=
  writeLog Fmt.halfUp ((((Builder.new.addComment "unicode".toList).addComment controlChars).addComment "whew".toList).withStartTime
    (after 123 456000000)) ser [.comment "baz".toList]

#guard controlChars.length = 2 * 16 + 1 + 2 * 16
#guard controlLog = .ok (.ok (text "#unicode\n#" ++ Str.bytes (controlChars.take 10) ++ text "\n#"
  ++ Str.bytes (controlChars.drop 11) ++ text "\n#whew\n#[StartTime: 123.456 (seconds since epoch)]\n#baz\n"))
#guard passes do
  match ← controlLog with
  | .ok b => check ((← entries b) = [.ok (.startTime ⟨123, 456000000⟩)])
  | .error _ => check false

-- tests.rs:85 write_comment_newline_wraps
#guard begun (((Builder.new.addComment "before".toList).addComment "new\nline".toList).addComment "after".toList)
  = text "#before\n#new\n#line\n#after\n"

-- tests.rs:105 write_headers_multiple_times_only_last_is_used
#guard begun ((((((Builder.new.withStartTime (after 10 0)).withBaseTime (after 20 0)).withStartTime (after 100 0)).withBaseTime
    (after 200 0)).withMaxValueDivisor (f64 1000)).withMaxValueDivisor (f64 1000000))
  = text ("#[StartTime: 100.000 (seconds since epoch)]\n#[BaseTime: 200.000 (seconds since epoch)]\n"
    ++ "#[MaxValueDivisor: 1000000.000]\n")

/-- tests.rs:131 write_interval_histo_no_tag -/
def writeIntervalHistoNoTag : M Unit := do
  let h ← histo64 1 U64MAX 3
  let h ← okay (h.record 1000)
  let l ← unwrap (writeLog Fmt.halfUp (Builder.new.withMaxValueDivisor (f64 10)) ser
    [.hist h ⟨1, 234567890⟩ ⟨5, 670000000⟩ none])
  check (l = text ("#[MaxValueDivisor: 10.000]\n"
    ++ "1.235,5.670,100.000,HISTEwAAAAMAAAAAAAAAAwAAAAAAAAAB//////////8/8AAAAAAAAM8PAg==\n"))
#guard passes writeIntervalHistoNoTag

/-- tests.rs:163 write_interval_histo_with_tag -/
def writeIntervalHistoWithTag : M Unit := do
  let h ← histo64 1 U64MAX 3
  let l ← unwrap (writeLog Fmt.halfUp Builder.new ser [.hist h ⟨1, 234000000⟩ ⟨5, 678000000⟩ (Tag.new "t".toList)])
  check (l = text "Tag=t,1.234,5.678,0.000,HISTEwAAAAEAAAAAAAAAAwAAAAAAAAAB//////////8/8AAAAAAAAAA=\n")
#guard passes writeIntervalHistoWithTag

-- tests.rs:191 write_start_time, tests.rs:207 write_base_time
#guard begun (Builder.new.withStartTime (after 123 456789012)) = text "#[StartTime: 123.457 (seconds since epoch)]\n"
#guard begun (Builder.new.withBaseTime (after 123 456789012)) = text "#[BaseTime: 123.457 (seconds since epoch)]\n"

-- tests.rs:225 parse_duration_full_ns, tests.rs:233 parse_duration_scale_ns, tests.rs:241 parse_duration_too_many_ns
#guard fractSecDuration (text "123456.789012345foo") = .ok (some (⟨123456, 789012345⟩, text "foo"))
#guard fractSecDuration (text "123456.789012foo") = .ok (some (⟨123456, 789012000⟩, text "foo"))
#guard fractSecDuration (text "123456.7890123456foo") = .ok (some (⟨123456, 789012345⟩, text "foo"))

-- tests.rs:284 parse_start_time_with_human_date, tests.rs:297 parse_start_time_without_human_date
#guard headerTime startTimeTag
    (text "#[StartTime: 1441812279.474 (seconds since epoch), Wed Sep 09 08:24:39 PDT 2015]\nfoo")
  = .ok (some (⟨1441812279, 474000000⟩, text "foo"))
#guard headerTime startTimeTag (text "#[StartTime: 1441812279.474 (seconds since epoch)]\nfoo")
  = .ok (some (⟨1441812279, 474000000⟩, text "foo"))

-- tests.rs:310 parse_base_time
#guard headerTime baseTimeTag (text "#[BaseTime: 1441812279.474 (seconds since epoch)]\nfoo")
  = .ok (some (⟨1441812279, 474000000⟩, text "foo"))

-- tests.rs:320 parse_legend, tests.rs:329 parse_comment
#guard lineFrom legendTag
    (text "\"StartTimestamp\",\"Interval_Length\",\"Interval_Max\",\"Interval_Compressed_Histogram\"\nfoo") = some (text "foo")
#guard lineFrom ['#'] (text "#SomeOtherComment\nfoo") = some (text "foo")

/-- the interval of the tests below -/
def sample (tag : Option Str) : Interval := ⟨tag, ⟨0, 127000000⟩, ⟨1, 7000000⟩, text "2.769", "couldBeBase64".toList⟩

-- tests.rs:336 parse_interval_hist_no_tag, tests.rs:352 parse_interval_hist_with_tag
#guard intervalHist Dbl.decimal (text "0.127,1.007,2.769,couldBeBase64\nfoo") = .ok (some (sample none, text "foo"))
#guard intervalHist Dbl.decimal (text "Tag=t,0.127,1.007,2.769,couldBeBase64\nfoo")
  = .ok (some (sample (some ['t']), text "foo"))

-- tests.rs:368 iter_with_ignored_prefix
#guard entries (text ("#I'm a comment\n\"StartTimestamp\",etc\nTag=t,0.127,1.007,2.769,couldBeBase64\n"
    ++ "#[StartTime: 1441812279.474 ...\n"))
  = .ok [.ok (.interval (sample (some ['t']))), .ok (.startTime ⟨1441812279, 474000000⟩)]

-- tests.rs:393 iter_without_ignored_prefix
#guard entries (text "Tag=t,0.127,1.007,2.769,couldBeBase64\n#[StartTime: 1441812279.474 ...\n")
  = .ok [.ok (.interval (sample (some ['t']))), .ok (.startTime ⟨1441812279, 474000000⟩)]

-- tests.rs:416 iter_multiple_entrties_with_interleaved_ignored
#guard entries (text ("#I'm a comment\n\"StartTimestamp\",etc\nTag=t,0.127,1.007,2.769,couldBeBase64\n"
    ++ "#Another comment\n#[StartTime: 1441812279.474 ...\n#Yet another comment\n#[BaseTime: 1441812279.474 ...\n"
    ++ "#Enough with the comments\n"))
  = .ok [.ok (.interval (sample (some ['t']))), .ok (.startTime ⟨1441812279, 474000000⟩),
    .ok (.baseTime ⟨1441812279, 474000000⟩)]

-- tests.rs:446 iter_all_ignored_empty_iter
#guard entries (text "#I'm a comment\n\"StartTimestamp\",etc\n#Another comment\n") = .ok []

-- tests/interval_log.rs:290 parse_interval_log_syntax_error_then_returns_none
#guard entries (text "#Foo\nBar\n") = .ok [.error 5]

/-! ## The log file of the repository -/

/-- the untagged lines of tests/data/tagged-Log.logV2.hlog: start, length, maximum in thousandths, the histogram, and
what the compressed part of it inflates to -/
def rows : List (Nat × Nat × Nat × String × List UInt8) := [
  (127, 1007, 2769, "HISTFAAAAEV42pNpmSzMwMCgyAABTBDKT4GBgdnNYMcCBvsPEBEJISEuATEZMQ4uASkhIR4nrxg9v2lMaxhvMekILGZkKmcCAEf2CsI=",
    [28, 132, 147, 19, 0, 0, 0, 33, 0, 0, 0, 0, 0, 0, 0, 2, 0, 0, 0, 0, 0, 0, 78, 32, 0, 0, 3, 70, 48, 184, 160, 0,
    63, 240, 0, 0, 0, 0, 0, 0, 24, 18, 18, 10, 16, 22, 28, 22, 8, 10, 16, 26, 18, 18, 12, 66, 74, 92, 46, 78,
    150, 2, 172, 1, 218, 2, 44, 16, 163, 1, 2, 119, 2]),
  (1134, 999, 442, "HISTFAAAAEJ42pNpmSzMwMAgxwABTBDKT4GBgdnNYMcCBvsPEBEWLj45FTExAT4pBSEBKa6UkAgBi1uM7xjfMMlwMDABAC0CCjM=",
    [28, 132, 147, 19, 0, 0, 0, 30, 0, 0, 0, 0, 0, 0, 0, 2, 0, 0, 0, 0, 0, 0, 78, 32, 0, 0, 3, 70, 48, 184, 160, 0,
    63, 240, 0, 0, 0, 0, 0, 0, 4, 10, 14, 30, 36, 22, 22, 16, 14, 26, 32, 18, 16, 26, 10, 100, 84, 88, 16, 56,
    218, 1, 238, 1, 236, 2, 28, 8, 0, 2]),
  (2133, 1001, 426, "HISTFAAAAD942pNpmSzMwMAgwwABTBDKT4GBgdnNYMcCBvsPEBE+Ph4OLgk5OSkeIS4+LgEeswIDo1+MbmdYNASYAA51CSo=",
    [28, 132, 147, 19, 0, 0, 0, 28, 0, 0, 0, 0, 0, 0, 0, 2, 0, 0, 0, 0, 0, 0, 78, 32, 0, 0, 3, 70, 48, 184, 160, 0,
    63, 240, 0, 0, 0, 0, 0, 0, 14, 14, 12, 8, 10, 24, 30, 30, 26, 12, 18, 10, 14, 10, 16, 12, 54, 112, 48, 50,
    250, 1, 70, 204, 4, 40, 16, 2]),
  (3134, 1001, 426, "HISTFAAAAD942pNpmSzMwMAgwwABTBDKT4GBgdnNYMcCBvsPEBExPiEpITEFGTkRKSEeOR6FkCg1hTeMXvNYlHhYABQ5CTo=",
    [28, 132, 147, 19, 0, 0, 0, 28, 0, 0, 0, 0, 0, 0, 0, 2, 0, 0, 0, 0, 0, 0, 78, 32, 0, 0, 3, 70, 48, 184, 160, 0,
    63, 240, 0, 0, 0, 0, 0, 0, 22, 14, 18, 26, 18, 22, 32, 28, 30, 20, 26, 18, 12, 30, 12, 32, 84, 90, 38, 32,
    236, 1, 74, 158, 4, 34, 12, 4]),
  (4135, 997, 426, "HISTFAAAAD942pNpmSzMwMAgwwABTBDKT4GBgdnNYMcCBvsPEBE2PiERBREpBREhER4+Hj4uvQAdrTlMBldYDDhYAAugCKk=",
    [28, 132, 147, 19, 0, 0, 0, 28, 0, 0, 0, 0, 0, 0, 0, 2, 0, 0, 0, 0, 0, 0, 78, 32, 0, 0, 3, 70, 48, 184, 160, 0,
    63, 240, 0, 0, 0, 0, 0, 0, 6, 14, 18, 20, 32, 20, 26, 32, 20, 18, 20, 12, 14, 12, 14, 10, 46, 80, 44, 42,
    156, 2, 48, 212, 4, 48, 8, 4]),
  (5132, 1002, 426, "HISTFAAAAEF42pNpmSzMwMAgywABTBDKT4GBgdnNYMcCBvsPEBEWPhElOR4pARUpKTkpGQkxq2mMegZnGI0+MZuIcAEAHo8Jvw==",
    [28, 132, 147, 19, 0, 0, 0, 29, 0, 0, 0, 0, 0, 0, 0, 2, 0, 0, 0, 0, 0, 0, 78, 32, 0, 0, 3, 70, 48, 184, 160, 0,
    63, 240, 0, 0, 0, 0, 0, 0, 4, 14, 20, 34, 30, 12, 26, 16, 36, 26, 26, 30, 26, 28, 24, 22, 58, 150, 1, 46,
    48, 204, 1, 50, 242, 3, 52, 20, 10]),
  (6134, 999, 442, "HISTFAAAAEF42pNpmSzMwMAgxwABTBDKT4GBgdnNYMcCBvsPEBEWIS4FITEhDiEJERE+GT6ZkhZGLbl7jEqrWHREmFgAIbAJMw==",
    [28, 132, 147, 19, 0, 0, 0, 30, 0, 0, 0, 0, 0, 0, 0, 2, 0, 0, 0, 0, 0, 0, 78, 32, 0, 0, 3, 70, 48, 184, 160, 0,
    63, 240, 0, 0, 0, 0, 0, 0, 4, 18, 10, 32, 18, 22, 18, 8, 18, 24, 20, 20, 14, 28, 14, 28, 116, 132, 1, 42,
    30, 222, 1, 34, 170, 4, 44, 20, 2, 4]),
  (7133, 999, 459, "HISTFAAAAEJ42pNpmSzMwMCgwAABTBDKD8hndjPYsYDB/gNEhEtMQEBBTk5MQERCRkBEQEWlh9FJbg9jE+MS5ig1LhYmADkkCcE=",
    [28, 132, 147, 19, 0, 0, 0, 32, 0, 0, 0, 0, 0, 0, 0, 2, 0, 0, 0, 0, 0, 0, 78, 32, 0, 0, 3, 70, 48, 184, 160, 0,
    63, 240, 0, 0, 0, 0, 0, 0, 10, 22, 16, 16, 32, 30, 30, 22, 16, 20, 24, 28, 16, 20, 16, 36, 36, 140, 1, 66,
    30, 188, 1, 130, 1, 164, 3, 90, 38, 10, 4, 2]),
  (8132, 1000, 459, "HISTFAAAAEB42pNpmSzMwMAgxwABTBDKT4GBgdnNYMcCBvsPEBEWIREgEOIQEuGT4xHg41Oo0pIqu8LYwVImwMfGBAAfkgkw",
    [28, 132, 147, 19, 0, 0, 0, 30, 0, 0, 0, 0, 0, 0, 0, 2, 0, 0, 0, 0, 0, 0, 78, 32, 0, 0, 3, 70, 48, 184, 160, 0,
    63, 240, 0, 0, 0, 0, 0, 0, 4, 18, 20, 20, 20, 20, 18, 8, 18, 20, 14, 30, 12, 16, 14, 14, 32, 122, 42, 26,
    118, 212, 1, 136, 4, 118, 16, 14, 6, 2]),
  (9132, 1751, 1551892, "HISTFAAAAJZ42pNpmSzMwMB0nQECmCCUnwIDA7ObwY4FDPYfYDJMXFxsbGwMbBwszDwsDDxsHFw6RWJMLJMZmcqBMJrJmskSiA2ZZJmkgRBCgmheIORGI1H5rEzMQAyDzFhY2EWRWUwMWCBxQtQQhAIWJiyAaEHyFbKwsLHAADYWAWmiFeKS5gACLsIEzdQICAgBIQShEfhFABXDF+M=",
    [28, 132, 147, 19, 0, 0, 2, 215, 0, 0, 0, 0, 0, 0, 0, 2, 0, 0, 0, 0, 0, 0, 78, 32, 0, 0, 3, 70, 48, 184, 160,
    0, 63, 240, 0, 0, 0, 0, 0, 0, 0, 2, 2, 10, 10, 6, 6, 6, 0, 6, 8, 4, 3, 12, 4, 0, 12, 6, 8, 10, 44, 114, 22,
    2, 4, 147, 1, 2, 119, 2, 119, 2, 91, 2, 59, 2, 57, 2, 59, 2, 49, 2, 29, 2, 27, 2, 27, 2, 29, 2, 27, 2, 27,
    2, 27, 2, 29, 2, 13, 2, 13, 2, 11, 2, 13, 2, 13, 2, 11, 2, 13, 2, 13, 2, 11, 2, 13, 2, 11, 2, 13, 2, 13, 2,
    11, 2, 13, 2, 13, 2, 11, 2, 5, 2, 3, 2, 5, 2, 5, 2, 5, 2, 5, 2, 5, 2, 3, 2, 5, 2, 5, 2, 5, 2, 5, 2, 3, 2,
    5, 2, 5, 2, 5, 2, 5, 2, 5, 2, 3, 2, 5, 2, 5, 2, 5, 2, 5, 2, 3, 2, 5, 2, 5, 2, 5, 2, 5, 2, 3, 2, 5, 2, 5, 2,
    5, 2, 5, 2, 3, 2, 2, 0, 2, 0, 2, 0, 2, 0, 2, 0, 2, 0, 2, 0, 2, 0, 2, 0, 2, 0, 2, 2, 0, 2, 0, 2, 0, 2, 0, 2,
    0, 2, 0, 2, 0, 2, 0, 2, 0, 2, 2, 0, 2, 0, 2, 0, 2, 0, 2, 0, 2, 0, 2, 0, 2, 0, 2, 0, 2, 0, 2, 2, 0, 2, 0, 2,
    0, 2, 0, 2, 0, 2, 0, 2, 0, 2, 0, 2, 0, 2, 0, 2, 2, 0, 2, 0, 2, 0, 2, 0, 2, 0, 2, 0, 2, 0, 2, 0, 2, 0, 2, 0,
    2, 2, 0, 2, 0, 2, 0, 2, 0, 2, 0, 2, 0, 2, 0, 2, 0, 2, 0, 2, 0, 2, 2, 0, 2, 2, 2, 2, 2, 2, 2, 2, 4, 2, 2, 2,
    2, 2, 2, 2, 2, 2, 2, 2, 2, 2, 2, 2, 2, 2, 2, 2, 2, 4, 2, 2, 2, 2, 2, 2, 2, 2, 2, 2, 2, 2, 2, 2, 2, 2, 2, 2,
    2, 2, 4, 2, 2, 2, 2, 2, 2, 2, 2, 2, 2, 2, 2, 2, 2, 2, 2, 2, 2, 2, 4, 2, 2, 2, 2, 2, 2, 2, 2, 2, 2, 2, 2, 2,
    2, 2, 2, 2, 2, 2, 2, 4, 2, 2, 2, 2, 2, 2, 2, 2, 2, 2, 2, 2, 2, 2, 2, 2, 2, 2, 2, 4, 2, 2, 2, 2, 2, 2, 2, 2,
    2, 2, 2, 2, 2, 2, 2, 2, 4, 4, 6, 4, 4, 4, 4, 4, 4, 4, 4, 4, 6, 4, 4, 4, 4, 4, 4, 4, 4, 4, 6, 4, 4, 4, 4, 4,
    4, 4, 4, 4, 4, 6, 4, 4, 4, 4, 4, 4, 4, 4, 4, 6, 4, 4, 4, 4, 4, 4, 4, 4, 4, 6, 4, 4, 4, 4, 4, 4, 4, 4, 4, 6,
    4, 4, 4, 4, 4, 4, 4, 4, 4, 4, 6, 4, 4, 4, 4, 4, 4, 4, 4, 4, 6, 4, 4, 4, 4, 4, 4, 4, 4, 4, 6, 4, 4, 4, 4, 4,
    4, 4, 4, 4, 4, 6, 4, 4, 4, 4, 4, 4, 4, 4, 4, 6, 4, 4, 4, 4, 4, 4, 4, 4, 4, 6, 4, 4, 8, 8, 8, 8, 10, 8, 8,
    8, 8, 10, 8, 8, 8, 8, 10, 8, 8, 8, 8, 10, 8, 8, 8, 8, 10, 8, 8, 8, 8, 10, 8, 8, 8, 8, 10, 8, 8, 8, 8, 8,
    10, 8, 8, 8, 8, 10, 8, 8, 8, 8, 10, 8, 8, 8, 8, 10, 8, 8, 8, 8, 10, 8, 8, 8, 8, 10, 8, 8, 8, 8, 10, 8, 8,
    8, 8, 8, 10, 8, 8, 8, 8, 10, 8, 8, 8, 8, 10, 8, 8, 8, 8, 10, 8, 8, 8, 8, 10, 8, 8, 8, 8, 10, 8, 8, 8, 8,
    10, 8, 8, 8, 8, 8, 10, 8, 8, 8, 8, 10, 8, 8, 8, 8, 10, 8, 8, 8, 8, 10, 16, 16, 18, 16, 18, 16, 16, 18, 16,
    16, 18, 16, 18, 16, 16, 18, 16, 18, 16, 16, 18, 16, 18, 16, 16, 18, 16, 16, 18, 16, 18, 16, 16, 18, 16, 18,
    16, 16, 18, 16, 18, 16, 16, 18, 16, 16, 18, 16, 18, 16, 16, 18, 16, 18, 16, 16, 18]),
  (10883, 250, 426, "HISTFAAAAD142pNpmSzMwMAgxQABTBDKT4GBgdnNYMcCBvsPEBEeFi4mPg4WLhY2BjY2FhYOBSkpASEtoRA+NgDkCQZR",
    [28, 132, 147, 19, 0, 0, 0, 26, 0, 0, 0, 0, 0, 0, 0, 2, 0, 0, 0, 0, 0, 0, 78, 32, 0, 0, 3, 70, 48, 184, 160, 0,
    63, 240, 0, 0, 0, 0, 0, 0, 12, 4, 10, 2, 14, 8, 4, 10, 4, 6, 0, 6, 6, 4, 4, 8, 32, 26, 26, 16, 18, 42, 18,
    84, 14, 6]),
  (11133, 1003, 524, "HISTFAAAAER42pNpmSzMwMCgyAABTBDKT4GBgdnNYMcCBvsPUBk2HgkZKREpEQUeGSEBAQ6xSYxhCnp7GJ02sWgJsbCwMgEAO0AJSQ==",
    [28, 132, 147, 19, 0, 0, 0, 33, 0, 0, 0, 0, 0, 0, 0, 2, 0, 0, 0, 0, 0, 0, 78, 32, 0, 0, 3, 70, 48, 184, 160, 0,
    63, 240, 0, 0, 0, 0, 0, 0, 0, 6, 12, 24, 28, 26, 20, 26, 20, 32, 12, 28, 18, 16, 16, 8, 22, 146, 1, 86, 32,
    46, 188, 1, 66, 178, 4, 42, 18, 4, 4, 5, 2]),
  (12136, 997, 459, "HISTFAAAAEB42pNpmSzMwMAgxwABTBDKT4GBgdnNYMcCBvsPUBk2AT4eCQURHgkuEREOHjERlSQhhWuMSV9Y7ERYWAAa4gko",
    [28, 132, 147, 19, 0, 0, 0, 30, 0, 0, 0, 0, 0, 0, 0, 2, 0, 0, 0, 0, 0, 0, 78, 32, 0, 0, 3, 70, 48, 184, 160, 0,
    63, 240, 0, 0, 0, 0, 0, 0, 0, 6, 16, 14, 12, 24, 32, 20, 12, 24, 10, 20, 20, 8, 12, 22, 20, 36, 98, 18, 32,
    214, 1, 98, 244, 4, 62, 20, 4, 4]),
  (13133, 998, 459, "HISTFAAAAD942pNpmSzMwMAgxwABTBDKT4GBgdnNYMcCBvsPMBkRIR4RMRk5KQE+PgEhMRmzEjWZJ4whW1hMBNiYAB42CTA=",
    [28, 132, 147, 19, 0, 0, 0, 30, 0, 0, 0, 0, 0, 0, 0, 2, 0, 0, 0, 0, 0, 0, 78, 32, 0, 0, 3, 70, 48, 184, 160, 0,
    63, 240, 0, 0, 0, 0, 0, 0, 0, 2, 20, 18, 12, 20, 22, 28, 30, 26, 16, 14, 14, 16, 18, 22, 28, 54, 116, 38,
    28, 228, 1, 84, 180, 4, 52, 16, 6, 2]),
  (14131, 1000, 492, "HISTFAAAAEN42pNpmSzMwMCgyAABTBDKT4GBgdnNYMcCBvsPUBkWFhE5GT4FKQkRCR4ZCREpqwmMBhpHGG16WHx42JgYmAA6swk+",
    [28, 132, 147, 19, 0, 0, 0, 33, 0, 0, 0, 0, 0, 0, 0, 2, 0, 0, 0, 0, 0, 0, 78, 32, 0, 0, 3, 70, 48, 184, 160, 0,
    63, 240, 0, 0, 0, 0, 0, 0, 0, 4, 4, 20, 30, 28, 14, 32, 26, 24, 20, 24, 12, 28, 24, 20, 26, 58, 144, 1, 48,
    40, 196, 1, 60, 140, 4, 76, 12, 6, 2, 0, 2]),
  (15131, 1001, 442, "HISTFAAAAD542pNpmSzMwMAgywABTBDKT4GBgdnNYMcCBvsPMBkuMTEFHgklFRkRATkJERGdKgudfYwRTSwGalwAF2IJOw==",
    [28, 132, 147, 19, 0, 0, 0, 29, 0, 0, 0, 0, 0, 0, 0, 2, 0, 0, 0, 0, 0, 0, 78, 32, 0, 0, 3, 70, 48, 184, 160, 0,
    63, 240, 0, 0, 0, 0, 0, 0, 0, 2, 10, 22, 22, 32, 12, 24, 34, 36, 28, 20, 16, 30, 24, 20, 20, 44, 122, 56,
    44, 190, 1, 88, 130, 4, 48, 38, 10]),
  (16132, 1001, 524, "HISTFAAAAEZ42pNpmSzMwMCgxAABTBDKT4GBgdnNYMcCBvsPEBE2IQEFCQkpGREpHj4hKS6NU4z7GDMkuBoYDSYw2wiwMLEyAQBQ3wne",
    [28, 132, 147, 19, 0, 0, 0, 34, 0, 0, 0, 0, 0, 0, 0, 2, 0, 0, 0, 0, 0, 0, 78, 32, 0, 0, 3, 70, 48, 184, 160, 0,
    63, 240, 0, 0, 0, 0, 0, 0, 6, 18, 16, 32, 24, 24, 26, 28, 20, 26, 12, 14, 18, 26, 10, 40, 202, 1, 190, 1,
    104, 24, 10, 128, 1, 48, 144, 3, 60, 16, 4, 2, 5, 2]),
  (17133, 998, 459, "HISTFAAAAEB42pNpmSzMwMAgxwABTBDKT4GBgdnNYMcCBvsPUBk2DjElIR4RHiExKQE5IT61iCodtXWMdn0sKVJMTAAekAk0",
    [28, 132, 147, 19, 0, 0, 0, 30, 0, 0, 0, 0, 0, 0, 0, 2, 0, 0, 0, 0, 0, 0, 78, 32, 0, 0, 3, 70, 48, 184, 160, 0,
    63, 240, 0, 0, 0, 0, 0, 0, 0, 6, 8, 22, 34, 18, 12, 20, 12, 18, 22, 26, 16, 30, 18, 14, 38, 88, 122, 44,
    38, 174, 1, 62, 142, 4, 100, 26, 2, 2]),
  (18131, 1000, 459, "HISTFAAAAEF42pNpmSzMwMAgzwABTBDKT4GBgdnNYMcCBvsPUBkWISERJSUJESklHhEJEREhqwZGLakPjDZdLBYCHCwAKOkJPg==",
    [28, 132, 147, 19, 0, 0, 0, 31, 0, 0, 0, 0, 0, 0, 0, 2, 0, 0, 0, 0, 0, 0, 78, 32, 0, 0, 3, 70, 48, 184, 160, 0,
    63, 240, 0, 0, 0, 0, 0, 0, 0, 4, 18, 18, 20, 34, 34, 24, 20, 26, 34, 12, 20, 24, 20, 20, 18, 58, 128, 1,
    42, 26, 240, 1, 60, 138, 4, 56, 16, 8, 4]),
  (19131, 1000, 475, "HISTFAAAAEF42pNpmSzMwMAgzwABTBDKT4GBgdnNYMcCBvsPUAk2HjkJBSk+Pi4BMT4xIQE9pxIluTOMPhtYbITY2JgAKLoJOQ==",
    [28, 132, 147, 19, 0, 0, 0, 31, 0, 0, 0, 0, 0, 0, 0, 2, 0, 0, 0, 0, 0, 0, 78, 32, 0, 0, 3, 70, 48, 184, 160, 0,
    63, 240, 0, 0, 0, 0, 0, 0, 2, 6, 12, 30, 24, 32, 26, 14, 14, 10, 16, 22, 14, 22, 18, 16, 46, 66, 116, 34,
    30, 204, 1, 76, 176, 4, 60, 18, 6, 6, 2]),
  (20131, 1004, 475, "HISTFAAAAEF42pNpmSzMwMAgxwABTBDKT4GBgdnNYMcCBvsPEBFmPhEJOSEhDi4+ETEeASEhswIVi1+MFjtYvCRYGJgAIP8JNw==",
    [28, 132, 147, 19, 0, 0, 0, 30, 0, 0, 0, 0, 0, 0, 0, 2, 0, 0, 0, 0, 0, 0, 78, 32, 0, 0, 3, 70, 48, 184, 160, 0,
    63, 240, 0, 0, 0, 0, 0, 0, 3, 14, 20, 24, 30, 18, 18, 8, 10, 14, 20, 22, 12, 16, 18, 18, 54, 112, 36, 56,
    250, 1, 56, 184, 4, 74, 24, 4, 0, 2])]

def inMs (n : Nat) : String := String.ofList (milli n)

/-- tests/data/tagged-Log.logV2.hlog -/
def file : String :=
  "#[Logged with jHiccup version 2.0.7-SNAPSHOT, manually edited to duplicate contents with Tag=A]\n"
  ++ "#[Histogram log format version 1.2]\n"
  ++ "#[StartTime: 1441812279.474 (seconds since epoch), Wed Sep 09 08:24:39 PDT 2015]\n"
  ++ "\"StartTimestamp\",\"Interval_Length\",\"Interval_Max\",\"Interval_Compressed_Histogram\"\n"
  ++ String.join (rows.map fun (s, d, m, b, _) =>
    let l := inMs s ++ "," ++ inMs d ++ "," ++ inMs m ++ "," ++ b ++ "\n"
    l ++ "Tag=A," ++ l)

/-- what the model should find in it -/
def expected : List (Except Nat Entry) :=
  .ok (.startTime ⟨1441812279, 474000000⟩) :: rows.flatMap fun (s, d, m, b, _) =>
    let e (t : Option Str) : Except Nat Entry :=
      .ok (.interval ⟨t, ⟨s / 1000, s % 1000 * 1000000⟩, ⟨d / 1000, d % 1000 * 1000000⟩, text (inMs m), b.toList⟩)
    [e none, e (some ['A'])]

-- tests/interval_log.rs:16 and 30 and 57: one start time, 42 intervals half of which are tagged, their metadata
#guard file.length = 5615
#guard entries (text file) = .ok expected
#guard expected.length = 43

def b64Value (c : Char) : Nat := b64Table.idxOf c

/-- decoding of base 64 -/
def b64Decode : Str → Bytes
  | a :: b :: '=' :: '=' :: _ => [UInt8.ofNat ((b64Value a * 64 + b64Value b) / 16)]
  | a :: b :: c :: '=' :: _ =>
    let n := (b64Value a * 64 + b64Value b) * 64 + b64Value c
    [UInt8.ofNat (n / 1024), UInt8.ofNat (n / 4 % 256)]
  | a :: b :: c :: d :: r =>
    let n := ((b64Value a * 64 + b64Value b) * 64 + b64Value c) * 64 + b64Value d
    UInt8.ofNat (n / 65536) :: UInt8.ofNat (n / 256 % 256) :: UInt8.ofNat (n % 256) :: b64Decode r
  | _ => []

/-- the decoder that delivers `out` from `bs` -/
def table (bs out : List UInt8) : V2.Zlib where
  deflate := id
  inflate x := if x = bs then out else []
  unread _ := 0

/-- tests/interval_log.rs:57 parse_sample_tagged_interval_log_interval_metadata: each histogram is readable and its maximum
is the one in the log. tests/interval_log.rs:143 parse_sample_tagged_interval_log_rewrite_identical: written again
uncompressed it gives the inflated bytes, up to the encoding of trailing zeros, and the same line. -/
def metadata : M Unit := do
  for (s, d, m, b, out) in rows do
    let bytes := b64Decode b.toList
    check (b64Encode bytes = b.toList)
    match ← V2.deserialize fp (table (bytes.drop 8) out) .u64 true bytes with
    | .ok (h, rest) =>
      check (rest = [])
      check (Fmt.halfUp.fixed3 (F64.div (F64.ofNat (← h.max)) (f64 1000000)) = milli m)
      let line ← unwrap (writeLog Fmt.halfUp Builder.new ser [.hist h ⟨s / 1000, s % 1000 * 1000000⟩
        ⟨d / 1000, d % 1000 * 1000000⟩ none])
      check ((text (inMs s ++ "," ++ inMs d ++ ",")).isPrefixOf line)
      let again ← unwrap (ser h)
      match ← V2.deserialize fp (table [] []) .u64 true again with
      | .ok (h', _) => check (h' = h)
      | .error _ => check false
    | .error _ => check false
#guard passes metadata

end Hdr.Check.IntervalLog
