import Verif.Props.Format
import Verif.Proofs.Decode

/-!
# C67: the deserializer reads exactly the V2 grammar
-/

namespace Hdr

open V2

variable {T : CounterTy} {fp : Fp}

/-- `h` has the settings `low`, `high`, `sigfig`, and its classes, from the lowest to the highest, hold the counts meant by
the numbers `ts` -/
structure Holds (h : Hist T) (low high sigfig : Nat) (ts : List Int) : Prop where
  low : h.low = low
  high : h.high = high
  sigfig : h.sigfig = sigfig
  counts : h.contents.map (·.count) = (List.range h.distinctValues).map fun i => (Format.expand ts).getD i 0

/-- The constructor accepts the settings, and the numbers can be stored in a histogram with them. -/
def Acceptable (fp : Fp) (T : CounterTy) (low high sigfig : Nat) (ts : List Int) : Prop :=
  ∃ h0 : Hist T, Hist.newWithBounds fp T low high sigfig = .ok (.ok h0) ∧ Format.Fits T.max h0.distinctValues ts

theorem V2.holds_decoded {low high sigfig : Nat} {h0 : Hist T} {ts : List Int} (hh : high ≤ U64MAX)
    (e : Hist.newWithBounds fp T low high sigfig = .ok (.ok h0)) (F : Format.Fits T.max h0.distinctValues ts)
    (W : WF fp (decoded (filled h0 ts))) : Holds (decoded (filled h0 ts)) low high sigfig ts := by
  obtain ⟨W0, rfl, -⟩ := newWithBounds_wf hh e
  refine ⟨rfl, rfl, rfl, ?_⟩
  rw [W.contents_eq, List.map_map]
  have hl : (decoded (filled (Hist.fresh fp T low high sigfig) ts)).counts.length =
    (Hist.fresh fp T low high sigfig).counts.length := by simp [decoded, filled]
  unfold Hist.distinctValues
  refine List.map_congr_left fun i hi => ?_
  show (decoded (filled (Hist.fresh fp T low high sigfig) ts)).counts.getD i 0 = _
  rw [List.mem_range, hl] at hi
  show ((List.range (Hist.fresh fp T low high sigfig).counts.length).map fun i => (Format.expand ts).getD i 0).getD i 0 = _
  rw [List.getD_eq_getElem?_getD, List.getElem?_map, List.getElem?_range hi]
  rfl

theorem V2.deserialize_cookie {z : Zlib} {checks : Bool} (r : List UInt8) :
    deserialize fp z T checks (be32 COOKIE ++ r) = deserV2 fp T checks r := by
  unfold deserialize be32
  rw [readBE_be 4 _ _ (by decide)]
  simp

theorem V2.cookie_eq : (0x1c849313 : Nat) = COOKIE := by decide

theorem V2.readHeader_len {r : List UInt8} {hd : Header} (h : readHeader r = .ok hd) : hd.payloadLen < 2 ^ 32 := by
  unfold readHeader at h
  cases h1 : readBE 4 r with
  | none => rw [h1] at h; simp at h
  | some p1 =>
  obtain ⟨n1, r1⟩ := p1
  have hb := (readBE_some h1).1
  rw [h1] at h; simp only at h
  repeat' split at h
  all_goals first | cases h; done | (cases h; exact hb)

theorem V2.stream_of {r rest payload : List UInt8} {hd : Header} {ts : List Int} (hh : readHeader r = .ok hd)
    (hp : hd.rest = payload ++ rest) (hl : payload.length = hd.payloadLen) (N : Format.Numbers payload ts) :
    Format.Stream (be32 COOKIE ++ r) hd.low hd.high hd.digits ts rest := by
  obtain ⟨b1, b2, b3, -⟩ := readHeader_ok hh
  have hU : U64MAX = 18446744073709551615 := rfl
  refine ⟨by norm_num; omega, by norm_num; omega, by norm_num; omega, payload, hl ▸ readHeader_len hh, N, ?_⟩
  rw [readHeader_exact hh, hp, ← hl, cookie_eq]
  simp only [bigEndian_eq, be32, be64, ONE_BITS, List.append_assoc]

theorem V2.stream_iff {r rest : List UInt8} {low high sigfig : Nat} {ts : List Int} (hs : sigfig ≤ 255)
    (S : Format.Stream r low high sigfig ts rest) :
    ∃ r', r = be32 COOKIE ++ r' ∧ ∃ payload, readHeader r' = .ok ⟨payload.length, sigfig, low, high, payload ++ rest⟩ ∧
      Format.Numbers payload ts := by
  obtain ⟨h1, h2, -, payload, hl, N, rfl⟩ := S
  refine ⟨_, ?_, payload, readHeader_be hl hs h1 h2 _, N⟩
  rw [cookie_eq]
  simp only [bigEndian_eq, be32, be64, ONE_BITS, List.append_assoc]

theorem V2.deserialize_uncompressed {z : Zlib} {checks : Bool} {bytes rest : List UInt8} {h : Hist T}
    (hc : bytes.take 4 = Format.bigEndian 4 0x1c849313) (e : deserialize fp z T checks bytes = .ok (.ok (h, rest))) :
    ∃ r, bytes = be32 COOKIE ++ r ∧ deserV2 fp T checks r = .ok (.ok (h, rest)) := by
  rw [bigEndian_eq, cookie_eq] at hc
  have hb : bytes = be32 COOKIE ++ bytes.drop 4 := by
    rw [show be32 COOKIE = beBytes 4 COOKIE from rfl, ← hc, List.take_append_drop]
  refine ⟨_, hb, ?_⟩
  rw [hb, deserialize_cookie] at e
  exact e

/-- C67 (1): if `deserialize` returns a histogram from bytes with the uncompressed cookie, the bytes follow the grammar, the
histogram has the settings of the header, and its counts are those the numbers of the payload mean. -/
theorem C67_reads {z : Zlib} {checks : Bool} {bytes rest : List UInt8} {h : Hist T}
    (hc : bytes.take 4 = Format.bigEndian 4 0x1c849313) (e : deserialize fp z T checks bytes = .ok (.ok (h, rest))) :
    ∃ low high sigfig ts, Format.Stream bytes low high sigfig ts rest ∧ Acceptable fp T low high sigfig ts ∧
      Holds h low high sigfig ts := by
  have W := (deserialize_valid e).1
  obtain ⟨r, rfl, e2⟩ := deserialize_uncompressed hc e
  rw [deserV2_iff] at e2
  obtain ⟨hd, h0, payload, ts, hh, e1, hp, hl, N, F, rfl⟩ := e2
  exact ⟨_, _, _, ts, stream_of hh hp hl N, ⟨h0, e1, F⟩, holds_decoded (readHeader_ok hh).2.2.1 e1 F W⟩

/-- C67 (2): conversely, bytes that follow the grammar with settings the constructor accepts and numbers that fit are
accepted, whatever the build profile, and the histogram is the one described. -/
theorem C67_accepts {z : Zlib} {checks : Bool} {bytes rest : List UInt8} {low high sigfig : Nat} {ts : List Int}
    (S : Format.Stream bytes low high sigfig ts rest) (A : Acceptable fp T low high sigfig ts) :
    ∃ h : Hist T, deserialize fp z T checks bytes = .ok (.ok (h, rest)) ∧ Holds h low high sigfig ts := by
  obtain ⟨h0, e1, F⟩ := A
  have hh : high ≤ U64MAX := by
    have := S.2.1
    have hU : U64MAX = 18446744073709551615 := rfl
    norm_num at this; omega
  obtain ⟨-, -, -, -, -, h5, -⟩ := newWithBounds_wf hh e1
  obtain ⟨r', rfl, payload, hr, N⟩ := stream_iff (by omega) S
  have e : deserialize fp z T checks (be32 COOKIE ++ r') = .ok (.ok (decoded (filled h0 ts), rest)) := by
    rw [deserialize_cookie, deserV2_iff]
    exact ⟨_, h0, payload, ts, hr, e1, rfl, rfl, N, F, rfl⟩
  exact ⟨_, e, holds_decoded hh e1 F (deserialize_valid e).1⟩

/-- C67 (3): the grammar is unambiguous: the bytes determine settings, numbers and rest. -/
theorem C67_unambiguous {bytes rest rest' : List UInt8} {low high sigfig low' high' sigfig' : Nat} {ts ts' : List Int}
    (S : Format.Stream bytes low high sigfig ts rest) (S' : Format.Stream bytes low' high' sigfig' ts' rest') :
    low = low' ∧ high = high' ∧ sigfig = sigfig' ∧ ts = ts' ∧ rest = rest' := by
  obtain ⟨a1, a2, a3, p, al, N, rfl⟩ := S
  obtain ⟨b1, b2, b3, q, bl, N', e⟩ := S'
  simp only [bigEndian_eq, List.append_assoc] at e
  have step : ∀ {n x y : Nat} {r s : List UInt8}, x < 256 ^ n → y < 256 ^ n → beBytes n x ++ r = beBytes n y ++ s →
      x = y ∧ r = s := by
    intro n x y r s hx hy e
    have h1 := readBE_be n x r hx
    rw [e, readBE_be n y s hy] at h1
    cases h1; exact ⟨rfl, rfl⟩
  norm_num at a1 a2 a3 al b1 b2 b3 bl
  obtain ⟨-, e⟩ := step (by norm_num) (by norm_num) e
  obtain ⟨hl, e⟩ := step (by norm_num; omega) (by norm_num; omega) e
  obtain ⟨-, e⟩ := step (by norm_num) (by norm_num) e
  obtain ⟨h1, e⟩ := step (by norm_num; omega) (by norm_num; omega) e
  obtain ⟨h2, e⟩ := step (by norm_num; omega) (by norm_num; omega) e
  obtain ⟨h3, e⟩ := step (by norm_num; omega) (by norm_num; omega) e
  obtain ⟨-, e⟩ := step (by norm_num) (by norm_num) e
  obtain ⟨rfl, h4⟩ := List.append_inj e hl
  exact ⟨h2, h3, h1, numbers_unique N N', h4⟩

/-- C67 (4): a compressed message is accepted exactly if its inflated payload is an accepted uncompressed message, and yields
the same histogram. -/
theorem C67_compressed {z : Zlib} {checks : Bool} {body : List UInt8} {n : Nat} (hn : n < 2 ^ 32) {h : Hist T} :
    (∃ rest, deserialize fp z T checks (Format.bigEndian 4 0x1c849314 ++ Format.bigEndian 4 n ++ body) = .ok (.ok (h, rest))) ↔
    (z.inflate (body.take n)).take 4 = Format.bigEndian 4 0x1c849313 ∧
      ∃ left, deserialize fp z T checks (z.inflate (body.take n)) = .ok (.ok (h, left)) := by
  have e0 : deserialize fp z T checks (Format.bigEndian 4 0x1c849314 ++ Format.bigEndian 4 n ++ body) =
      deserV2Compressed fp z T checks (be32 n ++ body) := by
    unfold deserialize
    rw [bigEndian_eq, bigEndian_eq, List.append_assoc, readBE_be 4 _ _ (by norm_num)]
    simp only
    rw [if_neg (by decide), if_pos (by decide)]; rfl
  rw [e0]
  unfold deserV2Compressed be32
  rw [readBE_be 4 _ _ (by norm_num at hn ⊢; omega)]
  simp only
  constructor
  · rintro ⟨rest, e⟩
    cases h3 : readBE 4 (z.inflate (body.take n)) with
    | none => rw [h3] at e; cases e
    | some p3 =>
      obtain ⟨c3, r3⟩ := p3
      rw [h3] at e
      simp only at e
      split at e
      · cases e
      rename_i hc3
      have hc : c3 = COOKIE := by by_contra hx; exact hc3 hx
      subst hc
      rw [M.bind_eq_ok] at e
      obtain ⟨y, h4, h5⟩ := e
      cases y with
      | error x => cases h5
      | ok w =>
        obtain ⟨h', left⟩ := w
        cases h5
        rw [readBE_exact h3]
        refine ⟨?_, left, ?_⟩
        · rw [List.take_left' (beBytes_length _ _), bigEndian_eq, cookie_eq]
        · exact (deserialize_cookie r3).trans h4
  · rintro ⟨hc, left, e⟩
    obtain ⟨r, hr, e2⟩ := deserialize_uncompressed hc e
    rw [hr]
    unfold be32
    rw [readBE_be 4 _ _ (by decide)]
    simp only
    rw [if_neg (by simp), e2]
    exact ⟨_, rfl⟩

/-- bytes no serializer writes: superfluous continuation bytes, a run of zeros cut in two and one beyond the last slot -/
def demoOdd : List UInt8 :=
  Format.bigEndian 4 0x1c849313 ++ Format.bigEndian 4 8 ++ Format.bigEndian 4 0 ++ Format.bigEndian 4 0
    ++ Format.bigEndian 8 1 ++ Format.bigEndian 8 15 ++ Format.bigEndian 8 0x3FF0000000000000
    ++ [0x82, 0x80, 0x00, 0x01, 0x00, 0x04, 0x00, 0x13] ++ [9, 9]

theorem demoOdd_stream : Format.Stream demoOdd 1 15 0 [1, -1, 0, 2, 0, -10] [9, 9] :=
  ⟨by decide, by decide, by decide, [0x82, 0x80, 0x00, 0x01, 0x00, 0x04, 0x00, 0x13], by decide,
    .cons (u := 2) rfl (.cons (u := 1) rfl (.cons (u := 0) rfl (.cons (u := 4) rfl (.cons (u := 0) rfl (.cons (u := 19) rfl .nil))))),
    rfl⟩

theorem demoOdd_acceptable : Acceptable Fp.ideal .u8 1 15 0 [1, -1, 0, 2, 0, -10] := by
  refine ⟨demo, demo_eq, by decide, by decide, fun i hi => ?_⟩
  have e : Format.expand [1, -1, 0, 2, 0, -10] = [1, 0, 0, 2, 0] ++ List.replicate 10 0 := by decide
  rw [e, getD_append]
  have hi : 5 ≤ i := hi
  rw [if_neg (by simp; omega), List.getD_eq_getElem?_getD, List.getElem?_replicate]
  split <;> rfl

example : ∃ h : Hist .u8, deserialize Fp.ideal V2.Zlib.stored .u8 true demoOdd = .ok (.ok (h, [9, 9])) ∧
    h.contents.map (·.count) = [1, 0, 0, 2, 0] := by
  obtain ⟨h, e, H⟩ := C67_accepts (z := V2.Zlib.stored) (checks := true) demoOdd_stream demoOdd_acceptable
  have e' : deserialize Fp.ideal V2.Zlib.stored .u8 true demoOdd = .ok (.ok
      ({ demo with counts := [1, 0, 0, 2, 0], totalCount := 3, maxValue := 7, minNonZero := 4 }, [9, 9])) := by decide +kernel
  rw [e'] at e
  cases e
  exact ⟨_, e', H.counts⟩

end Hdr
