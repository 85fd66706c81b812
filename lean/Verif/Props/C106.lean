import Verif.Props.C100
import Verif.Props.C105
import Verif.Props.C108
import Verif.Props.C102
import Verif.Props.C107
/-
C106 — which samples depend on which message bits.
-/
namespace SunPhy.C106
open SunPhy Spec Complex
noncomputable section

/-- Message bits per interleaver block: half of the coded bits, or three quarters with MCS 4 and 6. -/
def blockData (p : OfdmParams) : Nat :=
  if p.mcs = 4 ∨ p.mcs = 6 then depth p.interleaving p.option p.mcs / 4 * 3 else depth p.interleaving p.option p.mcs / 2

/-- Payload symbols per interleaver block: one, or with interleaving as many as the frequency spreading repeats. -/
def blockSymbols (p : OfdmParams) : Nat := if p.interleaving = 0 then 1 else Spec.spreadOf p.mcs

/-- Message bit `i` acts on block `b`: it lies in the block or is one of the six bits before it. -/
def Acts (p : OfdmParams) (i b : Nat) : Prop := b * blockData p ≤ i + 6 ∧ i < (b + 1) * blockData p

theorem facts : ∀ p ∈ allSupported, 0 < blockSymbols p ∧ 0 < Ref.symbolBits p.option p.mcs ∧
    depth p.interleaving p.option p.mcs = Ref.symbolBits p.option p.mcs * blockSymbols p ∧ depth p.interleaving p.option p.mcs % 4 = 0 ∧
    Ref.symbolBits p.option p.mcs = tonesOf p.option / Spec.spreadOf p.mcs * bitsOf p.mcs ∧ 0 < tonesOf p.option / Spec.spreadOf p.mcs ∧
    (bitsOf p.mcs = 1 ∨ bitsOf p.mcs = 2 ∨ bitsOf p.mcs = 4) ∧ 6 ≤ blockData p ∧
    (Ref.threeQuarters p.mcs = true ↔ p.mcs = 4 ∨ p.mcs = 6) := by decide +kernel

theorem payload_congr (p : OfdmParams) (m m' : Bits) (hl : m.length = m'.length) (j : Nat) (h : m[j]? = m'[j]?) :
    (Ref.payload p m).getD j false = (Ref.payload p m').getD j false := by
  simp only [Ref.payload, List.getD_eq_getElem?_getD, List.getElem?_map, hl]
  by_cases hj : j < Ref.groups p m'.length * Ref.groupBits p.option p.mcs
  · rw [List.getElem?_range hj]
    simp only [Option.map_some, Option.getD_some]
    rw [h]
  · rw [List.getElem?_eq_none (by simpa using hj)]; rfl

theorem payload_length (p : OfdmParams) (m : Bits) : (Ref.payload p m).length = Ref.groups p m.length * Ref.groupBits p.option p.mcs := by simp [Ref.payload]

theorem tap_congr (taps : List Nat) (ht : ∀ d ∈ taps, d ≤ 6) (x x' : Bits) (n : Nat) (h : ∀ j, j ≤ n → n ≤ j + 6 → x.getD j false = x'.getD j false) :
    tapSum taps x n = tapSum taps x' n := by
  refine C100.tapSum_congr taps x x' n fun d hd => ?_
  unfold delayed
  split
  · exact h _ (by omega) (by have := ht d hd; omega)
  · rfl

theorem conv_congr (x x' : Bits) (hl : x.length = x'.length) (q : Nat) (h : ∀ j, j ≤ q / 2 → q / 2 ≤ j + 6 → x.getD j false = x'.getD j false) :
    (Ref.conv x).getD q false = (Ref.conv x').getD q false := by
  by_cases hq : q < 2 * x.length
  · rw [C100.conv_getD x q hq, C100.conv_getD x' q (by omega)]
    split
    · exact tap_congr _ (by decide) _ _ _ h
    · exact tap_congr _ (by decide) _ _ _ h
  · rw [List.getD_eq_getElem?_getD, List.getD_eq_getElem?_getD, List.getElem?_eq_none (by simp [Ref.conv]; omega),
      List.getElem?_eq_none (by simp [Ref.conv]; omega)]

theorem conv34_congr (x x' : Bits) (hl : x.length = x'.length) (q : Nat)
    (h : ∀ j, j < 3 * (q / 4) + 3 → 3 * (q / 4) ≤ j + 6 → x.getD j false = x'.getD j false) :
    (Ref.conv34 x).getD q false = (Ref.conv34 x').getD q false := by
  simp only [Ref.conv34, List.getD_eq_getElem?_getD, List.getElem?_map, hl]
  by_cases hq : q < 4 * x'.length / 3
  · rw [List.getElem?_range hq]
    simp only [Option.map_some, Option.getD_some]
    rw [← List.getD_eq_getElem?_getD, ← List.getD_eq_getElem?_getD]
    have hr : ∀ r < 4, ([0, 1, 2, 5].getD r 0) < 6 := by decide
    have := hr (q % 4) (Nat.mod_lt _ (by norm_num))
    exact conv_congr x x' hl _ fun j h1 h2 => h j (by omega) (by omega)
  · rw [List.getElem?_eq_none (by simpa using hq)]; rfl

theorem interleave_congr {K : Nat} (hK : 0 < K) (R s : Nat) (x x' : Bits) (hl : x.length = x'.length) (b i : Nat) (hi : i / K = b)
    (h : ∀ q, b * K ≤ q → q < b * K + K → x.getD q false = x'.getD q false) :
    (Ref.interleave K R s x).getD i false = (Ref.interleave K R s x').getD i false := by
  simp only [Ref.interleave, List.getD_eq_getElem?_getD, List.getElem?_map, hl]
  by_cases hq : i < x'.length
  · rw [List.getElem?_range hq]
    simp only [Option.map_some, Option.getD_some]
    rw [hi]
    split
    · have := C98.source_lt hK R s (i % K)
      have := h (b * K + Ref.source K R s (i % K)) (by omega) (by omega)
      simpa only [List.getD_eq_getElem?_getD] using this
    · rfl
  · rw [List.getElem?_eq_none (by simpa using hq)]; rfl

/-- The coded and interleaved bits of block `b` depend only on the message bits that act on it. -/
theorem stream_congr {p : OfdmParams} (h : Supported p) (m m' : Bits) (hl : m.length = m'.length) (b : Nat)
    (ha : ∀ i, Acts p i b → m[i]? = m'[i]?) (i : Nat) (hi : i / depth p.interleaving p.option p.mcs = b) :
    (Ref.payloadStream p m).getD i false = (Ref.payloadStream p m').getD i false := by
  obtain ⟨f1, f2, f3, f4, -, -, -, -, f9⟩ := facts p (mem_allSupported h)
  have hK : 0 < depth p.interleaving p.option p.mcs := by rw [f3]; positivity
  unfold Acts blockData at ha
  unfold Ref.payloadStream
  have hpl : (Ref.payload p m).length = (Ref.payload p m').length := by rw [payload_length, payload_length, hl]
  obtain ⟨c, hc⟩ := Nat.dvd_of_mod_eq_zero f4
  generalize depth p.interleaving p.option p.mcs = K at *
  by_cases ht : Ref.threeQuarters p.mcs = true
  · rw [if_pos ht, if_pos ht]
    simp only [if_pos (f9.1 ht)] at ha
    refine interleave_congr hK _ _ _ _ (by simp [Ref.conv34, hpl]) b i hi fun q h1 h2 => ?_
    refine conv34_congr _ _ hpl _ fun j j1 j2 => payload_congr p m m' hl j (ha j ?_)
    rw [hc, Nat.mul_div_cancel_left _ (by norm_num)]
    rw [hc, show b * (4 * c) = 4 * (b * c) by ring] at h1 h2
    rw [show b * (c * 3) = 3 * (b * c) by ring, show (b + 1) * (c * 3) = 3 * (b * c) + 3 * c by ring]
    generalize b * c = t at *
    constructor <;> omega
  · rw [if_neg ht, if_neg ht]
    simp only [if_neg (fun hx => ht (f9.2 hx))] at ha
    refine interleave_congr hK _ _ _ _ (by simp [Ref.conv, hpl]) b i hi fun q h1 h2 => ?_
    refine conv_congr _ _ hpl _ fun j j1 j2 => payload_congr p m m' hl j (ha j ?_)
    rw [hc, show 4 * c / 2 = 2 * c by omega]
    rw [hc, show b * (4 * c) = 4 * (b * c) by ring] at h1 h2
    rw [show b * (2 * c) = 2 * (b * c) by ring, show (b + 1) * (2 * c) = 2 * (b * c) + 2 * c by ring]
    generalize b * c = t at *
    constructor <;> omega

theorem point_congr {w : Nat} (hw : w = 1 ∨ w = 2 ∨ w = 4) {b b' : Nat → Bool} (h : ∀ j < w, b j = b' j) : Ref.point w b = Ref.point w b' := by
  rcases hw with rfl | rfl | rfl
  · simp only [Ref.point]; rw [h 0 (by omega)]
  · simp only [Ref.point]; rw [h 0 (by omega), h 1 (by omega)]
  · simp only [Ref.point]; rw [h 0 (by omega), h 1 (by omega), h 2 (by omega), h 3 (by omega)]

theorem value_congr {p : OfdmParams} (h : Supported p) (s s' : Bits) (n d : Nat)
    (hs : ∀ i, i / depth p.interleaving p.option p.mcs = n / blockSymbols p → s.getD i false = s'.getD i false) :
    Ref.dataValue p.option p.mcs s n d = Ref.dataValue p.option p.mcs s' n d := by
  obtain ⟨f1, f2, f3, -, f5, f6, f7, -, -⟩ := facts p (mem_allSupported h)
  simp only [Ref.dataValue]
  congr 1
  refine point_congr f7 fun j hj => hs _ ?_
  have hd : d % (tonesOf p.option / Spec.spreadOf p.mcs) * bitsOf p.mcs + j < Ref.symbolBits p.option p.mcs := by
    rw [f5]
    have := Nat.mod_lt d f6
    calc _ < d % (tonesOf p.option / Spec.spreadOf p.mcs) * bitsOf p.mcs + bitsOf p.mcs := by omega
      _ = (d % (tonesOf p.option / Spec.spreadOf p.mcs) + 1) * bitsOf p.mcs := by ring
      _ ≤ _ := Nat.mul_le_mul_right _ this
  rw [f3, ← Nat.div_div_eq_div_mul, Nat.add_assoc, Nat.mul_comm n, Nat.mul_add_div f2, Nat.div_eq_of_lt hd, Nat.add_zero]

/-- Payload symbol `n` (with its prefix) depends only on the message bits that act on its interleaver block. -/
theorem symbol_congr {p : OfdmParams} (h : Supported p) (m m' : Bits) (hl : m.length = m'.length) (n : Nat)
    (ha : ∀ i, Acts p i (n / blockSymbols p) → m[i]? = m'[i]?) : Ref.symbol p m (Ref.headerCount p + n) = Ref.symbol p m' (Ref.headerCount p + n) := by
  have ht : Ref.toneValue p m (Ref.headerCount p + n) = Ref.toneValue p m' (Ref.headerCount p + n) := by
    funext t
    unfold Ref.toneValue
    simp only
    split
    · rfl
    · split
      · rfl
      · rw [if_neg (by omega), if_neg (by omega), Nat.add_sub_cancel_left]
        exact value_congr h _ _ _ _ fun i hi => stream_congr h m m' hl _ ha i hi
  unfold Ref.symbol
  rw [ht]

/-- Header symbols depend on the number of octets only. -/
theorem header_congr (p : OfdmParams) (m m' : Bits) (hl : m.length / 8 = m'.length / 8) (n : Nat) (hn : n < Ref.headerCount p) :
    Ref.symbol p m n = Ref.symbol p m' n := by
  have ht : Ref.toneValue p m n = Ref.toneValue p m' n := by
    funext t
    unfold Ref.toneValue
    simp only
    split
    · rfl
    · split
      · rfl
      · rw [hl]
  unfold Ref.symbol
  rw [ht]

theorem frame_of (o : OfdmObj) (h : Supported o.params) (a : Arg) (m : Bits) (ha : checkBinaryArray a = .ok m) (iq : List ℂ) (fs : ℚ)
    (hr : ((ofdmModBitsToIQ a).call o).1 = .ok (iq, fs)) : iq = Ref.frame o.params m := by
  have k := (C15.C15_bitsToIQ o h a m ha).1.1 ⟨_, hr⟩
  obtain ⟨_, e, -⟩ := C67.C67_reference o h a m ha k.1 k.2
  rw [e] at hr
  exact (congrArg Prod.fst (Except.ok.inj hr)).symm

/-- Samples before the first payload symbol, and per symbol. -/
def headerEnd (p : OfdmParams) : Nat := 15 * Ref.nfft p.option / 2 + Ref.headerCount p * (5 * Ref.nfft p.option / 4)
def symbolLength (p : OfdmParams) : Nat := 5 * Ref.nfft p.option / 4

theorem symbol_window {p : OfdmParams} (h : Supported p) (m : Bits) (n : Nat) (hn : n < Ref.groups p m.length * Spec.spreadOf p.mcs) :
    ((Ref.frame p m).drop (headerEnd p + n * symbolLength p)).take (symbolLength p) = Ref.symbol p m (Ref.headerCount p + n) := by
  obtain ⟨_, ho, _⟩ := C91.mcs_le h
  obtain ⟨h8, hN⟩ := C91.nfft_facts _ ho
  have hl : (Ref.stf p.option ++ Ref.ltf p.option).length = 5 * Ref.nfft p.option + 5 * Ref.nfft p.option / 2 := by
    simp [Ref.stf, Ref.ltf]
  have e : headerEnd p + n * symbolLength p = (Ref.stf p.option ++ Ref.ltf p.option).length + ((Ref.headerCount p + n) * (5 * Ref.nfft p.option / 4) + 0) := by
    rw [hl]; unfold headerEnd symbolLength; rw [Nat.add_mul]; omega
  have w : ∀ (x : List ℂ) s l, (x.drop s).take l = C91.window x s l := fun _ _ _ => rfl
  unfold Ref.frame
  rw [w, e, C91.window_right]
  unfold symbolLength
  rw [C91.window_block _ (5 * Ref.nfft p.option / 4) _ _ _ _ (fun i => by simp [Ref.symbol]) (by unfold Ref.symbolCount; omega) (by omega)]
  have hs : (Ref.symbol p m (Ref.headerCount p + n)).length = 5 * Ref.nfft p.option / 4 := by simp [Ref.symbol]
  unfold C91.window
  rw [List.drop_zero, ← hs, List.take_length]

/-- **C106 (MR-OFDM payload).**  Two modulators with the same configuration, two messages of the same length: payload symbol `n` is the same in
both signals, sample by sample, as soon as the messages agree in the bits that act on the interleaver block of that symbol, i.e. the message bits
carried by the block and the six before them. -/
theorem C106_symbol (o o' : OfdmObj) (h : Supported o.params) (hp : o'.params = o.params) (a a' : Arg) (m m' : Bits)
    (ha : checkBinaryArray a = .ok m) (ha' : checkBinaryArray a' = .ok m') (hl : m.length = m'.length)
    (iq iq' : List ℂ) (fs fs' : ℚ) (hr : ((ofdmModBitsToIQ a).call o).1 = .ok (iq, fs)) (hr' : ((ofdmModBitsToIQ a').call o').1 = .ok (iq', fs'))
    (n : Nat) (hact : ∀ i, Acts o.params i (n / blockSymbols o.params) → m[i]? = m'[i]?) :
    (iq.drop (headerEnd o.params + n * symbolLength o.params)).take (symbolLength o.params) =
      (iq'.drop (headerEnd o.params + n * symbolLength o.params)).take (symbolLength o.params) := by
  rw [frame_of o h a m ha iq fs hr, frame_of o' (by rw [hp]; exact h) a' m' ha' iq' fs' hr', hp]
  by_cases hn : n < Ref.groups o.params m.length * Spec.spreadOf o.params.mcs
  · rw [symbol_window h m n hn, symbol_window h m' n (by rw [← hl]; exact hn), symbol_congr h m m' hl n hact]
  · have k : ∀ b : Bits, b.length = m.length → (Ref.frame o.params b).drop (headerEnd o.params + n * symbolLength o.params) = [] := by
      intro b hb
      apply List.drop_eq_nil_of_le
      rw [C67.C67_size, hb]
      unfold headerEnd symbolLength Ref.symbolCount
      rw [Nat.add_mul]
      have := Nat.mul_le_mul_right (5 * Ref.nfft o.params.option / 4) (Nat.le_of_not_lt hn)
      have : 5 * Ref.nfft o.params.option + 5 * Ref.nfft o.params.option / 2 ≤ 15 * Ref.nfft o.params.option / 2 := by omega
      omega
    rw [k m rfl, k m' hl.symm]

/-- **C106 (one bit).**  Changing one bit of the message changes at most the symbols of two consecutive interleaver blocks: the block that carries
the bit and the next one. -/
theorem C106_one_bit (o o' : OfdmObj) (h : Supported o.params) (hp : o'.params = o.params) (a a' : Arg) (m m' : Bits)
    (ha : checkBinaryArray a = .ok m) (ha' : checkBinaryArray a' = .ok m') (hl : m.length = m'.length)
    (iq iq' : List ℂ) (fs fs' : ℚ) (hr : ((ofdmModBitsToIQ a).call o).1 = .ok (iq, fs)) (hr' : ((ofdmModBitsToIQ a').call o').1 = .ok (iq', fs'))
    (i : Nat) (hi : ∀ j, j ≠ i → m[j]? = m'[j]?) (n : Nat)
    (h1 : n / blockSymbols o.params ≠ i / blockData o.params) (h2 : n / blockSymbols o.params ≠ i / blockData o.params + 1) :
    (iq.drop (headerEnd o.params + n * symbolLength o.params)).take (symbolLength o.params) =
      (iq'.drop (headerEnd o.params + n * symbolLength o.params)).take (symbolLength o.params) := by
  refine C106_symbol o o' h hp a a' m m' ha ha' hl iq iq' fs fs' hr hr' n fun j hj => hi j ?_
  rintro rfl
  obtain ⟨-, -, -, -, -, -, -, f8, -⟩ := facts o.params (mem_allSupported h)
  obtain ⟨j1, j2⟩ := hj
  generalize n / blockSymbols o.params = b at *
  generalize blockData o.params = D at *
  have hD : 0 < D := by omega
  have k1 : j / D < b + 1 := by rw [Nat.div_lt_iff_lt_mul hD]; exact j2
  have k2 : b ≤ (j + 6) / D := by rw [Nat.le_div_iff_mul_le hD]; exact j1
  have k3 : (j + 6) / D ≤ j / D + 1 := by
    rw [← Nat.add_div_right _ hD]; exact Nat.div_le_div_right (by omega)
  omega

/-- **C106 (MR-OFDM header).**  Everything before the first payload symbol (training fields and header) depends only on the configuration and the
number of octets of the message. -/
theorem C106_header (o o' : OfdmObj) (h : Supported o.params) (hp : o'.params = o.params) (a a' : Arg) (m m' : Bits)
    (ha : checkBinaryArray a = .ok m) (ha' : checkBinaryArray a' = .ok m') (hl : m.length / 8 = m'.length / 8)
    (iq iq' : List ℂ) (fs fs' : ℚ) (hr : ((ofdmModBitsToIQ a).call o).1 = .ok (iq, fs)) (hr' : ((ofdmModBitsToIQ a').call o').1 = .ok (iq', fs')) :
    headerEnd o.params ≤ iq.length ∧ headerEnd o.params ≤ iq'.length ∧ iq.take (headerEnd o.params) = iq'.take (headerEnd o.params) := by
  rw [frame_of o h a m ha iq fs hr, frame_of o' (by rw [hp]; exact h) a' m' ha' iq' fs' hr', hp]
  obtain ⟨_, ho, _⟩ := C91.mcs_le h
  obtain ⟨h8, hN⟩ := C91.nfft_facts _ ho
  have split : ∀ b : Bits, Ref.frame o.params b = (Ref.stf o.params.option ++ Ref.ltf o.params.option ++
      (List.range (Ref.headerCount o.params)).flatMap (Ref.symbol o.params b)) ++
      (List.range (Ref.groups o.params b.length * Spec.spreadOf o.params.mcs)).flatMap (fun n => Ref.symbol o.params b (Ref.headerCount o.params + n)) := by
    intro b
    unfold Ref.frame Ref.symbolCount
    rw [List.range_add, List.flatMap_append, List.flatMap_map, List.append_assoc (_ ++ _)]
  have len : ∀ b : Bits, (Ref.stf o.params.option ++ Ref.ltf o.params.option ++
      (List.range (Ref.headerCount o.params)).flatMap (Ref.symbol o.params b)).length = headerEnd o.params := by
    intro b
    rw [List.length_append, flatMap_length_const (Ref.symbol o.params b) (5 * Ref.nfft o.params.option / 4) _ (fun i _ => by simp [Ref.symbol])]
    simp [Ref.stf, Ref.ltf, headerEnd]
    omega
  have e : (List.range (Ref.headerCount o.params)).flatMap (Ref.symbol o.params m) = (List.range (Ref.headerCount o.params)).flatMap (Ref.symbol o.params m') :=
    List.flatMap_congr fun n hn => header_congr o.params m m' hl n (List.mem_range.1 hn)
  refine ⟨?_, ?_, ?_⟩
  · rw [split m, List.length_append, len m]; omega
  · rw [split m', List.length_append, len m']; omega
  · rw [split m, split m', List.take_left' (len m), List.take_left' (len m'), e]

/-- Chips before the PSDU of an MR-O-QPSK frame: preamble and SFD bits, 60 header bits. -/
def headerChips (b : Band) : Nat := (preambleBits b + 16) * shrChipsPerBit b + 60 * phrChipsPerBit b

theorem headerChips_even (b : Band) : headerChips b % 2 = 0 := by cases b <;> decide

theorem getD_append_left (x y : Bits) (k : Nat) (hk : k < x.length) : (x ++ y).getD k false = x.getD k false := by
  rw [List.getD_eq_getElem?_getD, List.getD_eq_getElem?_getD, List.getElem?_append_left hk]

/-- **C106 (MR-O-QPSK header).**  Everything before the PSDU depends only on the configuration and the number of octets of the message. -/
theorem C106_oqpsk_header (o o' : OqpskObj) (h : C63.Standard o.params) (hp : o'.params = o.params) (a a' : Arg) (m m' : Bits)
    (ha : checkBinaryArray a = .ok m) (ha' : checkBinaryArray a' = .ok m') (hl : m.length / 8 = m'.length / 8)
    (iq iq' : List ℂ) (fs fs' : ℚ) (hr : ((oqpskBitsToIQ a).call o).1 = .ok (iq, fs)) (hr' : ((oqpskBitsToIQ a').call o').1 = .ok (iq', fs')) :
    let n := headerChips o.params.band / 2 * o.params.sps
    n ≤ iq.length ∧ n ≤ iq'.length ∧ iq.take n = iq'.take n := by
  intro n
  have key : ∀ (o : OqpskObj) (h : C63.Standard o.params) (a : Arg) (m : Bits) (ha : checkBinaryArray a = .ok m) (iq : List ℂ) (fs : ℚ)
      (hr : ((oqpskBitsToIQ a).call o).1 = .ok (iq, fs)),
      headerChips o.params.band / 2 * o.params.sps ≤ iq.length ∧ ∀ k < headerChips o.params.band / 2 * o.params.sps, iq[k]? =
        some ((chipValue ((RefQ.shr o.params.band ++ RefQ.phr o.params.band (decide (o.params.sm = 1)) o.params.rm.toNat (m.length / 8)).getD (2 * (k / o.params.sps)) false) +
          I * chipValue ((RefQ.shr o.params.band ++ RefQ.phr o.params.band (decide (o.params.sm = 1)) o.params.rm.toNat (m.length / 8)).getD (2 * (k / o.params.sps) + 1) false)) *
            (pulseSample o.params.band o.params.sps (k % o.params.sps) : ℝ)) := by
    intro o h a m ha iq fs hr
    obtain ⟨r1, r2⟩ := C108.C108_reference o h a m ha
    by_cases c : m.length / 8 ≤ 2047 ∧ C96.Spreadable o.params m.length
    · rw [r2 c] at hr
      obtain rfl := (Prod.mk.inj (Except.ok.inj hr)).1
      have hL : (RefQ.shr o.params.band ++ RefQ.phr o.params.band (decide (o.params.sm = 1)) o.params.rm.toNat (m.length / 8)).length = headerChips o.params.band := by
        rw [List.length_append, C102.phr_length, C102.shr_length]; rfl
      have he := headerChips_even o.params.band
      have hle : headerChips o.params.band ≤ (RefQ.chips o.params.band (decide (o.params.sm = 1)) o.params.rm.toNat m).length := by
        unfold RefQ.chips; rw [List.length_append, hL]; omega
      have hmul := Nat.mul_le_mul_right o.params.sps (Nat.div_le_div_right (c := 2) hle)
      have hsps := h.sps
      refine ⟨by simp only [RefQ.samples, List.length_map, List.length_range]; omega, fun k hk => ?_⟩
      unfold RefQ.samples
      rw [List.getElem?_map, List.getElem?_range (by omega)]
      simp only [Option.map_some]
      have hq : k / o.params.sps < headerChips o.params.band / 2 := (Nat.div_lt_iff_lt_mul hsps).2 hk
      rw [if_pos (by omega)]
      unfold RefQ.chips
      generalize RefQ.shr o.params.band ++ RefQ.phr o.params.band (decide (o.params.sm = 1)) o.params.rm.toNat (m.length / 8) = H at *
      rw [getD_append_left H _ _ (by rw [hL]; omega), getD_append_left H _ _ (by rw [hL]; omega)]
    · rw [r1 c] at hr; cases hr
  obtain ⟨l1, k1⟩ := key o h a m ha iq fs hr
  obtain ⟨l2, k2⟩ := key o' (by rw [hp]; exact h) a' m' ha' iq' fs' hr'
  rw [hp, ← hl] at k2
  rw [hp] at l2
  exact ⟨l1, l2, C107.take_congr _ _ _ fun k hk => by rw [k1 k hk, k2 k hk]⟩

/-- Non-vacuity (MR-OFDM option 1, MCS 3, without interleaving): 96 message bits per block and symbol; bit 95 acts on the first two payload symbols, bit 0 on the first only. -/
example : Supported ⟨3, 1, 0, 0⟩ ∧ blockData ⟨3, 1, 0, 0⟩ = 96 ∧ blockSymbols ⟨3, 1, 0, 0⟩ = 1 ∧ Acts ⟨3, 1, 0, 0⟩ 95 0 ∧ Acts ⟨3, 1, 0, 0⟩ 95 1 ∧ ¬ Acts ⟨3, 1, 0, 0⟩ 95 2 ∧
    Acts ⟨3, 1, 0, 0⟩ 0 0 ∧ ¬ Acts ⟨3, 1, 0, 0⟩ 0 1 ∧ headerEnd ⟨3, 1, 0, 0⟩ = 1440 ∧ symbolLength ⟨3, 1, 0, 0⟩ = 160 := by
  refine ⟨by unfold Supported; decide, ?_⟩
  unfold Acts
  refine ⟨?_, ?_, ?_, ?_, ?_, ?_, ?_, ?_, ?_⟩ <;> decide +kernel

end
end SunPhy.C106
