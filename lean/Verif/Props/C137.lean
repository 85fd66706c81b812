import Verif.Props.C120
import Verif.Spec.OfdmDiversity
/-
C137 — Frequency spreading of MR-OFDM does its job: as long as in every symbol fewer tones are lost than each value has copies, a receiver that knows which tones are lost
recovers everything.
-/
namespace SunPhy.C137
open SunPhy Spec Complex
noncomputable section

/-- On every tone that is not lost the received value is within the margin of the one sent. -/
def Tones (p : OfdmParams) (m : Bits) (lost : Nat → Finset Int) (r : List ℂ) : Prop :=
  ∀ n < Ref.symbolCount p m.length, ∀ t ∈ allTones (Ref.nfft p.option), t ∉ lost n →
    ‖Rx.toneValue p.option r n t - Ref.toneValue p m n t‖ ^ 2 < C100.margin (bitsOf (C91.schemeOf p n))

/-- In every symbol, fewer tones are lost than each value has copies. -/
def Few (p : OfdmParams) (len : Nat) (lost : Nat → Finset Int) : Prop := ∀ n < Ref.symbolCount p len, (lost n).card < Spec.spreadOf (C91.schemeOf p n)

/-! ### A copy that is not lost -/

theorem dataTone_inj {p : OfdmParams} (h : Supported p) (n : Nat) {d e : Nat} (hd : d < tonesOf p.option) (he : e < tonesOf p.option)
    (hh : Rx.dataTone p.option n d = Rx.dataTone p.option n e) : d = e := by
  rw [← (C100.dataTone_mem h n d hd).2, hh, (C100.dataTone_mem h n e he).2]

theorem copy_ok {p : OfdmParams} (h : Supported p) (M n d : Nat) (lost : Finset Int) (hl : lost.card < Spec.spreadOf M)
    (hd : d < tonesOf p.option / Spec.spreadOf M) :
    Rx.copyUsed p.option M lost n d < Spec.spreadOf M ∧
      Rx.dataTone p.option n (d + Rx.copyUsed p.option M lost n d * (tonesOf p.option / Spec.spreadOf M)) ∉ lost := by
  have hS : 0 < Spec.spreadOf M := by omega
  have hle : Spec.spreadOf M * (tonesOf p.option / Spec.spreadOf M) ≤ tonesOf p.option := Nat.mul_div_le _ _
  generalize hDe : tonesOf p.option / Spec.spreadOf M = D at *
  have hlt : ∀ c < Spec.spreadOf M, d + c * D < tonesOf p.option := by
    intro c hc
    have := Nat.mul_le_mul_right D (Nat.succ_le_of_lt hc)
    rw [Nat.succ_mul] at this
    omega
  have hex : ∃ c < Spec.spreadOf M, Rx.dataTone p.option n (d + c * D) ∉ lost := by
    by_contra hcon
    push Not at hcon
    have := Finset.card_le_card_of_injOn (s := Finset.range (Spec.spreadOf M)) (t := lost) (fun c => Rx.dataTone p.option n (d + c * D))
      (fun c hc => hcon c (Finset.mem_range.1 hc)) (by
        intro c hc c' hc' hcc
        have hc := Finset.mem_range.1 (Finset.mem_coe.1 hc)
        have hc' := Finset.mem_range.1 (Finset.mem_coe.1 hc')
        have := dataTone_inj h n (hlt c hc) (hlt c' hc') hcc
        exact Nat.eq_of_mul_eq_mul_right (show 0 < D by omega) (by omega))
    rw [Finset.card_range] at this
    omega
  unfold Rx.copyUsed
  rw [hDe]
  cases hf : (List.range (Spec.spreadOf M)).find? fun c => decide (Rx.dataTone p.option n (d + c * D) ∉ lost) with
  | none =>
    obtain ⟨c, hc, hc2⟩ := hex
    have := List.find?_eq_none.1 hf c (List.mem_range.2 hc)
    simp only [decide_eq_true_eq] at this
    exact absurd hc2 this
  | some c =>
    have h1 := List.mem_range.1 (List.mem_of_find?_eq_some hf)
    have h2 := List.find?_some hf
    simp only [decide_eq_true_eq] at h2
    exact ⟨h1, h2⟩

/-! ### Decisions -/

/-- The decisions are right: header and payload. -/
theorem coded_ok {p : OfdmParams} (h : Supported p) (m : Bits) (lost : Nat → Finset Int) (r : List ℂ) (hc : Tones p m lost r) (hf : Few p m.length lost) (M n0 : Nat) (stream : Bits) (cnt : Nat)
    (hw : bitsOf M = 1 ∨ bitsOf M = 2 ∨ bitsOf M = 4) (hD : 0 < tonesOf p.option / Spec.spreadOf M)
    (hS : ∀ n < cnt, n0 + n < Ref.symbolCount p m.length ∧ C91.schemeOf p (n0 + n) = M ∧
      ∀ t ∈ dataToneList (Ref.nfft p.option) (Ref.guardLow p.option) (Ref.guardHigh p.option) (Ref.pilotTones p.option (n0 + n)),
        Ref.toneValue p m (n0 + n) t = Ref.dataValue p.option M stream n
          ((dataToneList (Ref.nfft p.option) (Ref.guardLow p.option) (Ref.guardHigh p.option) (Ref.pilotTones p.option (n0 + n))).idxOf t))
    (i : Nat) (hi : i < cnt * Ref.symbolBits p.option M) : Rx.codedBitAvoiding p.option lost r M n0 i = stream.getD i false := by
  have hw0 : 0 < bitsOf M := by omega
  have hsb : Ref.symbolBits p.option M = tonesOf p.option / Spec.spreadOf M * bitsOf M := rfl
  have hb0 : 0 < Ref.symbolBits p.option M := by rw [hsb]; exact Nat.mul_pos hD hw0
  have hn : i / Ref.symbolBits p.option M < cnt := by rwa [Nat.div_lt_iff_lt_mul hb0]
  obtain ⟨g1, g2, g3⟩ := hS _ hn
  have hmod := Nat.mod_lt i hb0
  have hd : i % Ref.symbolBits p.option M / bitsOf M < tonesOf p.option / Spec.spreadOf M := by
    rw [Nat.div_lt_iff_lt_mul hw0, ← hsb]; exact hmod
  have few := hf _ g1
  rw [g2] at few
  obtain ⟨c1, c2⟩ := copy_ok h M (n0 + i / Ref.symbolBits p.option M) (i % Ref.symbolBits p.option M / bitsOf M) _ few hd
  unfold Rx.codedBitAvoiding
  simp only
  generalize Rx.copyUsed p.option M (lost (n0 + i / Ref.symbolBits p.option M)) (n0 + i / Ref.symbolBits p.option M) (i % Ref.symbolBits p.option M / bitsOf M) = c at *
  have hle : Spec.spreadOf M * (tonesOf p.option / Spec.spreadOf M) ≤ tonesOf p.option := Nat.mul_div_le _ _
  have hdt : i % Ref.symbolBits p.option M / bitsOf M + c * (tonesOf p.option / Spec.spreadOf M) < tonesOf p.option := by
    have := Nat.mul_le_mul_right (tonesOf p.option / Spec.spreadOf M) (Nat.succ_le_of_lt c1)
    rw [Nat.succ_mul] at this
    omega
  obtain ⟨t1, t2⟩ := C100.dataTone_mem h (n0 + i / Ref.symbolBits p.option M) _ hdt
  have hval := g3 _ t1
  rw [t2] at hval
  have hclose := hc _ g1 _ (List.mem_of_mem_filter t1) c2
  rw [hval, g2] at hclose
  have m1 : (i % Ref.symbolBits p.option M / bitsOf M + c * (tonesOf p.option / Spec.spreadOf M)) % (tonesOf p.option / Spec.spreadOf M) =
      i % Ref.symbolBits p.option M / bitsOf M := by rw [Nat.add_mul_mod_self_right, Nat.mod_eq_of_lt hd]
  have m2 : (i % Ref.symbolBits p.option M / bitsOf M + c * (tonesOf p.option / Spec.spreadOf M)) / (tonesOf p.option / Spec.spreadOf M) = c := by
    rw [Nat.add_mul_div_right _ _ hD, Nat.div_eq_of_lt hd, Nat.zero_add]
  simp only [Ref.dataValue, m1, m2] at hclose
  generalize Ref.turns (Spec.spreadOf M) c (i % Ref.symbolBits p.option M / bitsOf M + 1) = k at *
  generalize Rx.toneValue p.option r (n0 + i / Ref.symbolBits p.option M) _ = z at *
  have hI : (I : ℂ) ^ k ≠ 0 := pow_ne_zero _ I_ne_zero
  have hz : ‖z / I ^ k -
      Ref.point (bitsOf M) (fun j => stream.getD (i / Ref.symbolBits p.option M * Ref.symbolBits p.option M + i % Ref.symbolBits p.option M / bitsOf M * bitsOf M + j) false)‖ ^ 2 <
      C100.margin (bitsOf M) := by
    refine lt_of_eq_of_lt ?_ hclose
    rw [← norm_turn k]
    rw [sub_mul, div_mul_cancel₀ _ hI]
  rw [C100.slice_ok _ hw _ _ hz _ (Nat.mod_lt _ hw0)]
  congr 1
  have a1 := Nat.div_add_mod i (Ref.symbolBits p.option M)
  have a2 := Nat.div_add_mod (i % Ref.symbolBits p.option M) (bitsOf M)
  rw [Nat.mul_comm] at a1 a2
  omega
where
  norm_turn (k : Nat) {z : ℂ} : ‖z * I ^ k‖ ^ 2 = ‖z‖ ^ 2 := by rw [norm_mul, C91.turn_norm, mul_one]

/-- A source of coded bits is right about the frame of `m`: the part of the header that is decoded, and the payload. -/
structure Right (p : OfdmParams) (m : Bits) (bit : Nat → Nat → Nat → Bool) : Prop where
  header : ∀ i < Ref.headerTable p.interleaving p.option * Ref.symbolBits p.option (Ref.headerMcs p.option),
    bit (Ref.headerMcs p.option) 0 i = (Ref.headerStream p (m.length / 8)).getD i false
  payload : ∀ i < (Ref.payloadStream p m).length, bit p.mcs (Ref.headerCount p) i = (Ref.payloadStream p m).getD i false

/-! ### Decoding -/

theorem header_ok {p : OfdmParams} (h : Supported p) (m : Bits) (bit : Nat → Nat → Nat → Bool) (hc : Right p m bit) :
    Rx.headerFrom p.option p.interleaving bit = Ref.headerInfo p.mcs (m.length / 8) p.scrambler ++ Ref.crc8 (Ref.headerInfo p.mcs (m.length / 8) p.scrambler) := by
  obtain ⟨hw, hD, ht, hd, hd0, h36, h2, hle, hlow, -⟩ := C98.hdr_facts p (mem_allSupported h)
  have hb := C98.base_length h (m.length / 8)
  have coded := hc.header
  have hcl : (Ref.conv (C98.base p (m.length / 8))).length = Ref.headerTable p.interleaving p.option * Ref.symbolBits p.option (Ref.headerMcs p.option) := by
    rw [C98.conv_length, hb]
  unfold Rx.headerFrom
  simp only
  rw [C100.decodeHalf_ok (C98.base p (m.length / 8)) _ 30 (by omega)]
  · unfold C98.base
    rw [List.take_left' (by simp [C98.info_length, C98.crc_length])]
  · intro q hq
    refine C100.deinterleave_ok h (Or.inr hlow.symm) _ (by rw [hcl]; exact hd) _ (fun i hi => ?_) q (by omega)
    rw [hcl] at hi
    rw [coded i hi, C98.stream_base h _ i hi]
    rfl

theorem payload_ok {p : OfdmParams} (h : Supported p) (m : Bits) (bit : Nat → Nat → Nat → Bool) (hc : Right p m bit) :
    Rx.payloadFrom p bit (8 * (m.length / 8)) = m.take (8 * (m.length / 8)) := by
  obtain ⟨hw, -⟩ := C97.cfg_facts p (mem_allSupported h)
  obtain ⟨hD0, hg0⟩ := C100.pay_facts p (mem_allSupported h)
  obtain ⟨-, -, -, -, -, e6, -, -, -, e10, -, -, -, -, h34⟩ := ref_tables p (mem_allSupported h)
  have hlen := C100.groups_le h m.length
  have hpl : (Ref.payload p m).length = Ref.groups p m.length * Ref.groupBits p.option p.mcs := by simp [Ref.payload]
  have hsl := C97.stream_length h m
  have coded := hc.payload
  have hcode : (if Ref.threeQuarters p.mcs then Ref.conv34 (Ref.payload p m) else Ref.conv (Ref.payload p m)).length % depth p.interleaving p.option p.mcs = 0 := by
    have key : ∀ p ∈ allSupported, ∀ g, g = Ref.groupBits p.option p.mcs →
        (if Ref.threeQuarters p.mcs then 4 * g / 3 else 2 * g) % depth p.interleaving p.option p.mcs = 0 := by
      intro p hp g hg
      subst hg
      revert p
      decide +kernel
    have k1 := key p (mem_allSupported h) _ rfl
    split
    · rename_i hq
      rw [if_pos hq] at k1
      obtain ⟨c, hc3⟩ := Nat.dvd_of_mod_eq_zero (h34 hq)
      unfold Ref.conv34
      rw [List.length_map, List.length_range, hpl, hc3, show 4 * (Ref.groups p m.length * (3 * c)) / 3 = Ref.groups p m.length * (4 * c) by
        rw [show 4 * (Ref.groups p m.length * (3 * c)) = Ref.groups p m.length * (4 * c) * 3 by ring, Nat.mul_div_cancel _ (by norm_num)]]
      rw [hc3, show 4 * (3 * c) / 3 = 4 * c by omega] at k1
      rw [Nat.mul_mod, k1]; simp
    · rename_i hq
      rw [if_neg hq] at k1
      rw [C98.conv_length, hpl, show 2 * (Ref.groups p m.length * Ref.groupBits p.option p.mcs) = Ref.groups p m.length * (2 * Ref.groupBits p.option p.mcs) by ring, Nat.mul_mod, k1]; simp
  have dei := C100.deinterleave_ok h (Or.inl rfl) _ hcode (bit p.mcs (Ref.headerCount p)) (fun i hi => by
    rw [coded i (by unfold Ref.payloadStream; rw [C98.interleave_length]; exact hi)]; rfl)
  have hx : (if Ref.threeQuarters p.mcs then Rx.decode34 (Rx.deinterleave (depth p.interleaving p.option p.mcs) (rows p.mcs) (step p.mcs) (bit p.mcs (Ref.headerCount p))) (8 * (m.length / 8))
      else Rx.decodeHalf (Rx.deinterleave (depth p.interleaving p.option p.mcs) (rows p.mcs) (step p.mcs) (bit p.mcs (Ref.headerCount p))) (8 * (m.length / 8))) =
      (Ref.payload p m).take (8 * (m.length / 8)) := by
    split
    · rename_i hq
      simp only [if_pos hq] at dei
      obtain ⟨c, hc3⟩ := Nat.dvd_of_mod_eq_zero (h34 hq)
      refine C100.decode34_ok _ _ _ (by rw [hpl]; omega) (by rw [hpl, hc3, show Ref.groups p m.length * (3 * c) = 3 * (Ref.groups p m.length * c) by ring]; omega) fun q hq2 => dei q (by
        unfold Ref.conv34; simpa using hq2)
    · rename_i hq
      simp only [if_neg hq] at dei
      refine C100.decodeHalf_ok _ _ _ (by rw [hpl]; omega) fun q hq2 => dei q (by rw [C98.conv_length, hpl]; omega)
  unfold Rx.payloadFrom
  simp only
  rw [hx]
  refine (range_map_ext (by simp; omega) _ fun i hi => ?_).symm
  rw [List.getElem?_take_of_lt hi, List.getD_eq_getElem?_getD, List.getElem?_take_of_lt hi]
  unfold Ref.payload
  simp only
  rw [List.getElem?_map, List.getElem?_range (by omega)]
  simp only [Option.map_some, Option.getD_some]
  rw [if_pos (by omega), ← Bool.xor_assoc, Bool.xor_self, Bool.false_xor, List.getD_eq_getElem?_getD, List.getElem?_eq_getElem (by omega)]
  rfl

theorem receive_right {p : OfdmParams} (h : Supported p) (m : Bits) (h2 : m.length / 8 ≤ 2047) (bit : Nat → Nat → Nat → Bool) (hc : Right p m bit) :
    Rx.receiveFrom p.option p.interleaving bit = some (p.mcs, p.scrambler, m.take (8 * (m.length / 8))) := by
  obtain ⟨-, -, -, -, -, -, -, -, -, hm, hs⟩ := C98.hdr_facts p (mem_allSupported h)
  have hh := header_ok h m bit hc
  have hl := C98.info_length p.mcs (m.length / 8) p.scrambler
  unfold Rx.receiveFrom
  simp only
  have t22 : (Rx.headerFrom p.option p.interleaving bit).take 22 = Ref.headerInfo p.mcs (m.length / 8) p.scrambler := by rw [hh, List.take_left' hl]
  have d22 : (Rx.headerFrom p.option p.interleaving bit).drop 22 = Ref.crc8 (Ref.headerInfo p.mcs (m.length / 8) p.scrambler) := by rw [hh, List.drop_left' hl]
  have fl : ∀ w v, (Ref.field w v).length = w := by intro w v; simp [Ref.field]
  have t5 : (Rx.headerFrom p.option p.interleaving bit).take 5 = Ref.field 5 p.mcs := by
    rw [hh]; unfold Ref.headerInfo
    simp only [List.append_assoc]
    rw [List.take_left' (fl _ _)]
  have t11 : ((Rx.headerFrom p.option p.interleaving bit).drop 6).take 11 = Ref.field 11 (m.length / 8) := by
    rw [hh]; unfold Ref.headerInfo
    rw [show Ref.field 5 p.mcs ++ [false] ++ Ref.field 11 (m.length / 8) ++ [false, false] ++ Ref.field 2 p.scrambler ++ [false] ++
      Ref.crc8 (Ref.field 5 p.mcs ++ [false] ++ Ref.field 11 (m.length / 8) ++ [false, false] ++ Ref.field 2 p.scrambler ++ [false]) =
      (Ref.field 5 p.mcs ++ [false]) ++ (Ref.field 11 (m.length / 8) ++ ([false, false] ++ Ref.field 2 p.scrambler ++ [false] ++
      Ref.crc8 (Ref.field 5 p.mcs ++ [false] ++ Ref.field 11 (m.length / 8) ++ [false, false] ++ Ref.field 2 p.scrambler ++ [false]))) by simp only [List.append_assoc],
      List.drop_left' (by simp [fl]), List.take_left' (fl _ _)]
  have t2 : ((Rx.headerFrom p.option p.interleaving bit).drop 19).take 2 = Ref.field 2 p.scrambler := by
    rw [hh]; unfold Ref.headerInfo
    rw [show Ref.field 5 p.mcs ++ [false] ++ Ref.field 11 (m.length / 8) ++ [false, false] ++ Ref.field 2 p.scrambler ++ [false] ++
      Ref.crc8 (Ref.field 5 p.mcs ++ [false] ++ Ref.field 11 (m.length / 8) ++ [false, false] ++ Ref.field 2 p.scrambler ++ [false]) =
      (Ref.field 5 p.mcs ++ [false] ++ Ref.field 11 (m.length / 8) ++ [false, false]) ++ (Ref.field 2 p.scrambler ++ ([false] ++
      Ref.crc8 (Ref.field 5 p.mcs ++ [false] ++ Ref.field 11 (m.length / 8) ++ [false, false] ++ Ref.field 2 p.scrambler ++ [false]))) by simp only [List.append_assoc],
      List.drop_left' (by simp [fl]), List.take_left' (fl _ _)]
  rw [t22, d22, if_pos rfl, t5, t11, t2, C100.number_field (by omega), C100.number_field (by omega), C100.number_field (by omega)]
  have := payload_ok h m bit hc
  rw [show (⟨p.mcs, p.option, p.interleaving, p.scrambler⟩ : OfdmParams) = p from rfl, this]

/-! ### The decisions are right -/

theorem header_coded {p : OfdmParams} (h : Supported p) (m : Bits) (lost : Nat → Finset Int) (r : List ℂ) (hc : Tones p m lost r) (hf : Few p m.length lost) (i : Nat)
    (hi : i < Ref.headerTable p.interleaving p.option * Ref.symbolBits p.option (Ref.headerMcs p.option)) :
    Rx.codedBitAvoiding p.option lost r (Ref.headerMcs p.option) 0 i = (Ref.headerStream p (m.length / 8)).getD i false := by
  obtain ⟨hw, hD, ht, -⟩ := C98.hdr_facts p (mem_allSupported h)
  have hD0 : 0 < tonesOf p.option / Spec.spreadOf (Ref.headerMcs p.option) := by
    have key : ∀ p ∈ allSupported, 0 < tonesOf p.option / Spec.spreadOf (Ref.headerMcs p.option) := by decide +kernel
    exact key p (mem_allSupported h)
  refine coded_ok h m lost r hc hf (Ref.headerMcs p.option) 0 (Ref.headerStream p (m.length / 8)) (Ref.headerTable p.interleaving p.option)
    (by rcases hw with hw | hw; exact Or.inl hw; exact Or.inr (Or.inl hw)) hD0 (by
      intro n hn
      have hnh : 0 + n < Ref.headerCount p := by omega
      refine ⟨by unfold Ref.symbolCount; omega, by unfold C91.schemeOf; rw [if_pos hnh], fun t htm => ?_⟩
      have ht2 := (List.mem_filter.1 htm).2
      simp only [decide_eq_true_eq] at ht2
      obtain ⟨g1, g2, g3⟩ := ht2
      unfold Ref.toneValue
      simp only
      have g12 : ¬ (isGuard (Ref.nfft p.option) (Ref.guardLow p.option) (Ref.guardHigh p.option) t ∨ t = 0) := fun hg => hg.elim g1 g2
      rw [if_neg g12, if_neg g3, if_pos hnh]
      simp only [Nat.zero_add]) i hi

theorem payload_coded {p : OfdmParams} (h : Supported p) (m : Bits) (lost : Nat → Finset Int) (r : List ℂ) (hc : Tones p m lost r) (hf : Few p m.length lost) (i : Nat)
    (hi : i < (Ref.payloadStream p m).length) :
    Rx.codedBitAvoiding p.option lost r p.mcs (Ref.headerCount p) i = (Ref.payloadStream p m).getD i false := by
  obtain ⟨hw, -⟩ := C97.cfg_facts p (mem_allSupported h)
  obtain ⟨hD0, hg0⟩ := C100.pay_facts p (mem_allSupported h)
  have hsl := C97.stream_length h m
  have coded := coded_ok h m lost r hc hf p.mcs (Ref.headerCount p) (Ref.payloadStream p m) (Ref.groups p m.length * Spec.spreadOf p.mcs) hw hD0 (by
      intro n hn
      have hnh : ¬ Ref.headerCount p + n < Ref.headerCount p := by omega
      refine ⟨by unfold Ref.symbolCount; omega, by unfold C91.schemeOf; rw [if_neg hnh], fun t htm => ?_⟩
      have ht2 := (List.mem_filter.1 htm).2
      simp only [decide_eq_true_eq] at ht2
      obtain ⟨g1, g2, g3⟩ := ht2
      unfold Ref.toneValue
      simp only
      have g12 : ¬ (isGuard (Ref.nfft p.option) (Ref.guardLow p.option) (Ref.guardHigh p.option) t ∨ t = 0) := fun hg => hg.elim g1 g2
      rw [if_neg g12, if_neg g3, if_neg hnh]
      simp only [Nat.add_sub_cancel_left])
  rw [← hsl] at coded
  exact coded i hi

theorem right_tones {p : OfdmParams} (h : Supported p) (m : Bits) (lost : Nat → Finset Int) (r : List ℂ) (hc : Tones p m lost r) (hf : Few p m.length lost) :
    Right p m (Rx.codedBitAvoiding p.option lost r) := ⟨header_coded h m lost r hc hf, payload_coded h m lost r hc hf⟩

/-! ### Interference on the lost tones -/

theorem wave_add (N : Nat) (X Y : Int → ℂ) (τ : Int) : Ref.wave N X τ + Ref.wave N Y τ = Ref.wave N (fun t => X t + Y t) τ := by
  unfold Ref.wave
  rw [← add_div, ← Finset.sum_add_distrib]
  congr 1
  exact Finset.sum_congr rfl fun i _ => by ring

/-- What is received in the useful part of symbol `n`, apart from what was sent and from interference with value `J t` on tone `t`: its energy. -/
def rest (option : Nat) (iq r : List ℂ) (n : Nat) (J : Int → ℂ) : ℝ :=
  ∑ k ∈ Finset.range (Ref.nfft option), ‖r.getD (Rx.symbolStart (Ref.nfft option) n + k) 0 - iq.getD (Rx.symbolStart (Ref.nfft option) n + k) 0 - Ref.wave (Ref.nfft option) J k‖ ^ 2

theorem tones_jam {p : OfdmParams} (h : Supported p) (m : Bits) (lost : Nat → Finset Int) (r : List ℂ) (hl : (Ref.frame p m).length ≤ r.length) (J : Nat → Int → ℂ)
    (hJ : ∀ n, ∀ t ∉ lost n, J n t = 0)
    (hn : ∀ n < Ref.symbolCount p m.length, rest p.option (Ref.frame p m) r n (J n) < C100.margin (bitsOf (C91.schemeOf p n))) : Tones p m lost r := by
  intro n hh t ht hlost
  obtain ⟨_, ho, _⟩ := C91.mcs_le h
  obtain ⟨h8, hN⟩ := C91.nfft_facts _ ho
  have hw := C120.tone_wave (N := Ref.nfft p.option) (by omega) hN (fun t => Ref.toneValue p m n t + J n t) t ht
  simp only [hJ n t hlost, add_zero] at hw
  rw [← hw]
  have hul := C100.useful_length h m r hl n hh
  refine lt_of_le_of_lt (C100.shift_noise (Rx.useful p.option r n) _ (by rw [hul]; simp) _) (lt_of_le_of_lt (le_of_eq ?_) (hn n hh))
  rw [C100.distSq_sum (N := Ref.nfft p.option) _ _ hul (by simp)]
  unfold rest
  refine Finset.sum_congr rfl fun k hk => ?_
  have hk := Finset.mem_range.1 hk
  have e1 : (Rx.useful p.option r n).getD k 0 = r.getD (Rx.symbolStart (Ref.nfft p.option) n + k) 0 := C120.window_getD r _ _ k hk
  have e2 : (Ref.frame p m).getD (Rx.symbolStart (Ref.nfft p.option) n + k) 0 = Ref.wave (Ref.nfft p.option) (Ref.toneValue p m n) (k : Int) := by
    rw [C120.start_eq h8, Nat.add_assoc, Nat.add_assoc (n * _), C120.frame_symbol p m n hh _ (by omega)]
    congr 1
    push_cast; ring
  rw [e1, e2, List.getD_eq_getElem?_getD (l := List.map _ _), List.getElem?_map, List.getElem?_range hk]
  simp only [Option.map_some, Option.getD_some]
  rw [← wave_add, sub_sub]

/-- **C137 (octets).**  Let `r` be a frame that `bytesToIQ` returned, disturbed in the useful part of symbol `n` by interference of any strength confined to the tones `lost n`
and by noise of less energy than 1 (BPSK), 1/2 (QPSK) or 1/10 (16-QAM).  If in every symbol fewer tones are lost than each value has copies there, the receiver that avoids the
lost tones recovers MCS, scrambler and the octets of the message. -/
theorem C137_octets (o : OfdmObj) (h : Supported o.params) (a : Arg) (msg : List UInt8) (ha : C01.Denotes a msg) (h0 : msg ≠ []) (iq : List ℂ) (fs : ℚ)
    (hr : ((ofdmModBytesToIQ a).call o).1 = .ok (iq, fs)) (r : List ℂ) (hl : iq.length ≤ r.length) (lost : Nat → Finset Int)
    (hf : ∀ n < Ref.symbolCount o.params (8 * msg.length), (lost n).card < Spec.spreadOf (C91.schemeOf o.params n))
    (J : Nat → Int → ℂ) (hJ : ∀ n, ∀ t ∉ lost n, J n t = 0)
    (hn : ∀ n < Ref.symbolCount o.params (8 * msg.length), rest o.params.option iq r n (J n) < C100.margin (bitsOf (C91.schemeOf o.params n))) :
    ∃ b, Rx.receiveAvoiding o.params.option o.params.interleaving lost r = some (o.params.mcs, o.params.scrambler, b) ∧ Rx.octets b = msg := by
  obtain ⟨b, hb, hbl, l2, rfl⟩ := C100.bytes_frame o a msg iq fs h ha h0 hr
  refine ⟨b, ?_, C100.octets_ok a msg ha h0 b hb⟩
  rw [← hbl] at hf hn
  have := receive_right h b (by omega) _ (right_tones h b lost r (tones_jam h b lost r hl J hJ hn) hf)
  rw [List.take_of_length_le (show b.length ≤ 8 * (b.length / 8) by omega)] at this
  exact this

/-! ### Continuous interference -/

/-- The signal `x` with continuous waves added: on tone `t` of `L` one of complex amplitude `A t`, at the frequency of the tone. -/
def jammed (N : Nat) (L : Finset Int) (A : Int → ℂ) (x : List ℂ) : List ℂ :=
  (List.range x.length).map fun i => x.getD i 0 + ∑ t ∈ L, A t * exp (2 * Real.pi * I * t * i / N)

theorem waves_eq (N : Nat) (hN : 0 < N) (L : Finset Int) (hL : ∀ t ∈ L, t ∈ allTones N) (A : Int → ℂ) (s k : Nat) :
    ∑ t ∈ L, A t * exp (2 * Real.pi * I * t * ((s + k : Nat) : ℂ) / N) =
      Ref.wave N (fun t => if t ∈ L then (Real.sqrt N : ℂ) * (A t * exp (2 * Real.pi * I * t * s / N)) else 0) (k : Int) := by
  have hs : (Real.sqrt N : ℂ) ≠ 0 := by
    rw [Ne, Complex.ofReal_eq_zero, Real.sqrt_eq_zero (Nat.cast_nonneg _)]
    exact_mod_cast hN.ne'
  unfold Ref.wave
  rw [eq_div_iff hs, Finset.sum_mul]
  symm
  have e : L = ((Finset.range N).filter fun i : Nat => ((i : Int) - ((N / 2 : Nat) : Int)) ∈ L).image fun i : Nat => (i : Int) - ((N / 2 : Nat) : Int) := by
    ext t
    constructor
    · intro ht
      obtain ⟨i, hi, rfl⟩ := List.mem_map.1 (hL t ht)
      exact Finset.mem_image.2 ⟨i, Finset.mem_filter.2 ⟨Finset.mem_range.2 (List.mem_range.1 hi), ht⟩, rfl⟩
    · intro ht
      obtain ⟨i, hi, rfl⟩ := Finset.mem_image.1 ht
      exact (Finset.mem_filter.1 hi).2
  conv_rhs => rw [e]
  rw [Finset.sum_image (by intro i _ j _ hij; simpa using hij), Finset.sum_filter]
  refine Finset.sum_congr rfl fun i _ => ?_
  beta_reduce
  by_cases hm : ((i : Int) - ((N / 2 : Nat) : Int)) ∈ L
  · rw [if_pos hm, if_pos hm, show (2 * (Real.pi : ℂ) * I * (((i : Int) - ((N / 2 : Nat) : Int) : Int) : ℂ) * ((s + k : Nat) : ℂ) / N) =
      2 * (Real.pi : ℂ) * I * (((i : Int) - ((N / 2 : Nat) : Int) : Int) : ℂ) * (s : ℂ) / N +
      2 * (Real.pi : ℂ) * I * (((i : Int) - ((N / 2 : Nat) : Int) : Int) : ℂ) * (((k : Nat) : Int) : ℂ) / N by push_cast; ring, Complex.exp_add]
    ring
  · rw [if_neg hm, if_neg hm, zero_mul]

/-- Continuous waves are interference confined to their tones. -/
theorem waves_rest (o : OfdmObj) (h : Supported o.params) (a : Arg) (msg : List UInt8) (ha : C01.Denotes a msg) (h0 : msg ≠ []) (iq : List ℂ) (fs : ℚ)
    (hr : ((ofdmModBytesToIQ a).call o).1 = .ok (iq, fs)) (L : Finset Int) (hL : ∀ t ∈ L, t ∈ allTones (Ref.nfft o.params.option)) (A : Int → ℂ) :
    ∃ J : Nat → Int → ℂ, (∀ n, ∀ t ∉ L, J n t = 0) ∧ ∀ n < Ref.symbolCount o.params (8 * msg.length),
      rest o.params.option iq (jammed (Ref.nfft o.params.option) L A iq) n (J n) < C100.margin (bitsOf (C91.schemeOf o.params n)) := by
  obtain ⟨_, ho, _⟩ := C91.mcs_le h
  obtain ⟨h8, hN⟩ := C91.nfft_facts _ ho
  refine ⟨fun n t => if t ∈ L then (Real.sqrt (Ref.nfft o.params.option) : ℂ) * (A t * exp (2 * Real.pi * I * t * (Rx.symbolStart (Ref.nfft o.params.option) n : Nat) / (Ref.nfft o.params.option : Nat))) else 0,
    (fun n t ht => by simp only [if_neg ht]), fun n hn => ?_⟩
  obtain ⟨b, hb, hbl, l2, rfl⟩ := C100.bytes_frame o a msg iq fs h ha h0 hr
  rw [← hbl] at hn
  have hz : rest o.params.option (Ref.frame o.params b) (jammed (Ref.nfft o.params.option) L A (Ref.frame o.params b)) n
    (fun t => if t ∈ L then (Real.sqrt (Ref.nfft o.params.option) : ℂ) * (A t * exp (2 * Real.pi * I * t * (Rx.symbolStart (Ref.nfft o.params.option) n : Nat) / (Ref.nfft o.params.option : Nat))) else 0) = 0 := by
    unfold rest
    refine Finset.sum_eq_zero fun k hk => ?_
    have hk := Finset.mem_range.1 hk
    have hul := C100.useful_length h b _ le_rfl n hn
    have hlt : Rx.symbolStart (Ref.nfft o.params.option) n + k < (Ref.frame o.params b).length := by
      unfold Rx.useful at hul
      rw [List.length_take, List.length_drop] at hul
      omega
    rw [← waves_eq _ hN L hL]
    unfold jammed
    rw [List.getD_eq_getElem?_getD (l := List.map _ _), List.getElem?_map, List.getElem?_range hlt]
    simp
  rw [hz]
  exact C100.margin_pos _

/-- **C137 (continuous waves).**  A frame of a spread scheme (MCS 0, 1, 2) is received when a continuous wave of any amplitude sits on one tone during the whole transmission;
with MCS 0 under options 1 and 2, on up to three tones. -/
theorem C137_waves (o : OfdmObj) (h : Supported o.params) (a : Arg) (msg : List UInt8) (ha : C01.Denotes a msg) (h0 : msg ≠ []) (iq : List ℂ) (fs : ℚ)
    (hr : ((ofdmModBytesToIQ a).call o).1 = .ok (iq, fs)) (L : Finset Int) (hL : ∀ t ∈ L, t ∈ allTones (Ref.nfft o.params.option)) (A : Int → ℂ)
    (hc : (o.params.mcs ≤ 2 ∧ L.card ≤ 1) ∨ (o.params.mcs = 0 ∧ L.card ≤ 3)) :
    ∃ b, Rx.receiveAvoiding o.params.option o.params.interleaving (fun _ => L) (jammed (Ref.nfft o.params.option) L A iq) =
      some (o.params.mcs, o.params.scrambler, b) ∧ Rx.octets b = msg := by
  have hlen : (jammed (Ref.nfft o.params.option) L A iq).length = iq.length := by simp [jammed]
  obtain ⟨J, hJ, hn⟩ := waves_rest o h a msg ha h0 iq fs hr L hL A
  refine C137_octets o h a msg ha h0 iq fs hr _ (le_of_eq hlen.symm) _ (fun n _ => ?_) J hJ hn
  have key : ∀ p ∈ allSupported, p.mcs ≤ 2 → 2 ≤ Spec.spreadOf p.mcs ∧ 2 ≤ Spec.spreadOf (Ref.headerMcs p.option) ∧
      (p.mcs = 0 → 4 ≤ Spec.spreadOf p.mcs ∧ 4 ≤ Spec.spreadOf (Ref.headerMcs p.option)) := by decide +kernel
  have k := key _ (mem_allSupported h) (by omega)
  obtain ⟨k1, k2, k3⟩ := k
  unfold C91.schemeOf
  rcases hc with ⟨c1, c2⟩ | ⟨c1, c2⟩
  · split <;> omega
  · have := k3 c1
    split <;> omega

/-- **C137 (nothing lost).**  When no tone is declared lost, the receiver is the one of C100. -/
theorem C137_none (option interleaving : Nat) (iq : List ℂ) :
    Rx.receiveAvoiding option interleaving (fun _ => ∅) iq = Rx.receive option interleaving iq := by
  have hc : ∀ mcs n d, Rx.copyUsed option mcs ∅ n d = 0 := by
    intro mcs n d
    unfold Rx.copyUsed
    have key : ∀ s, s = Spec.spreadOf mcs → ((List.range s).find? fun c => decide (Rx.dataTone option n (d + c * (tonesOf option / s)) ∉ (∅ : Finset Int))).getD 0 = 0 := by
      intro s _
      cases s with
      | zero => rfl
      | succ s => rw [List.range_succ_eq_map, List.find?_cons]; simp
    exact key _ rfl
  have hb : ∀ mcs, Rx.codedBitAvoiding option (fun _ => ∅) iq mcs = Rx.codedBit option mcs iq := by
    intro mcs
    funext n0 i
    unfold Rx.codedBitAvoiding Rx.codedBit
    simp only [hc, Nat.zero_mul, Nat.add_zero]
  unfold Rx.receiveAvoiding Rx.receiveFrom Rx.receive Rx.headerFrom Rx.header Rx.payloadFrom Rx.payload
  simp only [hb]

/-! Non-vacuity: a three-tone jammer on configuration MCS 0, option 1; one tone on MCS 2, option 4. -/
example : Supported ⟨0, 1, 1, 2⟩ ∧ Supported ⟨2, 4, 0, 0⟩ ∧ (∀ t ∈ ({-17, 1, 40} : Finset Int), t ∈ allTones (Ref.nfft 1)) ∧ ({-17, 1, 40} : Finset Int).card ≤ 3 ∧
    (∀ t ∈ ({-5} : Finset Int), t ∈ allTones (Ref.nfft 4)) ∧ C01.Denotes (.bytes [0x12, 0xFF]) [0x12, 0xFF] :=
  ⟨⟨by decide, by decide, by decide⟩, ⟨by decide, by decide, by decide⟩, by decide +kernel, by decide, by decide +kernel, rfl⟩

end
end SunPhy.C137
