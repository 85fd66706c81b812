import Verif.Proofs.RefFrame
import Verif.Proofs.OfdmResult
import Verif.Props.C03
/-
C67 — every MR-OFDM frame is that of the reference transmitter of `Spec/OfdmReference.lean`.
-/
namespace SunPhy.C67
open SunPhy Spec Complex

theorem stfTable_ref : ∀ o ∈ [1, 2, 3, 4], stfTable o = (allTones (Ref.nfft o)).map (Ref.stfTone o) := by
  have key : (∀ t ∈ allTones 128, t ∈ stfPlus 1 ↔ t ≠ 0 ∧ t % 8 = 0 ∧ t.natAbs ≤ 48) ∧
      (∀ t ∈ allTones 32, t ∈ stfPlus 3 ↔ t ≠ 0 ∧ t % 4 = 0 ∧ t.natAbs ≤ 12) ∧
      (∀ t ∈ allTones 16, t ∈ stfPlus 4 ↔ t ≠ 0 ∧ t % 2 = 0 ∧ t.natAbs ≤ 6) := by decide +kernel
  obtain ⟨k2, k3, k4⟩ := key
  intro o ho
  have e : stfTable o = (allTones (Ref.nfft o)).map fun tone =>
    if tone ∈ stfPlus o then ((Real.sqrt (stfPower o : ℝ) : ℝ) : ℂ)
    else if tone ∈ stfMinus o then ((-Real.sqrt (stfPower o : ℝ) : ℝ) : ℂ)
    else 0 := by
    simp only [List.mem_cons, List.not_mem_nil, or_false] at ho
    unfold stfTable allTones
    rw [List.map_map]
    rcases ho with rfl | rfl | rfl | rfl <;> rfl
  rw [e]
  apply List.map_congr_left
  intro t ht
  simp only [List.mem_cons, List.not_mem_nil, or_false] at ho
  rcases ho with rfl | rfl | rfl | rfl
  · have := k2 t ht
    unfold Ref.stfTone
    simp only [this]
    split
    · norm_num [stfPower]
    · simp [stfMinus]
  · unfold Ref.stfTone
    simp only [stfPlus, stfMinus]
    split
    · norm_num [stfPower]
    · split
      · norm_num [stfPower]
      · rfl
  · have := k3 t ht
    unfold Ref.stfTone
    simp only [this]
    split
    · norm_num [stfPower]
    · simp [stfMinus]
  · have := k4 t ht
    unfold Ref.stfTone
    simp only [this]
    split
    · norm_num [stfPower]
    · simp [stfMinus]

theorem ltfTable_ref : ∀ o ∈ [1, 2, 3, 4], (ltfTable o).map (fun (v : Int) => ((v : Int) : ℂ)) = (allTones (Ref.nfft o)).map (Ref.ltfTone o) := by
  have key : ∀ o ∈ [1, 2, 3, 4], ltfTable o = (allTones (Ref.nfft o)).map fun t =>
      if isGuard (Ref.nfft o) (Ref.guardLow o) (Ref.guardHigh o) t ∨ t = 0 then 0 else if t ∈ Ref.ltfMinus o then -1 else 1 := by decide +kernel
  intro o ho
  rw [key o ho, List.map_map]
  apply List.map_congr_left
  intro t _
  simp only [Function.comp]
  unfold Ref.ltfTone
  split
  · simp
  · split <;> simp

theorem nfft_facts : ∀ o ∈ [1, 2, 3, 4], Ref.nfft o % 8 = 0 ∧ 0 < Ref.nfft o ∧ fftSize o = Ref.nfft o := by decide

theorem stf_ref {p : OfdmParams} (h : Supported p) : stfIQ p = Ref.stf p.option := by
  have ho : p.option ∈ [1, 2, 3, 4] := by have := option_cases h; simp; omega
  obtain ⟨f1, f2, -⟩ := nfft_facts p.option ho
  unfold stfIQ
  rw [stfTable_ref _ ho, prefixed_wave (by omega) f2]
  generalize hs : (List.range (5 * Ref.nfft p.option / 4)).map (fun (k : Nat) => Ref.wave (Ref.nfft p.option) (Ref.stfTone p.option)
    ((k : Int) - ((Ref.nfft p.option / 4 : Nat) : Int))) = s
  have hl : s.length = 5 * Ref.nfft p.option / 4 := by rw [← hs]; simp
  have hget : ∀ k < 5 * Ref.nfft p.option / 4, s[k]? = some (Ref.wave (Ref.nfft p.option) (Ref.stfTone p.option)
      ((k : Int) - ((Ref.nfft p.option / 4 : Nat) : Int))) := by
    intro k hk
    rw [← hs, List.getElem?_map, List.getElem?_range hk]; rfl
  simp only
  rw [C29.zipWith_mask _ _ _ (by omega)]
  unfold Ref.stf
  simp only
  generalize Ref.nfft p.option = N at *
  apply List.ext_getElem?
  intro k
  rw [List.getElem?_map, List.getElem?_map]
  by_cases hk : k < 5 * N
  · rw [List.getElem?_range hk]
    simp only [Option.map_some]
    have h54 : (1.25 : ℂ) = 5 / 4 := by norm_num
    rw [h54]
    by_cases hlast : 5 * N - N / 2 ≤ k
    · rw [if_pos hlast]
      have hm : k % (5 * N / 4) = k - 3 * (5 * N / 4) := by
        rw [show k = (k - 3 * (5 * N / 4)) + 5 * N / 4 * 3 by omega, Nat.add_mul_mod_self_left, Nat.mod_eq_of_lt (by omega)]
        omega
      rw [List.getElem?_append_right (by simp; omega), List.getElem?_append_right (by simp; omega), List.getElem?_map, List.getElem?_drop]
      have : s.length / 5 * 3 + (k - (s ++ s ++ s).length - (s.take (s.length / 5 * 3)).length) = k - 3 * (5 * N / 4) := by
        simp only [List.length_append, List.length_take, hl]; omega
      rw [this, hm, hget _ (by omega)]
      simp only [Option.map_some, Option.some.injEq]
      ring
    · rw [if_neg hlast]
      have e1 : (s ++ s ++ s ++ (s.take (s.length / 5 * 3) ++ (s.drop (s.length / 5 * 3)).map (- ·)))[k]? = s[k % (5 * N / 4)]? := by
        by_cases c1 : k < 5 * N / 4
        · rw [Nat.mod_eq_of_lt c1, List.append_assoc, List.append_assoc, List.getElem?_append_left (by omega)]
        by_cases c2 : k < 2 * (5 * N / 4)
        · have hm : k % (5 * N / 4) = k - 5 * N / 4 := by
            rw [show k = (k - 5 * N / 4) + 5 * N / 4 * 1 by omega, Nat.add_mul_mod_self_left, Nat.mod_eq_of_lt (by omega)]
            omega
          rw [hm, List.append_assoc, List.append_assoc, List.getElem?_append_right (by omega), List.getElem?_append_left (by omega), hl]
        by_cases c3 : k < 3 * (5 * N / 4)
        · have hm : k % (5 * N / 4) = k - 2 * (5 * N / 4) := by
            rw [show k = (k - 2 * (5 * N / 4)) + 5 * N / 4 * 2 by omega, Nat.add_mul_mod_self_left, Nat.mod_eq_of_lt (by omega)]
            omega
          rw [hm, List.append_assoc, List.getElem?_append_right (by simp; omega), List.getElem?_append_left (by simp; omega), List.length_append, hl]
          congr 1; omega
        · have hm : k % (5 * N / 4) = k - 3 * (5 * N / 4) := by
            rw [show k = (k - 3 * (5 * N / 4)) + 5 * N / 4 * 3 by omega, Nat.add_mul_mod_self_left, Nat.mod_eq_of_lt (by omega)]
            omega
          rw [hm, List.getElem?_append_right (by simp; omega), List.getElem?_append_left (by simp; omega), List.getElem?_take, if_pos (by simp; omega)]
          congr 1
          simp; omega
      rw [e1, hget _ (Nat.mod_lt _ (by omega))]
      simp only [Option.map_some, Option.some.injEq]
      ring
  · rw [List.getElem?_eq_none (by simp; omega), List.getElem?_eq_none (by simp; omega)]
    rfl

theorem ltf_ref {p : OfdmParams} (h : Supported p) : ltfIQ p = Ref.ltf p.option := by
  have ho : p.option ∈ [1, 2, 3, 4] := by have := option_cases h; simp; omega
  obtain ⟨f1, f2, -⟩ := nfft_facts p.option ho
  unfold ltfIQ
  rw [ltfTable_ref _ ho, plain_wave (by omega) f2]
  unfold Ref.ltf
  simp only
  generalize Ref.nfft p.option = N at *
  generalize Ref.ltfTone p.option = Xt
  have hper : ∀ (τ z : Int), Ref.wave N Xt (τ + z * N) = Ref.wave N Xt τ := by
    intro τ z
    unfold Ref.wave
    congr 1
    apply Finset.sum_congr rfl
    intro i _
    congr 1
    rw [exp_eq_exp_iff_exists_int]
    refine ⟨((i : Int) - ((N / 2 : Nat) : Int)) * z, ?_⟩
    have hNC : (N : ℂ) ≠ 0 := by exact_mod_cast (by omega : N ≠ 0)
    push_cast
    field_simp
  simp only [List.length_map, List.length_range]
  apply List.ext_getElem?
  intro k
  rw [List.getElem?_map]
  by_cases hk : k < 5 * N / 2
  · rw [List.getElem?_range hk]
    simp only [Option.map_some]
    by_cases c1 : k < N / 2
    · rw [List.append_assoc, List.getElem?_append_left (by simp; omega), List.getElem?_drop, List.getElem?_map, List.getElem?_range (by omega)]
      simp only [Option.map_some, Option.some.injEq]
      rw [← hper ((k : Int) - ((N / 2 : Nat) : Int)) 1]
      congr 1; push_cast; omega
    by_cases c2 : k < N / 2 + N
    · rw [List.append_assoc, List.getElem?_append_right (by simp; omega), List.getElem?_append_left (by simp; omega), List.getElem?_map,
        List.getElem?_range (by simp; omega)]
      simp only [Option.map_some, Option.some.injEq]
      congr 1; simp; omega
    · rw [List.getElem?_append_right (by simp; omega), List.getElem?_map, List.getElem?_range (by simp; omega)]
      simp only [Option.map_some, Option.some.injEq]
      rw [← hper _ 1]
      congr 1; simp; omega
  · rw [List.getElem?_eq_none (by simp; omega), List.getElem?_eq_none (by simp; omega)]
    rfl

theorem chunks_eq {α} (n : Nat) (l : List α) (k : Nat) (hl : l.length = k * n) (hn : 0 < n) :
    chunks n l = (List.range k).map fun i => (l.drop (i * n)).take n := by
  unfold chunks
  rw [hl, Nat.mul_div_cancel _ hn]

theorem symbols_ref {p : OfdmParams} (h : Supported p) (m : Bits) (h1 : 1 ≤ m.length / 8) (h2 : m.length / 8 ≤ 2047) :
    symbolsIQ (headerSyms p (m.length / 8)) ++ symbolsIQ (payloadSyms p m) =
      (List.range (Ref.symbolCount p m.length)).flatMap (Ref.symbol p m) := by
  have ho : p.option ∈ [1, 2, 3, 4] := by have := option_cases h; simp; omega
  obtain ⟨f1, f2, -⟩ := nfft_facts p.option ho
  obtain ⟨r1, r2, r3, r4, r5, r6, r7, r8, r9, r10, r11, r12, r13, r14, -⟩ := ref_tables p (mem_allSupported h)
  have hH := headerCoded_length h h1 h2
  have hP := payloadCoded_length h m
  have gH := goodMod h (lowestMcs_le p.option) ℂ
  have gP := goodMod h (mcs_le h) ℂ
  have eH : headerSyms p (m.length / 8) = (List.range (headerSymbols p)).map fun n => (allTones (Ref.nfft p.option)).map (Ref.toneValue p m n) := by
    unfold headerSyms streamSymbols
    rw [chunks_eq _ _ _ hH gH.pos]
    apply List.ext_getElem?
    intro n
    rw [List.getElem?_mapIdx]
    by_cases hn : n < headerSymbols p
    · rw [List.getElem?_map, List.getElem?_map, List.getElem?_range hn]
      simp only [Option.map_some, Option.some.injEq]
      rw [nthSymbol_ref h (lowestMcs_le p.option) OfdmState.init 0x1FF 0 (by simp; rfl) (by simp; rfl) _ _ (by
        rw [hH]; exact Nat.mul_le_mul_right _ hn)]
      apply List.map_congr_left
      intro t _
      unfold Ref.toneValue
      simp only [Nat.zero_add]
      rw [if_pos (c := n < Ref.headerCount p) (by rw [← r7]; exact hn), headerCoded_ref h, r1]
    · rw [List.getElem?_eq_none (by simp; omega), List.getElem?_eq_none (by simp; omega)]
      rfl
  have eP : payloadSyms p m = (List.range (payloadSymbols p m.length)).map fun n =>
      (allTones (Ref.nfft p.option)).map (Ref.toneValue p m (headerSymbols p + n)) := by
    unfold payloadSyms streamSymbols
    rw [chunks_eq _ _ _ hP gP.pos]
    apply List.ext_getElem?
    intro n
    rw [List.getElem?_mapIdx]
    by_cases hn : n < payloadSymbols p m.length
    · rw [List.getElem?_map, List.getElem?_map, List.getElem?_range hn]
      simp only [Option.map_some, Option.some.injEq]
      rw [nthSymbol_ref h (mcs_le h) (payloadState p) 0x1FF (headerSymbols p)
        (by show (0 + headerSymbols p) % (pilotsIndices p.option).length = _; rw [Nat.zero_add])
        (by show (((Pn9.new 0x1FF).nextN _).2).value = _
            rw [Pn9.nextN_snd]; rfl) _ _ (by
        rw [hP]; exact Nat.mul_le_mul_right _ hn)]
      apply List.map_congr_left
      intro t _
      unfold Ref.toneValue
      simp only
      rw [if_neg (c := headerSymbols p + n < Ref.headerCount p) (by rw [← r7]; omega), payloadCoded_ref h, ← r7,
        show headerSymbols p + n - headerSymbols p = n by omega]
    · rw [List.getElem?_eq_none (by simp; omega), List.getElem?_eq_none (by simp; omega)]
      rfl
  have hsym : ∀ n, cyclicPrefix (1 / 4) (ofdmIfft ((allTones (Ref.nfft p.option)).map (Ref.toneValue p m n))) = Ref.symbol p m n := by
    intro n
    rw [prefixed_wave (by omega) f2]
    rfl
  rw [eH, eP]
  unfold symbolsIQ
  rw [List.flatMap_map, List.flatMap_map]
  simp only [hsym]
  unfold Ref.symbolCount
  rw [← r7, ← groups_ref h, ← r11]
  show _ = (List.range (headerSymbols p + payloadSymbols p m.length)).flatMap (Ref.symbol p m)
  rw [List.range_add, List.flatMap_append, List.flatMap_map]

/-- **C67.**  On every supported configuration, whatever the object was used for before, and for every message of 1 to 2047 octets (and up to
seven further bits), `bitsToIQ` returns exactly the frame of the reference transmitter and its sampling frequency. -/
theorem C67_reference (o : OfdmObj) (h : Supported o.params) (a : Arg) (m : Bits) (ha : checkBinaryArray a = .ok m)
    (h1 : 1 ≤ m.length / 8) (h2 : m.length / 8 ≤ 2047) :
    ∃ o', (ofdmModBitsToIQ a).call o = (.ok (Ref.frame o.params m, Ref.sampleRate o.params.option), o') ∧ o'.params = o.params := by
  obtain ⟨o', e, hp⟩ := bitsToIQ_ok h ha h1 h2
  refine ⟨o', ?_, hp⟩
  rw [e]
  have e1 : frameIQ o.params m = Ref.frame o.params m := by
    unfold frameIQ Ref.frame
    rw [stf_ref h, ltf_ref h, List.append_assoc _ (symbolsIQ (headerSyms o.params (m.length / 8))), symbols_ref h m h1 h2]
  have e2 : ofdmFs o.params = Ref.sampleRate o.params.option := by
    have : ∀ o ∈ [1, 2, 3, 4], ((fftSize o : ℚ) * (1 + 1 / 4) / (120 / 1000000)) = Ref.sampleRate o := by
      intro o ho
      simp only [List.mem_cons, List.not_mem_nil, or_false] at ho
      rcases ho with rfl | rfl | rfl | rfl <;> norm_num [fftSize, Ref.sampleRate, Ref.nfft]
    exact this _ (by have := option_cases h; simp; omega)
  rw [e1, e2]

/-- The same for `bytesToIQ`: the message is the octets' bits. -/
theorem C67_bytes (o : OfdmObj) (h : Supported o.params) (a : Arg) (m : Bits) (ha : toBinaryArray a = .ok m)
    (h1 : 1 ≤ m.length / 8) (h2 : m.length / 8 ≤ 2047) :
    ∃ o', (ofdmModBytesToIQ a).call o = (.ok (Ref.frame o.params m, Ref.sampleRate o.params.option), o') ∧ o'.params = o.params := by
  unfold ofdmModBytesToIQ
  simp only [PyM.call_bind, PyM.call_lift, ha, PyM.seqR_ok]
  exact C67_reference o h _ m (C03.C03_identity m (by rintro rfl; simp at h1)) h1 h2

/-- Size of the frame in samples. -/
theorem C67_size (p : OfdmParams) (m : Bits) : (Ref.frame p m).length =
    5 * Ref.nfft p.option + 5 * Ref.nfft p.option / 2 + Ref.symbolCount p m.length * (5 * Ref.nfft p.option / 4) := by
  unfold Ref.frame
  rw [List.length_append, List.length_append, flatMap_length_const _ (5 * Ref.nfft p.option / 4)]
  · simp [Ref.stf, Ref.ltf]
  · intro n _; simp [Ref.symbol]

/-! Non-vacuity: a supported configuration and some bits of the reference. -/
example : Supported ⟨4, 3, 1, 2⟩ ∧ Ref.headerCount ⟨4, 3, 1, 2⟩ = 9 ∧ Ref.groups ⟨4, 3, 1, 2⟩ 80 = 3 := ⟨⟨by decide, by decide, by decide⟩, by decide, by decide⟩
example : (Ref.payload ⟨4, 3, 1, 2⟩ (List.replicate 80 true)).length = 108 := by decide +kernel
example : Ref.crc8 (Ref.headerInfo 2 39 2) = (hcsCalculation (natBits 22 (2 * 2 ^ 17 + 39 * 2 ^ 5 + 2 * 2))).map (· == 1) := by decide +kernel

end SunPhy.C67

namespace SunPhy.C05
/-- **C05 (closed form).**  The first `n` outputs of a generator are the terms 9, 10, … of the linear recurring sequence of
`x^9 + x^5 + 1` whose first nine terms are the bits of the seed, least significant first. -/
theorem C05_closed_form (seed n : Nat) :
    ((Pn9.new seed).nextN n).1 = (List.range n).map fun k => if Ref.lfsr seed (k + 9) then 1 else 0 := by
  rw [Pn9.nextN_fst]
  apply List.map_congr_left
  intro k _
  simp only [Pn9.new]
  have h := pn9Out_key seed k
  have hle := pn9Out_le (pn9Step^[k + 1] seed)
  show pn9Out (pn9Step^[k + 1] seed) = if Ref.key seed k then 1 else 0
  rw [← h]
  generalize pn9Out (pn9Step^[k + 1] seed) = z at hle
  interval_cases z <;> rfl

/-- **C05 (default seed).**  A generator made without a seed starts with all nine cells set: the sequence whose first nine terms are ones. -/
theorem C05_default (n : Nat) :
    Pn9.new.getCurrentValue = 0x1FF ∧ (Pn9.new.nextN n).1 = (List.range n).map fun k => if Ref.lfsr 0x1FF (k + 9) then 1 else 0 :=
  ⟨rfl, C05_closed_form 0x1FF n⟩

example : (List.range 12).map (Ref.lfsr 0x17) = [true, true, true, false, true, false, false, false, false, true, true, true] := by
  simp [List.range, List.range.loop, Ref.lfsr]
  decide
end SunPhy.C05

namespace SunPhy.C16
/-- **C16 (register).**  The HCS of 22 header bits is what the CRC-8 shift register with polynomial `x^8 + x^2 + x + 1`, preset to ones,
contains after the 22 bits, complemented, highest cell first. -/
theorem C16_register (x : Bits) (hx : x.length = 22) : hcsCalculation x = (Ref.crc8 x).map fun b => if b then 1 else 0 :=
  hcs_crc8 x hx
end SunPhy.C16
