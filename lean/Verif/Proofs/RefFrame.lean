import Verif.Proofs.RefStream
import Verif.Props.C25
import Verif.Props.C24
import Verif.Props.C29
/-
The samples of the model's MR-OFDM frame against the reference transmitter.
-/
namespace SunPhy
open Spec Complex

/-! ### Data values -/

theorem turns_eq : Ref.turns = C25.quarterTurns := by
  funext a b c
  unfold Ref.turns C25.quarterTurns
  rfl

theorem kind_facts : ∀ MCS ≤ 6, (mcsModulation MCS).bitsPerSymbol = bitsOf MCS ∧ freqSpreading MCS = spreadOf MCS ∧
    ((mcsModulation MCS = .BPSK ∧ bitsOf MCS = 1) ∨ (mcsModulation MCS = .QPSK ∧ bitsOf MCS = 2) ∨ (mcsModulation MCS = .QAM16 ∧ bitsOf MCS = 4)) := by
  decide

theorem level1_cast (b : Bool) : ((C08.level1 b : Int) : ℂ) = Ref.sign b := by cases b <;> simp [C08.level1, Ref.sign]
theorem level2_cast (a b : Bool) : ((C08.level2 a b : Int) : ℂ) = Ref.level a b := by cases a <;> cases b <;> simp [C08.level2, Ref.level]

theorem point_ref {MCS : Nat} (hM : MCS ≤ 6) (b : Nat → Bool) :
    (complexNumbers (kMod (mcsModulation MCS))).ofGI (C08.point (mcsModulation MCS) ((List.range (bitsOf MCS)).map b)) *
      (complexNumbers (kMod (mcsModulation MCS))).factor = Ref.point (bitsOf MCS) b := by
  obtain ⟨-, -, h⟩ := kind_facts MCS hM
  rcases h with ⟨h1, h2⟩ | ⟨h1, h2⟩ | ⟨h1, h2⟩
  · rw [h1, h2]
    show (((C08.level1 (b 0) : Int) : ℂ) + ((0 : Int) : ℂ) * I) * ((1 : ℝ) : ℂ) = Ref.sign (b 0)
    rw [level1_cast]; simp
  · rw [h1, h2]
    show (((C08.level1 (b 0) : Int) : ℂ) + ((C08.level1 (b 1) : Int) : ℂ) * I) * ((1 / Real.sqrt 2 : ℝ) : ℂ) =
      (Ref.sign (b 0) + Ref.sign (b 1) * I) / (Real.sqrt 2 : ℝ)
    rw [level1_cast, level1_cast]; push_cast; ring
  · rw [h1, h2]
    show (((C08.level2 (b 0) (b 1) : Int) : ℂ) + ((C08.level2 (b 2) (b 3) : Int) : ℂ) * I) * ((1 / Real.sqrt 10 : ℝ) : ℂ) =
      (Ref.level (b 0) (b 1) + Ref.level (b 2) (b 3) * I) / (Real.sqrt 10 : ℝ)
    rw [level2_cast, level2_cast]; push_cast; ring

theorem chunk_range {l : Bits} {n i : Nat} (hi : (i + 1) * n ≤ l.length) :
    (l.drop (i * n)).take n = (List.range n).map fun j => l.getD (i * n + j) false := by
  apply List.ext_getElem?
  intro j
  rw [List.getElem?_take]
  by_cases hj : j < n
  · rw [Nat.add_mul, Nat.one_mul] at hi
    rw [if_pos hj, List.getElem?_drop, List.getElem?_map, List.getElem?_range hj, List.getElem?_eq_getElem (by omega)]
    simp only [Option.map_some]
    rw [List.getD_eq_getElem?_getD, List.getElem?_eq_getElem (by omega)]
    rfl
  · rw [if_neg hj, List.getElem?_eq_none (by simp; omega)]

theorem tone_facts : ∀ o ∈ [1, 2, 3, 4], ∀ MCS ≤ 6,
    tonesOf o / spreadOf MCS * spreadOf MCS = tonesOf o ∧ 0 < tonesOf o / spreadOf MCS ∧ 0 < bitsOf MCS ∧
    dataTones o * nBpsc MCS / freqSpreading MCS = Ref.symbolBits o MCS ∧
    (spreadOf MCS = 1 ∨ spreadOf MCS = 2 ∨ spreadOf MCS = 4) := by
  decide

/-- The data values of symbol `n` of a stream. -/
theorem dataCol_ref {p : OfdmParams} (h : Supported p) {MCS : Nat} (hM : MCS ≤ 6) (stream : Bits) (n : Nat)
    (hn : (n + 1) * splitN p MCS ≤ stream.length) :
    dataCol (p.ofdmCfg MCS ℂ) (complexNumbers (kMod (mcsModulation MCS))) ((stream.drop (n * splitN p MCS)).take (splitN p MCS)) =
      (List.range (tonesOf p.option)).map (Ref.dataValue p.option MCS stream n) := by
  have ho := option_cases h
  obtain ⟨t1, t2, t3, t4, t5⟩ := tone_facts p.option (by simp; omega) MCS hM
  obtain ⟨k1, k2, -⟩ := kind_facts MCS hM
  have hL : splitN p MCS = tonesOf p.option / spreadOf MCS * bitsOf MCS := t4
  have hmap : mapCol (complexNumbers (kMod (mcsModulation MCS))) (mcsModulation MCS) ((stream.drop (n * splitN p MCS)).take (splitN p MCS)) =
      (List.range (tonesOf p.option / spreadOf MCS)).map fun i =>
        Ref.point (bitsOf MCS) fun j => stream.getD (n * Ref.symbolBits p.option MCS + i * bitsOf MCS + j) false := by
    have hS : Ref.symbolBits p.option MCS = splitN p MCS := t4.symm
    rw [hS]
    unfold mapCol chunks
    rw [k1, List.map_map]
    have hbl : ((stream.drop (n * splitN p MCS)).take (splitN p MCS)).length = splitN p MCS := by
      rw [List.length_take, List.length_drop]
      rw [Nat.add_mul, Nat.one_mul] at hn
      omega
    rw [hbl, show splitN p MCS / bitsOf MCS = tonesOf p.option / spreadOf MCS by rw [hL, Nat.mul_div_cancel _ t3]]
    apply List.map_congr_left
    intro i hi
    rw [List.mem_range] at hi
    simp only [Function.comp]
    have hib : (i + 1) * bitsOf MCS ≤ splitN p MCS := by rw [hL]; exact Nat.mul_le_mul_right _ hi
    rw [chunk_range (by rw [hbl]; exact hib), ← point_ref hM]
    congr 3
    apply List.map_congr_left
    intro j hj
    rw [List.mem_range] at hj
    rw [Nat.add_mul, Nat.one_mul] at hib
    rw [List.getD_eq_getElem?_getD, List.getElem?_take, if_pos (by omega), List.getElem?_drop, List.getD_eq_getElem?_getD, Nat.add_assoc]
  have hsp : spreadCol (complexNumbers (kMod (mcsModulation MCS))) (spreadOf MCS)
      (mapCol (complexNumbers (kMod (mcsModulation MCS))) (mcsModulation MCS) ((stream.drop (n * splitN p MCS)).take (splitN p MCS))) = _ :=
    rfl
  unfold dataCol
  show spreadCol (complexNumbers (kMod (mcsModulation MCS))) (freqSpreading MCS)
      (mapCol (complexNumbers (kMod (mcsModulation MCS))) (mcsModulation MCS) ((stream.drop (n * splitN p MCS)).take (splitN p MCS))) = _
  rw [k2, hmap]
  clear hsp
  obtain ⟨y, e, hl, hg, -⟩ := C25.C25_segments (kMod (mcsModulation MCS)) (spreadOf MCS) t5
    ((List.range (tonesOf p.option / spreadOf MCS)).map fun i =>
        Ref.point (bitsOf MCS) fun j => stream.getD (n * Ref.symbolBits p.option MCS + i * bitsOf MCS + j) false)
  rw [frequencySpread_ok _ t5] at e
  have e := Except.ok.inj e
  rw [e]
  simp only [List.length_map, List.length_range] at hl hg
  apply List.ext_getElem?
  intro d
  by_cases hd : d < tonesOf p.option
  · rw [List.getElem?_map, List.getElem?_range hd]
    simp only [Option.map_some]
    have hseg : d / (tonesOf p.option / spreadOf MCS) < spreadOf MCS := by
      rw [Nat.div_lt_iff_lt_mul t2, Nat.mul_comm, t1]; exact hd
    have hi := Nat.mod_lt d t2
    have hdd : d = d / (tonesOf p.option / spreadOf MCS) * (tonesOf p.option / spreadOf MCS) + d % (tonesOf p.option / spreadOf MCS) := by
      rw [Nat.mul_comm]; exact (Nat.div_add_mod _ _).symm
    conv_lhs => rw [hdd]
    rw [hg _ hseg _ hi, List.getElem?_map, List.getElem?_range hi]
    simp only [Option.map_some]
    rfl
  · rw [List.getElem?_eq_none (by rw [hl, Nat.mul_comm, t1]; omega), List.getElem?_eq_none (by simp; omega)]

/-! ### Symbols -/

theorem isSymbol_eq {α} [Zero α] {N padL padR : Nat} {ps : List Int} {pv datas symbol : List α}
    (h : IsSymbol N padL padR ps pv datas symbol) (f : Int → α)
    (hz : ∀ t ∈ allTones N, isGuard N padL padR t ∨ t = 0 → f t = 0) (hp : ps.map f = pv)
    (hd : (dataToneList N padL padR ps).map f = datas) : symbol = (allTones N).map f := by
  apply List.ext_getElem?
  intro i
  by_cases hi : i < N
  · have hmem : ((i : Int) - ((N / 2 : Nat) : Int)) ∈ allTones N := List.mem_map.2 ⟨i, by simpa using hi, rfl⟩
    have hrhs : ((allTones N).map f)[i]? = some (f ((i : Int) - ((N / 2 : Nat) : Int))) := by
      unfold allTones
      rw [List.getElem?_map, List.getElem?_map, List.getElem?_range hi]; rfl
    have hlhs : symbol[i]? = tone N symbol ((i : Int) - ((N / 2 : Nat) : Int)) := by
      unfold tone
      congr 1; omega
    rw [hrhs, hlhs]
    generalize ((i : Int) - ((N / 2 : Nat) : Int)) = t at hmem
    by_cases h1 : isGuard N padL padR t
    · rw [h.guard t hmem h1, hz t hmem (Or.inl h1)]
    by_cases h0 : t = 0
    · rw [hz t hmem (Or.inr h0), h0, h.dc]
    by_cases h2 : t ∈ ps
    · have := h.pilots
      rw [← hp, List.map_map] at this
      exact List.map_inj_left.1 this t h2
    · have := h.data
      rw [← hd, List.map_map] at this
      refine List.map_inj_left.1 this t ?_
      unfold dataToneList
      rw [List.mem_filter]
      exact ⟨hmem, by simp [h1, h0, h2]⟩
  · rw [List.getElem?_eq_none (by rw [h.size]; omega), List.getElem?_eq_none (by simp [allTones]; omega)]

theorem map_idxOf {α} {l : List Int} (hl : l.Nodup) (g : Nat → α) : l.map (fun t => g (l.idxOf t)) = (List.range l.length).map g := by
  apply List.ext_getElem?
  intro i
  by_cases hi : i < l.length
  · rw [List.getElem?_map, List.getElem?_map, List.getElem?_range hi, List.getElem?_eq_getElem hi]
    simp only [Option.map_some]
    rw [hl.idxOf_getElem]
  · rw [List.getElem?_eq_none (by simp; omega), List.getElem?_eq_none (by simp; omega)]

/-- Symbol `n` of a stream started in a pilot state, written tone by tone. -/
theorem nthSymbol_ref {p : OfdmParams} (h : Supported p) {MCS : Nat} (hM : MCS ≤ 6) (st : OfdmState) (v0 H : Nat)
    (hidx : st.pilotsColumnIndex = H % (pilotsIndices p.option).length)
    (hval : st.pn9.value = pn9Step^[H * (((pilotsIndices p.option)[0]?).getD []).length] v0)
    (stream : Bits) (n : Nat) (hn : (n + 1) * splitN p MCS ≤ stream.length) :
    nthSymbol (p.ofdmCfg MCS ℂ) (pilotOf (complexNumbers (kMod (mcsModulation MCS)))) (optPilots ℂ p.option) st n
      (dataCol (p.ofdmCfg MCS ℂ) (complexNumbers (kMod (mcsModulation MCS))) ((stream.drop (n * splitN p MCS)).take (splitN p MCS))) =
    (allTones (Ref.nfft p.option)).map fun t =>
      if isGuard (Ref.nfft p.option) (Ref.guardLow p.option) (Ref.guardHigh p.option) t ∨ t = 0 then 0
      else if t ∈ Ref.pilotTones p.option (H + n) then
        Ref.sign (Ref.key v0 ((H + n) * (Ref.pilotTones p.option (H + n)).length + (Ref.pilotTones p.option (H + n)).idxOf t))
      else Ref.dataValue p.option MCS stream n
        ((dataToneList (Ref.nfft p.option) (Ref.guardLow p.option) (Ref.guardHigh p.option) (Ref.pilotTones p.option (H + n))).idxOf t) := by
  have ho := option_cases h
  obtain ⟨-, r2, r3, r4, -, -, -, -, -, -, -, -, r13, -, -⟩ := ref_tables p (mem_allSupported h)
  have g := goodMod h hM ℂ
  have hbl : ((stream.drop (n * splitN p MCS)).take (splitN p MCS)).length = splitN p MCS := by
    rw [List.length_take, List.length_drop]
    rw [Nat.add_mul, Nat.one_mul] at hn
    omega
  have hcl := g.dataCol_length (complexNumbers (kMod (mcsModulation MCS))) hbl
  have spec := nthSymbol_spec g.cfg (pilotOf (complexNumbers (kMod (mcsModulation MCS)))) st n _ hcl
  have hset : nthSet (optPilots ℂ p.option) st n = Ref.pilotTones p.option (H + n) := by
    unfold nthSet Ref.pilotTones
    rw [hidx]
    show (pilotsIndices p.option).getD ((H % (pilotsIndices p.option).length + n) % (pilotsIndices p.option).length) [] = _
    rw [Nat.add_mod, Nat.mod_mod, ← Nat.add_mod, r13]
  have hmem := nthSet_mem g.cfg.sets st n
  obtain ⟨hplen, hnd, hgood⟩ := g.cfg.good _ hmem
  have hdlen := g.cfg.dataLen hmem
  rw [hset] at spec hplen hnd hgood hdlen
  have hN : (p.ofdmCfg MCS ℂ).nFFT = Ref.nfft p.option := r2
  have hgl : (p.ofdmCfg MCS ℂ).paddingLeft = Ref.guardLow p.option := r3
  have hgr : (p.ofdmCfg MCS ℂ).paddingRight = Ref.guardHigh p.option := r4
  rw [hN, hgl, hgr] at spec hgood hdlen
  generalize hps : Ref.pilotTones p.option (H + n) = ps at *
  have heven : Ref.nfft p.option % 2 = 0 := by have := g.cfg.even; rw [hN] at this; exact this
  have hnp : ∀ t ∈ ps, ¬ (isGuard (Ref.nfft p.option) (Ref.guardLow p.option) (Ref.guardHigh p.option) t ∨ t = 0) := by
    intro t ht
    have := (mem_dataTones heven).1 (hgood t ht)
    simp only [not_or]
    exact ⟨this.2.1, this.2.2.1⟩
  have hdt : ∀ t ∈ dataToneList (Ref.nfft p.option) (Ref.guardLow p.option) (Ref.guardHigh p.option) ps,
      ¬ (isGuard (Ref.nfft p.option) (Ref.guardLow p.option) (Ref.guardHigh p.option) t ∨ t = 0) ∧ t ∉ ps := by
    intro t ht
    have := (mem_dataTones heven).1 ht
    simp only [not_or]
    exact ⟨⟨this.2.1, this.2.2.1⟩, this.2.2.2⟩
  apply isSymbol_eq spec
  · intro t _ ht; rw [if_pos ht]
  · rw [List.map_congr_left (g := fun t => Ref.sign (Ref.key v0 ((H + n) * ps.length + ps.idxOf t)))
      (fun t ht => by rw [if_neg (hnp t ht), if_pos ht]),
      map_idxOf hnd fun i => Ref.sign (Ref.key v0 ((H + n) * ps.length + i))]
    rw [hplen]
    show _ = pilotVals _ ((st.pn9.nextN (n * (((pilotsIndices p.option)[0]?).getD []).length)).2) (((pilotsIndices p.option)[0]?).getD []).length
    show (List.range (((pilotsIndices p.option)[0]?).getD []).length).map (fun i => Ref.sign (Ref.key v0 ((H + n) * (((pilotsIndices p.option)[0]?).getD []).length + i))) = _
    unfold pilotVals
    rw [Pn9.nextN_fst, Pn9.nextN_snd, List.map_map]
    apply List.map_congr_left
    intro i _
    simp only [Function.comp]
    rw [← Function.iterate_add_apply, hval, ← Function.iterate_add_apply,
      show i + 1 + n * (((pilotsIndices p.option)[0]?).getD []).length + H * (((pilotsIndices p.option)[0]?).getD []).length =
        ((H + n) * (((pilotsIndices p.option)[0]?).getD []).length + i) + 1 by rw [Nat.add_mul]; omega, pn9Out_key]
    show _ = ((bpsk _ : Int) : ℂ) + ((0 : Int) : ℂ) * I
    unfold bpsk Ref.sign
    split <;> simp
  · rw [List.map_congr_left (g := fun t => Ref.dataValue p.option MCS stream n
        ((dataToneList (Ref.nfft p.option) (Ref.guardLow p.option) (Ref.guardHigh p.option) ps).idxOf t))
      (fun t ht => by rw [if_neg (hdt t ht).1, if_neg (hdt t ht).2]),
      map_idxOf (dataTones_nodup ..) (Ref.dataValue p.option MCS stream n), dataCol_ref h hM stream n hn]
    have := hcl
    rw [dataCol_ref h hM stream n hn, List.length_map, List.length_range] at this
    rw [hdlen, this]

/-! ### Samples -/

theorem ifftshift_wave {N : Nat} (he : N % 2 = 0) (hN : 0 < N) (X : Int → ℂ) (n : Nat) (τ : Int) (hτ : ∃ z : Int, (n : Int) = τ + z * N) :
    C29.samp (ifftshift ((allTones N).map X)) n = Ref.wave N X τ := by
  have hl : ((allTones N).map X).length = N := by simp [allTones]
  have hl2 : (ifftshift ((allTones N).map X)).length = N := by simp [ifftshift, allTones]
  unfold C29.samp Ref.wave
  rw [hl2]
  congr 1
  obtain ⟨h, hh⟩ := Nat.dvd_of_mod_eq_zero he
  have hN2 : N / 2 = h := by omega
  obtain ⟨z, hz⟩ := hτ
  have hNC : (N : ℂ) ≠ 0 := by exact_mod_cast (by omega : N ≠ 0)
  have hzC : (n : ℂ) = (τ : ℂ) + z * N := by exact_mod_cast hz
  refine Finset.sum_bij (fun k _ => (k + N / 2) % N) ?_ ?_ ?_ ?_
  · intro k hk; rw [Finset.mem_range]; exact Nat.mod_lt _ hN
  · intro a ha b hb hab
    rw [Finset.mem_range] at ha hb
    have : ∀ x < N, (x + N / 2) % N = if x < h then x + h else x - h := by
      intro x hx
      split
      · rw [hN2, Nat.mod_eq_of_lt (by omega)]
      · rw [hN2, show x + h = (x - h) + N by omega, Nat.add_mod_right, Nat.mod_eq_of_lt (by omega)]
    simp only [this a ha, this b hb] at hab
    split at hab <;> split at hab <;> omega
  · intro j hj
    rw [Finset.mem_range] at hj
    refine ⟨(j + N / 2) % N, by rw [Finset.mem_range]; exact Nat.mod_lt _ hN, ?_⟩
    rw [Nat.add_mod, Nat.mod_mod, ← Nat.add_mod, show j + N / 2 + N / 2 = j + N by omega, Nat.add_mod_right, Nat.mod_eq_of_lt hj]
  · intro k hk
    rw [Finset.mem_range] at hk
    rw [C29.ifftshift_getD _ (by rw [hl]; exact hk), hl]
    have hlt := Nat.mod_lt (k + N / 2) hN
    have e1 : ((allTones N).map X).getD ((k + N / 2) % N) 0 = X ((((k + N / 2) % N : Nat) : Int) - ((N / 2 : Nat) : Int)) := by
      unfold allTones
      rw [List.getD_eq_getElem?_getD, List.getElem?_map, List.getElem?_map, List.getElem?_range hlt]
      rfl
    rw [e1]
    congr 1
    -- exponents differ by a multiple of 2πi
    have hkk : ∃ w : Int, (((k + N / 2) % N : Nat) : Int) - ((N / 2 : Nat) : Int) = (k : Int) + w * N := by
      by_cases hk2 : k < h
      · refine ⟨0, ?_⟩
        rw [hN2, Nat.mod_eq_of_lt (by omega)]; push_cast; ring
      · refine ⟨-1, ?_⟩
        rw [hN2, show k + h = (k - h) + N by omega, Nat.add_mod_right, Nat.mod_eq_of_lt (by omega)]
        omega
    obtain ⟨w, hw⟩ := hkk
    rw [hw, exp_eq_exp_iff_exists_int]
    refine ⟨k * z - w * τ, ?_⟩
    rw [hzC]
    push_cast
    field_simp
    ring

theorem prefixed_wave {N : Nat} (h4 : N % 4 = 0) (hN : 0 < N) (X : Int → ℂ) :
    cyclicPrefix (1 / 4) (ofdmIfft ((allTones N).map X)) =
      (List.range (5 * N / 4)).map fun (k : Nat) => Ref.wave N X ((k : Int) - ((N / 4 : Nat) : Int)) := by
  have hl : ((allTones N).map X).length = N := by simp [allTones]
  rw [C29.prefixed_samp _ (by rw [hl]; exact h4) (by rw [hl]; exact hN), hl, show 5 * (N / 4) = 5 * N / 4 by omega]
  apply List.map_congr_left
  intro k _
  apply ifftshift_wave (by omega) hN
  exact ⟨1, by push_cast; omega⟩

theorem plain_wave {N : Nat} (he : N % 2 = 0) (hN : 0 < N) (X : Int → ℂ) :
    ofdmIfft ((allTones N).map X) = (List.range N).map fun (k : Nat) => Ref.wave N X (k : Int) := by
  have hl : (ifftshift ((allTones N).map X)).length = N := by simp [ifftshift, allTones]
  unfold ofdmIfft
  rw [C29.ifft_samp, hl]
  apply List.map_congr_left
  intro k _
  exact ifftshift_wave he hN X k k ⟨0, by ring⟩

end SunPhy
