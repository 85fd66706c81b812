import Verif.Props.C91
import Verif.Proofs.Distance
import Verif.Props.C89
import Verif.Props.C15IQ
/-
C97 — signals of different messages are far apart: squared Euclidean distance of MR-OFDM frames, and what noise cannot do.
-/
namespace SunPhy.C97
open SunPhy Spec Complex
noncomputable section

/-- The guaranteed squared distance of two frames, for each MCS (mean power 1 per data tone). -/
def minDist : Nat → ℝ
  | 0 => 160 | 1 => 80 | 2 => 40 | 3 => 20 | 4 => 10 | 5 => 4 | 6 => 2 | _ => 0

/-! ### One symbol -/

theorem wave_sub (N : Nat) (X Y : Int → ℂ) (τ : Int) : Ref.wave N X τ - Ref.wave N Y τ = Ref.wave N (fun t => X t - Y t) τ := by
  unfold Ref.wave
  rw [← sub_div, ← Finset.sum_sub_distrib]
  congr 1
  apply Finset.sum_congr rfl
  intro i _
  ring

theorem symbol_dist {p : OfdmParams} (h : Supported p) (m m' : Bits) (n : Nat) :
    ((allTones (Ref.nfft p.option)).map fun t => ‖Ref.toneValue p m n t - Ref.toneValue p m' n t‖ ^ 2).sum ≤ distSq (Ref.symbol p m n) (Ref.symbol p m' n) := by
  obtain ⟨_, ho, _⟩ := C91.mcs_le h
  obtain ⟨h8, hN⟩ := C91.nfft_facts _ ho
  have e := C91.wave_window h8 hN (fun t => Ref.toneValue p m n t - Ref.toneValue p m' n t) 1
  simp only [norm_one, one_pow, one_mul] at e
  rw [← C91.energy_map, ← e, C91.energy_map]
  unfold Ref.symbol
  simp only
  rw [distSq_map, show 5 * Ref.nfft p.option / 4 = Ref.nfft p.option / 4 + Ref.nfft p.option by omega, List.range_add, List.map_append, List.sum_append, List.map_map]
  have h0 : 0 ≤ ((List.range (Ref.nfft p.option / 4)).map fun (k : Nat) =>
      ‖Ref.wave (Ref.nfft p.option) (Ref.toneValue p m n) ((k : Int) - ((Ref.nfft p.option / 4 : Nat) : Int)) -
        Ref.wave (Ref.nfft p.option) (Ref.toneValue p m' n) ((k : Int) - ((Ref.nfft p.option / 4 : Nat) : Int))‖ ^ 2).sum := by
    apply List.sum_nonneg
    intro v hv
    obtain ⟨k, -, rfl⟩ := List.mem_map.1 hv
    positivity
  refine le_trans (le_of_eq ?_) (le_add_of_nonneg_left h0)
  congr 1
  apply List.map_congr_left
  intro k _
  simp only [Function.comp]
  rw [wave_sub]
  congr 3
  push_cast; ring

/-! ### Constellation points -/

/-- Squared distance per differing bit. -/
def perBit (w : Nat) : ℝ := match w with | 1 => 4 | 2 => 2 | _ => 2 / 5

theorem point_dist (w : Nat) (hw : w = 1 ∨ w = 2 ∨ w = 4) (b b' : Nat → Bool) :
    perBit w * S w (fun j => neq (b j) (b' j)) ≤ ‖Ref.point w b - Ref.point w b'‖ ^ 2 := by
  have h2 : Real.sqrt 2 ^ 2 = 2 := Real.sq_sqrt (by norm_num)
  have h10 : Real.sqrt 10 ^ 2 = 10 := Real.sq_sqrt (by norm_num)
  rcases hw with rfl | rfl | rfl
  · simp only [Ref.point, perBit, S, List.range_succ, List.range_zero, List.nil_append, List.map_cons, List.map_nil, List.sum_cons, List.sum_nil]
    cases b 0 <;> cases b' 0 <;> simp [Ref.sign, neq] <;> norm_num
  · simp only [Ref.point, perBit, S, List.range_succ, List.range_zero, List.nil_append, List.cons_append, List.map_cons, List.map_nil, List.sum_cons, List.sum_nil]
    rw [← sub_div, norm_div, div_pow, Complex.norm_real, Real.norm_eq_abs, sq_abs, h2, le_div_iff₀ (by norm_num), Complex.sq_norm, Complex.normSq_apply]
    cases b 0 <;> cases b' 0 <;> cases b 1 <;> cases b' 1 <;> simp [Ref.sign, neq] <;> norm_num
  · simp only [Ref.point, perBit, S, List.range_succ, List.range_zero, List.nil_append, List.cons_append, List.map_cons, List.map_nil, List.sum_cons, List.sum_nil]
    rw [← sub_div, norm_div, div_pow, Complex.norm_real, Real.norm_eq_abs, sq_abs, h10, le_div_iff₀ (by norm_num), Complex.sq_norm, Complex.normSq_apply]
    have lv : ∀ a a' c c' : Bool, 4 * (neq a a' + neq c c') ≤ ((Ref.level a c).re - (Ref.level a' c').re) ^ 2 := by
      intro a a' c c'
      cases a <;> cases a' <;> cases c <;> cases c' <;> simp [Ref.level, neq] <;> norm_num
    have im0 : ∀ a c : Bool, (Ref.level a c).im = 0 := by intro a c; cases a <;> cases c <;> simp [Ref.level]
    have l1 := lv (b 0) (b' 0) (b 1) (b' 1)
    have l2 := lv (b 2) (b' 2) (b 3) (b' 3)
    simp only [Complex.sub_re, Complex.sub_im, Complex.add_re, Complex.add_im, Complex.mul_re, Complex.mul_im, Complex.I_re, Complex.I_im, im0]
    nlinarith

/-! ### The data tones of a symbol -/

theorem tone_count : ∀ opt ∈ [1, 2, 3, 4], ∀ k < 13,
    (dataToneList (Ref.nfft opt) (Ref.guardLow opt) (Ref.guardHigh opt) ((Ref.pilotSets opt).getD (k % (Ref.pilotSets opt).length) [])).length = tonesOf opt := by
  decide +kernel

theorem filter_sum_le {ι} (l : List ι) (P : ι → Bool) (g : ι → ℝ) (hg : ∀ i, 0 ≤ g i) : ((l.filter P).map g).sum ≤ (l.map g).sum := by
  induction l with
  | nil => simp
  | cons a l ih =>
    rw [List.filter_cons, List.map_cons, List.sum_cons]
    split
    · rw [List.map_cons, List.sum_cons]; linarith
    · have := hg a; linarith

theorem map_idxOf (l : List Int) (h : l.Nodup) (F : Nat → ℝ) : (l.map fun t => F (l.idxOf t)).sum = S l.length F := by
  unfold S
  congr 1
  apply List.ext_getElem (by simp)
  intro i h1 h2
  simp only [List.length_map] at h1
  rw [List.getElem_map, List.getElem_map, List.getElem_range, h.idxOf_getElem]

theorem tones_nodup (N : Nat) : (allTones N).Nodup := by
  unfold allTones
  refine List.Nodup.map ?_ List.nodup_range
  intro a b hab
  simpa using hab

theorem cfg_facts : ∀ p ∈ allSupported, (bitsOf p.mcs = 1 ∨ bitsOf p.mcs = 2 ∨ bitsOf p.mcs = 4) ∧ Spec.spreadOf p.mcs * (tonesOf p.option / Spec.spreadOf p.mcs) = tonesOf p.option := by
  decide +kernel

theorem payload_symbol {p : OfdmParams} (h : Supported p) (m m' : Bits) (n : Nat) (hn : Ref.headerCount p ≤ n) :
    Spec.spreadOf p.mcs * (perBit (bitsOf p.mcs) * S (Ref.symbolBits p.option p.mcs) fun i =>
      neq ((Ref.payloadStream p m).getD ((n - Ref.headerCount p) * Ref.symbolBits p.option p.mcs + i) false)
        ((Ref.payloadStream p m').getD ((n - Ref.headerCount p) * Ref.symbolBits p.option p.mcs + i) false)) ≤
    ((allTones (Ref.nfft p.option)).map fun t => ‖Ref.toneValue p m n t - Ref.toneValue p m' n t‖ ^ 2).sum := by
  obtain ⟨_, ho, _⟩ := C91.mcs_le h
  obtain ⟨hw, hD⟩ := cfg_facts p (mem_allSupported h)
  obtain ⟨s1, s2⟩ := C91.sets_length p.option ho
  have hk : n % (Ref.pilotSets p.option).length < 13 := lt_of_lt_of_le (Nat.mod_lt _ (by omega)) s2
  have hc := tone_count p.option ho _ hk
  simp only [Nat.mod_mod] at hc
  change (dataToneList _ _ _ (Ref.pilotTones p.option n)).length = _ at hc
  refine le_trans ?_ (filter_sum_le (allTones (Ref.nfft p.option))
    (fun t => ¬ isGuard (Ref.nfft p.option) (Ref.guardLow p.option) (Ref.guardHigh p.option) t ∧ t ≠ 0 ∧ t ∉ Ref.pilotTones p.option n)
    (fun t => ‖Ref.toneValue p m n t - Ref.toneValue p m' n t‖ ^ 2) (fun i => by positivity))
  have e : ((dataToneList (Ref.nfft p.option) (Ref.guardLow p.option) (Ref.guardHigh p.option) (Ref.pilotTones p.option n)).map
      fun t => ‖Ref.toneValue p m n t - Ref.toneValue p m' n t‖ ^ 2) =
      (dataToneList (Ref.nfft p.option) (Ref.guardLow p.option) (Ref.guardHigh p.option) (Ref.pilotTones p.option n)).map fun t =>
        (fun d => ‖Ref.dataValue p.option p.mcs (Ref.payloadStream p m) (n - Ref.headerCount p) d -
          Ref.dataValue p.option p.mcs (Ref.payloadStream p m') (n - Ref.headerCount p) d‖ ^ 2)
        ((dataToneList (Ref.nfft p.option) (Ref.guardLow p.option) (Ref.guardHigh p.option) (Ref.pilotTones p.option n)).idxOf t) := by
    apply List.map_congr_left
    intro t ht
    unfold dataToneList at ht
    have ht := (List.mem_filter.1 ht).2
    simp only [decide_eq_true_eq] at ht
    obtain ⟨g1, g2, g3⟩ := ht
    unfold Ref.toneValue
    simp only
    have g12 : ¬ (isGuard (Ref.nfft p.option) (Ref.guardLow p.option) (Ref.guardHigh p.option) t ∨ t = 0) := fun hg => hg.elim g1 g2
    have g4 : ¬ n < Ref.headerCount p := by omega
    simp only [if_neg g12, if_neg g3, if_neg g4]
  change _ ≤ ((dataToneList (Ref.nfft p.option) (Ref.guardLow p.option) (Ref.guardHigh p.option) (Ref.pilotTones p.option n)).map _).sum
  have nd : (dataToneList (Ref.nfft p.option) (Ref.guardLow p.option) (Ref.guardHigh p.option) (Ref.pilotTones p.option n)).Nodup := (tones_nodup _).filter _
  rw [e, map_idxOf _ nd (fun d => ‖Ref.dataValue p.option p.mcs (Ref.payloadStream p m) (n - Ref.headerCount p) d -
          Ref.dataValue p.option p.mcs (Ref.payloadStream p m') (n - Ref.headerCount p) d‖ ^ 2), hc, ← hD, S_mul, ← S_const]
  apply S_le
  intro c _
  rw [← S_scale]
  have hb : Ref.symbolBits p.option p.mcs = tonesOf p.option / Spec.spreadOf p.mcs * bitsOf p.mcs := rfl
  conv_lhs => rw [hb]
  rw [S_mul]
  apply S_le
  intro d hd
  rw [S_scale]
  simp only [Ref.dataValue]
  have hD0 : 0 < tonesOf p.option / Spec.spreadOf p.mcs := by omega
  rw [Nat.mul_comm c, Nat.mul_add_mod, Nat.mod_eq_of_lt hd, Nat.mul_add_div hD0, ← sub_mul, norm_mul, C91.turn_norm, mul_one]
  refine le_trans (le_of_eq ?_) (point_dist _ hw _ _)
  congr 1
  apply S_congr
  intro j _
  rw [← hb, Nat.add_assoc]

theorem bound_table : ∀ p ∈ allSupported, minDist p.mcs = (if Ref.threeQuarters p.mcs then 5 else 10) * (Spec.spreadOf p.mcs * perBit (bitsOf p.mcs)) := by
  intro p hp
  have hm : ∀ p ∈ allSupported, p.mcs ≤ 6 := by decide +kernel
  have := hm p hp
  have : p.mcs = 0 ∨ p.mcs = 1 ∨ p.mcs = 2 ∨ p.mcs = 3 ∨ p.mcs = 4 ∨ p.mcs = 5 ∨ p.mcs = 6 := by omega
  rcases this with e | e | e | e | e | e | e <;> rw [e] <;> norm_num [minDist, Ref.threeQuarters, Spec.spreadOf, perBit, bitsOf]

theorem stream_length {p : OfdmParams} (h : Supported p) (m : Bits) :
    (Ref.payloadStream p m).length = Ref.groups p m.length * Spec.spreadOf p.mcs * Ref.symbolBits p.option p.mcs := by
  obtain ⟨-, -, -, -, -, -, -, e8, -, -, e11, -⟩ := ref_tables p (mem_allSupported h)
  rw [← payloadCoded_ref h, payloadCoded_length h, e8, ← groups_ref h, ← e11]
  rfl

theorem stream_hamming {p : OfdmParams} (h : Supported p) (m m' : Bits) (hl : m.length = m'.length) (hne : m ≠ m') :
    (if Ref.threeQuarters p.mcs then 5 else 10) ≤ hamming (Ref.payloadStream p m) (Ref.payloadStream p m') := by
  rw [← payloadCoded_ref h, ← payloadCoded_ref h]
  unfold payloadCoded
  rw [C89.interleaver_hamming h]
  · exact C89.code_hamming h m m' hl hne
  · rw [(payload_enc h m).2, (payload_enc h m').2, hl]
  · obtain ⟨code, e, hm, -⟩ := C19.C19_payload_blocks p h m
    rw [(payload_enc h m).1] at e
    rw [Except.ok.inj e]; exact hm

theorem frame_dist {p : OfdmParams} (h : Supported p) (m m' : Bits) (hl : m.length = m'.length) (hne : m ≠ m') :
    minDist p.mcs ≤ distSq (Ref.frame p m) (Ref.frame p m') := by
  unfold Ref.frame
  rw [distSq_append _ _ _ _ rfl, distSq_self, zero_add, ← hl, distSq_flatMap _ _ _ (fun i => by simp [Ref.symbol])]
  change _ ≤ S (Ref.symbolCount p m.length) fun n => distSq (Ref.symbol p m n) (Ref.symbol p m' n)
  unfold Ref.symbolCount
  rw [S_add]
  have h0 : 0 ≤ S (Ref.headerCount p) fun n => distSq (Ref.symbol p m n) (Ref.symbol p m' n) := by
    have := S_le (n := Ref.headerCount p) (f := fun _ => 0) (g := fun n => distSq (Ref.symbol p m n) (Ref.symbol p m' n)) fun i _ => distSq_nonneg _ _
    rwa [S_const, mul_zero] at this
  refine le_trans ?_ (le_add_of_nonneg_left h0)
  refine le_trans ?_ (S_le fun n _ => (payload_symbol h m m' (Ref.headerCount p + n) (by omega)).trans (symbol_dist h m m' _))
  simp only [Nat.add_sub_cancel_left]
  rw [S_scale, S_scale, ← S_mul _ _ (fun i => neq ((Ref.payloadStream p m).getD i false) ((Ref.payloadStream p m').getD i false)), ← stream_length h m, ← hamming_S _ _ (by rw [stream_length h, stream_length h, hl]), bound_table p (mem_allSupported h)]
  have hH := stream_hamming h m m' hl hne
  have hH' : ((if Ref.threeQuarters p.mcs then 5 else 10 : ℝ)) ≤ ((hamming (Ref.payloadStream p m) (Ref.payloadStream p m') : Nat) : ℝ) := by
    split at hH
    · rename_i h3; rw [if_pos h3]; exact_mod_cast hH
    · rename_i h3; rw [if_neg h3]; exact_mod_cast hH
  have : 0 ≤ perBit (bitsOf p.mcs) := by unfold perBit; split <;> norm_num
  have h2 : 0 ≤ (Spec.spreadOf p.mcs : ℝ) * perBit (bitsOf p.mcs) := by positivity
  nlinarith [mul_le_mul_of_nonneg_left hH' h2]

/-- **C97 (distance).**  Two modulators with the same supported configuration modulate different messages of the same length: the squared Euclidean distance of
the two signals is at least 160, 80, 40, 20, 10, 4, 2 for MCS 0..6 (data tones have mean power 1). -/
theorem C97_distance (o o' : OfdmObj) (h : Supported o.params) (hp : o'.params = o.params) (a a' : Arg) (m m' : Bits)
    (ha : checkBinaryArray a = .ok m) (ha' : checkBinaryArray a' = .ok m') (hl : m.length = m'.length) (hne : m ≠ m')
    (iq iq' : List ℂ) (fs fs' : ℚ) (hr : ((ofdmModBitsToIQ a).call o).1 = .ok (iq, fs)) (hr' : ((ofdmModBitsToIQ a').call o').1 = .ok (iq', fs')) :
    iq.length = iq'.length ∧ minDist o.params.mcs ≤ distSq iq iq' := by
  have k := (C15.C15_bitsToIQ o h a m ha).1.1 ⟨_, hr⟩
  obtain ⟨_, e, -⟩ := C67.C67_reference o h a m ha k.1 k.2
  obtain ⟨_, e', -⟩ := C67.C67_reference o' (by rw [hp]; exact h) a' m' ha' (by rw [← hl]; exact k.1) (by rw [← hl]; exact k.2)
  rw [e] at hr
  rw [e'] at hr'
  have r1 := congrArg Prod.fst (Except.ok.inj hr)
  have r2 := congrArg Prod.fst (Except.ok.inj hr')
  simp only at r1 r2
  subst r1; subst r2
  rw [hp]
  exact ⟨by rw [C67.C67_size, C67.C67_size, hl], frame_dist h m m' hl hne⟩

/-- **C97 (noise).**  A received signal at squared distance less than a quarter of the bound from the transmitted one is closer to it than to the signal of any
other message of the same length: the nearest signal identifies the message. -/
theorem C97_noise (o o' : OfdmObj) (h : Supported o.params) (hp : o'.params = o.params) (a a' : Arg) (m m' : Bits)
    (ha : checkBinaryArray a = .ok m) (ha' : checkBinaryArray a' = .ok m') (hl : m.length = m'.length) (hne : m ≠ m')
    (iq iq' : List ℂ) (fs fs' : ℚ) (hr : ((ofdmModBitsToIQ a).call o).1 = .ok (iq, fs)) (hr' : ((ofdmModBitsToIQ a').call o').1 = .ok (iq', fs'))
    (r : List ℂ) (hrl : r.length = iq.length) (hn : distSq r iq < minDist o.params.mcs / 4) : distSq r iq < distSq r iq' := by
  obtain ⟨e, hd⟩ := C97_distance o o' h hp a a' m m' ha ha' hl hne iq iq' fs fs' hr hr'
  have := distSq_triangle r iq iq' hrl.symm (by omega)
  linarith

/-! Non-vacuity: a supported configuration of each kind accepts two messages that differ in one bit. -/
example : Supported ⟨4, 2, 1, 2⟩ ∧ Supported ⟨3, 1, 0, 1⟩ ∧
    ∀ p, Supported p → ∀ b : Bool, ∃ r, ((ofdmModBitsToIQ (bitsArg (b :: List.replicate 15 true))).call { params := p }).1 = .ok r := by
  refine ⟨⟨by decide, by decide, by decide⟩, ⟨by decide, by decide, by decide⟩, fun p hp b => ?_⟩
  obtain ⟨o', e, -⟩ := bitsToIQ_ok (o := { params := p }) hp (C03.C03_identity (b :: List.replicate 15 true) (by simp)) (by simp) (by simp)
  exact ⟨_, by rw [e]⟩

end
end SunPhy.C97
