import Verif.Props.C97
import Verif.Props.C100
import Verif.Props.C149
import Verif.Spec.Differences
import Verif.Proofs.OfdmWindow
/-
C150 — the distance of two MR-OFDM frames, exactly.
-/
namespace SunPhy.C150
open SunPhy Spec Complex
noncomputable section

theorem filter_sum_eq {ι} (l : List ι) (P : ι → Bool) (g : ι → ℝ) (hg : ∀ i ∈ l, P i = false → g i = 0) : (l.map g).sum = ((l.filter P).map g).sum := by
  induction l with
  | nil => simp
  | cons a l ih =>
    rw [List.filter_cons, List.map_cons, List.sum_cons, ih fun i hi => hg i (List.mem_cons_of_mem _ hi)]
    split
    · rw [List.map_cons, List.sum_cons]
    · rename_i hp
      rw [hg a List.mem_cons_self (by simpa using hp), zero_add]

theorem point_eq (w : Nat) (hw : w = 1 ∨ w = 2) (b b' : Nat → Bool) :
    ‖Ref.point w b - Ref.point w b'‖ ^ 2 = C97.perBit w * S w (fun j => neq (b j) (b' j)) := by
  have h2 : Real.sqrt 2 ^ 2 = 2 := Real.sq_sqrt (by norm_num)
  rcases hw with rfl | rfl
  · simp only [Ref.point, C97.perBit, S, List.range_succ, List.range_zero, List.nil_append, List.map_cons, List.map_nil, List.sum_cons, List.sum_nil]
    cases b 0 <;> cases b' 0 <;> simp [Ref.sign, neq] <;> norm_num
  · simp only [Ref.point, C97.perBit, S, List.range_succ, List.range_zero, List.nil_append, List.cons_append, List.map_cons, List.map_nil, List.sum_cons, List.sum_nil]
    rw [← sub_div, norm_div, div_pow, Complex.norm_real, Real.norm_eq_abs, sq_abs, h2, div_eq_iff (by norm_num), Complex.sq_norm, Complex.normSq_apply]
    cases b 0 <;> cases b' 0 <;> cases b 1 <;> cases b' 1 <;> simp [Ref.sign, neq] <;> norm_num

theorem low_mcs : ∀ p ∈ allSupported, p.mcs ≤ 4 → bitsOf p.mcs = 1 ∨ bitsOf p.mcs = 2 := by decide +kernel

/-- Distance on the tones of a payload symbol, in terms of constellation points. -/
theorem payload_points {p : OfdmParams} (h : Supported p) (m m' : Bits) (hl : m'.length = m.length) (n : Nat) (hn : Ref.headerCount p ≤ n) :
    ((allTones (Ref.nfft p.option)).map fun t => ‖Ref.toneValue p m n t - Ref.toneValue p m' n t‖ ^ 2).sum =
    Spec.spreadOf p.mcs * S (tonesOf p.option / Spec.spreadOf p.mcs) fun d =>
      ‖Ref.point (bitsOf p.mcs) (fun j => (Ref.payloadStream p m).getD ((n - Ref.headerCount p) * Ref.symbolBits p.option p.mcs + (d * bitsOf p.mcs + j)) false) -
        Ref.point (bitsOf p.mcs) (fun j => (Ref.payloadStream p m').getD ((n - Ref.headerCount p) * Ref.symbolBits p.option p.mcs + (d * bitsOf p.mcs + j)) false)‖ ^ 2 := by
  obtain ⟨_, ho, _⟩ := C91.mcs_le h
  obtain ⟨-, hD⟩ := C97.cfg_facts p (mem_allSupported h)
  obtain ⟨s1, s2⟩ := C91.sets_length p.option ho
  have hk : n % (Ref.pilotSets p.option).length < 13 := lt_of_lt_of_le (Nat.mod_lt _ (by omega)) s2
  have hc := C97.tone_count p.option ho _ hk
  simp only [Nat.mod_mod] at hc
  change (dataToneList _ _ _ (Ref.pilotTones p.option n)).length = _ at hc
  rw [filter_sum_eq (allTones (Ref.nfft p.option))
    (fun t => ¬ isGuard (Ref.nfft p.option) (Ref.guardLow p.option) (Ref.guardHigh p.option) t ∧ t ≠ 0 ∧ t ∉ Ref.pilotTones p.option n)
    (fun t => ‖Ref.toneValue p m n t - Ref.toneValue p m' n t‖ ^ 2)]
  swap
  · intro t _ ht
    have ht : ¬ (¬ isGuard (Ref.nfft p.option) (Ref.guardLow p.option) (Ref.guardHigh p.option) t ∧ t ≠ 0 ∧ t ∉ Ref.pilotTones p.option n) := by simpa using ht
    unfold Ref.toneValue
    simp only
    by_cases g : isGuard (Ref.nfft p.option) (Ref.guardLow p.option) (Ref.guardHigh p.option) t ∨ t = 0
    · simp only [if_pos g, sub_self, norm_zero]; norm_num
    · have gp : t ∈ Ref.pilotTones p.option n := by
        by_contra hc2
        exact ht ⟨fun a => g (Or.inl a), fun a => g (Or.inr a), hc2⟩
      simp only [if_neg g, if_pos gp, sub_self, norm_zero]; norm_num
  have e : ((dataToneList (Ref.nfft p.option) (Ref.guardLow p.option) (Ref.guardHigh p.option) (Ref.pilotTones p.option n)).map
      fun t => ‖Ref.toneValue p m n t - Ref.toneValue p m' n t‖ ^ 2) =
      (dataToneList (Ref.nfft p.option) (Ref.guardLow p.option) (Ref.guardHigh p.option) (Ref.pilotTones p.option n)).map fun t =>
        (fun d => ‖Ref.dataValue p.option p.mcs (Ref.payloadStream p m) (n - Ref.headerCount p) d -
          Ref.dataValue p.option p.mcs (Ref.payloadStream p m') (n - Ref.headerCount p) d‖ ^ 2)
        ((dataToneList (Ref.nfft p.option) (Ref.guardLow p.option) (Ref.guardHigh p.option) (Ref.pilotTones p.option n)).idxOf t) := by
    apply List.map_congr_left
    intro t ht
    unfold dataToneList at ht
    have ht := (List.mem_filter.1 ht).2
    simp only [decide_eq_true_eq] at ht
    obtain ⟨g1, g2, g3⟩ := ht
    unfold Ref.toneValue
    simp only
    have g12 : ¬ (isGuard (Ref.nfft p.option) (Ref.guardLow p.option) (Ref.guardHigh p.option) t ∨ t = 0) := fun hg => hg.elim g1 g2
    have g4 : ¬ n < Ref.headerCount p := by omega
    simp only [if_neg g12, if_neg g3, if_neg g4]
  change ((dataToneList (Ref.nfft p.option) (Ref.guardLow p.option) (Ref.guardHigh p.option) (Ref.pilotTones p.option n)).map _).sum = _
  have nd : (dataToneList (Ref.nfft p.option) (Ref.guardLow p.option) (Ref.guardHigh p.option) (Ref.pilotTones p.option n)).Nodup := (C97.tones_nodup _).filter _
  rw [e, C97.map_idxOf _ nd (fun d => ‖Ref.dataValue p.option p.mcs (Ref.payloadStream p m) (n - Ref.headerCount p) d -
          Ref.dataValue p.option p.mcs (Ref.payloadStream p m') (n - Ref.headerCount p) d‖ ^ 2), hc, ← hD, S_mul, ← S_const]
  apply S_congr
  intro c _
  rw [hD]
  apply S_congr
  intro d hd
  simp only [Ref.dataValue]
  have hD0 : 0 < tonesOf p.option / Spec.spreadOf p.mcs := by omega
  rw [Nat.mul_comm c, Nat.mul_add_mod, Nat.mod_eq_of_lt hd, Nat.mul_add_div hD0, ← sub_mul, norm_mul, C91.turn_norm, mul_one]
  simp only [Ref.symbolBits, Nat.add_assoc]

/-- Distance on the tones of a payload symbol. -/
theorem payload_symbol {p : OfdmParams} (h : Supported p) (h4 : p.mcs ≤ 4) (m m' : Bits) (hl : m'.length = m.length) (n : Nat) (hn : Ref.headerCount p ≤ n) :
    ((allTones (Ref.nfft p.option)).map fun t => ‖Ref.toneValue p m n t - Ref.toneValue p m' n t‖ ^ 2).sum =
    Spec.spreadOf p.mcs * (C97.perBit (bitsOf p.mcs) * S (Ref.symbolBits p.option p.mcs) fun i =>
      neq ((Ref.payloadStream p m).getD ((n - Ref.headerCount p) * Ref.symbolBits p.option p.mcs + i) false)
        ((Ref.payloadStream p m').getD ((n - Ref.headerCount p) * Ref.symbolBits p.option p.mcs + i) false)) := by
  rw [payload_points h m m' hl n hn, ← S_scale]
  have hb : Ref.symbolBits p.option p.mcs = tonesOf p.option / Spec.spreadOf p.mcs * bitsOf p.mcs := rfl
  rw [show (S (Ref.symbolBits p.option p.mcs) fun i =>
      neq ((Ref.payloadStream p m).getD ((n - Ref.headerCount p) * Ref.symbolBits p.option p.mcs + i) false)
        ((Ref.payloadStream p m').getD ((n - Ref.headerCount p) * Ref.symbolBits p.option p.mcs + i) false)) = _ from S_mul _ _ _, ← S_scale, ← S_scale]
  apply S_congr
  intro d _
  rw [point_eq _ (low_mcs p (mem_allSupported h) h4)]

/-- Header symbols of messages of one length are equal. -/
theorem header_symbol {p : OfdmParams} (m m' : Bits) (hl : m'.length = m.length) (n : Nat) (hn : n < Ref.headerCount p) (t : Int) :
    Ref.toneValue p m n t = Ref.toneValue p m' n t := by
  unfold Ref.toneValue
  simp only [if_pos hn, hl]

/-- Parseval, for the useful part. -/
theorem useful_dist {p : OfdmParams} (h : Supported p) (m m' : Bits) (hl : m'.length = m.length) (n : Nat) (hn : n < Ref.symbolCount p m.length) :
    distSq (Rx.useful p.option (Ref.frame p m) n) (Rx.useful p.option (Ref.frame p m') n) =
      ((allTones (Ref.nfft p.option)).map fun t => ‖Ref.toneValue p m n t - Ref.toneValue p m' n t‖ ^ 2).sum := by
  obtain ⟨_, ho, _⟩ := C91.mcs_le h
  obtain ⟨h8, hN⟩ := C91.nfft_facts _ ho
  have e := C91.wave_window h8 hN (fun t => Ref.toneValue p m n t - Ref.toneValue p m' n t) 1
  simp only [norm_one, one_pow, one_mul] at e
  rw [C100.useful_frame h m n hn, C100.useful_frame h m' n (hl ▸ hn), distSq_map]
  rw [C91.energy_map] at e
  rw [C91.energy_map] at e
  rw [← e]
  congr 1
  apply List.map_congr_left
  intro k _
  rw [C97.wave_sub]

theorem frame_exact {p : OfdmParams} (h : Supported p) (h4 : p.mcs ≤ 4) (m m' : Bits) (hl : m'.length = m.length) :
    ((List.range (Ref.symbolCount p m.length)).map fun n => distSq (Rx.useful p.option (Ref.frame p m) n) (Rx.useful p.option (Ref.frame p m') n)).sum =
      Spec.spreadOf p.mcs * (C97.perBit (bitsOf p.mcs) * (hamming (Ref.payloadStream p m) (Ref.payloadStream p m') : ℕ)) := by
  change S (Ref.symbolCount p m.length) _ = _
  rw [S_congr fun n hn => useful_dist h m m' hl n hn]
  unfold Ref.symbolCount
  rw [S_add]
  have h0 : S (Ref.headerCount p) (fun n => ((allTones (Ref.nfft p.option)).map fun t => ‖Ref.toneValue p m n t - Ref.toneValue p m' n t‖ ^ 2).sum) = 0 := by
    rw [S_congr (g := fun _ => 0)]
    · rw [S_const, mul_zero]
    · intro n hn
      simp only [header_symbol m m' hl n hn, sub_self, norm_zero]
      simp
  rw [h0, zero_add, S_congr fun n _ => payload_symbol h h4 m m' hl (Ref.headerCount p + n) (by omega)]
  simp only [Nat.add_sub_cancel_left]
  rw [S_scale, S_scale, ← S_mul _ _ (fun i => neq ((Ref.payloadStream p m).getD i false) ((Ref.payloadStream p m').getD i false)), ← C97.stream_length h m,
    ← hamming_S _ _ (by rw [C97.stream_length h, C97.stream_length h, hl])]

theorem range_sum (f : Nat → ℝ) (n : Nat) : ((List.range n).map f).sum = ∑ k ∈ Finset.range n, f k := by
  induction n with
  | zero => simp
  | succ n ih => rw [List.range_succ, List.map_append, List.sum_append, ih, Finset.sum_range_succ]; simp

/-- The whole symbol, with its cyclic prefix: at most twice the tones. -/
theorem symbol_upper {p : OfdmParams} (h : Supported p) (m m' : Bits) (n : Nat) :
    distSq (Ref.symbol p m n) (Ref.symbol p m' n) ≤ 2 * ((allTones (Ref.nfft p.option)).map fun t => ‖Ref.toneValue p m n t - Ref.toneValue p m' n t‖ ^ 2).sum := by
  obtain ⟨_, ho, _⟩ := C91.mcs_le h
  obtain ⟨h8, hN⟩ := C91.nfft_facts _ ho
  have e1 := SunPhy.OfdmWindow.wave_part h8 hN (fun t => Ref.toneValue p m n t - Ref.toneValue p m' n t) (Ref.nfft p.option / 4) (by omega) (-((Ref.nfft p.option / 4 : Nat) : Int))
  have e2 := SunPhy.OfdmWindow.wave_part h8 hN (fun t => Ref.toneValue p m n t - Ref.toneValue p m' n t) (Ref.nfft p.option) le_rfl 0
  rw [C91.energy_map] at e1 e2
  unfold Ref.symbol
  simp only
  rw [distSq_map, show 5 * Ref.nfft p.option / 4 = Ref.nfft p.option / 4 + Ref.nfft p.option by omega, List.range_add, List.map_append, List.sum_append, List.map_map, two_mul]
  refine add_le_add (le_trans (le_of_eq ?_) e1) (le_trans (le_of_eq ?_) e2)
  · rw [← range_sum]
    congr 1
    apply List.map_congr_left
    intro k _
    rw [C97.wave_sub]
    congr 3
    ring
  · rw [← range_sum]
    congr 1
    apply List.map_congr_left
    intro k _
    simp only [Function.comp]
    rw [C97.wave_sub]
    congr 3
    push_cast; ring

theorem frame_bounds {p : OfdmParams} (h : Supported p) (h4 : p.mcs ≤ 4) (m m' : Bits) (hl : m'.length = m.length) :
    Spec.spreadOf p.mcs * (C97.perBit (bitsOf p.mcs) * (hamming (Ref.payloadStream p m) (Ref.payloadStream p m') : ℕ)) ≤ distSq (Ref.frame p m) (Ref.frame p m') ∧
    distSq (Ref.frame p m) (Ref.frame p m') ≤ 2 * (Spec.spreadOf p.mcs * (C97.perBit (bitsOf p.mcs) * (hamming (Ref.payloadStream p m) (Ref.payloadStream p m') : ℕ))) := by
  rw [← frame_exact h h4 m m' hl]
  have e : distSq (Ref.frame p m) (Ref.frame p m') = S (Ref.symbolCount p m.length) fun n => distSq (Ref.symbol p m n) (Ref.symbol p m' n) := by
    unfold Ref.frame
    rw [distSq_append _ _ _ _ rfl, distSq_self, zero_add, hl, distSq_flatMap _ _ _ (fun i => by simp [Ref.symbol])]
    rfl
  change S (Ref.symbolCount p m.length) _ ≤ _ ∧ _ ≤ 2 * S (Ref.symbolCount p m.length) _
  rw [e, S_congr fun n hn => useful_dist h m m' hl n hn, ← S_scale]
  exact ⟨S_le fun n _ => C97.symbol_dist h m m' n, S_le fun n _ => symbol_upper h m m' n⟩

/-- Squared distance per differing coded bit, for the modulation and coding schemes with BPSK or QPSK tones (data tones of power 1). -/
def bitDist : Nat → ℝ | 0 => 16 | 1 => 8 | 2 => 4 | 3 => 2 | 4 => 2 | _ => 0

theorem bitDist_eq (s : Nat) (hs : s ≤ 4) : (Spec.spreadOf s : ℝ) * C97.perBit (bitsOf s) = bitDist s := by
  have : s = 0 ∨ s = 1 ∨ s = 2 ∨ s = 3 ∨ s = 4 := by omega
  rcases this with rfl | rfl | rfl | rfl | rfl <;> norm_num [Spec.spreadOf, C97.perBit, bitsOf, bitDist]

/-- The squared distance of two signals on the useful parts of their first `S` symbols. -/
def usefulDist (option S : Nat) (iq iq' : List ℂ) : ℝ := ((List.range S).map fun n => distSq (Rx.useful option iq n) (Rx.useful option iq' n)).sum

/-- **C150 (exact).**  Two modulators with the same supported configuration and MCS 0..4 modulate messages of one length.  The coded and interleaved
payloads of the two calls are `x` and `x'`; the squared distance of the two signals, over the useful parts of their symbols, is exactly
16, 8, 4, 2, 2 times the number of places in which `x` and `x'` differ; over the whole signals it is between once and twice that. -/
theorem C150_exact (o o' : OfdmObj) (h : Supported o.params) (h4 : o.params.mcs ≤ 4) (hp : o'.params = o.params) (a a' : Arg) (m m' : Bits)
    (ha : checkBinaryArray a = .ok m) (ha' : checkBinaryArray a' = .ok m') (hl : m'.length = m.length)
    (iq iq' : List ℂ) (fs fs' : ℚ) (hr : ((ofdmModBitsToIQ a).call o).1 = .ok (iq, fs)) (hr' : ((ofdmModBitsToIQ a').call o').1 = .ok (iq', fs')) :
    ∃ x x', ((ofdmModBitsToIQ a).call o).2.payload_interleaved = some x ∧ ((ofdmModBitsToIQ a').call o').2.payload_interleaved = some x' ∧
      x'.length = x.length ∧
      usefulDist o.params.option (Ref.symbolCount o.params m.length) iq iq' = bitDist o.params.mcs * hamming x x' ∧
      bitDist o.params.mcs * hamming x x' ≤ distSq iq iq' ∧ distSq iq iq' ≤ 2 * (bitDist o.params.mcs * hamming x x') := by
  have h' : Supported o'.params := by rw [hp]; exact h
  refine ⟨_, _, (C87.C87_ofdm o h a m ha _ hr).interleaved, (C87.C87_ofdm o' h' a' m' ha' _ hr').interleaved, ?_⟩
  have k := (C15.C15_bitsToIQ o h a m ha).1.1 ⟨_, hr⟩
  obtain ⟨_, e, -⟩ := C67.C67_reference o h a m ha k.1 k.2
  obtain ⟨_, e', -⟩ := C67.C67_reference o' h' a' m' ha' (by rw [hl]; exact k.1) (by rw [hl]; exact k.2)
  rw [e] at hr
  rw [e'] at hr'
  have r1 := congrArg Prod.fst (Except.ok.inj hr)
  have r2 := congrArg Prod.fst (Except.ok.inj hr')
  simp only at r1 r2
  rw [← r1, ← r2, hp, ← bitDist_eq _ h4, mul_assoc]
  exact ⟨by rw [C97.stream_length h, C97.stream_length h, hl], frame_exact h h4 m m' hl, frame_bounds h h4 m m' hl⟩

/-- **C150 (attained).**  Next to every accepted message there is another one (one bit inverted; for MCS 4, the last two bits of a group of three) that is
accepted too and whose signal is, over the useful parts of the symbols, at exactly the smallest squared distance of C97: 160, 80, 40, 20, 10 for MCS 0..4;
no other message of that length is closer. -/
theorem C150_attained (o o' : OfdmObj) (h : Supported o.params) (h4 : o.params.mcs ≤ 4) (hp : o'.params = o.params) (a a' : Arg) (m : Bits) (j : Nat)
    (hj : if o.params.mcs = 4 then 3 * j + 2 < m.length else j < m.length)
    (ha : checkBinaryArray a = .ok m) (ha' : checkBinaryArray a' = .ok (flipped m (if o.params.mcs = 4 then [3 * j + 1, 3 * j + 2] else [j])))
    (iq : List ℂ) (fs : ℚ) (hr : ((ofdmModBitsToIQ a).call o).1 = .ok (iq, fs)) :
    (∃ iq' fs', ((ofdmModBitsToIQ a').call o').1 = .ok (iq', fs') ∧
      usefulDist o.params.option (Ref.symbolCount o.params m.length) iq iq' = C97.minDist o.params.mcs) ∧
    ∀ (o'' : OfdmObj) (a'' : Arg) (m'' : Bits) (iq'' : List ℂ) (fs'' : ℚ), o''.params = o.params → checkBinaryArray a'' = .ok m'' → m''.length = m.length → m'' ≠ m →
      ((ofdmModBitsToIQ a'').call o'').1 = .ok (iq'', fs'') →
      C97.minDist o.params.mcs ≤ usefulDist o.params.option (Ref.symbolCount o.params m.length) iq iq'' := by
  have bt := C97.bound_table o.params (mem_allSupported h)
  rw [bitDist_eq _ h4] at bt
  have hj' : if o.params.mcs = 4 ∨ o.params.mcs = 6 then 3 * j + 2 < m.length else j < m.length := by
    have : (o.params.mcs = 4 ∨ o.params.mcs = 6) = (o.params.mcs = 4) := by apply propext; omega
    simpa only [this] using hj
  have ha2 : checkBinaryArray a' = .ok (flipped m (if o.params.mcs = 4 ∨ o.params.mcs = 6 then [3 * j + 1, 3 * j + 2] else [j])) := by
    have : (o.params.mcs = 4 ∨ o.params.mcs = 6) = (o.params.mcs = 4) := by apply propext; omega
    simpa only [this] using ha'
  have e3 : Ref.threeQuarters o.params.mcs = true ↔ o.params.mcs = 4 ∨ o.params.mcs = 6 := by simp [Ref.threeQuarters]
  constructor
  · obtain ⟨⟨iq', fs'⟩, x, x', hr', hx, hx', hw⟩ := C149.C149_ofdm o o' h hp a a' m j hj' ha ha2 _ hr
    refine ⟨iq', fs', hr', ?_⟩
    obtain ⟨y, y', hy, hy', -, e, -⟩ := C150_exact o o' h h4 hp a a' m _ ha ha2 (C149.flipped_length _ _) iq iq' fs fs' hr hr'
    rw [hx] at hy
    rw [hx'] at hy'
    cases hy; cases hy'
    rw [e, hw, bt]
    by_cases hm : o.params.mcs = 4 ∨ o.params.mcs = 6
    · rw [if_pos hm, if_pos (e3.2 hm)]; push_cast; ring
    · rw [if_neg hm, if_neg (fun c => hm (e3.1 c))]; push_cast; ring
  · intro o'' a'' m'' iq'' fs'' hp'' ha'' hl hne hr''
    have h'' : Supported o''.params := by rw [hp'']; exact h
    obtain ⟨y, y', hy, hy', -, e, -⟩ := C150_exact o o'' h h4 hp'' a a'' m m'' ha ha'' hl iq iq'' fs fs'' hr hr''
    have q1 := (C87.C87_ofdm o h a m ha _ hr).interleaved
    have q2 := (C87.C87_ofdm o'' h'' a'' m'' ha'' _ hr'').interleaved
    rw [hy] at q1
    rw [hy'] at q2
    have q1 := Option.some.inj q1
    have q2 := Option.some.inj q2
    rw [hp''] at q2
    have hH := C97.stream_hamming h m m'' hl.symm (Ne.symm hne)
    rw [← q1, ← q2] at hH
    rw [e, bt]
    have hb : 0 ≤ bitDist o.params.mcs := by unfold bitDist; split <;> norm_num
    have hH' : ((if Ref.threeQuarters o.params.mcs then 5 else 10 : ℝ)) ≤ ((hamming y y' : Nat) : ℝ) := by
      split at hH
      · rename_i h3; rw [if_pos h3]; exact_mod_cast hH
      · rename_i h3; rw [if_neg h3]; exact_mod_cast hH
    rw [mul_comm]
    exact mul_le_mul_of_nonneg_left hH' hb

/-! ### 16-QAM -/

/-- The height of a pair of bits on an axis of the 16-QAM constellation, in units of 1/√10 (one step is 2 units). -/
def height : Bool → Bool → ℝ
  | false, false => -3 | false, true => -1 | true, true => 1 | true, false => 3

/-- The squared difference of the heights of the pairs number `i` of two streams of bits. -/
def pairDist (x x' : Bits) (i : Nat) : ℝ :=
  (height (x.getD (2 * i) false) (x.getD (2 * i + 1) false) - height (x'.getD (2 * i) false) (x'.getD (2 * i + 1) false)) ^ 2

theorem height_lower (a a' c c' : Bool) : 4 * (neq a a' + neq c c') ≤ (height a c - height a' c') ^ 2 := by
  cases a <;> cases a' <;> cases c <;> cases c' <;> norm_num [height, neq]

theorem height_upper (a a' c c' : Bool) : (height a c - height a' c') ^ 2 ≤ 36 * (neq a a' + neq c c') := by
  cases a <;> cases a' <;> cases c <;> cases c' <;> norm_num [height, neq]

theorem level_height (a c : Bool) : Ref.level a c = (height a c : ℝ) := by
  cases a <;> cases c <;> simp [Ref.level, height]

theorem point_qam (b b' : Nat → Bool) :
    ‖Ref.point 4 b - Ref.point 4 b'‖ ^ 2 = 1 / 10 * S 2 (fun i => (height (b (2 * i)) (b (2 * i + 1)) - height (b' (2 * i)) (b' (2 * i + 1))) ^ 2) := by
  have h10 : Real.sqrt 10 ^ 2 = 10 := Real.sq_sqrt (by norm_num)
  simp only [Ref.point, S, List.range_succ, List.range_zero, List.nil_append, List.cons_append, List.map_cons, List.map_nil, List.sum_cons, List.sum_nil]
  rw [← sub_div, norm_div, div_pow, Complex.norm_real, Real.norm_eq_abs, sq_abs, h10, Complex.sq_norm, Complex.normSq_apply]
  simp only [level_height, Complex.sub_re, Complex.sub_im, Complex.add_re, Complex.add_im, Complex.mul_re, Complex.mul_im, Complex.I_re, Complex.I_im, Complex.ofReal_re, Complex.ofReal_im]
  ring

theorem high_mcs : ∀ p ∈ allSupported, 5 ≤ p.mcs → bitsOf p.mcs = 4 ∧ Spec.spreadOf p.mcs = 1 := by decide +kernel

theorem frame_qam {p : OfdmParams} (h : Supported p) (h5 : 5 ≤ p.mcs) (m m' : Bits) (hl : m'.length = m.length) :
    ((List.range (Ref.symbolCount p m.length)).map fun n => distSq (Rx.useful p.option (Ref.frame p m) n) (Rx.useful p.option (Ref.frame p m') n)).sum =
      1 / 10 * S ((Ref.payloadStream p m).length / 2) (pairDist (Ref.payloadStream p m) (Ref.payloadStream p m')) := by
  obtain ⟨hb, hs⟩ := high_mcs p (mem_allSupported h) h5
  change S (Ref.symbolCount p m.length) _ = _
  rw [S_congr fun n hn => useful_dist h m m' hl n hn]
  unfold Ref.symbolCount
  rw [S_add]
  have h0 : S (Ref.headerCount p) (fun n => ((allTones (Ref.nfft p.option)).map fun t => ‖Ref.toneValue p m n t - Ref.toneValue p m' n t‖ ^ 2).sum) = 0 := by
    rw [S_congr (g := fun _ => 0)]
    · rw [S_const, mul_zero]
    · intro n hn
      simp only [header_symbol m m' hl n hn, sub_self, norm_zero]
      simp
  have hB : Ref.symbolBits p.option p.mcs = tonesOf p.option * 4 := by
    have : Ref.symbolBits p.option p.mcs = tonesOf p.option / Spec.spreadOf p.mcs * bitsOf p.mcs := rfl
    rw [this, hb, hs, Nat.div_one]
  rw [h0, zero_add, S_congr fun n _ => payload_points h m m' hl (Ref.headerCount p + n) (by omega)]
  simp only [Nat.add_sub_cancel_left, hs, Nat.div_one, Nat.cast_one, one_mul, hb, hB]
  rw [C97.stream_length h m, hB, show ∀ k, k * (tonesOf p.option * 4) / 2 = k * (tonesOf p.option * 2) from fun k => by
    rw [show k * (tonesOf p.option * 4) = k * (tonesOf p.option * 2) * 2 by ring, Nat.mul_div_cancel _ (by omega)], hs, Nat.mul_one]
  rw [show S (Ref.groups p m.length * (tonesOf p.option * 2)) (pairDist (Ref.payloadStream p m) (Ref.payloadStream p m')) = _ from S_mul _ _ _, ← S_scale]
  apply S_congr
  intro n _
  rw [show S (tonesOf p.option * 2) (fun j => pairDist (Ref.payloadStream p m) (Ref.payloadStream p m') (n * (tonesOf p.option * 2) + j)) = _ from S_mul _ _ _, ← S_scale]
  apply S_congr
  intro d _
  rw [point_qam]
  congr 1
  apply S_congr
  intro i _
  unfold pairDist
  rw [show 2 * (n * (tonesOf p.option * 2) + (d * 2 + i)) = n * (tonesOf p.option * 4) + (d * 4 + 2 * i) by ring]
  simp only [Nat.add_assoc]

theorem pairs_bounds (x x' : Bits) (hl : x'.length = x.length) (h2 : x.length % 2 = 0) :
    2 / 5 * (hamming x x' : ℕ) ≤ 1 / 10 * S (x.length / 2) (pairDist x x') ∧ 1 / 10 * S (x.length / 2) (pairDist x x') ≤ 18 / 5 * (hamming x x' : ℕ) := by
  have e : ((hamming x x' : ℕ) : ℝ) = S (x.length / 2) (fun i => neq (x.getD (2 * i) false) (x'.getD (2 * i) false) + neq (x.getD (2 * i + 1) false) (x'.getD (2 * i + 1) false)) := by
    rw [hamming_S x x' hl.symm]
    conv_lhs => rw [show x.length = x.length / 2 * 2 by omega]
    rw [S_mul]
    apply S_congr
    intro i _
    simp only [S, List.range_succ, List.range_zero, List.nil_append, List.cons_append, List.map_cons, List.map_nil, List.sum_cons, List.sum_nil, Nat.mul_comm i 2, Nat.add_zero, add_zero]
  rw [e]
  constructor
  · have := S_le (n := x.length / 2) (f := fun i => 4 * (neq (x.getD (2 * i) false) (x'.getD (2 * i) false) + neq (x.getD (2 * i + 1) false) (x'.getD (2 * i + 1) false))) (g := pairDist x x') fun i _ => height_lower _ _ _ _
    rw [S_scale] at this
    linarith
  · have := S_le (n := x.length / 2) (f := pairDist x x') (g := fun i => 36 * (neq (x.getD (2 * i) false) (x'.getD (2 * i) false) + neq (x.getD (2 * i + 1) false) (x'.getD (2 * i + 1) false))) fun i _ => height_upper _ _ _ _
    rw [S_scale] at this
    linarith

/-- Whole symbols lie between once and twice their useful parts. -/
theorem frame_between {p : OfdmParams} (h : Supported p) (m m' : Bits) (hl : m'.length = m.length) :
    usefulDist p.option (Ref.symbolCount p m.length) (Ref.frame p m) (Ref.frame p m') ≤ distSq (Ref.frame p m) (Ref.frame p m') ∧
    distSq (Ref.frame p m) (Ref.frame p m') ≤ 2 * usefulDist p.option (Ref.symbolCount p m.length) (Ref.frame p m) (Ref.frame p m') := by
  have e : distSq (Ref.frame p m) (Ref.frame p m') = S (Ref.symbolCount p m.length) fun n => distSq (Ref.symbol p m n) (Ref.symbol p m' n) := by
    unfold Ref.frame
    rw [distSq_append _ _ _ _ rfl, distSq_self, zero_add, hl, distSq_flatMap _ _ _ (fun i => by simp [Ref.symbol])]
    rfl
  change S (Ref.symbolCount p m.length) _ ≤ _ ∧ _ ≤ 2 * S (Ref.symbolCount p m.length) _
  rw [e, S_congr fun n hn => useful_dist h m m' hl n hn, ← S_scale]
  exact ⟨S_le fun n _ => C97.symbol_dist h m m' n, S_le fun n _ => symbol_upper h m m' n⟩

/-- **C150 (16-QAM).**  The same for MCS 5 and 6.  Over the useful parts of the symbols the squared distance is exactly one tenth of the sum, over the pairs
of bits of the coded and interleaved payloads `x` and `x'`, of the squared differences of their heights (-3, -1, 1, 3 for 00, 01, 11, 10); this is between
2/5 and 18/5 per differing bit; over the whole signals it is between once and twice that. -/
theorem C150_sixteen (o o' : OfdmObj) (h : Supported o.params) (h5 : 5 ≤ o.params.mcs) (hp : o'.params = o.params) (a a' : Arg) (m m' : Bits)
    (ha : checkBinaryArray a = .ok m) (ha' : checkBinaryArray a' = .ok m') (hl : m'.length = m.length)
    (iq iq' : List ℂ) (fs fs' : ℚ) (hr : ((ofdmModBitsToIQ a).call o).1 = .ok (iq, fs)) (hr' : ((ofdmModBitsToIQ a').call o').1 = .ok (iq', fs')) :
    ∃ x x', ((ofdmModBitsToIQ a).call o).2.payload_interleaved = some x ∧ ((ofdmModBitsToIQ a').call o').2.payload_interleaved = some x' ∧
      x'.length = x.length ∧ x.length % 4 = 0 ∧
      usefulDist o.params.option (Ref.symbolCount o.params m.length) iq iq' = ((List.range (x.length / 2)).map (pairDist x x')).sum / 10 ∧
      2 / 5 * hamming x x' ≤ usefulDist o.params.option (Ref.symbolCount o.params m.length) iq iq' ∧
      usefulDist o.params.option (Ref.symbolCount o.params m.length) iq iq' ≤ 18 / 5 * hamming x x' ∧
      usefulDist o.params.option (Ref.symbolCount o.params m.length) iq iq' ≤ distSq iq iq' ∧
      distSq iq iq' ≤ 2 * usefulDist o.params.option (Ref.symbolCount o.params m.length) iq iq' := by
  have h' : Supported o'.params := by rw [hp]; exact h
  refine ⟨_, _, (C87.C87_ofdm o h a m ha _ hr).interleaved, (C87.C87_ofdm o' h' a' m' ha' _ hr').interleaved, ?_⟩
  have k := (C15.C15_bitsToIQ o h a m ha).1.1 ⟨_, hr⟩
  obtain ⟨_, e, -⟩ := C67.C67_reference o h a m ha k.1 k.2
  obtain ⟨_, e', -⟩ := C67.C67_reference o' h' a' m' ha' (by rw [hl]; exact k.1) (by rw [hl]; exact k.2)
  rw [e] at hr
  rw [e'] at hr'
  have r1 := congrArg Prod.fst (Except.ok.inj hr)
  have r2 := congrArg Prod.fst (Except.ok.inj hr')
  simp only at r1 r2
  rw [← r1, ← r2, hp]
  have q := frame_qam h h5 m m' hl
  have hb := (high_mcs _ (mem_allSupported h) h5)
  have hlen : (Ref.payloadStream o.params m').length = (Ref.payloadStream o.params m).length := by rw [C97.stream_length h, C97.stream_length h, hl]
  have h4 : (Ref.payloadStream o.params m).length % 4 = 0 := by
    have : Ref.symbolBits o.params.option o.params.mcs = tonesOf o.params.option / Spec.spreadOf o.params.mcs * bitsOf o.params.mcs := rfl
    rw [C97.stream_length h, this, hb.1, ← Nat.mul_assoc]
    exact Nat.mul_mod_left _ _
  have b := pairs_bounds _ _ hlen (by omega)
  rw [← q] at b
  refine ⟨hlen, h4, ?_, b.1, b.2, frame_between h m m' hl⟩
  refine q.trans ?_
  unfold S
  ring

/-! Non-vacuity: supported configurations with MCS 0, 4, 5 and 6, and for each supported configuration two accepted messages that differ in the second and third bit. -/
example : Supported ⟨0, 1, 0, 0⟩ ∧ Supported ⟨4, 2, 1, 2⟩ ∧ Supported ⟨5, 2, 1, 2⟩ ∧ Supported ⟨6, 4, 1, 2⟩ ∧
    ∀ p, Supported p → ∃ r r', ((ofdmModBitsToIQ (bitsArg (List.replicate 16 true))).call { params := p }).1 = .ok r ∧
      ((ofdmModBitsToIQ (bitsArg (flipped (List.replicate 16 true) [1, 2]))).call { params := p }).1 = .ok r' := by
  refine ⟨⟨by decide, by decide, by decide⟩, ⟨by decide, by decide, by decide⟩, ⟨by decide, by decide, by decide⟩, ⟨by decide, by decide, by decide⟩, fun p hp => ?_⟩
  obtain ⟨o', e, -⟩ := bitsToIQ_ok (o := { params := p }) hp (C03.C03_identity (List.replicate 16 true) (by simp)) (by simp) (by simp)
  obtain ⟨o'', e', -⟩ := bitsToIQ_ok (o := { params := p }) hp (C03.C03_identity (flipped (List.replicate 16 true) [1, 2]) (by decide)) (by decide) (by decide)
  exact ⟨_, _, by rw [e], by rw [e']⟩

/-! ### 16-QAM: the smallest distance is attained -/

/-- Two streams of bits in which a first bit of a pair is only changed next to a one: every changed bit costs the least possible. -/
theorem pairs_least (x x' : Bits) (hl : x'.length = x.length) (h2 : x.length % 2 = 0)
    (hc : ∀ i, x.getD (2 * i) false ≠ x'.getD (2 * i) false → x.getD (2 * i + 1) false = true ∧ x'.getD (2 * i + 1) false = true) :
    1 / 10 * S (x.length / 2) (pairDist x x') = 2 / 5 * (hamming x x' : ℕ) := by
  have e : ((hamming x x' : ℕ) : ℝ) = S (x.length / 2) (fun i => neq (x.getD (2 * i) false) (x'.getD (2 * i) false) + neq (x.getD (2 * i + 1) false) (x'.getD (2 * i + 1) false)) := by
    rw [hamming_S x x' hl.symm]
    conv_lhs => rw [show x.length = x.length / 2 * 2 by omega]
    rw [S_mul]
    apply S_congr
    intro i _
    simp only [S, List.range_succ, List.range_zero, List.nil_append, List.cons_append, List.map_cons, List.map_nil, List.sum_cons, List.sum_nil, Nat.mul_comm i 2, Nat.add_zero, add_zero]
  rw [e, ← S_scale, ← S_scale]
  apply S_congr
  intro i _
  have := hc i
  unfold pairDist
  revert this
  generalize x.getD (2 * i) false = u
  generalize x'.getD (2 * i) false = u'
  generalize x.getD (2 * i + 1) false = v
  generalize x'.getD (2 * i + 1) false = v'
  cases u <;> cases u' <;> cases v <;> cases v' <;> norm_num [height, neq]

theorem interleave_getD (K R s : Nat) (c : Bits) (q : Nat) : (Ref.interleave K R s c).getD q false =
    if q < c.length ∧ (q / K + 1) * K ≤ c.length then c.getD (q / K * K + Ref.source K R s (q % K)) false else false := by
  unfold Ref.interleave
  rw [List.getD_eq_getElem?_getD, List.getElem?_map]
  by_cases hq : q < c.length
  · rw [List.getElem?_range hq]
    simp only [Option.map_some, Option.getD_some, hq, true_and]
  · rw [List.getElem?_eq_none (by rw [List.length_range]; omega), if_neg (fun h => hq h.1)]; rfl

/-- Changes confined to the first block of the interleaver. -/
theorem block_pairs {K R s n : Nat} {c c' : Bits} (hl : c'.length = c.length) (hn : n ≤ K) (hK : K % 2 = 0) (hK0 : 0 < K) (e : Nat → Bool)
    (he : ∀ q, xor (c.getD q false) (c'.getD q false) = e q) (hout : ∀ q, n ≤ q → e q = false) (one : Nat → Prop)
    (hsrc : ∀ i < K / 2, e (Ref.source K R s (2 * i)) = true → one (Ref.source K R s (2 * i + 1)) ∧ e (Ref.source K R s (2 * i + 1)) = false)
    (hone : ∀ q, one q → c.getD q false = true) (i : Nat)
    (hd : (Ref.interleave K R s c).getD (2 * i) false ≠ (Ref.interleave K R s c').getD (2 * i) false) :
    (Ref.interleave K R s c).getD (2 * i + 1) false = true ∧ (Ref.interleave K R s c').getD (2 * i + 1) false = true := by
  rw [interleave_getD, interleave_getD, hl] at hd
  by_cases hq : 2 * i < c.length ∧ (2 * i / K + 1) * K ≤ c.length
  · rw [if_pos hq, if_pos hq] at hd
    have hx : e (2 * i / K * K + Ref.source K R s (2 * i % K)) = true := by
      rw [← he]
      revert hd
      cases c.getD (2 * i / K * K + Ref.source K R s (2 * i % K)) false <;> cases c'.getD (2 * i / K * K + Ref.source K R s (2 * i % K)) false <;> simp
    have hlt : 2 * i < K := by
      by_contra hge
      have h1 : 1 ≤ 2 * i / K := (Nat.one_le_div_iff hK0).2 (by omega)
      have h2 : K ≤ 2 * i / K * K := Nat.le_mul_of_pos_left K h1
      rw [hout _ (by omega)] at hx
      cases hx
    have d0 : 2 * i / K = 0 := Nat.div_eq_of_lt hlt
    have d1 : (2 * i + 1) / K = 0 := Nat.div_eq_of_lt (by omega)
    rw [d0, Nat.mod_eq_of_lt hlt, Nat.zero_mul, Nat.zero_add] at hx
    obtain ⟨k1, k2⟩ := hsrc i (by omega) hx
    rw [d0] at hq
    rw [interleave_getD, interleave_getD, hl, d1, Nat.mod_eq_of_lt (by omega : 2 * i + 1 < K), if_pos (by omega), if_pos (by omega), Nat.zero_mul, Nat.zero_add]
    have k3 := hone _ k1
    have k4 := he (Ref.source K R s (2 * i + 1))
    rw [k2, k3] at k4
    exact ⟨k3, by simpa using k4⟩
  · rw [if_neg hq, if_neg hq] at hd
    exact absurd rfl hd

theorem half_source : ∀ K ∈ [192, 96, 48], ∀ i < K / 2,
    (if 12 ≤ Ref.source K 12 2 (2 * i) then C149.response [true] (Ref.source K 12 2 (2 * i) - 12) else false) = true →
      (Ref.source K 12 2 (2 * i + 1) = 36 ∨ Ref.source K 12 2 (2 * i + 1) = 37) ∧
      (if 12 ≤ Ref.source K 12 2 (2 * i + 1) then C149.response [true] (Ref.source K 12 2 (2 * i + 1) - 12) else false) = false := by decide +kernel

theorem three_source : ∀ K ∈ [96, 48], ∀ i < K / 2,
    (if 12 ≤ Ref.source K 12 2 (2 * i) then C149.response34 (Ref.source K 12 2 (2 * i) - 12) else false) = false := by decide +kernel

theorem sizes5 : ∀ p ∈ allSupported, p.mcs = 5 → depth p.interleaving p.option p.mcs ∈ [192, 96, 48] ∧ rows p.mcs = 12 ∧ step p.mcs = 2 := by decide +kernel
theorem sizes6 : ∀ p ∈ allSupported, p.mcs = 6 → depth p.interleaving p.option p.mcs ∈ [96, 48] ∧ rows p.mcs = 12 ∧ step p.mcs = 2 := by decide +kernel

theorem stream_five {p : OfdmParams} (h : Supported p) (h5 : p.mcs = 5) (m : Bits) (hm : 24 ≤ m.length)
    (h36 : (Ref.conv (Ref.payload p m)).getD 36 false = true) (h37 : (Ref.conv (Ref.payload p m)).getD 37 false = true) (i : Nat)
    (hd : (Ref.payloadStream p m).getD (2 * i) false ≠ (Ref.payloadStream p (flipped m [6])).getD (2 * i) false) :
    (Ref.payloadStream p m).getD (2 * i + 1) false = true ∧ (Ref.payloadStream p (flipped m [6])).getD (2 * i + 1) false = true := by
  obtain ⟨hK, hR, hs⟩ := sizes5 p (mem_allSupported h) h5
  have ht : Ref.threeQuarters p.mcs = false := by rw [h5]; rfl
  have hz := C149.payload_size h m
  have hlen : (Ref.payload p (flipped m [6])).length = (Ref.payload p m).length := by simp [Ref.payload, C149.flipped_length]
  have hdf := C149.payload_differ (p := p) (C149.flipped_length m [6]) (by omega) (C149.flipped_one (m := m) (j := 6) (by omega))
  unfold Ref.payloadStream at hd ⊢
  rw [ht, hR, hs] at hd ⊢
  simp only [Bool.false_eq_true, if_false] at hd ⊢
  have hb := half_source _ hK
  have hKb : 48 ≤ depth p.interleaving p.option p.mcs ∧ depth p.interleaving p.option p.mcs % 2 = 0 := by
    revert hK; clear * -; generalize depth p.interleaving p.option p.mcs = K; intro hK; simp at hK; omega
  refine block_pairs (n := 26) (by simp [Ref.conv, hlen]) (by omega) hKb.2 (by omega)
    (fun q => if 2 * 6 ≤ q then C149.response [true] (q - 2 * 6) else false) (fun q => C149.conv_differ hlen (by simp; omega) hdf q) (fun q hq => ?_)
    (fun q => q = 36 ∨ q = 37) hb ?_ i hd
  · simp only [if_pos (by omega : 2 * 6 ≤ q)]
    exact C149.response_end _ _ (by simp; omega)
  · rintro q (rfl | rfl)
    · exact h36
    · exact h37

theorem conv34_differ {x x' : Bits} {j : Nat} (hl : x'.length = x.length) (h3 : x.length % 3 = 0) (hj : 3 * j + 9 ≤ x.length) (h : C149.Differ x x' [false, true, true] (3 * j)) (q : Nat) :
    xor ((Ref.conv34 x).getD q false) ((Ref.conv34 x').getD q false) = if 4 * j ≤ q then C149.response34 (q - 4 * j) else false := by
  have hlt : ∀ r, [0, 1, 2, 5].getD (r % 4) 0 ≤ 5 := by
    intro r
    have : r % 4 < 4 := Nat.mod_lt _ (by decide)
    generalize r % 4 = u at *
    revert u; decide
  rw [C149.conv34_getD, C149.conv34_getD, hl]
  by_cases hr : q < 4 * x.length / 3
  · rw [if_pos hr, if_pos hr, C149.conv_differ hl (by simpa using hj) h]
    by_cases h4 : 4 * j ≤ q
    · rw [if_pos h4, if_pos (by omega)]
      unfold C149.response34
      rw [show (q - 4 * j) % 4 = q % 4 by omega]
      congr 1
      omega
    · rw [if_neg h4, if_neg]
      have := hlt q
      omega
  · rw [if_neg hr, if_neg hr, if_pos (by omega)]
    unfold C149.response34
    rw [C149.response_end _ _ (by simp only [List.length_cons, List.length_nil]; omega)]
    rfl

theorem stream_six {p : OfdmParams} (h : Supported p) (h6 : p.mcs = 6) (m : Bits) (hm : 16 ≤ m.length) (i : Nat)
    (hd : (Ref.payloadStream p m).getD (2 * i) false ≠ (Ref.payloadStream p (flipped m [10, 11])).getD (2 * i) false) :
    (Ref.payloadStream p m).getD (2 * i + 1) false = true ∧ (Ref.payloadStream p (flipped m [10, 11])).getD (2 * i + 1) false = true := by
  obtain ⟨hK, hR, hs⟩ := sizes6 p (mem_allSupported h) h6
  have ht : Ref.threeQuarters p.mcs = true := by rw [h6]; rfl
  have hz := C149.payload_size h m
  have hlen : (Ref.payload p (flipped m [10, 11])).length = (Ref.payload p m).length := by simp [Ref.payload, C149.flipped_length]
  have hdf := C149.payload_differ (p := p) (C149.flipped_length m [10, 11]) (by omega) (C149.flipped_group (m := m) (j := 3) (by omega))
  unfold Ref.payloadStream at hd ⊢
  rw [ht, hR, hs] at hd ⊢
  simp only [if_true] at hd ⊢
  have hb := three_source _ hK
  have hKb : 48 ≤ depth p.interleaving p.option p.mcs ∧ depth p.interleaving p.option p.mcs % 2 = 0 := by
    revert hK; clear * -; generalize depth p.interleaving p.option p.mcs = K; intro hK; simp at hK; omega
  refine block_pairs (n := 24) (by simp [Ref.conv34, hlen]) (by omega) hKb.2 (by omega)
    (fun q => if 4 * 3 ≤ q then C149.response34 (q - 4 * 3) else false) (fun q => conv34_differ hlen (hz.2 ht) (by omega) hdf q) (fun q hq => ?_)
    (fun _ => False) (fun i hi hx => ?_) (fun q hq => hq.elim) i hd
  · simp only [if_pos (by omega : 4 * 3 ≤ q)]
    unfold C149.response34
    rw [C149.response_end _ _ (by simp only [List.length_cons, List.length_nil]; omega)]
  · have := hb i hi
    rw [show (4 * 3 : Nat) = 12 from rfl, this] at hx
    cases hx

/-- Next to every message of 24 bits there are messages, with bits 17 and 18 chosen suitably, whose code bits 36 and 37 are as wanted. -/
theorem choose_bits {p : OfdmParams} (h : Supported p) (m : Bits) (hm : 24 ≤ m.length) (t w : Bool) :
    ∃ B ∈ [[], [17], [18], [17, 18]], (Ref.conv (Ref.payload p (flipped m B))).getD 36 false = t ∧ (Ref.conv (Ref.payload p (flipped m B))).getD 37 false = w := by
  have hz := C149.payload_size h m
  have key : ∀ u v : Bool, ∀ B : List Nat, (∀ i, decide (i ∈ B) = if 17 ≤ i then [u, v].getD (i - 17) false else false) →
      (Ref.conv (Ref.payload p (flipped m B))).getD 36 false = xor ((Ref.conv (Ref.payload p m)).getD 36 false) v ∧
      (Ref.conv (Ref.payload p (flipped m B))).getD 37 false = xor ((Ref.conv (Ref.payload p m)).getD 37 false) (xor v u) := by
    intro u v B hB
    have hlen : (Ref.payload p (flipped m B)).length = (Ref.payload p m).length := by simp [Ref.payload, C149.flipped_length]
    have hdf : C149.Differ m (flipped m B) [u, v] 17 := by
      intro i
      rw [C149.flipped_differ, ← hB i]
      by_cases hi : i < m.length
      · simp [hi]
      · have := hB i
        rw [if_pos (by omega)] at this
        rw [this, List.getD_eq_getElem?_getD, List.getElem?_eq_none (by simp; omega)]
        simp [hi]
    have hdp := C149.payload_differ (p := p) (C149.flipped_length m B) (by omega) hdf
    have c1 := C149.conv_differ hlen (by simp; omega) hdp 36
    have c2 := C149.conv_differ hlen (by simp; omega) hdp 37
    have r1 : C149.response [u, v] 2 = v := by cases u <;> cases v <;> rfl
    have r2 : C149.response [u, v] 3 = xor v u := by cases u <;> cases v <;> rfl
    rw [if_pos (by omega), show 36 - 2 * 17 = 2 from rfl, r1] at c1
    rw [if_pos (by omega), show 37 - 2 * 17 = 3 from rfl, r2] at c2
    constructor
    · rw [← c1]; simp
    · rw [← c2]; simp
  have k00 := key false false [] (fun i => by
    by_cases h : 17 ≤ i
    · obtain ⟨d, rfl⟩ := Nat.exists_eq_add_of_le h
      match d with
      | 0 => rfl
      | 1 => rfl
      | d + 2 => simp
    · simp [h])
  have k10 := key true false [17] (fun i => by
    by_cases h : 17 ≤ i
    · obtain ⟨d, rfl⟩ := Nat.exists_eq_add_of_le h
      match d with
      | 0 => rfl
      | 1 => rfl
      | d + 2 => simp
    · simp [h]; omega)
  have k01 := key false true [18] (fun i => by
    by_cases h : 17 ≤ i
    · obtain ⟨d, rfl⟩ := Nat.exists_eq_add_of_le h
      match d with
      | 0 => rfl
      | 1 => rfl
      | d + 2 => simp; omega
    · simp [h]; omega)
  have k11 := key true true [17, 18] (fun i => by
    by_cases h : 17 ≤ i
    · obtain ⟨d, rfl⟩ := Nat.exists_eq_add_of_le h
      match d with
      | 0 => rfl
      | 1 => rfl
      | d + 2 => simp; omega
    · simp [h]; omega)
  revert k00 k10 k01 k11
  generalize (Ref.conv (Ref.payload p m)).getD 36 false = e1
  generalize (Ref.conv (Ref.payload p m)).getD 37 false = e2
  intro k00 k10 k01 k11
  have : (xor e1 t = false ∧ xor e2 w = false) ∨ (xor e1 t = false ∧ xor e2 w = true) ∨ (xor e1 t = true ∧ xor e2 w = true) ∨ (xor e1 t = true ∧ xor e2 w = false) := by
    cases xor e1 t <;> cases xor e2 w <;> simp
  rcases this with ⟨q1, q2⟩ | ⟨q1, q2⟩ | ⟨q1, q2⟩ | ⟨q1, q2⟩
  · exact ⟨[], by simp, by rw [k00.1]; revert q1; clear * -; cases e1 <;> cases t <;> simp, by rw [k00.2]; revert q2; clear * -; cases e2 <;> cases w <;> simp⟩
  · exact ⟨[17], by simp, by rw [k10.1]; revert q1; clear * -; cases e1 <;> cases t <;> simp, by rw [k10.2]; revert q2; clear * -; cases e2 <;> cases w <;> simp⟩
  · exact ⟨[18], by simp, by rw [k01.1]; revert q1; clear * -; cases e1 <;> cases t <;> simp, by rw [k01.2]; revert q2; clear * -; cases e2 <;> cases w <;> simp⟩
  · exact ⟨[17, 18], by simp, by rw [k11.1]; revert q1; clear * -; cases e1 <;> cases t <;> simp, by rw [k11.2]; revert q2; clear * -; cases e2 <;> cases w <;> simp⟩

theorem frame_least {p : OfdmParams} (h : Supported p) (h5 : 5 ≤ p.mcs) (m m' : Bits) (hl : m'.length = m.length) (hne : m' ≠ m) :
    C97.minDist p.mcs ≤ usefulDist p.option (Ref.symbolCount p m.length) (Ref.frame p m) (Ref.frame p m') := by
  have q := frame_qam h h5 m m' hl
  have hb := (high_mcs _ (mem_allSupported h) h5)
  have hlen : (Ref.payloadStream p m').length = (Ref.payloadStream p m).length := by rw [C97.stream_length h, C97.stream_length h, hl]
  have h4 : (Ref.payloadStream p m).length % 4 = 0 := by
    have : Ref.symbolBits p.option p.mcs = tonesOf p.option / Spec.spreadOf p.mcs * bitsOf p.mcs := rfl
    rw [C97.stream_length h, this, hb.1, ← Nat.mul_assoc]
    exact Nat.mul_mod_left _ _
  have b := (pairs_bounds _ _ hlen (by omega)).1
  rw [← q] at b
  have hH := C97.stream_hamming h m m' hl.symm (Ne.symm hne)
  rw [C97.bound_table p (mem_allSupported h), hb.1, hb.2]
  refine le_trans ?_ b
  have hH' : ((if Ref.threeQuarters p.mcs then 5 else 10 : ℝ)) ≤ ((hamming (Ref.payloadStream p m) (Ref.payloadStream p m') : Nat) : ℝ) := by
    split at hH
    · rename_i h3; rw [if_pos h3]; exact_mod_cast hH
    · rename_i h3; rw [if_neg h3]; exact_mod_cast hH
  have : C97.perBit 4 = 2 / 5 := rfl
  rw [this]
  push_cast
  linarith

theorem frame_attained {p : OfdmParams} (h : Supported p) (h5 : 5 ≤ p.mcs) (m m' : Bits) (hl : m'.length = m.length)
    (hH : hamming (Ref.payloadStream p m) (Ref.payloadStream p m') = if Ref.threeQuarters p.mcs then 5 else 10)
    (hc : ∀ i, (Ref.payloadStream p m).getD (2 * i) false ≠ (Ref.payloadStream p m').getD (2 * i) false →
      (Ref.payloadStream p m).getD (2 * i + 1) false = true ∧ (Ref.payloadStream p m').getD (2 * i + 1) false = true) :
    usefulDist p.option (Ref.symbolCount p m.length) (Ref.frame p m) (Ref.frame p m') = C97.minDist p.mcs := by
  have q := frame_qam h h5 m m' hl
  have hb := (high_mcs _ (mem_allSupported h) h5)
  have hlen : (Ref.payloadStream p m').length = (Ref.payloadStream p m).length := by rw [C97.stream_length h, C97.stream_length h, hl]
  have h4 : (Ref.payloadStream p m).length % 4 = 0 := by
    have : Ref.symbolBits p.option p.mcs = tonesOf p.option / Spec.spreadOf p.mcs * bitsOf p.mcs := rfl
    rw [C97.stream_length h, this, hb.1, ← Nat.mul_assoc]
    exact Nat.mul_mod_left _ _
  rw [pairs_least _ _ hlen (by omega) hc, hH] at q
  rw [C97.bound_table p (mem_allSupported h), hb.1, hb.2]
  refine Eq.trans q ?_
  have : C97.perBit 4 = 2 / 5 := rfl
  rw [this]
  split <;> push_cast <;> ring

/-- **C150 (16-QAM, least).**  MCS 5 and 6: the signals of two different accepted messages of one length are at squared distance at least 4 and 2 on the
useful parts of the symbols. -/
theorem C150_least (o o' : OfdmObj) (h : Supported o.params) (h5 : 5 ≤ o.params.mcs) (hp : o'.params = o.params) (a a' : Arg) (m m' : Bits)
    (ha : checkBinaryArray a = .ok m) (ha' : checkBinaryArray a' = .ok m') (hl : m'.length = m.length) (hne : m' ≠ m)
    (iq iq' : List ℂ) (fs fs' : ℚ) (hr : ((ofdmModBitsToIQ a).call o).1 = .ok (iq, fs)) (hr' : ((ofdmModBitsToIQ a').call o').1 = .ok (iq', fs')) :
    C97.minDist o.params.mcs ≤ usefulDist o.params.option (Ref.symbolCount o.params m.length) iq iq' := by
  have h' : Supported o'.params := by rw [hp]; exact h
  have k := (C15.C15_bitsToIQ o h a m ha).1.1 ⟨_, hr⟩
  obtain ⟨_, e, -⟩ := C67.C67_reference o h a m ha k.1 k.2
  obtain ⟨_, e', -⟩ := C67.C67_reference o' h' a' m' ha' (by rw [hl]; exact k.1) (by rw [hl]; exact k.2)
  rw [e] at hr
  rw [e'] at hr'
  have r1 := congrArg Prod.fst (Except.ok.inj hr)
  have r2 := congrArg Prod.fst (Except.ok.inj hr')
  simp only at r1 r2
  rw [← r1, ← r2, hp]
  exact frame_least h h5 m m' hl hne

/-- **C150 (MCS 6, attained).**  Next to every accepted message of at least two octets: inverting its bits 10 and 11 (counted from 0) gives an accepted
message whose signal is at exactly the smallest distance, 2, on the useful parts of the symbols. -/
theorem C150_six (o o' : OfdmObj) (h : Supported o.params) (h6 : o.params.mcs = 6) (hp : o'.params = o.params) (a a' : Arg) (m : Bits) (hm : 16 ≤ m.length)
    (ha : checkBinaryArray a = .ok m) (ha' : checkBinaryArray a' = .ok (flipped m [10, 11]))
    (iq : List ℂ) (fs : ℚ) (hr : ((ofdmModBitsToIQ a).call o).1 = .ok (iq, fs)) :
    ∃ iq' fs', ((ofdmModBitsToIQ a').call o').1 = .ok (iq', fs') ∧ usefulDist o.params.option (Ref.symbolCount o.params m.length) iq iq' = 2 := by
  have h' : Supported o'.params := by rw [hp]; exact h
  have k := (C15.C15_bitsToIQ o h a m ha).1.1 ⟨_, hr⟩
  obtain ⟨_, e, -⟩ := C67.C67_reference o h a m ha k.1 k.2
  obtain ⟨_, e', -⟩ := C67.C67_reference o' h' a' _ ha' (by rw [C149.flipped_length]; exact k.1) (by rw [C149.flipped_length]; exact k.2)
  rw [e] at hr
  have r1 := congrArg Prod.fst (Except.ok.inj hr)
  simp only at r1
  refine ⟨_, _, by rw [e'], ?_⟩
  rw [← r1, hp]
  have ht : Ref.threeQuarters o.params.mcs = true := by rw [h6]; rfl
  rw [frame_attained h (by omega) m _ (C149.flipped_length _ _) ?_ (stream_six h h6 m hm), h6]
  · rfl
  · rw [C149.stream_hamming h _ _ (C149.flipped_length _ _).symm, ht, if_pos rfl]
    exact (C149.code_weight h m 3).2 (Or.inr h6) (by omega)

/-- **C150 (MCS 5, attained).**  Next to every accepted message of at least three octets: after inverting suitable ones of its bits 17 and 18 (possibly none), inverting
bit 6 gives another accepted message, and the two signals are at exactly the smallest distance, 4, on the useful parts of the symbols. -/
theorem C150_five (o o' : OfdmObj) (h : Supported o.params) (h5 : o.params.mcs = 5) (hp : o'.params = o.params) (a : Arg) (m : Bits) (hm : 24 ≤ m.length)
    (ha : checkBinaryArray a = .ok m) (r : List ℂ × ℚ) (hr : ((ofdmModBitsToIQ a).call o).1 = .ok r) :
    ∃ B ∈ [[], [17], [18], [17, 18]], ∀ a₁ a₂, checkBinaryArray a₁ = .ok (flipped m B) → checkBinaryArray a₂ = .ok (flipped (flipped m B) [6]) →
      ∃ iq fs iq' fs', ((ofdmModBitsToIQ a₁).call o).1 = .ok (iq, fs) ∧ ((ofdmModBitsToIQ a₂).call o').1 = .ok (iq', fs') ∧
        usefulDist o.params.option (Ref.symbolCount o.params m.length) iq iq' = 4 := by
  have h' : Supported o'.params := by rw [hp]; exact h
  have k := (C15.C15_bitsToIQ o h a m ha).1.1 ⟨_, hr⟩
  obtain ⟨B, hB, o1, o2⟩ := choose_bits h m hm true true
  refine ⟨B, hB, fun a₁ a₂ ha₁ ha₂ => ?_⟩
  obtain ⟨_, e, -⟩ := C67.C67_reference o h a₁ _ ha₁ (by rw [C149.flipped_length]; exact k.1) (by rw [C149.flipped_length]; exact k.2)
  obtain ⟨_, e', -⟩ := C67.C67_reference o' h' a₂ _ ha₂ (by rw [C149.flipped_length, C149.flipped_length]; exact k.1) (by rw [C149.flipped_length, C149.flipped_length]; exact k.2)
  refine ⟨_, _, _, _, by rw [e], by rw [e'], ?_⟩
  rw [hp]
  have ht : Ref.threeQuarters o.params.mcs = false := by rw [h5]; rfl
  have q := frame_attained h (by omega) (flipped m B) (flipped (flipped m B) [6]) (C149.flipped_length _ _) ?_ (stream_five h h5 (flipped m B) (by rw [C149.flipped_length]; exact hm) o1 o2)
  · rw [C149.flipped_length, h5] at q
    exact q
  · rw [C149.stream_hamming h _ _ (C149.flipped_length _ _).symm, ht]
    exact (C149.code_weight h (flipped m B) 6).1 (by omega) (by omega) (by rw [C149.flipped_length]; omega)

/-! ### 16-QAM: the distance is not a function of the differences -/

theorem pairs_more (x x' : Bits) (hl : x'.length = x.length) (h2 : x.length % 2 = 0) (i : Nat) (hi : i < x.length / 2)
    (hd : x.getD (2 * i) false ≠ x'.getD (2 * i) false) (h0 : x.getD (2 * i + 1) false = false) (h0' : x'.getD (2 * i + 1) false = false) :
    2 / 5 * (hamming x x' : ℕ) < 1 / 10 * S (x.length / 2) (pairDist x x') := by
  have e : ((hamming x x' : ℕ) : ℝ) = S (x.length / 2) (fun i => neq (x.getD (2 * i) false) (x'.getD (2 * i) false) + neq (x.getD (2 * i + 1) false) (x'.getD (2 * i + 1) false)) := by
    rw [hamming_S x x' hl.symm]
    conv_lhs => rw [show x.length = x.length / 2 * 2 by omega]
    rw [S_mul]
    apply S_congr
    intro i _
    simp only [S, List.range_succ, List.range_zero, List.nil_append, List.cons_append, List.map_cons, List.map_nil, List.sum_cons, List.sum_nil, Nat.mul_comm i 2, Nat.add_zero, add_zero]
  rw [e, ← S_scale, ← S_scale]
  unfold S
  rw [range_sum, range_sum]
  apply Finset.sum_lt_sum
  · intro k _
    have := height_lower (x.getD (2 * k) false) (x'.getD (2 * k) false) (x.getD (2 * k + 1) false) (x'.getD (2 * k + 1) false)
    unfold pairDist
    linarith
  · refine ⟨i, Finset.mem_range.2 hi, ?_⟩
    unfold pairDist
    rw [h0, h0']
    revert hd
    generalize x.getD (2 * i) false = u
    generalize x'.getD (2 * i) false = u'
    cases u <;> cases u' <;> norm_num [height, neq]

/-- A changed first bit of a pair next to an unchanged zero. -/
theorem block_zero {K R s : Nat} {c c' : Bits} (hl : c'.length = c.length) (hK : K ≤ c.length) (e : Nat → Bool)
    (he : ∀ q, xor (c.getD q false) (c'.getD q false) = e q) (i : Nat) (hi : 2 * i + 1 < K)
    (h1 : e (Ref.source K R s (2 * i)) = true) (h2 : e (Ref.source K R s (2 * i + 1)) = false) (h0 : c.getD (Ref.source K R s (2 * i + 1)) false = false) :
    (Ref.interleave K R s c).getD (2 * i) false ≠ (Ref.interleave K R s c').getD (2 * i) false ∧
    (Ref.interleave K R s c).getD (2 * i + 1) false = false ∧ (Ref.interleave K R s c').getD (2 * i + 1) false = false := by
  have d0 : 2 * i / K = 0 := Nat.div_eq_of_lt (by omega)
  have d1 : (2 * i + 1) / K = 0 := Nat.div_eq_of_lt hi
  have a1 := he (Ref.source K R s (2 * i))
  have a2 := he (Ref.source K R s (2 * i + 1))
  rw [h1] at a1
  rw [h2, h0] at a2
  rw [interleave_getD, interleave_getD, interleave_getD, interleave_getD, hl, d0, d1, Nat.mod_eq_of_lt (by omega : 2 * i < K), Nat.mod_eq_of_lt hi,
    if_pos (by omega), if_pos (by omega), if_pos (by omega), if_pos (by omega), Nat.zero_mul, Nat.zero_add, Nat.zero_add]
  refine ⟨?_, h0, by simpa using a2⟩
  revert a1
  cases c.getD (Ref.source K R s (2 * i)) false <;> cases c'.getD (Ref.source K R s (2 * i)) false <;> simp

theorem half_far : ∀ K ∈ [192, 96, 48], (Ref.source K 12 2 (2 * 1) = 24 ∨ Ref.source K 12 2 (2 * 1) = 25) ∧ (Ref.source K 12 2 (2 * 1 + 1) = 36 ∨ Ref.source K 12 2 (2 * 1 + 1) = 37) := by decide +kernel

theorem three_near : ∀ K ∈ [96, 48], ∀ i < K / 2,
    (if 8 ≤ Ref.source K 12 2 (2 * i) then C149.response34 (Ref.source K 12 2 (2 * i) - 8) else false) = true →
      Ref.source K 12 2 (2 * i + 1) = 23 ∧ (if 8 ≤ Ref.source K 12 2 (2 * i + 1) then C149.response34 (Ref.source K 12 2 (2 * i + 1) - 8) else false) = false := by decide +kernel

theorem three_far : ∀ K ∈ [96, 48], ∃ i < K / 2, Ref.source K 12 2 (2 * i) = 10 ∧ Ref.source K 12 2 (2 * i + 1) = 23 := by decide +kernel

/-- The same for bit 35, with bit 17. -/
theorem choose_bit {p : OfdmParams} (h : Supported p) (m : Bits) (hm : 24 ≤ m.length) (t : Bool) :
    ∃ B ∈ [[], [17], [18], [17, 18]], (Ref.conv (Ref.payload p (flipped m B))).getD 35 false = t := by
  have hz := C149.payload_size h m
  have n0 : flipped m [] = m := by
    apply List.ext_getElem
    · simp [flipped]
    · intro i h1 h2; simp [flipped, h2]
  by_cases e : (Ref.conv (Ref.payload p m)).getD 35 false = t
  · exact ⟨[], by simp, by rw [n0]; exact e⟩
  · refine ⟨[17], by simp, ?_⟩
    have hlen : (Ref.payload p (flipped m [17])).length = (Ref.payload p m).length := by simp [Ref.payload, C149.flipped_length]
    have hdp := C149.payload_differ (p := p) (C149.flipped_length m [17]) (by omega) (C149.flipped_one (m := m) (j := 17) (by omega))
    have c1 := C149.conv_differ hlen (by simp; omega) hdp 35
    rw [if_pos (by omega), show 35 - 2 * 17 = 1 from rfl, show C149.response [true] 1 = true from by decide] at c1
    revert c1 e
    cases (Ref.conv (Ref.payload p m)).getD 35 false <;> cases (Ref.conv (Ref.payload p (flipped m [17]))).getD 35 false <;> cases t <;> simp

/-- Twice the same bits inverted: the same differences. -/
theorem same_flips (m m' : Bits) (hl : m'.length = m.length) (F : List Nat) : SameDifferences m (flipped m F) m' (flipped m' F) := by
  refine ⟨C149.flipped_length _ _, hl, by rw [C149.flipped_length, hl], fun i hi => ?_⟩
  have key : ∀ x : Bits, i < x.length → (x[i]? ≠ (flipped x F)[i]? ↔ i ∈ F) := by
    intro x hx
    have d := C149.flipped_differ x F i
    rw [List.getD_eq_getElem?_getD, List.getD_eq_getElem?_getD, List.getElem?_eq_getElem hx, List.getElem?_eq_getElem (by rw [C149.flipped_length]; exact hx)] at d
    rw [List.getElem?_eq_getElem hx, List.getElem?_eq_getElem (by rw [C149.flipped_length]; exact hx)]
    simp only [Option.getD_some, hx, true_and] at d
    by_cases hF : i ∈ F
    · simp only [hF, iff_true, decide_true] at d ⊢
      intro c
      rw [Option.some.inj c] at d
      simp at d
    · simp only [hF, iff_false, decide_false] at d ⊢
      intro c
      apply c
      congr 1
      revert d
      cases x[i] <;> cases (flipped x F)[i]'(by rw [C149.flipped_length]; exact hx) <;> simp
  rw [key m hi, key m' (by omega)]

theorem stream_six' {p : OfdmParams} (h : Supported p) (h6 : p.mcs = 6) (m : Bits) (hm : 24 ≤ m.length)
    (h35 : (Ref.conv (Ref.payload p m)).getD 35 false = true) (i : Nat)
    (hd : (Ref.payloadStream p m).getD (2 * i) false ≠ (Ref.payloadStream p (flipped m [7, 8])).getD (2 * i) false) :
    (Ref.payloadStream p m).getD (2 * i + 1) false = true ∧ (Ref.payloadStream p (flipped m [7, 8])).getD (2 * i + 1) false = true := by
  obtain ⟨hK, hR, hs⟩ := sizes6 p (mem_allSupported h) h6
  have ht : Ref.threeQuarters p.mcs = true := by rw [h6]; rfl
  have hz := C149.payload_size h m
  have hlen : (Ref.payload p (flipped m [7, 8])).length = (Ref.payload p m).length := by simp [Ref.payload, C149.flipped_length]
  have hdf := C149.payload_differ (p := p) (C149.flipped_length m [7, 8]) (by omega) (C149.flipped_group (m := m) (j := 2) (by omega))
  unfold Ref.payloadStream at hd ⊢
  rw [ht, hR, hs] at hd ⊢
  simp only [if_true] at hd ⊢
  have hb := three_near _ hK
  have hKb : 48 ≤ depth p.interleaving p.option p.mcs ∧ depth p.interleaving p.option p.mcs % 2 = 0 := by
    revert hK; clear * -; generalize depth p.interleaving p.option p.mcs = K; intro hK; simp at hK; omega
  refine block_pairs (n := 24) (by simp [Ref.conv34, hlen]) (by omega) hKb.2 (by omega)
    (fun q => if 4 * 2 ≤ q then C149.response34 (q - 4 * 2) else false) (fun q => conv34_differ hlen (hz.2 ht) (by omega) hdf q) (fun q hq => ?_)
    (fun q => q = 23) hb (fun q hq => ?_) i hd
  · simp only [if_pos (by omega : 4 * 2 ≤ q)]
    unfold C149.response34
    rw [C149.response_end _ _ (by simp only [List.length_cons, List.length_nil]; omega)]
  · subst hq
    rw [C149.conv34_getD, if_pos (by omega)]
    exact h35

theorem group_sizes : ∀ p ∈ allSupported, 5 ≤ p.mcs → depth p.interleaving p.option p.mcs = if p.mcs = 5 then 2 * Ref.groupBits p.option p.mcs else 4 * Ref.groupBits p.option p.mcs / 3 := by decide +kernel

theorem group_le {p : OfdmParams} (h : Supported p) (m : Bits) : Ref.groupBits p.option p.mcs ≤ (Ref.payload p m).length := by
  have hz := (C149.payload_size h m).1
  have hlen : (Ref.payload p m).length = Ref.groups p m.length * Ref.groupBits p.option p.mcs := by simp [Ref.payload]
  rw [hlen] at hz ⊢
  apply Nat.le_mul_of_pos_left
  rcases Nat.eq_zero_or_pos (Ref.groups p m.length) with e | e
  · rw [e] at hz; omega
  · exact e

theorem zero_six {p : OfdmParams} (h : Supported p) (h6 : p.mcs = 6) (m : Bits) (hm : 24 ≤ m.length)
    (h35 : (Ref.conv (Ref.payload p m)).getD 35 false = false) :
    ∃ i, (Ref.payloadStream p m).getD (2 * i) false ≠ (Ref.payloadStream p (flipped m [7, 8])).getD (2 * i) false ∧
      (Ref.payloadStream p m).getD (2 * i + 1) false = false ∧ (Ref.payloadStream p (flipped m [7, 8])).getD (2 * i + 1) false = false := by
  obtain ⟨hK, hR, hs⟩ := sizes6 p (mem_allSupported h) h6
  have ht : Ref.threeQuarters p.mcs = true := by rw [h6]; rfl
  have hz := C149.payload_size h m
  have hg := group_sizes p (mem_allSupported h) (by omega)
  rw [if_neg (by omega)] at hg
  have hgl := group_le h m
  have hlen : (Ref.payload p (flipped m [7, 8])).length = (Ref.payload p m).length := by simp [Ref.payload, C149.flipped_length]
  have hdf := C149.payload_differ (p := p) (C149.flipped_length m [7, 8]) (by omega) (C149.flipped_group (m := m) (j := 2) (by omega))
  unfold Ref.payloadStream
  rw [ht, hR, hs]
  simp only [if_true]
  obtain ⟨i, hi, s1, s2⟩ := three_far _ hK
  have hlc : (Ref.conv34 (Ref.payload p m)).length = 4 * (Ref.payload p m).length / 3 := by simp [Ref.conv34]
  refine ⟨i, block_zero (by simp [Ref.conv34, hlen]) (by omega) (fun q => if 4 * 2 ≤ q then C149.response34 (q - 4 * 2) else false)
    (fun q => conv34_differ hlen (hz.2 ht) (by omega) hdf q) i (by omega) ?_ ?_ ?_⟩
  · rw [s1]; decide
  · rw [s2]; decide
  · rw [s2, C149.conv34_getD, if_pos (by omega)]
    exact h35

theorem zero_five {p : OfdmParams} (h : Supported p) (h5 : p.mcs = 5) (m : Bits) (hm : 24 ≤ m.length)
    (h36 : (Ref.conv (Ref.payload p m)).getD 36 false = false) (h37 : (Ref.conv (Ref.payload p m)).getD 37 false = false) :
    ∃ i, (Ref.payloadStream p m).getD (2 * i) false ≠ (Ref.payloadStream p (flipped m [6])).getD (2 * i) false ∧
      (Ref.payloadStream p m).getD (2 * i + 1) false = false ∧ (Ref.payloadStream p (flipped m [6])).getD (2 * i + 1) false = false := by
  obtain ⟨hK, hR, hs⟩ := sizes5 p (mem_allSupported h) h5
  have ht : Ref.threeQuarters p.mcs = false := by rw [h5]; rfl
  have hz := C149.payload_size h m
  have hg := group_sizes p (mem_allSupported h) (by omega)
  rw [if_pos (by omega)] at hg
  have hgl := group_le h m
  have hlen : (Ref.payload p (flipped m [6])).length = (Ref.payload p m).length := by simp [Ref.payload, C149.flipped_length]
  have hdf := C149.payload_differ (p := p) (C149.flipped_length m [6]) (by omega) (C149.flipped_one (m := m) (j := 6) (by omega))
  have hKb : 48 ≤ depth p.interleaving p.option p.mcs := by
    revert hK; clear * -; generalize depth p.interleaving p.option p.mcs = K; intro hK; simp at hK; omega
  unfold Ref.payloadStream
  rw [ht, hR, hs]
  simp only [Bool.false_eq_true, if_false]
  obtain ⟨s1, s2⟩ := half_far _ hK
  have hlc : (Ref.conv (Ref.payload p m)).length = 2 * (Ref.payload p m).length := by simp [Ref.conv]
  refine ⟨1, block_zero (by simp [Ref.conv, hlen]) (by omega) (fun q => if 2 * 6 ≤ q then C149.response [true] (q - 2 * 6) else false)
    (fun q => C149.conv_differ hlen (by simp; omega) hdf q) 1 (by omega) ?_ ?_ ?_⟩
  · rcases s1 with s1 | s1 <;> rw [s1] <;> decide
  · rcases s2 with s2 | s2 <;> rw [s2] <;> decide
  · rcases s2 with s2 | s2 <;> rw [s2] <;> assumption

theorem frame_more {p : OfdmParams} (h : Supported p) (h5 : 5 ≤ p.mcs) (m m' : Bits) (hl : m'.length = m.length)
    (hH : hamming (Ref.payloadStream p m) (Ref.payloadStream p m') = if Ref.threeQuarters p.mcs then 5 else 10)
    (hc : ∃ i, (Ref.payloadStream p m).getD (2 * i) false ≠ (Ref.payloadStream p m').getD (2 * i) false ∧
      (Ref.payloadStream p m).getD (2 * i + 1) false = false ∧ (Ref.payloadStream p m').getD (2 * i + 1) false = false) :
    C97.minDist p.mcs < usefulDist p.option (Ref.symbolCount p m.length) (Ref.frame p m) (Ref.frame p m') := by
  have q := frame_qam h h5 m m' hl
  have hb := (high_mcs _ (mem_allSupported h) h5)
  have hlen : (Ref.payloadStream p m').length = (Ref.payloadStream p m).length := by rw [C97.stream_length h, C97.stream_length h, hl]
  have h4 : (Ref.payloadStream p m).length % 4 = 0 := by
    have : Ref.symbolBits p.option p.mcs = tonesOf p.option / Spec.spreadOf p.mcs * bitsOf p.mcs := rfl
    rw [C97.stream_length h, this, hb.1, ← Nat.mul_assoc]
    exact Nat.mul_mod_left _ _
  obtain ⟨i, hd, h0, h0'⟩ := hc
  have hi : i < (Ref.payloadStream p m).length / 2 := by
    by_contra hge
    rw [C149.getD_out (by omega), C149.getD_out (by omega)] at hd
    exact hd rfl
  have b := pairs_more _ _ hlen (by omega) i hi hd h0 h0'
  rw [← q, hH] at b
  rw [C97.bound_table p (mem_allSupported h), hb.1, hb.2]
  refine lt_of_eq_of_lt ?_ b
  have : C97.perBit 4 = 2 / 5 := rfl
  rw [this]
  split <;> push_cast <;> ring

/-- **C150 (16-QAM, not only the differences).**  With MCS 5 and 6 the distance of two signals is not determined by where the messages differ, so the exclusion of these
schemes in C148 is necessary: next to every accepted message of at least 24 bits there are two messages (bits 17 and 18 chosen suitably) such that inverting the same bits
of both changes the one signal by the smallest distance and the other one by more. -/
theorem C150_not_differences (o : OfdmObj) (h : Supported o.params) (h5 : 5 ≤ o.params.mcs) (a : Arg) (m : Bits) (hm : 24 ≤ m.length)
    (ha : checkBinaryArray a = .ok m) (r : List ℂ × ℚ) (hr : ((ofdmModBitsToIQ a).call o).1 = .ok r) :
    ∃ B ∈ [[], [17], [18], [17, 18]], ∃ B' ∈ [[], [17], [18], [17, 18]], ∃ F,
      SameDifferences (flipped m B) (flipped (flipped m B) F) (flipped m B') (flipped (flipped m B') F) ∧
      ∀ a₁ a₂ a₃ a₄, checkBinaryArray a₁ = .ok (flipped m B) → checkBinaryArray a₂ = .ok (flipped (flipped m B) F) →
        checkBinaryArray a₃ = .ok (flipped m B') → checkBinaryArray a₄ = .ok (flipped (flipped m B') F) →
        ∃ iq₁ iq₂ iq₃ iq₄ fs, ((ofdmModBitsToIQ a₁).call o).1 = .ok (iq₁, fs) ∧ ((ofdmModBitsToIQ a₂).call o).1 = .ok (iq₂, fs) ∧
          ((ofdmModBitsToIQ a₃).call o).1 = .ok (iq₃, fs) ∧ ((ofdmModBitsToIQ a₄).call o).1 = .ok (iq₄, fs) ∧
          usefulDist o.params.option (Ref.symbolCount o.params m.length) iq₁ iq₂ < usefulDist o.params.option (Ref.symbolCount o.params m.length) iq₃ iq₄ := by
  have k := (C15.C15_bitsToIQ o h a m ha).1.1 ⟨_, hr⟩
  have hmc : o.params.mcs = 5 ∨ o.params.mcs = 6 := by
    have : ∀ q ∈ allSupported, q.mcs ≤ 6 := by decide +kernel
    have := this _ (mem_allSupported h)
    omega
  have core : ∃ B ∈ [[], [17], [18], [17, 18]], ∃ B' ∈ [[], [17], [18], [17, 18]], ∃ F : List Nat,
      usefulDist o.params.option (Ref.symbolCount o.params m.length) (Ref.frame o.params (flipped m B)) (Ref.frame o.params (flipped (flipped m B) F)) <
      usefulDist o.params.option (Ref.symbolCount o.params m.length) (Ref.frame o.params (flipped m B')) (Ref.frame o.params (flipped (flipped m B') F)) := by
    have hl : ∀ B F, (flipped (flipped m B) F).length = (flipped m B).length := fun B F => C149.flipped_length _ _
    rcases hmc with h5' | h6
    · have ht : Ref.threeQuarters o.params.mcs = false := by rw [h5']; rfl
      obtain ⟨B, hB, b1, b2⟩ := choose_bits h m hm true true
      obtain ⟨B', hB', b1', b2'⟩ := choose_bits h m hm false false
      have hH : ∀ B, hamming (Ref.payloadStream o.params (flipped m B)) (Ref.payloadStream o.params (flipped (flipped m B) [6])) = if Ref.threeQuarters o.params.mcs then 5 else 10 := by
        intro B
        rw [C149.stream_hamming h _ _ (C149.flipped_length _ _).symm, ht]
        exact (C149.code_weight h (flipped m B) 6).1 (by omega) (by omega) (by rw [C149.flipped_length]; omega)
      have q := frame_attained h h5 _ _ (hl B [6]) (hH B) (stream_five h h5' (flipped m B) (by rw [C149.flipped_length]; exact hm) b1 b2)
      have q' := frame_more h h5 _ _ (hl B' [6]) (hH B') (zero_five h h5' (flipped m B') (by rw [C149.flipped_length]; exact hm) b1' b2')
      rw [C149.flipped_length] at q q'
      exact ⟨B, hB, B', hB', [6], by rw [q]; exact q'⟩
    · have ht : Ref.threeQuarters o.params.mcs = true := by rw [h6]; rfl
      obtain ⟨B, hB, b1⟩ := choose_bit h m hm true
      obtain ⟨B', hB', b1'⟩ := choose_bit h m hm false
      have hH : ∀ B, hamming (Ref.payloadStream o.params (flipped m B)) (Ref.payloadStream o.params (flipped (flipped m B) [7, 8])) = if Ref.threeQuarters o.params.mcs then 5 else 10 := by
        intro B
        rw [C149.stream_hamming h _ _ (C149.flipped_length _ _).symm, ht, if_pos rfl]
        exact (C149.code_weight h (flipped m B) 2).2 (Or.inr h6) (by rw [C149.flipped_length]; omega)
      have q := frame_attained h h5 _ _ (hl B [7, 8]) (hH B) (stream_six' h h6 (flipped m B) (by rw [C149.flipped_length]; exact hm) b1)
      have q' := frame_more h h5 _ _ (hl B' [7, 8]) (hH B') (zero_six h h6 (flipped m B') (by rw [C149.flipped_length]; exact hm) b1')
      rw [C149.flipped_length] at q q'
      exact ⟨B, hB, B', hB', [7, 8], by rw [q]; exact q'⟩
  obtain ⟨B, hB, B', hB', F, hlt⟩ := core
  refine ⟨B, hB, B', hB', F, same_flips _ _ (by rw [C149.flipped_length, C149.flipped_length]) F, fun a₁ a₂ a₃ a₄ h1 h2 h3 h4 => ?_⟩
  obtain ⟨_, e1, -⟩ := C67.C67_reference o h a₁ _ h1 (by rw [C149.flipped_length]; exact k.1) (by rw [C149.flipped_length]; exact k.2)
  obtain ⟨_, e2, -⟩ := C67.C67_reference o h a₂ _ h2 (by rw [C149.flipped_length, C149.flipped_length]; exact k.1) (by rw [C149.flipped_length, C149.flipped_length]; exact k.2)
  obtain ⟨_, e3, -⟩ := C67.C67_reference o h a₃ _ h3 (by rw [C149.flipped_length]; exact k.1) (by rw [C149.flipped_length]; exact k.2)
  obtain ⟨_, e4, -⟩ := C67.C67_reference o h a₄ _ h4 (by rw [C149.flipped_length, C149.flipped_length]; exact k.1) (by rw [C149.flipped_length, C149.flipped_length]; exact k.2)
  exact ⟨_, _, _, _, _, by rw [e1], by rw [e2], by rw [e3], by rw [e4], hlt⟩

/-! Non-vacuity: supported configurations with MCS 5 and 6 and accepted messages of 24 bits. -/
example : Supported ⟨5, 2, 1, 2⟩ ∧ Supported ⟨6, 4, 0, 1⟩ ∧
    ∀ p, Supported p → ∃ r, ((ofdmModBitsToIQ (bitsArg (List.replicate 24 true))).call { params := p }).1 = .ok r := by
  refine ⟨⟨by decide, by decide, by decide⟩, ⟨by decide, by decide, by decide⟩, fun p hp => ?_⟩
  obtain ⟨o', e, -⟩ := bitsToIQ_ok (o := { params := p }) hp (C03.C03_identity (List.replicate 24 true) (by simp)) (by simp) (by simp)
  exact ⟨_, by rw [e]⟩

end
end SunPhy.C150
