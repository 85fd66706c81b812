import Verif.Props.C116
import Verif.Props.C123
/-
C135: what an MR-O-QPSK signal says about the configuration of the modulator and about the message.
-/
namespace SunPhy.C135
open SunPhy Spec Complex C63
noncomputable section

/-- Bands that share a physical layer: 470, 868 and 950 MHz; 780 and 917 MHz; every other band is on its own. -/
def SameLayer (b b' : Band) : Prop :=
  b = b' ∨ (b ∈ [Band.b470, .b868, .b950] ∧ b' ∈ [Band.b470, .b868, .b950]) ∨ (b ∈ [Band.b780, .b917] ∧ b' ∈ [Band.b780, .b917])

instance (b b' : Band) : Decidable (SameLayer b b') := by unfold SameLayer; infer_instance

/-! ### Bands of the same layer -/

theorem layer_cases {P : Band → Band → Prop} (hr : ∀ b, P b b) (h1 : P .b470 .b868) (h1' : P .b868 .b470) (h2 : P .b470 .b950) (h2' : P .b950 .b470)
    (h3 : P .b868 .b950) (h3' : P .b950 .b868) (h4 : P .b780 .b917) (h4' : P .b917 .b780) {b b' : Band} (h : SameLayer b b') : P b b' := by
  rcases h with rfl | ⟨h, h'⟩ | ⟨h, h'⟩
  · exact hr _
  · simp only [List.mem_cons, List.not_mem_nil, or_false] at h h'
    rcases h with rfl | rfl | rfl <;> rcases h' with rfl | rfl | rfl <;> first | exact hr _ | assumption
  · simp only [List.mem_cons, List.not_mem_nil, or_false] at h h'
    rcases h with rfl | rfl <;> rcases h' with rfl | rfl <;> first | exact hr _ | assumption

structure Tables (b b' : Band) : Prop where
  pre : preambleBits b = preambleBits b'
  shr : shrChipsPerBit b = shrChipsPerBit b'
  phr : phrChipsPerBit b = phrChipsPerBit b'
  grp : ∀ rm, psduGroup b rm = psduGroup b' rm
  mds : ∀ rm, mdsssF b rm = mdsssF b' rm
  sup : mdsssSupported b = mdsssSupported b'
  pil : pilots b = pilots b'
  seq : RefQ.pilot b = RefQ.pilot b'
  alt : RefQ.shrAlternates b = RefQ.shrAlternates b'
  pul : bandPulse b = bandPulse b'
  hal : (b = .b915 ∨ b = .b2450) ↔ (b' = .b915 ∨ b' = .b2450)

theorem tables {b b' : Band} (h : SameLayer b b') : Tables b b' := by
  refine layer_cases (P := Tables) (fun b => ⟨rfl, rfl, rfl, fun _ => rfl, fun _ => rfl, rfl, rfl, rfl, rfl, rfl, Iff.rfl⟩) ?_ ?_ ?_ ?_ ?_ ?_ ?_ ?_ h <;>
    exact ⟨rfl, rfl, rfl, fun rm => by rcases rm with _ | _ | _ | _ <;> rfl, fun rm => by rcases rm with _ | _ | _ | _ <;> rfl, rfl, rfl, rfl, rfl, rfl, by simp⟩

theorem chips_layer {b b' : Band} (h : SameLayer b b') (s : Bool) (rm : Nat) (m : Bits) : RefQ.chips b s rm m = RefQ.chips b' s rm m := by
  have t := tables h
  have e1 : RefQ.shrBits b = RefQ.shrBits b' := by unfold RefQ.shrBits; rw [t.pre]
  have e2 : RefQ.shr b = RefQ.shr b' := by unfold RefQ.shr; rw [e1, t.shr, t.pre, t.alt]
  have e3 : RefQ.phr b s rm (m.length / 8) = RefQ.phr b' s rm (m.length / 8) := by unfold RefQ.phr; rw [e1, t.phr, t.pre]
  have e4 : RefQ.psduDifferential b rm = RefQ.psduDifferential b' rm := by unfold RefQ.psduDifferential; rw [t.shr]
  have e5 : RefQ.psdu b s rm m = RefQ.psdu b' s rm m := by unfold RefQ.psdu; rw [t.mds, t.grp, e4]
  have e6 : ∀ x, RefQ.withPilots b x = RefQ.withPilots b' x := by intro x; unfold RefQ.withPilots; rw [t.pil, t.seq]
  unfold RefQ.chips
  rw [e2, e3, e5, e6]

theorem samples_layer {b b' : Band} (h : SameLayer b b') (sps : Nat) (c : Bits) : RefQ.samples b sps c = RefQ.samples b' sps c := by
  have t := tables h
  have e : ∀ j, pulseSample b sps j = pulseSample b' sps j := by intro j; unfold pulseSample; rw [t.pul]
  unfold RefQ.samples
  simp only [e]

theorem rate_layer {b b' : Band} (h : SameLayer b b') (s : Bool) (rm : Nat) : RefQ.rate b s rm = RefQ.rate b' s rm := by
  unfold RefQ.rate; rw [(tables h).shr]

theorem standard_layer {p : OqpskParams} {b' : Band} (h : SameLayer p.band b') (hs : Standard p) : Standard { p with band := b' } :=
  ⟨hs.rate, by rw [← (tables h).sup]; exact hs.mode, hs.sps⟩

theorem spreadable_layer {p : OqpskParams} {b' : Band} (h : SameLayer p.band b') (n : Nat) : C96.Spreadable p n ↔ C96.Spreadable { p with band := b' } n := by
  unfold C96.Spreadable fourBitGroups
  simp only [(tables h).grp]

theorem bits_layer {o o' : OqpskObj} (h : Standard o.params) (hb : SameLayer o.params.band o'.params.band)
    (hp : o'.params = { o.params with band := o'.params.band }) (a : Arg) :
    ((oqpskBitsToIQ a).call o').1 = ((oqpskBitsToIQ a).call o).1 := by
  have h' : Standard o'.params := by rw [hp]; exact standard_layer hb h
  cases ha : checkBinaryArray a with
  | error e =>
    rw [(oqpskBitsToIQ_result a o).1, (oqpskBitsToIQ_result a o').1]
    unfold oqpskBitsResult
    rw [ha]
  | ok m =>
    obtain ⟨b1, g1⟩ := C108.C108_reference o h a m ha
    obtain ⟨b2, g2⟩ := C108.C108_reference o' h' a m ha
    have hS : C96.Spreadable o'.params m.length ↔ C96.Spreadable o.params m.length := by rw [hp]; exact (spreadable_layer hb _).symm
    by_cases hc : m.length / 8 ≤ 2047 ∧ C96.Spreadable o.params m.length
    · rw [g1 hc, g2 ⟨hc.1, hS.2 hc.2⟩]
      have q1 : o'.params.sm = o.params.sm := by rw [hp]
      have q2 : o'.params.rm = o.params.rm := by rw [hp]
      have q3 : o'.params.sps = o.params.sps := by rw [hp]
      rw [q1, q2, q3, ← chips_layer hb, ← samples_layer hb, ← rate_layer hb]
    · rw [b1 hc, b2 (fun hn => hc ⟨hn.1, hS.1 hn.2⟩)]

/-- **C135 (bands that cannot be told apart).**  Modulators that differ only in the band, within 470, 868 and 950 MHz or within 780 and 917 MHz, do the same to every
argument: same samples and sampling frequency, or same exception. -/
theorem C135_alike (o o' : OqpskObj) (h : Standard o.params) (hb : SameLayer o.params.band o'.params.band)
    (hp : o'.params = { o.params with band := o'.params.band }) (a : Arg) :
    ((oqpskBitsToIQ a).call o').1 = ((oqpskBitsToIQ a).call o).1 ∧ ((oqpskBytesToIQ a).call o').1 = ((oqpskBytesToIQ a).call o).1 := by
  refine ⟨bits_layer h hb hp a, ?_⟩
  rw [(oqpskBytesToIQ_result a o).1, (oqpskBytesToIQ_result a o').1]
  unfold oqpskBytesResult
  cases toBinaryArray a with
  | error e => rfl
  | ok m =>
    have := bits_layer h hb hp (bitsArg m)
    rw [(oqpskBitsToIQ_result _ o).1, (oqpskBitsToIQ_result _ o').1] at this
    exact this

/-! ### Samples per symbol -/

/-- A function with two periods has their greatest common divisor as period. -/
theorem gcd_period {α : Type} (F : Nat → α) : ∀ a b : Nat, (∀ n, F (n + a) = F n) → (∀ n, F (n + b) = F n) → ∀ n, F (n + Nat.gcd a b) = F n := by
  intro a b
  induction a, b using Nat.gcd.induction with
  | H0 b => intro _ hb; rw [Nat.gcd_zero_left]; exact hb
  | H1 a b ha ih =>
    intro h1 h2
    rw [Nat.gcd_rec]
    refine ih ?_ h1
    have hk : ∀ k n, F (n + a * k) = F n := by
      intro k
      induction k with
      | zero => intro n; simp
      | succ k ihk => intro n; rw [Nat.mul_succ, ← Nat.add_assoc, h1, ihk]
    intro n
    rw [← hk (b / a) (n + b % a), Nat.add_assoc, Nat.mod_add_div, h2]

/-- Zeros of the half sine: the first half of the samples, and only those. -/
theorem half_zero (sps j : Nat) (hj : j < sps) : halfSinePulse (-2 + 4 * (j : ℝ) / sps) = 0 ↔ 2 * j ≤ sps := by
  have hs : (0 : ℝ) < sps := by exact_mod_cast (show 0 < sps by omega)
  have hjr : (j : ℝ) < sps := by exact_mod_cast hj
  have hlt : -2 + 4 * (j : ℝ) / sps < 2 := by
    have : 4 * (j : ℝ) / sps < 4 := by rw [div_lt_iff₀ hs]; linarith
    linarith
  unfold halfSinePulse
  constructor
  · intro e
    by_contra hc
    have hc' : (sps : ℝ) < 2 * j := by exact_mod_cast (show sps < 2 * j by omega)
    have hpos : 0 < -2 + 4 * (j : ℝ) / sps := by
      have : 2 < 4 * (j : ℝ) / sps := by rw [lt_div_iff₀ hs]; linarith
      linarith
    rw [if_pos ⟨hpos.le, hlt.le⟩] at e
    refine (Real.sin_pos_of_pos_of_lt_pi ?_ ?_).ne' e
    · have := Real.pi_pos; positivity
    · have := Real.pi_pos; nlinarith
  · intro hc
    have hc' : 2 * (j : ℝ) ≤ sps := by exact_mod_cast hc
    have hle : -2 + 4 * (j : ℝ) / sps ≤ 0 := by
      have : 4 * (j : ℝ) / sps ≤ 2 := by rw [div_le_iff₀ hs]; linarith
      linarith
    split
    · rename_i hh
      have : -2 + 4 * (j : ℝ) / sps = 0 := le_antisymm hle hh.1
      rw [this]; simp
    · rfl

/-- The raised cosine near the middle. -/
theorem cosine_mid (k : Nat) (hk : 1 ≤ k) : raisedCosinePulse (-(2 / (2 * (k : ℝ) + 1))) ≠ 0 := by
  have hk : (1 : ℝ) ≤ k := by exact_mod_cast hk
  set u : ℝ := 2 / (2 * (k : ℝ) + 1) with hu
  have u0 : 0 < u := by positivity
  have u1 : u ≤ 2 / 3 := by rw [hu]; exact div_le_div_of_nonneg_left (by norm_num) (by norm_num) (by linarith)
  have u58 : u ≠ 5 / 8 := by
    rw [hu]; intro h
    rw [div_eq_div_iff (by positivity) (by norm_num)] at h
    have : (16 : ℝ) = 10 * k + 5 := by linarith
    have : 16 = 10 * k + 5 := by exact_mod_cast this
    omega
  have hpi := Real.pi_pos
  unfold raisedCosinePulse
  rw [if_neg (by linarith)]
  have s1 : Real.sin (Real.pi * -u) ≠ 0 := by
    rw [mul_neg, Real.sin_neg]
    exact neg_ne_zero.2 (Real.sin_pos_of_pos_of_lt_pi (by positivity) (by nlinarith)).ne'
  have c1 : Real.cos (4 / 5 * Real.pi * -u) ≠ 0 := by
    rw [mul_neg, Real.cos_neg]
    intro h
    have h' : Real.cos (4 / 5 * Real.pi * u) = Real.cos (Real.pi / 2) := by rw [h, Real.cos_pi_div_two]
    have := Real.injOn_cos ⟨by positivity, by nlinarith⟩ ⟨by positivity, by linarith⟩ h'
    apply u58
    have : Real.pi * (4 / 5 * u) = Real.pi * (1 / 2) := by linarith
    have := mul_left_cancel₀ hpi.ne' this
    linarith
  have d1 : 1 - (8 / 5 * -u) ^ 2 ≠ 0 := by
    intro h
    rcases (C62.denominator_zero (-u)).1 h with h | h
    · linarith
    · exact u58 (by linarith)
  exact mul_ne_zero (div_ne_zero s1 (mul_ne_zero hpi.ne' (by linarith))) (div_ne_zero c1 d1)

theorem cosine_zero : raisedCosinePulse (-2) = 0 := by
  unfold raisedCosinePulse
  rw [if_neg (by norm_num), mul_comm, show (Real.pi * -2 : ℝ) = -(2 * Real.pi) by ring]
  simp

/-- Sample `⌊sps/2⌋` of the raised cosine is not zero. -/
theorem cosine_half (sps : Nat) (hs : 2 ≤ sps) : raisedCosinePulse (-2 + 4 * ((sps / 2 : Nat) : ℝ) / sps) ≠ 0 := by
  rcases Nat.even_or_odd' sps with ⟨k, rfl | rfl⟩
  · have hk : (k : ℝ) ≠ 0 := by exact_mod_cast (show k ≠ 0 by omega)
    rw [show 2 * k / 2 = k by omega]
    have e : -2 + 4 * (k : ℝ) / (2 * k : ℕ) = 0 := by push_cast; field_simp; ring
    rw [e]
    unfold raisedCosinePulse
    simp
  · rw [show (2 * k + 1) / 2 = k by omega]
    have e : -2 + 4 * (k : ℝ) / (2 * k + 1 : ℕ) = -(2 / (2 * (k : ℝ) + 1)) := by push_cast; field_simp; ring
    rw [e]
    exact cosine_mid k (by omega)

def Half (b : Band) : Prop := b = .b915 ∨ b = .b2450

theorem pulse_half {b : Band} (h : Half b) (sps j : Nat) : pulseSample b sps j = halfSinePulse (-2 + 4 * (j : ℝ) / sps) := by
  rcases h with rfl | rfl <;> rfl
theorem pulse_cos {b : Band} (h : ¬ Half b) (sps j : Nat) : pulseSample b sps j = raisedCosinePulse (-2 + 4 * (j : ℝ) / sps) := by
  unfold Half at h
  cases b <;> first | rfl | simp at h

/-- The samples of a pulse have no shorter period that divides their number. -/
theorem primitive (b : Band) (sps d : Nat) (ha : C60.Audible b sps) (hd : d ∣ sps) (h : ∀ n, pulseSample b sps ((n + d) % sps) = 0 ↔ pulseSample b sps (n % sps) = 0) :
    d = sps := by
  have hs2 : 2 ≤ sps := by unfold C60.Audible at ha; split at ha <;> omega
  obtain ⟨k, rfl⟩ := hd
  have hd0 : 0 < d := by rcases Nat.eq_zero_or_pos d with h0 | h0; · rw [h0] at hs2; omega
                         · exact h0
  have hk0 : 0 < k := by rcases Nat.eq_zero_or_pos k with h0 | h0; · rw [h0] at hs2; omega
                         · exact h0
  by_contra hne
  have hk2 : 2 ≤ k := by
    by_contra hc
    have : k = 1 := by omega
    exact hne (by rw [this, Nat.mul_one])
  have hi : ∀ i n, pulseSample b (d * k) ((n + d * i) % (d * k)) = 0 ↔ pulseSample b (d * k) (n % (d * k)) = 0 := by
    intro i
    induction i with
    | zero => intro n; simp
    | succ i ih => intro n; rw [Nat.mul_succ, ← Nat.add_assoc, h, ih]
  have hkR : (k : ℝ) ≠ 0 := by exact_mod_cast (show k ≠ 0 by omega)
  have hdR : (d : ℝ) ≠ 0 := by exact_mod_cast (show d ≠ 0 by omega)
  by_cases hb : Half b
  · have h3 : 3 ≤ d * k := by
      unfold C60.Audible at ha; unfold Half at hb; rw [if_pos hb] at ha; exact ha
    -- all of the first half is zero, so the last sample is zero
    have hz : ∀ j < d * k, pulseSample b (d * k) j = 0 ↔ 2 * j ≤ d * k := by
      intro j hj; rw [pulse_half hb]; exact half_zero _ _ hj
    have hlast := hi (k - 1) (d - 1)
    have e1 : d - 1 + d * (k - 1) = d * k - 1 := by
      obtain ⟨k', rfl⟩ : ∃ k', k = k' + 1 := ⟨k - 1, by omega⟩
      rw [Nat.add_sub_cancel, Nat.mul_succ]; omega
    have hdk : d * 2 ≤ d * k := Nat.mul_le_mul_left d hk2
    rw [e1, Nat.mod_eq_of_lt (show d * k - 1 < d * k by omega), Nat.mod_eq_of_lt (show d - 1 < d * k by omega), hz _ (by omega), hz _ (by omega)] at hlast
    omega
  · have h0 : pulseSample b (d * k) 0 = 0 := by
      rw [pulse_cos hb]; simp [cosine_zero]
    have := (hi (k / 2) 0).2 (by simpa using h0)
    rw [Nat.zero_add, Nat.mod_eq_of_lt (Nat.mul_lt_mul_of_pos_left (by omega) hd0), pulse_cos hb] at this
    refine cosine_half k hk2 ?_
    rw [← this]
    congr 1
    push_cast
    field_simp

theorem sample_zero {b : Band} {sps : Nat} (hs : 1 ≤ sps) {chips : Bits} {iq : List ℂ}
    (hsam : ∀ k j, k < chips.length / 2 → j < sps → iq[sps * k + j]? =
      some ((chipValue (chips.getD (2 * k) false) + I * chipValue (chips.getD (2 * k + 1) false)) * (pulseSample b sps j : ℂ)))
    (n : Nat) (hn : n < chips.length / 2 * sps) : iq.getD n 0 = 0 ↔ pulseSample b sps (n % sps) = 0 := by
  have := hsam (n / sps) (n % sps) (Nat.div_lt_of_lt_mul (by rw [Nat.mul_comm]; exact hn)) (Nat.mod_lt _ hs)
  rw [Nat.div_add_mod] at this
  rw [List.getD_eq_getElem?_getD, this, Option.getD_some]
  constructor
  · intro e
    have := congrArg Complex.re e
    rw [(C60.sample_parts _ _ _).1] at this
    rcases mul_eq_zero.1 this with h | h
    · exfalso; split at h <;> norm_num at h
    · exact h
  · intro e; rw [e]; simp

/-- Zeros of a periodic pattern, seen long enough, fix both periods up to the greatest common divisor. -/
theorem common_period (F G : Nat → Prop) (s s' N : Nat) (hs0 : 0 < s) (hF : ∀ n, F (n + s) = F n) (hG : ∀ n, G (n + s') = G n) (hN : s + s' ≤ N)
    (e : ∀ n < N, F n = G n) : ∀ n, F (n + Nat.gcd s s') = F n := by
  refine gcd_period F s s' hF ?_
  have hmod : ∀ k n, F (n + s * k) = F n := by
    intro k
    induction k with
    | zero => intro n; simp
    | succ k ih => intro n; rw [Nat.mul_succ, ← Nat.add_assoc, hF, ih]
  intro n
  have h1 : F (n + s') = F (n % s + s') := by
    rw [← hmod (n / s) (n % s + s'), show n % s + s' + s * (n / s) = n + s' by have := Nat.mod_add_div n s; omega]
  have h2 : F n = F (n % s) := by rw [← hmod (n / s) (n % s), Nat.mod_add_div]
  have hl := Nat.mod_lt n hs0
  rw [h1, h2, e _ (by omega), hG, ← e _ (by omega)]

theorem head_big (b : Band) : 2016 ≤ C60.headChips b := by cases b <;> decide

theorem same_sps {o o' : OqpskObj} (h : Standard o.params) (h' : Standard o'.params) (hA : C60.Audible o.params.band o.params.sps) (hA' : C60.Audible o'.params.band o'.params.sps)
    {a a' : Arg} {m m' : Bits} (ha : checkBinaryArray a = .ok m) (ha' : checkBinaryArray a' = .ok m') {iq : List ℂ} {fs fs' : ℚ}
    (hok : ((oqpskBitsToIQ a).call o).1 = .ok (iq, fs)) (hok' : ((oqpskBitsToIQ a').call o').1 = .ok (iq, fs')) : o.params.sps = o'.params.sps := by
  have B := C60.C60_api o h a m ha iq fs hok
  have B' := C60.C60_api o' h' a' m' ha' iq fs' hok'
  simp only at B B'
  obtain ⟨hl, -, hlen, hsam, -⟩ := B
  obtain ⟨hl', -, hlen', hsam', -⟩ := B'
  have big : 2016 ≤ (RefQ.chips o.params.band (decide (o.params.sm = 1)) o.params.rm.toNat m).length := by
    rw [hl]; have := head_big o.params.band; unfold C60.headChips at this; unfold C96.frameChipsOf; omega
  have big' : 2016 ≤ (RefQ.chips o'.params.band (decide (o'.params.sm = 1)) o'.params.rm.toNat m').length := by
    rw [hl']; have := head_big o'.params.band; unfold C60.headChips at this; unfold C96.frameChipsOf; omega
  have z := sample_zero h.sps hsam
  have z' := sample_zero h'.sps hsam'
  clear hsam hsam' hl hl' hok hok' ha ha'
  generalize hc : (RefQ.chips o.params.band (decide (o.params.sm = 1)) o.params.rm.toNat m).length / 2 = c at *
  generalize hc' : (RefQ.chips o'.params.band (decide (o'.params.sm = 1)) o'.params.rm.toNat m').length / 2 = c' at *
  have c2 : 2 ≤ c := by omega
  have c2' : 2 ≤ c' := by omega
  clear big big' hc hc'
  have hs := h.sps
  have hs' := h'.sps
  generalize o.params.band = b at *
  generalize o'.params.band = b' at *
  generalize o.params.sps = s at *
  generalize o'.params.sps = s' at *
  have L : (c + 1) * s = (c' + 1) * s' := by rw [Nat.add_mul, Nat.add_mul, Nat.one_mul, Nat.one_mul]; omega
  have N1 : s + s' ≤ c * s := by nlinarith
  have N2 : s + s' ≤ c' * s' := by nlinarith
  have F1 : ∀ n, (pulseSample b s ((n + s) % s) = 0) = (pulseSample b s (n % s) = 0) := fun n => by rw [Nat.add_mod_right]
  have G1 : ∀ n, (pulseSample b' s' ((n + s') % s') = 0) = (pulseSample b' s' (n % s') = 0) := fun n => by rw [Nat.add_mod_right]
  have E : ∀ n < s + s', (pulseSample b s (n % s) = 0) = (pulseSample b' s' (n % s') = 0) := fun n hn =>
    propext ((z n (by omega)).symm.trans (z' n (by omega)))
  have P1 := common_period _ _ s s' (s + s') hs F1 G1 le_rfl E
  have P2 := common_period _ _ s' s (s + s') hs' G1 F1 (by omega) (fun n hn => (E n hn).symm)
  have q1 := primitive b s (Nat.gcd s s') hA (Nat.gcd_dvd_left _ _) (fun n => by rw [P1 n])
  have q2 := primitive b' s' (Nat.gcd s' s) hA' (Nat.gcd_dvd_left _ _) (fun n => by rw [P2 n])
  rw [Nat.gcd_comm] at q2
  rw [← q1, q2]

/-! ### Band -/

theorem same_pulse {o o' : OqpskObj} (h : Standard o.params) (h' : Standard o'.params) (hA : C60.Audible o.params.band o.params.sps) 
    (hs : o.params.sps = o'.params.sps) {a a' : Arg} {m m' : Bits} (ha : checkBinaryArray a = .ok m) (ha' : checkBinaryArray a' = .ok m') {iq : List ℂ} {fs fs' : ℚ}
    (hok : ((oqpskBitsToIQ a).call o).1 = .ok (iq, fs)) (hok' : ((oqpskBitsToIQ a').call o').1 = .ok (iq, fs')) (hb : ¬ Half o.params.band) : ¬ Half o'.params.band := by
  intro hb'
  have B := C60.C60_api o h a m ha iq fs hok
  have B' := C60.C60_api o' h' a' m' ha' iq fs' hok'
  simp only at B B'
  obtain ⟨hl, -, hlen, hsam, -⟩ := B
  obtain ⟨hl', -, hlen', hsam', -⟩ := B'
  have z := sample_zero h.sps hsam
  have z' := sample_zero h'.sps hsam'
  have p1 : 0 < (RefQ.chips o.params.band (decide (o.params.sm = 1)) o.params.rm.toNat m).length / 2 := by
    rw [hl]; have := head_big o.params.band; unfold C60.headChips at this; unfold C96.frameChipsOf; omega
  have p1' : 0 < (RefQ.chips o'.params.band (decide (o'.params.sm = 1)) o'.params.rm.toNat m').length / 2 := by
    rw [hl']; have := head_big o'.params.band; unfold C60.headChips at this; unfold C96.frameChipsOf; omega
  have hs2 : 2 ≤ o.params.sps := by unfold C60.Audible at hA; split at hA <;> omega
  have k1 := Nat.mul_le_mul_right o.params.sps (show 1 ≤ _ from p1)
  have k2 := Nat.mul_le_mul_right o'.params.sps (show 1 ≤ _ from p1')
  have z1 := z (o.params.sps / 2) (by omega)
  have z2 := z' (o.params.sps / 2) (by omega)
  rw [← hs, Nat.mod_eq_of_lt (by omega), pulse_half hb', half_zero _ _ (by omega)] at z2
  rw [Nat.mod_eq_of_lt (by omega), pulse_cos hb] at z1
  exact cosine_half o.params.sps hs2 (z1.1 (z2.2 (by omega)))

/-- The first 64 chips tell the layer, given the pulse. -/
theorem first_chips : ∀ b b' : Band, (b ∈ [Band.b915, .b2450] ↔ b' ∈ [Band.b915, .b2450]) → (RefQ.shr b).take 64 = (RefQ.shr b').take 64 → SameLayer b b' := by
  have : ∀ b b' : Band, ¬ SameLayer b b' → (b ∈ [Band.b915, .b2450] ↔ b' ∈ [Band.b915, .b2450]) → (RefQ.shr b).take 64 ≠ (RefQ.shr b').take 64 := by
    intro b b'
    cases b <;> cases b' <;> decide +kernel
  intro b b' hi e
  by_contra hc
  exact this b b' hc hi e

theorem same_layer {o o' : OqpskObj} (h : Standard o.params) (h' : Standard o'.params) (hA : C60.Audible o.params.band o.params.sps) (hA' : C60.Audible o'.params.band o'.params.sps)
    {a a' : Arg} {m m' : Bits} (ha : checkBinaryArray a = .ok m) (ha' : checkBinaryArray a' = .ok m') {iq : List ℂ} {fs fs' : ℚ}
    (hok : ((oqpskBitsToIQ a).call o).1 = .ok (iq, fs)) (hok' : ((oqpskBitsToIQ a').call o').1 = .ok (iq, fs')) :
    SameLayer o.params.band o'.params.band := by
  have hs := same_sps h h' hA hA' ha ha' hok hok'
  have hi : Half o.params.band ↔ Half o'.params.band := by
    constructor
    · intro hb; by_contra hb'
      exact same_pulse h' h hA' hs.symm ha' ha hok' hok hb' hb
    · intro hb; by_contra hb'
      exact same_pulse h h' hA hs ha ha' hok hok' hb' hb
  have hpulse : ∀ j, pulseSample o'.params.band o'.params.sps j = pulseSample o.params.band o.params.sps j := by
    intro j
    rw [hs]
    by_cases hb : Half o.params.band
    · rw [pulse_half hb, pulse_half (hi.1 hb)]
    · rw [pulse_cos hb, pulse_cos (fun hh => hb (hi.2 hh))]
  obtain ⟨j, hj, hg⟩ := (C62.C62_nonzero _ _).2 hA
  have d1 := C60.C60_api_demodulate o h a m ha iq fs hok j hj hg
  have d2 := C60.C60_api_demodulate o' h' a' m' ha' iq fs' hok' j (by rw [← hs]; exact hj) (by rw [hpulse]; exact hg)
  rw [hpulse, ← hs, ← d1] at d2
  have ht := congrArg (List.take 64) d2
  have hl : ∀ b : Band, 64 ≤ (RefQ.shr b).length := by intro b; rw [C102.shr_length]; cases b <;> decide
  unfold RefQ.chips at ht
  rw [List.append_assoc, List.append_assoc, List.take_append_of_le_length (hl _), List.take_append_of_le_length (hl _)] at ht
  refine first_chips _ _ ?_ ht.symm
  unfold Half at hi
  simpa using hi

/-! ### The claim -/

/-- **C135.**  Two audible MR-O-QPSK signals, of any two bit messages on any two modulators, have the same samples exactly when the bands share a physical layer, the samples per symbol,
the spreading modes and the rate modes agree, and the messages agree as far as a frame contains them: with DSSS the number of bits and all contained bits (C123), with MDSSS the
number of whole octets. -/
theorem C135_exact (o o' : OqpskObj) (h : Standard o.params) (h' : Standard o'.params) (hA : C60.Audible o.params.band o.params.sps)
    (hA' : C60.Audible o'.params.band o'.params.sps) (a a' : Arg) (m m' : Bits) (ha : checkBinaryArray a = .ok m) (ha' : checkBinaryArray a' = .ok m') (iq iq' : List ℂ) (fs fs' : ℚ)
    (hok : ((oqpskBitsToIQ a).call o).1 = .ok (iq, fs)) (hok' : ((oqpskBitsToIQ a').call o').1 = .ok (iq', fs')) :
    iq = iq' ↔ SameLayer o.params.band o'.params.band ∧ o.params.sps = o'.params.sps ∧ o.params.sm = o'.params.sm ∧ o.params.rm = o'.params.rm ∧
      (o.params.sm = 0 → m.length = m'.length ∧ ∀ k < m.length, C123.Contained m.length k → m[k]? = m'[k]?) ∧
      (o.params.sm = 1 → m.length / 8 = m'.length / 8) := by
  -- for the same layer, use the band of the first modulator
  have step : SameLayer o.params.band o'.params.band → o.params.sps = o'.params.sps →
      (iq = iq' ↔ o.params.sm = o'.params.sm ∧ o.params.rm = o'.params.rm ∧
      (o.params.sm = 0 → m.length = m'.length ∧ ∀ k < m.length, C123.Contained m.length k → m[k]? = m'[k]?) ∧
      (o.params.sm = 1 → m.length / 8 = m'.length / 8)) := by
    intro hb hs
    have hb2 : SameLayer o'.params.band o.params.band := by
      rcases hb with e | e | e
      · exact Or.inl e.symm
      · exact Or.inr (Or.inl ⟨e.2, e.1⟩)
      · exact Or.inr (Or.inr ⟨e.2, e.1⟩)
    let o2 : OqpskObj := { o' with params := { o'.params with band := o.params.band } }
    have h2 : Standard o2.params := standard_layer hb2 h'
    have hok2 : ((oqpskBitsToIQ a').call o2).1 = .ok (iq', fs') := by
      rw [bits_layer (o := o') (o' := o2) h' hb2 rfl a']; exact hok'
    have main : o.params.sm = o'.params.sm → o.params.rm = o'.params.rm → (iq = iq' ↔
        (o.params.sm = 0 → m.length = m'.length ∧ ∀ k < m.length, C123.Contained m.length k → m[k]? = m'[k]?) ∧ (o.params.sm = 1 → m.length / 8 = m'.length / 8)) := by
      intro e1 e2
      have hp : o2.params = o.params := by
        change OqpskParams.mk o.params.band o'.params.rm o'.params.sm o'.params.sps = o.params
        rw [← e1, ← e2, ← hs]
      rcases h.mode with s0 | ⟨s1, -⟩
      · rw [C123.C123_dsss o o2 hp h s0 hA a a' m m' ha ha' iq iq' fs fs' hok hok2]
        exact ⟨fun e => ⟨fun _ => e, fun e1 => by rw [s0] at e1; exact absurd e1 (by decide)⟩, fun e => e.1 s0⟩
      · rw [C123.C123_mdsss o o2 hp h s1 hA a a' m m' ha ha' iq iq' fs fs' hok hok2]
        exact ⟨fun e => ⟨fun e1 => by rw [s1] at e1; exact absurd e1 (by decide), fun _ => e⟩, fun e => e.2 s1⟩
    constructor
    · intro e
      have he : o.params.sm = o'.params.sm ∧ o.params.rm = o'.params.rm := by
        by_contra hc
        have hd := C116.C116_header o o2 h h2 rfl hs.symm a a' m m' ha ha' iq iq' fs fs' hok hok2 (by
          intro hh
          have q := Prod.mk.inj hh
          exact hc ⟨q.1, (Prod.mk.inj q.2).1⟩)
        have hz : distSq iq iq' = 0 := by
          rw [e]; unfold distSq
          have : ∀ x : List ℂ, (List.zipWith (fun a b => ‖a - b‖ ^ 2) x x).sum = 0 := by
            intro x; induction x with
            | nil => rfl
            | cons y t ih => simp [ih]
          exact this _
        have hE := C102.pulseEnergy_pos o.params.band o.params.sps hA
        have hP : 0 < (phrChipsPerBit o.params.band : ℝ) := by
          have : 0 < phrChipsPerBit o.params.band := by cases o.params.band <;> decide
          exact_mod_cast this
        have := mul_pos (mul_pos (show (0 : ℝ) < 20 by norm_num) hP) hE
        linarith
      exact ⟨he.1, he.2, (main he.1 he.2).1 e⟩
    · rintro ⟨e1, e2, e3⟩
      exact (main e1 e2).2 e3
  constructor
  · intro e
    have hok3 : ((oqpskBitsToIQ a').call o').1 = .ok (iq, fs') := by rw [e]; exact hok'
    have hb := same_layer h h' hA hA' ha ha' hok hok3
    have hs := same_sps h h' hA hA' ha ha' hok hok3
    exact ⟨hb, hs, (step hb hs).1 e⟩
  · rintro ⟨hb, hs, e⟩
    exact (step hb hs).2 e

/-- **C135 (octets).**  If two audible signals of octet messages have the same samples, the bands share a physical layer, samples per symbol, spreading mode, rate mode and number of octets
agree, and so do the messages if they are sent by DSSS and have at most 7 octets. -/
theorem C135_octets (o o' : OqpskObj) (h : Standard o.params) (h' : Standard o'.params) (hA : C60.Audible o.params.band o.params.sps)
    (hA' : C60.Audible o'.params.band o'.params.sps) (a a' : Arg) (msg msg' : List UInt8) (hd : C01.Denotes a msg) (hd' : C01.Denotes a' msg') (h0 : msg ≠ []) (h0' : msg' ≠ [])
    (iq : List ℂ) (fs fs' : ℚ) (hok : ((oqpskBytesToIQ a).call o).1 = .ok (iq, fs)) (hok' : ((oqpskBytesToIQ a').call o').1 = .ok (iq, fs')) :
    SameLayer o.params.band o'.params.band ∧ o.params.sps = o'.params.sps ∧ o.params.sm = o'.params.sm ∧ o.params.rm = o'.params.rm ∧ fs = fs' ∧
      msg.length = msg'.length ∧ (o.params.sm = 0 → msg.length ≤ 7 → msg = msg') := by
  obtain ⟨m, e, hm, ha, hb⟩ := C116.octets_bits hd h0 hok
  obtain ⟨m', e', hm', ha', hb'⟩ := C116.octets_bits hd' h0' hok'
  obtain ⟨r1, r2, r3, r4, r5, r6⟩ := (C135_exact o o' h h' hA hA' _ _ m m' ha ha' iq iq fs fs' hb hb').1 rfl
  refine ⟨r1, r2, r3, r4, ?_, ?_, ?_⟩
  · obtain ⟨-, -, -, -, f⟩ := C60.api_ref o h _ m ha iq fs hb
    obtain ⟨-, -, -, -, f'⟩ := C60.api_ref o' h' _ m' ha' iq fs' hb'
    rw [f, f', rate_layer r1, r2, r3, r4]
  · rcases h.mode with s0 | ⟨s1, -⟩
    · have := (r5 s0).1; omega
    · have := r6 s1; omega
  · intro s0 h7
    obtain ⟨hl, hk⟩ := r5 s0
    have : m = m' := by
      apply List.ext_getElem?
      intro k
      by_cases hk' : k < m.length
      · exact hk k hk' (Or.inl (by omega))
      · rw [List.getElem?_eq_none (by omega), List.getElem?_eq_none (by omega)]
    rw [← C100.octets_ok a msg hd h0 m e, ← C100.octets_ok a' msg' hd' h0' m' e', this]

/-! Non-vacuity: on every band one octet is modulated audibly with 4 samples per symbol; the bands fall into five layers. -/
example : ∀ (b : Band) (x : UInt8), C63.Standard ⟨b, 0, 0, 4⟩ ∧ C60.Audible b 4 ∧ ∃ r, ((oqpskBytesToIQ (.bytes [x])).call { params := ⟨b, 0, 0, 4⟩ }).1 = .ok r := by
  intro b x
  have hs : C63.Standard ⟨b, 0, 0, 4⟩ := ⟨⟨le_rfl, show (0 : Int) ≤ 3 by decide⟩, Or.inl rfl, show 1 ≤ 4 by decide⟩
  have := C68.C68_bytes { params := ⟨b, 0, 0, 4⟩ } hs (.bytes [x]) [x] rfl (by simp) (by simp)
  simp only at this
  have h4 : fourBitGroups b (0 : Int).toNat = false := by cases b <;> decide
  rw [if_neg (by rw [h4]; simp)] at this
  exact ⟨hs, by unfold C60.Audible; split <;> decide, _, this⟩
example : SameLayer .b470 .b950 ∧ SameLayer .b780 .b917 ∧ ¬ SameLayer .b868 .b920 ∧ ¬ SameLayer .b780 .b915 ∧ ¬ SameLayer .b915 .b2450 := by decide

end
end SunPhy.C135
