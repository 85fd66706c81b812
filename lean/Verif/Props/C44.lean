import Verif.Props.C42
import Mathlib.Tactic.Linarith
/-
C44 — MR-FSK modulates every acceptable message.  True in exact arithmetic; false in IEEE double precision, because the number of samples of the
time axis `np.arange(0, dt*n, dt)` may come out one too large.
C65 — size of MR-FSK frames.
-/
namespace SunPhy.C44
open SunPhy Complex C42 C35

/-- Number of bits after the SHR for `octets` octets. -/
def bodySize (p : FskParams) (octets : Nat) : Nat :=
  if p.fecEnabled then 2 * (16 + 8 * octets + 3 + if octets % 2 = 0 then 13 else 5) else 16 + 8 * octets

/-- **C65 (frame size).**  Every octet message of 1..2047 octets yields a frame, and its number of bits is that of SHR, header and payload. -/
theorem C65_frame_size (o : FskObj) (a : Arg) (msg : List UInt8) (h : C01.Denotes a msg) (h1 : 1 ≤ msg.length) (h2 : msg.length ≤ 2047) :
    ∃ m bits : Bits, toBinaryArray a = .ok m ∧ ((fskBinary (bitsArg m)).call o).1 = .ok bits ∧
      bits.length = shrSize o.params + bodySize o.params msg.length := by
  obtain ⟨m, e, hl, -⟩ := C01.C01_lsb_first a msg h (by intro e; rw [e] at h1; simp at h1)
  have hne : m ≠ [] := by intro e; rw [e, List.length_nil] at hl; omega
  have hc := C03.C03_identity m hne
  obtain ⟨bits, hb⟩ := (C37.C37_frames o (bitsArg m) m hc (by omega)).1.2 (.inl (by omega))
  refine ⟨m, bits, e, hb, ?_⟩
  obtain ⟨m', hdr, u, hm', hp, hu, hlen, -, -⟩ := C40_whitening o _ bits hb
  rw [hc] at hm'
  obtain rfl := Except.ok.inj hm'
  have h16 : hdr.length = 16 := by
    obtain ⟨hdr', e', hh⟩ := (C35_header o.params (m.length / 8)).1 (by omega)
    rw [hp] at e'
    obtain rfl := Except.ok.inj e'
    exact isHeader_length hh
  rw [hlen]
  congr 1
  unfold bodySize
  have hfl : (fskFec o.params.fecScheme (hdr ++ m)).length = 2 * (16 + 8 * msg.length + 3 + if msg.length % 2 = 0 then 13 else 5) := by
    rw [fskFec_length, List.length_append, h16, hl, show (16 + 8 * msg.length) / 8 % 2 = msg.length % 2 by omega]
  rcases hu with ⟨hf, rfl⟩ | ⟨hf, -, rfl⟩ | ⟨hf, -, hu⟩
  · rw [hf]; simp [h16, hl]
  · rw [hf, hfl]; simp
  · rw [(C37.C39_involution _ _ hu).2, hf, hfl]; simp

theorem frame_even (p : FskParams) (octets : Nat) : (shrSize p + bodySize p octets) % bitsPerSymbol p.modulation = 0 := by
  unfold shrSize bodySize
  cases p.modulation with
  | FSK2 => simp [bitsPerSymbol]; omega
  | FSK4 => simp only [bitsPerSymbol, C34.preambleUnit, C34.sfdLength]; split <;> omega

/-- The result of `bytesToIQ` on an octet message is that of the modulator on the frame bits. -/
theorem bytes_modulator (rn : Rat → Rat) (o : FskObj) (a : Arg) (msg : List UInt8) (h : C01.Denotes a msg) (h1 : 1 ≤ msg.length) (h2 : msg.length ≤ 2047) :
    ∃ m bits : Bits, toBinaryArray a = .ok m ∧ ((fskBinary (bitsArg m)).call o).1 = .ok bits ∧
      bits.length = shrSize o.params + bodySize o.params msg.length ∧
      ((fskBytesToIQ rn a).call o).1 = fskModulator rn o.params bits 20 := by
  obtain ⟨m, bits, e, hb, hl⟩ := C65_frame_size o a msg h h1 h2
  refine ⟨m, bits, e, hb, hl, ?_⟩
  rw [(fskBytesToIQ_result rn a o).1]
  unfold fskBytesResult fskResult
  rw [(fskBinary_result (bitsArg m) o).1] at hb
  rw [e]
  simp only
  cases hc : checkBinaryArray (bitsArg m) with
  | error e => rw [hc] at hb; cases hb
  | ok m' =>
    rw [hc] at hb
    simp only at hb ⊢
    rw [hb]

/-- **C44 (partial: exact arithmetic).**  If the time axis is computed without rounding, `bytesToIQ` returns samples for every configuration and
every message of 1..2047 octets.  Missing from the full statement: IEEE double precision, where it is false (`C44_double_fails`). -/
theorem C44_exact_partial (o : FskObj) (hr : 1 ≤ o.params.symbolRate) (a : Arg) (msg : List UInt8) (h : C01.Denotes a msg) (h1 : 1 ≤ msg.length)
    (h2 : msg.length ≤ 2047) : ∃ (iq : List ℂ) (fs : ℚ), ((fskBytesToIQ id a).call o).1 = .ok (iq, fs) := by
  obtain ⟨m, bits, -, -, hl, e⟩ := bytes_modulator id o a msg h h1 h2
  have hm : bits.length % fskStepBits o.params.modulation = 0 := by rw [hl, bps_eq]; exact frame_even _ _
  rw [fskModulator_ok id o.params bits 20 (by decide) hm (fskArange_exact (by omega) (by decide) _)] at e
  exact ⟨_, _, e⟩

/-! ### Rounding -/

/-- A rounding of positive numbers with relative error at most `2^-53`. -/
def Rounds (rn : Rat → Rat) : Prop := ∀ q : ℚ, 0 < q → |rn q - q| ≤ q / 2 ^ 53

theorem id_rounds : Rounds id := by
  intro q hq
  simp only [id, sub_self, abs_zero]
  positivity

theorem log2_bounds {n : Nat} (h : n ≠ 0) : (2 : ℚ) ^ (n.log2 : ℤ) ≤ n ∧ (n : ℚ) < 2 ^ ((n.log2 : ℤ) + 1) := by
  have h1 : 2 ^ n.log2 ≤ n := Nat.log2_self_le h
  have h2 : n < 2 ^ (n.log2 + 1) := Nat.lt_log2_self
  constructor
  · rw [zpow_natCast]; exact_mod_cast h1
  · rw [show ((n.log2 : ℤ) + 1) = ((n.log2 + 1 : ℕ) : ℤ) by push_cast; rfl, zpow_natCast]; exact_mod_cast h2

/-- Rounding to nearest, ties to even, is within 1/2. -/
theorem nearest_err (x : ℚ) (n : ℤ)
    (hn : n = if x - x.floor < 1 / 2 then x.floor else if 1 / 2 < x - x.floor then x.floor + 1 else if x.floor % 2 = 0 then x.floor else x.floor + 1) :
    |(n : ℚ) - x| ≤ 1 / 2 := by
  have h1 : (x.floor : ℚ) ≤ x := Rat.floor_le x
  have h2 : x < x.floor + 1 := by have := Rat.lt_floor_add_one x; push_cast at this; exact this
  subst hn
  split
  · rw [abs_le]; constructor <;> linarith
  · split
    · push_cast; rw [abs_le]; constructor <;> linarith
    · split
      · rw [abs_le]; constructor <;> linarith
      · push_cast; rw [abs_le]; constructor <;> linarith

theorem binary64_rounds : Rounds binary64 := by
  intro q hq
  unfold binary64
  rw [if_neg (by linarith)]
  simp only
  have hnum : 0 < q.num := Rat.num_pos.2 hq
  have hnn : q.num.toNat ≠ 0 := by omega
  obtain ⟨a1, a2⟩ := log2_bounds hnn
  obtain ⟨b1, b2⟩ := log2_bounds q.den_nz
  have hqd : q = (q.num.toNat : ℚ) / q.den := by
    conv_lhs => rw [← Rat.num_div_den q]
    congr 1
    exact_mod_cast (Int.toNat_of_nonneg hnum.le).symm
  generalize q.num.toNat.log2 = A at *
  generalize q.den.log2 = B at *
  have hden : (0 : ℚ) < q.den := by exact_mod_cast q.den_pos
  have hlow : (2 : ℚ) ^ ((A : ℤ) - B - 1) ≤ q := by
    rw [hqd, le_div_iff₀ hden]
    calc (2 : ℚ) ^ ((A : ℤ) - B - 1) * q.den ≤ 2 ^ ((A : ℤ) - B - 1) * 2 ^ ((B : ℤ) + 1) := by gcongr
      _ = 2 ^ (A : ℤ) := by rw [← zpow_add₀ (by norm_num)]; congr 1; ring
      _ ≤ _ := a1
  set e : ℤ := if (2 : ℚ) ^ 52 * 2 ^ ((A : ℤ) - B - 52) ≤ q then (A : ℤ) - B - 52 else (A : ℤ) - B - 52 - 1 with he
  have hpos : (0 : ℚ) < 2 ^ e := by positivity
  have hx : (2 : ℚ) ^ 52 ≤ q / 2 ^ e := by
    rw [le_div_iff₀ hpos]
    by_cases hc : (2 : ℚ) ^ 52 * 2 ^ ((A : ℤ) - B - 52) ≤ q
    · rw [he, if_pos hc]; exact hc
    · rw [he, if_neg hc]
      calc (2 : ℚ) ^ 52 * 2 ^ ((A : ℤ) - B - 52 - 1) = 2 ^ (52 : ℤ) * 2 ^ ((A : ℤ) - B - 52 - 1) := by norm_num
        _ = 2 ^ ((A : ℤ) - B - 1) := by rw [← zpow_add₀ (by norm_num)]; congr 1; ring
        _ ≤ q := hlow
  have herr := nearest_err (q / 2 ^ e) _ rfl
  generalize (if q / 2 ^ e - (q / 2 ^ e).floor < 1 / 2 then (q / 2 ^ e).floor else if 1 / 2 < q / 2 ^ e - (q / 2 ^ e).floor then (q / 2 ^ e).floor + 1
    else if (q / 2 ^ e).floor % 2 = 0 then (q / 2 ^ e).floor else (q / 2 ^ e).floor + 1) = n at herr ⊢
  have e1 : (n : ℚ) * 2 ^ e - q = ((n : ℚ) - q / 2 ^ e) * 2 ^ e := by field_simp
  rw [e1, abs_mul, abs_of_pos hpos]
  calc |(n : ℚ) - q / 2 ^ e| * 2 ^ e ≤ 1 / 2 * 2 ^ e := by gcongr
    _ ≤ (q / 2 ^ e) / 2 ^ 53 * 2 ^ e := by
        apply mul_le_mul_of_nonneg_right _ hpos.le
        rw [le_div_iff₀ (by norm_num)]
        calc (1 / 2 * 2 ^ 53 : ℚ) = 2 ^ 52 := by norm_num
          _ ≤ _ := hx
    _ = q / 2 ^ 53 := by field_simp

/-- **C44 (the only possible deviation).**  With any rounding of relative error at most `2^-53` (double precision in particular), the time axis has
the right number of samples or exactly one too many. -/
theorem C44_length (rn : Rat → Rat) (hrn : Rounds rn) (rate sps n : Nat) (hr : 1 ≤ rate) (hs : 1 ≤ sps) (hn : 1 ≤ n) (hn2 : n < 2 ^ 50) :
    fskArangeLen rn rate sps n = n ∨ fskArangeLen rn rate sps n = n + 1 := by
  have pos : ∀ q : ℚ, 0 < q → 0 < rn q := by
    intro q hq
    have := (abs_le.1 (hrn q hq)).1
    have h2 : q / 2 ^ 53 < q := by rw [div_lt_iff₀ (by norm_num)]; linarith
    linarith
  have hR : (0 : ℚ) < rate := by exact_mod_cast hr
  have hS : (0 : ℚ) < sps := by exact_mod_cast hs
  have hN : (0 : ℚ) < n := by exact_mod_cast hn
  have hdt : 0 < fskDt rn rate sps := pos _ (div_pos (pos _ (by positivity)) hS)
  unfold fskArangeLen
  simp only
  generalize fskDt rn rate sps = dt at hdt
  have hy := hrn (dt * n) (by positivity)
  have hy0 := pos (dt * n) (by positivity)
  generalize rn (dt * n) = y at hy hy0
  have hz := hrn (y / dt) (by positivity)
  generalize rn (y / dt) = z at hz
  have hw : |y / dt - n| ≤ n / 2 ^ 53 := by
    rw [show y / dt - n = (y - dt * n) / dt by field_simp, abs_div, abs_of_pos hdt, div_le_iff₀ hdt]
    calc |y - dt * n| ≤ _ := hy
      _ = _ := by ring
  generalize y / dt = w at hz hw
  have hN2 : (n : ℚ) < 2 ^ 50 := by exact_mod_cast hn2
  rw [abs_le] at hz hw
  have hb1 : (n : ℚ) / 2 ^ 53 < 1 / 8 := by rw [div_lt_iff₀ (by norm_num)]; norm_num at hN2 ⊢; linarith
  have hb2 : w / 2 ^ 53 < 1 / 4 := by rw [div_lt_iff₀ (by norm_num)]; norm_num at hN2 ⊢; linarith [hw.2]
  have hlo : (n : ℚ) - 1 < z := by linarith [hz.1, hw.1]
  have hhi : z ≤ (n : ℚ) + 1 := by linarith [hz.2, hw.2]
  have c1 : z.ceil ≤ (n : ℤ) + 1 := by rw [Rat.ceil_le_iff]; push_cast; exact hhi
  have c2 : (n : ℤ) - 1 < z.ceil := by rw [Rat.lt_ceil_iff]; push_cast; exact hlo
  omega

/-- **C44 (no other outcome).**  With double precision (any rounding as above) an octet message either gives the samples of the exact arithmetic or
raises `ValueError`. -/
theorem C44_outcome (rn : Rat → Rat) (hrn : Rounds rn) (o : FskObj) (hr : 1 ≤ o.params.symbolRate) (hpre : o.params.preambleLength ≤ 1000) (a : Arg)
    (msg : List UInt8) (h : C01.Denotes a msg) (h1 : 1 ≤ msg.length) (h2 : msg.length ≤ 2047) :
    ((fskBytesToIQ rn a).call o).1 = .error .ValueError ∨
    ∃ (iq : List ℂ) (fs fs' : ℚ), ((fskBytesToIQ rn a).call o).1 = .ok (iq, fs) ∧ ((fskBytesToIQ id a).call o).1 = .ok (iq, fs') := by
  obtain ⟨m, bits, e1, hb, hl, e⟩ := bytes_modulator rn o a msg h h1 h2
  obtain ⟨m', bits', e1', hb', -, e'⟩ := bytes_modulator id o a msg h h1 h2
  rw [e1] at e1'
  obtain rfl := Except.ok.inj e1'
  rw [hb] at hb'
  obtain rfl := Except.ok.inj hb'
  have hm : bits.length % fskStepBits o.params.modulation = 0 := by rw [hl, bps_eq]; exact frame_even _ _
  rw [fskModulator_ok id o.params bits 20 (by decide) hm (fskArange_exact (by omega) (by decide) _)] at e'
  have hge : 16 ≤ bits.length := by rw [hl]; unfold bodySize; split <;> omega
  have hle : bits.length < 2 ^ 40 := by
    rw [hl]
    unfold bodySize shrSize
    have : C34.preambleUnit o.params.modulation ≤ 16 := by cases o.params.modulation <;> decide
    have : C34.sfdLength o.params.modulation ≤ 32 := by cases o.params.modulation <;> decide
    have : o.params.preambleLength * C34.preambleUnit o.params.modulation ≤ 1000 * 16 := Nat.mul_le_mul hpre ‹_›
    split
    · split <;> omega
    · omega
  have hd : (fskDevs o.params bits).length = bits.length / bitsPerSymbol o.params.modulation := by rw [fskDevs_length, bps_eq]
  have hdge : 8 ≤ (fskDevs o.params bits).length := by rw [hd]; cases o.params.modulation <;> simp only [bitsPerSymbol] <;> omega
  have hdle : (fskDevs o.params bits).length < 2 ^ 40 := by rw [hd]; exact lt_of_le_of_lt (Nat.div_le_self _ _) hle
  rcases C44_length rn hrn o.params.symbolRate 20 (20 * (fskDevs o.params bits).length) hr (by decide) (by omega) (by omega) with hc | hc
  · right
    rw [fskModulator_ok rn o.params bits 20 (by decide) hm hc] at e
    exact ⟨_, _, _, e, e'⟩
  · left
    rw [e, fskModulator_fail rn o.params bits 20 hm (by omega) (by omega) (by omega)]

theorem arange_4000 : fskArangeLen binary64 50000 20 4000 = 4001 := by decide +kernel

/-- **C44 is false in double precision.**  At 50 kHz, 2FSK without FEC and the default preamble, *no* message of 17 octets can be modulated: the time
axis has 4001 entries for 4000 samples and `bytesToIQ` raises `ValueError`. -/
theorem C44_double_fails (h : ℚ) (sfd scheme fcs : Nat) (scramble il : Bool) (o : FskObj)
    (ho : o.params = ⟨50000, h, sfd, .FSK2, false, scheme, fcs, scramble, il, 4⟩) (a : Arg) (msg : List UInt8) (hd : C01.Denotes a msg)
    (hl : msg.length = 17) : ((fskBytesToIQ binary64 a).call o).1 = .error .ValueError := by
  obtain ⟨m, bits, -, -, hbl, e⟩ := bytes_modulator binary64 o a msg hd (by omega) (by omega)
  have h200 : bits.length = 200 := by rw [hbl, hl, ho]; rfl
  have hd : (fskDevs o.params bits).length = 200 := by rw [fskDevs_length, h200, ho]; simp [fskStepBits]
  have hrate : o.params.symbolRate = 50000 := by rw [ho]
  rw [e, fskModulator_fail binary64 o.params bits 20 (by rw [h200, ho]; simp [fskStepBits])]
  · rw [hd, hrate, arange_4000]; decide
  · rw [hd]; decide
  · rw [hd, hrate, arange_4000]; decide

/-- The configuration of `C44_double_fails` is one the constructor accepts, and an acceptable message. -/
example : mrFskInit (.int 50000) (.int 1) (.int 0) (.str "2FSK") (.bool false) (.int 0) (.int 0) (.bool true) (.bool false) (.int 4)
    = .ok ⟨50000, 1, 0, .FSK2, false, 0, 0, true, false, 4⟩ := by decide +kernel
example : C01.Denotes (.bytes (List.replicate 17 0x55)) (List.replicate 17 0x55) := rfl

end SunPhy.C44
