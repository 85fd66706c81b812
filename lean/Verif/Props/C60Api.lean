import Verif.Props.C102
import Verif.Props.C105
import Verif.Props.C57
import Verif.Props.C108
/-
C57, C58, C60, C61, C66, C82, C84, C86 — the waveform properties stated on the signals returned by the public methods.
-/
namespace SunPhy.C60
open SunPhy Spec Complex

/-- Samples per symbol with which the pulse of the band has a non-zero sample (C62_nonzero). -/
def Audible (b : Band) (sps : Nat) : Prop := if b = .b915 ∨ b = .b2450 then 3 ≤ sps else 2 ≤ sps

/-- Chips of synchronisation and physical header. -/
def headChips (b : Band) : Nat := (preambleBits b + 16) * shrChipsPerBit b + 60 * phrChipsPerBit b

/-- The reference signal behind every returned signal, whatever the number of message bits. -/
theorem api_ref (o : OqpskObj) (h : C63.Standard o.params) (a : Arg) (m : Bits) (ha : checkBinaryArray a = .ok m) (iq : List ℂ) (fs : ℚ)
    (hok : ((oqpskBitsToIQ a).call o).1 = .ok (iq, fs)) : let q := o.params
    let c := RefQ.chips q.band (decide (q.sm = 1)) q.rm.toNat m
    c ≠ [] ∧ c.length % 2 = 0 ∧ c.length = C96.frameChipsOf q m.length ∧ iq = RefQ.samples q.band q.sps c ∧
      fs = (RefQ.rate q.band (decide (q.sm = 1)) q.rm.toNat : ℚ) * q.sps := by
  intro q c
  have hne : m ≠ [] := by
    have hacc := (C03.C03_accepts_iff a).1 ⟨m, ha⟩
    have := (C03.C03_validation a).1 hacc
    rw [ha] at this
    rw [Except.ok.inj this]
    cases a <;> simp_all [C03.Acceptable, C03.entries]
  obtain ⟨hbad, hgood⟩ := C108.C108_reference o h a m ha
  by_cases hS : m.length / 8 ≤ 2047 ∧ C96.Spreadable o.params m.length
  · have hr := hgood hS
    rw [hok] at hr
    have he := Prod.mk.inj (Except.ok.inj hr)
    have hs : c.length = C96.frameChipsOf q m.length := (C108.frame_ref h m hne hS.1 hS.2).2
    have hpos := C96.chips_pos o.params m.length
    refine ⟨?_, ?_, hs, he.1, he.2⟩
    · intro hc
      rw [hc, List.length_nil] at hs
      change 0 < C96.frameChipsOf q m.length at hpos
      omega
    · rw [hs]; exact C96.chips_even _ h _
  · rw [hbad hS] at hok; cases hok

/-- **C60 (public method).**  Every signal `bitsToIQ` returns, for a message of any number of bits, carries the chips of the frame of that message (SHR, PHR and
PSDU of the reference transmitter), two per symbol, without interference: sample `sps·k + j` is the chip pair `k` times pulse sample `j`, and
`sps − 1` zeros follow.  The sampling frequency is the data rate times the samples per symbol. -/
theorem C60_api (o : OqpskObj) (h : C63.Standard o.params) (a : Arg) (m : Bits) (ha : checkBinaryArray a = .ok m)
    (iq : List ℂ) (fs : ℚ) (hok : ((oqpskBitsToIQ a).call o).1 = .ok (iq, fs)) :
    let q := o.params
    let chips := RefQ.chips q.band (decide (q.sm = 1)) q.rm.toNat m
    chips.length = C96.frameChipsOf q m.length ∧ chips.length % 2 = 0 ∧
    iq.length = chips.length / 2 * q.sps + q.sps - 1 ∧
    (∀ k j, k < chips.length / 2 → j < q.sps → iq[q.sps * k + j]? =
      some ((chipValue (chips.getD (2 * k) false) + I * chipValue (chips.getD (2 * k + 1) false)) * (pulseSample q.band q.sps j : ℂ))) ∧
    (∀ n, chips.length / 2 * q.sps ≤ n → n < chips.length / 2 * q.sps + q.sps - 1 → iq[n]? = some 0) ∧
    fs = (RefQ.rate q.band (decide (q.sm = 1)) q.rm.toNat : ℚ) * q.sps := by
  intro q chips
  obtain ⟨hne, hev, hl, he⟩ := api_ref o h a m ha iq fs hok
  refine ⟨hl, hev, ?_, ?_, ?_, he.2⟩
  · rw [he.1]; unfold RefQ.samples; simp; rfl
  · intro k j hk hj
    rw [he.1]
    unfold RefQ.samples
    have hlt : q.sps * k + j < chips.length / 2 * q.sps := by
      have := Nat.mul_le_mul_right q.sps (show k + 1 ≤ chips.length / 2 from hk)
      rw [Nat.add_mul, Nat.one_mul, Nat.mul_comm k] at this; omega
    have hs0 : 0 < q.sps := h.sps
    rw [List.getElem?_map, List.getElem?_range (show q.sps * k + j < chips.length / 2 * q.sps + q.sps - 1 by omega), Option.map_some,
      if_pos (show q.sps * k + j < chips.length / 2 * q.sps from hlt),
      show (q.sps * k + j) / o.params.sps = k by
        rw [show o.params.sps = q.sps from rfl, Nat.mul_add_div hs0, Nat.div_eq_of_lt hj, Nat.add_zero],
      show (q.sps * k + j) % o.params.sps = j by rw [show o.params.sps = q.sps from rfl, Nat.mul_add_mod, Nat.mod_eq_of_lt hj]]
  · intro n hn hn2
    rw [he.1]
    unfold RefQ.samples
    rw [List.getElem?_map, List.getElem?_range (show n < chips.length / 2 * q.sps + q.sps - 1 from hn2), Option.map_some,
      if_neg (show ¬ n < chips.length / 2 * q.sps by omega)]

/-- **C60 (receiver).**  From the signal alone, with any non-zero pulse sample `j`, every chip of the frame is a sign. -/
theorem C60_api_demodulate (o : OqpskObj) (h : C63.Standard o.params) (a : Arg) (m : Bits) (ha : checkBinaryArray a = .ok m)
    (iq : List ℂ) (fs : ℚ) (hok : ((oqpskBitsToIQ a).call o).1 = .ok (iq, fs))
    (j : Nat) (hj : j < o.params.sps) (hg : pulseSample o.params.band o.params.sps j ≠ 0) :
    RefQ.chips o.params.band (decide (o.params.sm = 1)) o.params.rm.toNat m =
      (List.range ((iq.length + 1 - o.params.sps) / o.params.sps)).flatMap fun k =>
        [decide (0 < (iq.getD (o.params.sps * k + j) 0).re * pulseSample o.params.band o.params.sps j),
         decide (0 < (iq.getD (o.params.sps * k + j) 0).im * pulseSample o.params.band o.params.sps j)] := by
  obtain ⟨-, hev, hl, hsam, -, -⟩ := C60_api o h a m ha iq fs hok
  have hs0 : 0 < o.params.sps := h.sps
  generalize RefQ.chips o.params.band (decide (o.params.sm = 1)) o.params.rm.toNat m = c at *
  have hn : (iq.length + 1 - o.params.sps) / o.params.sps = c.length / 2 := by
    rw [hl, show c.length / 2 * o.params.sps + o.params.sps - 1 + 1 - o.params.sps = c.length / 2 * o.params.sps by omega, Nat.mul_div_cancel _ hs0]
  rw [hn]
  have key : ∀ k < c.length / 2, [decide (0 < (iq.getD (o.params.sps * k + j) 0).re * pulseSample o.params.band o.params.sps j),
         decide (0 < (iq.getD (o.params.sps * k + j) 0).im * pulseSample o.params.band o.params.sps j)] = [c.getD (2 * k) false, c.getD (2 * k + 1) false] := by
    intro k hk
    rw [List.getD_eq_getElem?_getD, hsam k j hk hj, Option.getD_some, (sample_parts _ _ _).1, (sample_parts _ _ _).2]
    have hp : ∀ b : Bool, decide (0 < (if b then 1 else -1) * pulseSample o.params.band o.params.sps j * pulseSample o.params.band o.params.sps j) = b := by
      intro b
      have := mul_self_pos.2 hg
      cases b
      · simp only [Bool.false_eq_true, if_false, decide_eq_false_iff_not, not_lt]; nlinarith
      · simp only [if_true, decide_eq_true_eq]; nlinarith
    rw [hp, hp]
  have pairs : ∀ (n : Nat) (c : Bits), c.length = 2 * n → (List.range n).flatMap (fun k => [c.getD (2 * k) false, c.getD (2 * k + 1) false]) = c := by
    intro n
    induction n with
    | zero => intro c hc; simp [List.length_eq_zero_iff.1 (show c.length = 0 by omega)]
    | succ n ih =>
      intro c hc
      match c, hc with
      | x :: y :: t, hc =>
        rw [List.range_succ_eq_map, List.flatMap_cons, List.flatMap_map]
        have := ih t (by simp at hc; omega)
        conv_rhs => rw [← this]
        rfl
  rw [List.flatMap_congr (fun k hk => key k (List.mem_range.1 hk)), pairs _ c (by omega)]

/-- **C61 (public method, refutation).**  No signal of `bitsToIQ` has its quadrature component later than its in-phase component: each sample's
imaginary part is plus or minus its real part, and for every delay `d ≥ 1` some sample has a non-zero imaginary part although the in-phase
component is silent (or not started) `d` samples before. -/
theorem C61_api (o : OqpskObj) (h : C63.Standard o.params) (a : Arg) (iq : List ℂ) (fs : ℚ) (hok : ((oqpskBitsToIQ a).call o).1 = .ok (iq, fs)) :
    (∀ v ∈ iq, v.im = v.re ∨ v.im = -v.re) ∧
    (Audible o.params.band o.params.sps → ∀ d, 1 ≤ d → ∃ n v, iq[n]? = some v ∧ v.im ≠ 0 ∧ (n < d ∨ ∃ w, iq[n - d]? = some w ∧ w.re = 0 ∧ w.im = 0)) := by
  obtain ⟨chips, hne, he, hmod⟩ := C105.api_chips o h a iq fs hok
  obtain ⟨r, hr⟩ := C63.rate_ok h
  constructor
  · obtain ⟨iq', e, hv⟩ := C61_aligned o.params chips hne he o.params.sps h.sps r hr
    rw [hmod] at e
    rw [(Prod.mk.inj (Except.ok.inj e)).1]; exact hv
  · intro hg d hd
    obtain ⟨iq', e, hv⟩ := C61_false o.params o.params.sps h.sps ((C62.C62_nonzero _ _).2 hg) r hr chips hne he d hd
    rw [hmod] at e
    rw [(Prod.mk.inj (Except.ok.inj e)).1]; exact hv

/-- **C66 (public method, exact).**  The sampling frequency `bitsToIQ` returns fits the chip rate of the band exactly for rate mode 3 outside
2450 MHz. -/
theorem C66_api (o : OqpskObj) (h : C63.Standard o.params) (a : Arg) (iq : List ℂ) (fs : ℚ) (hok : ((oqpskBitsToIQ a).call o).1 = .ok (iq, fs)) :
    fs = (chipRate o.params.band : ℚ) * o.params.sps / 2 ↔ o.params.rm = 3 ∧ o.params.band ≠ .b2450 := by
  obtain ⟨chips, -, -, hmod⟩ := C105.api_chips o h a iq fs hok
  exact C66_exact_partial o.params chips o.params.sps h.sps iq fs hmod

/-- **C82 (public method).** -/
theorem C82_api (o : OqpskObj) (h : C63.Standard o.params) (a : Arg) (iq : List ℂ) (fs : ℚ) (hok : ((oqpskBitsToIQ a).call o).1 = .ok (iq, fs)) :
    ∀ v ∈ iq, v.im = v.re ∨ v.im = -v.re := (C61_api o h a iq fs hok).1

/-- **C84 (public method).** -/
theorem C84_api (o : OqpskObj) (h : C63.Standard o.params) (a : Arg) (iq : List ℂ) (fs : ℚ) (hok : ((oqpskBitsToIQ a).call o).1 = .ok (iq, fs)) :
    fs = (chipRate o.params.band : ℚ) * o.params.sps / 2 ↔ o.params.rm = 3 ∧ o.params.band ≠ .b2450 := C66_api o h a iq fs hok

/-! ### Pilots -/

theorem pilots_eq (b : Band) : pilots b = (C57.pilotLen b, C57.spacing b) := by cases b <;> rfl

/-- **C57 (public method).**  In the signal of every message, the chips after the SHR and the PHR begin with the pilot of the band, which
is repeated before every started group of `spacing` chips; without the pilots, the chips of the PSDU are left. -/
theorem C57_api (o : OqpskObj) (h : C63.Standard o.params) (a : Arg) (m : Bits) (ha : checkBinaryArray a = .ok m)
    (iq : List ℂ) (fs : ℚ) (hok : ((oqpskBitsToIQ a).call o).1 = .ok (iq, fs)) :
    let q := o.params
    let P := C57.pilotLen q.band
    let M := C57.spacing q.band
    ∃ c body : Bits, iq = RefQ.samples q.band q.sps c ∧ c.drop (headChips q.band) = body ∧
      C57.dropPilots P M body = RefQ.psdu q.band (decide (q.sm = 1)) q.rm.toNat m ∧
      (RefQ.psdu q.band (decide (q.sm = 1)) q.rm.toNat m).length = C96.psduChipsOf q m.length ∧
      body.length = C96.psduChipsOf q m.length + (C96.psduChipsOf q m.length + M - 1) / M * P ∧
      ∀ g < (C96.psduChipsOf q m.length + M - 1) / M, (body.drop (g * (P + M))).take P = RefQ.pilot q.band := by
  intro q P M
  obtain ⟨-, -, hl, he, -⟩ := api_ref o h a m ha iq fs hok
  have hPb : 0 < P ∧ 0 < M ∧ (RefQ.pilot q.band).length = P := by
    show 0 < C57.pilotLen q.band ∧ 0 < C57.spacing q.band ∧ (RefQ.pilot q.band).length = C57.pilotLen q.band
    cases q.band <;> decide +kernel
  have hwl : ∀ x, (RefQ.withPilots q.band x).length = x.length + (x.length + M - 1) / M * P := by
    intro x; unfold RefQ.withPilots; rw [pilots_eq]; simp [M, P]
  have hpl : (RefQ.psdu q.band (decide (q.sm = 1)) q.rm.toNat m).length = C96.psduChipsOf q m.length := by
    have hl2 := hl
    unfold RefQ.chips C96.frameChipsOf at hl2
    rw [List.length_append, List.length_append, C102.shr_length, C102.phr_length, hwl, pilots_eq] at hl2
    unfold RxQ.phrStart at hl2
    change _ + _ + (_ + (_ + M - 1) / M * P) = _ + _ + C96.psduChipsOf q m.length + (C96.psduChipsOf q m.length + M - 1) / M * P at hl2
    generalize (RefQ.psdu q.band (decide (q.sm = 1)) q.rm.toNat m).length = x at hl2 ⊢
    generalize C96.psduChipsOf q m.length = y at hl2 ⊢
    have e2 : x + (x + M - 1) / M * P = y + (y + M - 1) / M * P := by
      omega
    rcases lt_trichotomy x y with hc | hc | hc
    · have := Nat.mul_le_mul_right P (Nat.div_le_div_right (c := M) (show x + M - 1 ≤ y + M - 1 by omega)); omega
    · exact hc
    · have := Nat.mul_le_mul_right P (Nat.div_le_div_right (c := M) (show y + M - 1 ≤ x + M - 1 by omega)); omega
  have hdrop : (RefQ.chips q.band (decide (q.sm = 1)) q.rm.toNat m).drop (headChips q.band) =
      RefQ.withPilots q.band (RefQ.psdu q.band (decide (q.sm = 1)) q.rm.toNat m) := by
    unfold RefQ.chips
    rw [List.drop_append_of_le_length (by rw [List.length_append, C102.shr_length, C102.phr_length]; exact le_rfl),
      List.drop_of_length_le (by rw [List.length_append, C102.shr_length, C102.phr_length]; exact le_rfl), List.nil_append]
  refine ⟨_, _, he, hdrop, ?_, hpl, ?_, ?_⟩
  · rw [← pilots_ref]; exact C57.C57_recover q _
  · rw [hwl, hpl]
  · intro g hg
    have hlen := hwl (RefQ.psdu q.band (decide (q.sm = 1)) q.rm.toNat m)
    rw [hpl] at hlen
    have hfit : g * (P + M) + P ≤ C96.psduChipsOf q m.length + (C96.psduChipsOf q m.length + M - 1) / M * P := by
      generalize C96.psduChipsOf q m.length = y at *
      have h3 := Nat.mul_le_mul_right P (show g + 1 ≤ (y + M - 1) / M from hg)
      have h4 : (g + 1) * M ≤ y + M - 1 := le_trans (Nat.mul_le_mul_right M (show g + 1 ≤ (y + M - 1) / M from hg)) (Nat.div_mul_le_self _ _)
      rw [Nat.add_mul, Nat.one_mul] at h3 h4
      rw [Nat.mul_add]; omega
    apply List.ext_getElem?
    intro k
    by_cases hk : k < P
    · rw [List.getElem?_take_of_lt hk, List.getElem?_drop]
      unfold RefQ.withPilots
      rw [pilots_eq]
      simp only
      rw [List.getElem?_map, List.getElem?_range (by rw [hpl]; change _ < _ + (_ + M - 1) / M * P; omega), Option.map_some]
      change some (if (g * (P + M) + k) % (P + M) < P then _ else _) = _
      have hmod : (g * (P + M) + k) % (P + M) = k := by rw [Nat.mul_comm, Nat.mul_add_mod, Nat.mod_eq_of_lt (by omega)]
      rw [hmod, if_pos hk, List.getD_eq_getElem?_getD, List.getElem?_eq_getElem (by rw [hPb.2.2]; exact hk)]; rfl
    · rw [List.getElem?_eq_none (by simp; omega), List.getElem?_eq_none (by rw [hPb.2.2]; omega)]

theorem first_code (b : Band) : ((List.range (C57.pilotLen b)).map fun k => (RefQ.shr b).getD k false) = RefQ.pilot b ↔ b ≠ .b2450 := by
  cases b <;> decide +kernel

theorem parity_facts (b : Band) : headChips b % 2 = 0 ∧ C57.pilotLen b % 2 = 0 ∧ C57.pilotLen b ≤ (preambleBits b + 16) * shrChipsPerBit b := by
  cases b <;> decide

/-- **C58 (public method, exact).**  In the signal of every message, the samples of the first pilot repeat the samples of the first bit of the
preamble (a bit 0) — the pilot is the SHR code of bit 0 — exactly in the bands other than 2450 MHz. -/
theorem C58_api (o : OqpskObj) (h : C63.Standard o.params) (hsps : Audible o.params.band o.params.sps) (a : Arg) (m : Bits)
    (ha : checkBinaryArray a = .ok m) (iq : List ℂ) (fs : ℚ)
    (hok : ((oqpskBitsToIQ a).call o).1 = .ok (iq, fs)) :
    let q := o.params
    (∀ k < C57.pilotLen q.band / 2 * q.sps, iq[headChips q.band / 2 * q.sps + k]? = iq[k]?) ↔ q.band ≠ .b2450 := by
  have base := C60_api o h a m ha iq fs hok
  simp only at base ⊢
  obtain ⟨hl, hev, hlen, hsam, -, -⟩ := base
  clear hok
  generalize o.params = q at *
  rw [← first_code]
  obtain ⟨hH, hP2, hPS⟩ := parity_facts q.band
  have hs0 : 0 < q.sps := h.sps
  have hPl : (RefQ.pilot q.band).length = C57.pilotLen q.band := by cases q.band <;> decide +kernel
  have hfit : headChips q.band + C57.pilotLen q.band ≤ (RefQ.chips q.band (decide (q.sm = 1)) q.rm.toNat m).length := by
    rw [show (RefQ.chips q.band (decide (q.sm = 1)) q.rm.toNat m).length = _ from hl]
    unfold C96.frameChipsOf headChips
    rw [pilots_eq]
    change _ ≤ _ + _ + C96.psduChipsOf q m.length + (C96.psduChipsOf q m.length + C57.spacing q.band - 1) / C57.spacing q.band * C57.pilotLen q.band
    have hpos : 0 < C96.psduChipsOf q m.length := by
      unfold C96.psduChipsOf C96.codedBits
      have h3 : q.rm.toNat = 0 ∨ q.rm.toNat = 1 ∨ q.rm.toNat = 2 ∨ q.rm.toNat = 3 := by have := h.rate; change 0 ≤ q.rm ∧ q.rm ≤ 3 at this; omega
      have hb : 1 ≤ blocks63 (m.length / 8) := by unfold blocks63; omega
      split
      · rcases h3 with h3 | h3 | h3 | h3 <;> rw [h3] <;> cases q.band <;> decide
      · rcases h3 with h3 | h3 | h3 | h3 <;> rw [h3] <;> cases q.band <;> simp only [psduGroup] <;> omega
    have hM : 0 < C57.spacing q.band := C57.spacing_pos _
    have : 1 ≤ (C96.psduChipsOf q m.length + C57.spacing q.band - 1) / C57.spacing q.band := by
      rw [Nat.le_div_iff_mul_le hM]; omega
    have := Nat.mul_le_mul_right (C57.pilotLen q.band) this
    omega
  have hcs : ∀ k < C57.pilotLen q.band, (RefQ.chips q.band (decide (q.sm = 1)) q.rm.toNat m).getD k false = (RefQ.shr q.band).getD k false := by
    intro k hk
    unfold RefQ.chips
    rw [List.append_assoc, List.getD_eq_getElem?_getD, List.getElem?_append_left (by rw [C102.shr_length]; unfold RxQ.phrStart; omega), List.getD_eq_getElem?_getD]
  have hcp : ∀ k < C57.pilotLen q.band, (RefQ.chips q.band (decide (q.sm = 1)) q.rm.toNat m).getD (headChips q.band + k) false = (RefQ.pilot q.band).getD k false := by
    intro k hk
    have hll : (RefQ.shr q.band ++ RefQ.phr q.band (decide (q.sm = 1)) q.rm.toNat (m.length / 8)).length = headChips q.band := by
      rw [List.length_append, C102.shr_length, C102.phr_length]; rfl
    have hfit2 := hfit
    unfold RefQ.chips at hfit2 ⊢
    rw [List.length_append, hll] at hfit2
    rw [List.getD_eq_getElem?_getD, List.getElem?_append_right (by omega), hll, Nat.add_sub_cancel_left]
    have hwl : (RefQ.withPilots q.band (RefQ.psdu q.band (decide (q.sm = 1)) q.rm.toNat m)).length =
        (RefQ.psdu q.band (decide (q.sm = 1)) q.rm.toNat m).length + ((RefQ.psdu q.band (decide (q.sm = 1)) q.rm.toNat m).length + C57.spacing q.band - 1) / C57.spacing q.band * C57.pilotLen q.band := by
      unfold RefQ.withPilots; rw [pilots_eq]; simp
    rw [hwl] at hfit2
    unfold RefQ.withPilots
    rw [pilots_eq]
    simp only
    have hM := C57.spacing_pos q.band
    rw [List.getElem?_map, List.getElem?_range (by omega), Option.map_some, Nat.mod_eq_of_lt (show k < C57.pilotLen q.band + C57.spacing q.band by omega), if_pos hk]
    rfl
  have e1 : ((List.range (C57.pilotLen q.band)).map fun k => (RefQ.shr q.band).getD k false) = RefQ.pilot q.band ↔
      ∀ k < C57.pilotLen q.band, (RefQ.shr q.band).getD k false = (RefQ.pilot q.band).getD k false := by
    constructor
    · intro e k hk
      have := congrArg (fun l : Bits => l.getD k false) e
      rw [List.getD_eq_getElem?_getD, List.getElem?_map, List.getElem?_range hk] at this
      exact this
    · intro e
      conv_rhs => rw [getD_eq_range (RefQ.pilot q.band), hPl]
      exact List.map_congr_left fun k hk => e k (List.mem_range.1 hk)
  rw [e1]
  have eH : headChips q.band = 2 * (headChips q.band / 2) := by omega
  constructor
  · intro e k hk
    obtain ⟨j, hj, hg⟩ := (C62.C62_nonzero _ _).2 hsps
    have hk2 : k / 2 < C57.pilotLen q.band / 2 := by omega
    have hlt : q.sps * (k / 2) + j < C57.pilotLen q.band / 2 * q.sps := by
      have := Nat.mul_le_mul_right q.sps (show k / 2 + 1 ≤ C57.pilotLen q.band / 2 from hk2)
      rw [Nat.add_mul, Nat.one_mul, Nat.mul_comm (k / 2)] at this
      omega
    have s1 := hsam (k / 2) j (by omega) hj
    have s2 := hsam (headChips q.band / 2 + k / 2) j (by omega) hj
    have hee := e _ hlt
    rw [show headChips q.band / 2 * q.sps + (q.sps * (k / 2) + j) = q.sps * (headChips q.band / 2 + k / 2) + j by
      ring, s2] at hee
    rw [s1, show 2 * (headChips q.band / 2 + k / 2) = headChips q.band + 2 * (k / 2) by omega, Nat.add_assoc] at hee
    have hinj := Option.some.inj hee
    have hre := congrArg Complex.re hinj
    have him := congrArg Complex.im hinj
    rw [(sample_parts _ _ _).1, (sample_parts _ _ _).1] at hre
    rw [(sample_parts _ _ _).2, (sample_parts _ _ _).2] at him
    have hb : ∀ x y : Bool, ((if x then 1 else -1 : ℝ)) = (if y then 1 else -1) → x = y := by
      intro x y; cases x <;> cases y <;> norm_num
    have hre := hb _ _ (mul_right_cancel₀ hg hre)
    have him := hb _ _ (mul_right_cancel₀ hg him)
    rw [← hcs k hk, ← hcp k hk]
    rcases Nat.mod_two_eq_zero_or_one k with h0 | h0
    · rw [show k = 2 * (k / 2) by omega]
      exact hre.symm
    · rw [show k = 2 * (k / 2) + 1 by omega]
      exact him.symm
  · intro e k hk
    have hkd : k / q.sps < C57.pilotLen q.band / 2 := Nat.div_lt_of_lt_mul (by rw [Nat.mul_comm]; exact hk)
    have hkm : k % q.sps < q.sps := Nat.mod_lt _ hs0
    have s1 := hsam (k / q.sps) (k % q.sps) (by omega) hkm
    have s2 := hsam (headChips q.band / 2 + k / q.sps) (k % q.sps) (by omega) hkm
    have e0 := Nat.div_add_mod k q.sps
    change iq[q.sps * (k / q.sps) + k % q.sps]? = _ at s1
    change iq[q.sps * (headChips q.band / 2 + k / q.sps) + k % q.sps]? = _ at s2
    rw [Nat.mul_add, Nat.add_assoc, e0, Nat.mul_comm q.sps] at s2
    rw [e0] at s1
    rw [s1, s2, show 2 * (headChips q.band / 2 + k / q.sps) = headChips q.band + 2 * (k / q.sps) by omega, Nat.add_assoc]
    change some ((chipValue ((RefQ.chips q.band (decide (q.sm = 1)) q.rm.toNat m).getD _ false) + I * chipValue ((RefQ.chips q.band (decide (q.sm = 1)) q.rm.toNat m).getD _ false)) * _) =
      some ((chipValue ((RefQ.chips q.band (decide (q.sm = 1)) q.rm.toNat m).getD _ false) + I * chipValue ((RefQ.chips q.band (decide (q.sm = 1)) q.rm.toNat m).getD _ false)) * _)
    rw [hcp _ (by omega), hcp _ (by omega), hcs _ (by omega), hcs _ (by omega), e _ (by omega), e _ (by omega)]

/-- **C86 (public method).** -/
theorem C86_api (o : OqpskObj) (h : C63.Standard o.params) (hsps : Audible o.params.band o.params.sps) (a : Arg) (m : Bits)
    (ha : checkBinaryArray a = .ok m) (iq : List ℂ) (fs : ℚ)
    (hok : ((oqpskBitsToIQ a).call o).1 = .ok (iq, fs)) :
    let q := o.params
    (∀ k < C57.pilotLen q.band / 2 * q.sps, iq[headChips q.band / 2 * q.sps + k]? = iq[k]?) ↔ q.band ≠ .b2450 :=
  C58_api o h hsps a m ha iq fs hok

/-- A 5-octet message, 2450 MHz (half sine, four-bit groups would need an even number of blocks: rate mode 0) and 868 MHz: both are modulated. -/
example : ∃ r, ((oqpskBitsToIQ (bitsArg (List.replicate 40 true))).call { params := ⟨.b2450, 0, 0, 4⟩ }).1 = .ok r ∧
    C63.Standard ⟨.b2450, 0, 0, 4⟩ ∧ Audible .b2450 4 := by
  have h := C68.C68_reference { params := ⟨.b2450, 0, 0, 4⟩ } ⟨by decide, by decide, by decide⟩ (bitsArg (List.replicate 40 true)) _
    (C03.C03_identity _ (by decide)) 5 (by decide) (by decide) (by decide)
  simp only at h
  rw [if_neg (by decide)] at h
  exact ⟨_, h, ⟨by decide, by decide, by decide⟩, by unfold Audible; decide⟩
example : ∃ r, ((oqpskBitsToIQ (bitsArg (List.replicate 40 true))).call { params := ⟨.b868, 3, 0, 2⟩ }).1 = .ok r ∧
    C63.Standard ⟨.b868, 3, 0, 2⟩ ∧ Audible .b868 2 := by
  have h := C68.C68_reference { params := ⟨.b868, 3, 0, 2⟩ } ⟨by decide, by decide, by decide⟩ (bitsArg (List.replicate 40 true)) _
    (C03.C03_identity _ (by decide)) 5 (by decide) (by decide) (by decide)
  simp only at h
  rw [if_neg (by decide)] at h
  exact ⟨_, h, ⟨by decide, by decide, by decide⟩, by unfold Audible; decide⟩

end SunPhy.C60
