import Verif.Proofs.FskTailBlock
import Verif.Props.C110
import Verif.Props.C33
/-
C134: the signal of an MR-FSK modulator, together with its sampling frequency, determines the configuration of the modulator and the message.
-/
namespace SunPhy.C134
open SunPhy Spec Complex FskHeader
noncomputable section

/-! ### From samples to bits -/

theorem tone_next (h : ℝ) (d : Int) (i : Nat) : RxF.tone h d (i + 1) = RxF.tone h d i * RxF.tone h d 1 := by
  unfold RxF.tone
  rw [← Complex.exp_add]
  congr 1
  push_cast
  ring

theorem tone_ne (h : ℝ) (d : Int) (i : Nat) : RxF.tone h d i ≠ 0 := Complex.exp_ne_zero _

theorem tone_inj {h h' : ℝ} {d d' : Int} (h0 : 0 < h) (h1 : h ≤ 5 / 2) (h0' : 0 < h') (h1' : h' ≤ 5 / 2) (hd : |d| ≤ 3) (hd' : |d'| ≤ 3)
    (e : RxF.tone h d 1 = RxF.tone h' d' 1) : h * d = h' * d' := by
  have hp := Real.pi_pos
  have bound : ∀ {g : ℝ} {c : Int}, 0 < g → g ≤ 5 / 2 → |c| ≤ 3 → -Real.pi < Real.pi * g * c * (1 : ℕ) / 20 ∧ Real.pi * g * c * (1 : ℕ) / 20 ≤ Real.pi := by
    intro g c g0 g1 hc
    have hc' : |(c : ℝ)| ≤ 3 := by rw [← Int.cast_abs]; exact_mod_cast hc
    obtain ⟨c1, c2⟩ := abs_le.1 hc'
    have k1 : g * c ≤ 15 / 2 := by nlinarith
    have k2 : -(15 / 2) ≤ g * c := by nlinarith
    push_cast
    constructor <;> nlinarith
  unfold RxF.tone at e
  have im : ∀ θ : ℝ, (I * (θ : ℂ)).im = θ := by intro θ; simp
  have := Complex.exp_inj_of_neg_pi_lt_of_le_pi (by rw [im]; exact (bound h0 h1 hd).1) (by rw [im]; exact (bound h0 h1 hd).2)
    (by rw [im]; exact (bound h0' h1' hd').1) (by rw [im]; exact (bound h0' h1' hd').2) e
  have := congrArg Complex.im this
  rw [im, im] at this
  push_cast at this
  have k : Real.pi * (h * d) = Real.pi * (h' * d') := by linarith
  exact mul_left_cancel₀ hp.ne' k

theorem dev_abs (m : FskMod) (b : Bits) (n : Nat) : |RefF.deviation m b n| ≤ 3 := by
  unfold RefF.deviation
  cases m <;> simp only <;> split <;> (try split) <;> decide

theorem samples_get (p : FskParams) (hr : 1 ≤ p.symbolRate) (b : Bits) (i : Nat) (hi : i < 20 * (b.length / RefF.width p.modulation)) :
    (RefF.samples p b)[i]? = some (RxF.tone p.modIndex (RefF.deviation p.modulation b (i / 20)) i) := by
  unfold RefF.samples
  rw [List.getElem?_map, List.getElem?_range hi, Option.map_some, C101.tone_ref p hr]

theorem devs {p p' : FskParams} (hr : 1 ≤ p.symbolRate) (hr' : 1 ≤ p'.symbolRate) (h1 : 1 / 4 ≤ p.modIndex) (h2 : p.modIndex ≤ 5 / 2) (h1' : 1 / 4 ≤ p'.modIndex)
    (h2' : p'.modIndex ≤ 5 / 2) (b b' : Bits) (e : RefF.samples p b = RefF.samples p' b') :
    b.length / RefF.width p.modulation = b'.length / RefF.width p'.modulation ∧
    ∀ n < b.length / RefF.width p.modulation, p.modIndex * RefF.deviation p.modulation b n = p'.modIndex * RefF.deviation p'.modulation b' n := by
  have hl := congrArg List.length e
  simp only [RefF.samples, List.length_map, List.length_range] at hl
  have hl : b.length / RefF.width p.modulation = b'.length / RefF.width p'.modulation := by omega
  refine ⟨hl, fun n hn => ?_⟩
  have g : ∀ i < 20 * (b.length / RefF.width p.modulation), RxF.tone p.modIndex (RefF.deviation p.modulation b (i / 20)) i =
      RxF.tone p'.modIndex (RefF.deviation p'.modulation b' (i / 20)) i := by
    intro i hi
    have := congrArg (·[i]?) e
    beta_reduce at this
    rw [samples_get p hr b i hi, samples_get p' hr' b' i (by omega)] at this
    exact Option.some.inj this
  have g0 := g (20 * n) (by omega)
  have g1 := g (20 * n + 1) (by omega)
  rw [show (20 * n + 1) / 20 = n by omega, tone_next _ _ (20 * n), tone_next _ _ (20 * n)] at g1
  rw [show 20 * n / 20 = n by omega] at g0
  rw [g0] at g1
  have q0 : (0 : ℝ) < p.modIndex := by exact_mod_cast (show (0 : ℚ) < p.modIndex by linarith)
  have q0' : (0 : ℝ) < p'.modIndex := by exact_mod_cast (show (0 : ℚ) < p'.modIndex by linarith)
  have q1 : (p.modIndex : ℝ) ≤ 5 / 2 := by have := (Rat.cast_le (K := ℝ)).2 h2; push_cast at this; exact this
  have q1' : (p'.modIndex : ℝ) ≤ 5 / 2 := by have := (Rat.cast_le (K := ℝ)).2 h2'; push_cast at this; exact this
  have := tone_inj q0 q1 q0' q1' (dev_abs _ _ _) (dev_abs _ _ _) (mul_left_cancel₀ (tone_ne _ _ _) g1)
  exact_mod_cast this

def dv2 (u : Bool) : Int := if u then 1 else -1
def dv4 (u w : Bool) : Int := (if u then 1 else -1) * (if w then 3 else 1)
theorem dev2 (b : Bits) (n : Nat) : RefF.deviation .FSK2 b n = dv2 (b.getD n false) := rfl
theorem dev4 (b : Bits) (n : Nat) : RefF.deviation .FSK4 b n = dv4 (b.getD (2 * n) false) (b.getD (2 * n + 1) false) := rfl
theorem dv2_inj : ∀ u u', dv2 u = dv2 u' → u = u' := by decide
theorem dv4_inj : ∀ u u' w w', dv4 u w = dv4 u' w' → u = u' ∧ w = w' := by decide

theorem dev_inj (m : FskMod) (b b' : Bits) (n : Nat) (h : RefF.deviation m b n = RefF.deviation m b' n) (j : Nat) (hj : j / RefF.width m = n) :
    b.getD j false = b'.getD j false := by
  cases m with
  | FSK2 =>
    simp only [RefF.width, Nat.div_one] at hj
    subst hj
    rw [dev2, dev2] at h
    exact dv2_inj _ _ h
  | FSK4 =>
    simp only [RefF.width] at hj
    rw [dev4, dev4] at h
    obtain ⟨e1, e2⟩ := dv4_inj _ _ _ _ h
    have hj' : j = 2 * n ∨ j = 2 * n + 1 := by omega
    rcases hj' with rfl | rfl
    · exact e1
    · exact e2

/-- The first symbol is the lowest frequency. -/
theorem dev_first (p : FskParams) (m : Bits) (h4 : 4 ≤ p.preambleLength) :
    RefF.deviation p.modulation (RefF.bits p m) 0 = (match p.modulation with | .FSK2 => -1 | .FSK4 => -3) ∧ 0 < (RefF.bits p m).length / RefF.width p.modulation := by
  have hb : RefF.bits p m = RefF.preamble p ++ (RefF.sfd p ++ ((List.range (RefF.body p m).length).map fun i =>
    if p.scramble ∧ (if p.fecEnabled then 32 else 16) ≤ i then xor (Ref.key 0x1FF (i - (if p.fecEnabled then 32 else 16))) (RefF.at_ (RefF.body p m) i) else RefF.at_ (RefF.body p m) i)) := by
    unfold RefF.bits; rw [List.append_assoc]
  rw [hb]
  generalize RefF.sfd p ++ _ = z
  unfold RefF.preamble
  cases hm : p.modulation with
  | FSK2 =>
    have : ((List.range (8 * p.preambleLength)).map (fun i => i % 2 == 1) ++ z).getD 0 false = false := by
      rw [List.getD_eq_getElem?_getD, List.getElem?_append_left (by simp; omega), List.getElem?_map, List.getElem?_range (by omega)]; rfl
    refine ⟨?_, ?_⟩
    · rw [dev2]
      exact (congrArg dv2 this).trans rfl
    · simp only [RefF.width, List.length_append, List.length_map, List.length_range]; omega
  | FSK4 =>
    have k0 : ((List.range (16 * p.preambleLength)).map (fun i => i % 4 != 0) ++ z).getD 0 false = false := by
      rw [List.getD_eq_getElem?_getD, List.getElem?_append_left (by simp; omega), List.getElem?_map, List.getElem?_range (by omega)]; rfl
    have k1 : ((List.range (16 * p.preambleLength)).map (fun i => i % 4 != 0) ++ z).getD 1 false = true := by
      rw [List.getD_eq_getElem?_getD, List.getElem?_append_left (by simp; omega), List.getElem?_map, List.getElem?_range (by omega)]; rfl
    refine ⟨?_, ?_⟩
    · rw [dev4]
      exact (congrArg₂ dv4 k0 k1).trans rfl
    · simp only [RefF.width, List.length_append, List.length_map, List.length_range]; omega

/-! ### Header and body -/

/-- Number of bits before the header. -/
def lead (p : FskParams) : Nat := (RefF.preamble p ++ RefF.sfd p).length

def plain (p : FskParams) : Nat := if p.fecEnabled then 32 else 16

/-- What follows the delimiter. -/
def rest (p : FskParams) (m : Bits) : Bits := (List.range (RefF.body p m).length).map fun i =>
    if p.scramble ∧ plain p ≤ i then xor (Ref.key 0x1FF (i - plain p)) (RefF.at_ (RefF.body p m) i) else RefF.at_ (RefF.body p m) i

theorem bits_rest (p : FskParams) (m : Bits) : RefF.bits p m = RefF.preamble p ++ RefF.sfd p ++ rest p m := rfl

theorem rest_get (p : FskParams) (m : Bits) (i : Nat) (hi : i < (RefF.body p m).length) : (rest p m).getD i false =
    if p.scramble ∧ plain p ≤ i then xor (Ref.key 0x1FF (i - plain p)) ((RefF.body p m).getD i false) else (RefF.body p m).getD i false := by
  unfold rest
  rw [List.getD_eq_getElem?_getD, List.getElem?_map, List.getElem?_range hi]
  rfl

theorem rest_length (p : FskParams) (m : Bits) : (rest p m).length = (RefF.body p m).length := by simp [rest]

theorem plain_le (p : FskParams) (m : Bits) : plain p ≤ (RefF.body p m).length := by
  rw [C69.body_length]; unfold plain; split
  · split <;> omega
  · omega

theorem head_get (p : FskParams) (m : Bits) (i : Nat) (hi : i < plain p) : (RefF.bits p m).getD (lead p + i) false = (RefF.body p m).getD i false := by
  have := plain_le p m
  rw [bits_rest, List.getD_eq_getElem?_getD, List.getElem?_append_right (by unfold lead; omega)]
  unfold lead
  rw [Nat.add_sub_cancel_left, ← List.getD_eq_getElem?_getD, rest_get p m i (by omega), if_neg (by omega)]

theorem hdr (p : FskParams) (n : Nat) : Hdr (RefF.header p n) := by
  refine ⟨by simp [RefF.header, Ref.field], fun i hi => ?_⟩
  unfold RefF.header
  rcases i with _ | _ | _ | i
  · rfl
  · rfl
  · rfl
  · omega

theorem body_coded (p : FskParams) (m : Bits) (h : p.fecEnabled = true) :
    RefF.body p m = sent p.fecScheme p.interleaving (RefF.header p (m.length / 8) ++ m) (RefF.pad (m.length / 8)) := by
  unfold RefF.body sent
  simp only
  rw [if_pos h]

theorem body_plain (p : FskParams) (m : Bits) (h : p.fecEnabled = false) : RefF.body p m = RefF.header p (m.length / 8) ++ m := by
  unfold RefF.body
  simp only
  rw [if_neg (by rw [h]; decide)]

theorem taps_zero (L : Nat) (H : Bits) (h : ∀ n < L, tapSum [0, 1, 2, 3] H n = false) (n : Nat) (hn : n < L) : H.getD n false = false := by
  induction n using Nat.strong_induction_on with
  | _ n ih =>
    have := h n hn
    have d : ∀ k ∈ [1, 2, 3], delayed H n k = false := by
      intro k hk
      unfold delayed
      have : 1 ≤ k := by revert hk; simp; omega
      split
      · exact ih _ (by omega) (by omega)
      · rfl
    unfold tapSum at this
    simp only [List.map_cons, List.map_nil, List.foldr_cons, List.foldr_nil] at this
    rw [d 1 (by simp), d 2 (by simp), d 3 (by simp)] at this
    unfold delayed at this
    simpa using this

theorem length_zero (p : FskParams) (n : Nat) (h2 : n ≤ 2047) (h : ∀ i < 16, (RefF.header p n).getD i false = false) : n = 0 := by
  have : Ref.field 11 n = Ref.field 11 0 := by
    apply List.ext_getElem?
    intro i
    by_cases hi : i < 11
    · have := h (5 + i) (by omega)
      unfold RefF.header at this
      rw [List.getD_eq_getElem?_getD, List.getElem?_append_right (by simp), show 5 + i - [false, false, false, p.fcsType == 1, p.scramble].length = i by simp] at this
      have e : (Ref.field 11 0)[i]? = some false := by
        unfold Ref.field
        rw [List.getElem?_map, List.getElem?_range hi]; simp
      have e' : ∃ u, (Ref.field 11 n)[i]? = some u := ⟨_, List.getElem?_eq_getElem (by simpa [Ref.field] using hi)⟩
      obtain ⟨u, hu⟩ := e'
      rw [hu, Option.getD_some] at this
      rw [hu, e, this]
    · rw [List.getElem?_eq_none (by simp [Ref.field]; omega), List.getElem?_eq_none (by simp [Ref.field]; omega)]
  exact C98.field_inj (by omega) (by omega) this

theorem length_ne (p : FskParams) (n : Nat) (h1 : 1 ≤ n) (h2 : n ≤ 2047) (h : ∀ i < 16, (RefF.header p n).getD i false = false) : False := by
  have := length_zero p n h2 h
  omega

theorem from_inv : ∀ (il : Bool), ∀ i < 32, from' il (from' il i) = i ∧ from' il i % 2 = i % 2 := by decide

/-- Not all symbols of a header are outer frequencies. -/
theorem inner (p : FskParams) (m : Bits) (h1 : 1 ≤ m.length / 8) (h2 : m.length / 8 ≤ 2047) : ∃ i < plain p, i % 2 = 1 ∧ (RefF.body p m).getD i false = false := by
  by_contra hc
  have hall : ∀ i < plain p, i % 2 = 1 → (RefF.body p m).getD i false = true := by
    intro i hi h2
    by_contra hf
    exact hc ⟨i, hi, h2, by simpa using hf⟩
  cases hfec : p.fecEnabled with
  | false =>
    have := hall 1 (by unfold plain; split <;> omega) rfl
    rw [body_plain p m hfec] at this
    cases this
  | true =>
    have hpl : plain p = 32 := by unfold plain; rw [if_pos hfec]
    rw [hpl, body_coded p m hfec] at hall
    have hH := hdr p (m.length / 8)
    set H := RefF.header p (m.length / 8) with hHdef
    set v := vals H H
    have e : H = (vars 0).map (HeaderParity.ev v) := vars_val _ H hH 0 (by omega) fun i hi => by
      unfold v vals; rw [Nat.zero_add, if_pos hi]
    have hout : ∀ i < 32, i % 2 = 1 → HeaderParity.ev v (out p.fecScheme (vars 0) i) = true := by
      intro i hi h2
      obtain ⟨f1, f2⟩ := from_inv p.interleaving i hi
      have k := sent_val p.fecScheme p.interleaving v (top_val H H) (vars 0) (vars_len 0) m (RefF.pad (m.length / 8)) (from' p.interleaving i) (from_lt _ i hi)
      rw [← e, hall _ (from_lt _ i hi) (by omega), f1] at k
      exact k.symm
    by_cases hs : p.fecScheme = 0
    · refine length_ne p _ h1 h2 fun i hi => taps_zero 16 H (fun n hn => ?_) i hi
      have := hout (2 * n + 1) (by omega) (by omega)
      unfold out at this
      rw [if_pos hs, if_neg (by omega), HeaderParity.ev_xor, top_val, show (2 * n + 1) / 2 = n by omega, ← HeaderParity.taps_ev, ← e] at this
      simpa using this
    · have := hout 1 (by omega) rfl
      unfold out at this
      rw [if_neg hs, if_neg (by omega)] at this
      have z : (reg (vars 0) (1 / 2 + 1)).1 ^^^ ((reg (vars 0) (1 / 2)).1 ^^^ ((reg (vars 0) (1 / 2)).2.1 ^^^ (reg (vars 0) (1 / 2)).2.2)) = 0 := by decide
      rw [z, HeaderParity.ev_zero] at this
      cases this

/-- Fewer than 8 bits: the header can be zero, but the padding is not. -/
theorem inner_short (p : FskParams) (m : Bits) (hz : m.length / 8 = 0) (hi : p.interleaving = false) (hf : p.fecEnabled = true) (hs : p.fecScheme = 0) :
    ∃ i < (RefF.body p m).length, i % 2 = 1 ∧ (RefF.body p m).getD i false = false := by
  have hbody : RefF.body p m = RefF.coded 0 (RefF.header p (m.length / 8) ++ m) (RefF.pad (m.length / 8)) := by
    rw [body_coded p m hf, hi, hs]
    rfl
  have hp : RefF.pad (m.length / 8) = Ref.field 13 0xB0B := by unfold RefF.pad; rw [hz]; rfl
  have hl : (RefF.body p m).length = 2 * ((RefF.header p (m.length / 8) ++ m).length + 3 + 13) := by
    rw [hbody, hp]; unfold RefF.coded; rw [List.length_map, List.length_range]; rfl
  by_contra hc
  have hall : ∀ n < (RefF.header p (m.length / 8) ++ m).length + 3 + 13, tapSum [0, 1, 2, 3] (RefF.header p (m.length / 8) ++ m ++ [false, false, false] ++ Ref.field 13 0xB0B) n = false := by
    intro n hn
    by_contra ht
    refine hc ⟨2 * n + 1, by omega, by omega, ?_⟩
    rw [hbody, C101.coded_get _ _ _ _ (by rw [hp]; simp only [Ref.field, List.length_map, List.length_range]; omega), if_pos rfl, if_neg (by omega), show (2 * n + 1) / 2 = n by omega, hp]
    simpa using ht
  have := taps_zero _ _ hall ((RefF.header p (m.length / 8) ++ m).length + 3 + 1) (by omega)
  rw [List.getD_eq_getElem?_getD, List.getElem?_append_right (by simp only [List.length_append, List.length_cons, List.length_nil]; omega)] at this
  rw [show (RefF.header p (m.length / 8) ++ m).length + 3 + 1 - (RefF.header p (m.length / 8) ++ m ++ [false, false, false]).length = 1 by simp only [List.length_append, List.length_cons, List.length_nil]; omega] at this
  revert this
  decide

/-! ### Configurations -/

/-- The ranges of the parameters of a constructed modulator. -/
structure Ranges (p : FskParams) : Prop where
  rate : 1 ≤ p.symbolRate
  low : 1 / 4 ≤ p.modIndex
  high : p.modIndex ≤ 5 / 2
  group : p.sfd ≤ 1
  scheme : p.fecScheme ≤ 1
  fcs : p.fcsType ≤ 1
  pre : 4 ≤ p.preambleLength

/-- A frame that is produced. -/
structure Frame (p : FskParams) (m : Bits) : Prop where
  ranges : Ranges p
  some : 1 ≤ m.length
  most : m.length / 8 ≤ 2047
  octets : p.fecEnabled = true → p.interleaving = true → m.length % 8 = 0
  whole : (RefF.bits p m).length % RefF.width p.modulation = 0

theorem lead4 (p : FskParams) (h : p.modulation = .FSK4) : lead p = 2 * (8 * p.preambleLength + 16) := by
  unfold lead RefF.preamble RefF.sfd
  rw [h]; simp; omega

theorem bits_length (p : FskParams) (m : Bits) : (RefF.bits p m).length = lead p + (RefF.body p m).length := by
  rw [bits_rest, List.length_append, rest_length]; rfl

theorem whole {p : FskParams} {m : Bits} (h : Frame p m) : (RefF.bits p m).length % RefF.width p.modulation = 0 := h.whole

/-- Not all symbols of a frame are outer frequencies. -/
theorem inner_any {p : FskParams} {m : Bits} (h : Frame p m) : ∃ i < (RefF.body p m).length, i % 2 = 1 ∧ (RefF.bits p m).getD (lead p + i) false = false := by
  have hle := plain_le p m
  by_cases h1 : 1 ≤ m.length / 8
  · obtain ⟨i, hi, ho, hz⟩ := inner p m h1 h.most
    exact ⟨i, by omega, ho, by rw [head_get p m i hi, hz]⟩
  have hz : m.length / 8 = 0 := by omega
  by_contra hc
  have hall : ∀ i < (RefF.body p m).length, i % 2 = 1 → (RefF.bits p m).getD (lead p + i) false = true := by
    intro i hi h2
    by_contra hf
    exact hc ⟨i, hi, h2, by simpa using hf⟩
  have hhead : ∀ i < plain p, i % 2 = 1 → (RefF.body p m).getD i false = true := fun i hi ho => by
    rw [← head_get p m i hi]; exact hall i (by omega) ho
  cases hfec : p.fecEnabled with
  | false =>
    have := hhead 1 (by unfold plain; split <;> omega) rfl
    rw [body_plain p m hfec] at this
    cases this
  | true =>
    have hil : p.interleaving = false := by
      cases hi : p.interleaving with
      | false => rfl
      | true => have := h.octets hfec hi; have := h.some; omega
    have hpl : plain p = 32 := by unfold plain; rw [if_pos hfec]
    rw [hpl] at hhead
    have hbody : RefF.body p m = RefF.coded p.fecScheme (RefF.header p (m.length / 8) ++ m) (RefF.pad (m.length / 8)) := by
      rw [body_coded p m hfec, hil]
      rfl
    have hlen : 16 ≤ (RefF.header p (m.length / 8) ++ m).length := by rw [List.length_append, (hdr p _).len]; omega
    have hH : ∀ i < 16, ∀ z : Bits, (RefF.header p (m.length / 8) ++ m ++ z).getD i false = (RefF.header p (m.length / 8)).getD i false := by
      intro i hi z
      rw [List.append_assoc, List.getD_eq_getElem?_getD, List.getElem?_append_left (by rw [(hdr p _).len]; exact hi), ← List.getD_eq_getElem?_getD]
    by_cases hs : p.fecScheme = 0
    · have ht : ∀ n < 16, tapSum [0, 1, 2, 3] (RefF.header p (m.length / 8) ++ m ++ [false, false, false] ++ RefF.pad (m.length / 8)) n = false := by
        intro n hn
        have := hhead (2 * n + 1) (by omega) (by omega)
        rw [hbody, C101.coded_get _ _ _ _ (by omega), if_pos hs, if_neg (by omega), show (2 * n + 1) / 2 = n by omega] at this
        simpa using this
      have h4 := taps_zero 16 _ ht 4 (by omega)
      rw [List.append_assoc, hH 4 (by omega)] at h4
      have hsc : p.scramble = false := h4
      obtain ⟨i, hi, ho, hb⟩ := inner_short p m hz hil hfec hs
      have := hall i hi ho
      rw [bits_rest, List.getD_eq_getElem?_getD, List.getElem?_append_right (by unfold lead; omega)] at this
      unfold lead at this
      rw [Nat.add_sub_cancel_left, ← List.getD_eq_getElem?_getD, rest_get p m i hi, if_neg (by rw [hsc]; simp), hb] at this
      cases this
    · have := hhead 1 (by omega) rfl
      rw [hbody, C101.coded_get _ _ _ _ (by omega), if_neg hs, if_neg (by omega), C101.rsc_second _ _ _ (by omega)] at this
      have h0 := hH 0 (by omega) []
      rw [List.append_nil] at h0
      rw [show 1 / 2 = 0 by rfl, h0] at this
      cases this


theorem no_mix {p p' : FskParams} {m m' : Bits} (h : Frame p m) (h' : Frame p' m') (e : RefF.samples p (RefF.bits p m) = RefF.samples p' (RefF.bits p' m'))
    (e2 : p.modulation = .FSK2) (e4 : p'.modulation = .FSK4) : False := by
  obtain ⟨hl, hd⟩ := devs h.ranges.rate h'.ranges.rate h.ranges.low h.ranges.high h'.ranges.low h'.ranges.high _ _ e
  obtain ⟨f1, f2⟩ := dev_first p m h.ranges.pre
  obtain ⟨f1', f2'⟩ := dev_first p' m' h'.ranges.pre
  rw [e2] at f1 f2 hd hl
  rw [e4] at f1' f2' hd hl
  simp only at f1 f1'
  have h0 := hd 0 f2
  rw [f1, f1'] at h0
  push_cast at h0
  have hh : p.modIndex = 3 * p'.modIndex := by linarith
  have hpos : p'.modIndex ≠ 0 := by have := h'.ranges.low; intro hz; rw [hz] at this; norm_num at this
  obtain ⟨i, hi, ho, hget⟩ := inner_any h'
  have hlead := lead4 p' e4
  have hb := bits_length p' m'
  have hn : (lead p' + i) / 2 < (RefF.bits p m).length / RefF.width .FSK2 := by
    rw [hl]; simp only [RefF.width]; omega
  have := hd _ hn
  rw [hh, dev2, dev4, show 2 * ((lead p' + i) / 2) + 1 = lead p' + i by omega, hget] at this
  have k : (3 : ℚ) * dv2 ((RefF.bits p m).getD ((lead p' + i) / 2) false) = dv4 ((RefF.bits p' m').getD (2 * ((lead p' + i) / 2)) false) false := by
    apply mul_left_cancel₀ hpos
    linarith
  have k' : 3 * dv2 ((RefF.bits p m).getD ((lead p' + i) / 2) false) = dv4 ((RefF.bits p' m').getD (2 * ((lead p' + i) / 2)) false) false := by exact_mod_cast k
  revert k'
  generalize (RefF.bits p m).getD ((lead p' + i) / 2) false = u
  generalize (RefF.bits p' m').getD (2 * ((lead p' + i) / 2)) false = w
  revert u w
  decide

theorem same_mod {p p' : FskParams} {m m' : Bits} (h : Frame p m) (h' : Frame p' m') (e : RefF.samples p (RefF.bits p m) = RefF.samples p' (RefF.bits p' m')) :
    p.modulation = p'.modulation ∧ p.modIndex = p'.modIndex ∧ RefF.bits p m = RefF.bits p' m' := by
  have hm : p.modulation = p'.modulation := by
    cases e1 : p.modulation <;> cases e2 : p'.modulation
    · rfl
    · exact (no_mix h h' e e1 e2).elim
    · exact (no_mix h' h e.symm e2 e1).elim
    · rfl
  obtain ⟨hl, hd⟩ := devs h.ranges.rate h'.ranges.rate h.ranges.low h.ranges.high h'.ranges.low h'.ranges.high _ _ e
  obtain ⟨f1, f2⟩ := dev_first p m h.ranges.pre
  obtain ⟨f1', f2'⟩ := dev_first p' m' h'.ranges.pre
  have h0 := hd 0 f2
  rw [f1, f1', ← hm] at h0
  have hi : p.modIndex = p'.modIndex := by
    cases hmm : p.modulation <;> rw [hmm] at h0 <;> push_cast at h0 <;> linarith
  refine ⟨hm, hi, ?_⟩
  have w1 := whole h
  have w2 := whole h'
  rw [← hm] at w2 hl
  have hw : 0 < RefF.width p.modulation := by cases p.modulation <;> decide
  have hlen : (RefF.bits p m).length = (RefF.bits p' m').length := by
    rw [← Nat.div_add_mod (RefF.bits p m).length (RefF.width p.modulation), ← Nat.div_add_mod (RefF.bits p' m').length (RefF.width p.modulation), w1, w2, hl]
  refine List.ext_getElem? fun j => ?_
  by_cases hj : j < (RefF.bits p m).length
  · have hn : j / RefF.width p.modulation < (RefF.bits p m).length / RefF.width p.modulation := by
      rw [Nat.div_lt_iff_lt_mul hw, Nat.div_mul_cancel (Nat.dvd_of_mod_eq_zero w1)]; exact hj
    have q := hd _ hn
    rw [← hm, ← hi] at q
    have hpos : p.modIndex ≠ 0 := by have := h.ranges.low; intro hz; rw [hz] at this; norm_num at this
    have q' : RefF.deviation p.modulation (RefF.bits p m) (j / RefF.width p.modulation) = RefF.deviation p.modulation (RefF.bits p' m') (j / RefF.width p.modulation) := by
      exact_mod_cast mul_left_cancel₀ hpos q
    have := dev_inj _ _ _ _ q' j rfl
    rw [List.getD_eq_getElem?_getD, List.getD_eq_getElem?_getD, List.getElem?_eq_getElem hj, List.getElem?_eq_getElem (by omega)] at this
    rw [List.getElem?_eq_getElem hj, List.getElem?_eq_getElem (by omega)]
    exact congrArg some this
  · rw [List.getElem?_eq_none (by omega), List.getElem?_eq_none (by omega)]

theorem binary {p : FskParams} {m : Bits} (h : Frame p m) : ((fskBinary (bitsArg m)).call { params := p }).1 = .ok (RefF.bits p m) := by
  have hne : m ≠ [] := by rintro rfl; have := h.some; simp at this
  rw [C69.C69_bits _ _ m (C03.C03_identity m hne), if_neg]
  have := h.most
  rintro (h1 | ⟨h1, h2, h3⟩)
  · omega
  · exact h3 (h.octets h1 h2)

theorem shr_le {p p' : FskParams} {m m' : Bits} (h : Frame p m) (h' : Frame p' m') (hm : p.modulation = p'.modulation) (hb : RefF.bits p m = RefF.bits p' m')
    (hle : C110.place p ≤ C110.place p') : p.preambleLength = p'.preambleLength ∧ p.sfd = p'.sfd ∧ p.fecEnabled = p'.fecEnabled := by
  have a := C110.C110_present { params := p } (bitsArg m) _ (binary h)
  have b := C110.C110_distance { params := p' } (bitsArg m') _ (binary h') h'.ranges.group p.sfd h.ranges.group p.fecEnabled (C110.place p) hle
  simp only at a b
  rw [hm, hb] at a
  rw [a, hamming_self] at b
  have : ¬ (C110.place p ≠ C110.place p' ∨ p'.sfd ≠ p.sfd ∨ p'.fecEnabled ≠ p.fecEnabled) := by
    intro hc
    have := b hc
    split at this <;> omega
  simp only [not_or, not_not] at this
  obtain ⟨k1, k2, k3⟩ := this
  refine ⟨?_, k2.symm, k3.symm⟩
  unfold C110.place at k1
  rw [hm] at k1
  exact Nat.eq_of_mul_eq_mul_right (by cases p'.modulation <;> decide) k1

theorem same_shr {p p' : FskParams} {m m' : Bits} (h : Frame p m) (h' : Frame p' m') (hm : p.modulation = p'.modulation) (hb : RefF.bits p m = RefF.bits p' m') :
    p.preambleLength = p'.preambleLength ∧ p.sfd = p'.sfd ∧ p.fecEnabled = p'.fecEnabled := by
  rcases Nat.le_total (C110.place p) (C110.place p') with hle | hle
  · exact shr_le h h' hm hb hle
  · obtain ⟨k1, k2, k3⟩ := shr_le h' h hm.symm hb.symm hle
    exact ⟨k1.symm, k2.symm, k3.symm⟩

theorem same_rest {p p' : FskParams} {m m' : Bits} (h : Frame p m) (h' : Frame p' m') (hm : p.modulation = p'.modulation) (hb : RefF.bits p m = RefF.bits p' m') :
    rest p m = rest p' m' := by
  obtain ⟨k1, k2, k3⟩ := same_shr h h' hm hb
  rw [bits_rest, bits_rest] at hb
  have : RefF.preamble p ++ RefF.sfd p = RefF.preamble p' ++ RefF.sfd p' := by
    unfold RefF.preamble RefF.sfd
    rw [hm, k1, k2, k3]
  rw [this] at hb
  exact List.append_cancel_left hb

theorem number_same {p : FskParams} {n : Nat} (h2 : n ≤ 2047) (s : Nat) (hs : s ≤ 1) (t : Bool) (h1 : 1 ≤ n ∨ t = true)
    (ht : ∀ i < 13, (RefF.header p n).getD (3 + i) false = ((same s).getD i false && t)) : n = (if s = 0 then 1436 else 134) ∧ p.scramble = (s == 1) := by
  cases t with
  | false =>
    exfalso
    refine length_ne p n (by simpa using h1) h2 fun i hi => ?_
    by_cases h3 : i < 3
    · exact (hdr p n).zero i h3
    · have := ht (i - 3) (by omega)
      rw [Bool.and_false, show 3 + (i - 3) = i by omega] at this
      exact this
  | true =>
    have hw := ht 1 (by omega)
    have hs' : s = 0 ∨ s = 1 := by omega
    have hsc : p.scramble = (s == 1) := by
      rw [Bool.and_true] at hw
      rcases hs' with rfl | rfl <;> exact hw
    refine ⟨?_, hsc⟩
    have : Ref.field 11 n = Ref.field 11 (if s = 0 then 1436 else 134) := by
      apply List.ext_getElem?
      intro i
      by_cases hi : i < 11
      · have := ht (2 + i) (by omega)
        unfold RefF.header at this
        rw [List.getD_eq_getElem?_getD, List.getElem?_append_right (by simp; omega),
          show 3 + (2 + i) - [false, false, false, p.fcsType == 1, p.scramble].length = i by simp; omega, Bool.and_true] at this
        have e' : ∃ u, (Ref.field 11 n)[i]? = some u := ⟨_, List.getElem?_eq_getElem (by simpa [Ref.field] using hi)⟩
        obtain ⟨u, hu⟩ := e'
        rw [hu, Option.getD_some] at this
        rw [hu, this]
        clear * - hs' hi
        rcases hs' with rfl | rfl
        · revert i; decide
        · revert i; decide
      · rw [List.getElem?_eq_none (by simp [Ref.field]; omega), List.getElem?_eq_none (by simp [Ref.field]; omega)]
    refine C98.field_inj (w := 11) (by omega) (by split <;> omega) this

/-- Interleaved and not interleaved frames never look the same. -/
theorem no_interleaving {p p' : FskParams} {m m' : Bits} (h : Frame p m) (h' : Frame p' m') (hr : rest p m = rest p' m') (hf : p.fecEnabled = true) (hf' : p'.fecEnabled = true)
    (hs : p.fecScheme = p'.fecScheme) (hi : p.interleaving = false) (hi' : p'.interleaving = true) : False := by
  have hpl : plain p = 32 := by unfold plain; rw [if_pos hf]
  have hpl' : plain p' = 32 := by unfold plain; rw [if_pos hf']
  have hlen : (RefF.body p m).length = (RefF.body p' m').length := by rw [← rest_length, ← rest_length, hr]
  have hb := plain_le p m
  have hE : ∀ i < 32, (sent p.fecScheme false (RefF.header p (m.length / 8) ++ m) (RefF.pad (m.length / 8))).getD i false =
      (sent p.fecScheme true (RefF.header p' (m'.length / 8) ++ m') (RefF.pad (m'.length / 8))).getD i false := by
    intro i hi32
    have := congrArg (·.getD i false) hr
    beta_reduce at this
    rw [rest_get p m i (by omega), rest_get p' m' i (by omega), if_neg (by omega), if_neg (by omega), body_coded p m hf, body_coded p' m' hf', hi, hi', ← hs] at this
    exact this
  obtain ⟨t, ht⟩ := interleaving_same (hdr p _) (hdr p' _) p.fecScheme h.ranges.scheme _ _ _ _ hE
  have o2 := h'.octets hf' hi'
  have some' : 1 ≤ m'.length / 8 := by have := h'.some; omega
  have tt : t = true := by
    by_contra hc
    rw [Bool.not_eq_true] at hc
    refine length_ne p' _ some' h'.most fun i hi => ?_
    by_cases h3 : i < 3
    · exact (hdr p' _).zero i h3
    · have := (ht (i - 3) (by omega)).2
      rw [hc, Bool.and_false, show 3 + (i - 3) = i by omega] at this
      exact this
  obtain ⟨n1, n2⟩ := number_same h.most p.fecScheme h.ranges.scheme t (Or.inr tt) fun i hi => (ht i hi).1
  obtain ⟨n1', n2'⟩ := number_same h'.most p.fecScheme h.ranges.scheme t (Or.inr tt) fun i hi => (ht i hi).2
  have hnn : m.length / 8 = m'.length / 8 := by rw [n1, n1']
  have heven : m.length / 8 % 2 = 0 := by rw [n1]; split <;> rfl
  have hsc : p.scramble = p'.scramble := by rw [n2, n2']
  have hmm : m.length = m'.length := by
    rw [C69.body_length, C69.body_length, if_pos hf, if_pos hf', hnn] at hlen
    split at hlen <;> omega
  have hp : RefF.pad (m.length / 8) = padding := by unfold RefF.pad padding; rw [if_pos heven]
  refine last_block p.fecScheme h.ranges.scheme (RefF.header p (m.length / 8) ++ m) (RefF.header p' (m'.length / 8) ++ m')
    (by rw [List.length_append, List.length_append, (hdr p _).len, (hdr p' _).len]; omega) (by rw [List.length_append, (hdr p _).len]; omega) fun i => ?_
  have eb : (RefF.body p m).getD i false = (RefF.body p' m').getD i false := by
    by_cases hib : i < (RefF.body p m).length
    · have := congrArg (·.getD i false) hr
      beta_reduce at this
      rw [rest_get p m i hib, rest_get p' m' i (by omega), hpl, hpl', ← hsc] at this
      split at this
      · simpa using this
      · exact this
    · rw [List.getD_eq_getElem?_getD, List.getD_eq_getElem?_getD, List.getElem?_eq_none (by omega), List.getElem?_eq_none (by omega)]
  rw [body_coded p m hf, body_coded p' m' hf', hi, hi', ← hs, hp, ← hnn, hp] at eb
  rw [← hnn]
  exact eb

theorem same_coding {p p' : FskParams} {m m' : Bits} (h : Frame p m) (h' : Frame p' m') (hr : rest p m = rest p' m') (hf : p.fecEnabled = true) (hf' : p'.fecEnabled = true) :
    p.fecScheme = p'.fecScheme ∧ p.interleaving = p'.interleaving := by
  have hpl : plain p = 32 := by unfold plain; rw [if_pos hf]
  have hpl' : plain p' = 32 := by unfold plain; rw [if_pos hf']
  have hlen : (RefF.body p m).length = (RefF.body p' m').length := by rw [← rest_length, ← rest_length, hr]
  have hb := plain_le p m
  have hE : ∀ i < 32, (sent p.fecScheme p.interleaving (RefF.header p (m.length / 8) ++ m) (RefF.pad (m.length / 8))).getD i false =
      (sent p'.fecScheme p'.interleaving (RefF.header p' (m'.length / 8) ++ m') (RefF.pad (m'.length / 8))).getD i false := by
    intro i hi32
    have := congrArg (·.getD i false) hr
    beta_reduce at this
    rw [rest_get p m i (by omega), rest_get p' m' i (by omega), if_neg (by omega), if_neg (by omega), body_coded p m hf, body_coded p' m' hf'] at this
    exact this
  have hs : p.fecScheme = p'.fecScheme := by
    have s1 := h.ranges.scheme
    have s2 := h'.ranges.scheme
    by_contra hne
    rcases Nat.lt_or_gt_of_ne hne with hlt | hlt
    · rw [show p.fecScheme = 0 by omega, show p'.fecScheme = 1 by omega] at hE
      exact scheme_ne (hdr p _) (hdr p' _) _ _ _ _ _ _ hE
    · rw [show p.fecScheme = 1 by omega, show p'.fecScheme = 0 by omega] at hE
      exact scheme_ne (hdr p' _) (hdr p _) _ _ _ _ _ _ fun i hi => (hE i hi).symm
  refine ⟨hs, ?_⟩
  cases hi : p.interleaving <;> cases hi' : p'.interleaving
  · rfl
  · exact (no_interleaving h h' hr hf hf' hs hi hi').elim
  · exact (no_interleaving h' h hr.symm hf' hf hs.symm hi' hi).elim
  · rfl

/-- The bits of octets, least significant first. -/
def octetBits (msg : List UInt8) : Bits := (List.range (8 * msg.length)).map fun k => (msg.getD (k / 8) 0).toNat.testBit (k % 8)

/-- `p` is what the constructor makes of some arguments. -/
def Made (p : FskParams) : Prop := ∃ rate index sfd modulation fec scheme fcs scramble il preamble,
  mrFskInit rate index sfd modulation fec scheme fcs scramble il preamble = .ok p

theorem made_ranges {p : FskParams} (h : Made p) : Ranges p := by
  obtain ⟨_, _, _, _, _, _, _, _, _, _, e⟩ := h
  obtain ⟨a1, a2, a3, a4, a5, a6, a7, -⟩ := C33.C33_ranges _ _ _ _ _ _ _ _ _ _ _ e
  exact ⟨a1, a2, a3, a4, a5, a6, a7⟩

theorem frame_refused {p : FskParams} (R : Ranges p) {m : Bits} (h0 : m ≠ []) (h : ¬ C69.Refused p m) : Frame p m where
  ranges := R
  some := List.length_pos_of_ne_nil h0
  most := by
    by_contra hc
    exact h (Or.inl (by omega))
  octets := fun h1 h2 => by
    by_contra hc
    exact h (Or.inr (Or.inl ⟨h1, h2, hc⟩))
  whole := by
    by_contra hc
    exact h (Or.inr (Or.inr ((C69.bits_mod p m).1 hc)))

theorem not_refused {p : FskParams} {m : Bits} (h : Frame p m) : ¬ C69.Refused p m := by
  rintro (h1 | ⟨h1, h2, h3⟩ | h1)
  · have := h.most; omega
  · exact h3 (h.octets h1 h2)
  · exact (C69.bits_mod p m).2 h1 h.whole

theorem frame_bits {o : FskObj} (h : Made o.params) {a : Arg} {m : Bits} (hd : checkBinaryArray a = .ok m) (h0 : m ≠ []) {r : List ℂ × ℚ}
    (hr : ((fskBitsToIQ id a).call o).1 = .ok r) : Frame o.params m ∧ r = (RefF.samples o.params (RefF.bits o.params m), 20 * (o.params.symbolRate : ℚ)) := by
  have R := made_ranges h
  obtain ⟨e1, e2⟩ := C69.C69_reference o R.rate a m hd
  by_cases hR : C69.Refused o.params m
  · rw [e1 hR] at hr; cases hr
  · rw [e2 hR] at hr
    exact ⟨frame_refused R h0 hR, (Except.ok.inj hr).symm⟩

theorem frame_of {o : FskObj} (h : Made o.params) {a : Arg} {msg : List UInt8} (hd : C01.Denotes a msg) (h0 : msg ≠ []) {r : List ℂ × ℚ}
    (hr : ((fskBytesToIQ id a).call o).1 = .ok r) :
    Frame o.params (octetBits msg) ∧ r = (RefF.samples o.params (RefF.bits o.params (octetBits msg)), 20 * (o.params.symbolRate : ℚ)) := by
  have R := made_ranges h
  have h1 : 1 ≤ msg.length := List.length_pos_of_ne_nil h0
  have e := C69.C69_bytes o R.rate a msg hd h1
  simp only at e
  rw [e] at hr
  by_cases h2 : 2048 ≤ msg.length
  · rw [if_pos h2] at hr; cases hr
  · rw [if_neg h2] at hr
    have hl : (octetBits msg).length = 8 * msg.length := by unfold octetBits; simp
    refine ⟨frame_refused R (by intro hc; rw [hc, List.length_nil] at hl; omega) ?_, (Except.ok.inj hr).symm⟩
    rintro (k | ⟨-, -, k⟩ | ⟨-, -, k⟩) <;> rw [hl] at k <;> omega

theorem octetBits_inj {x y : List UInt8} (h : octetBits x = octetBits y) : x = y := by
  have hl := congrArg List.length h
  unfold octetBits at hl
  simp only [List.length_map, List.length_range] at hl
  apply List.ext_getElem (by omega)
  intro i h1 h2
  have g : ∀ j < 8, (x[i]).toNat.testBit j = (y[i]).toNat.testBit j := by
    intro j hj
    have := congrArg (·[8 * i + j]?) h
    unfold octetBits at this
    beta_reduce at this
    rw [List.getElem?_map, List.getElem?_map, List.getElem?_range (by omega), List.getElem?_range (by omega)] at this
    simp only [Option.map_some, Option.some.injEq] at this
    rw [show (8 * i + j) / 8 = i by omega, show (8 * i + j) % 8 = j by omega, List.getD_eq_getElem?_getD, List.getD_eq_getElem?_getD,
      List.getElem?_eq_getElem h1, List.getElem?_eq_getElem h2] at this
    exact this
  apply UInt8.toNat_inj.1
  apply Nat.eq_of_testBit_eq
  intro j
  by_cases hj : j < 8
  · exact g j hj
  · rw [Nat.testBit_lt_two_pow, Nat.testBit_lt_two_pow]
    · exact lt_of_lt_of_le (UInt8.toNat_lt _) (Nat.pow_le_pow_right (by omega) (by omega : 8 ≤ j))
    · exact lt_of_lt_of_le (UInt8.toNat_lt _) (Nat.pow_le_pow_right (by omega) (by omega : 8 ≤ j))

/-- Without FEC a receiver does not look at scheme and interleaving. -/
theorem receive_plain (m : FskMod) (x : ℝ) (n s s' : Nat) (i i' : Bool) (r : List ℂ) : RxF.receive ⟨m, x, n, false, s, i⟩ r = RxF.receive ⟨m, x, n, false, s', i'⟩ r := rfl

theorem known_eq {p p' : FskParams} (h1 : p.modulation = p'.modulation) (h2 : p.modIndex = p'.modIndex) (h3 : p.preambleLength = p'.preambleLength)
    (h4 : p.fecEnabled = p'.fecEnabled) (h5 : p.fecEnabled = true → p.fecScheme = p'.fecScheme ∧ p.interleaving = p'.interleaving) (r : List ℂ) :
    RxF.receive (C101.known p) r = RxF.receive (C101.known p') r := by
  unfold C101.known
  rw [← h1, ← h2, ← h3, ← h4]
  cases hf : p.fecEnabled with
  | false => exact receive_plain ..
  | true =>
    obtain ⟨a, b⟩ := h5 hf
    rw [a, b]

theorem info_body {p : FskParams} {m : Bits} (h : Frame p m) :
    RxF.info (C101.known p) (fun i => (RefF.body p m).getD i false) (16 + m.length) = RefF.header p (m.length / 8) ++ m := by
  have hl : (RefF.header p (m.length / 8) ++ m).length = 16 + m.length := by rw [List.length_append, (hdr p _).len]
  refine (C101.info_ok p (RefF.header p (m.length / 8) ++ m) (RefF.pad (m.length / 8)) (16 + m.length) (by omega) (fun i => (RefF.body p m).getD i false) ?_
    fun i _ => rfl).trans (by rw [← hl, List.take_length])
  intro h1 h2
  have := h.octets h1 h2
  rw [hl]
  unfold RefF.pad
  split <;> simp only [Ref.field, List.length_map, List.length_range] <;> omega

theorem core {p p' : FskParams} {m m' : Bits} (hF : Frame p m) (hF' : Frame p' m') (hrate : p.symbolRate = p'.symbolRate)
    (e1 : RefF.samples p (RefF.bits p m) = RefF.samples p' (RefF.bits p' m')) :
    m = m' ∧ p = { p' with fecScheme := p.fecScheme, interleaving := p.interleaving } ∧ (p.fecEnabled = true → p = p') := by
  obtain ⟨hm, hi, hb⟩ := same_mod hF hF' e1
  obtain ⟨hp, hs, hf⟩ := same_shr hF hF' hm hb
  have hrest := same_rest hF hF' hm hb
  have hc : p.fecEnabled = true → p.fecScheme = p'.fecScheme ∧ p.interleaving = p'.interleaving :=
    fun hf1 => same_coding hF hF' hrest hf1 (hf ▸ hf1)
  have hk := known_eq hm hi hp hf hc (RefF.samples p (RefF.bits p m))
  have a := C101.receive_ok p hF.ranges.rate hF.ranges.low hF.ranges.high m (not_refused hF) _ (C101.close_self _)
  have b := C101.receive_ok p' hF'.ranges.rate hF'.ranges.low hF'.ranges.high m' (not_refused hF') _ (C101.close_self _)
  rw [hk, e1] at a
  have ab := a.symm.trans b
  simp only [Prod.mk.injEq] at ab
  obtain ⟨b1, hscr, b3⟩ := ab
  have hfcs : p.fcsType = p'.fcsType := by
    have c1 := hF.ranges.fcs
    have c2 := hF'.ranges.fcs
    rw [Bool.eq_iff_iff, beq_iff_eq, beq_iff_eq] at b1
    omega
  have hn : m.length / 8 = m'.length / 8 := by
    have := congrArg List.length b3
    rw [List.length_take, List.length_take] at this
    omega
  have hlen : (RefF.body p m).length = (RefF.body p' m').length := by rw [← rest_length, ← rest_length, hrest]
  have hmm : m.length = m'.length := by
    rw [C69.body_length, C69.body_length, ← hf, hn] at hlen
    cases hfe : p.fecEnabled <;> rw [hfe] at hlen
    · simp only [Bool.false_eq_true, if_false] at hlen; omega
    · simp only [if_true] at hlen; split at hlen <;> omega
  have hpl : plain p = plain p' := by unfold plain; rw [hf]
  have hbody : (fun i => (RefF.body p m).getD i false) = fun i => (RefF.body p' m').getD i false := by
    funext i
    by_cases hib : i < (RefF.body p m).length
    · have := congrArg (·.getD i false) hrest
      beta_reduce at this
      rw [rest_get p m i hib, rest_get p' m' i (by omega), hpl, hscr] at this
      split at this
      · simpa using this
      · exact this
    · rw [List.getD_eq_getElem?_getD, List.getD_eq_getElem?_getD, List.getElem?_eq_none (by omega), List.getElem?_eq_none (by omega)]
  have hmsg : m = m' := by
    have i1 := info_body hF
    have i2 := info_body hF'
    have ki : RxF.info (C101.known p) (fun i => (RefF.body p m).getD i false) (16 + m.length) = RxF.info (C101.known p') (fun i => (RefF.body p' m').getD i false) (16 + m'.length) := by
      rw [hbody, hmm]
      unfold RxF.info C101.known
      simp only
      rw [← hf]
      cases hfe : p.fecEnabled with
      | false => rfl
      | true => obtain ⟨c1, c2⟩ := hc hfe; rw [c1, c2]
    have := i1.symm.trans (ki.trans i2)
    exact (List.append_inj this (by rw [(hdr p _).len, (hdr p' _).len])).2
  refine ⟨hmsg, ?_, fun hf1 => ?_⟩
  · clear * - hrate hm hi hp hs hf hscr hfcs
    cases p; cases p'
    simp only at *
    subst hrate hm hi hp hs hf hscr hfcs
    rfl
  · obtain ⟨c1, c2⟩ := hc hf1
    clear * - hrate hm hi hp hs hf hscr hfcs c1 c2
    cases p; cases p'
    simp only at *
    subst hrate hm hi hp hs hf hscr hfcs c1 c2
    rfl

theorem core_call {p p' : FskParams} {m m' : Bits} (hF : Frame p m) (hF' : Frame p' m') {r : List ℂ × ℚ} (e : r = (RefF.samples p (RefF.bits p m), 20 * (p.symbolRate : ℚ)))
    (e' : r = (RefF.samples p' (RefF.bits p' m'), 20 * (p'.symbolRate : ℚ))) :
    m = m' ∧ p = { p' with fecScheme := p.fecScheme, interleaving := p.interleaving } ∧ (p.fecEnabled = true → p = p') := by
  have e1 := congrArg Prod.fst (e.symm.trans e')
  have e2 : 20 * (p.symbolRate : ℚ) = 20 * (p'.symbolRate : ℚ) := congrArg Prod.snd (e.symm.trans e')
  refine core hF hF' ?_ e1
  have : (p.symbolRate : ℚ) = p'.symbolRate := by linarith
  exact_mod_cast this

/-- **C134 (uniqueness).**  If two modulators return the same signal and sampling frequency for two octet messages, the messages are the same and so are the configurations: all ten
constructor values if FEC is on, all but FEC scheme and interleaving (which then have no effect) if it is off. -/
theorem C134_unique (o o' : FskObj) (h : Made o.params) (h' : Made o'.params) (a a' : Arg) (msg msg' : List UInt8) (hd : C01.Denotes a msg) (hd' : C01.Denotes a' msg')
    (h0 : msg ≠ []) (h0' : msg' ≠ []) (r : List ℂ × ℚ) (hr : ((fskBytesToIQ id a).call o).1 = .ok r) (hr' : ((fskBytesToIQ id a').call o').1 = .ok r) :
    msg = msg' ∧ o.params = { o'.params with fecScheme := o.params.fecScheme, interleaving := o.params.interleaving } ∧ (o.params.fecEnabled = true → o.params = o'.params) := by
  obtain ⟨hF, e⟩ := frame_of h hd h0 hr
  obtain ⟨hF', e'⟩ := frame_of h' hd' h0' hr'
  obtain ⟨k1, k2⟩ := core_call hF hF' e e'
  exact ⟨octetBits_inj k1, k2⟩

/-- **C134 (bits).**  The same for `bitsToIQ`, with bit messages of any non-zero length. -/
theorem C134_bits (o o' : FskObj) (h : Made o.params) (h' : Made o'.params) (a a' : Arg) (m m' : Bits) (hd : checkBinaryArray a = .ok m) (hd' : checkBinaryArray a' = .ok m')
    (h0 : m ≠ []) (h0' : m' ≠ []) (r : List ℂ × ℚ) (hr : ((fskBitsToIQ id a).call o).1 = .ok r) (hr' : ((fskBitsToIQ id a').call o').1 = .ok r) :
    m = m' ∧ o.params = { o'.params with fecScheme := o.params.fecScheme, interleaving := o.params.interleaving } ∧ (o.params.fecEnabled = true → o.params = o'.params) := by
  obtain ⟨hF, e⟩ := frame_bits h hd h0 hr
  obtain ⟨hF', e'⟩ := frame_bits h' hd' h0' hr'
  exact core_call hF hF' e e'

/-- **C134 (bits and octets).**  A signal of `bitsToIQ` that equals one of `bytesToIQ` carries the bits of the octets, least significant first. -/
theorem C134_mixed (o o' : FskObj) (h : Made o.params) (h' : Made o'.params) (a a' : Arg) (m : Bits) (msg' : List UInt8) (hd : checkBinaryArray a = .ok m) (hd' : C01.Denotes a' msg')
    (h0 : m ≠ []) (h0' : msg' ≠ []) (r : List ℂ × ℚ) (hr : ((fskBitsToIQ id a).call o).1 = .ok r) (hr' : ((fskBytesToIQ id a').call o').1 = .ok r) :
    m = octetBits msg' ∧ o.params = { o'.params with fecScheme := o.params.fecScheme, interleaving := o.params.interleaving } ∧ (o.params.fecEnabled = true → o.params = o'.params) := by
  obtain ⟨hF, e⟩ := frame_bits h hd h0 hr
  obtain ⟨hF', e'⟩ := frame_of h' hd' h0' hr'
  exact core_call hF hF' e e'

theorem plain_same {p p' : FskParams} (hf : p.fecEnabled = false) (hp : p' = { p with fecScheme := p'.fecScheme, interleaving := p'.interleaving }) (m : Bits) :
    RefF.bits p' m = RefF.bits p m := by
  have q2 : p'.fecEnabled = false := by rw [hp]; exact hf
  have hbody : RefF.body p' m = RefF.body p m := by
    rw [body_plain _ _ q2, body_plain _ _ hf, hp]
    rfl
  rw [bits_rest, bits_rest]
  unfold rest
  rw [hbody, hp]
  rfl

/-- **C134 (without FEC).**  Modulators that differ only in FEC scheme and interleaving do the same when FEC is off. -/
theorem C134_plain (o o' : FskObj) (h : Made o.params) (hf : o.params.fecEnabled = false)
    (hp : o'.params = { o.params with fecScheme := o'.params.fecScheme, interleaving := o'.params.interleaving }) (a : Arg) (msg : List UInt8) (hd : C01.Denotes a msg)
    (h0 : msg ≠ []) : ((fskBytesToIQ id a).call o').1 = ((fskBytesToIQ id a).call o).1 := by
  have R := made_ranges h
  have h1 : 1 ≤ msg.length := List.length_pos_of_ne_nil h0
  have q1 : o'.params.symbolRate = o.params.symbolRate := by rw [hp]
  have e := C69.C69_bytes o R.rate a msg hd h1
  have e' := C69.C69_bytes o' (by rw [q1]; exact R.rate) a msg hd h1
  simp only at e e'
  rw [e, e', q1, plain_same hf hp, hp]
  rfl

/-- **C134 (bits without FEC).** -/
theorem C134_plain_bits (o o' : FskObj) (h : Made o.params) (hf : o.params.fecEnabled = false)
    (hp : o'.params = { o.params with fecScheme := o'.params.fecScheme, interleaving := o'.params.interleaving }) (a : Arg) (m : Bits) (hd : checkBinaryArray a = .ok m) :
    ((fskBitsToIQ id a).call o').1 = ((fskBitsToIQ id a).call o).1 := by
  have R := made_ranges h
  have q1 : o'.params.symbolRate = o.params.symbolRate := by rw [hp]
  have q2 : o'.params.fecEnabled = false := by rw [hp]; exact hf
  have q3 : o'.params.modulation = o.params.modulation := by rw [hp]
  obtain ⟨e1, e2⟩ := C69.C69_reference o R.rate a m hd
  obtain ⟨e1', e2'⟩ := C69.C69_reference o' (by rw [q1]; exact R.rate) a m hd
  have hR : C69.Refused o'.params m ↔ C69.Refused o.params m := by
    unfold C69.Refused
    rw [q2, q3, hf]
    simp
  by_cases hr : C69.Refused o.params m
  · rw [e1 hr, e1' (hR.2 hr)]
  · rw [e2 hr, e2' (fun k => hr (hR.1 k)), plain_same hf hp, q1, hp]
    rfl

/-! Non-vacuity: constructed modulators of both kinds, and every modulator in range accepts octets (C69). -/
example : Made ⟨100000, 1 / 2, 0, .FSK4, true, 1, 0, true, true, 4⟩ ∧ Made ⟨50000, 1, 1, .FSK2, false, 0, 1, false, false, 5⟩ ∧
    ∀ o : FskObj, Made o.params → ∀ b : UInt8, ∃ r, ((fskBytesToIQ id (.bytes [b])).call o).1 = .ok r := by
  refine ⟨⟨.float (200001 / 2), .float (1 / 2), .int 0, .str "4FSK", .bool true, .int 1, .int 0, .int 3, .bool true, .int 4, by decide +kernel⟩,
    ⟨.int 50000, .int 1, .int 1, .str "2FSK", .bool false, .int 0, .int 1, .bool false, .bool false, .int 5, by decide +kernel⟩, fun o h b => ?_⟩
  have := C69.C69_bytes o (made_ranges h).rate (.bytes [b]) [b] rfl (by simp)
  simp only at this
  rw [if_neg (by simp)] at this
  exact ⟨_, this⟩

/-- A message of three bits with FEC but no interleaving: the shortest frames are among those of `C134_bits`. -/
example : ∃ o : FskObj, Made o.params ∧ o.params.fecEnabled = true ∧ ∃ r, ((fskBitsToIQ id (bitsArg [true, false, true])).call o).1 = .ok r := by
  have hm : Made ⟨100000, 1 / 2, 0, .FSK4, true, 1, 0, true, false, 4⟩ :=
    ⟨.float (200001 / 2), .float (1 / 2), .int 0, .str "4FSK", .bool true, .int 1, .int 0, .int 3, .bool false, .int 4, by decide +kernel⟩
  refine ⟨{ params := ⟨100000, 1 / 2, 0, .FSK4, true, 1, 0, true, false, 4⟩ }, hm, rfl, ?_⟩
  exact ⟨_, (C69.C69_reference { params := ⟨100000, 1 / 2, 0, .FSK4, true, 1, 0, true, false, 4⟩ } (by decide) _ _ (C03.C03_identity [true, false, true] (by simp))).2
    (by unfold C69.Refused; simp)⟩

end
end SunPhy.C134
