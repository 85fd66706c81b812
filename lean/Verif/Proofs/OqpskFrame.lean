import Verif.Model.MrOqpsk
import Verif.Model.MrOqpskSignal
import Verif.Proofs.FskFrame
/-
The chips transmitted by an MR-O-QPSK modulator as a function of parameters and message only.
-/
namespace SunPhy
open OqpskParams

/-- PSDU bits before spreading. -/
def oqpskPsduBits (p : OqpskParams) (m : Bits) : Res Bits :=
  if (0 ≤ p.rm ∧ p.rm ≤ 1) ∨ p.sm = 0 then oqpskInterleaver (oqpskFec m true) true else .ok m

/-- Spread PSDU. -/
def oqpskSpread (p : OqpskParams) (t : Bits) : Res Bits :=
  if p.sm = 0 then
    match psduBdeDsss p.band p.rm with
    | .error e => .error e
    | .ok useBde =>
      match psduSpreadingDsss p.band p.rm with
      | .error e => .error e
      | .ok none => .ok (if useBde then bde t false else t)
      | .ok (some codes) => dsss (if useBde then bde t false else t) codes
  else
    match mdsssFactor p.band p.rm with
    | .error e => .error e
    | .ok f => mdsss t f

/-- Spread PHR. -/
def oqpskPhrChips (p : OqpskParams) (n : Nat) : Res Bits :=
  match p.phr n with
  | .error e => .error e
  | .ok phr =>
    match oqpskInterleaver (oqpskFec phr false) false with
    | .error e => .error e
    | .ok il => dsss (bde il ((bde p.shr false).getLastD false)) (phrSpreading p.band)

/-- All chips of a frame. -/
def oqpskFrame (p : OqpskParams) (m : Bits) : Res Bits :=
  match dsss (bde p.shr false) (shrSpreading p.band) with
  | .error e => .error e
  | .ok cshr =>
    match oqpskPhrChips p (m.length / 8) with
    | .error e => .error e
    | .ok cphr =>
      match oqpskPsduBits p m with
      | .error e => .error e
      | .ok t =>
        match oqpskSpread p t with
        | .error e => .error e
        | .ok s => .ok (cshr ++ cphr ++ p.insertPilots s)

theorem oqpskChips_result (a : Arg) (o : OqpskObj) :
    ((oqpskChips a).call o).1 = (match checkBinaryArray a with | .error e => .error e | .ok m => oqpskFrame o.params m) ∧
    ((oqpskChips a).call o).2.params = o.params := by
  unfold oqpskChips
  cases ha : checkBinaryArray a with
  | error e => simp only [PyM.call_bind, PyM.call_get, PyM.seqR_ok, PyM.seqR_error, PyM.call_lift, PyM.call_modify, PyM.call_attr, PyM.call_pure, and_self]
  | ok m =>
    simp only [PyM.call_bind, PyM.call_get, PyM.seqR_ok, PyM.seqR_error, PyM.call_lift, PyM.call_modify, PyM.call_attr, PyM.call_pure, and_self]
    unfold oqpskFrame oqpskPhrChips
    cases h1 : dsss (bde o.params.shr false) (shrSpreading o.params.band) with
    | error e => simp only [PyM.call_bind, PyM.call_get, PyM.seqR_ok, PyM.seqR_error, PyM.call_lift, PyM.call_modify, PyM.call_attr, PyM.call_pure, and_self]
    | ok cshr =>
    simp only [PyM.call_bind, PyM.call_get, PyM.seqR_ok, PyM.seqR_error, PyM.call_lift, PyM.call_modify, PyM.call_attr, PyM.call_pure, and_self]
    cases h2 : o.params.phr (m.length / 8) with
    | error e => simp only [PyM.call_bind, PyM.call_get, PyM.seqR_ok, PyM.seqR_error, PyM.call_lift, PyM.call_modify, PyM.call_attr, PyM.call_pure, and_self]
    | ok phr =>
    simp only [PyM.call_bind, PyM.call_get, PyM.seqR_ok, PyM.seqR_error, PyM.call_lift, PyM.call_modify, PyM.call_attr, PyM.call_pure, and_self]
    cases h3 : oqpskInterleaver (oqpskFec phr false) false with
    | error e => simp only [PyM.call_bind, PyM.call_get, PyM.seqR_ok, PyM.seqR_error, PyM.call_lift, PyM.call_modify, PyM.call_attr, PyM.call_pure, and_self]
    | ok il =>
    simp only [PyM.call_bind, PyM.call_get, PyM.seqR_ok, PyM.seqR_error, PyM.call_lift, PyM.call_modify, PyM.call_attr, PyM.call_pure, and_self]
    cases h4 : dsss (bde il ((bde o.params.shr false).getLastD false)) (phrSpreading o.params.band) with
    | error e => simp only [PyM.call_bind, PyM.call_get, PyM.seqR_ok, PyM.seqR_error, PyM.call_lift, PyM.call_modify, PyM.call_attr, PyM.call_pure, and_self]
    | ok cphr =>
    simp only [PyM.call_bind, PyM.call_get, PyM.seqR_ok, PyM.seqR_error, PyM.call_lift, PyM.call_modify, PyM.call_attr, PyM.call_pure, and_self]
    unfold oqpskPsduBits oqpskSpread
    split
    · simp only [PyM.call_bind, PyM.call_get, PyM.seqR_ok, PyM.seqR_error, PyM.call_lift, PyM.call_modify, PyM.call_attr, PyM.call_pure, and_self]
      cases h5 : oqpskInterleaver (oqpskFec m true) true with
      | error e => simp only [PyM.call_bind, PyM.call_get, PyM.seqR_ok, PyM.seqR_error, PyM.call_lift, PyM.call_modify, PyM.call_attr, PyM.call_pure, and_self]
      | ok t =>
      simp only [PyM.call_bind, PyM.call_get, PyM.seqR_ok, PyM.seqR_error, PyM.call_lift, PyM.call_modify, PyM.call_attr, PyM.call_pure, and_self]
      split
      · simp only [PyM.call_bind, PyM.call_get, PyM.seqR_ok, PyM.seqR_error, PyM.call_lift, PyM.call_modify, PyM.call_attr, PyM.call_pure, and_self]
        cases h6 : psduBdeDsss o.params.band o.params.rm with
        | error e => simp only [PyM.call_bind, PyM.call_get, PyM.seqR_ok, PyM.seqR_error, PyM.call_lift, PyM.call_modify, PyM.call_attr, PyM.call_pure, and_self]
        | ok ub =>
        simp only [PyM.call_bind, PyM.call_get, PyM.seqR_ok, PyM.seqR_error, PyM.call_lift, PyM.call_modify, PyM.call_attr, PyM.call_pure, and_self]
        cases h7 : psduSpreadingDsss o.params.band o.params.rm with
        | error e => simp only [PyM.call_bind, PyM.call_get, PyM.seqR_ok, PyM.seqR_error, PyM.call_lift, PyM.call_modify, PyM.call_attr, PyM.call_pure, and_self]
        | ok cs =>
        simp only [PyM.call_bind, PyM.call_get, PyM.seqR_ok, PyM.seqR_error, PyM.call_lift, PyM.call_modify, PyM.call_attr, PyM.call_pure, and_self]
        cases cs with
        | none => simp only [PyM.call_bind, PyM.call_get, PyM.seqR_ok, PyM.seqR_error, PyM.call_lift, PyM.call_modify, PyM.call_attr, PyM.call_pure, and_self]
        | some codes =>
          simp only [PyM.call_bind, PyM.call_get, PyM.seqR_ok, PyM.seqR_error, PyM.call_lift, PyM.call_modify, PyM.call_attr, PyM.call_pure, and_self]
          cases h8 : dsss (if ub = true then bde t false else t) codes with
          | error e => simp only [PyM.call_bind, PyM.call_get, PyM.seqR_ok, PyM.seqR_error, PyM.call_lift, PyM.call_modify, PyM.call_attr, PyM.call_pure, and_self]
          | ok s => simp only [PyM.call_bind, PyM.call_get, PyM.seqR_ok, PyM.seqR_error, PyM.call_lift, PyM.call_modify, PyM.call_attr, PyM.call_pure, and_self]
      · simp only [PyM.call_bind, PyM.call_get, PyM.seqR_ok, PyM.seqR_error, PyM.call_lift, PyM.call_modify, PyM.call_attr, PyM.call_pure, and_self]
        cases h6 : mdsssFactor o.params.band o.params.rm with
        | error e => simp only [PyM.call_bind, PyM.call_get, PyM.seqR_ok, PyM.seqR_error, PyM.call_lift, PyM.call_modify, PyM.call_attr, PyM.call_pure, and_self]
        | ok f =>
        simp only [PyM.call_bind, PyM.call_get, PyM.seqR_ok, PyM.seqR_error, PyM.call_lift, PyM.call_modify, PyM.call_attr, PyM.call_pure, and_self]
        cases h8 : mdsss t f with
        | error e => simp only [PyM.call_bind, PyM.call_get, PyM.seqR_ok, PyM.seqR_error, PyM.call_lift, PyM.call_modify, PyM.call_attr, PyM.call_pure, and_self]
        | ok s => simp only [PyM.call_bind, PyM.call_get, PyM.seqR_ok, PyM.seqR_error, PyM.call_lift, PyM.call_modify, PyM.call_attr, PyM.call_pure, and_self]
    · simp only [PyM.call_bind, PyM.call_get, PyM.seqR_ok, PyM.seqR_error, PyM.call_lift, PyM.call_modify, PyM.call_attr, PyM.call_pure, and_self]
      rename_i hn
      rw [if_neg (fun h => hn (.inr h))]
      rw [if_neg (fun h => hn (.inr h))]
      simp only [PyM.call_bind, PyM.call_get, PyM.seqR_ok, PyM.seqR_error, PyM.call_lift, PyM.call_modify, PyM.call_attr, PyM.call_pure, and_self]
      cases h6 : mdsssFactor o.params.band o.params.rm with
      | error e => simp only [PyM.call_bind, PyM.call_get, PyM.seqR_ok, PyM.seqR_error, PyM.call_lift, PyM.call_modify, PyM.call_attr, PyM.call_pure, and_self]
      | ok f =>
      simp only [PyM.call_bind, PyM.call_get, PyM.seqR_ok, PyM.seqR_error, PyM.call_lift, PyM.call_modify, PyM.call_attr, PyM.call_pure, and_self]
      cases h8 : mdsss m f with
      | error e => simp only [PyM.call_bind, PyM.call_get, PyM.seqR_ok, PyM.seqR_error, PyM.call_lift, PyM.call_modify, PyM.call_attr, PyM.call_pure, and_self]
      | ok s => simp only [PyM.call_bind, PyM.call_get, PyM.seqR_ok, PyM.seqR_error, PyM.call_lift, PyM.call_modify, PyM.call_attr, PyM.call_pure, and_self]

/-- The signal as a function of parameters and bits. -/
noncomputable def oqpskBitsResult (p : OqpskParams) (a : Arg) : Res (List ℂ × ℚ) :=
  match checkBinaryArray a with
  | .error e => .error e
  | .ok m =>
    match oqpskFrame p m with
    | .error e => .error e
    | .ok chips => oqpskModulator p chips p.sps

theorem oqpskBitsToIQ_result (a : Arg) (o : OqpskObj) :
    ((oqpskBitsToIQ a).call o).1 = oqpskBitsResult o.params a ∧ ((oqpskBitsToIQ a).call o).2.params = o.params := by
  unfold oqpskBitsToIQ oqpskBitsResult
  obtain ⟨h1, h2⟩ := oqpskChips_result a o
  rw [PyM.call_bind]
  generalize (oqpskChips a).call o = r at h1 h2
  obtain ⟨r, s⟩ := r
  simp only at h1 h2
  cases hc : checkBinaryArray a with
  | error e => rw [hc] at h1; simp only at h1; subst h1; simp only [PyM.seqR_error]; exact ⟨trivial, h2⟩
  | ok m =>
    rw [hc] at h1; simp only at h1
    cases hf : oqpskFrame o.params m with
    | error e => rw [hf] at h1; subst h1; simp only [PyM.seqR_error, hf]; exact ⟨trivial, h2⟩
    | ok chips =>
      rw [hf] at h1; subst h1
      simp only [PyM.seqR_ok, PyM.call_bind, PyM.call_get, PyM.call_lift]
      rw [h2, hf]
      exact ⟨rfl, rfl⟩

/-- The signal as a function of parameters and octets. -/
noncomputable def oqpskBytesResult (p : OqpskParams) (a : Arg) : Res (List ℂ × ℚ) :=
  match toBinaryArray a with
  | .error e => .error e
  | .ok m => oqpskBitsResult p (bitsArg m)

theorem oqpskBytesToIQ_result (a : Arg) (o : OqpskObj) :
    ((oqpskBytesToIQ a).call o).1 = oqpskBytesResult o.params a ∧ ((oqpskBytesToIQ a).call o).2.params = o.params := by
  unfold oqpskBytesToIQ oqpskBytesResult
  rw [PyM.call_bind, PyM.call_lift]
  cases toBinaryArray a with
  | error e => exact ⟨rfl, rfl⟩
  | ok m => exact oqpskBitsToIQ_result _ _

end SunPhy
