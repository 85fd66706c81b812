import Verif.Model.OfdmMod
/-
Model of the frequency-domain part of `Ofdm_modulator.bitsToIQ` (`sun_phy/mr_ofdm/ofdm_modulator.py`): constellation
mapping with the modulation factor, frequency spreading, pilot insertion.  Generic in the number type `α`, so that the
same definition is used over ℂ (`Model/Signal.lean`) and, for evaluation, over Gaussian integers.
-/
namespace SunPhy

/-- The complex numbers used by the frequency-domain part. -/
structure Numbers (α : Type) where
  /-- the constellation point `re + 1j*im` -/
  ofGI : GI → α
  /-- `np.exp(1j*2*np.pi*m/4)` -/
  rot : Nat → α
  /-- the modulation factor, `ofdm_modulator.py:138` -/
  factor : α

section
variable {α : Type} [Mul α] [Zero α]

/-- `_constellation_map` on one column, `ofdm_modulator.py:193-215`. -/
def constellationMap (nb : Numbers α) (m : ModKind) (col : Bits) : Res (List α) :=
  (m.convert col).map fun pts => pts.map fun z => nb.ofGI z * nb.factor

/-- `message * phase` along a column, `k = 1, 2, …` (`ofdm_modulator.py:241-245`, `:257-268`). -/
def mulPhase (nb : Numbers α) (ph : Nat → Nat) (col : List α) : List α :=
  col.zipIdx.map fun (x, i) => x * nb.rot (ph (i + 1))

/-- `_frequency_spread` on one column, `ofdm_modulator.py:217-272`. -/
def frequencySpread (nb : Numbers α) (sf : Nat) (col : List α) : Res (List α) :=
  if sf = 1 then .ok col
  else if sf = 2 then .ok (mulPhase nb (fun k => 2 * k - 1) col ++ col)
  else if sf = 4 then
    .ok (mulPhase nb (fun k => 2 * k - 1) col ++ mulPhase nb (fun k => 3 * k - 1) col
      ++ col ++ mulPhase nb (fun k => k - 1) col)
  else .error .ValueError

/-- The pilot values ±1 (`ofdm_modulator.py:336-338`; not scaled by the modulation factor). -/
def pilotOf (nb : Numbers α) (v : Int) : α := nb.ofGI ⟨v, 0⟩

/-- `Ofdm_modulator.bitsToIQ` up to and including `_add_pilots_and_padding`, `ofdm_modulator.py:434-460`: the list of OFDM
symbols (columns of subcarriers) and the new pilot state.  `np.squeeze` turns a one-element array into a 0-d array, which is
refused (`:438-440`). -/
def ofdmSubcarriers (c : OfdmCfg α) (nb : Numbers α) (bits : Bits) (pad : Bool := false) :
    PyM OfdmState (List (List α)) := do
  if bits.length = 1 then throw .ValueError
  let split ← PyM.lift (c.splitMessage bits pad)
  let mapped ← PyM.lift (split.mapM (constellationMap nb c.modulation))
  let spread ← PyM.lift (mapped.mapM (frequencySpread nb c.frequencySpreading))
  fun st => addPilotsAndPadding c (pilotOf nb) st spread

end
end SunPhy
