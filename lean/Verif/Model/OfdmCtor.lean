import Verif.Model.OfdmMod
/-
Model of `Ofdm_modulator.__init__` (`sun_phy/mr_ofdm/ofdm_modulator.py:19-152`): validation of the arguments.
`CP`, `modulation_factor` and `verbose` are stored without any check and are left out.
-/
namespace SunPhy

/-- The argument `pilots_indices`: `None`, an array (or a list, which `np.asarray` converts, `ofdm_modulator.py:98-99`) of one or two
dimensions with integer entries, an array of any other number of dimensions, or anything else.  A two-dimensional array is given by its
number of rows and its columns. -/
inductive IndicesArg
  | none | arr1 (l : List Int) | arr2 (nRows : Nat) (cols : List (List Int)) | arrOther | notArray
  deriving DecidableEq

/-- The argument `pilots_values`: `None`, a string, an array or list of at least one dimension (with its first dimension and entries), a
0-dimensional array, or anything else. -/
inductive ValuesArg (α : Type)
  | none | str (s : String) | arr (vals : List α) | arr0 | other

/-- `math.log(N_FFT, 2).is_integer()`, `ofdm_modulator.py:69`: read as "is a power of two" (`math.log` raises `ValueError` for `N_FFT ≤ 0`).
Simplification: `math.log(n, 2)` is a quotient of rounded logarithms; it is exact for the powers of two up to `2^28`, but some larger powers
(`2^29`) are refused and some very large other numbers accepted. -/
def isPowerOfTwo (n : Int) : Bool := decide (0 < n ∧ (2 : Int) ^ Nat.log2 n.toNat = n)

/-- `np.all(np.diff(x, axis=0) >= 0)` for one column, `ofdm_modulator.py:102`. -/
def nonDecreasing : List Int → Bool
  | a :: b :: l => decide (a ≤ b) && nonDecreasing (b :: l)
  | _ => true

/-- The "Manage pilots" block, `ofdm_modulator.py:94-129`: `some pilots`, or `none` when `pilots_values is None`. -/
def ofdmCheckPilots {α : Type} (idx : IndicesArg) (vals : ValuesArg α) : Res (Option (Pilots α)) :=
  match vals with
  | .none => .ok Option.none
  | vals => do
    match idx with
    | .notArray | .none => .error .ValueError
    | .arr1 l => if nonDecreasing l then pure () else .error .ValueError
    | .arr2 _ cols => if cols.all nonDecreasing then pure () else .error .ValueError
    | .arrOther => pure ()                          -- refused two checks later with the same exception
    match vals with
    | .other => .error .ValueError
    | _ => pure ()
    let (n, sets) ← (match idx with
      | .arr1 l => (.ok (l.length, [l]) : Res (Nat × List (List Int)))
      | .arr2 r cols => .ok (r, cols)
      | _ => .error .ValueError)
    match vals with
    | .str s => if s = "pn9" then .ok (some { sets := sets, nPilots := n, values := .pn9 }) else .error .AttributeError
    | .arr v => if v.length ≠ n then .error .ValueError else .ok (some { sets := sets, nPilots := n, values := .array v })
    | .arr0 => .ok (some { sets := sets, nPilots := n, values := .array [] })   -- accepted; indexing it raises IndexError later
    | _ => .error .ValueError

/-- What the constructor stores (`ofdm_modulator.py:131-152`). -/
structure OfdmStored (α : Type) where
  nFFT : Nat
  modulation : ModKind
  paddingLeft : Int
  paddingRight : Int
  frequencySpreading : Nat
  pilots : Option (Pilots α)
  initialPilotSet : Int
  initialSeed : Int

/-- `isinstance(v, int)` or `ValueError`: `ofdm_modulator.py:66-67`, `:74-77`, `:82-83`, `:87-90`. -/
def ofdmCheckInt (v : PyVal) : Res Int :=
  match v.asInt? with
  | some i => .ok i
  | none => .error .ValueError

/-- `isinstance(modulation, str)`, `ofdm_modulator.py:71-72`. -/
def ofdmCheckStr (v : PyVal) : Res String :=
  match v with
  | .str s => .ok s
  | _ => .error .ValueError

/-- `if not c: raise ValueError`, `ofdm_modulator.py:69-70`, `:84-86`. -/
def ofdmRequire (c : Bool) : Res Unit := if c then .ok () else .error .ValueError

/-- `pilots_indices` and `pilots_values` must both be given or both be `None`, `ofdm_modulator.py:78-81`. -/
def ofdmCheckBoth {α : Type} (idx : IndicesArg) (vals : ValuesArg α) : Res Unit :=
  match idx, vals with
  | .none, .none => .ok ()
  | .none, _ => .error .ValueError
  | _, .none => .error .ValueError
  | _, _ => .ok ()

/-- `Ofdm_modulator.__init__`, `ofdm_modulator.py:66-152`, the checks in program order (`get_modulator` at `:135` is last). -/
def ofdmInit {α : Type} (N_FFT modulation padding_left padding_right frequency_spreading : PyVal) (pilots_indices : IndicesArg)
    (pilots_values : ValuesArg α) (initial_pilot_set initial_pn9_seed : PyVal) : Res (OfdmStored α) := do
  let n ← ofdmCheckInt N_FFT
  ofdmRequire (isPowerOfTwo n)
  let m ← ofdmCheckStr modulation
  let l ← ofdmCheckInt padding_left
  let r ← ofdmCheckInt padding_right
  ofdmCheckBoth pilots_indices pilots_values
  let f ← ofdmCheckInt frequency_spreading
  ofdmRequire (decide (f = 1 ∨ f = 2 ∨ f = 4))
  let ips ← ofdmCheckInt initial_pilot_set
  let seed ← ofdmCheckInt initial_pn9_seed
  let p ← ofdmCheckPilots pilots_indices pilots_values
  let k ← getModulator m
  return { nFFT := n.toNat, modulation := k, paddingLeft := l, paddingRight := r, frequencySpreading := f.toNat, pilots := p,
           initialPilotSet := ips, initialSeed := seed }

/-- The configuration used by the rest of the model, when the paddings are not negative. -/
def OfdmStored.cfg {α : Type} (s : OfdmStored α) : OfdmCfg α :=
  { nFFT := s.nFFT, modulation := s.modulation, paddingLeft := s.paddingLeft.toNat, paddingRight := s.paddingRight.toNat,
    frequencySpreading := s.frequencySpreading, pilots := s.pilots }

end SunPhy
