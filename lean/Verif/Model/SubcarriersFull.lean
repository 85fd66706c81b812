import Verif.Model.Signal
/-
`Ofdm_modulator.subcarriersToIQ` for every kind of argument (`Model/Signal.lean` has the 1-D case on one column).
-/
namespace SunPhy
open Complex
noncomputable section

/-- Argument of `subcarriersToIQ`: a 1-D array, a 2-D array (number of rows and columns, each of that length), an array of another number of
dimensions, or an object without `ndim`. -/
inductive SubArg
  | arr1 (l : List ℂ) | arr2 (rows : Nat) (cols : List (List ℂ)) | arrOther | notArray

/-- `Ofdm_modulator.subcarriersToIQ(subcarriers)`, `ofdm_modulator.py:468-500`: the columns of the result.  The result is not flattened. -/
def subcarriersToIQFull (nFFT : Nat) (CP : ℚ) (a : SubArg) : Res (List (List ℂ)) := do
  let (rows, cols) ← (match a with
    | .arr1 l => (.ok (l.length, [l]) : Res (Nat × List (List ℂ)))      -- `reshape(-1, 1)`
    | .arr2 r cols => .ok (r, cols)
    | .arrOther => .error .ValueError
    | .notArray => .error .AttributeError)
  if rows ≠ nFFT then .error .ValueError
  else .ok (cols.map fun col => cyclicPrefix CP (ofdmIfft col))

end
end SunPhy
