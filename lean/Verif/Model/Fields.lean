import Verif.Model.Poly
import Verif.Model.Bits
/-
Model of `sun_phy/mr_ofdm/fields.py`.
-/
namespace SunPhy

/-- `_uintarr(value, bits)`, `fields.py:13-40` (`order='big'`): `ValueError` if the number needs more digits. -/
def uintarr (value bits : Nat) : Res Bits :=
  let string := binaryRepr value 0
  if string.length > bits then .error .ValueError
  else .ok (List.replicate (bits - string.length) false ++ string)

/-- Generator polynomial `x^8 + x^2 + x + 1`, `fields.py:58`. -/
def polyG : List Int := [1, 0, 0, 0, 0, 0, 1, 1, 1]

/-- `HCS_calculation(input_array)`, `fields.py:42-72`. -/
def hcsCalculation (input : Bits) : List Int :=
  -- part a)
  let k := poly1d (1 :: List.replicate 22 0)
  let b := poly1d (List.replicate 8 1)
  let c := poly1d (polymul k b)
  let A := mod2 (poly1d (polydivRem c polyG))
  -- part b)
  let a := poly1d (polymul (poly1d (bitsToInts input)) (poly1d (1 :: List.replicate 8 0)))
  let B := mod2 (poly1d (polydivRem a polyG))
  -- one's complement of the modulo-2 sum
  (mod2 (polyadd A B)).map (1 - ·)

/-- `output[a:b] = vals` for `0 ≤ a ≤ b`: numpy requires the lengths to agree (or one value, broadcast). -/
def assignSlice {α} (l : List α) (a b : Nat) (vals : List α) : Res (List α) :=
  let n := min b l.length - min a l.length
  if vals.length = n then .ok (l.take a ++ vals ++ l.drop b)
  else match vals with
    | [v] => .ok (l.take a ++ List.replicate n v ++ l.drop b)
    | _ => .error .ValueError

/-- The checks of `PHR.__init__`, `fields.py:92-104`, for integer arguments. -/
def phrCheck (rate length scrambler : Int) : Res Unit :=
  if ¬ (0 ≤ rate ∧ rate ≤ 6) then .error .ValueError
  else if ¬ (1 ≤ length ∧ length ≤ 2 ^ 11) then .error .ValueError
  else if ¬ (0 ≤ scrambler ∧ scrambler ≤ 3) then .error .ValueError
  else .ok ()

/-- `PHR(rate, length, scrambler, phr_length).value()`, `fields.py:75-138`; slices from `fields.py:6-10`. -/
def phrValue (rate length scrambler phrLength : Nat) : Res Bits := do
  phrCheck rate length scrambler
  let output := List.replicate phrLength false
  let output ← assignSlice output 0 (4 + 1) (← uintarr rate 5)          -- RATE_BITS
  let output ← assignSlice output 6 (16 + 1) (← uintarr length 11)      -- FRAME_LENGTH_BITS
  let output ← assignSlice output 19 (20 + 1) (← uintarr scrambler 2)   -- SCRAMBLER_BITS
  let hcs := (hcsCalculation (output.take 22)).map (· == 1)
  assignSlice output 22 (29 + 1) hcs                                    -- HCS_BITS

end SunPhy
