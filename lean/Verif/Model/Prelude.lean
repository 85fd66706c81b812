/-
Shared vocabulary of the model: Python exceptions as values, bit arrays, and the few
Python / numpy indexing primitives the code relies on (slicing, strided slicing, reshape(-1, n),
broadcasting along one axis).
-/
namespace SunPhy

/-- Exception classes raised by the modelled code.  `UnsupportedError` is `sun_phy/tools/errors.py:1-2`;
`UnboundLocalError` is Python's, raised by `mr_ofdm/rate_encoder.py:110` on an empty input. -/
inductive PyErr
  | TypeError | ValueError | IndexError | KeyError | UnsupportedError | AttributeError
  | UnboundLocalError | AssertionError | ZeroDivisionError | OverflowError
  deriving DecidableEq, Repr

/-- Result of a Python call: a value or a raised exception. -/
abbrev Res (α : Type _) := Except PyErr α

deriving instance DecidableEq for Except

/-- A numpy array of 0/1 values. -/
abbrev Bits := List Bool

/-- Numeric value of a bit (numpy stores bits as integers 0/1). -/
def b2n (b : Bool) : Nat := if b then 1 else 0

/-- The `w` low bits of `n`, most significant first.  Used to transcribe bit-string literals:
`from_bitstring('0110 1111 …')` (`tools/bits.py:37-44`) is written `natBits w 0b0110_1111…`. -/
def natBits (w n : Nat) : Bits := (List.range w).reverse.map n.testBit

/-- Python slice bound normalisation for a sequence of length `len` (negative indices count from the end,
then clamp to `0..len`). -/
def pyBound (len : Nat) (i : Int) : Nat :=
  if i < 0 then ((len : Int) + i).toNat else min i.toNat len

/-- `l[a:b] = v` (scalar assignment to a slice with step 1). -/
def setSlice {α} (l : List α) (a b : Int) (v : α) : List α :=
  let s := pyBound l.length a
  let e := pyBound l.length b
  (l.zipIdx).map fun (x, i) => if s ≤ i ∧ i < e then v else x

/-- `l[off::k]` for `off < k` (call with counter `off`): keeps the entries with index `≡ off (mod k)`. -/
def everyNth {α} (k : Nat) : Nat → List α → List α
  | _, [] => []
  | 0, x :: xs => x :: everyNth k (k - 1) xs
  | c + 1, _ :: xs => everyNth k c xs

/-- The rows of `l.reshape(-1, n)` (C order) when `n` divides the size. -/
def chunks {α} (n : Nat) (l : List α) : List (List α) :=
  (List.range (l.length / n)).map fun i => (l.drop (i * n)).take n

/-- `l.reshape(-1, n)`: numpy raises `ValueError` when the size is not a multiple of `n`
(or `n = 0`). -/
def reshapeRows {α} (n : Nat) (l : List α) : Res (List (List α)) :=
  if n = 0 ∨ l.length % n ≠ 0 then .error .ValueError else .ok (chunks n l)

/-- numpy broadcasting of a binary operation along axis 0: equal lengths, or one of them 1;
otherwise `ValueError`. -/
def bcast {α β γ} (f : α → β → γ) (xs : List α) (ys : List β) : Res (List γ) :=
  if xs.length = ys.length then .ok (List.zipWith f xs ys)
  else match xs, ys with
    | [x], ys => .ok (ys.map (f x))
    | xs, [y] => .ok (xs.map (f · y))
    | _, _ => .error .ValueError

/-- `int(np.ceil(a / b))` for positive `b` (exact; the code goes through floats). -/
def ceilDiv (a b : Nat) : Nat := (a + b - 1) / b

/-- Python values that can be handed to a validated constructor argument.  Floats are their exact
rational value (NaN and infinities are not modelled). -/
inductive PyVal
  | int (i : Int) | float (q : Rat) | bool (b : Bool) | str (s : String) | other
  deriving DecidableEq

/-- `isinstance(v, int)` with the integer value; Python's `bool` is a subclass of `int`. -/
def PyVal.asInt? : PyVal → Option Int
  | .int i => some i
  | .bool b => some (if b then 1 else 0)
  | _ => none

/-- `isinstance(v, bool)`. -/
def PyVal.asBool? : PyVal → Option Bool
  | .bool b => some b
  | _ => none

/-- `isinstance(v, float) or isinstance(v, int)` with the numeric value. -/
def PyVal.asNum? : PyVal → Option Rat
  | .float q => some q
  | v => v.asInt?.map fun i => (i : Rat)

/-- Python's `int(q)` on a float: truncation toward zero. -/
def truncRat (q : Rat) : Int := if 0 ≤ q then q.floor else q.ceil

/-- A Python method body on an object with mutable attributes `σ`: it may raise, and assignments made before the
exception stay in force. -/
abbrev PyM (σ : Type) (α : Type) := ExceptT PyErr (StateM σ) α

/-- Run a method on an object: result (or exception) and the object afterwards. -/
def PyM.call {σ α} (m : PyM σ α) (o : σ) : Res α × σ := ExceptT.run m o

/-- A call of a function without side effects inside a method. -/
def PyM.lift {σ α} (r : Res α) : PyM σ α := ExceptT.mk (pure r)

/-- Reading an attribute `self._x`: `AttributeError` when it has never been assigned. -/
def PyM.attr {σ α} (f : σ → Option α) : PyM σ α := do
  match f (← get) with
  | some v => pure v
  | none => throw .AttributeError

end SunPhy
