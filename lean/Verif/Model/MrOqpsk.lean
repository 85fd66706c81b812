import Verif.Model.MrOqpskTables
import Verif.Model.Bits
import Verif.Model.Poly
import Verif.Model.Fields
/-
Model of `sun_phy/mr_o_qpsk/mr_o_qpsk_modulator.py` (`Mr_o_qpsk_modulator`) up to the chip sequence.  The pulse shaping is
in `Model/MrOqpskSignal.lean`.
-/
namespace SunPhy

/-- Parameters stored by the constructor, `mr_o_qpsk_modulator.py:553-558`. -/
structure OqpskParams where
  band : Band
  rm : Int
  sm : Int
  sps : Nat
  deriving DecidableEq, Repr

/-- `Mr_o_qpsk_modulator.__init__`, `mr_o_qpsk_modulator.py:533-558`, for integer modes. -/
def mrOqpskInit (band : Band) (rateMode spreadingMode : Int) (samplesPerSymbol : Nat := 10) : Res OqpskParams :=
  if spreadingMode = 1 ∧ ¬ mdsssSupported band then .error .UnsupportedError
  else .ok { band := band, rm := rateMode, sm := spreadingMode, sps := samplesPerSymbol }

/-- The loop of `_BDE` from index `i` on, `mr_o_qpsk_modulator.py:582-589`; `prev` is `signal[i-1]` (or `Eprevious`). -/
def bdeFrom (M : Nat) : Nat → Bool → Bits → Bits
  | _, _, [] => []
  | i, prev, m :: ms =>
    let s := if M > 0 ∧ i % M = 0 then m else m ^^ prev
    s :: bdeFrom M (i + 1) s ms

/-- `_BDE(message, Eprevious, M=0)`, `mr_o_qpsk_modulator.py:560-591`. -/
def bde (message : Bits) (ePrevious : Bool) (M : Nat := 0) : Bits := bdeFrom M 0 ePrevious message

/-- The loop of `_DSSS` from row `i` on, `mr_o_qpsk_modulator.py:638-641`. -/
def dsssRows (spreading : List Code) : Nat → List Bits → Res Bits
  | _, [] => .ok []
  | i, row :: rows => do
    match spreading[i % spreading.length]? with
    | none => .error .IndexError
    | some c =>
      let chips ← c.lookup row
      let rest ← dsssRows spreading (i + 1) rows
      return chips ++ rest

/-- `_DSSS(message, spreading)`, `mr_o_qpsk_modulator.py:593-643`. -/
def dsss (message : Bits) (spreading : List Code) : Res Bits :=
  match spreading with
  | [] => .error .IndexError
  | c :: _ => do dsssRows spreading 0 (← reshapeRows c.keyLen message)

/-- `_hadamard_matrix(2**iterations)`, `mr_o_qpsk_modulator.py:161-182` (as list of rows; for `iterations = 0` the code
returns a 1-D array, never used). -/
def hadamardMatrixPow : Nat → List (List Int)
  | 0 => [[1]]
  | n + 1 =>
    let H := hadamardMatrixPow n
    H.map (fun r => r ++ r) ++ H.map (fun r => r ++ r.map (- ·))

/-- `_hadamard_matrix(N)`: `iterations = int(np.log2(N))`, `mr_o_qpsk_modulator.py:176`. -/
def hadamardMatrix (N : Nat) : List (List Int) := hadamardMatrixPow N.log2

/-- `_hadamard_codeword(N, M, i)` for a single index, `mr_o_qpsk_modulator.py:184-220`: `np.logical_not` of a ±1 row. -/
def hadamardCodeword (N M i : Nat) : Res (List Int) :=
  let H := hadamardMatrix N
  let nIndices := 2 ^ M
  if i < nIndices / 2 then
    match H[i]? with
    | some r => .ok r
    | none => .error .IndexError
  else
    match H[nIndices - 1 - i]? with
    | some r => .ok (r.map fun x => if x = 0 then 1 else 0)
    | none => .error .IndexError

/-- One row of `_hadamard_encoder`, `mr_o_qpsk_modulator.py:664-668`: groups of 3 bits → codewords, concatenated.
(`reshape(..., order='A')` of a strided 1-D row is C order.) -/
def hadamardEncodeRow (N : Nat) (bs : Bits) : Res (List Int) := do
  let groups ← reshapeRows 3 bs
  if groups = [] then .error .ValueError
  else do
    let cws ← groups.mapM fun g => do hadamardCodeword N 3 (← toInt g)
    return cws.flatten

/-- `_hadamard_encoder(bitstreams, N)`, `mr_o_qpsk_modulator.py:645-670`, on the list of the three rows. -/
def hadamardEncoder (N : Nat) (rows : List Bits) : Res (List (List Int)) := rows.mapM (hadamardEncodeRow N)

/-- Value stored when an int64 is assigned into a uint8 array. -/
def toUint8 (x : Int) : Int := x % 256

/-- `not (a ^ b ^ c)` on int64 values, `mr_o_qpsk_modulator.py:700-701`. -/
def notXor3 (a b c : Int) : Int :=
  if (BitVec.ofInt 64 a ^^^ BitVec.ofInt 64 b ^^^ BitVec.ofInt 64 c) = 0 then 1 else 0

/-- `_SPC_encoder(bitstreams)`, `mr_o_qpsk_modulator.py:672-703`, on three rows of equal length; columns beyond the last
multiple of 4 stay zero.  The parity of every column of a block is computed from column 1 of the block. -/
def spcEncoder (r0 r1 r2 : List Int) : List (List Int) :=
  let n := r0.length / 4 * 4
  let fit (r : List Int) := (r.take n).map toUint8 ++ List.replicate (r.length - n) 0
  let parity := (List.range (r0.length / 4)).flatMap fun i =>
    List.replicate 4 (notXor3 (r0.getD (4 * i + 1) 0) (r1.getD (4 * i + 1) 0) (r2.getD (4 * i + 1) 0))
  [fit r0, fit r1, fit r2, parity ++ List.replicate (r0.length - n) 0]

/-- `np.insert(m, (np.arange(m.size // 8) + 1) * 8, 0)`, `mr_o_qpsk_modulator.py:738-739`: a zero after every octet. -/
def insertP (m : Bits) : Bits := (chunks 8 m).flatMap (· ++ [false]) ++ m.drop (m.length / 8 * 8)

/-- `_TPC(message_binary, N)`, `mr_o_qpsk_modulator.py:705-752`.  NB: `pad = size mod 8` zeros (not `-size mod 8`). -/
def tpc (message : Bits) (N : Nat) : Res (List (List Int)) := do
  let m := message ++ List.replicate (message.length % 8) false
  let mp := insertP m
  -- `reshape(3, -1, order='F')`
  if mp.length % 3 ≠ 0 then .error .ValueError
  else do
    let rows ← hadamardEncoder N [everyNth 3 0 mp, everyNth 3 1 mp, everyNth 3 2 mp]
    match rows with
    | [r0, r1, r2] => return spcEncoder r0 r1 r2
    | _ => .error .ValueError

/-- `_spreading_multiplexing(bitstreams, n)`, `mr_o_qpsk_modulator.py:756-788`.  The array `ci` filled by the loop of lines
776-780 is never read; `c` is an array of zeros. -/
def spreadingMultiplexing (bitstreams : List (List Int)) (n : Nat) : Res Bits := do
  let c : List Int := List.replicate (bitstreams.map List.length).sum 0
  let mi ← coveringCode n
  let vals ← (List.range (4 * n)).mapM fun i =>
    match c[(i % 4 + i / n * 4) % 256]? with
    | some v => (Except.ok v : Res Int)
    | none => .error .IndexError
  bcast (fun v m => (v != 0) ^^ m) vals mi

/-- `_MDSSS(message, spreading_factor)`, `mr_o_qpsk_modulator.py:790-815`. -/
def mdsss (message : Bits) (spreadingFactor : Nat) : Res Bits := do
  let N := spreadingFactor / 4
  let bitstreams ← tpc message N
  spreadingMultiplexing bitstreams N

/-- `to_bin(self._RM, 2)`, `mr_o_qpsk_modulator.py:850`, for any integer: `np.binary_repr` gives the 2-bit two's complement of
−1 and −2; for smaller numbers more than two digits (or `ValueError`), which cannot be stored in `signal[1:3]`. -/
def rmBits (rm : Int) : Res Bits :=
  if 0 ≤ rm then .ok (toBin rm.toNat 2)
  else if -2 ≤ rm then .ok (natBits 2 (rm + 4).toNat)
  else .error .ValueError

/-- HCS of the PHR, `mr_o_qpsk_modulator.py:858-868`.  `.astype(np.uint8)` of the (possibly negative) remainder
coefficients wraps modulo 256 (x86 behaviour), which preserves parity. -/
def oqpskHcs (M : Bits) : List Int :=
  let x8 : List Int := 1 :: List.replicate 8 0
  let M2 := mod2 ((polymul (bitsToInts M) x8).map toUint8)
  let R := mod2 ((polydivRem M2 polyG).map toUint8)
  List.replicate (8 - R.length) 0 ++ R

namespace OqpskParams

/-- `_SHR()`, `mr_o_qpsk_modulator.py:817-829`. -/
def shr (p : OqpskParams) : Bits := List.replicate (preambleLength p.band) false ++ oqpskSfd

/-- `_PHR(message_length)`, `mr_o_qpsk_modulator.py:831-871`. -/
def phr (p : OqpskParams) (messageLength : Nat) : Res Bits := do
  let signal := List.replicate (oqpskPhrLength * 8) false
  let signal := signal.set 0 (p.sm != 0)
  let signal ← assignSlice signal 1 (2 + 1) (← rmBits p.rm)
  let signal := setSlice signal 3 (4 + 1) false
  let signal ← assignSlice signal 5 (15 + 1) (toBin messageLength 11)
  let hcs := (oqpskHcs (signal.take 16)).map (· == 1)
  assignSlice signal 16 24 hcs

/-- `_insert_pilots(encoded_PSDU)`, `mr_o_qpsk_modulator.py:873-901`: segment `l` is the pilot sequence followed by the chips
`[l*MP, (l+1)*MP)`; the last one may be shorter, and the output array has exactly the total size. -/
def insertPilots (p : OqpskParams) (psdu : Bits) : Bits :=
  let MP := pilotSpacing p.band
  let L := ceilDiv psdu.length MP
  (List.range L).flatMap fun l => pilotSequence p.band ++ (psdu.drop (l * MP)).take MP

end OqpskParams

/-- `iter(u, u_new)` of `_FEC`, `mr_o_qpsk_modulator.py:934-942`: new register, `ak0`, `ak1`. -/
def oqpskIter (u : Nat) (uNew : Bool) : Nat × Bool × Bool :=
  let n := b2n uNew
  let ak0 := n ^^^ ((u >>> 4) &&& 1) ^^^ ((u >>> 3) &&& 1) ^^^ ((u >>> 1) &&& 1) ^^^ (u &&& 1)
  let ak1 := n ^^^ ((u >>> 5) &&& 1) ^^^ ((u >>> 4) &&& 1) ^^^ ((u >>> 3) &&& 1) ^^^ (u &&& 1)
  ((u >>> 1) ||| (n <<< 5), ak0 == 1, ak1 == 1)

/-- The loop of `_FEC`, `mr_o_qpsk_modulator.py:947-950`. -/
def oqpskEncode : Nat → Bits → Bits × Nat
  | u, [] => ([], u)
  | u, b :: bs =>
    let (u', a0, a1) := oqpskIter u b
    let (out, u'') := oqpskEncode u' bs
    (a0 :: a1 :: out, u'')

/-- `data_pad`, `mr_o_qpsk_modulator.py:919-932`. -/
def oqpskPad (data : Bits) (isPSDU : Bool) : Bits :=
  if isPSDU then
    let len := data.length / 8
    let nb := ceilDiv (8 * len + 6) 63
    let nd := nb * 63
    let nPad := nd - (8 * len + 6)
    data ++ List.replicate (6 + nPad) false
  else data ++ List.replicate 6 false

/-- `_FEC(data, isPSDU)`, `mr_o_qpsk_modulator.py:903-952`. -/
def oqpskFec (data : Bits) (isPSDU : Bool) : Bits := (oqpskEncode 0 (oqpskPad data isPSDU)).1

/-- Index array of `_interleaver`, `mr_o_qpsk_modulator.py:971-980`: `i = N/λ * ((N-1-k) mod λ) + floor((N-1-k)/λ)`, negative
for `k ≥ N`. -/
def oqpskIntlIndex (isPSDU : Bool) (k : Nat) : Int :=
  let lambda : Int := if isPSDU then 7 else 6
  let n : Int := if isPSDU then 7 * 18 else 10 * 6
  n / lambda * ((n - 1 - k) % lambda) + (n - 1 - k) / lambda

/-- numpy integer indexing `data[i]` (negative indices count from the end; `IndexError` outside). -/
def pyGet {α} (data : List α) (i : Int) : Res α :=
  let j := if i < 0 then i + data.length else i
  if j < 0 then .error .IndexError
  else match data[j.toNat]? with
    | some v => .ok v
    | none => .error .IndexError

/-- `_interleaver(data, isPSDU)`, `mr_o_qpsk_modulator.py:954-985`. -/
def oqpskInterleaver (data : Bits) (isPSDU : Bool) : Res Bits :=
  (List.range data.length).mapM fun k => pyGet data (oqpskIntlIndex isPSDU k)

/-- `Mr_o_qpsk_modulator` object: parameters and the attributes written by `bitsToIQ`
(`mr_o_qpsk_modulator.py:1086-1135`). -/
structure OqpskObj where
  params : OqpskParams
  shr_bde : Option Bits := none
  cSHR : Option Bits := none
  phr_encoded : Option Bits := none
  phr_interleaved : Option Bits := none
  phr_bde : Option Bits := none
  cPHR : Option Bits := none
  PSDU_encoded : Option Bits := none
  PSDU_interleaved : Option Bits := none
  PSDU_temp : Option Bits := none
  PSDU_BDE : Option Bits := none
  cPSDU : Option Bits := none
  cPPDU : Option Bits := none

/-- The part of `bitsToIQ` that computes the chip sequence `self._cPPDU`, `mr_o_qpsk_modulator.py:1082-1135`. -/
def oqpskChips (bits : Arg) : PyM OqpskObj Bits := do
  let bits ← PyM.lift (checkBinaryArray bits)
  let p := (← get).params
  -- SHR
  modify fun o => { o with shr_bde := some (bde p.shr false) }
  let sb ← PyM.attr (·.shr_bde)
  let cshr ← PyM.lift (dsss sb (shrSpreading p.band))
  modify fun o => { o with cSHR := some cshr }
  -- PHR
  let phr ← PyM.lift (p.phr (bits.length / 8))
  modify fun o => { o with phr_encoded := some (oqpskFec phr false) }
  let pe ← PyM.attr (·.phr_encoded)
  let pint ← PyM.lift (oqpskInterleaver pe false)
  modify fun o => { o with phr_interleaved := some pint }
  let pint ← PyM.attr (·.phr_interleaved)
  let sb ← PyM.attr (·.shr_bde)
  modify fun o => { o with phr_bde := some (bde pint (sb.getLastD false)) }
  let pb ← PyM.attr (·.phr_bde)
  let cphr ← PyM.lift (dsss pb (phrSpreading p.band))
  modify fun o => { o with cPHR := some cphr }
  -- PSDU
  if (0 ≤ p.rm ∧ p.rm ≤ 1) ∨ p.sm = 0 then
    modify fun o => { o with PSDU_encoded := some (oqpskFec bits true) }
    let e ← PyM.attr (·.PSDU_encoded)
    let il ← PyM.lift (oqpskInterleaver e true)
    modify fun o => { o with PSDU_interleaved := some il }
    let il ← PyM.attr (·.PSDU_interleaved)
    modify fun o => { o with PSDU_temp := some il }
  else
    modify fun o => { o with PSDU_temp := some bits }
  let spread ← do
    if p.sm = 0 then
      let useBde ← PyM.lift (psduBdeDsss p.band p.rm)
      let t ← PyM.attr (·.PSDU_temp)
      modify fun o => { o with PSDU_BDE := some (if useBde then bde t false else t) }
      let sp ← PyM.lift (psduSpreadingDsss p.band p.rm)
      let b ← PyM.attr (·.PSDU_BDE)
      match sp with
      | some codes => PyM.lift (dsss b codes)
      | none => pure b
    else
      let t ← PyM.attr (·.PSDU_temp)
      let f ← PyM.lift (mdsssFactor p.band p.rm)
      PyM.lift (mdsss t f)
  modify fun o => { o with cPSDU := some (p.insertPilots spread) }
  let cs ← PyM.attr (·.cSHR)
  let cp ← PyM.attr (·.cPHR)
  let cd ← PyM.attr (·.cPSDU)
  modify fun o => { o with cPPDU := some (cs ++ cp ++ cd) }
  PyM.attr (·.cPPDU)

end SunPhy
