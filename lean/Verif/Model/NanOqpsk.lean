import Verif.Model.NanMessages
/-
`Mr_o_qpsk_modulator.bitsToIQ` after a message with a NaN has passed `check_binary_array` (`tools/bits.py:46-74`): the values handed on are octets, not bits.
`Model/MrOqpsk*.lean` are the case of bits.  A list of octets is a `List Nat`.  The result is given as a function of the parameters; the attributes are not kept (nothing reads
them in a later call, C32).
-/
namespace SunPhy

/-- `iter(u, u_new)` of `_FEC`, `mr_o_qpsk_modulator.py:934-942`: new register, `ak0`, `ak1`.  `u_new` is a `uint8`; `u_new << 5` keeps `w` bits, where `w` is 8 if numpy keeps the
type of the array (version 2) and the width of its default integer (32 or 64) if not. -/
def oqpskIterV (w u uNew : Nat) : Nat × Nat × Nat :=
  let ak0 := uNew ^^^ ((u >>> 4) &&& 1) ^^^ ((u >>> 3) &&& 1) ^^^ ((u >>> 1) &&& 1) ^^^ (u &&& 1)
  let ak1 := uNew ^^^ ((u >>> 5) &&& 1) ^^^ ((u >>> 4) &&& 1) ^^^ ((u >>> 3) &&& 1) ^^^ (u &&& 1)
  ((u >>> 1) ||| ((uNew <<< 5) % 2 ^ w), ak0, ak1)

/-- The loop of `_FEC`, `mr_o_qpsk_modulator.py:947-950`. -/
def oqpskEncodeV (w : Nat) : Nat → List Nat → List Nat
  | _, [] => []
  | u, b :: bs => (oqpskIterV w u b).2.1 :: (oqpskIterV w u b).2.2 :: oqpskEncodeV w (oqpskIterV w u b).1 bs

/-- `_FEC(data, True)`, `mr_o_qpsk_modulator.py:903-952`. -/
def oqpskFecV (w : Nat) (data : List Nat) : List Nat :=
  let len := data.length / 8
  let nb := ceilDiv (8 * len + 6) 63
  let nd := nb * 63
  let nPad := nd - (8 * len + 6)
  oqpskEncodeV w 0 (data ++ List.replicate (6 + nPad) 0)

/-- `_interleaver(data, True)`, `mr_o_qpsk_modulator.py:954-985`. -/
def oqpskInterleaverV (data : List Nat) : Res (List Nat) :=
  (List.range data.length).mapM fun k => pyGet data (oqpskIntlIndex true k)

/-- `_BDE(message, Eprevious)`, `mr_o_qpsk_modulator.py:560-591`, with `M = 0`: bitwise xor of the values. -/
def bdeV : Nat → List Nat → List Nat
  | _, [] => []
  | prev, m :: ms => (m ^^^ prev) :: bdeV (m ^^^ prev) ms

/-- `DSSS[code][key]`, `mr_o_qpsk_modulator.py:640-641`: the key is the string of the decimal digits of the values; the keys of the tables are strings of 0 and 1. -/
def Code.lookupV (c : Code) (row : List Nat) : Res Bits :=
  let key := row.flatMap decimalDigits
  if key.all (· < 2) then c.lookup (key.map (· == 1)) else .error .KeyError

/-- The loop of `_DSSS` from row `i` on, `mr_o_qpsk_modulator.py:638-641`. -/
def dsssRowsV (spreading : List Code) : Nat → List (List Nat) → Res Bits
  | _, [] => .ok []
  | i, row :: rows => do
    match spreading[i % spreading.length]? with
    | none => .error .IndexError
    | some c =>
      let chips ← c.lookupV row
      let rest ← dsssRowsV spreading (i + 1) rows
      return chips ++ rest

/-- `_DSSS(message, spreading)`, `mr_o_qpsk_modulator.py:593-643`. -/
def dsssV (message : List Nat) (spreading : List Code) : Res Bits :=
  match spreading with
  | [] => .error .IndexError
  | c :: _ => do dsssRowsV spreading 0 (← reshapeRows c.keyLen message)

/-- `np.insert(m, (np.arange(m.size // 8) + 1) * 8, 0)`, `mr_o_qpsk_modulator.py:738-739`. -/
def insertPV (m : List Nat) : List Nat := (chunks 8 m).flatMap (· ++ [0]) ++ m.drop (m.length / 8 * 8)

/-- One row of `_hadamard_encoder`, `mr_o_qpsk_modulator.py:664-668`: `to_int` uses `np.packbits`, which counts every value other than 0 as 1. -/
def hadamardEncodeRowV (N : Nat) (bs : List Nat) : Res (List Int) := do
  let groups ← reshapeRows 3 bs
  if groups = [] then .error .ValueError
  else do
    let cws ← groups.mapM fun g => do hadamardCodeword N 3 (← toInt (g.map fun v => decide (0 < v)))
    return cws.flatten

/-- `_TPC(message_binary, N)`, `mr_o_qpsk_modulator.py:705-752`. -/
def tpcV (message : List Nat) (N : Nat) : Res (List (List Int)) := do
  let m := message ++ List.replicate (message.length % 8) 0
  let mp := insertPV m
  if mp.length % 3 ≠ 0 then .error .ValueError
  else do
    let rows ← [everyNth 3 0 mp, everyNth 3 1 mp, everyNth 3 2 mp].mapM (hadamardEncodeRowV N)
    match rows with
    | [r0, r1, r2] => return spcEncoder r0 r1 r2
    | _ => .error .ValueError

/-- `_MDSSS(message, spreading_factor)`, `mr_o_qpsk_modulator.py:790-815`. -/
def mdsssV (message : List Nat) (spreadingFactor : Nat) : Res Bits := do
  let N := spreadingFactor / 4
  let bitstreams ← tpcV message N
  spreadingMultiplexing bitstreams N

/-- `_insert_pilots(encoded_PSDU)`, `mr_o_qpsk_modulator.py:873-901`. -/
def OqpskParams.insertPilotsV (p : OqpskParams) (psdu : List Nat) : List Nat :=
  let MP := pilotSpacing p.band
  let L := ceilDiv psdu.length MP
  (List.range L).flatMap fun l => (pilotSequence p.band).map b2n ++ (psdu.drop (l * MP)).take MP

/-- `self._PSDU_temp`, `mr_o_qpsk_modulator.py:1103-1108`. -/
def oqpskTempV (w : Nat) (p : OqpskParams) (v : List Nat) : Res (List Nat) :=
  if (0 ≤ p.rm ∧ p.rm ≤ 1) ∨ p.sm = 0 then oqpskInterleaverV (oqpskFecV w v) else .ok v

/-- `PSDU_encoded_spread`, `mr_o_qpsk_modulator.py:1111-1126`. -/
def oqpskSpreadV (p : OqpskParams) (temp : List Nat) : Res (List Nat) :=
  if p.sm = 0 then do
    let useBde ← psduBdeDsss p.band p.rm
    match ← psduSpreadingDsss p.band p.rm with
    | some codes => return (← dsssV (if useBde then bdeV 0 temp else temp) codes).map b2n
    | none => return (if useBde then bdeV 0 temp else temp)
  else do
    let f ← mdsssFactor p.band p.rm
    return (← mdsssV temp f).map b2n

noncomputable section

/-- `Mr_o_qpsk_modulator.bitsToIQ(bits)`, `mr_o_qpsk_modulator.py:1067-1140`: value or exception as a function of the parameters.  `BPSK.convert` (`tools/modulations.py:51-67`) maps
every value above 0 to 1, so the modulator is that for bits. -/
def oqpskBitsToIQS (w : Nat) (u8 : Entry → Int) (p : OqpskParams) (bits : ArgS) : Res (List ℂ × ℚ) := do
  let v ← checkOctets u8 bits
  -- SHR
  let shrBde := bde p.shr false
  let cSHR ← dsss shrBde (shrSpreading p.band)
  -- PHR
  let phr ← p.phr (v.length / 8)
  let il ← oqpskInterleaver (oqpskFec phr false) false
  let cPHR ← dsss (bde il (shrBde.getLastD false)) (phrSpreading p.band)
  -- PSDU
  let temp ← oqpskTempV w p v
  let spread ← oqpskSpreadV p temp
  let cPPDU := cSHR.map b2n ++ cPHR.map b2n ++ p.insertPilotsV spread
  oqpskModulator p (cPPDU.map fun c => decide (0 < c)) p.sps

end
end SunPhy
