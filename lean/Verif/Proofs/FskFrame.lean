import Verif.Proofs.FskCode
import Verif.Proofs.FieldsLemmas
import Verif.Proofs.PyMLemmas
import Verif.Props.C03
/-
The bits transmitted by an MR-FSK modulator as a function of parameters and message only.
-/
namespace SunPhy
open FskParams

/-- Header ++ message after FEC and interleaving. -/
def fskCoded (p : FskParams) (d : Bits) : Res Bits :=
  if p.fecEnabled then
    if p.interleaving then fskInterleaver (fskFec p.fecScheme d) else .ok (fskFec p.fecScheme d)
  else .ok d

/-- Whitening of everything after the header. -/
def fskWhiten (p : FskParams) (d : Bits) : Bits :=
  if p.scramble then
    let start := if p.fecEnabled then 32 else 16
    d.take start ++ scrambler (d.drop start)
  else d

/-- All the bits of a frame. -/
def fskBits (p : FskParams) (m : Bits) : Res Bits :=
  match p.phr (m.length / 8) with
  | .error e => .error e
  | .ok phr =>
    match fskCoded p (phr ++ m) with
    | .error e => .error e
    | .ok c => .ok (p.shr ++ fskWhiten p c)

theorem fskBinary_result (a : Arg) (o : FskObj) :
    ((fskBinary a).call o).1 = (match checkBinaryArray a with | .error e => .error e | .ok m => fskBits o.params m) ∧
    ((fskBinary a).call o).2.params = o.params := by
  unfold fskBinary
  cases ha : checkBinaryArray a with
  | error e => simp only [PyM.call_bind, PyM.call_lift, PyM.seqR_error, and_self]
  | ok m =>
    simp only [PyM.call_bind, PyM.call_get, PyM.seqR_ok, PyM.call_lift]
    unfold fskBits
    cases hp : o.params.phr (m.length / 8) with
    | error e => simp only [PyM.seqR_error, and_self]
    | ok phr =>
      simp only [PyM.seqR_ok, PyM.call_modify]
      cases hf : o.params.fecEnabled
      · cases hs : o.params.scramble
        · simp [PyM.call_bind, PyM.seqR_ok, PyM.call_modify, PyM.call_attr, PyM.call_pure, fskCoded, fskWhiten, hf, hs]
        · simp [PyM.call_bind, PyM.seqR_ok, PyM.call_modify, PyM.call_attr, PyM.call_pure, fskCoded, fskWhiten, hf, hs, fskPhrLength]
      · cases hi : o.params.interleaving
        · cases hs : o.params.scramble
          · simp [PyM.call_bind, PyM.seqR_ok, PyM.call_modify, PyM.call_attr, PyM.call_pure, fskCoded, fskWhiten, hf, hs, hi]
          · simp [PyM.call_bind, PyM.seqR_ok, PyM.call_modify, PyM.call_attr, PyM.call_pure, fskCoded, fskWhiten, hf, hs, hi,
              fskPhrLength]
        · cases hil : fskInterleaver (fskFec o.params.fecScheme (phr ++ m)) with
          | error e =>
            simp [PyM.call_bind, PyM.seqR_ok, PyM.seqR_error, PyM.call_modify, PyM.call_attr, PyM.call_lift, fskCoded, hf, hi,
              hil]
          | ok il =>
            cases hs : o.params.scramble
            · simp [PyM.call_bind, PyM.seqR_ok, PyM.call_modify, PyM.call_attr, PyM.call_pure, PyM.call_lift, fskCoded, fskWhiten,
                hf, hs, hi, hil]
            · simp [PyM.call_bind, PyM.seqR_ok, PyM.call_modify, PyM.call_attr, PyM.call_pure, PyM.call_lift, fskCoded, fskWhiten,
                hf, hs, hi, hil, fskPhrLength]

theorem toBin_length_ge {n w : Nat} (h : 2 ^ w ≤ n) : w < (toBin n w).length := by
  unfold toBin binaryRepr
  have h0 : n ≠ 0 := by have := Nat.two_pow_pos w; omega
  have : w ≤ n.log2 := (Nat.le_log2 h0).2 h
  simp; omega

theorem fsk_phr_ok (p : FskParams) {n : Nat} (h : n < 2048) :
    p.phr n = .ok ([false, false, false, p.fcsType == 1, p.scramble] ++ natBits 11 n) := by
  unfold FskParams.phr
  have e : toBin n 11 = natBits 11 n := by simp [toBin, binaryRepr_eq (w := 11) (by decide) (show n < 2 ^ 11 from h)]
  rw [e]
  generalize (p.fcsType == 1) = a
  generalize p.scramble = b
  have hl : (natBits 11 n).length = 11 := natBits_length _ _
  revert hl
  generalize natBits 11 n = l
  intro hl
  simp only
  rw [assignSlice_ok (by simp [setSlice, fskPhrLength]) (by rw [hl]) (by decide)]
  cases a <;> cases b <;> simp [setSlice, fskPhrLength, pyBound]

theorem fsk_phr_error (p : FskParams) {n : Nat} (h : 2048 ≤ n) : p.phr n = .error .ValueError := by
  unfold FskParams.phr
  have hl := toBin_length_ge (n := n) (w := 11) h
  simp only
  unfold assignSlice
  have hn : (min 16 (((setSlice ((List.replicate (fskPhrLength * 8) false).set 0 false) 1 3 false).set 3 (p.fcsType == 1)).set 4 p.scramble).length
      - min 5 (((setSlice ((List.replicate (fskPhrLength * 8) false).set 0 false) 1 3 false).set 3 (p.fcsType == 1)).set 4 p.scramble).length) = 11 := by
    simp [setSlice, fskPhrLength]
  simp only [hn]
  rw [if_neg (by omega)]
  split
  · rename_i v hv; rw [hv] at hl; simp at hl
  · rfl

end SunPhy
