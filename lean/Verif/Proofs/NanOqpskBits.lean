import Verif.Proofs.NanOqpskFec
/-
MR-O-QPSK on octets that are all 0 or 1, and the parts of a frame.
-/
namespace SunPhy
open Spec

theorem spreadV_bits (p : OqpskParams) (t : Bits) : oqpskSpreadV p (t.map b2n) = (oqpskSpread p t).map fun s => s.map b2n := by
  unfold oqpskSpreadV oqpskSpread
  split
  · cases psduBdeDsss p.band p.rm with
    | error e => rfl
    | ok ub =>
      have hb : (if ub = true then bdeV 0 (t.map b2n) else t.map b2n) = (if ub = true then bde t false else t).map b2n := by
        cases ub
        · rfl
        · exact bdeV_bits t false 0
      show (psduSpreadingDsss p.band p.rm >>= _) = _
      rw [hb]
      cases psduSpreadingDsss p.band p.rm with
      | error e => rfl
      | ok sp =>
        cases sp with
        | none => rfl
        | some codes =>
          show (dsssV ((if ub = true then bde t false else t).map b2n) codes >>= _) = _
          rw [dsssV_bits]
          simp only
          cases dsss (if ub = true then bde t false else t) codes <;> rfl
  · cases mdsssFactor p.band p.rm with
    | error e => rfl
    | ok f =>
      show (mdsssV (t.map b2n) f >>= _) = _
      rw [mdsssV_eq, map_pos_b2n]
      simp only
      cases mdsss t f <;> rfl

theorem tempV_bits (w : Nat) (hw : 6 ≤ w) (p : OqpskParams) (m : Bits) : oqpskTempV w p (m.map b2n) = (oqpskPsduBits p m).map fun t => t.map b2n := by
  unfold oqpskTempV oqpskPsduBits
  split
  · rw [fecV_bits w hw, interleaverV_bits]
  · rfl

/-- The parts of a frame. -/
theorem bitsToIQS_eq (w : Nat) (u8 : Entry → Int) (p : OqpskParams) (a : ArgS) (v : List Nat) (hv : checkOctets u8 a = .ok v) :
    oqpskBitsToIQS w u8 p a = oqpskPhrChips p (v.length / 8) >>= fun c => oqpskTempV w p v >>= fun t => oqpskSpreadV p t >>= fun s =>
      oqpskModulator p (shrChips p ++ c ++ p.insertPilots (s.map pos)) p.sps := by
  unfold oqpskBitsToIQS
  rw [hv]
  show (dsss (bde p.shr false) (shrSpreading p.band) >>= _) = _
  rw [(shr_ok p).1]
  unfold oqpskPhrChips
  show (p.phr (v.length / 8) >>= _) = _
  cases p.phr (v.length / 8) with
  | error e => rfl
  | ok phr =>
    show (oqpskInterleaver (oqpskFec phr false) false >>= _) = _
    simp only
    cases oqpskInterleaver (oqpskFec phr false) false with
    | error e => rfl
    | ok il =>
      show (dsss (bde il ((bde p.shr false).getLastD false)) (phrSpreading p.band) >>= _) = _
      simp only
      cases dsss (bde il ((bde p.shr false).getLastD false)) (phrSpreading p.band) with
      | error e => rfl
      | ok c =>
        show (oqpskTempV w p v >>= _) = (oqpskTempV w p v >>= _)
        congr 1
        funext t
        congr 1
        funext s
        rw [List.map_append, List.map_append, map_pos_b2n, map_pos_b2n, insertPilotsV_map]

theorem bitsToIQS_bits (w : Nat) (hw : 6 ≤ w) (u8 : Entry → Int) (o : OqpskObj) (a : ArgS) (m : Bits) (hv : checkOctets u8 a = .ok (m.map b2n)) (hne : m ≠ []) :
    oqpskBitsToIQS w u8 o.params a = ((oqpskBitsToIQ (bitsArg m)).call o).1 := by
  rw [(oqpskBitsToIQ_result _ o).1, bitsToIQS_eq w u8 _ a _ hv]
  unfold oqpskBitsResult oqpskFrame
  rw [C03.C03_identity m hne, (shr_ok _).1, tempV_bits w hw, List.length_map]
  simp only
  cases oqpskPhrChips o.params (m.length / 8) with
  | error e => rfl
  | ok c =>
    cases h2 : oqpskPsduBits o.params m with
    | error e => rfl
    | ok t =>
      show (oqpskSpreadV o.params (t.map b2n) >>= _) = _
      rw [spreadV_bits]
      simp only
      cases oqpskSpread o.params t with
      | error e => rfl
      | ok s =>
        show oqpskModulator _ (_ ++ _ ++ o.params.insertPilots ((s.map b2n).map pos)) _ = _
        rw [map_pos_b2n]

end SunPhy
