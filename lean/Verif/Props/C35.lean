import Verif.Proofs.FskFrame
import Verif.Props.C02
import Verif.Props.C04
import Verif.Props.C34
import Verif.Props.C37
import Verif.Props.C07
/-
C35 — MR-FSK PHY header fields.
C40 — MR-FSK whitening never touches the header.
-/
namespace SunPhy.C35
open SunPhy C34

/-- Number of bits before the header. -/
def shrSize (p : FskParams) : Nat := p.preambleLength * preambleUnit p.modulation + sfdLength p.modulation

/-- The 16 header bits: mode switch 0, two reserved zeros, FCS type, whitening flag, 11-bit octet count. -/
def IsHeader (hdr : Bits) (fcs : Nat) (whitening : Bool) (octets : Nat) : Prop :=
  ∃ len : Bits, hdr = [false, false, false, decide (fcs = 1), whitening] ++ len ∧ len.length = 11 ∧ C04.denotesMSB len = octets

theorem shr_length (p : FskParams) : p.shr.length = shrSize p := by
  unfold FskParams.shr shrSize
  rw [List.length_append, tile_length, sfd_eq, natBits_length]
  cases p.modulation <;> rfl

theorem denotes_natBits {n w : Nat} (h : n < 2 ^ w) : C04.denotesMSB (natBits w n) = n := by
  rw [C04.denotesMSB_eq, natBits_reverse, C04.leValue_range w n h]

theorem isHeader_phr (p : FskParams) {n : Nat} (h : n < 2048) :
    IsHeader ([false, false, false, p.fcsType == 1, p.scramble] ++ natBits 11 n) p.fcsType p.scramble n :=
  ⟨natBits 11 n, by rw [show (p.fcsType == 1) = decide (p.fcsType = 1) by by_cases h : p.fcsType = 1 <;> simp [h]], natBits_length _ _, denotes_natBits h⟩

theorem isHeader_length {hdr : Bits} {f : Nat} {w : Bool} {n : Nat} (h : IsHeader hdr f w n) : hdr.length = 16 := by
  obtain ⟨len, rfl, hl, -⟩ := h; simp [hl]

/-- **C35 (fields).**  `_PHR(n)` has the fields of the standard for `n < 2048` octets and raises `ValueError` for more. -/
theorem C35_header (p : FskParams) (n : Nat) :
    (n < 2048 → ∃ hdr, p.phr n = .ok hdr ∧ IsHeader hdr p.fcsType p.scramble n) ∧ (2048 ≤ n → p.phr n = .error .ValueError) :=
  ⟨fun h => ⟨_, fsk_phr_ok p h, isHeader_phr p h⟩, fsk_phr_error p⟩

/-- **C35 (read back).**  The header determines FCS type, whitening flag and number of octets. -/
theorem C35_read_back (hdr : Bits) (f f' : Nat) (w w' : Bool) (n n' : Nat) (hf : f ≤ 1) (hf' : f' ≤ 1) (h : IsHeader hdr f w n)
    (h' : IsHeader hdr f' w' n') : f = f' ∧ w = w' ∧ n = n' := by
  obtain ⟨l, e, -, hn⟩ := h
  obtain ⟨l', e', -, hn'⟩ := h'
  rw [e] at e'
  simp only [List.cons_append, List.nil_append, List.cons.injEq, true_and, decide_eq_decide] at e'
  obtain ⟨e1, e2, e3⟩ := e'
  refine ⟨by omega, e2, ?_⟩
  rw [← hn, ← hn', e3]

/-- The header and message bits after FEC and interleaving, before whitening. -/
def Unwhitened (p : FskParams) (x u : Bits) : Prop :=
  (p.fecEnabled = false ∧ u = x) ∨
  (p.fecEnabled = true ∧ p.interleaving = false ∧ u = fskFec p.fecScheme x) ∨
  (p.fecEnabled = true ∧ p.interleaving = true ∧ fskInterleaver (fskFec p.fecScheme x) = .ok u)

/-- Size of the header on air. -/
def headerSize (p : FskParams) : Nat := if p.fecEnabled then 32 else 16

theorem frame_parts {o : FskObj} {a : Arg} {bits : Bits} (h : ((fskBinary a).call o).1 = .ok bits) :
    ∃ m hdr u : Bits, checkBinaryArray a = .ok m ∧ m.length / 8 < 2048 ∧ o.params.phr (m.length / 8) = .ok hdr ∧
      IsHeader hdr o.params.fcsType o.params.scramble (m.length / 8) ∧
      Unwhitened o.params (hdr ++ m) u ∧ bits = o.params.shr ++ fskWhiten o.params u := by
  rw [(fskBinary_result a o).1] at h
  split at h
  · cases h
  rename_i m hm
  by_cases hl : m.length / 8 < 2048
  swap
  · unfold fskBits at h; rw [fsk_phr_error _ (by omega)] at h; cases h
  unfold fskBits at h
  have e := fsk_phr_ok o.params hl
  rw [e] at h
  simp only at h
  split at h
  · cases h
  rename_i u hu
  refine ⟨m, _, u, hm, hl, e, isHeader_phr _ hl, ?_, (Except.ok.inj h).symm⟩
  unfold fskCoded at hu
  unfold Unwhitened
  cases hf : o.params.fecEnabled
  · left; rw [hf] at hu; exact ⟨rfl, (Except.ok.inj hu).symm⟩
  · right
    rw [hf] at hu
    cases hi : o.params.interleaving
    · left; rw [hi] at hu; exact ⟨rfl, rfl, (Except.ok.inj hu).symm⟩
    · right; rw [hi] at hu; exact ⟨rfl, rfl, hu⟩

/-- **C35 (frames).**  In every frame the bits between SHR and message are a header with the number of whole octets of the message;
without FEC these 16 bits are transmitted as they are and, without whitening, followed by the message itself. -/
theorem C35_frame (o : FskObj) (a : Arg) (bits : Bits) (h : ((fskBinary a).call o).1 = .ok bits) :
    ∃ m hdr : Bits, checkBinaryArray a = .ok m ∧ IsHeader hdr o.params.fcsType o.params.scramble (m.length / 8) ∧
      (o.params.fecEnabled = false → (bits.drop (shrSize o.params)).take 16 = hdr ∧
        (o.params.scramble = false → bits.drop (shrSize o.params) = hdr ++ m)) := by
  obtain ⟨m, hdr, u, hm, hl, -, hh, hu, rfl⟩ := frame_parts h
  refine ⟨m, hdr, hm, hh, fun hf => ?_⟩
  have hu' : u = hdr ++ m := by
    rcases hu with ⟨-, hu⟩ | ⟨hc, -⟩ | ⟨hc, -⟩
    · exact hu
    · rw [hf] at hc; cases hc
    · rw [hf] at hc; cases hc
  subst hu'
  rw [List.drop_left' (shr_length _)]
  have h16 := isHeader_length hh
  unfold fskWhiten
  rw [hf]
  cases hs : o.params.scramble
  · simp [List.take_left' h16]
  · simp [List.take_left' h16, h16]

/-- **C35 (too long).**  Bit messages of 2048 octets or more raise `ValueError`, whatever the configuration. -/
theorem C35_too_long (o : FskObj) (a : Arg) (m : Bits) (hm : checkBinaryArray a = .ok m) (hl : 2048 ≤ m.length / 8) :
    ((fskBinary a).call o).1 = .error .ValueError := by
  rw [(fskBinary_result a o).1, hm]
  simp only
  unfold fskBits
  rw [fsk_phr_error _ hl]

/-- **C40.**  After the SHR, the first 16 (uncoded) or 32 (coded) bits are the unwhitened header bits; from there on each bit is the
unwhitened bit xor the PN9 sequence of seed 511 from its beginning when whitening is on, and the unwhitened bit itself when it is off. -/
theorem C40_whitening (o : FskObj) (a : Arg) (bits : Bits) (h : ((fskBinary a).call o).1 = .ok bits) :
    ∃ m hdr u : Bits, checkBinaryArray a = .ok m ∧ o.params.phr (m.length / 8) = .ok hdr ∧ Unwhitened o.params (hdr ++ m) u ∧
      bits.length = shrSize o.params + u.length ∧ headerSize o.params ≤ u.length ∧
      ∀ i, (hi : i < u.length) →
        (i < headerSize o.params ∨ o.params.scramble = false → bits[shrSize o.params + i]? = some u[i]) ∧
        (headerSize o.params ≤ i → o.params.scramble = true → ∃ y, C05.output 511 (i - headerSize o.params) = some y ∧
          bits[shrSize o.params + i]? = some ((y == 1) ^^ u[i])) := by
  obtain ⟨m, hdr, u, hm, hl, hp, hh, hu, rfl⟩ := frame_parts h
  have h16 := isHeader_length hh
  have hge : headerSize o.params ≤ u.length := by
    unfold headerSize
    rcases hu with ⟨hf, rfl⟩ | ⟨hf, -, rfl⟩ | ⟨hf, -, hu⟩
    · rw [hf]; simp [h16]
    · rw [hf, fskFec_length]; simp [h16]; omega
    · rw [(C37.C39_involution _ _ hu).2, hf, fskFec_length]; simp [h16]; omega
  have hs : (if o.params.fecEnabled = true then 32 else 16) = headerSize o.params := rfl
  have hwl : (fskWhiten o.params u).length = u.length := by
    unfold fskWhiten
    split
    · simp only [List.length_append, (C07.C07_keystream _ 511).1, List.length_take, List.length_drop]; omega
    · rfl
  refine ⟨m, hdr, u, hm, hp, hu, by rw [List.length_append, shr_length, hwl], hge, fun i hi => ?_⟩
  rw [List.getElem?_append_right (by rw [shr_length]; omega), shr_length, Nat.add_sub_cancel_left]
  unfold fskWhiten
  simp only [hs]
  constructor
  · intro hc
    by_cases hsc : o.params.scramble = true
    · rw [if_pos hsc]
      have hi2 : i < headerSize o.params := by
        rcases hc with hc | hc
        · exact hc
        · rw [hsc] at hc; cases hc
      rw [List.getElem?_append_left (by rw [List.length_take]; omega), List.getElem?_take_of_lt hi2, List.getElem?_eq_getElem hi]
    · rw [if_neg hsc, List.getElem?_eq_getElem hi]
  · intro hi2 hsc
    rw [if_pos hsc]
    have hd : i - headerSize o.params < (u.drop (headerSize o.params)).length := by rw [List.length_drop]; omega
    obtain ⟨y, hy, e⟩ := (C07.C07_keystream (u.drop (headerSize o.params)) 511).2 _ hd
    refine ⟨y, hy, ?_⟩
    rw [List.getElem?_append_right (by rw [List.length_take]; omega), List.length_take, show min (headerSize o.params) u.length = headerSize o.params by omega, e]
    simp only [List.getElem_drop]
    congr 3
    omega

example : ((fskBinary (bitsArg (List.replicate 16 true))).call { params := ⟨50000, 1, 1, .FSK2, true, 1, 0, true, true, 4⟩ }).1.toBool = true := by
  decide +kernel

end SunPhy.C35
