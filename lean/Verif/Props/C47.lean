import Verif.Proofs.OqpskPhr
import Verif.Props.C35
/-
C47 — MR-O-QPSK PHY header.
-/
namespace SunPhy.C47
open SunPhy Spec Polynomial

/-- The 24 header bits: spreading mode, 2-bit rate mode, two reserved zeros, 11-bit octet count, 8-bit CRC of the preceding 16
bits with generator `x⁸+x²+x+1`. -/
def IsHeader (hdr : Bits) (mdsss : Bool) (rate octets : Nat) : Prop :=
  ∃ r len chk : Bits, hdr = [mdsss] ++ r ++ [false, false] ++ len ++ chk ∧ r.length = 2 ∧ len.length = 11 ∧ chk.length = 8 ∧
    C04.denotesMSB r = rate ∧ C04.denotesMSB len = octets ∧
    bitPoly chk = (X ^ 8 * bitPoly (hdr.take 16)) %ₘ (X ^ 8 + X ^ 2 + X + 1)

/-- **C47 (fields).**  For a rate mode 0..3 and fewer than 2048 octets the header has the fields of the standard. -/
theorem C47_header (p : OqpskParams) (h0 : 0 ≤ p.rm) (h3 : p.rm ≤ 3) (n : Nat) (h : n < 2048) :
    ∃ hdr, p.phr n = .ok hdr ∧ IsHeader hdr (decide (p.sm ≠ 0)) p.rm.toNat n := by
  refine ⟨_, oqpsk_phr_ok p h (rmBits_ok h0 h3) (natBits_length _ _), natBits 2 p.rm.toNat, natBits 11 n, (oqpskHcs (oqpskHdr16 p (natBits 2 p.rm.toNat) n)).map (· == 1),
    ?_, natBits_length _ _, natBits_length _ _, ?_, C35.denotes_natBits (by omega), C35.denotes_natBits h, ?_⟩
  · unfold oqpskHdr16
    have : (p.sm != 0) = decide (p.sm ≠ 0) := by by_cases h : p.sm = 0 <;> simp [h]
    rw [this]; simp
  · rw [List.length_map, (C17.oqpsk_hcs_spec _).1]
  · rw [C17.bitPoly_of_01 _ (C17.oqpsk_hcs_spec _).2.1, (C17.oqpsk_hcs_spec _).2.2]
    have : (oqpskHdr16 p (natBits 2 p.rm.toNat) n).length = 16 := by simp [oqpskHdr16, natBits_length]
    rw [List.take_append_of_le_length (by omega), List.take_of_length_le (by omega)]
    rfl

/-- **C47 (too long).**  2048 octets or more raise `ValueError`. -/
theorem C47_too_long (p : OqpskParams) (n : Nat) (h : 2048 ≤ n) : p.phr n = .error .ValueError := oqpsk_phr_error p h

/-- **C47 (read back).**  A header determines spreading mode, rate mode and length. -/
theorem C47_read_back (hdr : Bits) (s s' : Bool) (r r' n n' : Nat) (h : IsHeader hdr s r n) (h' : IsHeader hdr s' r' n') :
    s = s' ∧ r = r' ∧ n = n' := by
  obtain ⟨a, l, c, e, ha, hl, hc, hr, hn, -⟩ := h
  obtain ⟨a', l', c', e', ha', hl', hc', hr', hn', -⟩ := h'
  rw [e] at e'
  simp only [List.cons_append, List.nil_append, List.append_assoc, List.cons.injEq] at e'
  obtain ⟨e1, e2⟩ := e'
  obtain ⟨e2, e3⟩ := List.append_inj e2 (by omega)
  simp only [List.cons.injEq, true_and] at e3
  obtain ⟨e3, -⟩ := List.append_inj e3 (by omega)
  exact ⟨e1, by rw [← hr, ← hr', e2], by rw [← hn, ← hn', e3]⟩

/-- Two different headers differ in at least 4 bits. -/
theorem C47_distance (p p' : OqpskParams) (h0 : 0 ≤ p.rm ∧ p.rm ≤ 3) (h0' : 0 ≤ p'.rm ∧ p'.rm ≤ 3) (n n' : Nat) (h h' : Bits)
    (e : p.phr n = .ok h) (e' : p'.phr n' = .ok h') (hne : h ≠ h') : 4 ≤ hamming h h' := by
  have lt : ∀ (p : OqpskParams) (n : Nat) (h : Bits), p.phr n = .ok h → n < 2048 := by
    intro p n h e
    by_contra hn
    rw [oqpsk_phr_error p (by omega)] at e; cases e
  rw [oqpsk_phr_ok p (lt _ _ _ e) (rmBits_ok h0.1 h0.2) (natBits_length _ _)] at e
  rw [oqpsk_phr_ok p' (lt _ _ _ e') (rmBits_ok h0'.1 h0'.2) (natBits_length _ _)] at e'
  have e := (Except.ok.inj e).symm
  have e' := (Except.ok.inj e').symm
  subst e e'
  apply C17.C17_oqpsk
  · simp [oqpskHdr16, natBits_length]
  · simp [oqpskHdr16, natBits_length]
  · intro heq; rw [heq] at hne; exact hne rfl

/-- **C47 (negative rate modes).**  A rate mode −1 or −2 is not rejected: its header carries the two-bit two's complement, that is the
rate 3 or 2. -/
theorem C47_negative (p : OqpskParams) (h0 : p.rm = -1 ∨ p.rm = -2) (n : Nat) (h : n < 2048) :
    ∃ hdr, p.phr n = .ok hdr ∧ IsHeader hdr (decide (p.sm ≠ 0)) (p.rm + 4).toNat n := by
  have hr : rmBits p.rm = rmBits (p.rm + 4) := by
    rcases h0 with e | e <;> rw [e] <;> decide
  have e : p.phr n = ({ p with rm := p.rm + 4 } : OqpskParams).phr n := by
    unfold OqpskParams.phr; rw [hr]
  rw [e]
  exact C47_header { p with rm := p.rm + 4 } (by show 0 ≤ p.rm + 4; omega) (by show p.rm + 4 ≤ 3; omega) n h

/-- **C47 (domain).**  The header exists exactly for rate modes −2 … 3 and fewer than 2048 octets. -/
theorem C47_iff (p : OqpskParams) (n : Nat) : (∃ hdr, p.phr n = .ok hdr) ↔ (-2 ≤ p.rm ∧ p.rm ≤ 3) ∧ n < 2048 := by
  constructor
  · rintro ⟨hdr, e⟩
    refine ⟨?_, ?_⟩
    · by_contra hc
      rw [oqpsk_phr_badrate p n (by omega)] at e; cases e
    · by_contra hc
      rw [oqpsk_phr_error p (by omega)] at e; cases e
  · rintro ⟨hr, hn⟩
    by_cases h0 : 0 ≤ p.rm
    · obtain ⟨x, e, -⟩ := C47_header p h0 hr.2 n hn; exact ⟨x, e⟩
    · obtain ⟨x, e, -⟩ := C47_negative p (by omega) n hn; exact ⟨x, e⟩

/-- Rate mode −2 with one octet: the header of rate mode 2. -/
example : (OqpskParams.mk .b2450 (-2) 0 10).phr 1 = (OqpskParams.mk .b2450 2 0 10).phr 1 ∧ (OqpskParams.mk .b2450 (-3) 0 10).phr 1 = .error .ValueError := by
  decide +kernel

/-- Example of the standard: length 7, DSSS, rate mode 0 has check sequence `00010101`. -/
example : (OqpskParams.mk .b2450 0 0 10).phr 7 = .ok (natBits 24 0b000000000000011100010101) := by decide +kernel

end SunPhy.C47
