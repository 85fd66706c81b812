import Verif.Proofs.OqpskCode
/-
Index structure of the MR-O-QPSK interleaver.
-/
namespace SunPhy

/-- Position read for output `k` of a PSDU of `126·NB` coded bits. -/
def psduPos (NB k : Nat) : Nat :=
  let i := oqpskIntlIndex true k
  (if i < 0 then i + (126 * NB : Nat) else i).toNat

theorem psduIndex (k : Nat) : oqpskIntlIndex true k = 18 * ((125 - (k : Int)) % 7) + (125 - (k : Int)) / 7 := by
  unfold oqpskIntlIndex
  rfl

theorem psduIndex_block (q r : Nat) : oqpskIntlIndex true (126 * q + r) = oqpskIntlIndex true r - 18 * q := by
  rw [psduIndex, psduIndex]
  push_cast
  omega

theorem psduIndex_range (r : Nat) (h : r < 126) : 0 ≤ oqpskIntlIndex true r ∧ oqpskIntlIndex true r < 126 := by
  rw [psduIndex]; omega

theorem psduPos_cases (NB k : Nat) (h : k < 126 * NB) :
    psduPos NB k < 126 * NB ∧ (psduPos NB k < 126 ∨ 108 * NB + 18 ≤ psduPos NB k) ∧
    ((oqpskIntlIndex true k < 0 → 0 ≤ oqpskIntlIndex true k + (126 * NB : Nat))) := by
  have e : k = 126 * (k / 126) + k % 126 := by omega
  have hb := psduIndex_block (k / 126) (k % 126)
  rw [← e] at hb
  have hr := psduIndex_range (k % 126) (by omega)
  unfold psduPos
  rw [hb]
  simp only
  refine ⟨?_, ?_, ?_⟩
  · split <;> omega
  · split <;> omega
  · omega

theorem psduInterleaver_eq (NB : Nat) (data : Bits) (h : data.length = 126 * NB) :
    oqpskInterleaver data true = .ok ((List.range (126 * NB)).map fun k => data.getD (psduPos NB k) false) := by
  unfold oqpskInterleaver
  rw [h]
  apply mapM_eq_ok
  intro k hk
  have hk := List.mem_range.1 hk
  obtain ⟨h1, -, h3⟩ := psduPos_cases NB k hk
  unfold pyGet
  unfold psduPos at h1 ⊢
  rw [h]
  simp only at *
  rw [if_neg (by split <;> omega), List.getD_eq_getElem?_getD, List.getElem?_eq_getElem (by omega)]
  rfl

theorem psduPos_surj (NB p : Nat) (hp : p < 126 * NB) (h : p < 126 ∨ 108 * NB + 18 ≤ p) : ∃ k < 126 * NB, psduPos NB k = p := by
  -- the inverse of the first block
  have inv : ∀ i : Nat, i < 126 → ∃ r : Nat, r < 126 ∧ oqpskIntlIndex true r = (i : Int) := by
    intro i hi
    refine ⟨125 - (7 * (i % 18) + i / 18), by omega, ?_⟩
    rw [psduIndex]
    omega
  by_cases h0 : p < 126
  · obtain ⟨r, hr, e⟩ := inv p h0
    refine ⟨r, by omega, ?_⟩
    unfold psduPos
    rw [e]
    simp only
    rw [if_neg (by omega)]; omega
  · -- p = 126 NB - s
    obtain ⟨r, hr, e⟩ := inv (18 * ((126 * NB - p + 17) / 18) - (126 * NB - p)) (by omega)
    refine ⟨126 * ((126 * NB - p + 17) / 18) + r, by omega, ?_⟩
    unfold psduPos
    rw [psduIndex_block, e]
    simp only
    rw [if_pos (by omega)]
    omega

end SunPhy
