import Verif.Props.C14
/-
C15 — every acceptable MR-OFDM frame length encodes, others are refused (header level; `bitsToIQ` in `Props/C15_IQ.lean`).
-/
namespace SunPhy.C15
open SunPhy

/-- **C15.**  With a valid rate and scrambler and a header size of at least 30, building the header succeeds exactly for
1..2047 octets and raises `ValueError` otherwise. -/
theorem C15_header (rate length scr n : Nat) (hr : rate ≤ 6) (hs : scr ≤ 3) (hn : 30 ≤ n) :
    ((∃ h, phrValue rate length scr n = .ok h) ↔ 1 ≤ length ∧ length ≤ 2047) ∧
    (¬ (1 ≤ length ∧ length ≤ 2047) → phrValue rate length scr n = .error .ValueError) := by
  have bad : ¬ (1 ≤ length ∧ length ≤ 2047) → phrValue rate length scr n = .error .ValueError := by
    intro hb
    unfold phrValue
    by_cases hc : phrCheck rate length scr = .ok ()
    · have u1 := uintarr_ok (v := rate) (w := 5) (by decide) (by omega)
      have hl : 2 ^ 11 ≤ length := by
        unfold phrCheck at hc
        rw [if_neg (by omega)] at hc
        by_cases h : ¬ (1 ≤ (length : Int) ∧ (length : Int) ≤ 2 ^ 11)
        · rw [if_pos h] at hc; cases hc
        · omega
      have u2 := uintarr_error (w := 11) hl
      simp only [hc, u1, u2, bind, Except.bind]
      rw [assignSlice_ok (by simp; omega) (by simp [natBits_length]) (by decide)]
    · have : phrCheck rate length scr = .error .ValueError := by
        unfold phrCheck at hc ⊢
        split
        · rfl
        · rename_i h1
          rw [if_neg h1] at hc
          split
          · rfl
          · rename_i h2
            rw [if_neg h2] at hc
            split
            · rfl
            · rename_i h3
              rw [if_neg h3] at hc; exact (hc rfl).elim
      simp only [this, bind, Except.bind]
  refine ⟨⟨?_, ?_⟩, bad⟩
  · rintro ⟨h, hh⟩
    by_contra hb
    rw [bad hb] at hh; cases hh
  · rintro ⟨h1, h2⟩
    obtain ⟨h, e, _⟩ := C14.C14_layout rate length scr n hr h1 h2 hs hn
    exact ⟨h, e⟩

/-- **C15 (all arguments).**  Whatever the rate, the length and the scrambler number: with a header size of at least 30 the header is built exactly if the rate is at most 6, the
scrambler number at most 3 and the length 1..2047, and `ValueError` is raised otherwise. -/
theorem C15_header_all (rate length scr n : Nat) (hn : 30 ≤ n) :
    ((∃ h, phrValue rate length scr n = .ok h) ↔ rate ≤ 6 ∧ scr ≤ 3 ∧ 1 ≤ length ∧ length ≤ 2047) ∧
    (¬ (rate ≤ 6 ∧ scr ≤ 3 ∧ 1 ≤ length ∧ length ≤ 2047) → phrValue rate length scr n = .error .ValueError) := by
  by_cases hr : rate ≤ 6
  · by_cases hs : scr ≤ 3
    · have := C15_header rate length scr n hr hs hn
      simpa [hr, hs] using this
    · have e : phrCheck rate length scr = .error .ValueError := by
        unfold phrCheck
        split
        · rfl
        · split
          · rfl
          · rw [if_pos (by omega)]
      have e' : phrValue rate length scr n = .error .ValueError := by unfold phrValue; simp only [e, bind, Except.bind]
      exact ⟨by rw [e']; simp [hs], fun _ => e'⟩
  · have e : phrCheck rate length scr = .error .ValueError := by
      unfold phrCheck
      rw [if_pos (by omega)]
    have e' : phrValue rate length scr n = .error .ValueError := by unfold phrValue; simp only [e, bind, Except.bind]
    exact ⟨by rw [e']; simp [hr], fun _ => e'⟩

example : phrValue 7 1 0 36 = .error .ValueError ∧ phrValue 0 1 4 36 = .error .ValueError := by decide +kernel

example : (phrValue 6 2047 3 36).toBool = true ∧ phrValue 6 2048 3 36 = .error .ValueError ∧
    phrValue 6 0 3 36 = .error .ValueError := by decide +kernel

end SunPhy.C15
