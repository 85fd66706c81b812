import Verif.Proofs.FskFrame
/-
C34 — MR-FSK synchronisation header.
-/
namespace SunPhy.C34
open SunPhy

/-- Bit `i` of the preamble: `01 01 …` (2FSK), `0111 0111 …` (4FSK). -/
def preambleBit : FskMod → Nat → Bool
  | .FSK2, i => decide (i % 2 = 1)
  | .FSK4, i => decide (i % 4 ≠ 0)

/-- Bits per preamble repetition and bits of the SFD. -/
def preambleUnit : FskMod → Nat
  | .FSK2 => 8
  | .FSK4 => 16
def sfdLength : FskMod → Nat
  | .FSK2 => 16
  | .FSK4 => 32

/-- SFD values of tables 131 and 132 of IEEE 802.15.4g, most significant bit first: group `phyMRFSKSFD`, coded / uncoded. -/
def sfdValue : FskMod → Nat → Bool → Nat
  | .FSK2, 0, true => 0x6F4E
  | .FSK2, 0, false => 0x904E
  | .FSK2, _, true => 0x632D
  | .FSK2, _, false => 0x7A0E
  | .FSK4, 0, true => 0x7DFF75FD
  | .FSK4, 0, false => 0xD75575FD
  | .FSK4, _, true => 0x7D5F5DF7
  | .FSK4, _, false => 0x7FDD55FD

theorem tile_succ {α} (l : List α) (n : Nat) : tile l (n + 1) = l ++ tile l n := by
  simp [tile, List.replicate_succ]

theorem tile_length {α} (l : List α) (n : Nat) : (tile l n).length = n * l.length := by
  induction n with
  | zero => simp [tile]
  | succ n ih => rw [tile_succ, List.length_append, ih]; ring

theorem tile_getElem? {α} (l : List α) (n i : Nat) (h : i < n * l.length) : (tile l n)[i]? = l[i % l.length]? := by
  induction n generalizing i with
  | zero => omega
  | succ n ih =>
    rw [tile_succ]
    by_cases hi : i < l.length
    · rw [List.getElem?_append_left hi, Nat.mod_eq_of_lt hi]
    · rw [List.getElem?_append_right (by omega), ih _ (by rw [Nat.add_mul] at h; omega), ← Nat.mod_eq_sub_mod (by omega)]

theorem preamble_getElem? (m : FskMod) (n i : Nat) (h : i < n * preambleUnit m) : (tile (fskPreamble m) n)[i]? = some (preambleBit m i) := by
  have hl : (fskPreamble m).length = preambleUnit m := by cases m <;> rfl
  rw [tile_getElem? _ _ _ (by rw [hl]; exact h), hl]
  have hm : ∀ m : FskMod, ∀ r < preambleUnit m, (fskPreamble m)[r]? = some (preambleBit m r) := by
    intro m; cases m <;> decide
  cases m with
  | FSK2 =>
    rw [hm _ _ (Nat.mod_lt _ (by decide))]
    simp only [preambleBit, preambleUnit, Nat.mod_mod_of_dvd i (show 2 ∣ 8 by decide)]
  | FSK4 =>
    rw [hm _ _ (Nat.mod_lt _ (by decide))]
    simp only [preambleBit, preambleUnit, Nat.mod_mod_of_dvd i (show 4 ∣ 16 by decide)]

theorem sfd_eq (m : FskMod) (s : Nat) (c : Bool) : fskSfd m s c = natBits (sfdLength m) (sfdValue m s c) := by
  cases m <;> cases c <;> rcases s with _ | s <;> simp only [fskSfd, sfdLength, sfdValue]

/-- **C34 (layout).**  Whatever the message, the transmitted bits start with `phyFSKPreambleLength` repetitions of the 8 (16) bit
preamble and the 16 (32) bits of the SFD selected by `phyMRFSKSFD` and by whether FEC is enabled. -/
theorem C34_shr (o : FskObj) (a : Arg) (bits : Bits) (h : ((fskBinary a).call o).1 = .ok bits) :
    (∀ i, i < o.params.preambleLength * preambleUnit o.params.modulation → bits[i]? = some (preambleBit o.params.modulation i)) ∧
    (bits.drop (o.params.preambleLength * preambleUnit o.params.modulation)).take (sfdLength o.params.modulation) =
      natBits (sfdLength o.params.modulation) (sfdValue o.params.modulation o.params.sfd o.params.fecEnabled) := by
  rw [(fskBinary_result a o).1] at h
  have key : ∃ rest, bits = o.params.shr ++ rest := by
    split at h
    · cases h
    · unfold fskBits at h
      split at h
      · cases h
      · split at h
        · cases h
        · exact ⟨_, (Except.ok.inj h).symm⟩
  obtain ⟨rest, rfl⟩ := key
  have hl : (fskPreamble o.params.modulation).length = preambleUnit o.params.modulation := by cases o.params.modulation <;> rfl
  have ht : (tile (fskPreamble o.params.modulation) o.params.preambleLength).length =
      o.params.preambleLength * preambleUnit o.params.modulation := by rw [tile_length, hl]
  unfold FskParams.shr
  rw [List.append_assoc]
  constructor
  · intro i hi
    rw [List.getElem?_append_left (by rw [ht]; exact hi), preamble_getElem? _ _ _ hi]
  · rw [← ht, List.drop_left, sfd_eq, List.take_left' (natBits_length _ _)]

/-- **C34 (SFD identifies the format).**  For each modulation the four SFDs of the admissible settings are pairwise different. -/
theorem C34_sfd_unique (m : FskMod) (s s' : Nat) (c c' : Bool) (hs : s ≤ 1) (hs' : s' ≤ 1)
    (h : natBits (sfdLength m) (sfdValue m s c) = natBits (sfdLength m) (sfdValue m s' c')) : s = s' ∧ c = c' := by
  have hlt : ∀ m : FskMod, ∀ s < 2, ∀ c, sfdValue m s c < 2 ^ sfdLength m := by intro m; cases m <;> decide
  have hinj : ∀ m : FskMod, ∀ s < 2, ∀ s' < 2, ∀ c c', sfdValue m s c = sfdValue m s' c' → s = s' ∧ c = c' := by intro m; cases m <;> decide
  exact hinj m s (by omega) s' (by omega) c c' (natBits_inj (hlt m s (by omega) c) (hlt m s' (by omega) c') h)

/-- So two frames of modulators with the same modulation and preamble length but different SFD settings are different. -/
theorem C34_frames_differ (o o' : FskObj) (a a' : Arg) (bits : Bits) (hm : o'.params.modulation = o.params.modulation)
    (hp : o'.params.preambleLength = o.params.preambleLength) (hs : o.params.sfd ≤ 1) (hs' : o'.params.sfd ≤ 1)
    (h : ((fskBinary a).call o).1 = .ok bits) (h' : ((fskBinary a').call o').1 = .ok bits) :
    o'.params.sfd = o.params.sfd ∧ o'.params.fecEnabled = o.params.fecEnabled := by
  have e := (C34_shr o a bits h).2
  have e' := (C34_shr o' a' bits h').2
  rw [hm, hp, e] at e'
  obtain ⟨r1, r2⟩ := C34_sfd_unique o.params.modulation _ _ _ _ hs hs' e'
  exact ⟨r1.symm, r2.symm⟩

example : (((fskBinary (bitsArg [true, false])).call { params := ⟨50000, 1, 1, .FSK2, true, 1, 0, true, false, 4⟩ }).1.toBool) = true := by
  decide +kernel

end SunPhy.C34
