import Verif.Proofs.OfdmFrame
/-
C30 — which MR-OFDM configurations are accepted.
-/
namespace SunPhy.C30
open SunPhy Spec

/-- The MCS / option combinations of the standard. -/
def combinations : List (Int × Int) :=
  [(0, 1), (0, 2), (1, 1), (1, 2), (1, 3), (2, 1), (2, 2), (2, 3), (2, 4), (3, 1), (3, 2), (3, 3), (3, 4),
    (4, 2), (4, 3), (4, 4), (5, 2), (5, 3), (5, 4), (6, 3), (6, 4)]

/-- All four arguments are integers (Python's `bool` included) with these values. -/
def Ints (MCS opt il sc : PyVal) (m o i s : Int) : Prop :=
  MCS.asInt? = some m ∧ opt.asInt? = some o ∧ il.asInt? = some i ∧ sc.asInt? = some s

theorem table : ∀ m : Nat, m < 8 → ∀ o : Nat, o < 5 → 1 ≤ o →
    (validCombinations[m]? = none ↔ m = 7) ∧
    ∀ row, validCombinations[m]? = some row → (row[o - 1]? = some true ↔ ((m : Int), (o : Int)) ∈ combinations) := by
  intro m hm o ho h1
  interval_cases m <;> interval_cases o <;> simp [validCombinations, combinations]

theorem comb_range : ∀ mo ∈ combinations, 0 ≤ mo.1 ∧ mo.1 ≤ 6 ∧ 1 ≤ mo.2 ∧ mo.2 ≤ 4 := by decide

theorem comb_nat : ∀ m ∈ List.range 8, ∀ o ∈ List.range 5, ((m : Int), (o : Int)) ∈ combinations ↔
    (m, o) ∈ [(0, 1), (0, 2), (1, 1), (1, 2), (1, 3), (2, 1), (2, 2), (2, 3), (2, 4), (3, 1), (3, 2), (3, 3), (3, 4),
    (4, 2), (4, 3), (4, 4), (5, 2), (5, 3), (5, 4), (6, 3), (6, 4)] := by decide

/-- Value of the constructor when all arguments are integers, by cases. -/
theorem init_ints {MCS opt il sc : PyVal} {m o : Int} (h1 : MCS.asInt? = some m) (h2 : opt.asInt? = some o) (hm : 0 ≤ m ∧ m ≤ 7)
    (ho : 1 ≤ o ∧ o ≤ 4) :
    mrOfdmInit MCS opt il sc =
      if m = 7 then .error .IndexError else if (m, o) ∈ combinations then
        (match il.asInt? with
        | none => .error .ValueError
        | some i => if ¬ (i = 0 ∨ i = 1) then .error .ValueError else
          match sc.asInt? with
          | none => .error .ValueError
          | some s => if ¬ (0 ≤ s ∧ s ≤ 3) then .error .ValueError else
              .ok { mcs := m.toNat, option := o.toNat, interleaving := i.toNat, scrambler := s.toNat })
      else .error .UnsupportedError := by
  obtain ⟨M, rfl⟩ := Int.eq_ofNat_of_zero_le hm.1
  obtain ⟨O, rfl⟩ := Int.eq_ofNat_of_zero_le (by omega : 0 ≤ o)
  obtain ⟨t1, t2⟩ := table M (by omega) O (by omega) (by omega)
  unfold mrOfdmInit
  simp only [h1, h2]
  rw [if_neg (not_not.2 hm), if_neg (not_not.2 ho)]
  simp only [Int.toNat_natCast, show ((O : Int) - 1).toNat = O - 1 by omega]
  cases hv : validCombinations[M]? with
  | none => rw [if_pos (by rw [t1.1 hv]; rfl)]
  | some row =>
    have h7 : M ≠ 7 := by intro h7; rw [t1.2 h7] at hv; cases hv
    rw [if_neg (by omega)]
    simp only
    by_cases hc : ((M : Int), (O : Int)) ∈ combinations
    · rw [if_neg (by rw [(t2 row hv).2 hc]; simp), if_pos hc]
      rfl
    · rw [if_pos (fun h => hc ((t2 row hv).1 h)), if_neg hc]

/-- **C30 (success).**  The constructor succeeds iff MCS and option are one of the 21 supported combinations, interleaving is 0 or 1 and the
scrambler 0..3; the object then has exactly these parameters. -/
theorem C30_accepts (MCS opt il sc : PyVal) (p : OfdmParams) :
    mrOfdmInit MCS opt il sc = .ok p ↔ ∃ m o i s, Ints MCS opt il sc m o i s ∧ (m, o) ∈ combinations ∧ (i = 0 ∨ i = 1) ∧ (0 ≤ s ∧ s ≤ 3) ∧
      (p.mcs : Int) = m ∧ (p.option : Int) = o ∧ (p.interleaving : Int) = i ∧ (p.scrambler : Int) = s := by
  constructor
  · intro h
    cases hM : MCS.asInt? with
    | none => unfold mrOfdmInit at h; rw [hM] at h; cases h
    | some m =>
      by_cases hm : 0 ≤ m ∧ m ≤ 7
      swap
      · unfold mrOfdmInit at h; rw [hM] at h; simp only at h; rw [if_pos hm] at h; cases h
      cases hO : opt.asInt? with
      | none => unfold mrOfdmInit at h; rw [hM, hO] at h; simp only at h; rw [if_neg (not_not.2 hm)] at h; cases h
      | some o =>
        by_cases ho : 1 ≤ o ∧ o ≤ 4
        swap
        · unfold mrOfdmInit at h; rw [hM, hO] at h; simp only at h; rw [if_neg (not_not.2 hm), if_pos ho] at h; cases h
        rw [init_ints hM hO hm ho] at h
        split at h
        · cases h
        · split at h
          · rename_i hc
            split at h
            · cases h
            · rename_i i hi
              split at h
              · cases h
              · rename_i hi2
                split at h
                · cases h
                · rename_i s hs
                  split at h
                  · cases h
                  · rename_i hs2
                    injection h with h
                    subst h
                    exact ⟨m, o, i, s, ⟨hM, hO, hi, hs⟩, hc, not_not.1 hi2, not_not.1 hs2, by simp; omega, by simp; omega,
                      by simp; omega, by simp; omega⟩
          · cases h
  · rintro ⟨m, o, i, s, ⟨hM, hO, hI, hS⟩, hc, hi, hs, e1, e2, e3, e4⟩
    obtain ⟨r1, r2, r3, r4⟩ := comb_range _ hc
    simp only at r1 r2 r3 r4
    rw [init_ints hM hO (by omega) (by omega), if_neg (by omega), if_pos hc, hI]
    simp only
    rw [if_neg (not_not.2 hi), hS]
    simp only
    rw [if_neg (not_not.2 hs)]
    congr
    · omega
    · omega
    · omega
    · omega

/-- The parameters of a constructed modulator are the `Supported` ones used in the other theorems. -/
theorem C30_supported (p : OfdmParams) :
    (∃ MCS opt il sc, mrOfdmInit MCS opt il sc = .ok p) ↔ Supported p := by
  constructor
  · rintro ⟨MCS, opt, il, sc, h⟩
    obtain ⟨m, o, i, s, -, hc, hi, hs, e1, e2, e3, e4⟩ := (C30_accepts _ _ _ _ _).1 h
    obtain ⟨r1, r2, r3, r4⟩ := comb_range _ hc
    simp only at r1 r2 r3 r4
    refine ⟨(comb_nat p.mcs (by simp; omega) p.option (by simp; omega)).1 (by rw [e1, e2]; exact hc), by omega, by omega⟩
  · intro h
    have ho := option_cases h
    have hm := mcs_le h
    refine ⟨.int p.mcs, .int p.option, .int p.interleaving, .int p.scrambler, (C30_accepts _ _ _ _ _).2
      ⟨p.mcs, p.option, p.interleaving, p.scrambler, ⟨rfl, rfl, rfl, rfl⟩, ?_, by have := h.2.1; omega, by have := h.2.2; omega, rfl, rfl, rfl, rfl⟩⟩
    exact (comb_nat p.mcs (by simp; omega) p.option (by simp; omega)).2 h.1

/-- **C30 (unsupported combinations).**  `UnsupportedError` is raised exactly when MCS is an integer 0..6, the option an integer 1..4 and the
combination is not in the table. -/
theorem C30_unsupported (MCS opt il sc : PyVal) :
    mrOfdmInit MCS opt il sc = .error .UnsupportedError ↔
      ∃ m o, MCS.asInt? = some m ∧ opt.asInt? = some o ∧ (0 ≤ m ∧ m ≤ 6) ∧ (1 ≤ o ∧ o ≤ 4) ∧ (m, o) ∉ combinations := by
  constructor
  · intro h
    cases hM : MCS.asInt? with
    | none => unfold mrOfdmInit at h; rw [hM] at h; cases h
    | some m =>
      by_cases hm : 0 ≤ m ∧ m ≤ 7
      swap
      · unfold mrOfdmInit at h; rw [hM] at h; simp only at h; rw [if_pos hm] at h; cases h
      cases hO : opt.asInt? with
      | none => unfold mrOfdmInit at h; rw [hM, hO] at h; simp only at h; rw [if_neg (not_not.2 hm)] at h; cases h
      | some o =>
        by_cases ho : 1 ≤ o ∧ o ≤ 4
        swap
        · unfold mrOfdmInit at h; rw [hM, hO] at h; simp only at h; rw [if_neg (not_not.2 hm), if_pos ho] at h; cases h
        rw [init_ints hM hO hm ho] at h
        split at h
        · cases h
        · split at h
          · split at h
            · cases h
            · split at h
              · cases h
              · split at h
                · cases h
                · split at h <;> cases h
          · rename_i hc
            exact ⟨m, o, rfl, rfl, by omega, ho, hc⟩
  · rintro ⟨m, o, hM, hO, hm, ho, hc⟩
    rw [init_ints hM hO (by omega) ho, if_neg (by omega), if_neg hc]

/-- **C30 (violation).**  MCS 7, which the documentation and the range check allow, is neither supported nor refused as documented: the
table lookup raises `IndexError`. -/
theorem C30_mcs7 (MCS opt il sc : PyVal) :
    mrOfdmInit MCS opt il sc = .error .IndexError ↔
      MCS.asInt? = some 7 ∧ ∃ o, opt.asInt? = some o ∧ 1 ≤ o ∧ o ≤ 4 := by
  constructor
  · intro h
    cases hM : MCS.asInt? with
    | none => unfold mrOfdmInit at h; rw [hM] at h; cases h
    | some m =>
      by_cases hm : 0 ≤ m ∧ m ≤ 7
      swap
      · unfold mrOfdmInit at h; rw [hM] at h; simp only at h; rw [if_pos hm] at h; cases h
      cases hO : opt.asInt? with
      | none => unfold mrOfdmInit at h; rw [hM, hO] at h; simp only at h; rw [if_neg (not_not.2 hm)] at h; cases h
      | some o =>
        by_cases ho : 1 ≤ o ∧ o ≤ 4
        swap
        · unfold mrOfdmInit at h; rw [hM, hO] at h; simp only at h; rw [if_neg (not_not.2 hm), if_pos ho] at h; cases h
        rw [init_ints hM hO hm ho] at h
        split at h
        · rename_i h7; exact ⟨by rw [h7], o, rfl, ho.1, ho.2⟩
        · split at h
          · split at h
            · cases h
            · split at h
              · cases h
              · split at h
                · cases h
                · split at h <;> cases h
          · cases h
  · rintro ⟨hM, o, hO, h1, h2⟩
    rw [init_ints hM hO (by omega) ⟨h1, h2⟩, if_pos rfl]

/-- No other exception than these three is raised. -/
theorem C30_errors (MCS opt il sc : PyVal) (e : PyErr) (h : mrOfdmInit MCS opt il sc = .error e) :
    e = .ValueError ∨ e = .UnsupportedError ∨ e = .IndexError := by
  unfold mrOfdmInit at h
  repeat' split at h
  all_goals first | (injection h with h; subst h; simp) | cases h

/-- **C30 (the rest).**  Every call that is neither a success, nor an unsupported combination, nor MCS 7 raises `ValueError`.  (The full
property also wants `UnsupportedError` or `ValueError` for MCS 7: see `C30_mcs7`.) -/
theorem C30_value_error_partial (MCS opt il sc : PyVal) (hM : MCS.asInt? ≠ some 7) :
    (∃ p, mrOfdmInit MCS opt il sc = .ok p) ∨ mrOfdmInit MCS opt il sc = .error .UnsupportedError ∨
      mrOfdmInit MCS opt il sc = .error .ValueError := by
  cases h : mrOfdmInit MCS opt il sc with
  | ok p => exact .inl ⟨p, rfl⟩
  | error e =>
    rcases C30_errors _ _ _ _ _ h with rfl | rfl | rfl
    · simp
    · simp
    · exact absurd ((C30_mcs7 _ _ _ _).1 h).1 hM

example : mrOfdmInit (.int 3) (.int 2) (.int 0) (.int 1) = .ok ⟨3, 2, 0, 1⟩ := by decide
example : mrOfdmInit (.int 6) (.int 1) (.int 0) (.int 1) = .error .UnsupportedError := by decide
example : mrOfdmInit (.int 7) (.int 1) (.int 0) (.int 1) = .error .IndexError := by decide
example : mrOfdmInit (.float 3) (.int 2) (.int 0) (.int 1) = .error .ValueError := by decide

end SunPhy.C30
