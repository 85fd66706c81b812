import Verif.Proofs.OfdmFrame
/-
C27 — cyclic prefix.
-/
namespace SunPhy.C27
open SunPhy Spec

theorem floor_eq (N : Nat) (CP : ℚ) (h : 0 ≤ CP) : ∃ k : Nat, ⌊(N : ℚ) * CP⌋ = (k : Int) ∧ ⌊(N : ℚ) * CP⌋₊ = k := by
  have h0 : 0 ≤ (N : ℚ) * CP := by positivity
  have h1 : 0 ≤ ⌊(N : ℚ) * CP⌋ := Int.floor_nonneg.2 h0
  obtain ⟨k, hk⟩ := Int.eq_ofNat_of_zero_le h1
  exact ⟨k, hk, by rw [← Int.floor_toNat, hk]; rfl⟩

theorem prefix_eq (CP : ℚ) (s : List ℂ) (h1 : 1 ≤ (s.length : ℚ) * CP) (h2 : CP ≤ 1) :
    ⌊(s.length : ℚ) * CP⌋₊ ≤ s.length ∧ cyclicPrefix CP s = s.drop (s.length - ⌊(s.length : ℚ) * CP⌋₊) ++ s := by
  have hpos : 0 < CP := by
    by_contra hc
    have : (s.length : ℚ) * CP ≤ 0 := mul_nonpos_of_nonneg_of_nonpos (by positivity) (by linarith)
    linarith
  obtain ⟨k, hk, hk'⟩ := floor_eq s.length CP hpos.le
  have hkle : k ≤ s.length := by
    rw [← hk']
    apply Nat.floor_le_of_le
    have : (0 : ℚ) ≤ s.length := by positivity
    nlinarith
  have hk1 : 1 ≤ k := by
    rw [← hk']
    exact Nat.le_floor (by simpa using h1)
  rw [hk']
  refine ⟨hkle, ?_⟩
  unfold cyclicPrefix
  rw [if_pos hpos]
  simp only [hk]
  congr 2
  unfold pyBound
  rw [if_pos (by omega)]
  omega

theorem prefix_whole (CP : ℚ) (s : List ℂ) (h : 0 < CP) (h1 : (s.length : ℚ) * CP < 1 ∨ 1 < CP) : cyclicPrefix CP s = s ++ s := by
  obtain ⟨k, hk, hk'⟩ := floor_eq s.length CP h.le
  unfold cyclicPrefix
  rw [if_pos h]
  simp only [hk]
  have : pyBound s.length (-(k : Int)) = 0 := by
    unfold pyBound
    rcases h1 with h1 | h1
    · have h0 : k = 0 := by
        rw [← hk', Nat.floor_eq_zero]; exact h1
      rw [if_neg (by omega), h0]; rfl
    · have hge : s.length ≤ k := by
        rw [← hk']
        apply Nat.le_floor
        have : (0 : ℚ) ≤ s.length := by positivity
        nlinarith
      split <;> omega
  rw [this, List.drop_zero]

theorem plain (s : List ℂ) : cyclicPrefix 0 s = s := by
  unfold cyclicPrefix; rw [if_neg (by norm_num)]

/-- **C27 (one symbol).**  For `1 ≤ N*CP`, `CP ≤ 1`: the symbol is preceded by a copy of its last `int(N*CP)` samples, and is otherwise what
it would be without prefix. -/
theorem C27_symbol (N : Nat) (CP : ℚ) (x : List ℂ) (hx : x.length = N) (h1 : 1 ≤ (N : ℚ) * CP) (h2 : CP ≤ 1) :
    ∃ body, subcarriersToIQ N 0 x = .ok body ∧ body.length = N ∧ ⌊(N : ℚ) * CP⌋₊ ≤ N ∧
      subcarriersToIQ N CP x = .ok (body.drop (N - ⌊(N : ℚ) * CP⌋₊) ++ body) := by
  have hl : (ofdmIfft x).length = N := by rw [ofdmIfft_length, hx]
  unfold subcarriersToIQ
  rw [if_neg (by simpa using hx), if_neg (by simpa using hx), plain]
  have := prefix_eq CP (ofdmIfft x) (by rw [hl]; exact h1) h2
  rw [hl] at this
  exact ⟨_, rfl, hl, this.1, by rw [this.2]⟩

theorem mapM_ok_mem {α β} {f : α → Res β} {l : List α} {bs : List β} (h : List.mapM f l = .ok bs) {b : β} (hb : b ∈ bs) :
    ∃ a ∈ l, f a = .ok b := by
  replace h := (mapM_ok_iff f l bs).1 h
  induction h with
  | nil => simp at hb
  | cons h1 _ ih =>
    rcases List.mem_cons.1 hb with rfl | hb
    · exact ⟨_, by simp, h1⟩
    · obtain ⟨a, ha, e⟩ := ih hb
      exact ⟨a, by simp [ha], e⟩

section
variable {α : Type} [Zero α]

theorem foldl_set_length {β} (l : List (β × α)) (f : β → Nat) : ∀ (ch : List α),
    (l.foldl (fun ch p => ch.set (f p.1) p.2) ch).length = ch.length := by
  induction l with
  | nil => intro ch; rfl
  | cons p l ih => intro ch; rw [List.foldl_cons, ih, List.length_set]

theorem placeData_length {N : Nat} {ch : List α} {av : List Int} {col r : List α} (h : placeData N ch av col = .ok r) :
    r.length = ch.length := by
  unfold placeData at h
  simp only at h
  split at h
  · injection h with h; rw [← h]; exact foldl_set_length _ (fun a => (a + (N : Int) / 2).toNat) _
  · split at h
    · injection h with h; rw [← h]; exact foldl_set_length _ (fun a => (a + (N : Int) / 2).toNat) _
    · cases h

theorem insertPilots_length {N : Nat} {pv : Int → α} {vals : PilotValues α} {ps : List Int} : ∀ {s s' : PilotLoop α} {g},
    insertPilots N pv vals s ps = (.ok s', g) → s'.channels.length = s.channels.length := by
  induction ps with
  | nil => intro s s' g h; unfold insertPilots at h; rw [Prod.mk.injEq] at h; injection h.1 with h; rw [h]
  | cons p ps ih =>
    intro s s' g h
    unfold insertPilots at h
    cases hi : insertPilot N pv vals s p with
    | mk r g' =>
      rw [hi] at h
      cases r with
      | error e => simp at h
      | ok s1 =>
        rw [ih h]
        unfold insertPilot at hi
        simp only at hi
        split at hi
        · cases hi
        · split at hi
          · cases hi
          · split at hi
            · rw [Prod.mk.injEq] at hi
              injection hi.1 with hi
              rw [← hi]
              simp
            · cases hi

theorem symbols_length {c : OfdmCfg α} {pv : Int → α} {pl : Pilots α} {av : List Int} {cols : List (List α)} :
    ∀ {vi : Nat} {st st' : OfdmState} {symbols}, addPilotsSymbols c pv pl av vi st cols = (.ok symbols, st') →
    ∀ s ∈ symbols, s.length = c.nFFT := by
  induction cols with
  | nil =>
    intro vi st st' symbols h
    unfold addPilotsSymbols at h
    rw [Prod.mk.injEq] at h
    injection h.1 with h
    rw [← h]; simp
  | cons col cols ih =>
    intro vi st st' symbols h
    unfold addPilotsSymbols at h
    split at h
    · cases h
    · rename_i ch vi' st1 h1
      split at h
      · cases h
      · rename_i chs st2 h2
        rw [Prod.mk.injEq] at h
        injection h.1 with h
        rw [← h]
        intro s hs
        rcases List.mem_cons.1 hs with rfl | hs
        · unfold addPilotsSymbol at h1
          split at h1
          · cases h1
          · simp only at h1
            split at h1
            · cases h1
            · rename_i s1 g hins
              split at h1
              · cases h1
              · rename_i hpl
                rw [Prod.mk.injEq] at h1
                injection h1.1 with h1
                rw [Prod.mk.injEq] at h1
                rw [← h1.1, placeData_length hpl, insertPilots_length hins, List.length_replicate]
        · exact ih h2 s hs

theorem pilots_length {c : OfdmCfg α} {pv : Int → α} {cols symbols : List (List α)} {st st' : OfdmState}
    (h : addPilotsAndPadding c pv st cols = (.ok symbols, st')) : ∀ s ∈ symbols, s.length = c.nFFT := by
  have plainCase : ∀ av, cols.mapM (placeData c.nFFT (List.replicate c.nFFT 0) av) = .ok symbols → ∀ s ∈ symbols, s.length = c.nFFT := by
    intro av hm s hs
    have := mapM_ok_mem hm hs
    obtain ⟨col, -, hc⟩ := this
    rw [placeData_length hc, List.length_replicate]
  unfold addPilotsAndPadding at h
  split at h
  · cases h
  · split at h
    · split at h
      · exact symbols_length h
      · rw [Prod.mk.injEq] at h; exact plainCase _ h.1
    · rw [Prod.mk.injEq] at h; exact plainCase _ h.1
end

theorem subcarriers_length {c : OfdmCfg ℂ} {nb : Numbers ℂ} {bits : Bits} {pad : Bool} {st st' : OfdmState} {symbols : List (List ℂ)}
    (h : (ofdmSubcarriers c nb bits pad).call st = (.ok symbols, st')) : ∀ s ∈ symbols, s.length = c.nFFT := by
  unfold ofdmSubcarriers at h
  by_cases h1 : bits.length = 1
  · rw [if_pos h1] at h; cases h
  · rw [if_neg h1] at h
    simp only [PyM.call_bind, PyM.call_pure, PyM.seqR_ok, PyM.call_lift] at h
    cases hs : c.splitMessage bits pad with
    | error e => rw [hs] at h; cases h
    | ok split =>
      rw [hs] at h
      simp only [PyM.call_bind, PyM.call_lift, PyM.seqR_ok] at h
      cases hm : split.mapM (constellationMap nb c.modulation) with
      | error e => rw [hm] at h; cases h
      | ok mapped =>
        rw [hm] at h
        simp only [PyM.call_bind, PyM.call_lift, PyM.seqR_ok] at h
        cases hp : mapped.mapM (frequencySpread nb c.frequencySpreading) with
        | error e => rw [hp] at h; cases h
        | ok spread =>
          rw [hp] at h
          exact pilots_length h

/-- **C27 (streams).**  Whatever the modulator, its pilot state and the bits: with a prefix, `bitsToIQ` fails exactly when it fails without
(same exception), leaves the same pilot state, and each symbol of `N` samples gets its prefix. -/
theorem C27_stream (c : OfdmCfg ℂ) (factor : ℝ) (CP : ℚ) (h1 : 1 ≤ (c.nFFT : ℚ) * CP) (h2 : CP ≤ 1) (bits : Bits) (pad : Bool)
    (st : OfdmState) :
    (∃ e st', (ofdmBitsToIQ c factor 0 bits pad).call st = (.error e, st') ∧ (ofdmBitsToIQ c factor CP bits pad).call st = (.error e, st')) ∨
    ∃ (symbols : List (List ℂ)) (st' : OfdmState), (∀ s ∈ symbols, s.length = c.nFFT) ∧
      (ofdmBitsToIQ c factor 0 bits pad).call st = (.ok symbols.flatten, st') ∧
      (ofdmBitsToIQ c factor CP bits pad).call st =
        (.ok (symbols.flatMap fun s => s.drop (c.nFFT - ⌊(c.nFFT : ℚ) * CP⌋₊) ++ s), st') := by
  unfold ofdmBitsToIQ
  simp only [PyM.call_bind]
  cases hr : (ofdmSubcarriers c (complexNumbers factor) bits pad).call st with
  | mk r st' =>
    cases r with
    | error e => left; exact ⟨e, st', rfl, rfl⟩
    | ok cols =>
      right
      have hlen := subcarriers_length hr
      refine ⟨cols.map ofdmIfft, st', ?_, ?_, ?_⟩
      · intro s hs
        obtain ⟨x, hx, rfl⟩ := List.mem_map.1 hs
        rw [ofdmIfft_length, hlen x hx]
      · simp only [PyM.seqR_ok, PyM.call_pure, plain]
        rw [List.flatMap_def]
      · simp only [PyM.seqR_ok, PyM.call_pure]
        congr 2
        rw [List.flatMap_map]
        apply List.flatMap_congr
        intro x hx
        have hl : (ofdmIfft x).length = c.nFFT := by rw [ofdmIfft_length, hlen x hx]
        have := (prefix_eq CP (ofdmIfft x) (by rw [hl]; exact h1) h2).2
        rw [hl] at this
        exact this

/-- **C27 (outside this range).**  For `0 < N*CP < 1` (Python's `signal[-0:]`) and for `CP > 1` the "prefix" is the whole symbol. -/
theorem C27_degenerate (N : Nat) (CP : ℚ) (x : List ℂ) (hx : x.length = N) (h : 0 < CP) (h1 : (N : ℚ) * CP < 1 ∨ 1 < CP) :
    ∃ body, subcarriersToIQ N 0 x = .ok body ∧ subcarriersToIQ N CP x = .ok (body ++ body) := by
  have hl : (ofdmIfft x).length = N := by rw [ofdmIfft_length, hx]
  unfold subcarriersToIQ
  rw [if_neg (by simpa using hx), if_neg (by simpa using hx), plain]
  exact ⟨_, rfl, by rw [prefix_whole CP _ h (by rw [hl]; exact h1)]⟩

example : 1 ≤ ((16 : Nat) : ℚ) * (1 / 4) ∧ (1 / 4 : ℚ) ≤ 1 := by norm_num
example : ∃ y, subcarriersToIQ 8 (1 / 4) [1, 2, 3, 4, 5, 6, 7, 8] = .ok y ∧ y.length = 10 := by
  obtain ⟨b, -, hb, -, e⟩ := C27_symbol 8 (1 / 4) [1, 2, 3, 4, 5, 6, 7, 8] rfl (by norm_num) (by norm_num)
  refine ⟨_, e, ?_⟩
  have : ⌊((8 : Nat) : ℚ) * (1 / 4)⌋₊ = 2 := by norm_num
  rw [this]
  simp [hb]

end SunPhy.C27
