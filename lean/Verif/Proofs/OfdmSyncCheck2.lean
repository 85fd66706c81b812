import Verif.Proofs.OfdmSyncCheck
/-
What the check says, in integers.
-/
namespace SunPhy.SyncCheck
open SunPhy BigDot

/-- Part of a wave: `∑ c cos` in millionths. -/
def waveI (code : List Nat) (N u q n : Nat) : Int :=
  ∑ i ∈ Finset.range N, ((code.getD i 0 : Int) - 1) * ((Roots.cosTab.getD ((u * i * n + 64 * n + q) % 128) 0 : Int) - 1000000)

/-- Sample `s` after `N` zeros. -/
def trainI (N u K : Nat) (ls ll : List Nat) (q s : Nat) : Int :=
  if s < N then 0
  else if s < 6 * N then
    if 5 * N - N / 2 ≤ s - N then -(K * waveI ls N u q (((s - N) % (5 * N / 4) + 3 * N / 4) % N))
    else K * waveI ls N u q (((s - N) % (5 * N / 4) + 3 * N / 4) % N)
  else 1000 * waveI ll N u q ((s - 6 * N + N / 2) % N)

theorem cosTab_le : ∀ x ∈ Roots.cosTab, x ≤ 2000000 := by decide +kernel

theorem cos_le (i : Nat) : Roots.cosTab.getD i 0 ≤ 2000000 := by
  rw [List.getD_eq_getElem?_getD]
  rcases h : Roots.cosTab[i]? with _ | x
  · simp
  · exact cosTab_le x (List.mem_of_getElem? h)

theorem code_le (code : List Nat) (hc : ∀ x ∈ code, x ≤ 2) (i : Nat) : code.getD i 0 ≤ 2 := by
  rw [List.getD_eq_getElem?_getD]
  rcases h : code[i]? with _ | x
  · simp
  · exact hc x (List.mem_of_getElem? h)

theorem term_eq (c t : Nat) (hc : c ≤ 2) (ht : t ≤ 2000000) : ((term c t : Nat) : Int) = 1000000 + ((c : Int) - 1) * ((t : Int) - 1000000) := by
  unfold term
  have : c = 0 ∨ c = 1 ∨ c = 2 := by omega
  rcases this with rfl | rfl | rfl
  · rw [if_pos rfl, Nat.cast_sub ht]; push_cast; ring
  · simp
  · norm_num

theorem term_le (c t : Nat) (ht : t ≤ 2000000) : term c t ≤ 2000000 := by unfold term; split <;> [skip; split] <;> omega

theorem part_eq (code : List Nat) (hc : ∀ x ∈ code, x ≤ 2) (N u q n : Nat) :
    part table (val 4 code) N u q n = ∑ i ∈ Finset.range N, term (code.getD i 0) (Roots.cosTab.getD ((u * i * n + 64 * n + q) % 128) 0) := by
  unfold part
  rw [total_eq]
  refine Finset.sum_congr rfl fun i _ => ?_
  unfold digit table
  rw [val_digit _ (fun x hx => by have := hc x hx; omega), val_digit _ (fun x hx => by have := cosTab_le x hx; omega)]

theorem part_int (code : List Nat) (hc : ∀ x ∈ code, x ≤ 2) (N u q n : Nat) :
    ((part table (val 4 code) N u q n : Nat) : Int) = 1000000 * N + waveI code N u q n := by
  rw [part_eq code hc, Nat.cast_sum, waveI, Finset.sum_congr rfl fun i _ => term_eq _ _ (code_le code hc i) (cos_le _), Finset.sum_add_distrib, Finset.sum_const,
    Finset.card_range]
  simp only [nsmul_eq_mul]
  ring

theorem part_le (code : List Nat) (hc : ∀ x ∈ code, x ≤ 2) (N u q n : Nat) : part table (val 4 code) N u q n ≤ 2000000 * N := by
  rw [part_eq code hc]
  refine le_trans (Finset.sum_le_card_nsmul _ _ 2000000 fun i _ => term_le _ _ (cos_le _)) ?_
  rw [Finset.card_range, smul_eq_mul, Nat.mul_comm]

theorem waves_eq (code : List Nat) (hc : ∀ x ∈ code, x ≤ 2) (N u q n : Nat) (hN : N ≤ 128) (hn : n < N) :
    digit (2 ^ 30) (waves code N u q) n = part table (val 4 code) N u q n := by
  unfold waves
  rw [force_eq, force_eq, digit_pack _ _ _ _ hn]
  intro i _
  have := part_le code hc N u q i
  have : (2 : Nat) ^ 30 = 1073741824 := by norm_num
  omega

theorem sample_int (N u K : Nat) (ls ll : List Nat) (q : Nat) (h0 : 0 < N) (hN : N ≤ 128) (hK : K * N * 1000000 ≤ H) (hs : ∀ x ∈ ls, x ≤ 2) (hl : ∀ x ∈ ll, x ≤ 2) (s : Nat) :
    ((sample N K (waves ls N u q) (waves ll N u q) s : Nat) : Int) = H + trainI N u K ls ll q s ∧ sample N K (waves ls N u q) (waves ll N u q) s ≤ 2 * H := by
  have hH : (H : Nat) = 549755813888 := by norm_num [H]
  unfold sample trainI
  by_cases h1 : s < N
  · rw [if_pos h1, if_pos h1]; exact ⟨by simp, by omega⟩
  rw [if_neg h1, if_neg h1]
  by_cases h2 : s < 6 * N
  · rw [if_pos h2, if_pos h2]
    set n := ((s - N) % (5 * N / 4) + 3 * N / 4) % N with hn
    have hnN : n < N := Nat.mod_lt _ h0
    rw [waves_eq ls hs N u q n hN hnN]
    have e1 := part_int ls hs N u q n
    have e2 := part_le ls hs N u q n
    set P := part table (val 4 ls) N u q n
    have e3 : K * P ≤ 2 * (K * N * 1000000) := by nlinarith
    have e4 : waveI ls N u q n = (P : Int) - 1000000 * N := by omega
    split
    · refine ⟨?_, by omega⟩
      rw [Nat.cast_sub (by omega), e4]; push_cast; ring
    · refine ⟨?_, by omega⟩
      rw [Nat.cast_add, Nat.cast_sub hK, e4]; push_cast; ring
  · rw [if_neg h2, if_neg h2]
    set n := (s - 6 * N + N / 2) % N with hn
    have hnN : n < N := Nat.mod_lt _ h0
    rw [waves_eq ll hl N u q n hN hnN]
    have e1 := part_int ll hl N u q n
    have e2 := part_le ll hl N u q n
    set P := part table (val 4 ll) N u q n
    have e4 : waveI ll N u q n = (P : Int) - 1000000 * N := by omega
    have e5 : 1000 * N * 1000000 ≤ H := by rw [hH]; linarith
    refine ⟨?_, by omega⟩
    rw [Nat.cast_add, Nat.cast_sub e5, e4]; push_cast; ring

theorem sqDiff_int (a b : Nat) : ((sqDiff a b : Nat) : Int) = ((a : Int) - b) ^ 2 := by
  unfold sqDiff
  rcases Nat.le_total a b with h | h
  · rw [Nat.sub_eq_zero_of_le h]; push_cast [Nat.cast_sub h]; ring
  · rw [Nat.sub_eq_zero_of_le h]; push_cast [Nat.cast_sub h]; ring

/-- Sum of squares of a window. -/
def energyI (M : Nat) (a c : Nat → Int) (s : Nat) : Int := ∑ k ∈ Finset.range M, (a (s + k) ^ 2 + c (s + k) ^ 2)

/-- Real and imaginary part of the correlation of the windows at `s` and `t`. -/
def corrRe (M : Nat) (a c : Nat → Int) (s t : Nat) : Int := ∑ k ∈ Finset.range M, (a (s + k) * a (t + k) + c (s + k) * c (t + k))
def corrIm (M : Nat) (a c : Nat → Int) (s t : Nat) : Int := ∑ k ∈ Finset.range M, (c (s + k) * a (t + k) - a (s + k) * c (t + k))

theorem check_int (N u K A : Nat) (ls ll : List Nat) (h0 : 0 < N) (hN : N ≤ 128) (he : N % 4 = 0) (hK : K * N * 1000000 ≤ H) (hs : ∀ x ∈ ls, x ≤ 2) (hl : ∀ x ∈ ll, x ≤ 2)
    (h : check N u K A ls ll = true) (s : Nat) (hs0 : 0 < s) (hs6 : s ≤ 6 * N) :
    3 * (A * N * 1000000000000000000 : Int) ≤ 4 * energyI (3 * N / 2) (trainI N u K ls ll 0) (trainI N u K ls ll 96) s ∧
    (s = 6 * N ∨ 7 * (corrRe (3 * N / 2) (trainI N u K ls ll 0) (trainI N u K ls ll 96) s (6 * N) ^ 2 +
      corrIm (3 * N / 2) (trainI N u K ls ll 0) (trainI N u K ls ll 96) s (6 * N) ^ 2) ≤
      energyI (3 * N / 2) (trainI N u K ls ll 0) (trainI N u K ls ll 96) s * energyI (3 * N / 2) (trainI N u K ls ll 0) (trainI N u K ls ll 96) (6 * N)) := by
  unfold check at h
  simp only [force_eq] at h
  have h := every_eq _ _ h (s - 1) (by omega)
  rw [Nat.sub_add_cancel hs0] at h
  have hA := sample_int N u K ls ll 0 h0 hN hK hs hl
  have hC := sample_int N u K ls ll 96 h0 hN hK hs hl
  set a := sample N K (waves ls N u 0) (waves ll N u 0) with ha
  set c := sample N K (waves ls N u 96) (waves ll N u 96) with hc
  set a' := trainI N u K ls ll 0
  set c' := trainI N u K ls ll 96
  set M := 3 * N / 2 with hM
  have hMp : 0 < M := by omega
  have hMl : M ≤ 192 := by omega
  have hHv : (H : Nat) = 549755813888 := by norm_num [H]
  have hBv : (base : Nat) = 79228162514264337593543950336 := by norm_num [base]
  have w1 : ∀ (f : Nat → Nat) (L : Nat) (s : Nat), (∀ k, f k ≤ L) → s ≤ 6 * N → L * 192 < base →
      window (pack base f (6 * N + M)) (packRev base (fun _ => 1) M) M s = ∑ k ∈ Finset.range M, f (s + k) := by
    intro f L s hf hs hL
    unfold window
    rw [pack_eq, packRev_eq, dot_fun (L := L) (L' := 1) f (fun _ => 1) (6 * N + M) M s (fun k _ => hf k) (fun _ _ => le_rfl) (by omega) hMp (by nlinarith) (by omega)]
    simp
  have w2 : ∀ (f g : Nat → Nat) (s : Nat), (∀ k, f k ≤ 2 * H) → (∀ k, g k ≤ 2 * H) → s ≤ 6 * N →
      window (pack base f (6 * N + M)) (packRev base (fun k => g (6 * N + k)) M) M s = ∑ k ∈ Finset.range M, f (s + k) * g (6 * N + k) := by
    intro f g s hf hg hs
    unfold window
    rw [pack_eq, packRev_eq, dot_fun (L := 2 * H) (L' := 2 * H) f (fun k => g (6 * N + k)) (6 * N + M) M s (fun k _ => hf k) (fun k _ => hg _) (by omega) hMp
      (by rw [hHv, hBv]; nlinarith) (by omega)]
  have hAl := fun k => (hA k).2
  have hCl := fun k => (hC k).2
  have hA := fun k => (hA k).1
  have hC := fun k => (hC k).1
  have hsq : ∀ k, a k * a k + c k * c k ≤ 8 * H * H := fun k => by
    have := hAl k; have := hCl k
    nlinarith
  have eN : ∀ s ≤ 6 * N, ((energy M (window (pack base (fun s => a s * a s + c s * c s) (6 * N + M)) (packRev base (fun _ => 1) M) M s)
      (window (pack base a (6 * N + M)) (packRev base (fun _ => 1) M) M s + window (pack base c (6 * N + M)) (packRev base (fun _ => 1) M) M s) : Nat) : Int) = energyI M a' c' s := by
    intro s hs
    rw [w1 _ _ s hsq hs (by rw [hHv, hBv]; norm_num), w1 _ _ s hAl hs (by rw [hHv, hBv]; norm_num), w1 _ _ s hCl hs (by rw [hHv, hBv]; norm_num)]
    unfold energy
    have key : ((∑ k ∈ Finset.range M, (a (s + k) * a (s + k) + c (s + k) * c (s + k)) + 2 * M * H * H : Nat) : Int) -
        ((2 * H * (∑ k ∈ Finset.range M, a (s + k) + ∑ k ∈ Finset.range M, c (s + k)) : Nat) : Int) = energyI M a' c' s := by
      unfold energyI
      have hM2 : (2 * M * H * H : Int) = ∑ k ∈ Finset.range M, (2 * H * H : Int) := by
        rw [Finset.sum_const, Finset.card_range]; simp only [nsmul_eq_mul]; ring
      push_cast
      rw [hM2, ← Finset.sum_add_distrib, ← Finset.sum_add_distrib, Finset.mul_sum, ← Finset.sum_sub_distrib]
      refine Finset.sum_congr rfl fun k _ => ?_
      rw [hA, hC]; ring
    have pos : 0 ≤ energyI M a' c' s := Finset.sum_nonneg fun k _ => by positivity
    rw [← key] at pos ⊢
    rw [Nat.cast_sub (by omega)]
  unfold checkAt at h
  simp only [force_eq] at h
  rw [Bool.and_eq_true, Bool.or_eq_true, Nat.ble_eq, Nat.ble_eq, Nat.beq_eq] at h
  refine ⟨?_, ?_⟩
  · have := h.1
    rw [← eN s hs6]
    have : ((3 * A * N * 1000000000000000000 : Nat) : Int) ≤ ((4 * _ : Nat) : Int) := Int.ofNat_le.2 this
    push_cast at this ⊢
    linarith
  · rcases h.2 with h | h
    · exact Or.inl h
    · right
      have h := Int.ofNat_le.2 h
      rw [Nat.cast_mul, Nat.cast_mul, eN s hs6, eN (6 * N) le_rfl, Nat.cast_add, sqDiff_int, sqDiff_int, w2 a a s hAl hAl hs6, w2 c c s hCl hCl hs6, w2 c a s hCl hAl hs6,
        w2 a c s hAl hCl hs6, w1 _ _ s hAl hs6 (by rw [hHv, hBv]; norm_num), w1 _ _ s hCl hs6 (by rw [hHv, hBv]; norm_num),
        w1 _ _ (6 * N) hAl le_rfl (by rw [hHv, hBv]; norm_num), w1 _ _ (6 * N) hCl le_rfl (by rw [hHv, hBv]; norm_num)] at h
      refine le_trans (le_of_eq ?_) h
      have hM2 : (2 * M * H * H : Int) = ∑ k ∈ Finset.range M, (2 * H * H : Int) := by
        rw [Finset.sum_const, Finset.card_range]; simp only [nsmul_eq_mul]; ring
      congr 3
      · unfold corrRe
        push_cast
        rw [hM2, ← Finset.sum_add_distrib, ← Finset.sum_add_distrib, ← Finset.sum_add_distrib, ← Finset.sum_add_distrib, ← Finset.sum_add_distrib, Finset.mul_sum,
          ← Finset.sum_sub_distrib]
        refine Finset.sum_congr rfl fun k _ => ?_
        rw [hA, hC, hA, hC]; ring
      · unfold corrIm
        push_cast
        rw [← Finset.sum_add_distrib, ← Finset.sum_add_distrib, Finset.mul_sum, Finset.mul_sum, ← Finset.sum_add_distrib, ← Finset.sum_add_distrib, ← Finset.sum_sub_distrib]
        refine Finset.sum_congr rfl fun k _ => ?_
        rw [hA, hC, hA, hC]; ring

end SunPhy.SyncCheck
