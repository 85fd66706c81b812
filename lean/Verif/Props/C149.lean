import Verif.Spec.Flips
import Verif.Props.C88
import Verif.Props.C89
import Verif.Props.C15IQ
/-
C149 — the distances of C88 and C89 are attained, next to every message.
-/
namespace SunPhy.C149
open SunPhy Spec

/-! ### Counting -/

theorem shift_count (n s K : Nat) (h k : Nat → Bool) (h0 : ∀ q < s, h q = false) (h1 : ∀ r, h (s + r) = k r) (hk : ∀ r, K ≤ r → k r = false) (hn : s + K ≤ n) :
    ((Finset.range n).filter fun q => h q = true).card = ((Finset.range K).filter fun r => k r = true).card := by
  symm
  apply Finset.card_bij (fun r _ => s + r)
  · intro r hr
    simp only [Finset.mem_filter, Finset.mem_range] at hr ⊢
    exact ⟨by omega, by rw [h1]; exact hr.2⟩
  · intro a _ b _ e
    omega
  · intro q hq
    simp only [Finset.mem_filter, Finset.mem_range] at hq
    have hs : s ≤ q := by
      by_contra hc
      have := h0 q (by omega)
      rw [this] at hq
      exact absurd hq.2 (by decide)
    obtain ⟨r, rfl⟩ := Nat.exists_eq_add_of_le hs
    rw [h1] at hq
    refine ⟨r, ?_, rfl⟩
    simp only [Finset.mem_filter, Finset.mem_range]
    refine ⟨?_, hq.2⟩
    by_contra hc
    rw [hk r (by omega)] at hq
    exact absurd hq.2 (by decide)

theorem hamming_shift {x y : Bits} (hl : x.length = y.length) (s K : Nat) (k : Nat → Bool)
    (h0 : ∀ q < s, xor (x.getD q false) (y.getD q false) = false) (h1 : ∀ r, xor (x.getD (s + r) false) (y.getD (s + r) false) = k r)
    (hk : ∀ r, K ≤ r → k r = false) (hn : s + K ≤ x.length) : hamming x y = ((Finset.range K).filter fun r => k r = true).card := by
  rw [hamming_getD hl, ← shift_count x.length s K (fun q => xor (x.getD q false) (y.getD q false)) k h0 h1 hk hn]
  congr 1
  apply Finset.filter_congr
  intro i _
  cases x.getD i false <;> cases y.getD i false <;> simp

/-! ### Codes -/

/-- `x` and `x'` differ by the pattern `pat` from position `j` on. -/
def Differ (x x' pat : Bits) (j : Nat) : Prop :=
  ∀ i, xor (x.getD i false) (x'.getD i false) = if j ≤ i then pat.getD (i - j) false else false

theorem tap_shift {x x' pat : Bits} {j : Nat} (h : Differ x x' pat j) (taps : List Nat) (n : Nat) :
    xor (tapSum taps x n) (tapSum taps x' n) = if j ≤ n then tapSum taps pat (n - j) else false := by
  have key : ∀ d, xor (delayed x n d) (delayed x' n d) = if j ≤ n then delayed pat (n - j) d else false := by
    intro d
    unfold delayed
    by_cases hd : d ≤ n
    · rw [if_pos hd, if_pos hd, h]
      by_cases hj : j ≤ n - d
      · rw [if_pos hj, if_pos (by omega), if_pos (by omega)]
        congr 1
        omega
      · rw [if_neg hj]
        by_cases hn : j ≤ n
        · rw [if_pos hn, if_neg (by omega)]
        · rw [if_neg hn]
    · rw [if_neg hd, if_neg hd]
      by_cases hn : j ≤ n
      · rw [if_pos hn, if_neg (by omega)]; rfl
      · rw [if_neg hn]; rfl
  unfold tapSum
  induction taps with
  | nil => simp
  | cons d taps ih =>
    simp only [List.map_cons, List.foldr_cons]
    have e : ∀ a b c d : Bool, xor (xor a b) (xor c d) = xor (xor a c) (xor b d) := by decide
    rw [e, key, ih]
    split <;> simp

theorem flipped_getD (m : Bits) (S : List Nat) (i : Nat) : (flipped m S).getD i false = if i < m.length then (if i ∈ S then !m.getD i false else m.getD i false) else false := by
  unfold flipped
  rw [List.getD_eq_getElem?_getD, List.getElem?_map]
  split
  · rw [List.getElem?_range (by assumption)]; rfl
  · rw [List.getElem?_eq_none (by rw [List.length_range]; omega)]; rfl

theorem flipped_length (m : Bits) (S : List Nat) : (flipped m S).length = m.length := by simp [flipped]

theorem getD_out {m : Bits} {i : Nat} (h : m.length ≤ i) : m.getD i false = false := by
  rw [List.getD_eq_getElem?_getD, List.getElem?_eq_none h]; rfl

theorem flipped_differ (m : Bits) (S : List Nat) (i : Nat) : xor (m.getD i false) ((flipped m S).getD i false) = decide (i < m.length ∧ i ∈ S) := by
  rw [flipped_getD]
  by_cases hi : i < m.length
  · by_cases hs : i ∈ S <;> simp [hi, hs]
  · rw [if_neg hi, getD_out (by omega)]; simp [hi]

theorem flipped_one {m : Bits} {j : Nat} (hj : j < m.length) : Differ m (flipped m [j]) [true] j := by
  intro i
  rw [flipped_differ]
  by_cases h : j ≤ i
  · rw [if_pos h]
    obtain ⟨d, rfl⟩ := Nat.exists_eq_add_of_le h
    rw [Nat.add_sub_cancel_left]
    cases d with
    | zero => simp [hj]
    | succ d => simp
  · rw [if_neg h]; simp; omega

theorem flipped_two {m : Bits} {j : Nat} (hj : j + 1 < m.length) : Differ m (flipped m [j, j + 1]) [true, true] j := by
  intro i
  rw [flipped_differ]
  by_cases h : j ≤ i
  · rw [if_pos h]
    obtain ⟨d, rfl⟩ := Nat.exists_eq_add_of_le h
    rw [Nat.add_sub_cancel_left]
    match d with
    | 0 => simp; omega
    | 1 => simp; omega
    | d + 2 => simp
  · rw [if_neg h]; simp; omega

/-! ### MR-OFDM -/

theorem payload_differ {p : OfdmParams} {m m' pat : Bits} {j : Nat} (hl : m'.length = m.length) (ht : m.length ≤ (Ref.payload p m).length)
    (h : Differ m m' pat j) : Differ (Ref.payload p m) (Ref.payload p m') pat j := by
  intro i
  rw [← h i]
  have hlen : (Ref.payload p m).length = Ref.groups p m.length * Ref.groupBits p.option p.mcs := by simp [Ref.payload]
  rw [hlen] at ht
  have key : ∀ y : Bits, y.length = m.length → (Ref.payload p y).getD i false =
      if i < Ref.groups p m.length * Ref.groupBits p.option p.mcs then
        (if i < m.length then xor (Ref.key (Ref.seed p.scrambler) i) (y.getD i false)
        else if i < m.length + 6 ∧ m.length + 6 < Ref.groups p m.length * Ref.groupBits p.option p.mcs then false else Ref.key (Ref.seed p.scrambler) i) else false := by
    intro y hy
    unfold Ref.payload
    simp only [hy]
    rw [List.getD_eq_getElem?_getD, List.getElem?_map]
    split
    · rw [List.getElem?_range (by assumption)]; rfl
    · rw [List.getElem?_eq_none (by rw [List.length_range]; omega)]; rfl
  rw [key m rfl, key m' hl]
  by_cases hi : i < m.length
  · have hT : i < Ref.groups p m.length * Ref.groupBits p.option p.mcs := by omega
    simp only [if_pos hi, if_pos hT]
    generalize Ref.key (Ref.seed p.scrambler) i = u
    cases u <;> cases m.getD i false <;> cases m'.getD i false <;> rfl
  · rw [getD_out (by omega : m.length ≤ i), getD_out (by omega : m'.length ≤ i), if_neg hi]
    simp

theorem conv_getD (x : Bits) (q : Nat) : (Ref.conv x).getD q false =
    if q < 2 * x.length then (if q % 2 = 0 then tapSum [0, 2, 3, 5, 6] x (q / 2) else tapSum [0, 1, 2, 3, 6] x (q / 2)) else false := by
  unfold Ref.conv
  rw [List.getD_eq_getElem?_getD, List.getElem?_map]
  split
  · rw [List.getElem?_range (by assumption)]; rfl
  · rw [List.getElem?_eq_none (by rw [List.length_range]; omega)]; rfl

/-- The response of the rate 1/2 code to a pattern. -/
def response (pat : Bits) (q : Nat) : Bool := if q % 2 = 0 then tapSum [0, 2, 3, 5, 6] pat (q / 2) else tapSum [0, 1, 2, 3, 6] pat (q / 2)

theorem response_end (pat : Bits) (q : Nat) (h : 2 * (pat.length + 6) ≤ q) : response pat q = false := by
  have : ∀ d ≤ 6, delayed pat (q / 2) d = false := by
    intro d hd
    unfold delayed
    rw [if_pos (by omega)]
    exact getD_out (by omega)
  unfold response tapSum
  simp [this]

theorem conv_differ {x x' pat : Bits} {j : Nat} (hl : x'.length = x.length) (hj : j + pat.length + 6 ≤ x.length) (h : Differ x x' pat j) (q : Nat) :
    xor ((Ref.conv x).getD q false) ((Ref.conv x').getD q false) = if 2 * j ≤ q then response pat (q - 2 * j) else false := by
  rw [conv_getD, conv_getD, hl]
  by_cases hq : q < 2 * x.length
  · rw [if_pos hq, if_pos hq]
    by_cases h2 : 2 * j ≤ q
    · rw [if_pos h2]
      unfold response
      rw [show (q - 2 * j) % 2 = q % 2 by omega, show (q - 2 * j) / 2 = q / 2 - j by omega]
      by_cases h3 : q % 2 = 0
      · rw [if_pos h3, if_pos h3, if_pos h3, tap_shift h, if_pos (by omega)]
      · rw [if_neg h3, if_neg h3, if_neg h3, tap_shift h, if_pos (by omega)]
    · rw [if_neg h2]
      by_cases h3 : q % 2 = 0
      · rw [if_pos h3, if_pos h3, tap_shift h, if_neg (by omega)]
      · rw [if_neg h3, if_neg h3, tap_shift h, if_neg (by omega)]
  · rw [if_neg hq, if_neg hq, if_pos (by omega), response_end _ _ (by omega)]; rfl

theorem half_weight {x x' : Bits} {j : Nat} (hl : x'.length = x.length) (hj : j + 7 ≤ x.length) (h : Differ x x' [true] j) :
    hamming (Ref.conv x) (Ref.conv x') = 10 := by
  have hx : (Ref.conv x).length = 2 * x.length := by simp [Ref.conv]
  have hx' : (Ref.conv x').length = 2 * x.length := by simp [Ref.conv, hl]
  rw [hamming_shift (by rw [hx, hx']) (2 * j) 14 (response [true])]
  · decide
  · intro q hq
    rw [conv_differ hl hj h, if_neg (by omega)]
  · intro r
    rw [conv_differ hl hj h, if_pos (by omega), Nat.add_sub_cancel_left]
  · exact fun r hr => response_end _ _ hr
  · omega

theorem conv34_getD (x : Bits) (q : Nat) : (Ref.conv34 x).getD q false =
    if q < 4 * x.length / 3 then (Ref.conv x).getD (6 * (q / 4) + [0, 1, 2, 5].getD (q % 4) 0) false else false := by
  unfold Ref.conv34
  rw [List.getD_eq_getElem?_getD, List.getElem?_map]
  split
  · rw [List.getElem?_range (by assumption)]; rfl
  · rw [List.getElem?_eq_none (by rw [List.length_range]; omega)]; rfl

/-- The response of the rate 3/4 code to the bits 1 and 2 of a group of three. -/
def response34 (r : Nat) : Bool := response [false, true, true] (6 * (r / 4) + [0, 1, 2, 5].getD (r % 4) 0)

theorem rate34_weight {x x' : Bits} {j : Nat} (hl : x'.length = x.length) (h3 : x.length % 3 = 0) (hj : 3 * j + 9 ≤ x.length) (h : Differ x x' [false, true, true] (3 * j)) :
    hamming (Ref.conv34 x) (Ref.conv34 x') = 5 := by
  have hx : (Ref.conv34 x).length = 4 * x.length / 3 := by simp [Ref.conv34]
  have hx' : (Ref.conv34 x').length = 4 * x.length / 3 := by simp [Ref.conv34, hl]
  have hlt : ∀ r, [0, 1, 2, 5].getD (r % 4) 0 ≤ 5 := by
    intro r
    have : r % 4 < 4 := Nat.mod_lt _ (by decide)
    generalize r % 4 = u at *
    revert u; decide
  rw [hamming_shift (by rw [hx, hx']) (4 * j) 12 response34]
  · decide
  · intro q hq
    rw [conv34_getD, conv34_getD, hl, if_pos (by omega), if_pos (by omega), conv_differ hl (by simpa using hj) h, if_neg]
    have := hlt q
    omega
  · intro r
    rw [conv34_getD, conv34_getD, hl]
    by_cases hr : 4 * j + r < 4 * x.length / 3
    · rw [if_pos hr, if_pos hr, conv_differ hl (by simpa using hj) h, if_pos (by omega)]
      unfold response34
      rw [show (4 * j + r) % 4 = r % 4 by omega]
      congr 1
      omega
    · rw [if_neg hr, if_neg hr]
      unfold response34
      rw [response_end _ _ (by simp only [List.length_cons, List.length_nil]; omega)]
      rfl
  · intro r hr
    unfold response34
    rw [response_end _ _ (by simp only [List.length_cons, List.length_nil]; omega)]
  · omega

theorem flipped_group {m : Bits} {j : Nat} (hj : 3 * j + 2 < m.length) : Differ m (flipped m [3 * j + 1, 3 * j + 2]) [false, true, true] (3 * j) := by
  intro i
  rw [flipped_differ]
  by_cases h : 3 * j ≤ i
  · rw [if_pos h]
    obtain ⟨d, rfl⟩ := Nat.exists_eq_add_of_le h
    rw [Nat.add_sub_cancel_left]
    match d with
    | 0 => simp
    | 1 => simp; omega
    | 2 => simp; omega
    | d + 3 => simp
  · rw [if_neg h]; simp; omega

theorem payloadCode_ref {p : OfdmParams} (h : Supported p) (m : Bits) :
    payloadCode p m = if Ref.threeQuarters p.mcs then Ref.conv34 (Ref.payload p m) else Ref.conv (Ref.payload p m) := by
  obtain ⟨-, -, -, -, -, er, -, -, -, ed, -, -, -, -, e3⟩ := ref_tables p (mem_allSupported h)
  unfold payloadCode encodeBits
  rw [er]
  cases h34 : Ref.threeQuarters p.mcs with
  | false => simp only [Bool.false_eq_true, if_false]; rw [conv_eq, payload_ref h]
  | true =>
    simp only [if_true]
    rw [conv34_eq, payload_ref h]
    rw [payloadScrambled_length h, Nat.mul_mod, ed, e3 h34]
    simp

theorem payload_size {p : OfdmParams} (h : Supported p) (m : Bits) :
    m.length + 6 ≤ (Ref.payload p m).length ∧ (Ref.threeQuarters p.mcs = true → (Ref.payload p m).length % 3 = 0) := by
  obtain ⟨-, -, -, -, -, er, -, -, -, ed, -, -, -, -, e3⟩ := ref_tables p (mem_allSupported h)
  refine ⟨?_, fun h34 => ?_⟩
  · have hg : 0 < Ref.groupBits p.option p.mcs := by
      have : ∀ q ∈ allSupported, 0 < Ref.groupBits q.option q.mcs := by decide +kernel
      exact this p (mem_allSupported h)
    have hlen : (Ref.payload p m).length = Ref.groups p m.length * Ref.groupBits p.option p.mcs := by simp [Ref.payload]
    rw [hlen]
    unfold Ref.groups
    generalize Ref.groupBits p.option p.mcs = g at *
    have := Nat.div_add_mod (m.length + 6 + (g - 1)) g
    have h2 := Nat.mod_lt (m.length + 6 + (g - 1)) hg
    rw [Nat.mul_comm] at this
    omega
  · rw [← payload_ref h, payloadScrambled_length h, Nat.mul_mod, ed, e3 h34]; simp

theorem code_weight {p : OfdmParams} (h : Supported p) (m : Bits) (j : Nat) :
    (p.mcs ≠ 4 → p.mcs ≠ 6 → j < m.length → hamming (payloadCode p m) (payloadCode p (flipped m [j])) = 10) ∧
    (p.mcs = 4 ∨ p.mcs = 6 → 3 * j + 2 < m.length → hamming (payloadCode p m) (payloadCode p (flipped m [3 * j + 1, 3 * j + 2])) = 5) := by
  obtain ⟨h6, h3⟩ := payload_size h m
  have hlen : ∀ S, (Ref.payload p (flipped m S)).length = (Ref.payload p m).length := by intro S; simp [Ref.payload, flipped_length]
  constructor
  · intro h4 h6' hj
    have h34 : Ref.threeQuarters p.mcs = false := by simp [Ref.threeQuarters, h4, h6']
    rw [payloadCode_ref h, payloadCode_ref h, h34]
    simp only [Bool.false_eq_true, if_false]
    exact half_weight (hlen _) (by omega) (payload_differ (flipped_length _ _) (by omega) (flipped_one hj))
  · intro hm hj
    have h34 : Ref.threeQuarters p.mcs = true := by simp [Ref.threeQuarters, hm]
    rw [payloadCode_ref h, payloadCode_ref h, h34]
    simp only [if_true]
    exact rate34_weight (hlen _) (h3 h34) (by omega) (payload_differ (flipped_length _ _) (by omega) (flipped_group hj))

theorem stream_hamming {p : OfdmParams} (h : Supported p) (m m' : Bits) (hl : m.length = m'.length) :
    hamming (Ref.payloadStream p m) (Ref.payloadStream p m') = hamming (payloadCode p m) (payloadCode p m') := by
  rw [← payloadCoded_ref h, ← payloadCoded_ref h]
  unfold payloadCoded
  rw [C89.interleaver_hamming h]
  · rw [(payload_enc h m).2, (payload_enc h m').2, hl]
  · obtain ⟨code, e, hm, -⟩ := C19.C19_payload_blocks p h m
    rw [(payload_enc h m).1] at e
    rw [Except.ok.inj e]; exact hm

/-- **C149 (MR-OFDM).**  For every supported modulator and every message it accepts: with a rate 1/2 scheme, inverting any single bit changes exactly 10
bits of the coded and interleaved payload; with a rate 3/4 scheme (MCS 4 and 6), inverting the last two bits of any group of three changes exactly 5.
So the bound of C89 is attained next to every message. -/
theorem C149_ofdm (o o' : OfdmObj) (h : Supported o.params) (hp : o'.params = o.params) (a a' : Arg) (m : Bits) (j : Nat)
    (hj : if o.params.mcs = 4 ∨ o.params.mcs = 6 then 3 * j + 2 < m.length else j < m.length)
    (ha : checkBinaryArray a = .ok m) (ha' : checkBinaryArray a' = .ok (flipped m (if o.params.mcs = 4 ∨ o.params.mcs = 6 then [3 * j + 1, 3 * j + 2] else [j])))
    (r : List ℂ × ℚ) (hr : ((ofdmModBitsToIQ a).call o).1 = .ok r) :
    ∃ (r' : List ℂ × ℚ) (x x' : Bits), ((ofdmModBitsToIQ a').call o').1 = .ok r' ∧
      ((ofdmModBitsToIQ a).call o).2.payload_interleaved = some x ∧ ((ofdmModBitsToIQ a').call o').2.payload_interleaved = some x' ∧
      hamming x x' = if o.params.mcs = 4 ∨ o.params.mcs = 6 then 5 else 10 := by
  have h' : Supported o'.params := by rw [hp]; exact h
  have k := (C15.C15_bitsToIQ o h a m ha).1.1 ⟨_, hr⟩
  obtain ⟨r', hr'⟩ := (C15.C15_bitsToIQ o' h' a' _ ha').1.2 (by rw [flipped_length]; exact k)
  refine ⟨r', _, _, hr', (C87.C87_ofdm o h a m ha r hr).interleaved, (C87.C87_ofdm o' h' a' _ ha' r' hr').interleaved, ?_⟩
  rw [hp, stream_hamming h _ _ (flipped_length _ _).symm]
  obtain ⟨w1, w2⟩ := code_weight h m j
  by_cases hm : o.params.mcs = 4 ∨ o.params.mcs = 6
  · simp only [if_pos hm] at hj ⊢
    exact w2 hm hj
  · simp only [if_neg hm] at hj ⊢
    exact w1 (fun e => hm (Or.inl e)) (fun e => hm (Or.inr e)) hj

/-! ### MR-FSK -/

theorem append_differ {m m' pat : Bits} {j : Nat} (pre post : Bits) (hl : m'.length = m.length) (h : Differ m m' pat j) :
    Differ (pre ++ m ++ post) (pre ++ m' ++ post) pat (pre.length + j) := by
  have key : ∀ (y : Bits) (i : Nat), y.length = m.length → (pre ++ y ++ post).getD i false =
      if i < pre.length then pre.getD i false else if i - pre.length < m.length then y.getD (i - pre.length) false else post.getD (i - pre.length - m.length) false := by
    intro y i hy
    simp only [List.getD_eq_getElem?_getD]
    by_cases h1 : i < pre.length
    · rw [if_pos h1, List.append_assoc, List.getElem?_append_left h1]
    · rw [if_neg h1]
      by_cases h2 : i - pre.length < m.length
      · rw [if_pos h2, List.append_assoc, List.getElem?_append_right (by omega), List.getElem?_append_left (by omega)]
      · rw [if_neg h2, List.append_assoc, List.getElem?_append_right (by omega), List.getElem?_append_right (by omega), hy]
  intro i
  rw [key m i rfl, key m' i hl]
  by_cases h1 : i < pre.length
  · simp only [if_pos h1, bne_self_eq_false]
    rw [if_neg (by omega)]
  · simp only [if_neg h1]
    have := h (i - pre.length)
    by_cases h2 : i - pre.length < m.length
    · simp only [if_pos h2]
      rw [this]
      by_cases h3 : pre.length + j ≤ i
      · rw [if_pos h3, if_pos (by omega)]; congr 1; omega
      · rw [if_neg h3, if_neg (by omega)]
    · simp only [if_neg h2, bne_self_eq_false]
      rw [getD_out (by omega : m.length ≤ _), getD_out (by omega : m'.length ≤ _)] at this
      by_cases h3 : pre.length + j ≤ i
      · rw [if_pos h3]
        rw [if_pos (by omega)] at this
        rw [show i - (pre.length + j) = i - pre.length - j by omega, ← this]
        rfl
      · rw [if_neg h3]

/-- The register of the recursive encoder when the bits `N` and `N + 4` of the data are inverted. -/
theorem rsc_differ {x x' : Bits} {N : Nat} (q : Bits) (hl : x'.length = x.length) (hN : N + 4 < x.length)
    (h : ∀ i, xor (x.getD i false) (x'.getD i false) = decide (i = N ∨ i = N + 4)) (n : Nat) :
    xor (RefF.rsc x q n) (RefF.rsc x' q n) = decide (n = N ∨ n = N + 1) := by
  induction n using Nat.strongRecOn with
  | ind n ih =>
    rw [RefF.rsc.eq_def x q n, RefF.rsc.eq_def x' q n, hl]
    have step : ∀ d, 1 ≤ d → xor (if d ≤ n then RefF.rsc x q (n - d) else false) (if d ≤ n then RefF.rsc x' q (n - d) else false) =
        decide (n = N + d ∨ n = N + 1 + d) := by
      intro d hd
      by_cases hn : d ≤ n
      · rw [if_pos hn, if_pos hn, ih _ (by omega)]
        apply decide_eq_decide.2; omega
      · rw [if_neg hn, if_neg hn]
        symm; simp; omega
    by_cases ht : x.length ≤ n ∧ n < x.length + 3
    · rw [if_pos ht, if_pos ht]; symm; simp; omega
    · rw [if_neg ht, if_neg ht]
      have e : ∀ a b c d a' b' c' d' : Bool, xor (xor a (xor b (xor c d))) (xor a' (xor b' (xor c' d'))) = xor (xor a a') (xor (xor b b') (xor (xor c c') (xor d d'))) := by decide
      rw [e, step 1 le_rfl, step 2 (by omega), step 3 (by omega)]
      have hx : xor (if n < x.length then RefF.at_ x n else RefF.at_ q (n - x.length - 3)) (if n < x.length then RefF.at_ x' n else RefF.at_ q (n - x.length - 3)) =
          decide (n = N ∨ n = N + 4) := by
        by_cases hn : n < x.length
        · rw [if_pos hn, if_pos hn]; exact h n
        · rw [if_neg hn, if_neg hn]; symm; simp; omega
      rw [hx]
      by_cases a0 : n = N
      · subst a0; simp [Nat.add_assoc]
      · by_cases a1 : n = N + 1
        · subst a1; simp [Nat.add_assoc]
        · by_cases a2 : n = N + 2
          · subst a2; simp [Nat.add_assoc]
          · by_cases a3 : n = N + 3
            · subst a3; simp [Nat.add_assoc]
            · by_cases a4 : n = N + 4
              · subst a4; simp [Nat.add_assoc]
              · have e1 : decide (n = N ∨ n = N + 4) = false := by simp; omega
                have e2 : decide (n = N + 1 ∨ n = N + 1 + 1) = false := by simp; omega
                have e3 : decide (n = N + 2 ∨ n = N + 1 + 2) = false := by simp; omega
                have e4 : decide (n = N + 3 ∨ n = N + 1 + 3) = false := by simp; omega
                have e5 : decide (n = N ∨ n = N + 1) = false := by simp; omega
                rw [e1, e2, e3, e4, e5]; rfl

theorem back_differ {x x' : Bits} {N : Nat} (q : Bits) (hl : x'.length = x.length) (hN : N + 4 < x.length)
    (h : ∀ i, xor (x.getD i false) (x'.getD i false) = decide (i = N ∨ i = N + 4)) (n d : Nat) :
    xor (RefF.back x q n d) (RefF.back x' q n d) = decide (n = N + d ∨ n = N + 1 + d) := by
  unfold RefF.back
  by_cases hn : d ≤ n
  · rw [if_pos hn, if_pos hn, rsc_differ q hl hN h]
    apply decide_eq_decide.2; omega
  · rw [if_neg hn, if_neg hn]; symm; simp; omega

/-- The response of both encoders to the register pattern 1 1. -/
def fskResponse (r : Nat) : Bool := if r % 2 = 0 then tapSum [0, 2, 3] [true, true] (r / 2) else tapSum [0, 1, 2, 3] [true, true] (r / 2)

theorem fskResponse_end (r : Nat) (h : 10 ≤ r) : fskResponse r = false := by
  have : ∀ d ≤ 3, delayed [true, true] (r / 2) d = false := by
    intro d hd
    unfold delayed
    rw [if_pos (by omega)]
    exact getD_out (by simp only [List.length_cons, List.length_nil]; omega)
  unfold fskResponse tapSum
  simp [this]

theorem coded_length (scheme : Nat) (x q : Bits) : (RefF.coded scheme x q).length = 2 * (x.length + 3 + q.length) := by simp [RefF.coded]

theorem coded_getD (scheme : Nat) (x q : Bits) (i : Nat) : (RefF.coded scheme x q).getD i false =
    if i < 2 * (x.length + 3 + q.length) then
      (if scheme = 0 then (if i % 2 = 0 then !(tapSum [0, 2, 3] (x ++ [false, false, false] ++ q) (i / 2)) else !(tapSum [0, 1, 2, 3] (x ++ [false, false, false] ++ q) (i / 2)))
       else if i % 2 = 0 then xor (RefF.back x q (i / 2) 0) (xor (RefF.back x q (i / 2) 2) (RefF.back x q (i / 2) 3))
       else xor (RefF.back x q (i / 2) 0) (xor (RefF.back x q (i / 2) 1) (xor (RefF.back x q (i / 2) 2) (RefF.back x q (i / 2) 3)))) else false := by
  unfold RefF.coded
  rw [List.getD_eq_getElem?_getD, List.getElem?_map]
  by_cases hi : i < 2 * (x.length + 3 + q.length)
  · rw [if_pos hi, List.getElem?_range hi]; rfl
  · rw [if_neg hi, List.getElem?_eq_none (by rw [List.length_range]; omega)]; rfl

/-- Non-recursive encoder. -/
theorem nrnsc_weight {x x' q : Bits} {N : Nat} (hl : x'.length = x.length) (hN : N + 1 < x.length) (h : Differ x x' [true, true] N) :
    hamming (RefF.coded 0 x q) (RefF.coded 0 x' q) = 6 := by
  have hd : Differ (x ++ [false, false, false] ++ q) (x' ++ [false, false, false] ++ q) [true, true] N := by
    have := append_differ [] ([false, false, false] ++ q) hl h
    simpa using this
  have key : ∀ r, 2 * N + r < 2 * (x.length + 3 + q.length) → xor ((RefF.coded 0 x q).getD (2 * N + r) false) ((RefF.coded 0 x' q).getD (2 * N + r) false) = fskResponse r := by
    intro r hr
    rw [coded_getD, coded_getD, hl, if_pos hr, if_pos hr, if_pos rfl, if_pos rfl]
    unfold fskResponse
    rw [show (2 * N + r) % 2 = r % 2 by omega]
    have hs := tap_shift hd
    have e : ∀ a b : Bool, xor (!a) (!b) = xor a b := by decide
    by_cases h2 : r % 2 = 0
    · rw [if_pos h2, if_pos h2, if_pos h2, e, hs, if_pos (by omega), show (2 * N + r) / 2 - N = r / 2 by omega]
    · rw [if_neg h2, if_neg h2, if_neg h2, e, hs, if_pos (by omega), show (2 * N + r) / 2 - N = r / 2 by omega]
  rw [hamming_shift (by rw [coded_length, coded_length, hl]) (2 * N) 10 fskResponse]
  · decide
  · intro i hi
    have hb : i < 2 * (x.length + 3 + q.length) := by omega
    rw [coded_getD, coded_getD, hl, if_pos hb, if_pos hb]
    simp only [if_true]
    have hs := tap_shift hd
    have e : ∀ a b : Bool, xor (!a) (!b) = xor a b := by decide
    by_cases h2 : i % 2 = 0
    · rw [if_pos h2, if_pos h2, e, hs, if_neg (by omega)]
    · rw [if_neg h2, if_neg h2, e, hs, if_neg (by omega)]
  · intro r
    by_cases hr : 2 * N + r < 2 * (x.length + 3 + q.length)
    · exact key r hr
    · rw [coded_getD, coded_getD, hl, if_neg hr, if_neg hr, fskResponse_end r (by omega)]; rfl
  · exact fskResponse_end
  · rw [coded_length]; omega

/-- Recursive encoder. -/
theorem rsc_weight {x x' q : Bits} {N scheme : Nat} (hsch : scheme ≠ 0) (hl : x'.length = x.length) (hN : N + 4 < x.length)
    (h : ∀ i, xor (x.getD i false) (x'.getD i false) = decide (i = N ∨ i = N + 4)) : hamming (RefF.coded scheme x q) (RefF.coded scheme x' q) = 6 := by
  have hb := back_differ q hl hN h
  have e3 : ∀ a b c a' b' c' : Bool, xor (xor a (xor b c)) (xor a' (xor b' c')) = xor (xor a a') (xor (xor b b') (xor c c')) := by decide
  have e4 : ∀ a b c d a' b' c' d' : Bool, xor (xor a (xor b (xor c d))) (xor a' (xor b' (xor c' d'))) = xor (xor a a') (xor (xor b b') (xor (xor c c') (xor d d'))) := by decide
  have val : ∀ i, i < 2 * (x.length + 3 + q.length) → xor ((RefF.coded scheme x q).getD i false) ((RefF.coded scheme x' q).getD i false) =
      if i % 2 = 0 then xor (decide (i / 2 = N + 0 ∨ i / 2 = N + 1 + 0)) (xor (decide (i / 2 = N + 2 ∨ i / 2 = N + 1 + 2)) (decide (i / 2 = N + 3 ∨ i / 2 = N + 1 + 3)))
      else xor (decide (i / 2 = N + 0 ∨ i / 2 = N + 1 + 0)) (xor (decide (i / 2 = N + 1 ∨ i / 2 = N + 1 + 1)) (xor (decide (i / 2 = N + 2 ∨ i / 2 = N + 1 + 2)) (decide (i / 2 = N + 3 ∨ i / 2 = N + 1 + 3)))) := by
    intro i hi
    rw [coded_getD, coded_getD, hl, if_pos hi, if_pos hi]
    simp only [if_neg hsch]
    by_cases h2 : i % 2 = 0
    · simp only [if_pos h2]
      rw [e3, hb, hb, hb]
    · simp only [if_neg h2]
      rw [e4, hb, hb, hb, hb]
  have far : ∀ i, (i < 2 * N ∨ 2 * N + 10 ≤ i) → i < 2 * (x.length + 3 + q.length) → xor ((RefF.coded scheme x q).getD i false) ((RefF.coded scheme x' q).getD i false) = false := by
    intro i hi hb2
    rw [val i hb2]
    have d0 : decide (i / 2 = N + 0 ∨ i / 2 = N + 1 + 0) = false := by simp; omega
    have d1 : decide (i / 2 = N + 1 ∨ i / 2 = N + 1 + 1) = false := by simp; omega
    have d2 : decide (i / 2 = N + 2 ∨ i / 2 = N + 1 + 2) = false := by simp; omega
    have d3 : decide (i / 2 = N + 3 ∨ i / 2 = N + 1 + 3) = false := by simp; omega
    rw [d0, d1, d2, d3]
    simp
  rw [hamming_shift (by rw [coded_length, coded_length, hl]) (2 * N) 10 fskResponse]
  · decide
  · intro i hi
    exact far i (Or.inl hi) (by omega)
  · intro r
    by_cases hr : 2 * N + r < 2 * (x.length + 3 + q.length)
    · by_cases hr2 : 10 ≤ r
      · rw [far _ (Or.inr (by omega)) hr, fskResponse_end r hr2]
      · rw [val _ hr]
        have hr3 : r < 10 := by omega
        have hdiv : (2 * N + r) / 2 = N + r / 2 := by omega
        have hmod : (2 * N + r) % 2 = r % 2 := by omega
        rw [hdiv, hmod]
        simp only [Nat.add_assoc, Nat.add_left_cancel_iff]
        clear * - hr3
        revert r
        decide
    · rw [coded_getD, coded_getD, hl, if_neg hr, if_neg hr, fskResponse_end r (by omega)]; rfl
  · exact fskResponse_end
  · rw [coded_length]; omega

/-- Which two bits to invert. -/
def pair (scheme j : Nat) : List Nat := if scheme = 0 then [j, j + 1] else [j, j + 4]

theorem body_weight (p : FskParams) (hf : p.fecEnabled = true) (m : Bits) (j : Nat) (hj : j + 4 < m.length) (h8 : p.interleaving = true → m.length % 8 = 0) :
    hamming (RefF.body p m) (RefF.body p (flipped m (pair p.fecScheme j))) = 6 := by
  have hd : hamming (RefF.coded p.fecScheme (RefF.header p (m.length / 8) ++ m) (RefF.pad (m.length / 8)))
      (RefF.coded p.fecScheme (RefF.header p (m.length / 8) ++ flipped m (pair p.fecScheme j)) (RefF.pad (m.length / 8))) = 6 := by
    have hl : (RefF.header p (m.length / 8) ++ flipped m (pair p.fecScheme j)).length = (RefF.header p (m.length / 8) ++ m).length := by
      rw [List.length_append, List.length_append, flipped_length]
    have hlen : (RefF.header p (m.length / 8) ++ m).length = 16 + m.length := by rw [List.length_append, C69.header_length]
    by_cases hs : p.fecScheme = 0
    · rw [hs] at hl ⊢
      refine nrnsc_weight hl (N := 16 + j) (by omega) ?_
      have := append_differ (RefF.header p (m.length / 8)) [] (flipped_length _ _) (flipped_two (m := m) (j := j) (by omega))
      rw [C69.header_length] at this
      simpa [pair] using this
    · refine rsc_weight hs hl (N := 16 + j) (by omega) fun i => ?_
      have key : ∀ (y : Bits), (RefF.header p (m.length / 8) ++ y).getD i false = if i < 16 then (RefF.header p (m.length / 8)).getD i false else y.getD (i - 16) false := by
        intro y
        simp only [List.getD_eq_getElem?_getD]
        by_cases h1 : i < 16
        · rw [if_pos h1, List.getElem?_append_left (by rw [C69.header_length]; exact h1)]
        · rw [if_neg h1, List.getElem?_append_right (by rw [C69.header_length]; omega), C69.header_length]
      rw [key, key]
      by_cases h1 : i < 16
      · rw [if_pos h1, if_pos h1]; simp; omega
      · rw [if_neg h1, if_neg h1, flipped_differ]
        unfold pair
        rw [if_neg hs]
        apply decide_eq_decide.2
        simp
        omega
  unfold RefF.body
  simp only [hf, if_true, flipped_length]
  cases hi : p.interleaving
  · simpa using hd
  · simp only [if_true]
    rw [← hd]
    have hx : ∀ y : Bits, y.length = m.length → RefF.coded p.fecScheme (RefF.header p (m.length / 8) ++ y) (RefF.pad (m.length / 8)) =
        fskFec p.fecScheme (RefF.header p (m.length / 8) ++ y) := by
      intro y hy
      have h1 : (RefF.header p (y.length / 8) ++ y).length = 16 + y.length := by rw [List.length_append, C69.header_length]
      have := coded_ref p.fecScheme _ _ (fsk_pad_ref _ y h1).symm
      rw [hy] at this
      exact this.symm
    rw [hx m rfl, hx _ (flipped_length _ _), fsk_interleave_hamming]
    · rw [fskFec_length, fskFec_length, List.length_append, List.length_append, flipped_length]
    · refine (C37.C37_multiple p.fecScheme (RefF.header p (m.length / 8) ++ m)).2 ?_
      have := h8 hi
      rw [List.length_append, C69.header_length]
      omega

/-- **C149 (MR-FSK).**  For every modulator with FEC and every message it accepts: inverting the bits `j` and `j + 1` (non-recursive encoder) or `j` and
`j + 4` (recursive encoder) changes exactly six bits of the frame.  So the bound of C88 is attained next to every message of at least five bits. -/
theorem C149_fsk (o o' : FskObj) (hp : o'.params = o.params) (hf : o.params.fecEnabled = true) (a a' : Arg) (m : Bits) (j : Nat) (hj : j + 4 < m.length)
    (ha : checkBinaryArray a = .ok m) (ha' : checkBinaryArray a' = .ok (flipped m (if o.params.fecScheme = 0 then [j, j + 1] else [j, j + 4])))
    (b : Bits) (hb : ((fskBinary a).call o).1 = .ok b) : ∃ b', ((fskBinary a').call o').1 = .ok b' ∧ b'.length = b.length ∧ hamming b b' = 6 := by
  have h1 := C69.C69_bits o a m ha
  have h2 := C69.C69_bits o' a' _ ha'
  simp only at h1 h2
  rw [hb] at h1
  rw [hp] at h2
  split at h1
  · cases h1
  rename_i hc
  rw [if_neg (by rw [flipped_length]; exact hc)] at h2
  have e1 := Except.ok.inj h1
  subst e1
  have hbl : (RefF.body o.params m).length = (RefF.body o.params (flipped m (pair o.params.fecScheme j))).length := by
    rw [C69.body_length, C69.body_length, flipped_length]
  refine ⟨_, h2, ?_, ?_⟩
  · unfold RefF.bits; unfold pair at hbl; simp [hbl]
  · change hamming _ (RefF.bits o.params (flipped m (pair o.params.fecScheme j))) = 6
    rw [C88.bits_hamming _ _ _ hbl]
    refine body_weight o.params hf m j hj ?_
    intro hi
    by_contra h8
    exact hc (Or.inr ⟨hf, hi, h8⟩)

/-! Non-vacuity: messages of two octets are accepted by MR-FSK with FEC and interleaving and by every supported MR-OFDM configuration; the inverted
message differs from the original. -/
example (m : Bits) (hm : m.length = 16) (scheme : Nat) :
    (∃ b, ((fskBinary (bitsArg m)).call { params := ⟨50000, 1, 0, .FSK4, true, scheme, 0, true, true, 4⟩ }).1 = .ok b) ∧
    ∀ p, Supported p → ∃ r, ((ofdmModBitsToIQ (bitsArg m)).call { params := p }).1 = .ok r := by
  have hm0 : m ≠ [] := by rintro rfl; simp at hm
  have hid := C03.C03_identity m hm0
  refine ⟨⟨RefF.bits ⟨50000, 1, 0, .FSK4, true, scheme, 0, true, true, 4⟩ m, ?_⟩, fun p hp => ?_⟩
  · rw [C69.C69_bits _ _ _ hid]; exact if_neg (by rw [hm]; simp)
  · obtain ⟨o', e, -⟩ := bitsToIQ_ok (o := { params := p }) hp hid (by omega) (by omega)
    exact ⟨_, by rw [e]⟩
example : flipped [true, false, true, true, false, false] [1, 5] = [true, true, true, true, false, true] := by decide

end SunPhy.C149
