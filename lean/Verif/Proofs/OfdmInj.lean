import Verif.Props.C19
import Verif.Props.C21
import Verif.Props.C22
import Verif.Props.C23
import Verif.Props.C25
import Verif.Props.C27
import Verif.Proofs.Dft
/-
Reversibility of the MR-OFDM transmit chain: samples determine subcarriers, data values, coded bits, header and message.
-/
namespace SunPhy
open Spec OfdmParams

/-! ### Encoder -/

theorem rateHalf_out_inj : ∀ v < 64, ∀ b b', (encA v b == 1) = (encA v b' == 1) → b = b' := by decide +kernel

theorem rateHalfOut_inj (x : Bits) : ∀ (y : Bits) {v : Nat}, v < 64 → rateHalfOut v x = rateHalfOut v y → x = y := by
  induction x with
  | nil =>
    intro y v _ h
    have := congrArg List.length h
    rw [rateHalfOut_length, rateHalfOut_length] at this
    exact (List.eq_nil_of_length_eq_zero (by simpa using this.symm)).symm
  | cons a x ih =>
    intro y v hv h
    cases y with
    | nil => have := congrArg List.length h; rw [rateHalfOut_length, rateHalfOut_length] at this; simp at this
    | cons b y =>
      rw [rateHalf_cons, rateHalf_cons] at h
      injection h with h1 h2
      injection h2 with _ h3
      have := rateHalf_out_inj v hv a b h1
      subst this
      rw [ih y (encStep_lt v hv a) h3]

theorem rateHalfOut_take (x : Bits) : ∀ (v k : Nat), (rateHalfOut v x).take (2 * k) = rateHalfOut v (x.take k) := by
  induction x with
  | nil => intro v k; simp [rateHalf_nil]
  | cons a x ih =>
    intro v k
    cases k with
    | zero => simp [rateHalf_nil]
    | succ k =>
      rw [rateHalf_cons, List.take_succ_cons, rateHalf_cons, show 2 * (k + 1) = 2 * k + 1 + 1 by omega, List.take_succ_cons, List.take_succ_cons, ih]

theorem encodeBits_inj {x y : Bits} {is34 : Bool} (hx : is34 = true → x.length % 3 = 0 ∧ x ≠ []) (hy : is34 = true → y.length % 3 = 0 ∧ y ≠ [])
    (h : encodeBits x is34 = encodeBits y is34) : x = y := by
  cases is34 with
  | false =>
    unfold encodeBits at h
    simp only [Bool.false_eq_true, if_false] at h
    exact rateHalfOut_inj x y (by decide) h
  | true =>
    obtain ⟨a1, a2⟩ := hx rfl
    obtain ⟨b1, b2⟩ := hy rfl
    obtain ⟨ox, ex, e1, -⟩ := C12.C12_punctured (rateHalfInit 0) x a1 a2
    obtain ⟨oy, ey, e2, -⟩ := C12.C12_punctured (rateHalfInit 0) y b1 b2
    refine C12.C12_injective (rateHalfInit 0) (by decide) x y _ _ ex ey ?_
    unfold encodeBits at h
    simp only [if_true] at h
    rw [e1, e2]; exact h

/-! ### Symbols -/

theorem quarter_drop (x : List ℂ) (h4 : x.length % 4 = 0) (hp : 0 < x.length) : (cyclicPrefix (1 / 4) x).drop (x.length / 4) = x := by
  obtain ⟨k, hk⟩ := Nat.dvd_of_mod_eq_zero h4
  have hf : ⌊(x.length : ℚ) * (1 / 4)⌋₊ = k := by
    rw [hk]; push_cast
    rw [show (4 : ℚ) * k * (1 / 4) = k by ring]
    exact Nat.floor_natCast k
  obtain ⟨-, e⟩ := C27.prefix_eq (1 / 4) x (by
    rw [hk]; push_cast
    have : (1 : ℚ) ≤ k := by exact_mod_cast (by omega : 1 ≤ k)
    linarith) (by norm_num)
  rw [e, hf]
  exact List.drop_left' (by simp; omega)

theorem symbolsIQ_inj {N : Nat} (h4 : N % 4 = 0) (hp : 0 < N) {a b : List (List ℂ)} (ha : ∀ c ∈ a, c.length = N) (hb : ∀ c ∈ b, c.length = N)
    (h : symbolsIQ a = symbolsIQ b) : a = b := by
  unfold symbolsIQ at h
  rw [List.flatMap_def, List.flatMap_def] at h
  have len : ∀ l : List (List ℂ), (∀ c ∈ l, c.length = N) → ∀ x ∈ l.map (fun col => cyclicPrefix (1 / 4) (ofdmIfft col)), x.length = 5 * (N / 4) := by
    intro l hl x hx
    obtain ⟨c, hc, rfl⟩ := List.mem_map.1 hx
    rw [cyclicPrefix_length_quarter _ (by rw [ofdmIfft_length, hl c hc]; exact h4) (by rw [ofdmIfft_length, hl c hc]; exact hp),
      ofdmIfft_length, hl c hc]
  have e := flatten_inj_const (by omega) (len a ha) (len b hb) h
  have back : ∀ l : List (List ℂ), (∀ c ∈ l, c.length = N) →
      (l.map (fun col => cyclicPrefix (1 / 4) (ofdmIfft col))).map (fun y => fftshift (dftOrtho (y.drop (N / 4)))) = l := by
    intro l hl
    rw [List.map_map]
    conv_rhs => rw [← List.map_id l]
    apply List.map_congr_left
    intro c hc
    have hlc : (ofdmIfft c).length = N := by rw [ofdmIfft_length, hl c hc]
    have := quarter_drop (ofdmIfft c) (by rw [hlc]; exact h4) (by rw [hlc]; exact hp)
    rw [hlc] at this
    simp only [Function.comp_apply, id_eq, this, dft_ofdmIfft]
  rw [← back a ha, e, back b hb]

/-! ### Data values -/

theorem ofGI_inj (f : ℝ) {z w : GI} (h : (complexNumbers f).ofGI z = (complexNumbers f).ofGI w) : z = w := by
  have hre := congrArg Complex.re h
  have him := congrArg Complex.im h
  simp only [complexNumbers, Complex.add_re, Complex.add_im, Complex.mul_re, Complex.mul_im, Complex.intCast_re, Complex.intCast_im,
    Complex.I_re, Complex.I_im] at hre him
  simp only [mul_zero, mul_one, zero_mul, sub_zero, add_zero, zero_add] at hre him
  cases z; cases w
  simp only [GI.mk.injEq]
  exact ⟨by exact_mod_cast hre, by exact_mod_cast him⟩

theorem mapCol_inj {f : ℝ} (hf : f ≠ 0) (k : ModKind) {a b : Bits} (ha : a.length % k.bitsPerSymbol = 0) (hb : b.length % k.bitsPerSymbol = 0)
    (h : mapCol (complexNumbers f) k a = mapCol (complexNumbers f) k b) : a = b := by
  have key : ∀ (l l' : List Bits), (∀ x ∈ l, x.length = k.bitsPerSymbol) → (∀ x ∈ l', x.length = k.bitsPerSymbol) →
      (l.map fun b => (complexNumbers f).ofGI (C08.point k b) * (complexNumbers f).factor) =
      (l'.map fun b => (complexNumbers f).ofGI (C08.point k b) * (complexNumbers f).factor) → l = l' := by
    intro l
    induction l with
    | nil => intro l' _ _ h; cases l' with
      | nil => rfl
      | cons => simp at h
    | cons x l ih =>
      intro l' hl hl' h
      cases l' with
      | nil => simp at h
      | cons y l' =>
        rw [List.map_cons, List.map_cons] at h
        injection h with h1 h2
        have hfc : (complexNumbers f).factor ≠ 0 := by
          show ((f : ℝ) : ℂ) ≠ 0
          exact_mod_cast hf
        have h3 := ofGI_inj f (mul_right_cancel₀ hfc h1)
        have h4 := congrArg (C08.slice k) h3
        rw [C08.slice_point k x (hl x (by simp)), C08.slice_point k y (hl' y (by simp))] at h4
        rw [h4, ih l' (fun z hz => hl z (by simp [hz])) (fun z hz => hl' z (by simp [hz])) h2]
  have := key _ _ (fun x hx => mem_chunks_length hx) (fun x hx => mem_chunks_length hx) h
  rw [← chunks_flatten (C08.bps_pos k) a ha, this, chunks_flatten (C08.bps_pos k) b hb]

theorem dataCol_inj {c : OfdmCfg ℂ} {pl : Pilots ℂ} {L : Nat} (g : GoodMod c pl L) {f : ℝ} (hf : f ≠ 0) {a b : Bits}
    (ha : a.length = L) (hb : b.length = L) (h : dataCol c (complexNumbers f) a = dataCol c (complexNumbers f) b) : a = b := by
  apply mapCol_inj hf c.modulation (by rw [ha, g.bps]) (by rw [hb, g.bps])
  have la := mapCol_length (complexNumbers f) c.modulation a
  have lb := mapCol_length (complexNumbers f) c.modulation b
  obtain ⟨y, ey, -, -, ya⟩ := C25.C25_segments f c.frequencySpreading g.sf (mapCol (complexNumbers f) c.modulation a)
  obtain ⟨z, ez, -, -, zb⟩ := C25.C25_segments f c.frequencySpreading g.sf (mapCol (complexNumbers f) c.modulation b)
  rw [frequencySpread_ok _ g.sf] at ey ez
  injection ey with ey
  injection ez with ez
  rw [← ya, ← zb, la, lb, ha, hb, ← ey, ← ez]
  unfold dataCol at h
  rw [h]

theorem streamSymbols_inj {c : OfdmCfg ℂ} {pl : Pilots ℂ} {L : Nat} (g : GoodMod c pl L) {f : ℝ} (hf : f ≠ 0) (st : OfdmState) {a b : Bits}
    (ha : a.length % L = 0) (hb : b.length % L = 0)
    (h : streamSymbols c (complexNumbers f) pl L st a = streamSymbols c (complexNumbers f) pl L st b) : a = b := by
  rw [← chunks_flatten g.pos a ha, ← chunks_flatten g.pos b hb]
  congr 1
  have hl := congrArg List.length h
  rw [streamSymbols_length, streamSymbols_length] at hl
  apply List.ext_getElem
  · rw [chunks_length, chunks_length, hl]
  · intro i h1 h2
    have l1 : (chunks L a)[i].length = L := mem_chunks_length (List.getElem_mem _)
    have l2 : (chunks L b)[i].length = L := mem_chunks_length (List.getElem_mem _)
    refine dataCol_inj g hf l1 l2 ?_
    have e : (streamSymbols c (complexNumbers f) pl L st a)[i]? = (streamSymbols c (complexNumbers f) pl L st b)[i]? := by rw [h]
    unfold streamSymbols at e
    rw [List.getElem?_mapIdx, List.getElem?_mapIdx, List.getElem?_eq_getElem h1, List.getElem?_eq_getElem h2] at e
    simp only [Option.map_some, Option.some.injEq] at e
    have s1 := nthSymbol_spec g.cfg (pilotOf (complexNumbers f)) st i _ (g.dataCol_length (complexNumbers f) l1)
    have s2 := nthSymbol_spec g.cfg (pilotOf (complexNumbers f)) st i _ (g.dataCol_length (complexNumbers f) l2)
    rw [← C23.C23_read_back _ _ _ _ _ _ _ s1, e, C23.C23_read_back _ _ _ _ _ _ _ s2]

theorem kMod_ne_zero (k : ModKind) : kMod k ≠ 0 := by
  cases k with
  | BPSK => simp [kMod]
  | QPSK => simp [kMod]
  | QAM16 => simp [kMod]

/-! ### Header and payload -/

theorem headerCoded_inj {p : OfdmParams} (h : Supported p) {n n' : Nat} (h1 : 1 ≤ n) (h2 : n ≤ 2047) (h1' : 1 ≤ n') (h2' : n' ≤ 2047)
    (e : headerCoded p n = headerCoded p n') : n = n' := by
  have hr := lowest_rate p.option (by have := option_cases h; simp; omega)
  have get : ∀ n, 1 ≤ n → n ≤ 2047 →
      (C19.deinterleave p.interleaving p.option (lowestMcs p.option) (headerCoded p n)).take 72 =
        rateHalfOut (rateHalfInit 0) ((headerBits p n).take 36) := by
    intro n h1 h2
    obtain ⟨code, y, ec, ey, -, -, e⟩ := C19.C19_header p h (8 * n) (by omega) (by omega)
    have eh := (phyHeader_ok h (n := 8 * n) (by omega) (by omega)).1
    rw [show 8 * n / 8 = n by omega] at eh
    have ec2 : p.phyHeaderEncoded (8 * n) = .ok (rateHalfOut (rateHalfInit 0) (headerBits p n)) := by
      unfold OfdmParams.phyHeaderEncoded
      rw [eh, hr]; rfl
    have ey2 : p.phyHeaderInterleaved (8 * n) = .ok (headerCoded p n) := by
      unfold OfdmParams.phyHeaderInterleaved
      rw [ec2]; rfl
    have ec' := Except.ok.inj (ec.symm.trans ec2)
    have ey' := Except.ok.inj (ey.symm.trans ey2)
    rw [← ey', e, ec', ← rateHalfOut_take]
  have := get n h1 h2
  rw [e, get n' h1' h2'] at this
  have hb := rateHalfOut_inj _ _ (by decide) this
  have fld : ∀ n, 1 ≤ n → n ≤ 2047 → (((headerBits p n).take 36).drop 6).take 11 = natBits 11 n := by
    intro n h1 h2
    have e5 : (natBits 5 p.mcs ++ [false]).length = 6 := by simp [natBits_length]
    rw [List.drop_take, List.take_take, show min 11 (36 - 6) = 11 by decide]
    unfold headerBits
    simp only [List.append_assoc]
    rw [← List.append_assoc, List.drop_left' e5, List.take_left' (natBits_length _ _)]
  have h11 := fld n h1 h2
  rw [← hb, fld n' h1' h2'] at h11
  exact (natBits_inj (w := 11) (by omega) (by omega) h11).symm

theorem setSlice_take {x : Bits} {k n : Nat} (hx : x.length = k + n + 6) :
    (setSlice x (-6 - (n : Int)) (-(n : Int)) false).take k = x.take k := by
  by_cases hn : 0 < n
  · have hk : (x.take k).length = k := by simp; omega
    have := C22.setSlice_tail (m := x.take k) (x := x) (n := n) (by rw [hk]; exact hx) hn
    rw [this, hk, List.append_assoc, List.take_left' hk]
  · obtain rfl : n = 0 := by omega
    unfold setSlice pyBound
    simp only [Nat.cast_zero, neg_zero, sub_zero, lt_self_iff_false, if_false]
    congr 1
    conv_rhs => rw [← List.map_id x]
    apply List.ext_getElem?
    intro i
    rw [List.getElem?_map, List.getElem?_zipIdx, List.getElem?_map]
    cases x[i]? with
    | none => rfl
    | some v => simp

theorem scrambler_take (x : Bits) (s k : Nat) : (SunPhy.scrambler x s).take k = SunPhy.scrambler (x.take k) s := by
  rw [C07.scrambler_eq, C07.scrambler_eq, List.take_zipWith, ← List.map_take, List.take_range, List.length_take]

theorem payload_take {p : OfdmParams} (h : Supported p) (m : Bits) :
    SunPhy.scrambler ((p.payloadScrambled m).take m.length) (scramblingSeed p.scrambler) = m := by
  obtain ⟨l1, l2⟩ := padding_length h m
  have hf := (rate_facts p (mem_allSupported h)).2.2
  have hc := (ceilDiv_spec (a := m.length + 6) (b := p.nDbps) (by omega)).1
  unfold OfdmParams.payloadScrambled
  simp only
  rw [setSlice_take (k := m.length) (by rw [scrambler_length, l1, l2]; unfold payloadN; omega), scrambler_take]
  have : (p.padding m).1.take m.length = m := by
    unfold OfdmParams.padding
    simp only [List.append_assoc]
    exact List.take_left
  rw [this, C07.C07_involution]

theorem payloadCoded_inj {p : OfdmParams} (h : Supported p) {m m' : Bits} (hl : m.length = m'.length)
    (e : payloadCoded p m = payloadCoded p m') : m = m' := by
  have dec : ∀ m, C19.deinterleave p.interleaving p.option p.mcs (payloadCoded p m) = payloadCode p m := by
    intro m
    obtain ⟨code, ec, hb, -⟩ := C19.C19_payload_blocks p h m
    rw [(payload_enc h m).1] at ec
    cases ec
    exact (C19.C19_reversible p h p.mcs (.inl rfl) _ hb).1
  have e2 : payloadCode p m = payloadCode p m' := by rw [← dec m, e, dec m']
  obtain ⟨f1, f2, f3⟩ := rate_facts p (mem_allSupported h)
  have cond : ∀ m, rateIs34 p.mcs = true → (p.payloadScrambled m).length % 3 = 0 ∧ p.payloadScrambled m ≠ [] := by
    intro m e
    have hl := payloadScrambled_length h m
    have hpos : 6 ≤ payloadN p m.length * p.nDbps := Nat.le_trans f3 (Nat.le_mul_of_pos_left _ (payloadN_pos h m.length))
    refine ⟨?_, ?_⟩
    · rw [hl, Nat.mul_mod, (f1 e).2]; simp
    · intro e; rw [e] at hl; simp only [List.length_nil] at hl; omega
  have e3 := encodeBits_inj (cond m) (cond m') e2
  rw [← payload_take h m, e3, hl, payload_take h m']

/-- The complete chain. -/
theorem frameIQ_inj {p : OfdmParams} (h : Supported p) {m m' : Bits} (h1 : 1 ≤ m.length / 8) (h2 : m.length / 8 ≤ 2047)
    (h1' : 1 ≤ m'.length / 8) (h2' : m'.length / 8 ≤ 2047) (e : frameIQ p m = frameIQ p m') :
    m.length / 8 = m'.length / 8 ∧ payloadCoded p m = payloadCoded p m' := by
  obtain ⟨f1, f2⟩ := fft_facts p.option (by have := option_cases h; simp; omega)
  have g1 := goodMod h (lowestMcs_le p.option) ℂ
  have g2 := goodMod h (mcs_le h) ℂ
  have lenH : ∀ n, 1 ≤ n → n ≤ 2047 → (symbolsIQ (headerSyms p n)).length = headerSymbols p * (5 * (fftSize p.option / 4)) := by
    intro n a b
    unfold headerSyms
    rw [symbolsIQ_length (N := fftSize p.option) (by omega) f2 _ fun c hc => streamSymbols_size g1 _ _ _ hc, streamSymbols_length,
      headerCoded_length h a b, Nat.mul_div_cancel _ g1.pos]
  unfold frameIQ at e
  rw [List.append_assoc (stfIQ p ++ ltfIQ p), List.append_assoc (stfIQ p ++ ltfIQ p), List.append_cancel_left_eq] at e
  obtain ⟨eH, eP⟩ := List.append_inj e (by rw [lenH _ h1 h2, lenH _ h1' h2'])
  constructor
  · apply headerCoded_inj h h1 h2 h1' h2'
    refine streamSymbols_inj g1 (kMod_ne_zero _) _ ?_ ?_ (symbolsIQ_inj (N := fftSize p.option) (by omega) f2 ?_ ?_ eH)
    · rw [headerCoded_length h h1 h2]; simp
    · rw [headerCoded_length h h1' h2']; simp
    · exact fun c hc => streamSymbols_size g1 _ _ _ hc
    · exact fun c hc => streamSymbols_size g1 _ _ _ hc
  · refine streamSymbols_inj g2 (kMod_ne_zero _) _ ?_ ?_ (symbolsIQ_inj (N := fftSize p.option) (by omega) f2 ?_ ?_ eP)
    · rw [payloadCoded_length h]; simp
    · rw [payloadCoded_length h]; simp
    · exact fun c hc => streamSymbols_size g2 _ _ _ hc
    · exact fun c hc => streamSymbols_size g2 _ _ _ hc

end SunPhy
