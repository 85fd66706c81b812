import Verif.Proofs.ConsoleSame
import Verif.Spec.ConsoleLines
import Verif.Props.C96
import Verif.Props.C63
/-
The lines printed by `Mr_o_qpsk_modulator`.
-/
namespace SunPhy
open PyM Spec C63
variable {σ : Type}

/-- Half an octet left over. -/
def tpcLines (verbose : Bool) (K N : Nat) : List String :=
  (if verbose ∧ K % 8 = 4 then [s!"Padding binary message with 4 zeros ({K} -> {K + 4})"] else []) ++
  [s!"Splitting message ({9 * ((K + 4) / 8)},) -> (3, {3 * ((K + 4) / 8)})",
   s!"Applying Hadamard encoder (3, {3 * ((K + 4) / 8)}) -> (3, {(K + 4) / 8 * N})",
   s!"Applying SPC encodee (3, {(K + 4) / 8 * N}) -> (4, {(K + 4) / 8 * N})"]

theorem tpcBits_four {K : Nat} (h : K % 4 = 0) : tpcBits K = 9 * ((K + 4) / 8) := by
  unfold tpcBits
  have hq : K = 8 * (K / 8) + K % 8 := (Nat.div_add_mod K 8).symm
  have : K % 8 = 0 ∨ K % 8 = 4 := by omega
  rcases this with e | e <;> rw [e] <;> omega

theorem repr3 : Nat.repr 3 = "3" := by decide +kernel
theorem repr4 : Nat.repr 4 = "4" := by decide +kernel

theorem text_split (a b : Nat) : s!"Splitting message {shape1 a} -> {shape2 3 b}" = s!"Splitting message ({a},) -> (3, {b})" := by
  have ts : ∀ s : String, toString s = s := fun _ => rfl
  apply String.toList_inj.1
  simp [shape1, shape2, ts, repr3]
theorem text_hadamard (a b : Nat) : s!"Applying Hadamard encoder {shape2 3 a} -> {shape2 3 b}" = s!"Applying Hadamard encoder (3, {a}) -> (3, {b})" := by
  have ts : ∀ s : String, toString s = s := fun _ => rfl
  apply String.toList_inj.1
  simp [shape2, ts, repr3]
theorem text_spc (a b : Nat) : s!"Applying SPC encodee {shape2 3 a} -> {shape2 4 b}" = s!"Applying SPC encodee (3, {a}) -> (4, {b})" := by
  have ts : ∀ s : String, toString s = s := fun _ => rfl
  apply String.toList_inj.1
  simp [shape2, ts, repr3, repr4]
theorem text_tpc (a b : Nat) : s!"TPC Encoding {shape1 a} -> {shape2 4 b}" = s!"TPC Encoding ({a},) -> (4, {b})" := by
  have ts : ∀ s : String, toString s = s := fun _ => rfl
  apply String.toList_inj.1
  simp [shape1, shape2, ts, repr4]

theorem text_pad (a b : Nat) : s!"Padding binary message with {4} zeros ({a} -> {b})" = s!"Padding binary message with 4 zeros ({a} -> {b})" := by
  have ts : ∀ s : String, toString s = s := fun _ => rfl
  apply String.toList_inj.1
  simp [ts, repr4]

theorem tpcP_out (v : Bool) (t : Bits) {N : Nat} (hN : N ∈ [4, 8, 16, 32]) (h4 : t.length % 4 = 0) (h0 : 0 < t.length) (c : Console σ) :
    ∃ rows, tpc t N = .ok rows ∧ rows.length = 4 ∧ (rows.headD []).length = (t.length + 4) / 8 * N ∧
      (tpcP v t N).call c = (.ok rows, ⟨c.obj, c.out ++ tpcLines v t.length N⟩) := by
  have hb := tpcBits_four h4
  have hq : 0 < (t.length + 4) / 8 := by omega
  have hm : (insertP (t ++ List.replicate (t.length % 8) false)).length % 3 = 0 := by rw [tpc_bits]; omega
  have len : ∀ off < 3, (everyNth 3 off (insertP (t ++ List.replicate (t.length % 8) false))).length = tpcBits t.length / 3 := by
    intro off ho
    rw [everyNth_length ho _ hm, tpc_bits]
  have row : ∀ off < 3, ∃ r, hadamardEncodeRow N (everyNth 3 off (insertP (t ++ List.replicate (t.length % 8) false))) = .ok r ∧
      r.length = tpcBits t.length / 3 / 3 * N := by
    intro off ho
    have := len off ho
    obtain ⟨r, e, hr⟩ := hadamardRow_ok (N := N) hN (bs := everyNth 3 off (insertP (t ++ List.replicate (t.length % 8) false))) (by omega) (by omega)
    exact ⟨r, e, by rw [hr, this]⟩
  obtain ⟨r0, e0, l0⟩ := row 0 (by decide)
  obtain ⟨r1, e1, l1⟩ := row 1 (by decide)
  obtain ⟨r2, e2, l2⟩ := row 2 (by decide)
  have hx : tpcBits t.length / 3 / 3 = (t.length + 4) / 8 := by omega
  rw [hx] at l0 l1 l2
  have hh : hadamardEncoder N [everyNth 3 0 (insertP (t ++ List.replicate (t.length % 8) false)), everyNth 3 1 (insertP (t ++ List.replicate (t.length % 8) false)),
      everyNth 3 2 (insertP (t ++ List.replicate (t.length % 8) false))] = .ok [r0, r1, r2] := by
    unfold hadamardEncoder
    rw [mapM_ok_cons, e0, mapM_ok_cons, e1, mapM_ok_cons, e2, mapM_ok_nil]
    rfl
  have hs : ((spcEncoder r0 r1 r2).headD []).length = (t.length + 4) / 8 * N := by
    unfold spcEncoder
    simp only [List.headD_cons, List.length_append, List.length_map, List.length_take, List.length_replicate]
    rw [← l0]; omega
  have hs4 : (spcEncoder r0 r1 r2).length = 4 := rfl
  refine ⟨spcEncoder r0 r1 r2, ?_, hs4, hs, ?_⟩
  · unfold tpc
    simp only
    rw [if_neg (by omega), hh]
    rfl
  · have h3 : 9 * ((t.length + 4) / 8) / 3 = 3 * ((t.length + 4) / 8) := by omega
    have h9 : 9 * ((t.length + 4) / 8) % 3 = 0 := by omega
    unfold tpcP tpcLines
    simp only
    rw [hh, tpc_bits, hb]
    simp only [h3, h9, ne_eq, not_true_eq_false, if_false, text_split]
    have : t.length % 8 = 0 ∨ t.length % 8 = 4 := by omega
    rcases this with e | e
    · simp only [e, call_bind, call_printLine, call_lift, seqR_ok, call_pure, hs, hs4, l0, text_hadamard, text_spc, Nat.lt_irrefl, gt_iff_lt, if_false]
      simp
    · have h40 : (4 > 0) = True := by simp
      have hl : (t ++ List.replicate 4 false).length = t.length + 4 := by simp
      cases v
      · simp only [e, h40, if_true, call_bind, call_printLine, call_lift, seqR_ok, call_pure, hs, hs4, l0, text_hadamard, text_spc, say_false]
        simp
      · simp only [e, h40, if_true, call_bind, call_printLine, call_lift, seqR_ok, call_pure, hs, hs4, l0, text_hadamard, text_spc, say_true, hl, Nat.add_sub_cancel, text_pad]
        simp

/-- The lines of `_MDSSS`. -/
def mdsssLines (verbose : Bool) (K N : Nat) : List String :=
  (if verbose then [s!"TPC N = {N}"] else []) ++ tpcLines verbose K N ++
  (if verbose then [s!"TPC Encoding ({K},) -> (4, {(K + 4) / 8 * N})"] else [])

theorem mdsssP_out (v : Bool) (t : Bits) {f : Nat} (hN : f / 4 ∈ [4, 8, 16, 32]) (h4 : t.length % 4 = 0) (h0 : 0 < t.length) (c : Console σ) :
    (mdsssP v t f).call c = (mdsss t f, ⟨c.obj, c.out ++ mdsssLines v t.length (f / 4)⟩) := by
  unfold mdsssP mdsss mdsssLines
  simp only
  cases v
  · obtain ⟨rows, e, e4, el, hc⟩ := tpcP_out false t hN h4 h0 c
    simp only [say_false, call_bind, call_pure, seqR_ok, hc, e, call_lift]
    simp
    rfl
  · obtain ⟨rows, e, e4, el, hc⟩ := tpcP_out true t hN h4 h0 ⟨c.obj, c.out ++ [s!"TPC N = {f / 4}"]⟩
    simp only [say_true, call_bind, call_printLine, call_pure, seqR_ok, hc, e, e4, el, call_lift, text_tpc]
    simp
    rfl


theorem quietly_ok {σ α : Type} {m : PyM σ α} {c c' : Console σ} {a : α} (h : (quietly m).call c = (.ok a, c')) : m.call c.obj = (.ok a, c'.obj) ∧ c'.out = c.out := by
  rw [call_quietly] at h
  have h1 := congrArg Prod.fst h
  have h2 := congrArg Prod.snd h
  simp only at h1 h2
  subst h2
  exact ⟨Prod.ext h1 rfl, rfl⟩

/-- Length of the bits entering the PSDU spreader. -/
theorem psdu_length {p : OqpskParams} (h : Standard p) {m t : Bits} (e : oqpskPsduBits p m = .ok t) :
    t.length = Out.streamBits (decide (p.sm = 1)) p.rm.toNat m.length := by
  obtain ⟨⟨h0, h3⟩, hmode, -⟩ := h
  obtain ⟨t', ht, htl⟩ := C96.interleaver_total (oqpskFec m true) (blocks63 (m.length / 8)) (2 * (m.length % 8)) (C96.blocks_pos _) (C96.fec_length m)
  rw [C96.fec_length] at htl
  unfold oqpskPsduBits at e
  unfold Out.streamBits
  split at e
  · rename_i hc
    rw [ht] at e
    rw [← Except.ok.inj e, htl, if_neg]
    · rfl
    · simp only [decide_eq_true_eq]; omega
  · rename_i hc
    rw [← Except.ok.inj e, if_pos]
    simp only [decide_eq_true_eq]; omega


theorem rate_text {p : OqpskParams} (h : Standard p) {r : Nat} (e : dataRate p.sm p.band p.rm = .ok r) :
    kchip r = Out.rateText p.band (decide (p.sm = 1)) p.rm.toNat := by
  obtain ⟨⟨h0, h3⟩, hm, -⟩ := h
  have : p.rm = 0 ∨ p.rm = 1 ∨ p.rm = 2 ∨ p.rm = 3 := by omega
  generalize p.rm = rm at *
  generalize p.band = b at *
  generalize p.sm = sm at *
  rcases hm with rfl | ⟨rfl, hb⟩
  · rcases this with rfl | rfl | rfl | rfl <;> cases b <;> (rw [← Except.ok.inj e]; decide +kernel)
  · rcases this with rfl | rfl | rfl | rfl <;> cases b <;>
      first
      | (exfalso; revert hb; decide)
      | (rw [← Except.ok.inj e]; decide +kernel)

/-- The chips: the lines of the spreader. -/
theorem chipsP_out (v : Bool) (a : Arg) (m : Bits) (ha : checkBinaryArray a = .ok m) (c c' : Console OqpskObj) (h : Standard c.obj.params) (ch : Bits)
    (hr : (oqpskChipsP v a).call c = (.ok ch, c')) :
    c'.obj.params = c.obj.params ∧
    c'.out = c.out ++ (if c.obj.params.sm = 1 then
      mdsssLines v (Out.streamBits (decide (c.obj.params.sm = 1)) c.obj.params.rm.toNat m.length) (mdsssF c.obj.params.band c.obj.params.rm.toNat / 4) else []) := by
  have hne : m ≠ [] := by
    have hacc := (C03.C03_accepts_iff a).1 ⟨m, ha⟩
    have := (C03.C03_validation a).1 hacc
    rw [ha] at this
    rw [Except.ok.inj this]
    cases a <;> simp_all [C03.Acceptable, C03.entries]
  have hpar : c'.obj.params = c.obj.params := by
    obtain ⟨l, hl⟩ := oqpskChipsP_shadows v a
    have := hl c
    rw [hr] at this
    have := congrArg Prod.snd this
    simp only at this
    rw [this]
    exact (oqpskChips_result a c.obj).2
  refine ⟨hpar, ?_⟩
  unfold oqpskChipsP at hr
  obtain ⟨m', c1, h1, hr⟩ := call_bind_ok hr
  obtain ⟨h1, o1⟩ := quietly_ok h1
  rw [ha, call_lift] at h1
  have em : m = m' := Except.ok.inj (congrArg Prod.fst h1)
  have ec : c.obj = c1.obj := congrArg Prod.snd h1
  subst em
  clear h1
  obtain ⟨o, c2, h2, hr⟩ := call_bind_ok hr
  obtain ⟨h2, o2⟩ := quietly_ok h2
  rw [call_get] at h2
  have eo : c1.obj = o := Except.ok.inj (congrArg Prod.fst h2)
  have ec2 : c1.obj = c2.obj := congrArg Prod.snd h2
  subst eo
  clear h2
  obtain ⟨_, c3, h3, hr⟩ := call_bind_ok hr
  obtain ⟨-, o3⟩ := quietly_ok h3
  clear h3
  dsimp only at hr
  have out3 : c3.out = c.out := by rw [o3, o2, o1]
  rw [← ec] at hr
  obtain ⟨⟨r0, r3⟩, hmode, -⟩ := id h
  have fin : ∀ {α : Type} (t : Bits) (c4 : Console OqpskObj) (k : Bits → PyM OqpskObj α) (b : α), c.obj.params.sm ≠ 0 → c4.out = c.out → c4.obj.PSDU_temp = some t →
      oqpskPsduBits c.obj.params m = .ok t →
      (quietly (attr fun x : OqpskObj => x.PSDU_temp) >>= fun t => quietly (lift (mdsssFactor c.obj.params.band c.obj.params.rm)) >>= fun f => mdsssP v t f >>= fun s => quietly (k s)).call c4 =
        (.ok b, c') →
      c'.out = c.out ++ mdsssLines v (Out.streamBits (decide (c.obj.params.sm = 1)) c.obj.params.rm.toNat m.length) (mdsssF c.obj.params.band c.obj.params.rm.toNat / 4) := by
    intro α t c4 k b hs ho hpt ht hr
    obtain ⟨t', c5, h5, hr⟩ := call_bind_ok hr
    obtain ⟨h5, o5⟩ := quietly_ok h5
    rw [call_attr, hpt] at h5
    have et : t = t' := Except.ok.inj (congrArg Prod.fst h5)
    subst et
    obtain ⟨f, c6, h6, hr⟩ := call_bind_ok hr
    obtain ⟨h6, o6⟩ := quietly_ok h6
    have hs1 : c.obj.params.sm = 1 ∧ mdsssSupported c.obj.params.band = true := hmode.resolve_left hs
    obtain ⟨e1, e2, -⟩ := mdsss_factor c.obj.params.band c.obj.params.rm r0 r3 hs1.2
    rw [call_lift, e1] at h6
    have ef : mdsssF c.obj.params.band c.obj.params.rm.toNat = f := Except.ok.inj (congrArg Prod.fst h6)
    subst ef
    obtain ⟨sp, c7, h7, hr⟩ := call_bind_ok hr
    obtain ⟨-, o8⟩ := quietly_ok hr
    have hl := psdu_length h ht
    have hpos : 0 < t.length := by
      have hm : 0 < m.length := List.length_pos_iff.2 hne
      rw [hl]
      unfold Out.streamBits
      have := C96.blocks_pos (m.length / 8)
      split <;> omega
    have h4 : t.length % 4 = 0 := by
      by_contra hn
      obtain ⟨l, hsh⟩ := mdsssP_shadows (σ := OqpskObj) v t (mdsssF c.obj.params.band c.obj.params.rm.toNat)
      have := hsh c6
      rw [h7, call_lift, C96.mdsss_error_nine t _ (fun hc => hn ((C96.tpcBits_nine _).1 hc))] at this
      cases congrArg Prod.fst this
    have := mdsssP_out v t e2 h4 hpos c6
    rw [h7] at this
    have := congrArg Prod.snd this
    simp only at this
    rw [o8, this]
    simp only
    rw [o6, o5, ho, hl]
  split at hr
  · rename_i hc
    obtain ⟨_, c4, h4, hr⟩ := call_bind_ok hr
    obtain ⟨h4, o4⟩ := quietly_ok h4
    obtain ⟨t, ht⟩ : ∃ t, oqpskInterleaver (oqpskFec m true) true = .ok t ∧ c4.obj.PSDU_temp = some t := by
      simp only [call_bind, call_modify, seqR_ok, call_attr, call_lift] at h4
      cases e : oqpskInterleaver (oqpskFec m true) true with
      | error e' => rw [e] at h4; cases congrArg Prod.fst h4
      | ok t =>
        rw [e] at h4
        exact ⟨t, rfl, (congrArg (fun x => x.2.PSDU_temp) h4).symm⟩
    split at hr
    · rename_i hs
      obtain ⟨_, c5, h5, hr⟩ := call_bind_ok hr
      obtain ⟨-, o5⟩ := quietly_ok h5
      obtain ⟨-, o6⟩ := quietly_ok hr
      rw [if_neg (by omega), List.append_nil, o6, o5, o4, out3]
    · rename_i hs
      rw [if_pos (by omega)]
      exact fin t c4 _ ch hs (by rw [o4, out3]) ht.2 (by unfold oqpskPsduBits; rw [if_pos hc]; exact ht.1) hr
  · rename_i hc
    obtain ⟨_, c4, h4, hr⟩ := call_bind_ok hr
    obtain ⟨h4, o4⟩ := quietly_ok h4
    have ht : c4.obj.PSDU_temp = some m := by
      rw [call_modify] at h4
      have := congrArg Prod.snd h4
      simp only at this
      rw [← this]
    have hs : c.obj.params.sm ≠ 0 := by omega
    rw [if_neg hs] at hr
    rw [if_pos (by omega)]
    exact fin m c4 _ ch hs (by rw [o4, out3]) ht (by unfold oqpskPsduBits; rw [if_neg hc]) hr


/-- The lines of a successful call. -/
theorem bitsP_oqpsk_out (v : Bool) (a : Arg) (m : Bits) (ha : checkBinaryArray a = .ok m) (c c' : Console OqpskObj) (h : Standard c.obj.params) (r : List ℂ × ℚ)
    (hr : (oqpskBitsToIQP v a).call c = (.ok r, c')) :
    c'.out = c.out ++ Out.oqpskLines v c.obj.params.band (decide (c.obj.params.sm = 1)) c.obj.params.rm.toNat m.length := by
  unfold oqpskBitsToIQP at hr
  obtain ⟨ch, c1, h1, hr⟩ := call_bind_ok hr
  obtain ⟨e1, o1⟩ := chipsP_out v a m ha c c1 h ch h1
  obtain ⟨o, c2, h2, hr⟩ := call_bind_ok hr
  obtain ⟨h2, o2⟩ := quietly_ok h2
  rw [call_get] at h2
  have eo : c1.obj = o := Except.ok.inj (congrArg Prod.fst h2)
  subst eo
  dsimp only at hr
  rw [e1] at hr
  obtain ⟨rate, er⟩ := rate_ok h
  have key : c'.out = c2.out ++ (if v then [s!"Chip rate : {Out.rateText c.obj.params.band (decide (c.obj.params.sm = 1)) c.obj.params.rm.toNat} kchip/s"] else []) := by
    unfold oqpskModulatorP at hr
    obtain ⟨x, c3, h3, hr⟩ := call_bind_ok hr
    rw [er, call_lift] at h3
    have ex : rate = x := Except.ok.inj (congrArg Prod.fst h3)
    have ec : c2 = c3 := congrArg Prod.snd h3
    subst ex ec
    dsimp only at hr
    obtain ⟨_, c4, h4, hr⟩ := call_bind_ok hr
    rw [rate_text h er] at h4
    obtain ⟨_, c5, h5, hr⟩ := call_bind_ok hr
    obtain ⟨_, c6, h6, hr⟩ := call_bind_ok hr
    rw [call_lift] at h5 h6
    rw [call_pure] at hr
    have x1 : c6 = c' := congrArg Prod.snd hr
    have x2 : c5 = c6 := congrArg Prod.snd h6
    have x3 : c4 = c5 := congrArg Prod.snd h5
    rw [← x1, ← x2, ← x3]
    cases v
    · rw [say_false, call_pure] at h4
      have x4 := congrArg Prod.snd h4
      simp only at x4
      rw [← x4]
      simp
    · rw [say_true, call_printLine] at h4
      have x4 := congrArg Prod.snd h4
      simp only at x4
      rw [← x4]
      simp
  rw [key, o2, o1, List.append_assoc]
  congr 1
  unfold Out.oqpskLines mdsssLines tpcLines
  by_cases hs : c.obj.params.sm = 1
  · simp only [hs, if_true, decide_true, List.append_assoc]
  · simp only [hs, if_false, decide_false]
    rfl

end SunPhy
