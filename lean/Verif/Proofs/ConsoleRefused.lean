import Verif.Proofs.ConsoleOqpsk
import Verif.Proofs.ConsoleQuiet
/-
The lines printed by `Mr_o_qpsk_modulator` before a message is refused.
-/
namespace SunPhy
open PyM Spec C63
variable {σ : Type}

theorem tpcBits_refused {K : Nat} (h : K % 4 ≠ 0) : (tpcBits K % 3 = 0 ↔ K % 8 = 3 ∨ K % 8 = 7) ∧ (K % 8 = 3 ∨ K % 8 = 7 → tpcBits K = 9 * ((K + K % 8) / 8) + 6) := by
  unfold tpcBits
  have hq : K = 8 * (K / 8) + K % 8 := (Nat.div_add_mod K 8).symm
  have hr : K % 8 < 8 := Nat.mod_lt _ (by decide)
  have h4 : K % 8 % 4 ≠ 0 := by omega
  clear h
  generalize K / 8 = q at *
  generalize K % 8 = r at *
  subst hq
  have : r = 1 ∨ r = 2 ∨ r = 3 ∨ r = 5 ∨ r = 6 ∨ r = 7 := by omega
  rcases this with rfl | rfl | rfl | rfl | rfl | rfl <;> omega

/-- The lines of `_TPC` when the message is refused. -/
def tpcRefusedLines (verbose : Bool) (K : Nat) : List String :=
  (if verbose then [s!"Padding binary message with {K % 8} zeros ({K} -> {K + K % 8})"] else []) ++
  (if K % 8 = 3 ∨ K % 8 = 7 then [s!"Splitting message ({9 * ((K + K % 8) / 8) + 6},) -> (3, {3 * ((K + K % 8) / 8) + 2})"] else [])

theorem tpcP_refused (v : Bool) (t : Bits) (N : Nat) (h4 : t.length % 4 ≠ 0) (c : Console σ) :
    (tpcP v t N).call c = (.error .ValueError, ⟨c.obj, c.out ++ tpcRefusedLines v t.length⟩) := by
  obtain ⟨hb, hb2⟩ := tpcBits_refused h4
  have hpos : (t.length % 8 > 0) = True := eq_true (by omega)
  have hl : (t ++ List.replicate (t.length % 8) false).length = t.length + t.length % 8 := by simp
  unfold tpcP tpcRefusedLines
  simp only [hpos, if_true]
  rw [tpc_bits]
  by_cases hx : t.length % 8 = 3 ∨ t.length % 8 = 7
  · have h3 := hb.2 hx
    have e9 := hb2 hx
    have hh : hadamardEncoder N [everyNth 3 0 (insertP (t ++ List.replicate (t.length % 8) false)), everyNth 3 1 (insertP (t ++ List.replicate (t.length % 8) false)),
        everyNth 3 2 (insertP (t ++ List.replicate (t.length % 8) false))] = .error .ValueError := by
      refine C96.hadamard_error _ (by simp) fun r hr => ?_
      have len : ∀ off < 3, (everyNth 3 off (insertP (t ++ List.replicate (t.length % 8) false))).length = tpcBits t.length / 3 := by
        intro off ho
        rw [everyNth_length ho _ (by rw [tpc_bits]; exact h3), tpc_bits]
      simp only [List.mem_cons, List.not_mem_nil, or_false] at hr
      rcases hr with rfl | rfl | rfl
      · rw [len 0 (by decide)]; omega
      · rw [len 1 (by decide)]; omega
      · rw [len 2 (by decide)]; omega
    have e3 : (9 * ((t.length + t.length % 8) / 8) + 6) / 3 = 3 * ((t.length + t.length % 8) / 8) + 2 := by omega
    have e0 : (9 * ((t.length + t.length % 8) / 8) + 6) % 3 = 0 := by omega
    rw [hh, e9, if_pos hx]
    simp only [e3, e0, ne_eq, not_true_eq_false, if_false, text_split, hl, Nat.add_sub_cancel]
    cases v
    · simp only [say_false, call_bind, call_pure, seqR_ok, call_printLine, call_lift, seqR_error]
      simp
    · simp only [say_true, call_bind, call_pure, seqR_ok, call_printLine, call_lift, seqR_error]
      simp
  · have h3 : ¬ tpcBits t.length % 3 = 0 := fun hc => hx (hb.1 hc)
    rw [if_neg hx]
    simp only [h3, ne_eq, not_false_eq_true, if_true, hl, Nat.add_sub_cancel]
    cases v
    · simp only [say_false, call_bind, call_pure, seqR_ok, call_throw, seqR_error]
      simp
    · simp only [say_true, call_bind, call_pure, seqR_ok, call_printLine, call_throw, seqR_error]
      simp

theorem mdsssP_refused (v : Bool) (t : Bits) (f : Nat) (h4 : t.length % 4 ≠ 0) (c : Console σ) :
    (mdsssP v t f).call c = (.error .ValueError, ⟨c.obj, c.out ++ ((if v then [s!"TPC N = {f / 4}"] else []) ++ tpcRefusedLines v t.length)⟩) := by
  unfold mdsssP
  simp only
  cases v
  · simp only [say_false, call_bind, call_pure, seqR_ok, tpcP_refused false t _ h4, seqR_error]
    simp
  · simp only [say_true, call_bind, call_printLine, seqR_ok, tpcP_refused true t _ h4, seqR_error]
    simp

theorem quietly_error {σ α : Type} {m : PyM σ α} {c : Console σ} {e : PyErr} (h : (m.call c.obj).1 = .error e) : (quietly m).call c = (.error e, ⟨(m.call c.obj).2, c.out⟩) := by
  rw [call_quietly, h]

/-- The spread message of a refused call does not fill half octets. -/
theorem stream_refused {p : OqpskParams} (h : Standard p) (hs : p.sm = 1) (n : Nat) (hn : ¬ C96.Spreadable p n) : Out.streamBits (decide (p.sm = 1)) p.rm.toNat n % 4 ≠ 0 := by
  obtain ⟨⟨h0, h3⟩, -, -⟩ := h
  unfold C96.Spreadable at hn
  rw [if_neg (by omega)] at hn
  unfold Out.streamBits
  simp only [hs, decide_true, true_and]
  split at hn
  · rw [if_neg (by omega)]
    generalize blocks63 (n / 8) = B at *
    omega
  · rw [if_pos (by omega)]
    exact hn

/-- The lines of a refused call. -/
theorem chipsP_refused (v : Bool) (a : Arg) (m : Bits) (ha : checkBinaryArray a = .ok m) (c : Console OqpskObj) (h : Standard c.obj.params)
    (hr : ¬ (m.length / 8 ≤ 2047 ∧ C96.Spreadable c.obj.params m.length)) :
    ∃ c' e, (oqpskChipsP v a).call c = (.error e, c') ∧ c'.out = c.out ++ (if c.obj.params.sm = 1 ∧ m.length / 8 ≤ 2047 then
      Out.oqpskRefusedLines v c.obj.params.band c.obj.params.rm.toNat m.length else []) := by
  have hres : ∃ e c', (oqpskChipsP v a).call c = (.error e, c') := by
    obtain ⟨l, hl⟩ := oqpskChipsP_shadows v a
    have e1 := hl c
    have e2 := (oqpskChips_result a c.obj).1
    rw [ha] at e2
    have hne : m ≠ [] := by
      have hacc := (C03.C03_accepts_iff a).1 ⟨m, ha⟩
      have := (C03.C03_validation a).1 hacc
      rw [ha] at this
      rw [Except.ok.inj this]
      cases a <;> simp_all [C03.Acceptable, C03.entries]
    have e3 : oqpskFrame c.obj.params m = .error .ValueError := by
      obtain ⟨t, ht, k1, -⟩ := C96.spread_bits h m hne
      by_cases h2 : m.length / 8 ≤ 2047
      · obtain ⟨cc, hc, -⟩ := phr_ok_iff c.obj.params h.rate.1 h.rate.2 (m.length / 8) (by omega)
        rw [frame_eq c.obj.params m cc hc t ht, k1 (fun hS => hr ⟨h2, hS⟩)]; rfl
      · unfold oqpskFrame
        rw [(shr_ok _).1, phr_too_long _ _ (by omega)]
    simp only [e3] at e2
    rw [e2] at e1
    exact ⟨_, _, e1⟩
  obtain ⟨e, c', hc'⟩ := hres
  refine ⟨c', e, hc', ?_⟩
  by_cases hs0 : c.obj.params.sm = 0
  · rw [if_neg (by omega), List.append_nil]
    have := oqpskChipsP_quiet v a c hs0
    rw [hc'] at this
    exact this
  have hs1 : c.obj.params.sm = 1 := by
    obtain ⟨-, hm, -⟩ := id h
    exact (hm.resolve_left hs0).1
  have hlen : ∀ t, oqpskPsduBits c.obj.params m = .ok t → t.length = _ := fun t ht => psdu_length h ht
  unfold oqpskChipsP at hc'
  rw [ha] at hc'
  simp only [call_bind, call_quietly, call_lift, call_get, seqR_ok, call_modify, call_attr, (shr_ok c.obj.params).1] at hc'
  by_cases h2 : m.length / 8 ≤ 2047
  · obtain ⟨cc, hc, -⟩ := phr_ok_iff c.obj.params h.rate.1 h.rate.2 (m.length / 8) (by omega)
    unfold oqpskPhrChips at hc
    cases e1 : c.obj.params.phr (m.length / 8) with
    | error x => simp only [e1, reduceCtorEq] at hc
    | ok phr =>
    cases e2 : oqpskInterleaver (oqpskFec phr false) false with
    | error x => simp only [e1, e2, reduceCtorEq] at hc
    | ok il =>
    simp only [e1, e2] at hc
    simp only [e1, e2, hc, call_bind, call_quietly, call_lift, call_get, seqR_ok, seqR_error, call_modify, call_attr, call_pure] at hc'
    obtain ⟨⟨r0, r3⟩, hmode, -⟩ := id h
    have fin : ∀ (hs : c.obj.params.sm = 1) (t : Bits), oqpskPsduBits c.obj.params m = .ok t → ∀ o : OqpskObj,
        (mdsssP v t (mdsssF c.obj.params.band c.obj.params.rm.toNat)).call ⟨o, c.out⟩ = (.error .ValueError, ⟨o, c.out ++ Out.oqpskRefusedLines v c.obj.params.band c.obj.params.rm.toNat m.length⟩) := by
      intro hs t ht o
      have hl := hlen t ht
      have h4 : t.length % 4 ≠ 0 := by rw [hl]; exact stream_refused h hs _ (fun hS => hr ⟨h2, hS⟩)
      rw [mdsssP_refused v t _ h4, hl]
      simp only [hs, decide_true]
      unfold Out.oqpskRefusedLines tpcRefusedLines
      cases v <;> simp
    have fac : c.obj.params.sm = 1 → mdsssFactor c.obj.params.band c.obj.params.rm = .ok (mdsssF c.obj.params.band c.obj.params.rm.toNat) := by
      intro hs
      have hs1 : c.obj.params.sm = 1 ∧ mdsssSupported c.obj.params.band = true := hmode.resolve_left (by omega)
      exact (mdsss_factor c.obj.params.band c.obj.params.rm r0 r3 hs1.2).1
    by_cases hcod : (0 ≤ c.obj.params.rm ∧ c.obj.params.rm ≤ 1) ∨ c.obj.params.sm = 0
    · rw [if_pos hcod] at hc'
      cases e3 : oqpskInterleaver (oqpskFec m true) true with
      | error x =>
        have := (C96.interleaver_total (oqpskFec m true) (blocks63 (m.length / 8)) (2 * (m.length % 8)) (C96.blocks_pos _) (C96.fec_length m))
        rw [e3] at this
        obtain ⟨_, hx, -⟩ := this
        cases hx
      | ok t =>
      have ht : oqpskPsduBits c.obj.params m = .ok t := by unfold oqpskPsduBits; rw [if_pos hcod]; exact e3
      simp only [e3, call_bind, call_quietly, call_lift, call_get, seqR_ok, seqR_error, call_modify, call_attr, call_pure] at hc'
      rw [if_pos ⟨hs1, h2⟩]
      simp only [if_neg hs0, fac hs1, fin hs1 t ht, call_bind, call_quietly, call_lift, call_get, seqR_ok, seqR_error, call_modify, call_attr, call_pure] at hc'
      exact (congrArg (fun x => x.2.out) hc').symm
    · rw [if_neg hcod] at hc'
      have ht : oqpskPsduBits c.obj.params m = .ok m := by unfold oqpskPsduBits; rw [if_neg hcod]
      rw [if_pos ⟨hs1, h2⟩]
      simp only [if_neg hs0, fac hs1, fin hs1 m ht, call_bind, call_quietly, call_lift, call_get, seqR_ok, seqR_error, call_modify, call_attr, call_pure] at hc'
      exact (congrArg (fun x => x.2.out) hc').symm
  · have hp := phr_too_long c.obj.params (m.length / 8) (by omega)
    rw [if_neg (by omega), List.append_nil]
    rw [oqpsk_phr_error c.obj.params (by omega : 2048 ≤ m.length / 8)] at hc'
    simp only [call_bind, call_quietly, call_lift, call_get, seqR_ok, seqR_error, call_modify, call_attr, call_pure] at hc'
    exact (congrArg (fun x => x.2.out) hc').symm

end SunPhy
