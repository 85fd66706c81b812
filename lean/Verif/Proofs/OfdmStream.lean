import Verif.Model.OfdmSubcarriers
import Verif.Model.Signal
import Verif.Proofs.OfdmLayout
import Verif.Props.C08
/-
`Ofdm_modulator.bitsToIQ` (model: `ofdmSubcarriers`, `ofdmBitsToIQ`) on bit streams that fill whole symbols.
-/
namespace SunPhy
open Spec

set_option linter.unusedSectionVars false
section
variable {α : Type} [Mul α] [Zero α]

/-- Mapped data values of one symbol. -/
def mapCol (nb : Numbers α) (k : ModKind) (blk : Bits) : List α :=
  (chunks k.bitsPerSymbol blk).map fun b => nb.ofGI (C08.point k b) * nb.factor

/-- Spread data values. -/
def spreadCol (nb : Numbers α) (sf : Nat) (col : List α) : List α :=
  if sf = 1 then col
  else if sf = 2 then mulPhase nb (fun k => 2 * k - 1) col ++ col
  else mulPhase nb (fun k => 2 * k - 1) col ++ mulPhase nb (fun k => 3 * k - 1) col ++ col ++ mulPhase nb (fun k => k - 1) col

theorem mulPhase_length (nb : Numbers α) (ph : Nat → Nat) (col : List α) : (mulPhase nb ph col).length = col.length := by
  simp [mulPhase]

theorem spreadCol_length (nb : Numbers α) {sf : Nat} (h : sf = 1 ∨ sf = 2 ∨ sf = 4) (col : List α) :
    (spreadCol nb sf col).length = sf * col.length := by
  unfold spreadCol
  rcases h with rfl | rfl | rfl <;> simp [mulPhase_length] <;> omega

theorem frequencySpread_ok (nb : Numbers α) {sf : Nat} (h : sf = 1 ∨ sf = 2 ∨ sf = 4) (col : List α) :
    frequencySpread nb sf col = .ok (spreadCol nb sf col) := by
  unfold frequencySpread spreadCol
  rcases h with rfl | rfl | rfl <;> rfl

theorem constellationMap_ok (nb : Numbers α) (k : ModKind) (blk : Bits) (h : blk.length % k.bitsPerSymbol = 0) :
    constellationMap nb k blk = .ok (mapCol nb k blk) := by
  unfold constellationMap mapCol
  rw [(C08.C08_levels k blk h).1]
  simp only [Except.map, List.map_map]
  rfl

theorem mapCol_length (nb : Numbers α) (k : ModKind) (blk : Bits) : (mapCol nb k blk).length = blk.length / k.bitsPerSymbol := by
  unfold mapCol
  rw [List.length_map, chunks_length]

/-- A usable modulator: good pilots, and a number of bits per symbol `L` that matches the number of data tones. -/
structure GoodMod (c : OfdmCfg α) (pl : Pilots α) (L : Nat) : Prop where
  cfg : GoodCfg c pl
  split : c.splitLength = L
  pos : 0 < L
  bps : L % c.modulation.bitsPerSymbol = 0
  sf : c.frequencySpreading = 1 ∨ c.frequencySpreading = 2 ∨ c.frequencySpreading = 4
  fits : c.frequencySpreading * (L / c.modulation.bitsPerSymbol) = c.nData

/-- The data values of one symbol. -/
def dataCol (c : OfdmCfg α) (nb : Numbers α) (blk : Bits) : List α := spreadCol nb c.frequencySpreading (mapCol nb c.modulation blk)

theorem GoodMod.dataCol_length {c : OfdmCfg α} {pl : Pilots α} {L : Nat} (h : GoodMod c pl L) (nb : Numbers α) {blk : Bits}
    (hb : blk.length = L) : (dataCol c nb blk).length = c.nData := by
  unfold dataCol
  rw [spreadCol_length nb h.sf, mapCol_length, hb, h.fits]

/-- The symbols of a stream. -/
def streamSymbols (c : OfdmCfg α) (nb : Numbers α) (pl : Pilots α) (L : Nat) (st : OfdmState) (bits : Bits) : List (List α) :=
  (chunks L bits).mapIdx fun n blk => nthSymbol c (pilotOf nb) pl st n (dataCol c nb blk)

theorem PyM.lift_ok {σ β γ} (v : β) (f : β → PyM σ γ) (s : σ) : (PyM.lift (.ok v) >>= f) s = f v s := rfl

theorem ofdmSubcarriers_ok {c : OfdmCfg α} {pl : Pilots α} {L : Nat} (h : GoodMod c pl L) (nb : Numbers α) (bits : Bits)
    (hm : bits.length % L = 0) (h1 : bits.length ≠ 1) (st : OfdmState) (hst : st.pilotsColumnIndex < pl.sets.length) (pad : Bool) :
    (ofdmSubcarriers c nb bits pad).call st = (.ok (streamSymbols c nb pl L st bits), stateAfter pl st (bits.length / L)) := by
  have hL := h.pos
  have hsplit : c.splitMessage bits pad = .ok (chunks L bits) := by
    unfold OfdmCfg.splitMessage
    simp only
    rw [h.split, if_neg (by omega)]
    simp only [Int.toNat_natCast]
    rw [if_neg (by rw [hm]; simp)]
    congr 2
    split
    · have : ceilDiv bits.length L * L - bits.length = 0 := by
        obtain ⟨k, hk⟩ := Nat.dvd_of_mod_eq_zero hm
        have : ceilDiv bits.length L = k := by
          unfold ceilDiv
          rw [hk, show L * k + L - 1 = (L - 1) + L * k by omega, Nat.add_mul_div_left _ _ hL, Nat.div_eq_of_lt (by omega), Nat.zero_add]
        rw [this, hk, Nat.mul_comm, Nat.sub_self]
      rw [this]; simp
    · rfl
  have hmap : (chunks L bits).mapM (constellationMap nb c.modulation) = .ok ((chunks L bits).map (mapCol nb c.modulation)) :=
    mapM_eq_ok _ _ _ fun b hb => constellationMap_ok nb _ b (by rw [mem_chunks_length hb, h.bps])
  have hspr : ((chunks L bits).map (mapCol nb c.modulation)).mapM (frequencySpread nb c.frequencySpreading) =
      .ok ((chunks L bits).map (dataCol c nb)) := by
    rw [mapM_eq_ok _ (spreadCol nb c.frequencySpreading) _ fun b _ => frequencySpread_ok nb h.sf b, List.map_map]
    rfl
  unfold ofdmSubcarriers PyM.call
  rw [if_neg h1, hsplit]
  show (ExceptT.run (PyM.lift (.ok (chunks L bits)) >>= _)) st = _
  show (PyM.lift (.ok (chunks L bits)) >>= _ : PyM _ _) st = _
  rw [PyM.lift_ok, hmap, PyM.lift_ok, hspr, PyM.lift_ok]
  rw [addPilotsAndPadding_ok h.cfg _ st hst]
  · rw [List.length_map, chunks_length]
    unfold streamSymbols
    congr 2
    apply List.ext_getElem
    · simp
    · intro i h1 h2; simp
  · intro col hcol
    obtain ⟨b, hb, rfl⟩ := List.mem_map.1 hcol
    exact h.dataCol_length nb (mem_chunks_length hb)

theorem streamSymbols_length (c : OfdmCfg α) (nb : Numbers α) (pl : Pilots α) (L : Nat) (st : OfdmState) (bits : Bits) :
    (streamSymbols c nb pl L st bits).length = bits.length / L := by
  unfold streamSymbols
  rw [List.length_mapIdx, chunks_length]

theorem streamSymbols_size {c : OfdmCfg α} {pl : Pilots α} {L : Nat} (h : GoodMod c pl L) (nb : Numbers α) (st : OfdmState) (bits : Bits)
    {s : List α} (hs : s ∈ streamSymbols c nb pl L st bits) : s.length = c.nFFT := by
  unfold streamSymbols at hs
  rw [List.mem_mapIdx] at hs
  obtain ⟨n, hn, rfl⟩ := hs
  exact (nthSymbol_spec h.cfg _ _ _ _ (h.dataCol_length nb (mem_chunks_length (List.getElem_mem _)))).size

theorem streamSymbols_append {c : OfdmCfg α} {pl : Pilots α} {L : Nat} (h : GoodMod c pl L) (nb : Numbers α) (st : OfdmState) (a b : Bits)
    (ha : a.length % L = 0) : streamSymbols c nb pl L st (a ++ b) =
      streamSymbols c nb pl L st a ++ streamSymbols c nb pl L (stateAfter pl st (a.length / L)) b := by
  have hL := h.pos
  have hc : chunks L (a ++ b) = chunks L a ++ chunks L b := by
    refine blockInduction (P := fun a => chunks L (a ++ b) = chunks L a ++ chunks L b) hL (by simp [chunks_nil]) ?_ a ha
    intro x l hx hl ih
    rw [List.append_assoc, chunks_append hL hx, ih, chunks_append hL hx, List.cons_append]
  unfold streamSymbols
  rw [hc, List.mapIdx_append, chunks_length]
  congr 1
  apply congrArg (fun f => List.mapIdx f (chunks L b))
  funext n blk
  rw [nthSymbol_add, Nat.add_comm]

end

section
open Complex

theorem ofdmBitsToIQ_ok {c : OfdmCfg ℂ} {pl : Pilots ℂ} {L : Nat} (h : GoodMod c pl L) (factor : ℝ) (CP : ℚ) (bits : Bits)
    (hm : bits.length % L = 0) (h1 : bits.length ≠ 1) (st : OfdmState) (hst : st.pilotsColumnIndex < pl.sets.length) (pad : Bool) :
    (ofdmBitsToIQ c factor CP bits pad).call st =
      (.ok ((streamSymbols c (complexNumbers factor) pl L st bits).flatMap fun col => cyclicPrefix CP (ofdmIfft col)),
        stateAfter pl st (bits.length / L)) := by
  have e := ofdmSubcarriers_ok h (complexNumbers factor) bits hm h1 st hst pad
  unfold ofdmBitsToIQ PyM.call
  unfold PyM.call at e
  rw [ExceptT.run_bind]
  show (StateT.bind _ _ st : _) = _
  unfold StateT.bind
  rw [e]
  rfl

end
end SunPhy
