import Verif.Model.OfdmMod
import Verif.Spec.OfdmLayout
import Verif.Proofs.Interleave
import Verif.Proofs.Pn9Lemmas
import Mathlib.Data.List.Nodup
/-
The pilot / data / guard placement of `Model/OfdmMod.lean` meets the layout specification.
-/
namespace SunPhy
open Spec

set_option linter.unusedSectionVars false
section
variable {α : Type} [Zero α]

/-- Row of a tone. -/
def row (N : Nat) (t : Int) : Nat := (t + ((N / 2 : Nat) : Int)).toNat

/-- Writing `vals` on `tones`. -/
def put (N : Nat) (ch : List α) (tones : List Int) (vals : List α) : List α :=
  (tones.zip vals).foldl (fun ch p => ch.set (row N p.1) p.2) ch

theorem put_length (N : Nat) (tones : List Int) (vals : List α) (ch : List α) : (put N ch tones vals).length = ch.length := by
  unfold put
  generalize tones.zip vals = ps
  induction ps generalizing ch with
  | nil => rfl
  | cons p ps ih => rw [List.foldl_cons, ih, List.length_set]

/-- Tones of an even FFT. -/
def inBand (N : Nat) (t : Int) : Prop := -((N / 2 : Nat) : Int) ≤ t ∧ t < ((N / 2 : Nat) : Int)

theorem row_inj {N : Nat} {s t : Int} (hs : inBand N s) (ht : inBand N t) (h : row N s = row N t) : s = t := by
  unfold row at h; unfold inBand at *; omega

theorem row_lt {N : Nat} {t : Int} (h : inBand N t) : row N t < N := by
  unfold row; unfold inBand at h; omega

theorem put_other (N : Nat) (t : Int) (ht : inBand N t) (tones : List Int) : ∀ (vals : List α) (ch : List α),
    (∀ s ∈ tones, inBand N s) → t ∉ tones → (put N ch tones vals)[row N t]? = ch[row N t]? := by
  induction tones with
  | nil => intros; rfl
  | cons s tones ih =>
    intro vals ch hb hn
    cases vals with
    | nil => rfl
    | cons v vals =>
      simp only [List.mem_cons, not_or] at hn
      show (put N (ch.set (row N s) v) tones vals)[row N t]? = _
      rw [ih _ _ (fun x hx => hb x (by simp [hx])) hn.2, List.getElem?_set_ne]
      exact fun e => hn.1 (row_inj ht (hb s (by simp)) e.symm)

theorem put_map (N : Nat) (tones : List Int) : ∀ (vals : List α) (ch : List α), ch.length = N → tones.Nodup →
    (∀ s ∈ tones, inBand N s) → tones.length = vals.length →
    tones.map (fun t => (put N ch tones vals)[row N t]?) = vals.map some := by
  induction tones with
  | nil => intro vals ch _ _ _ hl; cases vals with | nil => rfl | cons => simp at hl
  | cons s tones ih =>
    intro vals ch hc hnd hb hl
    cases vals with
    | nil => simp at hl
    | cons v vals =>
      rw [List.nodup_cons] at hnd
      have e : put N ch (s :: tones) (v :: vals) = put N (ch.set (row N s) v) tones vals := rfl
      rw [e, List.map_cons, List.map_cons]
      congr 1
      · rw [put_other N s (hb s (by simp)) _ _ _ (fun x hx => hb x (by simp [hx])) hnd.1, List.getElem?_set_self]
        rw [hc]; exact row_lt (hb s (by simp))
      · exact ih _ _ (by simp [hc]) hnd.2 (fun x hx => hb x (by simp [hx])) (by simpa using hl)

/-- The available tones, after guard and DC removal. -/
def availTones (N padL padR : Nat) : List Int := dataToneList N padL padR []

theorem allTones_nodup (N : Nat) : (allTones N).Nodup := by
  unfold allTones
  apply List.Nodup.map _ List.nodup_range
  intro a b h
  simp only at h
  omega

theorem mem_allTones {N : Nat} (he : N % 2 = 0) (t : Int) : t ∈ allTones N ↔ inBand N t := by
  unfold allTones inBand
  rw [List.mem_map]
  constructor
  · rintro ⟨i, hi, rfl⟩
    rw [List.mem_range] at hi
    omega
  · intro h
    exact ⟨(t + ((N / 2 : Nat) : Int)).toNat, by rw [List.mem_range]; omega, by omega⟩

theorem dataTones_nodup (N padL padR : Nat) (ps : List Int) : (dataToneList N padL padR ps).Nodup :=
  (allTones_nodup N).filter _

theorem mem_dataTones {N : Nat} (he : N % 2 = 0) {padL padR : Nat} {ps : List Int} {t : Int} :
    t ∈ dataToneList N padL padR ps ↔ inBand N t ∧ ¬ isGuard N padL padR t ∧ t ≠ 0 ∧ t ∉ ps := by
  unfold dataToneList
  rw [List.mem_filter, mem_allTones he]
  simp

/-- Guard removal by slicing equals filtering. -/
theorem range_slice (N a b : Nat) (h : a + b ≤ N) :
    ((List.range N).drop a).take (N - a - b) = (List.range N).filter fun i => decide (a ≤ i ∧ i < N - b) := by
  have e : List.range N = List.range' 0 a ++ (List.range' a (N - a - b) ++ List.range' (N - b) b) := by
    rw [List.range_eq_range']
    have h1 := List.range'_append (s := a) (m := N - a - b) (n := b) (step := 1)
    have h2 := List.range'_append (s := 0) (m := a) (n := N - a) (step := 1)
    rw [show a + 1 * (N - a - b) = N - b by omega, show N - a - b + b = N - a by omega] at h1
    rw [show 0 + 1 * a = a by omega, show a + (N - a) = N by omega] at h2
    rw [h1, h2]
  rw [e, List.drop_left' (by simp), List.take_left' (by simp)]
  simp only [List.filter_append]
  have f1 : (List.range' 0 a).filter (fun i => decide (a ≤ i ∧ i < N - b)) = [] := by
    rw [List.filter_eq_nil_iff]; intro x hx; rw [List.mem_range'_1] at hx; simp; omega
  have f2 : (List.range' a (N - a - b)).filter (fun i => decide (a ≤ i ∧ i < N - b)) = List.range' a (N - a - b) := by
    rw [List.filter_eq_self]; intro x hx; rw [List.mem_range'_1] at hx; simp; omega
  have f3 : (List.range' (N - b) b).filter (fun i => decide (a ≤ i ∧ i < N - b)) = [] := by
    rw [List.filter_eq_nil_iff]; intro x hx; rw [List.mem_range'_1] at hx; simp; omega
  rw [f1, f2, f3]; simp

theorem availableGlobal_eq (c : OfdmCfg α) (he : c.nFFT % 2 = 0) (hl : c.paddingLeft ≤ c.nFFT / 2)
    (hr : c.paddingRight < c.nFFT / 2) :
    c.availableGlobal = .ok (availTones c.nFFT c.paddingLeft c.paddingRight) := by
  unfold OfdmCfg.availableGlobal
  simp only
  have hlo : (-(c.nFFT : Int)) / 2 = -((c.nFFT / 2 : Nat) : Int) := by omega
  have hhi : ((c.nFFT : Int) / 2 - (-(c.nFFT : Int)) / 2).toNat = c.nFFT := by omega
  rw [hhi, hlo]
  have hall : (List.range c.nFFT).map (fun (i : Nat) => -((c.nFFT / 2 : Nat) : Int) + (i : Int)) = allTones c.nFFT := by
    unfold allTones
    apply List.map_congr_left
    intro i _; omega
  rw [hall]
  have hslice : (if c.paddingRight > 0 then ((allTones c.nFFT).drop c.paddingLeft).take (((allTones c.nFFT).drop c.paddingLeft).length - c.paddingRight)
      else (allTones c.nFFT).drop c.paddingLeft) =
      (allTones c.nFFT).filter fun t => decide (¬ isGuard c.nFFT c.paddingLeft c.paddingRight t) := by
    have e0 : (if c.paddingRight > 0 then ((allTones c.nFFT).drop c.paddingLeft).take (((allTones c.nFFT).drop c.paddingLeft).length - c.paddingRight)
      else (allTones c.nFFT).drop c.paddingLeft) =
        ((allTones c.nFFT).drop c.paddingLeft).take (c.nFFT - c.paddingLeft - c.paddingRight) := by
      have hlen : ((allTones c.nFFT).drop c.paddingLeft).length = c.nFFT - c.paddingLeft := by simp [allTones]
      split
      · rw [hlen]
      · rw [List.take_of_length_le (by omega)]
    rw [e0]
    unfold allTones
    rw [← List.map_drop, ← List.map_take, range_slice _ _ _ (by omega), List.filter_map]
    congr 1
    apply List.filter_congr
    intro i hi
    rw [List.mem_range] at hi
    simp only [Function.comp]
    apply decide_eq_decide.2
    unfold isGuard
    omega
  rw [hslice]
  have h0 : (0 : Int) ∈ (allTones c.nFFT).filter fun t => decide (¬ isGuard c.nFFT c.paddingLeft c.paddingRight t) := by
    rw [List.mem_filter, mem_allTones he]
    refine ⟨by unfold inBand; omega, decide_eq_true ?_⟩
    unfold isGuard
    omega
  rw [if_pos h0, List.Nodup.erase_eq_filter ((allTones_nodup _).filter _), List.filter_filter]
  unfold availTones dataToneList
  congr 1
  apply List.filter_congr
  intro t _
  by_cases h1 : isGuard c.nFFT c.paddingLeft c.paddingRight t <;> by_cases h2 : t = 0 <;> simp [h1, h2]

/-- A pilot set that fits the symbol: distinct tones, none of them guard or DC. -/
def goodSet (N padL padR : Nat) (ps : List Int) : Prop := ps.Nodup ∧ ∀ p ∈ ps, p ∈ availTones N padL padR

/-- The PN9 pilot values of `n` pilots. -/
def pilotVals (pilotVal : Int → α) (g : Pn9) (n : Nat) : List α := (g.nextN n).1.map fun b => pilotVal (bpsk (b == 1))

theorem insertPilots_ok {N : Nat} (he : N % 2 = 0) (pilotVal : Int → α) (ps : List Int) : ∀ (s : PilotLoop α), ps.Nodup →
    (∀ p ∈ ps, p ∈ s.available) → (∀ t ∈ s.available, inBand N t) → s.available.Nodup →
    insertPilots N pilotVal .pn9 s ps =
      (.ok { channels := put N s.channels ps (pilotVals pilotVal s.pn9 ps.length), available := s.available.filter (· ∉ ps),
             pn9 := (s.pn9.nextN ps.length).2, valuesIndex := s.valuesIndex }, (s.pn9.nextN ps.length).2) := by
  induction ps with
  | nil =>
    intro s _ _ _ _
    unfold insertPilots
    have : s.available.filter (fun x => decide (x ∉ ([] : List Int))) = s.available := by simp
    rw [this]
    rfl
  | cons p ps ih =>
    intro s hnd hsub hb hav
    rw [List.nodup_cons] at hnd
    have hp := hsub p (by simp)
    have hpb := hb p hp
    unfold insertPilots insertPilot
    simp only
    have hN : (N : Int) / 2 = ((N / 2 : Nat) : Int) := by omega
    rw [hN, if_neg (by unfold inBand at hpb; omega), if_pos hp, if_neg (by unfold inBand at hpb; omega)]
    simp only
    rw [ih]
    · have e1 : (s.pn9.nextN (ps.length + 1)).1 = s.pn9.next.1 :: (s.pn9.next.2.nextN ps.length).1 := rfl
      have e2 : (s.pn9.nextN (ps.length + 1)).2 = (s.pn9.next.2.nextN ps.length).2 := rfl
      rw [List.length_cons, e2]
      have e3 : (s.available.erase p).filter (fun x => decide (x ∉ ps)) = s.available.filter fun x => decide (x ∉ p :: ps) := by
        rw [List.Nodup.erase_eq_filter hav, List.filter_filter]
        apply List.filter_congr
        intro t _
        by_cases h1 : t = p <;> by_cases h2 : t ∈ ps <;> simp [h1, h2]
      simp only
      rw [e3]
      rfl
    · exact hnd.2
    · intro q hq
      show q ∈ s.available.erase p
      rw [List.mem_erase_of_ne (fun (e : q = p) => hnd.1 (e ▸ hq))]
      exact hsub q (by simp [hq])
    · intro t ht
      exact hb t (List.mem_of_mem_erase ht)
    · exact hav.erase p

theorem insertPilots_array {N : Nat} (he : N % 2 = 0) (pilotVal : Int → α) (vals : List α) (ps : List Int) : ∀ (s : PilotLoop α), ps.Nodup →
    (∀ p ∈ ps, p ∈ s.available) → (∀ t ∈ s.available, inBand N t) → s.available.Nodup →
    (ps ≠ [] → s.valuesIndex + ps.length = vals.length) →
    insertPilots N pilotVal (.array vals) s ps =
      (.ok { channels := put N s.channels ps (vals.drop s.valuesIndex), available := s.available.filter (· ∉ ps),
             pn9 := s.pn9, valuesIndex := if ps = [] then s.valuesIndex else 0 }, s.pn9) := by
  induction ps with
  | nil =>
    intro s _ _ _ _ _
    unfold insertPilots
    have : s.available.filter (fun x => decide (x ∉ ([] : List Int))) = s.available := by simp
    rw [this]
    rfl
  | cons p ps ih =>
    intro s hnd hsub hb hav hv
    rw [List.nodup_cons] at hnd
    have hp := hsub p (by simp)
    have hpb := hb p hp
    have hvl := hv (by simp)
    rw [List.length_cons] at hvl
    have hlt : s.valuesIndex < vals.length := by omega
    unfold insertPilots insertPilot
    simp only
    have hN : (N : Int) / 2 = ((N / 2 : Nat) : Int) := by omega
    rw [hN, List.getElem?_eq_getElem hlt]
    simp only
    rw [if_neg (by unfold inBand at hpb; omega), if_pos hp, if_neg (by unfold inBand at hpb; omega)]
    simp only
    rw [ih]
    · have e3 : (s.available.erase p).filter (fun x => decide (x ∉ ps)) = s.available.filter fun x => decide (x ∉ p :: ps) := by
        rw [List.Nodup.erase_eq_filter hav, List.filter_filter]
        apply List.filter_congr
        intro t _
        by_cases h1 : t = p <;> by_cases h2 : t ∈ ps <;> simp [h1, h2]
      simp only
      rw [e3]
      rw [List.drop_eq_getElem_cons hlt]
      by_cases hps : ps = []
      · subst hps
        have hi : (if s.valuesIndex + 1 ≥ vals.length then 0 else s.valuesIndex + 1) = 0 :=
          if_pos (by rw [List.length_nil] at hvl; omega)
        rw [hi]
        rfl
      · have hpl := List.length_pos_of_ne_nil hps
        have hi : (if s.valuesIndex + 1 ≥ vals.length then 0 else s.valuesIndex + 1) = s.valuesIndex + 1 :=
          if_neg (by omega)
        rw [hi, if_neg hps, if_neg (by simp : ¬ (p :: ps = []))]
        rfl
    · exact hnd.2
    · intro q hq
      show q ∈ s.available.erase p
      rw [List.mem_erase_of_ne (fun (e : q = p) => hnd.1 (e ▸ hq))]
      exact hsub q (by simp [hq])
    · intro t ht
      exact hb t (List.mem_of_mem_erase ht)
    · exact hav.erase p
    · intro hps
      have hpl := List.length_pos_of_ne_nil hps
      simp only
      rw [if_neg (by omega)]
      omega

/-- The symbol: pilots and data written into zeros. -/
def symbolOf (N padL padR : Nat) (ps : List Int) (pv col : List α) : List α :=
  put N (put N (List.replicate N 0) ps pv) (dataToneList N padL padR ps) col

theorem symbolOf_spec {N : Nat} (he : N % 2 = 0) (hN : 0 < N) {padL padR : Nat} {ps : List Int} (hg : goodSet N padL padR ps) {pv col : List α}
    (hpv : ps.length = pv.length) (hc : (dataToneList N padL padR ps).length = col.length) :
    IsSymbol N padL padR ps pv col (symbolOf N padL padR ps pv col) := by
  obtain ⟨hnd, hsub⟩ := hg
  have hin : ∀ p ∈ ps, inBand N p ∧ ¬ isGuard N padL padR p ∧ p ≠ 0 := fun p hp => by
    have := (mem_dataTones he).1 (hsub p hp)
    exact ⟨this.1, this.2.1, this.2.2.1⟩
  have hdb : ∀ t ∈ dataToneList N padL padR ps, inBand N t := fun t ht => ((mem_dataTones he).1 ht).1
  have hz : ∀ t, inBand N t → (List.replicate N (0 : α))[row N t]? = some 0 := by
    intro t ht
    rw [List.getElem?_replicate, if_pos (row_lt ht)]
  refine ⟨?_, ?_, ?_, ?_, ?_⟩
  · unfold symbolOf; rw [put_length, put_length, List.length_replicate]
  · have h0 : inBand N 0 := by unfold inBand; omega
    show (symbolOf N padL padR ps pv col)[row N 0]? = _
    unfold symbolOf
    rw [put_other N 0 h0 _ _ _ hdb (fun h => ((mem_dataTones he).1 h).2.2.1 rfl),
      put_other N 0 h0 _ _ _ (fun p hp => (hin p hp).1) (fun h => (hin 0 h).2.2 rfl), hz 0 h0]
  · intro t ht hgd
    have htb := (mem_allTones he t).1 ht
    show (symbolOf N padL padR ps pv col)[row N t]? = _
    unfold symbolOf
    rw [put_other N t htb _ _ _ hdb (fun h => ((mem_dataTones he).1 h).2.1 hgd),
      put_other N t htb _ _ _ (fun p hp => (hin p hp).1) (fun h => (hin t h).2.1 hgd), hz t htb]
  · show ps.map (fun t => (symbolOf N padL padR ps pv col)[row N t]?) = _
    rw [← put_map N ps pv (List.replicate N 0) (by simp) hnd (fun p hp => (hin p hp).1) hpv]
    apply List.map_congr_left
    intro t ht
    unfold symbolOf
    rw [put_other N t (hin t ht).1 _ _ _ hdb (fun h => ((mem_dataTones he).1 h).2.2.2 ht)]
  · exact put_map N _ col _ (by rw [put_length, List.length_replicate]) (dataTones_nodup ..) hdb hc

theorem avail_filter (N padL padR : Nat) (ps : List Int) :
    (availTones N padL padR).filter (· ∉ ps) = dataToneList N padL padR ps := by
  unfold availTones dataToneList
  rw [List.filter_filter]
  apply List.filter_congr
  intro t _
  by_cases h1 : isGuard N padL padR t <;> by_cases h2 : t = 0 <;> by_cases h3 : t ∈ ps <;> simp [h1, h2, h3]

theorem dataTones_length {N padL padR : Nat} {ps : List Int} (hg : goodSet N padL padR ps) :
    (dataToneList N padL padR ps).length + ps.length = (availTones N padL padR).length := by
  obtain ⟨hnd, hsub⟩ := hg
  rw [← avail_filter]
  have h1 := List.length_eq_length_filter_add (l := availTones N padL padR) (fun t => decide (t ∉ ps))
  have hperm : ((availTones N padL padR).filter fun t => !decide (t ∉ ps)).Perm ps := by
    rw [List.perm_ext_iff_of_nodup (List.Nodup.filter _ (show (availTones N padL padR).Nodup from dataTones_nodup ..)) hnd]
    intro t
    rw [List.mem_filter]
    constructor
    · intro h; simpa using h.2
    · intro h; exact ⟨hsub t h, by simpa using h⟩
  have := hperm.length_eq
  omega

/-- Number of available tones. -/
theorem availTones_length {N padL padR : Nat} (he : N % 2 = 0) (hl : padL ≤ N / 2) (hr : padR < N / 2) :
    (availTones N padL padR).length + padL + padR + 1 = N := by
  have e1 : availTones N padL padR = ((allTones N).filter fun t => decide (¬ isGuard N padL padR t)).erase 0 := by
    rw [List.Nodup.erase_eq_filter ((allTones_nodup _).filter _), List.filter_filter]
    unfold availTones dataToneList
    apply List.filter_congr
    intro t _
    by_cases h1 : isGuard N padL padR t <;> by_cases h2 : t = 0 <;> simp [h1, h2]
  have h0 : (0 : Int) ∈ (allTones N).filter fun t => decide (¬ isGuard N padL padR t) := by
    rw [List.mem_filter, mem_allTones he]
    refine ⟨by unfold inBand; omega, decide_eq_true ?_⟩
    unfold isGuard
    omega
  rw [e1, List.length_erase_of_mem h0]
  have e2 : ((allTones N).filter fun t => decide (¬ isGuard N padL padR t)).length = N - padL - padR := by
    unfold allTones
    rw [List.filter_map, List.length_map]
    have : (List.range N).filter ((fun t => decide (¬ isGuard N padL padR t)) ∘ fun (i : Nat) => (i : Int) - ((N / 2 : Nat) : Int)) =
        (List.range N).filter fun i => decide (padL ≤ i ∧ i < N - padR) := by
      apply List.filter_congr
      intro i hi
      rw [List.mem_range] at hi
      simp only [Function.comp]
      apply decide_eq_decide.2
      unfold isGuard
      omega
    rw [this, ← range_slice _ _ _ (by omega)]
    simp
  rw [e2]; omega

theorem placeData_ok (N : Nat) (ch : List α) (av : List Int) (col : List α) (h : col.length = av.length) :
    placeData N ch av col = .ok (put N ch av col) := by
  unfold placeData
  simp only
  rw [if_pos h]
  unfold put row
  have hN : (N : Int) / 2 = ((N / 2 : Nat) : Int) := by omega
  rw [hN]

/-- The pilot values of one symbol: the next PN9 values or the given array. -/
def Pilots.valuesAt (pl : Pilots α) (pilotVal : Int → α) (g : Pn9) : List α :=
  match pl.values with
  | .pn9 => pilotVals pilotVal g pl.nPilots
  | .array v => v

/-- The generator after `n` symbols. -/
def Pilots.pn9At (pl : Pilots α) (g : Pn9) (n : Nat) : Pn9 :=
  match pl.values with
  | .pn9 => (g.nextN (n * pl.nPilots)).2
  | .array _ => g

/-- Validity of a configuration with pilots. -/
structure GoodCfg (c : OfdmCfg α) (pl : Pilots α) : Prop where
  pilots : c.pilots = some pl
  vals : ∀ v, pl.values = .array v → v.length = pl.nPilots
  even : c.nFFT % 2 = 0
  left : c.paddingLeft ≤ c.nFFT / 2
  right : c.paddingRight < c.nFFT / 2
  npil : 0 < pl.nPilots
  sets : pl.sets ≠ []
  good : ∀ ps ∈ pl.sets, ps.length = pl.nPilots ∧ goodSet c.nFFT c.paddingLeft c.paddingRight ps

/-- Number of data tones of a symbol. -/
def OfdmCfg.nData (c : OfdmCfg α) : Nat := c.nFFT - c.nPilots - c.paddingLeft - c.paddingRight - 1

theorem GoodCfg.dataLen {c : OfdmCfg α} {pl : Pilots α} (h : GoodCfg c pl) {ps : List Int} (hp : ps ∈ pl.sets) :
    (dataToneList c.nFFT c.paddingLeft c.paddingRight ps).length = c.nData := by
  have h1 := dataTones_length (h.good ps hp).2
  have h2 := availTones_length h.even h.left h.right
  have h3 : c.nPilots = pl.nPilots := by unfold OfdmCfg.nPilots; rw [h.pilots]; rfl
  rw [(h.good ps hp).1] at h1
  unfold OfdmCfg.nData
  omega

/-- The symbol number `n` of a stream that starts in state `st`. -/
def nthSet (pl : Pilots α) (st : OfdmState) (n : Nat) : List Int := pl.sets.getD ((st.pilotsColumnIndex + n) % pl.sets.length) []

/-- PN9 generator state before symbol `n`. -/
def nthPn9 (pl : Pilots α) (st : OfdmState) (n : Nat) : Pn9 := pl.pn9At st.pn9 n

/-- State after `n` symbols. -/
def stateAfter (pl : Pilots α) (st : OfdmState) (n : Nat) : OfdmState :=
  { pilotsColumnIndex := (st.pilotsColumnIndex + n) % pl.sets.length, pn9 := nthPn9 pl st n }

theorem nthSet_mem {pl : Pilots α} (h : pl.sets ≠ []) (st : OfdmState) (n : Nat) : nthSet pl st n ∈ pl.sets := by
  unfold nthSet
  have : (st.pilotsColumnIndex + n) % pl.sets.length < pl.sets.length := Nat.mod_lt _ (List.length_pos_of_ne_nil h)
  rw [List.getD_eq_getElem?_getD, List.getElem?_eq_getElem this]
  exact List.getElem_mem _

theorem addPilotsSymbol_ok {c : OfdmCfg α} {pl : Pilots α} (h : GoodCfg c pl) (pilotVal : Int → α) (st : OfdmState)
    (hst : st.pilotsColumnIndex < pl.sets.length) (col : List α) (hc : col.length = c.nData) :
    addPilotsSymbol c pilotVal pl (availTones c.nFFT c.paddingLeft c.paddingRight) 0 st col =
      (.ok (symbolOf c.nFFT c.paddingLeft c.paddingRight (nthSet pl st 0) (pl.valuesAt pilotVal st.pn9) col, 0), stateAfter pl st 1) := by
  have hset : pl.sets[st.pilotsColumnIndex]? = some (nthSet pl st 0) := by
    unfold nthSet
    rw [Nat.add_zero, Nat.mod_eq_of_lt hst, List.getD_eq_getElem?_getD, List.getElem?_eq_getElem hst]
    rfl
  have hmem := nthSet_mem h.sets st 0
  obtain ⟨hlen, hnd, hsub⟩ := h.good _ hmem
  unfold addPilotsSymbol
  rw [hset]
  simp only
  have hins : insertPilots c.nFFT pilotVal pl.values
      { channels := List.replicate c.nFFT 0, available := availTones c.nFFT c.paddingLeft c.paddingRight, pn9 := st.pn9, valuesIndex := 0 }
      (nthSet pl st 0) = (.ok { channels := put c.nFFT (List.replicate c.nFFT 0) (nthSet pl st 0) (pl.valuesAt pilotVal st.pn9)
                                available := (availTones c.nFFT c.paddingLeft c.paddingRight).filter (· ∉ nthSet pl st 0)
                                pn9 := pl.pn9At st.pn9 1, valuesIndex := 0 }, pl.pn9At st.pn9 1) := by
    unfold Pilots.valuesAt Pilots.pn9At
    cases hv : pl.values with
    | pn9 =>
      rw [insertPilots_ok h.even pilotVal _ _ hnd hsub (fun t ht => ((mem_dataTones h.even).1 ht).1) (dataTones_nodup ..), hlen]
      simp only [Nat.one_mul]
    | array v =>
      rw [insertPilots_array h.even pilotVal v _ _ hnd hsub (fun t ht => ((mem_dataTones h.even).1 ht).1) (dataTones_nodup ..)
        (fun _ => by rw [h.vals v hv, hlen]; simp)]
      simp
  rw [hins]
  simp only
  rw [avail_filter, placeData_ok _ _ _ _ (by rw [hc, h.dataLen hmem])]
  unfold symbolOf stateAfter nthPn9
  simp only
  congr 2
  split
  · have : st.pilotsColumnIndex + 1 = pl.sets.length := by omega
    rw [this, Nat.mod_self]
  · rw [Nat.mod_eq_of_lt (by omega)]

theorem Pn9.nextN_add (g : Pn9) (a b : Nat) : g.nextN (a + b) =
    ((g.nextN a).1 ++ ((g.nextN a).2.nextN b).1, ((g.nextN a).2.nextN b).2) := by
  induction a generalizing g with
  | zero => simp [Pn9.nextN]
  | succ a ih => rw [Nat.succ_add]; simp only [Pn9.nextN]; rw [ih]; rfl

theorem stateAfter_add (pl : Pilots α) (st : OfdmState) (m n : Nat) : stateAfter pl (stateAfter pl st m) n = stateAfter pl st (m + n) := by
  unfold stateAfter nthPn9
  simp only
  congr 1
  · rw [Nat.add_mod, Nat.mod_mod, ← Nat.add_mod, Nat.add_assoc]
  · unfold Pilots.pn9At
    cases pl.values with
    | pn9 => simp only; rw [Nat.add_mul, Pn9.nextN_add]
    | array v => rfl

theorem nthSet_add (pl : Pilots α) (st : OfdmState) (m n : Nat) : nthSet pl (stateAfter pl st m) n = nthSet pl st (m + n) := by
  unfold nthSet stateAfter
  congr 1
  simp only
  rw [Nat.add_mod, Nat.mod_mod, ← Nat.add_mod, Nat.add_assoc]

/-- Symbol `n` of the stream with data `col`. -/
def nthSymbol (c : OfdmCfg α) (pilotVal : Int → α) (pl : Pilots α) (st : OfdmState) (n : Nat) (col : List α) : List α :=
  symbolOf c.nFFT c.paddingLeft c.paddingRight (nthSet pl st n) (pl.valuesAt pilotVal (nthPn9 pl st n)) col

theorem nthSymbol_add (c : OfdmCfg α) (pilotVal : Int → α) (pl : Pilots α) (st : OfdmState) (m n : Nat) (col : List α) :
    nthSymbol c pilotVal pl (stateAfter pl st m) n col = nthSymbol c pilotVal pl st (m + n) col := by
  unfold nthSymbol
  rw [nthSet_add]
  congr 1
  have := congrArg OfdmState.pn9 (stateAfter_add pl st m n)
  exact congrArg (pl.valuesAt pilotVal) this

theorem stateAfter_index_lt {pl : Pilots α} (h : pl.sets ≠ []) (st : OfdmState) (n : Nat) :
    (stateAfter pl st n).pilotsColumnIndex < pl.sets.length := Nat.mod_lt _ (List.length_pos_of_ne_nil h)

theorem stateAfter_zero {pl : Pilots α} {st : OfdmState} (hst : st.pilotsColumnIndex < pl.sets.length) : stateAfter pl st 0 = st := by
  unfold stateAfter nthPn9
  simp only [Nat.add_zero, Nat.mod_eq_of_lt hst]
  unfold Pilots.pn9At
  cases pl.values with
  | pn9 => simp only [Nat.zero_mul]; rfl
  | array v => rfl

theorem nthPn9_zero (pl : Pilots α) (st : OfdmState) : nthPn9 pl st 0 = st.pn9 := by
  unfold nthPn9 Pilots.pn9At
  cases pl.values with
  | pn9 => simp only [Nat.zero_mul]; rfl
  | array v => rfl

theorem addPilotsSymbols_ok {c : OfdmCfg α} {pl : Pilots α} (h : GoodCfg c pl) (pilotVal : Int → α) (cols : List (List α)) :
    ∀ (st : OfdmState), st.pilotsColumnIndex < pl.sets.length → (∀ col ∈ cols, col.length = c.nData) →
    addPilotsSymbols c pilotVal pl (availTones c.nFFT c.paddingLeft c.paddingRight) 0 st cols =
      (.ok (cols.mapIdx fun n col => nthSymbol c pilotVal pl st n col), stateAfter pl st cols.length) := by
  induction cols with
  | nil =>
    intro st hst _
    rw [List.length_nil, stateAfter_zero hst]
    rfl
  | cons col cols ih =>
    intro st hst hc
    unfold addPilotsSymbols
    rw [addPilotsSymbol_ok h pilotVal st hst col (hc col (by simp))]
    simp only
    rw [ih _ (stateAfter_index_lt h.sets st 1) fun x hx => hc x (by simp [hx])]
    simp only
    rw [stateAfter_add, List.length_cons, Nat.add_comm 1, List.mapIdx_cons]
    congr 3
    · unfold nthSymbol
      rw [nthPn9_zero]
    · apply congrArg (fun f => List.mapIdx f cols)
      funext n col
      rw [nthSymbol_add, Nat.add_comm]

theorem addPilotsAndPadding_ok {c : OfdmCfg α} {pl : Pilots α} (h : GoodCfg c pl) (pilotVal : Int → α) (st : OfdmState)
    (hst : st.pilotsColumnIndex < pl.sets.length) (cols : List (List α)) (hc : ∀ col ∈ cols, col.length = c.nData) :
    addPilotsAndPadding c pilotVal st cols =
      (.ok (cols.mapIdx fun n col => nthSymbol c pilotVal pl st n col), stateAfter pl st cols.length) := by
  unfold addPilotsAndPadding
  rw [availableGlobal_eq c h.even h.left h.right]
  simp only
  rw [h.pilots]
  simp only
  rw [if_pos h.npil]
  exact addPilotsSymbols_ok h pilotVal cols st hst hc

/-- Every symbol of the stream meets the layout specification. -/
theorem nthSymbol_spec {c : OfdmCfg α} {pl : Pilots α} (h : GoodCfg c pl) (pilotVal : Int → α) (st : OfdmState) (n : Nat) (col : List α)
    (hc : col.length = c.nData) :
    IsSymbol c.nFFT c.paddingLeft c.paddingRight (nthSet pl st n) (pl.valuesAt pilotVal (nthPn9 pl st n)) col
      (nthSymbol c pilotVal pl st n col) := by
  have hmem := nthSet_mem h.sets st n
  obtain ⟨hlen, hg⟩ := h.good _ hmem
  have hr := h.right
  refine symbolOf_spec h.even (by omega) hg ?_ (by rw [h.dataLen hmem, hc])
  rw [hlen]
  unfold Pilots.valuesAt
  cases hv : pl.values with
  | pn9 => simp only; unfold pilotVals; rw [List.length_map, Pn9.nextN_fst]; simp
  | array v => exact (h.vals v hv).symm

end
end SunPhy
