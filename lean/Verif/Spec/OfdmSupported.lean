import Verif.Model.MrOfdm
/-
The supported MR-OFDM configurations, written out (Table of valid MCS / option combinations of the standard).
-/
namespace SunPhy.Spec
open SunPhy

/-- The supported MCS / option combinations (the constructor's table, written out). -/
def Supported (p : OfdmParams) : Prop :=
  (p.mcs, p.option) ∈ [(0, 1), (0, 2), (1, 1), (1, 2), (1, 3), (2, 1), (2, 2), (2, 3), (2, 4), (3, 1), (3, 2), (3, 3), (3, 4),
    (4, 2), (4, 3), (4, 4), (5, 2), (5, 3), (5, 4), (6, 3), (6, 4)] ∧ p.interleaving ≤ 1 ∧ p.scrambler ≤ 3

/-- All supported parameter sets, as a list. -/
def allSupported : List OfdmParams :=
  ([(0, 1), (0, 2), (1, 1), (1, 2), (1, 3), (2, 1), (2, 2), (2, 3), (2, 4), (3, 1), (3, 2), (3, 3), (3, 4),
    (4, 2), (4, 3), (4, 4), (5, 2), (5, 3), (5, 4), (6, 3), (6, 4)] : List (Nat × Nat)).flatMap fun mo =>
    (List.range 2).flatMap fun i => (List.range 4).map fun s => ⟨mo.1, mo.2, i, s⟩

theorem mem_allSupported {p : OfdmParams} (h : Supported p) : p ∈ allSupported := by
  obtain ⟨h1, h2, h3⟩ := h
  unfold allSupported
  rw [List.mem_flatMap]
  refine ⟨(p.mcs, p.option), h1, ?_⟩
  rw [List.mem_flatMap]
  refine ⟨p.interleaving, by simp; omega, ?_⟩
  rw [List.mem_map]
  exact ⟨p.scrambler, by simp; omega, rfl⟩

end SunPhy.Spec
