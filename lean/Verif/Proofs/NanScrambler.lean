import Verif.Model.NanMessages
import Verif.Props.C67
import Verif.Props.C07
import Verif.Proofs.RefBits
/-
Whitening of octets (C144).
-/
namespace SunPhy.C144
open SunPhy Spec

theorem scramblerV_get (x : List Nat) (s i : Nat) : (scramblerV x s)[i]? = x[i]?.map (b2n (Ref.key s i) ^^^ ·) := by
  unfold scramblerV
  rw [C05.C05_closed_form, List.getElem?_zipWith, List.getElem?_map]
  by_cases hi : i < x.length
  · rw [List.getElem?_range hi, List.getElem?_eq_getElem hi]; rfl
  · rw [List.getElem?_eq_none (by simpa using hi), List.getElem?_eq_none (l := x) (by omega)]; rfl

theorem scrambler_get (x : Bits) (s i : Nat) : (scrambler x s)[i]? = x[i]?.map (xor (Ref.key s i)) := by
  rw [C07.scrambler_eq, List.getElem?_zipWith, List.getElem?_map]
  by_cases hi : i < x.length
  · rw [List.getElem?_range hi, List.getElem?_eq_getElem hi]
    simp only [Option.map_some]
    rw [pn9Out_key]
  · rw [List.getElem?_eq_none (by simpa using hi), List.getElem?_eq_none (l := x) (by omega)]; rfl

theorem scramblerV_bits (m : Bits) (s : Nat) : scramblerV (m.map b2n) s = (scrambler m s).map b2n := by
  apply List.ext_getElem?
  intro i
  rw [scramblerV_get, List.getElem?_map, List.getElem?_map, scrambler_get, Option.map_map, Option.map_map]
  congr 1
  funext b
  cases Ref.key s i <;> cases b <;> rfl

end SunPhy.C144
