import Verif.Spec.OqpskReceiver
/-
An MR-O-QPSK receiver with a hard limiter: every chip is decided on its own, an ideal signal is made from the decided chips and received as in OqpskReceiver.lean.  However strong an
interference is, it does no more harm than to invert the chips that it meets.
-/
namespace SunPhy.RxQ
open SunPhy Spec Complex
noncomputable section

/-- The chips, each decided by the sign of its soft value. -/
def hardChips (b : Band) (sps : Nat) (r : List ℂ) : Bits := (List.range (2 * (r.length / sps))).map fun k => decide (0 < soft b sps r k)

/-- Reception of the decided chips. -/
def receiveHard (b : Band) (sps : Nat) (r : List ℂ) : Option (Bool × Nat × Nat × List (Option Bool)) := receive b sps (RefQ.samples b sps (hardChips b sps r))

end
end SunPhy.RxQ
