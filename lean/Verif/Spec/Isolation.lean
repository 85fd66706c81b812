import Verif.Model.MemoryWorld
/-
The same program, if every array were a value of its own: a modulator keeps private copies, the arrays of the program are never shared with a modulator, with a table of the library or with each
other.
-/
namespace SunPhy.Spec
noncomputable section

inductive ObjV
  | fsk (o : FskObj)
  | oqpsk (o : OqpskObj)
  | ofdm (o : OfdmObj)

/-- The modulators (with the contents of their attributes), the contents of the arrays that the program holds, and the outcomes of its calls. -/
structure ValueWorld where
  objs : List ObjV
  held : List Cell
  log : List (Res ℚ)

def ObjV.call (rn : Rat → Rat) (bytes : Bool) (x : Arg) : ObjV → Res (List ℂ × ℚ) × ObjV
  | .fsk o => let r := (if bytes then fskBytesToIQ rn x else fskBitsToIQ rn x).call o; (r.1, .fsk r.2)
  | .oqpsk o => let r := (if bytes then oqpskBytesToIQ x else oqpskBitsToIQ x).call o; (r.1, .oqpsk r.2)
  | .ofdm o => let r := (if bytes then ofdmModBytesToIQ x else ofdmModBitsToIQ x).call o; (r.1, .ofdm r.2)

def ValueWorld.step (rn : Rat → Rat) (w : ValueWorld) : Event → ValueWorld
  | .fsk p => { w with objs := w.objs ++ [.fsk { params := p }] }
  | .oqpsk p => { w with objs := w.objs ++ [.oqpsk { params := p }] }
  | .ofdm MCS option interleaving scrambler =>
    match mrOfdmInit MCS option interleaving scrambler with
    | .ok p => { w with objs := w.objs ++ [.ofdm { params := p }] }
    | .error e => { w with log := w.log ++ [.error e] }
  | .array c => { w with held := w.held ++ [c] }
  | .write i c => { w with held := w.held.set i c }
  | .call bytes i j =>
    match w.objs[i]?, w.held[j]? with
    | some o, some (.msg x) =>
      match o.call rn bytes x with
      | (.ok (iq, fs), o') => { objs := w.objs.set i o', held := w.held ++ [.samples iq], log := w.log ++ [.ok fs] }
      | (.error e, o') => { objs := w.objs.set i o', held := w.held, log := w.log ++ [.error e] }
    | _, _ => w

def ValueWorld.run (rn : Rat → Rat) (l : List Event) : ValueWorld := l.foldl (ValueWorld.step rn) ⟨[], [], []⟩

end
end SunPhy.Spec
