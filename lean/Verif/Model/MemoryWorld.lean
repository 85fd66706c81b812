import Verif.Model.Memory
/-
A program that uses the library: modulators, and arrays that the program holds (messages that it made, signals that were returned to it) and may change at any time.
-/
namespace SunPhy
noncomputable section

/-- A modulator with its attributes as references. -/
inductive ObjH
  | fsk (o : FskRefs)
  | oqpsk (o : OqpskRefs)
  | ofdm (o : OfdmRefs)

/-- What the program does. -/
inductive Event
  /-- construct a modulator (parameters that a constructor has accepted; attributes are not set, `mr_fsk_modulator.py:100-217`, `mr_o_qpsk_modulator.py:451-534`) -/
  | fsk (p : FskParams)
  | oqpsk (p : OqpskParams)
  /-- `Mr_ofdm_modulator(MCS, OFDM_Option, phyOFDMInterleaving, scrambler)`, `mr_ofdm_modulator.py:226-316` -/
  | ofdm (MCS option interleaving scrambler : PyVal)
  /-- make an array -/
  | array (c : Cell)
  /-- write into the `i`-th array that the program holds (`x[…] = …`) -/
  | write (i : Nat) (c : Cell)
  /-- `objects[i].bitsToIQ(arrays[j])` or `objects[i].bytesToIQ(arrays[j])`; a returned signal is held from now on -/
  | call (bytes : Bool) (i j : Nat)

/-- Memory, the modulators, the addresses of the arrays that the program holds, and the outcomes of its calls (sampling frequency or exception). -/
structure HeapWorld where
  mem : Mem
  objs : List ObjH
  held : List Addr
  log : List (Res ℚ)

/-- A call with the argument at address `a`, `mr_fsk_modulator.py:438-514`, `mr_o_qpsk_modulator.py:1067-1162`, `mr_ofdm_modulator.py:636-697`. -/
def ObjH.call (rn : Rat → Rat) (bytes : Bool) (a : Addr) (m : Mem) : ObjH → Res (Addr × ℚ) × Mem × ObjH
  | .fsk o => let r := (if bytes then fskBytesToIQH rn a else fskBitsToIQH rn a).call ⟨m, o⟩; (r.1, r.2.mem, .fsk r.2.obj)
  | .oqpsk o => let r := (if bytes then oqpskBytesToIQH a else oqpskBitsToIQH a).call ⟨m, o⟩; (r.1, r.2.mem, .oqpsk r.2.obj)
  | .ofdm o => let r := (if bytes then ofdmBytesToIQH a else ofdmBitsToIQH a).call ⟨m, o⟩; (r.1, r.2.mem, .ofdm r.2.obj)

/-- One step.  (A call with an array that is no message is left out.) -/
def HeapWorld.step (rn : Rat → Rat) (w : HeapWorld) : Event → HeapWorld
  | .fsk p => { w with objs := w.objs ++ [.fsk { params := p }] }
  | .oqpsk p => { w with objs := w.objs ++ [.oqpsk { params := p }] }
  | .ofdm MCS option interleaving scrambler =>
    match mrOfdmInit MCS option interleaving scrambler with
    | .ok p => { w with objs := w.objs ++ [.ofdm { params := p }] }
    | .error e => { w with log := w.log ++ [.error e] }
  | .array c => { w with mem := w.mem.push c, held := w.held ++ [w.mem.next] }
  | .write i c => match w.held[i]? with | some a => { w with mem := w.mem.put a c } | none => w
  | .call bytes i j =>
    match w.objs[i]?, w.held[j]? with
    | some o, some a =>
      match w.mem.cell a with
      | .msg _ =>
        match o.call rn bytes a w.mem with
        | (.ok (out, fs), m, o') => { mem := m, objs := w.objs.set i o', held := w.held ++ [out], log := w.log ++ [.ok fs] }
        | (.error e, m, o') => { mem := m, objs := w.objs.set i o', held := w.held, log := w.log ++ [.error e] }
      | _ => w
    | _, _ => w

/-- The state after the modules have been imported. -/
def HeapWorld.start : HeapWorld := ⟨Mem.imported, [], [], []⟩

def HeapWorld.run (rn : Rat → Rat) (l : List Event) : HeapWorld := l.foldl (HeapWorld.step rn) HeapWorld.start

end
end SunPhy
