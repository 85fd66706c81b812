import Verif.Model.PilotShapes
/-
What the theorems of C151 compare: a modulator whose pilot values are an array of any shape, and one with a flat list of values.
-/
namespace SunPhy.Spec
variable {α : Type}

/-- The same stored arguments with other pilot values. -/
def withValues (s : OfdmStored α) (v : PilotValuesNd α) : OfdmStoredNd α :=
  { nFFT := s.nFFT, modulation := s.modulation, paddingLeft := s.paddingLeft, paddingRight := s.paddingRight, frequencySpreading := s.frequencySpreading,
    pilots := s.pilots.map fun p => { sets := p.sets, nPilots := p.nPilots, values := v },
    initialPilotSet := s.initialPilotSet, initialSeed := s.initialSeed }

/-- The same object, in the same state, with other pilot values. -/
def runWith (v : PilotValuesNd α) (o : OfdmRun α) : OfdmRunNd α := ⟨withValues o.stored v, o.columnIndex, o.pn9⟩

/-- The object has pilots with these values. -/
def HasValues (o : OfdmRun α) (v : PilotValues α) : Prop := ∃ p, o.stored.pilots = some p ∧ p.values = v

end SunPhy.Spec
