import Verif.Model.IntegralMatrix
/-!
# Specification for C19–C22: histories of integral matrices and the event sample they stand for

`History` is any way of producing an integral matrix with the public interface.  `History.sample` gives, without looking at the
matrix code, the weighted events the matrix stands for; `History.events` the number of events it is normalised to. -/
namespace Rpwa.Integral

/-- Calls that build an integral matrix. -/
inductive History where
  /-- a new matrix with its wave names set (`setWaveNames`). -/
  | fresh (names : List String)
  /-- `addEvent` with a map of amplitudes. -/
  | addEvent (h : History) (amps : String → Option ℂ)
  /-- `+=` another matrix. -/
  | merge (h g : History)
  /-- `renormalize`. -/
  | renormalize (h : History) (n : ℕ)
  /-- `integrate` called on a new matrix. -/
  | integrate (trees : List AmpTree) (maxNmbEvents : ℤ) (weights : Option WeightFile) (eventBin : Option (ℕ × (ℕ → Bool)))
  /-- `integrate` called on an existing matrix. -/
  | reintegrate (h : History) (trees : List AmpTree) (maxNmbEvents : ℤ) (weights : Option WeightFile)
      (eventBin : Option (ℕ × (ℕ → Bool)))

/-- the matrix a history produces; `none` if some call aborted or an `integrate` reported failure. -/
noncomputable def History.run : History → Option IntMat
  | .fresh ns => match empty.setWaveNames ns with
    | (true, m) => some m
    | (false, _) => none
  | .addEvent h amps => h.run.bind fun m => match m.addEvent amps with
    | .ok (_, m') => some m'
    | _ => none
  | .merge h g => h.run.bind fun m => g.run.bind fun o => match m.addAssign o with
    | .ok m' => some m'
    | _ => none
  | .renormalize h n => h.run.bind fun m => match m.renormalize n with
    | .ok m' => some m'
    | _ => none
  | .integrate ts mx w b => match empty.integrate ts mx w b with
    | .ok (true, m') => some m'
    | _ => none
  | .reintegrate h ts mx w b => h.run.bind fun m => match m.integrate ts mx w b with
    | .ok (true, m') => some m'
    | _ => none

/-- wave names known to the history. -/
def History.waves : History → List String
  | .fresh ns => ns
  | .addEvent h _ => h.waves
  | .merge h _ => h.waves
  | .renormalize h _ => h.waves
  | .integrate ts _ _ _ => ts.map (·.wave)
  | .reintegrate _ ts _ _ _ => ts.map (·.wave)

/-- the events used by an integration: the first `maxNmbEvents` (all if not positive) that lie in the bin. -/
def selectedEvents (trees : List AmpTree) (maxNmbEvents : ℤ) (eventBin : Option (ℕ × (ℕ → Bool))) : List ℕ :=
  let n := (trees.head?.map (·.events.length)).getD 0
  let nEv := if maxNmbEvents ≤ 0 then n else min n maxNmbEvents.toNat
  (List.range nEv).filter fun ev => match eventBin with
    | some (_, test) => test ev
    | none => true

/-- number read from the weight file for the `k`-th selected event. -/
def fileWeight (weights : Option WeightFile) (k : ℕ) : ℝ :=
  match weights with
  | some ws => ws.getD k 0
  | none => 1

/-- weight of the `k`-th of `n` selected events: the inverse of the file's weight, normalised so that the average
over the events is one; one without a weight file. -/
noncomputable def eventWeight (weights : Option WeightFile) (n k : ℕ) : ℝ :=
  match weights with
  | some _ => (1 / fileWeight weights k) * (n / ((List.range n).map fun q => 1 / fileWeight weights q).sum)
  | none => 1

/-- the `q`-th incoherent sub-amplitude of a wave in an event. -/
def treeAmp (trees : List AmpTree) (ev q : ℕ) (wave : String) : ℂ :=
  (((trees.find? (·.wave = wave)).map (·.events.getD ev [])).getD []).getD q 0

/-- number of incoherent sub-amplitudes of an event. -/
def nmbSub (trees : List AmpTree) (ev : ℕ) : ℕ :=
  ((trees.head?.map (·.events.getD ev [])).getD []).length

/-- the weighted sample of an integration: one entry per selected event and incoherent sub-amplitude. -/
noncomputable def treeSample (trees : List AmpTree) (mx : ℤ) (weights : Option WeightFile)
    (eventBin : Option (ℕ × (ℕ → Bool))) : List (ℝ × (String → ℂ)) :=
  let evs := selectedEvents trees mx eventBin
  evs.zipIdx.flatMap fun ek =>
    (List.range (nmbSub trees ek.1)).map fun q => (eventWeight weights evs.length ek.2, treeAmp trees ek.1 q)

/-- number of events the matrix is normalised to. -/
def History.events : History → ℕ
  | .fresh _ => 0
  | .addEvent h amps => if h.waves.all (fun n => (amps n).isSome) then h.events + 1 else h.events
  | .merge h g => h.events + g.events
  | .renormalize _ n => n
  | .integrate ts mx _ b => (selectedEvents ts mx b).length
  | .reintegrate _ ts mx _ b => (selectedEvents ts mx b).length

/-- the weighted sample the matrix stands for. -/
noncomputable def History.sample : History → List (ℝ × (String → ℂ))
  | .fresh _ => []
  | .addEvent h amps =>
    if h.waves.all (fun n => (amps n).isSome) then h.sample ++ [(1, fun n => (amps n).getD 0)] else h.sample
  | .merge h g => h.sample ++ g.sample
  | .renormalize h n => h.sample.map fun wf => ((n : ℝ) / (h.events : ℝ) * wf.1, wf.2)
  | .integrate ts mx w b => treeSample ts mx w b
  | .reintegrate _ ts mx w b => treeSample ts mx w b

/-- Sensible calls: no wave occurs twice, weights are positive, nothing is divided by an empty event number. -/
def History.Sensible : History → Prop
  | .fresh ns => ns.Nodup
  | .addEvent h _ => h.Sensible
  | .merge h g => h.Sensible ∧ g.Sensible
  | .renormalize h _ => h.Sensible ∧ h.events ≠ 0
  | .integrate ts mx w b => (ts.map (·.wave)).Nodup ∧
      ∀ ws, w = some ws → (∀ x ∈ ws, 0 < x) ∧ selectedEvents ts mx b ≠ []
  | .reintegrate h ts mx w b => h.Sensible ∧ (ts.map (·.wave)).Nodup ∧
      ∀ ws, w = some ws → (∀ x ∈ ws, 0 < x) ∧ selectedEvents ts mx b ≠ []

/-- `Σ_events w · a(wave1) · conj(a(wave2))`. -/
noncomputable def sampleSum (s : List (ℝ × (String → ℂ))) (a b : String) : ℂ :=
  (s.map fun wf => (wf.1 : ℂ) * wf.2 a * (starRingEnd ℂ) (wf.2 b)).sum

/-- entry of a matrix belonging to a pair of wave names. -/
noncomputable def IntMat.entry (m : IntMat) (a b : String) : ℂ := m.mat (m.names.idxOf a) (m.names.idxOf b)

/-- sizes fit together. -/
structure IntMat.WF (m : IntMat) : Prop where
  waves : m.nmbWaves = m.names.length
  rows : m.rows = m.names.length
  cols : m.cols = m.names.length

end Rpwa.Integral
