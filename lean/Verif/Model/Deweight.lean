import Verif.Model.Storage
/-!
# Weighted Monte Carlo events and their de-weighting

Models the event loops of pyInterface/scripts/genPseudoData.py and pyInterface/scripts/deWeight.py.  Simplifications: opening files, messages and
command lines are omitted (the output file is new); the additional variables of an event are the values of its row in the order of the
names, the names are different; the numbers that doubles stand for are given by a function, sums and quotients of them are exact; the
random numbers are a sequence; `modelIntensity` (C65) is the weight that comes with a generated event. -/
namespace Rpwa.Deweight

open Rpwa.Storage

/-- deWeight.py:44-51. -/
noncomputable def maxWeight (ws : List ℝ) : ℝ := ws.foldl (fun m w => if w > m then w else m) 0

open Classical in
/-- deWeight.py:82-84: `normWeight > cut`; a division by zero gives infinity with the sign of the weight or not-a-number (numpy). -/
noncomputable def accepted (weight maxW cut : ℝ) : Bool := if maxW = 0 then decide (0 < weight) else decide (weight / maxW > cut)

/-- deWeight.py:80-88: one event; the state is the writer and `acceptedEntries`. -/
noncomputable def deWeightEvent (val : Dbl → ℝ) (idx : ℕ) (maxW : ℝ) (rnd : ℕ → ℝ) (s : EventWriter × ℕ) (e : Row × ℕ) : Outcome (EventWriter × ℕ) :=
  if accepted (val (e.1.vals.getD idx Dbl.zero)) maxW (rnd e.2) then do
    let w ← s.1.addEvent e.1.prod e.1.decay (e.1.vals.eraseIdx idx)
    .ok (w, s.2 + 1)
  else .ok s

/-- deWeight.py:32-94: the file that is written, and whether the script ends without an exception (it divides by the number of events after the
file was written). -/
noncomputable def deWeight (md5 : Hashor → String) (val : Dbl → ℝ) (weightFactor : ℝ) (rnd : ℕ → ℝ) (em : EventMeta) : Outcome (EventMeta × Bool) :=
  match em.tree with
  | none => .terminate
  | some tree => match em.addNames.idxOf? "weight" with
    | none => .terminate
    | some idx => do
      let maxW := maxWeight (tree.rows.map fun r => val (r.vals.getD idx Dbl.zero)) * weightFactor
      let i := EventWriter.new.initialize ⟨em.auxString, .real, em.prodNames, em.decayNames, em.bounds, em.addNames.eraseIdx idx⟩
      if !i.1 then .terminate
      else do
        let s ← tree.rows.zipIdx.foldlM (deWeightEvent val idx maxW rnd) (i.2, 0)
        match (s.1.finalize md5).1 with
        | none => .terminate
        | some m => .ok (m, decide (tree.rows.length ≠ 0))

/-- a generated event: names and momenta of the beam and of the final state, mass, t', and the intensity of the model. -/
structure GenEvent where
  prodNames : List String
  decayNames : List String
  prod : List Vec3
  decay : List Vec3
  mass : Dbl
  tPrime : Dbl
  weight : Dbl

/-- options of genPseudoData.py: names of mass and t' (`none`: not stored), auxiliary string, mass range, success of `initDecayAmplitudes`. -/
structure GenOptions where
  names : Option (String × String)
  aux : String
  massRange : ℝ × ℝ
  modelOk : List String → List String → Bool

/-- genPseudoData.py:154-159. -/
def GenOptions.varNames (o : GenOptions) : List String := match o.names with
  | none => []
  | some n => [n.1, n.2]

/-- genPseudoData.py:187-189. -/
def GenOptions.vars (o : GenOptions) (e : GenEvent) : List Dbl := match o.names with
  | none => []
  | some _ => [e.mass, e.tPrime]

/-- genPseudoData.py:153-180: initialization with the first event; `none`: the script stops. -/
noncomputable def genFirst (o : GenOptions) (w : EventWriter) (e : GenEvent) : Option EventWriter × EventWriter :=
  let i := w.initialize ⟨o.aux, .real, e.prodNames, e.decayNames, fun v => if v = "mass" then some o.massRange else none, o.varNames ++ ["weight"]⟩
  if !i.1 then (none, i.2)
  else if !o.modelOk e.prodNames e.decayNames then (none, i.2)
  else (some i.2, i.2)

/-- genPseudoData.py:146-192: the loop; the state is the writer and `first`; the result is the writer when the loop ends or is left. -/
noncomputable def genLoop (o : GenOptions) : EventWriter → Bool → List GenEvent → Outcome EventWriter
  | w, _, [] => .ok w
  | w, true, e :: es => match (genFirst o w e).1 with
    | none => .ok (genFirst o w e).2
    | some w' => do
      let w'' ← w'.addEvent e.prod e.decay (o.vars e ++ [e.weight])
      genLoop o w'' false es
  | w, false, e :: es => do
    let w'' ← w.addEvent e.prod e.decay (o.vars e ++ [e.weight])
    genLoop o w'' false es

/-- genPseudoData.py:131-196: the file that is written (`none`: no metadata); the loop may be interrupted after any number of events, the file is
finalized in any case: `events` are those that were generated before. -/
noncomputable def genPseudoData (md5 : Hashor → String) (o : GenOptions) (events : List GenEvent) : Outcome (Option EventMeta) := do
  let w ← genLoop o EventWriter.new true events
  .ok (w.finalize md5).1

end Rpwa.Deweight
