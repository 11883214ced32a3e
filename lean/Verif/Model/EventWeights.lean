import Verif.Model.FitResult
import Verif.Model.IntegralMatrix
import Mathlib.Analysis.SpecialFunctions.Pow.Real
/-!
# Weights of Monte Carlo events

Models `generators/weightEvents.cc` and `generators/modelIntensity.{h,cc}`.  Simplifications:
* numbers are real or complex numbers (a division by zero is 0 and the square root of a negative number is 0, NaN or infinity in C++);
* reading a file is a function from the wave name to the stored amplitudes, `none` if the file or its metadata cannot be read; the name of
  the file (`changeFileExtension`, C09) is not modelled;
* log messages, progress bar, command line and the booking of branches are omitted; at least one sample of amplitudes is asked for (`-n 1`). -/
namespace Rpwa.Wgt

open Rpwa.Fit Rpwa.Integral

/-! ### weightEvents.cc -/

/-- weightEvents.cc:282-284: the best candidate so far. -/
structure Best where
  index : ℕ
  mass : ℝ
  logL : ℝ

open Classical in
/-- body of the loop weightEvents.cc:287-311. -/
noncomputable def bestStep (center : ℝ) (b : Best) (iTree : ℕ) (mass logL : ℝ) : Best :=
  if iTree = 0 ∨ |center - mass| < |center - b.mass| then ⟨iTree, mass, logL⟩
  else if |center - mass| = |center - b.mass| then
    if logL < b.logL then ⟨iTree, mass, logL⟩ else b
  else b

open Classical in
/-- weightEvents.cc:280-323: the fit result that is used; an entry of the tree is mass, -ln L and the rest.  An empty tree leaves the pointer
null, which is dereferenced in l.326. -/
noncomputable def selectFit {α : Type} (center width : ℝ) (entries : List (ℝ × ℝ × α)) : Outcome α :=
  let b := entries.zipIdx.foldl (fun b e => bestStep center b e.2 e.1.1 e.1.2.1) ⟨0, 0, 0⟩
  if b.mass < center - width / 2 ∨ b.mass > center + width / 2 then .terminate
  else match entries[b.index]? with
    | some e => .ok e.2.2
    | none => .ub

/-- an amplitude tree: for every event the incoherent sub-amplitudes. -/
abbrev AmpFile := List (List ℂ)

/-- body of the loop weightEvents.cc:78-121; the state is the number of amplitudes and `ampRootTrees` (null for the flat wave). -/
def openStep (files : Name → Option AmpFile) (st : ℕ × List (Option AmpFile)) (w : Name) : ℕ × List (Option AmpFile) :=
  if w = "flat".toList then (st.1, st.2 ++ [none])
  else match files w with
    | none => st
    | some t =>
      if t.length = 0 then st
      else if st.1 = 0 then (t.length, st.2 ++ [some t])
      else if t.length ≠ st.1 then st
      else (st.1, st.2 ++ [some t])

/-- weightEvents.cc:69-125 `openRootAmpFiles`. -/
def openAmpFiles (files : Name → Option AmpFile) (waves : List Name) : ℕ × List (Option AmpFile) := waves.foldl (openStep files) (0, [])

/-- what is stored about a production amplitude (weightEvents.cc:350-358). -/
structure ProdInfo where
  wave : ℕ
  refl : ℤ
  rank : ℤ

/-- weightEvents.cc:340-346. -/
def prodInfo (r : FitResult) (i : ℕ) : Outcome ProdInfo := do
  let name ← r.prodAmpName i
  let refl ← getReflectivity (waveNameOf name)
  match r.waveIndex (waveNameOf name) with
  | some w => .ok ⟨w, refl, r.rankOfProdAmp i⟩
  | none => .ub

/-- weightEvents.cc:339-370 for the first sample. -/
def prodInfos (r : FitResult) : Outcome (List ProdInfo) := (List.range r.nmbProdAmps).mapM (prodInfo r)

/-- weightEvents.cc:326, 352: names of the waves that have production amplitudes. -/
def waveNamesOf (r : FitResult) (infos : List ProdInfo) : List Name :=
  infos.zipIdx.foldl (fun ns e => ns.set e.1.wave (waveNameOf (r.prodAmpNames.getD e.2 []))) (List.replicate r.waveNames.length [])

/-- weightEvents.cc:357-358, 371: largest rank, plus one for every sample. -/
def maxRank (infos : List ProdInfo) (nmbSamples : ℕ) : ℤ := infos.foldl (fun m p => if m < p.rank then p.rank else m) 0 + nmbSamples

/-- weightEvents.cc:444-454: decay amplitude of a wave for an event. -/
def decayAmp (tree : Option AmpFile) (iEvent : ℕ) : Outcome ℂ :=
  match tree with
  | none => .ok 0
  | some t => match t[iEvent]? with
    | some [a] => .ok a
    | some _ => .terminate
    | none => .ub

/-- the sums of weightEvents.cc:459-461 and the weights of the single production amplitudes. -/
structure Sums where
  pos : ℕ → ℂ
  neg : ℕ → ℂ
  flat : ℂ
  single : ℕ → ℝ

/-- `sums[rank] += amp`. -/
def addRank (maxRank : ℤ) (sums : ℕ → ℂ) (rank : ℤ) (amp : ℂ) : Outcome (ℕ → ℂ) :=
  if 0 ≤ rank ∧ rank < maxRank then .ok fun k => if (k : ℤ) = rank then sums k + amp else sums k else .ub

/-- weightEvents.cc:477-480. -/
def addAmp (maxRank : ℤ) (s : Sums) (p : ProdInfo) (i : ℕ) (amp : ℂ) : Outcome Sums :=
  let single : ℕ → ℝ := fun k => if k = i then Complex.normSq amp else s.single k
  if p.refl = 1 then do
    let pos ← addRank maxRank s.pos p.rank amp
    .ok ⟨pos, s.neg, s.flat, single⟩
  else if p.refl = -1 then do
    let neg ← addRank maxRank s.neg p.rank amp
    .ok ⟨s.pos, neg, s.flat, single⟩
  else .ok ⟨s.pos, s.neg, s.flat, single⟩

/-- body of the loop weightEvents.cc:463-482 (the weights of single amplitudes are kept for the first sample only, see `weighEvent`). -/
noncomputable def ampStep (int : IntMat) (names : List Name) (maxRank : ℤ) (decay : List ℂ) (amps : ℕ → ℂ) (s : Sums) (e : ProdInfo × ℕ) : Outcome Sums :=
  match decay[e.1.wave]?, names[e.1.wave]? with
  | some a, some n =>
    if n = "flat".toList then
      let amp := amps e.2 / (Real.sqrt int.nmbEvents : ℂ)
      .ok ⟨s.pos, s.neg, amp, fun k => if k = e.2 then Complex.normSq amp else s.single k⟩
    else do
      let z ← int.elementByName (String.ofList n) (String.ofList n)
      addAmp maxRank s e.1 e.2 (a * amps e.2 / (Real.sqrt (z.re * int.nmbEvents) : ℂ))
  | _, _ => .ub

/-- weightEvents.cc:459-482. -/
noncomputable def ampSums (int : IntMat) (names : List Name) (infos : List ProdInfo) (maxRank : ℤ) (decay : List ℂ) (amps : ℕ → ℂ) : Outcome Sums :=
  infos.zipIdx.foldlM (ampStep int names maxRank decay amps) ⟨fun _ => 0, fun _ => 0, 0, fun _ => 0⟩

/-- incoherent sum over rank, weightEvents.cc:485-490. -/
noncomputable def rankSum (maxRank : ℤ) (sums : ℕ → ℂ) : ℝ := (List.range maxRank.toNat).foldl (fun x k => x + Complex.normSq (sums k)) 0

/-- weightEvents.cc:493. -/
noncomputable def Sums.weight (maxRank : ℤ) (s : Sums) : ℝ := rankSum maxRank s.pos + rankSum maxRank s.neg + Complex.normSq s.flat

/-- the branches of the output tree (weightEvents.cc:397-430). -/
structure EventOut where
  weight : ℝ
  posRef : ℝ
  negRef : ℝ
  flat : ℝ
  waves : ℕ → ℝ
  prodAmps : ℕ → ℝ
  samples : List ℝ

/-- weightEvents.cc:496-501. -/
noncomputable def waveWeights (infos : List ProdInfo) (single : ℕ → ℝ) : ℕ → ℝ :=
  infos.zipIdx.foldl (fun w e => fun k => if k = e.1.wave then w k + single e.2 else w k) (fun _ => 0)

/-- body of the event loop weightEvents.cc:441-514; `varied` are the further samples of production amplitudes. -/
noncomputable def weighEvent (int : IntMat) (names : List Name) (infos : List ProdInfo) (first : ℕ → ℂ) (varied : List (ℕ → ℂ))
    (trees : List (Option AmpFile)) (iEvent : ℕ) : Outcome EventOut := do
  let decay ← trees.mapM fun t => decayAmp t iEvent
  let mr := maxRank infos (1 + varied.length)
  let s ← ampSums int names infos mr decay first
  let more ← varied.mapM fun a => ampSums int names infos mr decay a
  .ok ⟨s.weight mr, rankSum mr s.pos, rankSum mr s.neg, Complex.normSq s.flat, waveWeights infos s.single, s.single,
    s.weight mr :: more.map (Sums.weight mr)⟩

/-- weightEvents.cc:325-516 for the selected fit result. -/
noncomputable def weightEvents (int : IntMat) (r : FitResult) (varied : List (ℕ → ℂ)) (files : Name → Option AmpFile) : Outcome (List EventOut) := do
  let infos ← prodInfos r
  let names := waveNamesOf r infos
  let opened := openAmpFiles files names
  if names.length ≠ opened.2.length then .terminate
  else if opened.1 = 0 then .terminate
  else (List.range opened.1).mapM (weighEvent int names infos r.prodAmps varied opened.2)

/-! ### modelIntensity.{h,cc} -/

/-- what is used of an `isobarAmplitude` and its decay topology: wave name, reflectivity and name of X, the replacement of the topology by the
decay of X, `init` together with `initKinematicsData`, and `readKinematicsData` together with `amplitude` (`none`: refused).  Momenta are of type `κ`.
The amplitude objects are not shared with other parts of the program. -/
structure AmpOps (α κ : Type) where
  name : α → Name
  refl : α → ℤ
  parent : α → Name
  fromX : α → α
  initKin : α → List Name → List Name → Bool × α
  eval : α → List κ → List κ → Option ℂ

/-- modelIntensity.h:76-89 (`_allRefls` is a set: a list without repetitions, its order does not matter). -/
structure ModelInt (α : Type) where
  fit : FitResult
  noFlat : List ℕ
  initialized : Bool
  amps : List (Option α)
  refls : List ℤ
  allRefls : List ℤ
  intLoaded : Bool
  ints : List ℝ
  fromX : Bool

/-- the regular expression of modelIntensity.cc:21. -/
def noFlatPattern : Name := "^(?!flat$).*$".toList

namespace ModelInt
variable {α κ : Type}

/-- modelIntensity.cc:6-22. -/
noncomputable def new (rx : Name → Name → Bool) (fit : FitResult) : ModelInt α :=
  let have_ := decide (fit.phaseSpaceIntegral.length = fit.waveNames.length)
  { fit := fit
    noFlat := fit.waveIndicesMatching rx noFlatPattern
    initialized := false
    amps := List.replicate fit.waveNames.length none
    refls := List.replicate fit.waveNames.length 0
    allRefls := []
    intLoaded := have_
    ints := if have_ then fit.phaseSpaceIntegral else List.replicate fit.waveNames.length 0
    fromX := false }

/-- modelIntensity.cc:25-44. -/
def addDecayAmplitude (ops : AmpOps α κ) (m : ModelInt α) (a : α) : Outcome (Bool × ModelInt α) :=
  match m.fit.waveIndex (ops.name a) with
  | none => .ok (false, m)
  | some w => match m.amps[w]? with
    | none => .ub
    | some (some _) => .ok (false, m)
    | some none =>
      .ok (true, { m with
        initialized := false
        amps := m.amps.set w (some a)
        refls := m.refls.set w (ops.refl a)
        allRefls := m.allRefls.insert (ops.refl a) })

/-- the loop modelIntensity.cc:53-65 over the names that are left; `i` is the index. -/
noncomputable def loadLoop (int : IntMat) : List Name → ℕ → List ℝ → Outcome (Bool × List ℝ)
  | [], _, ints => .ok (true, ints)
  | n :: ns, i, ints =>
    if n = "flat".toList then loadLoop int ns (i + 1) (ints.set i 1)
    else if int.containsWave (String.ofList n) = false then .ok (false, ints)
    else do
      let z ← int.elementByName (String.ofList n) (String.ofList n)
      loadLoop int ns (i + 1) (ints.set i (Real.sqrt z.re))

/-- modelIntensity.cc:47-69. -/
noncomputable def loadPhaseSpaceIntegral (m : ModelInt α) (int : IntMat) : Outcome (Bool × ModelInt α) := do
  let ints := (m.ints ++ List.replicate (m.fit.waveNames.length - m.ints.length) 0).take m.fit.waveNames.length
  let res ← loadLoop int m.fit.waveNames 0 ints
  .ok (res.1, { m with intLoaded := res.1, ints := res.2 })

/-- one amplitude, modelIntensity.cc:141-158: names of the production particles (l.143-147, 100-112), topology from X (l.150-154), initialisation. -/
def initOne (ops : AmpOps α κ) (fromX : Bool) (prod decay : List Name) (a : α) : Bool × List Name × α :=
  let prod := if fromX && (prod.length == 0 || prod.head? == some []) then [ops.parent a] else prod
  let a := if fromX then ops.fromX a else a
  let res := ops.initKin a prod decay
  (res.1, prod, res.2)

/-- the loop modelIntensity.cc:126-159; result: all initialised, and the amplitudes. -/
def initLoop (ops : AmpOps α κ) (fromX : Bool) (decay : List Name) : List (Name × Option α) → List Name → Bool × List (Option α)
  | [], _ => (true, [])
  | (n, a) :: rest, prod =>
    if n = "flat".toList then
      match a with
      | some _ => (false, a :: rest.map Prod.snd)
      | none => let res := initLoop ops fromX decay rest prod
        (res.1, none :: res.2)
    else match a with
      | none => (false, a :: rest.map Prod.snd)
      | some x =>
        let one := initOne ops fromX prod decay x
        if one.1 then
          let res := initLoop ops fromX decay rest one.2.1
          (res.1, some one.2.2 :: res.2)
        else (false, some one.2.2 :: rest.map Prod.snd)

/-- modelIntensity.cc:117-163. -/
def initDecay (ops : AmpOps α κ) (m : ModelInt α) (prod decay : List Name) (fromX : Bool) : Bool × ModelInt α :=
  let res := initLoop ops fromX decay (m.fit.waveNames.zip m.amps) prod
  (res.1, { m with initialized := res.1, fromX := fromX, amps := res.2 })

/-- modelIntensity.cc:72-77: decay of X only. -/
def initDecayAmplitudesX (ops : AmpOps α κ) (m : ModelInt α) (decay : List Name) : Bool × ModelInt α := m.initDecay ops [[]] decay true

/-- modelIntensity.cc:80-85. -/
def initDecayAmplitudes (ops : AmpOps α κ) (m : ModelInt α) (prod decay : List Name) : Bool × ModelInt α := m.initDecay ops prod decay false

/-- modelIntensity.cc:205-217: the decay amplitude of one wave divided by its phase-space integral. -/
noncomputable def evalOne (ops : AmpOps α κ) (prod decay : List κ) (e : Option α × ℝ) : Outcome ℂ :=
  match e.1 with
  | none => .ok (1 / (e.2 : ℂ))
  | some a => match ops.eval a prod decay with
    | some z => .ok (z / (e.2 : ℂ))
    | none => .terminate

/-- modelIntensity.cc:192-219 `getDecayAmplitudes`. -/
noncomputable def getDecayAmplitudes (ops : AmpOps α κ) (m : ModelInt α) (prod decay : List κ) : Outcome (List ℂ) :=
  if m.initialized = false then .terminate
  else if m.intLoaded = false then .terminate
  else (m.amps.zip m.ints).mapM (evalOne ops prod decay)

/-- the inner loop modelIntensity.cc:179-184. -/
noncomputable def reflSum (m : ModelInt α) (ws : List ℕ) (psi : List ℂ) (e : ℤ) : Outcome ℂ :=
  ws.foldlM (fun s w => match m.refls[w]?, psi[w]? with
    | some refl, some a => .ok (if refl = e then s + m.fit.prodAmps w * a else s)
    | _, _ => .ub) 0

/-- modelIntensity.cc:169-189 `getIntensity(waveIndices, prodKinMomenta, decayKinMomenta)`. -/
noncomputable def getIntensityOf (ops : AmpOps α κ) (m : ModelInt α) (ws : List ℕ) (prod decay : List κ) : Outcome ℝ := do
  let psi ← m.getDecayAmplitudes ops prod decay
  m.allRefls.foldlM (fun x e => do
    let s ← m.reflSum ws psi e
    .ok (x + Complex.normSq s)) 0

/-- modelIntensity.h:100-106: all waves except the flat wave. -/
noncomputable def getIntensity (ops : AmpOps α κ) (m : ModelInt α) (prod decay : List κ) : Outcome ℝ := m.getIntensityOf ops m.noFlat prod decay

/-- modelIntensity.h:92-97, 109-119: decay of X only (`zero` is the momentum `TVector3()`). -/
noncomputable def getIntensityX (ops : AmpOps α κ) (zero : κ) (m : ModelInt α) (decay : List κ) : Outcome ℝ :=
  if m.fromX = false then .terminate else m.getIntensityOf ops m.noFlat [zero] decay

/-- calls of the public interface. -/
inductive Call (α : Type) where
  | add (a : α)
  | load (int : IntMat)
  | initX (decay : List Name)
  | init (prod decay : List Name)

/-- one call: what it returns and the new state. -/
noncomputable def step (ops : AmpOps α κ) (m : ModelInt α) : Call α → Outcome (Bool × ModelInt α)
  | .add a => m.addDecayAmplitude ops a
  | .load int => m.loadPhaseSpaceIntegral int
  | .initX decay => .ok (m.initDecayAmplitudesX ops decay)
  | .init prod decay => .ok (m.initDecayAmplitudes ops prod decay)

end ModelInt

end Rpwa.Wgt
