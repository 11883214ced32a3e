import Verif.Model.Basic
import Mathlib.Data.Complex.Basic
import Mathlib.Data.Complex.BigOperators
import Mathlib.Data.Real.Archimedean
/-!
# decayAmplitude/ampIntegralMatrix.{h,cc}: amplitude integral matrices

Numbers: `double` is modelled by `ℝ`, `std::complex<double>` by `ℂ` (no rounding), `unsigned` by `ℕ` (no wrap-around,
except where stated).  Log output is not modelled. -/
namespace Rpwa.Integral

/-- `for (i = 0; i < n; ++i) s = f(i, s)` with abnormal endings propagated. -/
def forRange {σ : Type} : ℕ → σ → (ℕ → σ → Outcome σ) → Outcome σ
  | 0, s, _ => .ok s
  | n + 1, s, f => forRange n s f >>= f n

/-- wave description attached to a wave (decayAmplitude/waveDescription.h); only the wave it describes and whether its key
file was parsed matter here. -/
structure Desc where
  wave : String
  parsed : Bool
  deriving DecidableEq, Repr

/-- ampIntegralMatrix.h:150-167, the data members: `_nmbWaves`, `_waveNames`, `_nmbEvents`, `_integrals` (a
`boost::multi_array` of shape `rows × cols`; entries outside the shape are never observable) and `_waveDescriptions`. -/
structure IntMat where
  nmbWaves : ℕ
  names : List String
  nmbEvents : ℕ
  rows : ℕ
  cols : ℕ
  mat : ℕ → ℕ → ℂ
  descs : List Desc

/-- ampIntegralMatrix.cc:55-66 default constructor (and `clear`, l.92-102). -/
noncomputable def empty : IntMat := ⟨0, [], 0, 0, 0, fun _ _ => 0, []⟩

/-- reading `_integrals[i][j]`; outside the shape is undefined behaviour (an assertion in debug builds). -/
noncomputable def IntMat.get (m : IntMat) (i j : ℕ) : Outcome ℂ :=
  if i < m.rows ∧ j < m.cols then .ok (m.mat i j) else .ub

/-- `_integrals[i][j] = z`. -/
noncomputable def IntMat.set (m : IntMat) (i j : ℕ) (z : ℂ) : Outcome IntMat :=
  if i < m.rows ∧ j < m.cols then
    .ok { m with mat := fun a b => if a = i ∧ b = j then z else m.mat a b }
  else .ub

/-- `_integrals.resize(extents[r][c])`: keeps the overlap, value-initialises new entries. -/
noncomputable def IntMat.resize (m : IntMat) (r c : ℕ) : IntMat :=
  { m with rows := r, cols := c, mat := fun i j => if i < m.rows ∧ j < m.cols then m.mat i j else 0 }

/-- ampIntegralMatrix.cc:187-191. -/
def IntMat.containsWave (m : IntMat) (n : String) : Bool := m.names.contains n

/-- ampIntegralMatrix.cc:194-203: position of the first occurrence, abort if absent. -/
def IntMat.waveIndex (m : IntMat) (n : String) : Outcome ℕ :=
  let k := m.names.idxOf n
  if k ≥ m.names.length then .terminate else .ok k

/-- ampIntegralMatrix.cc:206-215. -/
def IntMat.waveName (m : IntMat) (i : ℕ) : Outcome String :=
  match m.names[i]? with
  | some n => .ok n
  | none => .terminate

/-- ampIntegralMatrix.cc:218-224: description at an index (null pointer is `none`). -/
def IntMat.waveDesc (m : IntMat) (i : ℕ) : Option Desc := m.descs[i]?

/-- ampIntegralMatrix.cc:227-234. -/
def IntMat.allWavesHaveDesc (m : IntMat) : Bool := m.descs.all (·.parsed)

/-- ampIntegralMatrix.cc:237-251 `element(i, j)`: integral divided by the number of events. In C++ the division by zero
events gives NaN; here it gives 0, so theorems assume `nmbEvents ≠ 0`. -/
noncomputable def IntMat.element (m : IntMat) (i j : ℕ) : Outcome ℂ :=
  if i ≥ m.nmbWaves then .terminate
  else if j ≥ m.nmbWaves then .terminate
  else do
    let z ← m.get i j
    .ok (z / (m.nmbEvents : ℂ))

/-- ampIntegralMatrix.h:121-123 `element` by wave names. -/
noncomputable def IntMat.elementByName (m : IntMat) (a b : String) : Outcome ℂ := do
  let i ← m.waveIndex a
  let j ← m.waveIndex b
  m.element i j

/-- all of `waves 0 .. n-1` satisfy a test; the loop stops at the first failure (ampIntegralMatrix.cc:640-655). -/
def allOutcome (test : ℕ → Outcome Bool) : ℕ → Outcome Bool
  | 0 => .ok true
  | n + 1 => do
    let b ← allOutcome test n
    if b then test n else .ok false

/-- ampIntegralMatrix.cc:641-655 `hasIdenticalWaveSet`. -/
def IntMat.hasIdenticalWaveSet (m o : IntMat) : Outcome Bool :=
  if m.nmbWaves ≠ o.nmbWaves then .ok false
  else do
    let b ← allOutcome (fun i => do let n ← m.waveName i; .ok (o.containsWave n)) m.nmbWaves
    if b then
      allOutcome (fun i => do let n ← o.waveName i; .ok (m.containsWave n)) o.nmbWaves
    else .ok false

/-- the double loop of `+=` and `-=` (ampIntegralMatrix.cc:133-137, 153-157); `o` is a different object than `m`
(self-addition, where reads and writes alias, is not modelled). -/
noncomputable def combineLoop (op : ℂ → ℂ → ℂ) (m o : IntMat) : Outcome IntMat :=
  forRange m.nmbWaves m fun i s => do
    let ni ← s.waveName i
    forRange m.nmbWaves s fun j s => do
      let oi ← o.waveIndex ni
      let nj ← s.waveName j
      let oj ← o.waveIndex nj
      let z ← o.get oi oj
      let w ← s.get i j
      s.set i j (op w z)

/-- ampIntegralMatrix.cc:125-142 `operator +=`. -/
noncomputable def IntMat.addAssign (m o : IntMat) : Outcome IntMat := do
  let same ← m.hasIdenticalWaveSet o
  if same then
    let s ← combineLoop (· + ·) m o
    .ok { s with nmbEvents := s.nmbEvents + o.nmbEvents, descs := o.descs }
  else .terminate

/-- ampIntegralMatrix.cc:145-162 `operator -=`; the event number is `unsigned long`, so it wraps modulo 2^64. -/
noncomputable def IntMat.subAssign (m o : IntMat) : Outcome IntMat := do
  let same ← m.hasIdenticalWaveSet o
  if same then
    let s ← combineLoop (· - ·) m o
    .ok { s with nmbEvents := (s.nmbEvents + (2 ^ 64 - o.nmbEvents % 2 ^ 64)) % 2 ^ 64, descs := o.descs }
  else .terminate

/-- the double loop of `*=` and `/=`. -/
noncomputable def mapLoop (f : ℂ → ℂ) (m : IntMat) : Outcome IntMat :=
  forRange m.nmbWaves m fun i s =>
    forRange m.nmbWaves s fun j s => do
      let w ← s.get i j
      s.set i j (f w)

/-- ampIntegralMatrix.cc:165-173 `operator *=`; `_nmbEvents *= factor` converts the product back to `unsigned long`
(truncation; negative values are out of range, i.e. undefined). -/
noncomputable def IntMat.mulAssign (m : IntMat) (c : ℝ) : Outcome IntMat := do
  let s ← mapLoop (· * (c : ℂ)) m
  if (m.nmbEvents : ℝ) * c ≤ -1 then .ub
  else .ok { s with nmbEvents := ⌊(m.nmbEvents : ℝ) * c⌋₊ }

/-- ampIntegralMatrix.cc:176-184 `operator /=` (factor ≠ 0). -/
noncomputable def IntMat.divAssign (m : IntMat) (c : ℝ) : Outcome IntMat := do
  let s ← mapLoop (· / (c : ℂ)) m
  if (m.nmbEvents : ℝ) / c ≤ -1 then .ub
  else .ok { s with nmbEvents := ⌊(m.nmbEvents : ℝ) / c⌋₊ }

/-- ampIntegralMatrix.cc:494-501 `renormalize`. With `_nmbEvents = 0` the factor is infinite; theorems exclude it. -/
noncomputable def IntMat.renormalize (m : IntMat) (n : ℕ) : Outcome IntMat := do
  let s ← m.mulAssign ((n : ℝ) / (m.nmbEvents : ℝ))
  .ok { s with nmbEvents := n }

/-- ampIntegralMatrix.cc:253-277 `setWaveNames`. -/
noncomputable def IntMat.setWaveNames (m : IntMat) (ns : List String) : Bool × IntMat :=
  if m.nmbWaves > 0 then
    if ns.length = m.nmbWaves then (ns == m.names.take m.nmbWaves, m) else (false, m)
  else
    (true, ({ m with names := ns, nmbWaves := ns.length }).resize ns.length ns.length)

/-- ampIntegralMatrix.cc:279-298 `addEvent`: `amps` is the map from wave names to amplitude values. -/
noncomputable def IntMat.addEvent (m : IntMat) (amps : String → Option ℂ) : Outcome (Bool × IntMat) := do
  let present ← allOutcome (fun i => do let n ← m.waveName i; .ok (amps n).isSome) m.nmbWaves
  if present then
    let s ← forRange m.nmbWaves m fun i s => do
      let ni ← s.waveName i
      forRange m.nmbWaves s fun j s => do
        let nj ← s.waveName j
        let w ← s.get i j
        s.set i j (w + (amps ni).getD 0 * (starRingEnd ℂ) ((amps nj).getD 0))
    .ok (true, { s with nmbEvents := s.nmbEvents + 1 })
  else .ok (false, m)

/-- One amplitude tree: the wave it belongs to and for each event the incoherent sub-amplitudes
(storageFormats/amplitudeTreeLeaf.h). -/
structure AmpTree where
  wave : String
  events : List (List ℂ)

/-- what is left of an importance-sampling weight file: the numbers that can be extracted (extraction fails when they
are used up). -/
abbrev WeightFile := List ℝ

/-- state of the event loop of `integrate`. `sumProd i j`, `sumWeight` are the compensated sums (exact here, C07). -/
structure Acc where
  counter : ℕ
  sumWeight : ℝ
  sumProd : ℕ → ℕ → ℂ
  weights : WeightFile
  success : Bool
  stopped : Bool

/-- `amps[waveIndex][subAmp]` of one event, ampIntegralMatrix.cc:424-437: `none` when the tree has no such entry. -/
def readAmps (trees : List AmpTree) (ev : ℕ) : Outcome (List (List ℂ)) :=
  match trees with
  | [] => .ok []
  | t :: ts =>
    match t.events[ev]? with
    | none => .ub
    | some [] => .terminate
    | some (a :: as) => do
      let r ← readAmps ts ev
      .ok ((a :: as) :: r)

/-- `Σ_k a_k conj(b_k)` over the incoherent sub-amplitudes, ampIntegralMatrix.cc:455-457. -/
noncomputable def subSum (a b : List ℂ) : ℂ := (List.zipWith (fun x y => x * (starRingEnd ℂ) y) a b).sum

/-- one iteration of the event loop, ampIntegralMatrix.cc:398-462. `inBin` is the on-the-fly bin test (`none` without
event metadata). Incoherent sub-amplitude numbers that differ between waves abort. -/
noncomputable def eventStep (trees : List AmpTree) (useWeight : Bool) (inBin : Option (ℕ → Bool)) (ev : ℕ) (s : Acc) :
    Outcome Acc :=
  if s.stopped then .ok s
  else if (inBin.map (· ev)).getD true = false then .ok s
  else
    let s := { s with counter := s.counter + 1 }
    let wr : Option (ℝ × WeightFile) :=
      if useWeight then (match s.weights with | [] => none | w :: ws => some (w, ws)) else some (1, s.weights)
    match wr with
    | none => .ok { s with success := false, stopped := true }
    | some (w, ws) => do
      let weight := 1 / w
      let amps ← readAmps trees ev
      if amps.all (fun a => amps.all fun b => a.length == b.length) then
        .ok { s with
          weights := ws
          sumWeight := s.sumWeight + weight
          sumProd := fun i j =>
            s.sumProd i j +
              (if useWeight then subSum (amps.getD i []) (amps.getD j []) * (weight : ℂ)
               else subSum (amps.getD i []) (amps.getD j [])) }
      else .terminate

/-- ampIntegralMatrix.cc:300-491 `integrate`. `weights`: content of the weight file, if one is given; `eventBin`: number of
entries of the event tree and the bin test, if event metadata are given (the bin is not empty). Simplified: a file that
cannot be opened or a tree branch that cannot be connected (returns `false`) is not modelled. -/
noncomputable def IntMat.integrate (m : IntMat) (trees : List AmpTree) (maxNmbEvents : ℤ)
    (weights : Option WeightFile) (eventBin : Option (ℕ × (ℕ → Bool))) : Outcome (Bool × IntMat) :=
  match trees with
  | [] => .ok (false, m)
  | t :: _ =>
    let start : Option IntMat :=
      if m.names = [] then some { m with nmbWaves := trees.length, names := trees.map (·.wave) }
      else if m.names.length = trees.length then
        (if trees.map (·.wave) = m.names then some m else none)
      else none
    match start with
    | none => .ok (false, m)
    | some m =>
      let n := t.events.length
      if n = 0 then .ok (false, m)
      else if trees.any (fun u => u.events.length != n) then .ok (false, m)
      else
        let nEv := if maxNmbEvents ≤ 0 then n else min n maxNmbEvents.toNat
        let m := { m with nmbEvents := nEv, descs := if m.allWavesHaveDesc then m.descs else [] }
        match eventBin with
        | some (entries, test) =>
          if entries ≠ n then .ok (false, m)
          else finish m trees nEv weights (some test)
        | none => finish m trees nEv weights none
where
  /-- event loop and normalisation, ampIntegralMatrix.cc:387-490. -/
  finish (m : IntMat) (trees : List AmpTree) (nEv : ℕ) (weights : Option WeightFile) (inBin : Option (ℕ → Bool)) :
      Outcome (Bool × IntMat) := do
    let acc ← forRange nEv ⟨0, 0, fun _ _ => 0, weights.getD [], true, false⟩ (eventStep trees weights.isSome inBin)
    let m := ({ m with nmbEvents := acc.counter }).resize m.nmbWaves m.nmbWaves
    let weightNorm := acc.sumWeight / (acc.counter : ℝ)
    let value : ℕ → ℕ → ℂ := fun i j =>
      (if weights.isSome then acc.sumProd i j * ((1 / weightNorm : ℝ) : ℂ) else acc.sumProd i j)
    let m : IntMat :=
      { m with mat := (fun i j => if i < m.nmbWaves ∧ j < m.nmbWaves then value i j else m.mat i j) }
    .ok (acc.success, m)

/-- ampIntegralMatrix.h:177-195 `operator ==`. -/
noncomputable def IntMat.eq (m o : IntMat) : Outcome Bool := do
  let same ← m.hasIdenticalWaveSet o
  if same = false then .ok false
  else if m.nmbEvents ≠ o.nmbEvents then .ok false
  else
    allOutcome (fun i => do
      let ni ← m.waveName i
      allOutcome (fun j => do
        let nj ← m.waveName j
        let z ← m.get i j
        let oi ← o.waveIndex ni
        let oj ← o.waveIndex nj
        let w ← o.get oi oj
        .ok (by classical exact decide (z = w))) m.nmbWaves) m.nmbWaves

/-! ### text form -/

/-- a whitespace-separated word of a text stream: the decimal form of a number (printed with 17 significant digits in
scientific notation, utilities/reportingUtils.hpp:282-310, which determines a `double` exactly) or other text. -/
inductive Word where
  | num (n : ℕ)
  | cplx (z : ℂ)
  | txt (s : List Char)

/-- the words a string is split into when extracted with `>>` (maximal runs without white space). -/
def wordsOf (s : List Char) : List (List Char) := (s.splitOnP Char.isWhitespace).filter (· ≠ [])

/-- rows of the matrix as words, ampIntegralMatrix.cc:514-518. -/
noncomputable def matrixWords (m : IntMat) : Outcome (List Word) :=
  forRange m.nmbWaves [] fun i l =>
    forRange m.nmbWaves l fun j l => do
      let z ← m.get i j
      .ok (l ++ [.cplx z])

/-- wave names with their index, ampIntegralMatrix.cc:521-523. -/
def nameWords (m : IntMat) : Outcome (List Word) :=
  forRange m.nmbWaves [] fun i l =>
    match m.names[i]? with
    | none => .ub
    | some n => .ok (l ++ (wordsOf n.toList).map Word.txt ++ [.num i])

/-- ampIntegralMatrix.cc:504-526 `writeAscii(ostream& out)`: the names go to `cout`, everything else to `out`. The result
is what the stream `out` received; `outIsCout` tells whether it is the standard output itself (the default argument). -/
noncomputable def IntMat.writeAscii (m : IntMat) (outIsCout : Bool) : Outcome (List Word) := do
  let mw ← matrixWords m
  let nw ← nameWords m
  .ok ([.num m.nmbWaves, .num m.nmbEvents, .num m.nmbWaves, .num m.nmbWaves] ++ mw ++ [.num m.names.length]
    ++ (if outIsCout then nw else []))

/-- `in >> unsigned`. -/
def readNum : List Word → Option (ℕ × List Word)
  | .num n :: r => some (n, r)
  | _ => none

/-- `in >> complex<double>` (an integer word would also be accepted; that never occurs in the written format). -/
def readCplx : List Word → Option (ℂ × List Word)
  | .cplx z :: r => some (z, r)
  | _ => none

/-- `in >> string`: any word; the text of a number word is not modelled further. -/
def readTxt : List Word → Option (List Char × List Word)
  | .txt s :: r => some (s, r)
  | _ => none

/-- matrix part of `readAscii`, ampIntegralMatrix.cc:545-551: `Sum.inr` when an extraction failed. -/
noncomputable def readMatrix (r c : ℕ) (m : IntMat) (ws : List Word) : Outcome (IntMat × Option (List Word)) :=
  forRange r (m, some ws) fun i s =>
    forRange c s fun j s =>
      match s with
      | (m, none) => .ok (m, none)
      | (m, some ws) =>
        match readCplx ws with
        | none => .ok (m, none)
        | some (z, ws) => do
          let m ← m.set i j z
          .ok (m, some ws)

/-- name part of `readAscii`, ampIntegralMatrix.cc:560-569. -/
def readNames : ℕ → List String → List Word → Outcome (Bool × List String)
  | 0, ns, _ => .ok (true, ns)
  | k + 1, ns, ws =>
    match readTxt ws with
    | none => .ok (false, ns)
    | some (w, ws) =>
      match readNum ws with
      | none => .ok (false, ns)
      | some (i, ws) =>
        if i < ns.length then readNames k (ns.set i (String.ofList w)) ws else .ub

/-- `_waveNames.resize(n)`. -/
def resizeNames (n : ℕ) (ns : List String) : List String := ns.take n ++ List.replicate (n - ns.length) ""

/-- ampIntegralMatrix.cc:529-571 `readAscii(istream&)`. -/
noncomputable def IntMat.readAscii (m : IntMat) (ws : List Word) : Outcome (Bool × IntMat) :=
  match readNum ws with
  | none => .ok (false, m)
  | some (nw, ws) =>
    let m := { m with nmbWaves := nw }
    match readNum ws with
    | none => .ok (false, m)
    | some (ne, ws) =>
      let m := { m with nmbEvents := ne }
      match readNum ws with
      | none => .ok (false, m)
      | some (r, ws) =>
        match readNum ws with
        | none => .ok (false, m)
        | some (c, ws) => do
          let (m, rest) ← readMatrix r c (m.resize r c) ws
          match rest with
          | none => .ok (false, m)
          | some ws =>
            let m := { m with names := resizeNames nw m.names }
            match readNum ws with
            | none => .ok (false, m)
            | some (k, ws) =>
              if k ≠ nw then .ok (false, m)
              else do
                let (ok, ns) ← readNames k m.names ws
                .ok (ok, { m with names := ns })

end Rpwa.Integral
