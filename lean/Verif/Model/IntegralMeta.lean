import Verif.Model.IntegralMatrix
import Verif.Model.Storage
/-!
# decayAmplitude/ampIntegralMatrixMetadata.cc, pyInterface/module/_integrals.py and _integralsOnTheFly.py

Integral matrices with their metadata: merging of two of them, the integration of amplitude files and the integration "on the fly".
Simplifications:
* numbers as in `Model/IntegralMatrix`; `bytes z` are the bytes of a `std::complex<double>`, `md5` the hash of bytes;
* a `std::map` of bin boundaries is a list of pairs with different keys (its order is never observed);
* output files can be created and written; ROOT reads back what was written;
* both operands of a merge are different objects with different matrices;
* a Python exception is `terminate`. -/
namespace Rpwa.IntMeta
open Rpwa.Integral Rpwa.Storage

/-- `multibinBoundariesType`. -/
abbrev BinMap := List (String × (ℝ × ℝ))

/-- ampIntegralMatrixMetadata.h:66-77: the members. -/
structure Meta where
  contentHash : String
  gitHash : String
  allZeroHash : String
  matrix : Option IntMat
  ampHashes : List String
  keyFiles : List String
  bins : BinMap
  evtMetas : List EventMeta

/-- ampIntegralMatrixMetadata.cc:12-19: the constructor. -/
def Meta.new : Meta := ⟨"", "", "", none, [], [], [], []⟩

open Classical in
/-- eventMetadata.cc:70-91 `operator ==`: the auxiliary information is not compared. -/
noncomputable def sameEvt (a b : EventMeta) : Bool :=
  decide (a.contentHash = b.contentHash) && decide (a.eventsType = b.eventsType) && decide (a.prodNames = b.prodNames)
    && decide (a.decayNames = b.decayNames) && decide (a.bounds = b.bounds) && decide (a.addNames = b.addNames)

variable (md5 : List UInt8 → String) (bytes : ℂ → List UInt8)

/-- ampIntegralMatrixMetadata.cc:24-37 `recalculateHash`. -/
noncomputable def Meta.recalculateHash (m : Meta) : Outcome String :=
  match m.matrix with
  | none => .ok ""
  | some M => do
    let h ← forRange M.nmbWaves ([] : List UInt8) fun i h =>
      forRange M.nmbWaves h fun j h => do
        let z ← M.element i j
        .ok (h ++ bytes z)
    .ok (md5 h)

/-- ampIntegralMatrixMetadata.cc:165-176 `setHash`. -/
noncomputable def Meta.setHash (m : Meta) : Outcome (Bool × Meta) :=
  match m.matrix with
  | none => .ok (false, m)
  | some _ => do
    let h ← m.recalculateHash md5 bytes
    let m := { m with contentHash := h }
    if h = "" then .ok (false, m) else .ok (true, m)

/-- ampIntegralMatrixMetadata.cc:223-235 `setAllZeroHash`. -/
noncomputable def Meta.setAllZeroHash (m : Meta) : Bool × Meta :=
  match m.matrix with
  | none => (false, { m with allZeroHash := "" })
  | some M => (true, { m with allZeroHash := md5 ((List.range M.nmbEvents).foldl (fun h _ => h ++ bytes 0) []) })

/-- ampIntegralMatrixMetadata.cc:151-162 `setAmpIntegralMatrix`; `none` is the null pointer. -/
noncomputable def Meta.setMatrix (m : Meta) (M : Option IntMat) : Bool × Meta :=
  match M with
  | none => (false, m)
  | some M => ({ m with matrix := some M }).setAllZeroHash md5 bytes

/-- ampIntegralMatrixMetadata.cc:292-294 `hasKeyFileContent`. -/
def Meta.hasKeyFile (m : Meta) (c : String) : Bool := m.keyFiles.contains c

/-- ampIntegralMatrixMetadata.cc:179-186 `addKeyFileContent`. -/
def Meta.addKeyFile (m : Meta) (c : String) : Bool × Meta :=
  if m.hasKeyFile c then (false, m) else (true, { m with keyFiles := m.keyFiles ++ [c] })

/-- ampIntegralMatrixMetadata.cc:210-220 `addAmplitudeHash`. -/
def Meta.addHash (m : Meta) (h : String) : Bool × Meta :=
  if h = m.allZeroHash then (true, m)
  else if m.ampHashes.contains h then (false, m)
  else (true, { m with ampHashes := m.ampHashes ++ [h] })

/-- ampIntegralMatrixMetadata.cc:238-245 `addEventMetadata`; `std::find` compares with `operator ==`. -/
noncomputable def Meta.addEvt (m : Meta) (e : EventMeta) : Bool × Meta :=
  if m.evtMetas.any (fun x => sameEvt x e) then (false, m) else (true, { m with evtMetas := m.evtMetas ++ [e] })

/-- ampIntegralMatrixMetadata.cc:189-207: the loop that fills the new map; `none`: a variable is missing. -/
noncomputable def unionBins (old : BinMap) : BinMap → Option BinMap
  | [] => some []
  | (v, r) :: rest =>
    match old.lookup v with
    | none => none
    | some o => (unionBins old rest).map fun l => (v, (min r.1 o.1, max r.2 o.2)) :: l

/-- ampIntegralMatrixMetadata.cc:189-207 `mergeMultibinBoundaries`. -/
noncomputable def Meta.mergeBins (m : Meta) (b : BinMap) : Bool × Meta :=
  if b.length ≠ m.bins.length then (false, m)
  else match unionBins m.bins b with
    | none => (false, m)
    | some l => (true, { m with bins := l })

/-- ampIntegralMatrixMetadata.cc:118-125: add the hashes until one is refused. -/
def Meta.addHashes (m : Meta) : List String → Bool × Meta
  | [] => (true, m)
  | h :: hs =>
    match m.addHash h with
    | (false, m) => (false, m)
    | (true, m) => m.addHashes hs

/-- ampIntegralMatrixMetadata.cc:131-138: add the event metadata until one is refused. -/
noncomputable def Meta.addEvts (m : Meta) : List EventMeta → Bool × Meta
  | [] => (true, m)
  | e :: es =>
    match m.addEvt e with
    | (false, m) => (false, m)
    | (true, m) => m.addEvts es

/-- ampIntegralMatrixMetadata.cc:98-148 `mergeIntegralMatrix`: the return value and this object afterwards. -/
noncomputable def Meta.merge (m second : Meta) : Outcome (Bool × Meta) :=
  match second.matrix, m.matrix with
  | some S, some M =>
    if S.nmbWaves ≠ M.nmbWaves then .ok (false, m)
    else if second.gitHash ≠ m.gitHash then .ok (false, m)
    else if second.keyFiles.any (fun c => !m.hasKeyFile c) then .ok (false, m)
    else match m.addHashes second.ampHashes with
      | (false, m) => .ok (false, m)
      | (true, m) =>
        match m.mergeBins second.bins with
        | (false, m) => .ok (false, m)
        | (true, m) =>
          match m.addEvts second.evtMetas with
          | (false, m) => .ok (false, m)
          | (true, m) => do
            let M ← M.addAssign S
            ({ m with matrix := some M }).setHash md5 bytes
  | _, _ => .ub

variable (keyWaves : String → List (Option String))

/-- ampIntegralMatrixMetadata.cc:248-283 `check`. `keyWaves c` are the waves described by the key-file text `c`: the name of each, `none` if its
decay topology cannot be constructed. -/
def Meta.check (m : Meta) : Bool :=
  match m.matrix with
  | none => false
  | some M =>
    let described := m.keyFiles.flatMap keyWaves
    let names := described.filterMap id
    described.all (·.isSome) && names.all M.containsWave && decide (M.nmbWaves = names.length)

/-- ampIntegralMatrixMetadata.cc:297-313 `writeToFile`: the return value and the object, which is what is written. -/
noncomputable def Meta.writeToFile (m : Meta) : Outcome (Bool × Meta) := do
  let (ok, m) ← m.setHash md5 bytes
  if ok then .ok (m.check keyWaves, m) else .ok (false, m)

/-! ### integration of amplitude files -/

/-- eventMetadata.cc:381-400 `inBoundaries`; `vars` are the additional variables of the event. -/
noncomputable def inBoundaries (bins : BinMap) (vars : String → Option ℝ) : Bool :=
  bins.all fun b => match vars b.1 with
    | some x => !(decide (x < b.2.1) || decide (x ≥ b.2.2))
    | none => false

/-- one amplitude with its metadata (storageFormats/amplitudeMetadata.h). -/
structure AmpFile where
  wave : String
  keyFile : String
  hash : String
  events : List (List ℂ)

/-- one event file with the amplitude files of its waves; `rows` are the additional variables of its events. -/
structure EvtFile where
  evtMeta : EventMeta
  rows : List (String → Option ℝ)
  amps : List AmpFile

/-- _integrals.py:35-46: metadata of one amplitude; `none`: abort. -/
def addAmp (first : Bool) (m : Meta) (a : AmpFile) : Option Meta :=
  let k : Option Meta :=
    if first then (match m.addKeyFile a.keyFile with
      | (true, m) => some m
      | (false, _) => none)
    else if m.hasKeyFile a.keyFile then some m else none
  k.bind fun m => match m.addHash a.hash with
    | (true, m) => some m
    | (false, _) => none

/-- the arguments of `integrate` for one event file, _integrals.py:47. -/
def EvtFile.trees (f : EvtFile) : List AmpTree := f.amps.map fun a => ⟨a.wave, a.events⟩

/-- entries of the event tree and the bin test, ampIntegralMatrix.cc:372-418. -/
noncomputable def EvtFile.binTest (f : EvtFile) (bins : BinMap) : ℕ × (ℕ → Bool) :=
  (f.rows.length, fun ev => inBoundaries bins (f.rows.getD ev fun _ => none))

/-- _integrals.py:14-49: the loop over the event files; `none`: the function returned `False`. The dictionaries are iterated in an arbitrary
order, here the order of the lists. An empty binning makes `integrate` fail (ampIntegralMatrix.cc:374-377). -/
noncomputable def calcFiles (bins : BinMap) (weights : Option WeightFile) :
    List EvtFile → Meta → List IntMat → Outcome (Option (Meta × List IntMat))
  | [], m, is => .ok (some (m, is))
  | f :: fs, m, is =>
    match m.addEvt f.evtMeta with
    | (false, _) => .ok none
    | (true, m) =>
      match f.amps.foldlM (addAmp is.isEmpty) m with
      | none => .ok none
      | some m =>
        if bins = [] then .ok none
        else do
          let r ← empty.integrate f.trees (-1) weights (some (f.binTest bins))
          if r.1 then calcFiles bins weights fs m (is ++ [r.2]) else .ok none

/-- _integrals.py:5-61 `calcIntegrals`: the metadata object written to the file, `none` if the function returned `False`. -/
noncomputable def calcIntegrals (gitHash : String) (bins : BinMap) (weights : Option WeightFile) (files : List EvtFile) :
    Outcome (Option Meta) := do
  let r ← calcFiles bins weights files { Meta.new with gitHash := gitHash, bins := bins } []
  match r with
  | none => .ok none
  | some (_, []) => .terminate
  | some (m, i :: is) => do
    let M ← is.foldlM (fun a b => a.addAssign b) i
    match m.setMatrix md5 bytes (some M) with
    | (false, _) => .ok none
    | (true, m) => do
      let w ← m.writeToFile md5 bytes keyWaves
      if w.1 then .ok (some w.2) else .ok none

/-! ### integration on the fly -/

/-- one wave to be integrated: its name, the text of its key file and its amplitude for each event; `none`: the kinematics of the event cannot
be read. -/
structure OtfWave where
  wave : String
  keyFile : String
  amp : ℕ → Option ℂ

/-- _integralsOnTheFly.py:53-63: the amplitudes of one event: the dictionary and the hash calculators; `none`: failure. -/
noncomputable def otfAmps (ev : ℕ) : List OtfWave → (String → Option ℂ) × List Hashor → Option ((String → Option ℂ) × List Hashor)
  | [], s => some (s.1, s.2)
  | w :: ws, s =>
    match w.amp ev, s.2 with
    | some z, h :: hs => (otfAmps ev ws (Function.update s.1 w.wave (some z), hs)).map fun r => (r.1, (h ++ bytes z) :: r.2)
    | _, _ => none

/-- _integralsOnTheFly.py:49-54: the event is skipped. -/
noncomputable def outsideBin (bins : BinMap) (vars : String → Option ℝ) : Bool :=
  bins.any fun b => match vars b.1 with
    | some x => decide (x < b.2.1) || decide (x ≥ b.2.2)
    | none => true

/-- _integralsOnTheFly.py:49-68: one event; `none`: failure. -/
noncomputable def otfEvent (waves : List OtfWave) (bins : BinMap) (rows : ℕ → String → Option ℝ) (ev : ℕ)
    (s : IntMat × (String → Option ℂ) × List Hashor) : Outcome (Option (IntMat × (String → Option ℂ) × List Hashor)) :=
  if outsideBin bins (rows ev) then .ok (some s)
  else match otfAmps bytes ev waves s.2 with
    | none => .ok none
    | some (d, hs) => do
      let r ← s.1.addEvent d
      if r.1 then .ok (some (r.2, d, hs)) else .ok none

/-- _integralsOnTheFly.py:45-69: the events `minEvent, …, minEvent + k - 1`. -/
noncomputable def otfLoop (waves : List OtfWave) (bins : BinMap) (rows : ℕ → String → Option ℝ) (minEvent : ℕ) :
    ℕ → IntMat × (String → Option ℂ) × List Hashor → Outcome (Option (IntMat × (String → Option ℂ) × List Hashor))
  | 0, s => .ok (some s)
  | k + 1, s => do
    let r ← otfLoop waves bins rows minEvent k s
    match r with
    | none => .ok none
    | some s => otfEvent bytes waves bins rows (minEvent + k) s

/-- _integralsOnTheFly.py:97-100: masses above 200 are taken for MeV. -/
noncomputable def massFix (bins : BinMap) : BinMap :=
  match bins.lookup "mass" with
  | some r => if r.1 > 200 then bins.map fun b => if b.1 = "mass" then (b.1, (r.1 / 1000, r.2 / 1000)) else b else bins
  | none => bins

/-- _integralsOnTheFly.py:5-25: the key files are added one after the other. -/
def addKeyFiles : List OtfWave → Meta → Option Meta
  | [], m => some m
  | w :: ws, m => match m.addKeyFile w.keyFile with
    | (true, m) => addKeyFiles ws m
    | (false, _) => none

/-- _integralsOnTheFly.py:73-120 `calcIntegralsOnTheFly`: the metadata object written to the file, `none` if the function returned `False`.
`binsArg` is the argument, `metaBins` the boundaries of the event metadata. No git hash is set. A branch that does not exist makes the test of
the bin read an unrelated number in ROOT; here it rejects the event. Simplified: every amplitude can be constructed. -/
noncomputable def calcOnTheFly (waves : List OtfWave) (evtMeta : EventMeta) (metaBins : BinMap) (nEvents : ℕ)
    (rows : ℕ → String → Option ℝ) (binsArg : BinMap) (maxNmbEvents : ℤ) (startEvent : ℕ) : Outcome (Option Meta) :=
  match addKeyFiles waves Meta.new with
  | none => .ok none
  | some m =>
    if waves = [] then .ok none
    else
      let maxEvent := if maxNmbEvents > -1 then min nEvents (startEvent + maxNmbEvents.toNat) else nEvents
      match m.addEvt evtMeta with
      | (false, _) => .ok none
      | (true, m) =>
        let bins := massFix (if binsArg = [] then metaBins else binsArg)
        let m := { m with bins := bins }
        let start : IntMat × (String → Option ℂ) × List Hashor :=
          ((empty.setWaveNames (waves.map (·.wave))).2, fun n => if (waves.map (·.wave)).contains n then some 0 else none, waves.map fun _ => [])
        do
          let r ← otfLoop bytes waves bins rows startEvent (maxEvent - startEvent) start
          match r with
          | none => .ok none
          | some (M, _, hs) =>
            match m.setMatrix md5 bytes (some M) with
            | (false, _) => .ok none
            | (true, m) => do
              let m := hs.foldl (fun m h => (m.addHash (md5 h)).2) m
              let w ← m.writeToFile md5 bytes keyWaves
              if w.1 then .ok (some w.2) else .ok none

end Rpwa.IntMeta
