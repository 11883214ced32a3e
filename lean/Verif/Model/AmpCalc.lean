import Verif.Model.Storage
import Verif.Model.EventMomenta
/-!
# Calculating decay amplitudes and writing amplitude files

Models `hli::calcAmplitude` (highLevelInterface/calcAmplitude.cc), `calcAmplitude` of pyInterface/module/_amplitude.py and the loops of
calcAmplitudes.py, with the files on disk, runs that are interrupted, and files that are deleted.  Simplifications:
* an isobar amplitude is its topology, the tests of its production vertex and the value that belongs to the momenta of the particles that
  were set last (the history of the topology does not matter, C15, C54);
* event files are not changed while amplitudes are calculated; momenta arrays are never null pointers;
* of an amplitude file the tree and the metadata object are modelled; they reach the disk in the order in which they are written (tree first,
  amplitudeMetadata.cc:114-121); before that ROOT may have saved any beginning of the tree; a file that is closed without `Write` has neither;
* opening with `"NEW"` fails iff the file exists. -/
namespace Rpwa.AmpCalc

open Rpwa.Storage Rpwa.EventMomenta

/-- an isobar amplitude: topology, `initKinematicsData` and `readKinematicsData` of the production vertex, the value of the amplitude for
production momenta and the momenta of the final-state particles. -/
structure Amplitude where
  topo : Topo String Vec3
  prodInit : List String → Bool
  prodRead : List Vec3 → Bool
  value : List Vec3 → List Vec3 → Dbl × Dbl

/-- calcAmplitude.cc:64-88: the loop over the events, `t` is the topology of the amplitude. -/
def calcLoop (a : Amplitude) : Topo String Vec3 → List Row → List (Dbl × Dbl) → List (Dbl × Dbl)
  | _, [], amps => amps
  | t, row :: rows, amps =>
    let r := readKinematicsData t (a.prodRead row.prod) row.decay
    if r.1 then calcLoop a r.2 rows (amps ++ [a.value row.prod r.2.momenta]) else []

/-- calcAmplitude.cc:14-98 `calcAmplitude`; `none` is a null pointer. -/
def calcAmplitudes (amp : Option Amplitude) (em : EventMeta) (maxNmbEvents : ℤ) : List (Dbl × Dbl) :=
  match amp with
  | none => []
  | some a => match em.tree with
    | none => []
    | some tree =>
      let r := initKinematicsData a.topo (a.prodInit em.prodNames) em.decayNames
      if !r.1 then []
      else
        let nmbEvents : ℕ := if maxNmbEvents > 0 then min maxNmbEvents.toNat tree.rows.length else tree.rows.length
        calcLoop a r.2 (tree.rows.take nmbEvents) []

/-- a wave description: `constructAmplitude()` (`none`: it fails), `keyFileContent()`, `waveNameFromTopology` of the amplitude. -/
structure Wave where
  amplitude : Option Amplitude
  keyFile : String
  name : String

/-- an amplitude file on disk: base name of its objects, tree, metadata. -/
structure DiskFile where
  base : String
  tree : Option (List (Dbl × Dbl))
  info : Option AmpMeta

/-- amplitudeMetadata.cc:80-98 `readAmplitudeFile`. -/
def readAmplitudeFile (f : DiskFile) (base : String) : Option AmpMeta :=
  if f.base = base then
    match f.info, f.tree with
    | some m, some t => some { m with tree := some t }
    | _, _ => none
  else none

/-- the amplitude files. -/
abbrev Disk := String → Option DiskFile

/-- what does not change: the event files (`none`: not readable, eventMetadata.cc:311-328), `$ROOTPWA` is set, the version. -/
structure World where
  events : String → Option EventMeta
  rootpwa : Bool
  git : String
  md5 : Hashor → String

/-- arguments of `calcAmplitude`. -/
structure Task where
  input : String
  wave : Wave
  out : String

/-- the output file has this content. -/
def put (d : Disk) (t : Task) (tree : Option (List (Dbl × Dbl))) (info : Option AmpMeta) : Disk :=
  Function.update d t.out (some ⟨t.wave.name, tree, info⟩)

/-- _amplitude.py:8-68 `calcAmplitude`: the returned value, the contents of the disk that the run goes through (the last one is left when the
function returns). -/
def calcAmplitude (w : World) (d : Disk) (t : Task) : Bool × List Disk :=
  if !w.rootpwa then (false, [d])
  else match w.events t.input with
    | none => (false, [d])
    | some em => match d t.out with
      | some _ => (false, [d])
      | none =>
        let opened := put d t none none
        if t.wave.amplitude.isNone then (false, [d, opened])
        else
          let i := AmpWriter.new.initialize [em] t.wave.keyFile t.wave.name w.git
          if !i.1 then (false, [d, opened])
          else
            let amps := calcAmplitudes t.wave.amplitude em (-1)
            if amps = [] then (false, [d, opened])
            else if (em.tree.map fun x => x.rows.length) ≠ some amps.length then (false, [d, opened])
            else
              let writer := i.2.addAmplitudes amps
              -- beginnings of the tree that may have been saved, then the tree
              let saved := (List.range (amps.length + 1)).map fun k => put d t (some (amps.take k)) none
              match (writer.finalize w.md5).1 with
              | none => (false, [d, opened] ++ saved ++ [opened])
              | some m => (true, [d, opened] ++ saved ++ [put d t m.tree (some m)])

/-- the disk after `calcAmplitude`. -/
def after (w : World) (d : Disk) (t : Task) : Disk := (calcAmplitude w d t).2.getLast?.getD d

/-- what can happen to the files. -/
inductive Action where
  /-- a calculation -/
  | run (t : Task)
  /-- a calculation that is stopped when the disk is in the `n`-th state of the run -/
  | crash (t : Task) (n : ℕ)
  /-- a file is deleted -/
  | delete (path : String)

/-- one action. -/
def act (w : World) (d : Disk) : Action → Disk
  | .run t => after w d t
  | .crash t n => ((calcAmplitude w d t).2[n]?).getD (after w d t)
  | .delete p => Function.update d p none

/-- a history of the disk. -/
def history (w : World) (d : Disk) (as : List Action) : Disk := as.foldl (act w) d

/-- calcAmplitudes.py:82-85: the loop over the tasks; a failure is reported, the loop goes on. -/
def script (w : World) (d : Disk) (ts : List Task) : Disk := ts.foldl (after w) d

/-- calcAmplitudes.py:42-57: the waves; `list` are the waves of a wave list, `idx` is the key-file index (-1: none); a negative index of a Python
list counts from its end. -/
def selectWaves (list : Option (List String)) (idx : ℤ) (all : List String) : Outcome (List String) :=
  if list.isSome ∧ idx ≠ -1 then .terminate
  else if idx ≠ -1 then
    if ¬ idx < all.length then .terminate
    else match all[(if idx < 0 then idx + all.length else idx).toNat]? with
      | none => .terminate
      | some x => if idx + all.length < 0 then .terminate else .ok [x]
  else if list.getD [] = [] then .ok all
  else .ok (list.getD [])

/-- calcAmplitudes.py:76-81: the pairs of files of one wave and type; `none`: the script stops. -/
def selectPairs {α : Type} (fileId : ℤ) (pairs : List α) : Option (List α) :=
  if fileId ≥ 0 then
    if fileId ≥ pairs.length then none else some ((pairs.drop fileId.toNat).take 1)
  else some pairs

/-- calcAmplitudes.py:74-85: the tasks that are done for the waves and types, until the script stops. -/
def tasksDone {α : Type} (fileId : ℤ) : List (List α) → List α
  | [] => []
  | ps :: rest => match selectPairs fileId ps with
    | none => []
    | some l => l ++ tasksDone fileId rest

end Rpwa.AmpCalc
