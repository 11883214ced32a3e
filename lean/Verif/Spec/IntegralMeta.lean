import Verif.Model.IntegralMeta
import Verif.Spec.IntegralMatrix
/-!
# Specification for C89: what an integral file stands for

Nothing here refers to the code of the integration: events in a bin, the amplitudes stored in the files, sums over events. -/
namespace Rpwa.IntMeta
open Rpwa.Integral Rpwa.Storage

/-- the event lies in the bin: the lower boundary belongs to it, the upper one does not; an unknown variable is in no bin. -/
def InBin (bins : BinMap) (vars : String → Option ℝ) : Prop :=
  ∀ v lo hi, (v, (lo, hi)) ∈ bins → ∃ x, vars v = some x ∧ lo ≤ x ∧ x < hi

open Classical in
/-- numbers of the events of a file that lie in the bin. -/
noncomputable def EvtFile.inBin (f : EvtFile) (bins : BinMap) : List ℕ :=
  (List.range f.rows.length).filter fun ev => decide (InBin bins (f.rows.getD ev fun _ => none))

/-- the (incoherent sub-)amplitudes of a wave stored for an event. -/
def EvtFile.amp (f : EvtFile) (wave : String) (ev : ℕ) : List ℂ :=
  ((f.amps.find? (·.wave = wave)).map fun a => a.events.getD ev []).getD []

/-- `Σ_k x_k conj(y_k)`. -/
noncomputable def incoherent (x y : List ℂ) : ℂ := (List.zipWith (fun a b => a * (starRingEnd ℂ) b) x y).sum

/-- sum of the products of two waves over the events of a file in the bin, weighted with the numbers of the weight file. -/
noncomputable def EvtFile.total (f : EvtFile) (w : Option WeightFile) (bins : BinMap) (a b : String) : ℂ :=
  ((f.inBin bins).zipIdx.map fun ek =>
    ((eventWeight w (f.inBin bins).length ek.2 : ℝ) : ℂ) * incoherent (f.amp a ek.1) (f.amp b ek.1)).sum

/-- number of events in the bin in all files. -/
noncomputable def eventsIn (bins : BinMap) (files : List EvtFile) : ℕ := (files.map fun f => (f.inBin bins).length).sum

/-- the same over all files. -/
noncomputable def totalOf (w : Option WeightFile) (bins : BinMap) (files : List EvtFile) (a b : String) : ℂ :=
  (files.map fun f => f.total w bins a b).sum

/-- two event files with the same content and description (auxiliary information aside). -/
def SameEvents (a b : EventMeta) : Prop :=
  a.contentHash = b.contentHash ∧ a.eventsType = b.eventsType ∧ a.prodNames = b.prodNames ∧ a.decayNames = b.decayNames ∧
    a.bounds = b.bounds ∧ a.addNames = b.addNames

/-- an event file and its amplitude files fit together. -/
structure EvtFile.Fits (f : EvtFile) (w : Option WeightFile) (bins : BinMap) : Prop where
  someWaves : f.amps ≠ []
  someEvents : f.rows ≠ []
  sameLength : ∀ a ∈ f.amps, a.events.length = f.rows.length
  subAmps : ∀ ev ∈ f.inBin bins, ∀ a ∈ f.amps, a.events.getD ev [] ≠ [] ∧
    ∀ b ∈ f.amps, (a.events.getD ev []).length = (b.events.getD ev []).length
  enoughWeights : ∀ ws, w = some ws → (f.inBin bins).length ≤ ws.length

/-- the waves of an event file. -/
def EvtFile.waves (f : EvtFile) : List String := f.amps.map (·.wave)

/-- the input of an integration fits together: the event files differ from each other, every file has amplitudes of the same waves and with the
same key files, no two amplitude files have the same content hash (an empty hash is ignored) and the key files describe the waves. -/
structure Consistent (keyWaves : String → List (Option String)) (w : Option WeightFile) (bins : BinMap) (first : EvtFile)
    (rest : List EvtFile) : Prop where
  binned : bins ≠ []
  fits : ∀ f ∈ first :: rest, f.Fits w bins
  different : ((first :: rest).map (·.evtMeta)).Pairwise fun a b => ¬ SameEvents a b
  keyFiles : (first.amps.map (·.keyFile)).Nodup
  sameKeyFiles : ∀ f ∈ rest, ∀ a ∈ f.amps, a.keyFile ∈ first.amps.map (·.keyFile)
  hashes : (((first :: rest).flatMap fun f => f.amps.map (·.hash)).filter (· ≠ "")).Nodup
  sameWaves : ∀ f ∈ rest, first.waves.Perm f.waves
  described : ∀ c ∈ first.amps.map (·.keyFile), ∀ o ∈ keyWaves c, ∃ n, o = some n ∧ n ∈ first.waves
  number : ((first.amps.map (·.keyFile)).flatMap keyWaves).length = first.amps.length

/-- the hash of the elements of an integral matrix, row by row. -/
noncomputable def elementHash (md5 : List UInt8 → String) (bytes : ℂ → List UInt8) (M : IntMat) : String :=
  md5 ((List.range M.names.length).flatMap fun i => (List.range M.names.length).flatMap fun j =>
    bytes (M.mat i j / (M.nmbEvents : ℂ)))

/-- two sets of boundaries put together: for each variable the smallest range that contains both. -/
def Hull (a b r : BinMap) : Prop :=
  (r.map (·.1)).Perm (a.map (·.1)) ∧ ∀ v x y, (v, x) ∈ a → (v, y) ∈ b → (v, (min y.1 x.1, max y.2 x.2)) ∈ r

/-- metadata of two sets of integrals that may be put together. -/
structure Mergeable (m s : Meta) (M S : IntMat) : Prop where
  waves : M.names.Perm S.names
  git : s.gitHash = m.gitHash
  keyFiles : s.keyFiles ⊆ m.keyFiles
  hashes : (m.ampHashes ++ s.ampHashes.filter (· ≠ m.allZeroHash)).Nodup
  bins : (s.bins.map (·.1)).Perm (m.bins.map (·.1))
  events : (m.evtMetas ++ s.evtMetas).Pairwise fun a b => ¬ SameEvents a b

/-! ### integration on the fly -/

open Classical in
/-- the events `first, first + 1, …, last - 1` that lie in the bin. -/
noncomputable def otfEvents (bins : BinMap) (rows : ℕ → String → Option ℝ) (first last : ℕ) : List ℕ :=
  ((List.range (last - first)).map (first + ·)).filter fun ev => decide (InBin bins (rows ev))

/-- the amplitude of a wave in an event. -/
def otfAmp (waves : List OtfWave) (a : String) (ev : ℕ) : ℂ := ((waves.find? (·.wave = a)).bind (·.amp ev)).getD 0

/-- sum of the products of two waves over a list of events. -/
noncomputable def otfTotal (waves : List OtfWave) (evs : List ℕ) (a b : String) : ℂ :=
  (evs.map fun ev => otfAmp waves a ev * (starRingEnd ℂ) (otfAmp waves b ev)).sum

/-- the boundaries used: those given, else those of the event file; a mass above 200 is a number of MeV. -/
def UsedBins (binsArg metaBins bins : BinMap) : Prop :=
  ∃ b, (binsArg ≠ [] ∧ b = binsArg ∨ binsArg = [] ∧ b = metaBins) ∧
    bins.map (·.1) = b.map (·.1) ∧
    ∀ v lo hi, (v, (lo, hi)) ∈ b → (v, if v = "mass" ∧ lo > 200 then (lo / 1000, hi / 1000) else (lo, hi)) ∈ bins

/-- the end of the range of events. -/
def otfLast (nEvents : ℕ) (maxNmbEvents : ℤ) (startEvent : ℕ) : ℕ :=
  if maxNmbEvents < 0 then nEvents else min nEvents (startEvent + maxNmbEvents.toNat)

end Rpwa.IntMeta
