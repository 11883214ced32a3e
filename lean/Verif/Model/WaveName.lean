import Verif.Model.FitResult
/-!
# Names of partial waves

Models `waveDescription::waveNameFromTopology` (decayAmplitude/waveDescription.cc l.543-595), the labels of the mass
dependences (decayAmplitude/massDependence.cc l.151-156, 178-185, 240-249, 292-295, 694-699, 765-770) and the number
formatting they use (utilities/conversionUtils.hpp l.119-132).  Simplifications:
* the decay topology is the tree of its isobar decay vertices (a final-state particle is a leaf); the topology and
  consistency checks of l.548-551 are taken to succeed;
* `double` values that are printed (mass-bin borders, `MMax`) are given as the text the stream writes for them;
* spins are printed exactly (the stream switches to six significant digits only for spins above 10⁵). -/
namespace Rpwa.Fit

/-- conversionUtils.hpp:119-124, `ostream << spinQn(qn)`: half of `qn`. -/
def spinText (qn : ℤ) : Name :=
  (if qn < 0 then ['-'] else []) ++ (Nat.repr (qn.natAbs / 2)).toList ++ (if qn.natAbs % 2 = 1 then ['.', '5'] else [])

/-- conversionUtils.hpp:127-132: `+`, `-`, or nothing. -/
def parityText (qn : ℤ) : Name := if qn = 0 then [] else if qn < 0 then ['-'] else ['+']

/-- the data of a particle that enters wave names (particle.h, particleProperties.h). -/
structure WaveParticle where
  name : Name
  isospin : ℤ
  G : ℤ
  J : ℤ
  P : ℤ
  C : ℤ
  spinProj : ℤ := 0
  reflectivity : ℤ := 0
  deriving DecidableEq

/-- the mass dependences without label of their own (massDependence.h l.222-415 `cName`). -/
inductive PlainMassDep where
  | constWidthBreitWigner | rhoBreitWigner | f0980BreitWigner | f0980FlatteBesII | piPiM | piPiVes | piPiKachaev | rhoPrime
  deriving DecidableEq

/-- massDependence.h `cName`s, l.222, 246, 267, 287, 345, 366, 395, 415. -/
def PlainMassDep.cName : PlainMassDep → Name
  | .constWidthBreitWigner => "constWidthBreitWigner".toList
  | .rhoBreitWigner => "rhoBreitWigner".toList
  | .f0980BreitWigner => "f0980BreitWigner".toList
  | .f0980FlatteBesII => "f0980FlatteBesII".toList
  | .piPiM => "piPiSWaveAuMorganPenningtonM".toList
  | .piPiVes => "piPiSWaveAuMorganPenningtonVes".toList
  | .piPiKachaev => "piPiSWaveAuMorganPenningtonKachaev".toList
  | .rhoPrime => "rhoPrime".toList

/-- mass dependence of an isobar, `none` for the null pointer. -/
inductive MassDep where
  | none
  | relativisticBreitWigner
  | flat
  | binned (mMin mMax : Name)
  | glass (tag : Name)
  | palano (mMax : Name)
  | plain (d : PlainMassDep)
  deriving DecidableEq

/-- massDependence.cc:178-185, 240-249: `IG,JPC`. -/
def qnText (p : WaveParticle) : Name :=
  spinText p.isospin ++ parityText p.G ++ ',' :: (spinText p.J ++ parityText p.P ++ parityText p.C)

/-- `parentLabelForWaveName`, massDependence.cc l.151-156 (default), 178-185 (flat), 240-249 (binned), 292-295 (relativistic
Breit-Wigner), 694-699 (GLASS), 765-770 (Palano-Pennington), waveDescription.cc l.569-572, 584-587 (null pointer). -/
def parentLabel (d : MassDep) (p : WaveParticle) : Name :=
  match d with
  | .none => p.name
  | .relativisticBreitWigner => p.name
  | .flat => "flat".toList ++ '[' :: (qnText p ++ [']'])
  | .binned lo hi => "binned".toList ++ '[' :: (qnText p ++ ',' :: (lo ++ ',' :: (hi ++ [']'])))
  | .glass tag => "KPiSGLASS".toList ++ '<' :: (tag ++ '>' :: '[' :: (p.name ++ [']']))
  | .palano m => "KPiSPalanoPennington".toList ++ "<MMax_".toList ++ m ++ "GeV>".toList ++ '[' :: (p.name ++ [']'])
  | .plain d => d.cName ++ '[' :: (p.name ++ [']'])

/-- a particle of the decay: in the final state, or an isobar with its decay vertex. -/
inductive Decay where
  | fs (name : Name)
  | iso (p : WaveParticle) (d : MassDep) (L S : ℤ) (d1 d2 : Decay)
  deriving DecidableEq

/-- waveDescription.cc:589-594 `replace_all(name, "(", "_"); replace_all(name, ")", "_")`. -/
def sanitize (s : Name) : Name := (s.map fun c => if c = '(' then '_' else c).map fun c => if c = ')' then '_' else c

/-- waveDescription.cc:560-594: a decay vertex with orbital angular momentum `L` and spin `S`, given the texts of its two
daughters. -/
def vertexName (L S : ℤ) (n1 n2 : Name) : Name :=
  sanitize ("=[".toList ++ n1 ++ "[".toList ++ spinText L ++ ",".toList ++ spinText S ++ "]".toList ++ n2 ++ "]".toList)

/-- waveDescription.cc:563-574 and 579-588: a daughter. -/
def daughterName : Decay → Name
  | .fs n => n
  | .iso p d L S d1 d2 => parentLabel d p ++ vertexName L S (daughterName d1) (daughterName d2)

/-- a decay topology: the X particle and its decay vertex. -/
structure WaveTopology where
  X : WaveParticle
  L : ℤ
  S : ℤ
  d1 : Decay
  d2 : Decay
  deriving DecidableEq

/-- waveDescription.cc:552-559, 589-594. -/
def waveNameFromTopology (t : WaveTopology) : Name :=
  sanitize ("[".toList ++ spinText t.X.isospin ++ parityText t.X.G ++ ",".toList ++ spinText t.X.J ++ parityText t.X.P ++ parityText t.X.C ++
    ",".toList ++ spinText t.X.spinProj ++ parityText t.X.reflectivity ++ "]".toList ++ vertexName t.L t.S (daughterName t.d1) (daughterName t.d2))

end Rpwa.Fit
