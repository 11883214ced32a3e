import Verif.Model.Basic
import Verif.Lemmas.Outcome
import Verif.Model.ResonanceFit
import Verif.Model.ResonanceShapes

/-!
# `resonanceFit/`: reading and writing the configuration of a resonance-model fit

Model of `resonanceFitReadConfig.cc` and `resonanceFitWriteConfig.cc`: the YAML document a fit is
configured with, and the document that is written after the fit.

Simplifications, for the whole file: a YAML document is a tree of scalars, sequences and maps (its
text, and with it quoting and indentation, are not modelled); in a document that is written a node may
carry an anchor or be an alias, in a loaded document the aliases have been replaced; the name of an
anchor is the pair of its prefix and its number.  How `yaml-cpp` formats and parses numbers is a
parameter (`Codec`); as `double` is `ℝ` and there are more real numbers than finite texts, the text of a
number may be the number itself (`Text`).  `double` is `ℝ`, with NaN and infinities only where the reader treats them
specially (errors of the parameters, fit quality); a number that is not finite elsewhere is
`Outcome.ub`.  `throw` and exceptions of `yaml-cpp` are `Outcome.terminate`.  A
`std::map<std::string, double>` is the list of its entries.  `TFormula` and the interpolation of the
phase-space integrals are parameters.
-/

namespace Rpwa.ResCfg

open ResFit (Name Params Input Channel Maps Component Shape ShapeCfg Formula Fsmd Model)

/-! ## YAML -/

/-- text of a scalar: characters, or the decimal text of a number.  The latter is a simplification: the
text of a `double` has finitely many characters, that of a real number has not. -/
inductive Text where
  | chars (s : Name)
  | decimal (x : ℝ)

/-- a node of a loaded document (`YAML::Node`) -/
inductive V where
  | scalar (s : Text)
  | seq (l : List V)
  | map (l : List (Name × V))

/-- a node of a document that is written (`YAML::Emitter`): anchored nodes and aliases to them -/
inductive Doc where
  | plain (v : V)
  | anchored (n : Name × ℕ) (v : V)
  | alias (n : Name × ℕ)
  | seq (l : List Doc)
  | map (l : List (Name × Doc))

/-- a string as it is written -/
def V.text (s : Name) : V := .scalar (.chars s)

/-- anchors seen so far, the last one first -/
abbrev Env := List ((Name × ℕ) × V)

mutual
/-- `YAML::Load`: an alias is the last node with that anchor before it; `none` is an unknown anchor
(`yaml-cpp` throws).  The text between emitter and loader is not modelled. -/
def load (env : Env) : Doc → Option (V × Env)
  | .plain v => some (v, env)
  | .anchored n v => some (v, (n, v) :: env)
  | .alias n => (env.lookup n).map fun v => (v, env)
  | .seq l => (loadSeq env l).map fun r => (.seq r.1, r.2)
  | .map l => (loadMap env l).map fun r => (.map r.1, r.2)
/-- the entries of a sequence, in the order of the document -/
def loadSeq (env : Env) : List Doc → Option (List V × Env)
  | [] => some ([], env)
  | d :: l => (load env d).bind fun r => (loadSeq r.2 l).map fun s => (r.1 :: s.1, s.2)
/-- the entries of a map, in the order of the document -/
def loadMap (env : Env) : List (Name × Doc) → Option (List (Name × V) × Env)
  | [] => some ([], env)
  | (k, d) :: l => (load env d).bind fun r => (loadMap r.2 l).map fun s => ((k, r.1) :: s.1, s.2)
end

/-- a `double` -/
inductive Num where
  | fin (x : ℝ)
  | nan
  | inf
  | ninf

/-- formatting and parsing of scalars by `yaml-cpp`: `double`, `int`, `bool` -/
structure Codec where
  fmtN : Num → Text
  parseN : Text → Option Num
  fmtI : ℤ → Text
  parseI : Text → Option ℤ
  fmtB : Bool → Text
  parseB : Text → Option Bool

/-- `nan` -/
def kNan : Name := "nan".toList
/-- `inf` -/
def kInf : Name := "inf".toList

/-- Numbers, integers and booleans survive formatting and parsing (`yaml-cpp` writes
`max_digits10` digits); a NaN or an infinity may instead be written as a text that does not parse as a
number and is `nan` or `inf`. -/
structure Codec.Faithful (C : Codec) : Prop where
  fin : ∀ x, C.parseN (C.fmtN (.fin x)) = some (.fin x)
  nan : C.parseN (C.fmtN .nan) = some .nan ∨ (C.fmtN .nan = .chars kNan ∧ C.parseN (.chars kNan) = none)
  inf : C.parseN (C.fmtN .inf) = some .inf ∨ (C.fmtN .inf = .chars kInf ∧ C.parseN (.chars kInf) = none)
  ninf : C.parseN (C.fmtN .ninf) = some .ninf
  int : ∀ x, C.parseI (C.fmtI x) = some x
  bool : ∀ x, C.parseB (C.fmtB x) = some x

/-- `node[key]`: undefined for a sequence, throws for a scalar -/
def V.sub (k : Name) : V → Outcome (Option V)
  | .map l => .ok (l.lookup k)
  | .seq _ => .ok none
  | .scalar _ => .terminate

/-- a conversion that fails ends the program -/
def need {α : Type} : Option α → Outcome α
  | some a => .ok a
  | none => .terminate

/-- `as<std::string>()`, where the failing conversion is checked for and ends the program.
Simplification: the text of a number that has been written is not read as a string. -/
def str : V → Outcome Name
  | .scalar (.chars s) => .ok s
  | _ => .terminate

/-- `as<double>()`, `none` if it is not a number -/
def num? (C : Codec) : V → Option Num
  | .scalar s => C.parseN s
  | _ => none

/-- `as<double>()` for a finite number -/
def real (C : Codec) (v : V) : Outcome ℝ :=
  match num? C v with
  | some (.fin x) => .ok x
  | some _ => .ub
  | none => .terminate

/-- `as<int>()` -/
def int (C : Codec) : V → Outcome ℤ
  | .scalar s => need (C.parseI s)
  | _ => .terminate

/-- `as<bool>()` -/
def bool (C : Codec) : V → Outcome Bool
  | .scalar s => need (C.parseB s)
  | _ => .terminate

/-- `IsSequence()`, and its entries -/
def seqOf : V → Outcome (List V)
  | .seq l => .ok l
  | _ => .terminate

/-- a mandatory variable: `checkIfAllVariablesAreThere` (utilities/yamlCppUtils.hpp:131-152) and its
conversion -/
def mand {α : Type} (v : V) (k : Name) (f : V → Outcome α) : Outcome α :=
  match v.sub k with
  | .ok (some w) => f w
  | .ok none => .terminate
  | .terminate => .terminate
  | .ub => .ub

/-- an optional variable with its default value -/
def opt {α : Type} (v : V) (k : Name) (d : α) (f : V → Outcome α) : Outcome α :=
  match v.sub k with
  | .ok (some w) => f w
  | .ok none => .ok d
  | .terminate => .terminate
  | .ub => .ub

/-- a sequence of exactly two numbers (resonanceFitReadConfig.cc:554-572, 1202-1223, 1235-1255) -/
def pair (C : Codec) (v : V) : Outcome (ℝ × ℝ) := do
  match ← seqOf v with
  | [a, b] =>
    let x ← real C a
    let y ← real C b
    .ok (x, y)
  | _ => .terminate

/-! ## fit quality and release order -/

/-- value of an entry of `fitquality` (resonanceFitReadConfig.cc:82-98) -/
def qualNum (C : Codec) (v : V) : Outcome Num :=
  match num? C v with
  | some x => .ok x
  | none =>
    match v with
    | .scalar (.chars s) => if s = kNan then .ok .nan else if s = kInf then .ok .inf else .terminate
    | _ => .terminate

/-- keys of the document -/
def kQuality : Name := "fitquality".toList
def kFree : Name := "freeparameters".toList
def kInput : Name := "input".toList
def kModel : Name := "model".toList

/-- `readFitQuality` (resonanceFitReadConfig.cc:53-113) -/
def readQuality (C : Codec) (root : V) : Outcome (List (Name × Num)) :=
  opt root kQuality [] fun w =>
    match w with
    | .map l => l.foldlM (fun acc (e : Name × V) => do
        let x ← qualNum C e.2
        if acc.any (fun a => a.1 = e.1) then .terminate else .ok (acc ++ [(e.1, x)])) []
    | _ => .terminate

/-- `readFreeParameters` (resonanceFitReadConfig.cc:115-157): a list that is given must not be empty -/
def readFree (root : V) : Outcome (List Name) :=
  opt root kFree [] fun w => do
    let l ← seqOf w
    if l.length = 0 then .terminate else l.mapM str

/-- `writeFitQuality` (resonanceFitWriteConfig.cc:55-72) -/
def writeQuality (C : Codec) (q : List (Name × Num)) : List (Name × Doc) :=
  [(kQuality, .plain (.map (q.map fun e => (e.1, .scalar (C.fmtN e.2)))))]

/-- `writeFreeParameters` (resonanceFitWriteConfig.cc:75-87) -/
def writeFree (free : List Name) : List (Name × Doc) :=
  if free.length > 0 then [(kFree, .plain (.seq (free.map .text)))] else []

/-! ## input -/

/-- `input::bin::wave` (resonanceFit/input.h): name, lower and upper mass limit -/
structure WaveC where
  name : Name
  lower : ℝ
  upper : ℝ

/-- `input::bin` (resonanceFit/input.h) -/
structure BinC where
  file : Name
  waves : List WaveC
  tMean : ℝ
  rescale : ℝ
  sys : List Name

def kName : Name := "name".toList
def kWaves : Name := "waves".toList
def kTMean : Name := "tPrimeMean".toList
def kRescale : Name := "rescaleErrors".toList
def kSys : Name := "systematics".toList
def kMassLower : Name := "massLower".toList
def kMassUpper : Name := "massUpper".toList

/-- body of the loop of `readInputBinWaves` (resonanceFitReadConfig.cc:165-245, loop 186-241) -/
def readWave (C : Codec) (acc : List WaveC) (v : V) : Outcome (List WaveC) := do
  let name ← mand v kName str
  if acc.any (fun w => w.name = name) then .terminate
  else
    let lower ← opt v kMassLower (-1) (real C)
    let upper ← opt v kMassUpper (-1) (real C)
    .ok (acc ++ [⟨name, lower, upper⟩])

/-- one entry of `input` (resonanceFitReadConfig.cc:271-337) -/
def readBin (C : Codec) (v : V) : Outcome BinC := do
  let file ← mand v kName str
  let tMean ← mand v kTMean (real C)
  let ws ← mand v kWaves seqOf
  let waves ← ws.foldlM (readWave C) []
  let rescale ← opt v kRescale 1 (real C)
  let sys ← opt v kSys [] fun w => do (← seqOf w).mapM str
  .ok ⟨file, waves, tMean, rescale, sys⟩

/-- `readInput` (resonanceFitReadConfig.cc:250-340) -/
def readInput (C : Codec) (root : V) : Outcome (List BinC) :=
  mand root kInput fun w => do (← seqOf w).mapM (readBin C)

/-- a finite number as it is written -/
def wNum (C : Codec) (x : ℝ) : V := .scalar (C.fmtN (.fin x))

/-- the map written for a wave (resonanceFitWriteConfig.cc:163-179): negative limits are left out -/
noncomputable def writeWave (C : Codec) (w : WaveC) : V :=
  .map ([(kName, .text w.name)]
    ++ (if w.lower ≥ 0 then [(kMassLower, wNum C w.lower)] else [])
    ++ (if w.upper ≥ 0 then [(kMassUpper, wNum C w.upper)] else []))

open Classical in
/-- do two bins have the same waves and mass limits (resonanceFitWriteConfig.cc:131-150)? -/
noncomputable def sameWaves (a b : BinC) : Bool :=
  decide (a.waves.length = b.waves.length) &&
    (a.waves.zip b.waves).all fun p =>
      decide (p.1.name = p.2.name) && decide (p.1.lower = p.2.lower ∧ p.1.upper = p.2.upper)

/-- is entry `j` the same as `x`? -/
def isSameAt {α : Type} (same : α → α → Bool) (l : List α) (x : α) (j : ℕ) : Bool :=
  (l[j]?.map (same x)).getD false

/-- the search for an earlier entry with the same contents
(resonanceFitWriteConfig.cc:128-151, 207-219): the index of the first one, or the own index. -/
def firstSame {α : Type} (same : α → α → Bool) (l : List α) (i : ℕ) (x : α) : ℕ :=
  ((List.range i).find? (isSameAt same l x)).getD i

/-- an entry that is written with an anchor the first time and as an alias afterwards
(resonanceFitWriteConfig.cc:156-183, 221-237) -/
def shareDoc {α : Type} (pref : Name) (same : α → α → Bool) (f : α → V) (l : List α) (i : ℕ) (x : α) :
    Doc :=
  let a := firstSame same l i x
  if a = i then .anchored (pref, i) (f x) else .alias (pref, a)

def kWaveset : Name := "waveset".toList
def kAnchor : Name := "anchor".toList

/-- the map written for one bin (resonanceFitWriteConfig.cc:104-185) -/
noncomputable def writeBin (C : Codec) (bins : List BinC) (i : ℕ) (b : BinC) : Doc :=
  .map ([(kName, .plain (.text b.file)), (kTMean, .plain (wNum C b.tMean))]
    ++ (if b.rescale ≠ 1 then [(kRescale, .plain (wNum C b.rescale))] else [])
    ++ (if b.sys.length > 0 then [(kSys, .plain (.seq (b.sys.map .text)))] else [])
    ++ [(kWaves, shareDoc kWaveset sameWaves (fun b => .seq (b.waves.map (writeWave C))) bins i b)])

/-- `writeInput` (resonanceFitWriteConfig.cc:90-189) -/
noncomputable def writeInput (C : Codec) (bins : List BinC) : List (Name × Doc) :=
  [(kInput, .seq (bins.zipIdx.map fun x => writeBin C bins x.2 x.1))]

/-! ## anchors -/

def kAnchors : Name := "anchorwave".toList

/-- one entry of `anchorwave` (resonanceFitReadConfig.cc:376-391) -/
def readAnchor (v : V) : Outcome (Name × Name) := do
  match ← seqOf v with
  | [a, b] =>
    let x ← str a
    let y ← str b
    .ok (x, y)
  | _ => .terminate

/-- `readModelAnchors` (resonanceFitReadConfig.cc:350-396) -/
def readAnchors (m : V) : Outcome (List (Name × Name)) :=
  mand m kAnchors fun w => do (← seqOf w).mapM readAnchor

/-- are wave and component the same (resonanceFitWriteConfig.cc:207-219)? -/
def sameAnchor (a b : Name × Name) : Bool := decide (a.1 = b.1) && decide (a.2 = b.2)

/-- the sequence written for an anchor (resonanceFitWriteConfig.cc:227-234) -/
def anchorV (a : Name × Name) : V := .seq [.text a.1, .text a.2]

/-- `writeModelAnchors` (resonanceFitWriteConfig.cc:192-241) -/
def writeAnchors (as : List (Name × Name)) : List (Name × Doc) :=
  [(kAnchors, .seq (as.zipIdx.map fun x =>
    shareDoc kAnchor sameAnchor anchorV as x.2 x.1))]

/-! ## parameters -/

/-- `parameter` (resonanceFit/parameter.h:42-89); a limit is there only if the flag is set -/
structure Par where
  name : Name
  start : ℝ
  error : Num
  fixed : Bool
  lower : Option ℝ
  upper : Option ℝ
  step : ℝ

def kVal : Name := "val".toList
def kError : Name := "error".toList
def kFix : Name := "fix".toList
def kLower : Name := "lower".toList
def kUpper : Name := "upper".toList
def kStep : Name := "step".toList

/-- value of `error` (resonanceFitReadConfig.cc:428-442) -/
def errNum (C : Codec) (v : V) : Outcome Num :=
  match num? C v with
  | some x => .ok x
  | none =>
    match v with
    | .scalar (.chars s) => if s = kNan then .ok .nan else .terminate
    | _ => .terminate

/-- `readModelParameter` (resonanceFitReadConfig.cc:399-477); `step` is the default step size -/
def readPar (C : Codec) (v : V) (name : Name) (step : ℝ) : Outcome Par :=
  mand v name fun w => do
    let start ← mand w kVal (real C)
    let fixed ← mand w kFix (bool C)
    let error ← opt w kError (.fin 0) (errNum C)
    let lower ← opt w kLower none fun u => do .ok (some (← real C u))
    let upper ← opt w kUpper none fun u => do .ok (some (← real C u))
    let step ← opt w kStep step (real C)
    .ok ⟨name, start, error, fixed, lower, upper, step⟩

/-- `writeModelParameter` (resonanceFitWriteConfig.cc:244-282) -/
def writePar (C : Codec) (p : Par) (value : ℝ) (error : Num) : Name × V :=
  (p.name, .map ([(kVal, wNum C value), (kError, .scalar (C.fmtN error))]
    ++ (match p.lower with | some x => [(kLower, wNum C x)] | none => [])
    ++ (match p.upper with | some x => [(kUpper, wNum C x)] | none => [])
    ++ [(kStep, wNum C p.step), (kFix, .scalar (C.fmtB p.fixed))]))

/-! ## components -/

/-- types of components -/
inductive Kind where
  | fixedWidth
  | dynamicWidth
  | integralWidth
  | constant
  | exponential
  | tPrime
  | exponentialIntegral
  | tPrimeIntegral
  deriving DecidableEq

/-- `getType()` (resonanceFit/components.h:193, 221, 262, 297, 325, 368, 411, 452) -/
def Kind.typeName : Kind → Name
  | .fixedWidth => "fixedWidthBreitWigner".toList
  | .dynamicWidth => "dynamicWidthBreitWigner".toList
  | .integralWidth => "integralWidthBreitWigner".toList
  | .constant => "constantBackground".toList
  | .exponential => "exponentialBackground".toList
  | .tPrime => "tPrimeDependentBackground".toList
  | .exponentialIntegral => "exponentialBackgroundIntegral".toList
  | .tPrimeIntegral => "tPrimeDependentBackgroundIntegral".toList

/-- the chain of comparisons with the names of the types (resonanceFitReadConfig.cc:1090-1142) -/
def kindOf (t : Name) : Outcome Kind :=
  if t = "fixedWidthBreitWigner".toList then .ok .fixedWidth
  else if t = "dynamicWidthBreitWigner".toList then .ok .dynamicWidth
  else if t = "integralWidthBreitWigner".toList then .ok .integralWidth
  else if t = "constantBackground".toList then .ok .constant
  else if t = "exponentialBackground".toList then .ok .exponential
  else if t = "tPrimeDependentBackground".toList then .ok .tPrime
  else if t = "exponentialBackgroundIntegral".toList then .ok .exponentialIntegral
  else if t = "tPrimeDependentBackgroundIntegral".toList then .ok .tPrimeIntegral
  else .terminate

/-- names and default step sizes of the parameters: the functions `getDefaultParameters`
(resonanceFit/components.cc:500-510, 552-562, 676-686, 767-773, 815-823, 912-928, 1029-1037,
1117-1133) -/
noncomputable def Kind.defaults : Kind → List (Name × ℝ)
  | .fixedWidth => [("mass".toList, 0.001), ("width".toList, 0.001)]
  | .dynamicWidth => [("mass".toList, 0.001), ("width".toList, 0.001)]
  | .integralWidth => [("mass".toList, 0.001), ("width".toList, 0.001)]
  | .constant => []
  | .exponential => [("g".toList, 1)]
  | .tPrime =>
    [("m0".toList, 0.001), ("c0".toList, 0.001), ("c1".toList, 1), ("c2".toList, 1), ("c3".toList, 1)]
  | .exponentialIntegral => [("g".toList, 1)]
  | .tPrimeIntegral =>
    [("m0".toList, 0.001), ("c0".toList, 0.001), ("c1".toList, 1), ("c2".toList, 1), ("c3".toList, 1)]

/-- the constants of a component: those of each decay channel (ratio, relative angular momentum and
isobar masses, or points of the phase-space integral), or those of a background -/
inductive Consts where
  | fixedWidth
  | dynamicWidth (l : List (ℝ × ℤ × ℝ × ℝ))
  | integralWidth (l : List (ℝ × List (ℝ × ℝ)))
  | constant
  | exponential (l : ℤ) (m1 m2 exponent : ℝ)
  | tPrime (tMeans : List ℝ) (l : ℤ) (m1 m2 exponent : ℝ)
  | exponentialIntegral (pts : List (ℝ × ℝ)) (exponent : ℝ)
  | tPrimeIntegral (tMeans : List ℝ) (pts : List (ℝ × ℝ)) (exponent : ℝ)

/-- type of the component -/
def Consts.kind : Consts → Kind
  | .fixedWidth => .fixedWidth
  | .dynamicWidth _ => .dynamicWidth
  | .integralWidth _ => .integralWidth
  | .constant => .constant
  | .exponential .. => .exponential
  | .tPrime .. => .tPrime
  | .exponentialIntegral .. => .exponentialIntegral
  | .tPrimeIntegral .. => .tPrimeIntegral

/-- arguments of the constructor; `interp` is the interpolation of the points of a phase-space
integral (`ROOT::Math::Interpolator`, resonanceFit/components.cc:724-731, 1071-1073, 1168-1170) -/
def Consts.cfg (interp : List (ℝ × ℝ) → ℝ → ℝ) : Consts → ShapeCfg
  | .fixedWidth => .fixedWidth
  | .dynamicWidth l => .dynamicWidth (l.map (·.1)) (l.map (·.2.1)) (l.map (·.2.2.1)) (l.map (·.2.2.2))
  | .integralWidth l => .integralWidth (l.map (·.1)) (l.map fun c => interp c.2)
  | .constant => .constant
  | .exponential l m1 m2 e => .exponential l m1 m2 e
  | .tPrime t l m1 m2 e => .tPrime t l m1 m2 e
  | .exponentialIntegral pts e => .exponentialIntegral (interp pts) e
  | .tPrimeIntegral t pts e => .tPrimeIntegral t (interp pts) e

/-- the constants the component keeps: the ratios are normalised by the constructor
(resonanceFit/components.cc:609-610, 733-734) -/
noncomputable def Consts.normed : Consts → Outcome Consts
  | .dynamicWidth l => do
    let r ← ResFit.normRatios (l.map (·.1))
    .ok (.dynamicWidth ((r.zip l).map fun x => (x.1, x.2.2)))
  | .integralWidth l => do
    let r ← ResFit.normRatios (l.map (·.1))
    .ok (.integralWidth ((r.zip l).map fun x => (x.1, x.2.2)))
  | c => .ok c

def kType : Name := "type".toList
def kDecay : Name := "decaychannels".toList
def kExtra : Name := "extradecaychannels".toList
def kAmp : Name := "amp".toList
def kCouplings : Name := "couplings".toList
def kBranching : Name := "branching".toList
def kM1 : Name := "mIsobar1".toList
def kM2 : Name := "mIsobar2".toList
def kL : Name := "relAngularMom".toList
def kRatio : Name := "branchingRatio".toList
def kIntegral : Name := "integral".toList
def kExponent : Name := "exponent".toList

/-- body of the loop of `readModelComponentDecayChannelIntegral`
(resonanceFitReadConfig.cc:552-581) -/
noncomputable def readPoint (C : Codec) (acc : List (ℝ × ℝ)) (v : V) : Outcome (List (ℝ × ℝ)) := do
  let p ← pair C v
  match acc.getLast? with
  | some q => if q.1 > p.1 then .terminate else .ok (acc ++ [p])
  | none => .ok [p]

/-- `readModelComponentDecayChannelIntegral` (resonanceFitReadConfig.cc:528-582) -/
noncomputable def readIntegral (C : Codec) (v : V) : Outcome (List (ℝ × ℝ)) := do
  let l ← mand v kIntegral seqOf
  if l.length < 2 then .terminate else l.foldlM (readPoint C) []

/-- constants of one channel of `dynamicWidthBreitWigner` (resonanceFitReadConfig.cc:775-782) -/
def readDyn (C : Codec) (v : V) : Outcome (ℝ × ℤ × ℝ × ℝ) := do
  let r ← mand v kRatio (real C)
  let l ← mand v kL (int C)
  let m1 ← mand v kM1 (real C)
  let m2 ← mand v kM2 (real C)
  .ok (r, l, m1, m2)

/-- constants of one channel of `integralWidthBreitWigner` (resonanceFitReadConfig.cc:835-845) -/
noncomputable def readIntCh (C : Codec) (v : V) : Outcome (ℝ × List (ℝ × ℝ)) := do
  let r ← mand v kRatio (real C)
  let pts ← readIntegral C v
  .ok (r, pts)

/-- entries of `extradecaychannels` (resonanceFitReadConfig.cc:784-793, 847-859): nothing if it is
missing or a scalar (its size is 0); a map with entries has none with the index 0 and the program
ends. -/
def extras (v : V) : Outcome (List V) :=
  opt v kExtra [] fun w =>
    match w with
    | .seq l => .ok l
    | .scalar _ => .ok []
    | .map [] => .ok []
    | .map _ => .terminate

/-- the specialisations of `readModelComponent` up to the call of the constructor
(resonanceFitReadConfig.cc:723-1017): constants of the component. -/
noncomputable def readConsts (C : Codec) (tMeans : List ℝ) (v : V) (chans : List V) :
    Kind → Outcome Consts
  | .fixedWidth => .ok .fixedWidth
  | .dynamicWidth => do
    let a ← chans.mapM (readDyn C)
    let b ← (← extras v).mapM (readDyn C)
    .ok (.dynamicWidth (a ++ b))
  | .integralWidth => do
    let a ← chans.mapM (readIntCh C)
    let b ← (← extras v).mapM (readIntCh C)
    .ok (.integralWidth (a ++ b))
  | .constant => .ok .constant
  | .exponential => do
    let l ← opt v kL 0 (int C)
    let m1 ← mand v kM1 (real C)
    let m2 ← mand v kM2 (real C)
    let e ← opt v kExponent 2 (real C)
    .ok (.exponential l m1 m2 e)
  | .tPrime => do
    let l ← opt v kL 0 (int C)
    let m1 ← mand v kM1 (real C)
    let m2 ← mand v kM2 (real C)
    let e ← opt v kExponent 2 (real C)
    .ok (.tPrime tMeans l m1 m2 e)
  | .exponentialIntegral => do
    let pts ← readIntegral C v
    let e ← mand v kExponent (real C)
    .ok (.exponentialIntegral pts e)
  | .tPrimeIntegral => do
    let pts ← readIntegral C v
    let e ← mand v kExponent (real C)
    .ok (.tPrimeIntegral tMeans pts e)

/-- a component with its parameters and constants -/
structure Comp where
  core : Component
  pars : List Par
  consts : Consts

/-- what does not change between runs: the interpolation, the formulas (names of the parameters and
value), the use of branchings -/
structure Setup where
  interp : List (ℝ × ℝ) → ℝ → ℝ
  formula : Name → List Name × (ℝ → List ℝ → ℝ)
  useBranchings : Bool

/-- construction of a component from what was read: channels, mapping, constants
(resonanceFitReadConfig.cc:1020-1063, resonanceFit/components.cc:193-320 and the constructors of the
derived classes) -/
noncomputable def build (S : Setup) (I : Input) (id : ℕ) (name : Name) (pars : List Par)
    (waves : List Name) (raw : Consts) : Outcome Comp := do
  let channels ← need (ResFit.readChannels I waves)
  let maps ← need (ResFit.mkMaps S.useBranchings (channels.map fun ch => (ch.waveName, ch.bins)))
  let consts ← raw.normed
  let shape ← (raw.cfg S.interp).build I channels
  let groups ← need (if shape.sharesBins then ResFit.massBinGroups I else some (ResFit.singleBinGroups I))
  .ok ⟨⟨id, name, channels, maps, groups, shape⟩, pars, consts⟩

/-- `readModelComponent` without the values of couplings and branchings
(resonanceFitReadConfig.cc:1020-1149) -/
noncomputable def readComp (S : Setup) (C : Codec) (I : Input) (tMeans : List ℝ) (id : ℕ) (v : V) :
    Outcome Comp := do
  let kind ← opt v kType .fixedWidth fun w => do kindOf (← str w)
  let name ← mand v kName str
  let pars ← kind.defaults.mapM fun d => readPar C v d.1 d.2
  let chans ← mand v kDecay seqOf
  let waves ← chans.mapM fun c => mand c kAmp str
  let raw ← readConsts C tMeans v chans kind
  build S I id name pars waves raw

/-- errors of the parameters, `fitParametersError.getParameter(id, idx)` -/
abbrev Errs := ℕ → ℕ → Num

/-- `setParameter` for the errors -/
def setErr (E : Errs) (id k : ℕ) (x : Num) : Errs := fun i j => if i = id ∧ j = k then x else E i j

/-- the stores filled while the model is read: `fitParameters` and `fitParametersError` -/
structure Store where
  P : Params
  E : Errs

/-- empty stores (zero-initialised) -/
def Store.empty : Store := ⟨Params.empty, fun _ _ => .fin 0⟩

/-- the loop that stores start values and errors of parameters `first, first + 1, …` in row `id`
(resonanceFitReadConfig.cc:1174-1177, 1409-1412, 1444-1447) -/
def storePars (id first : ℕ) (pars : List Par) (s : Store) : Store :=
  pars.zipIdx.foldl (fun (s : Store) (x : Par × ℕ) =>
    ⟨s.P.setPar id (first + x.2) x.1.start, setErr s.E id (first + x.2) x.1.error⟩) s

/-- the couplings of a decay channel (resonanceFitReadConfig.cc:1183-1226) -/
noncomputable def readCouplings (C : Codec) (c : Component) (ch : ℕ) (v : V) (P : Params) :
    Outcome Params :=
  if c.maps.fromCoup.getD (c.maps.chanCoup.getD ch 0) 0 = ch then do
    let l ← mand v kCouplings seqOf
    if l.length ≠ (c.chan ch).bins.length then .terminate
    else ((c.chan ch).bins.zip l).foldlM (fun (P : Params) (x : ℕ × V) => do
      let z ← pair C x.2
      .ok (P.setCoup c.id (c.maps.chanCoup.getD ch 0) x.1 ⟨z.1, z.2⟩)) P
  else .ok P

/-- the branching of a decay channel (resonanceFitReadConfig.cc:1228-1272): fixed ones are forced to
1 -/
noncomputable def readBranching (C : Codec) (c : Component) (ch : ℕ) (v : V) (P : Params) :
    Outcome Params :=
  if c.maps.nrBr > 1 then
    if c.maps.fromBr.getD (c.maps.chanBr.getD ch 0) 0 = ch then do
      let z ← mand v kBranching (pair C)
      .ok (P.setBr c.id (c.maps.chanBr.getD ch 0)
        (if c.maps.brFixed.getD (c.maps.chanBr.getD ch 0) false then 1 else ⟨z.1, z.2⟩))
    else .ok P
  else .ok (P.setBr c.id 0 1)

/-- the loop over the decay channels (resonanceFitReadConfig.cc:1179-1273) -/
noncomputable def readValues (C : Codec) (c : Component) (chans : List V) (P : Params) :
    Outcome Params :=
  ((List.range c.channels.length).zip chans).foldlM (fun (P : Params) (x : ℕ × V) => do
    let P ← readCouplings C c x.1 x.2 P
    readBranching C c x.1 x.2 P) P

/-- `readModelComponent` with the stores (resonanceFitReadConfig.cc:1152-1276) -/
noncomputable def readComp' (S : Setup) (C : Codec) (I : Input) (tMeans : List ℝ) (id : ℕ) (v : V)
    (s : Store) : Outcome (Comp × Store) := do
  let c ← readComp S C I tMeans id v
  let s := storePars id 0 c.pars s
  let chans ← mand v kDecay seqOf
  let P ← readValues C c.core chans s.P
  .ok (c, ⟨P, s.E⟩)

def kComponents : Name := "components".toList

/-- `readModelComponents` (resonanceFitReadConfig.cc:1279-1328) -/
noncomputable def readComps (S : Setup) (C : Codec) (I : Input) (tMeans : List ℝ) (m : V) (s : Store) :
    Outcome (List Comp × Store) := do
  let l ← mand m kComponents seqOf
  l.foldlM (fun (acc : List Comp × Store) v => do
    let r ← readComp' S C I tMeans acc.1.length v acc.2
    if acc.1.any (fun c => c.core.name = r.1.core.name) then .terminate
    else .ok (acc.1 ++ [r.1], r.2)) ([], s)

/-- a pair of numbers in a sequence (resonanceFitWriteConfig.cc:463-470, 481-488) -/
def wPair (C : Codec) (x y : ℝ) : V := .seq [wNum C x, wNum C y]

/-- `writeModelComponentDecayChannelIntegral` (resonanceFitWriteConfig.cc:306-354) -/
def wIntegral (C : Codec) (pts : List (ℝ × ℝ)) : Name × V :=
  (kIntegral, .seq (pts.map fun p => wPair C p.1 p.2))

/-- constants written for decay channel `i` (resonanceFitWriteConfig.cc:492-513, 528-549) -/
def writeChConsts (C : Codec) (c : Consts) (i : ℕ) : List (Name × V) :=
  match c with
  | .dynamicWidth l =>
    match l[i]? with
    | some x => [(kM1, wNum C x.2.2.1), (kM2, wNum C x.2.2.2), (kL, .scalar (C.fmtI x.2.1)),
        (kRatio, wNum C x.1)]
    | none => []
  | .integralWidth l =>
    match l[i]? with
    | some x => [wIntegral C x.2, (kRatio, wNum C x.1)]
    | none => []
  | _ => []

/-- constants written for the component (resonanceFitWriteConfig.cc:557-588) -/
def writeConsts (C : Codec) : Consts → List (Name × V)
  | .exponential l m1 m2 e =>
    [(kM1, wNum C m1), (kM2, wNum C m2), (kL, .scalar (C.fmtI l)), (kExponent, wNum C e)]
  | .tPrime _ l m1 m2 e =>
    [(kM1, wNum C m1), (kM2, wNum C m2), (kL, .scalar (C.fmtI l)), (kExponent, wNum C e)]
  | .exponentialIntegral pts e => [wIntegral C pts, (kExponent, wNum C e)]
  | .tPrimeIntegral _ pts e => [wIntegral C pts, (kExponent, wNum C e)]
  | _ => []

/-- `getTotalNrChannels()` (resonanceFit/components.h:107, 223, 264) -/
def Comp.total (c : Comp) : ℕ :=
  match c.consts with
  | .dynamicWidth l => l.length
  | .integralWidth l => l.length
  | _ => c.core.channels.length

/-- the map written for a decay channel (resonanceFitWriteConfig.cc:450-515) -/
noncomputable def writeChan (C : Codec) (c : Comp) (P : Params) (ch : ℕ) : V :=
  let k := c.core.maps.chanCoup.getD ch 0
  let j := c.core.maps.chanBr.getD ch 0
  .map ([(kAmp, .text (c.core.chan ch).waveName)]
    ++ (if c.core.maps.fromCoup.getD k 0 = ch then
          [(kCouplings, .seq ((c.core.chan ch).bins.map fun b =>
            wPair C (P.coup c.core.id k b).re (P.coup c.core.id k b).im))] else [])
    ++ (if c.core.maps.nrBr > 1 then
          if c.core.maps.fromBr.getD j 0 = ch then
            [(kBranching, wPair C (P.br c.core.id j).re (P.br c.core.id j).im)] else []
        else [])
    ++ writeChConsts C c.consts ch)

/-- `writeModelComponent` (resonanceFitWriteConfig.cc:420-591) -/
noncomputable def writeComp (C : Codec) (s : Store) (c : Comp) : V :=
  .map ([(kName, .text c.core.name), (kType, .text c.consts.kind.typeName)]
    ++ (c.pars.zipIdx.map fun x => writePar C x.1 (s.P.par c.core.id x.2) (s.E c.core.id x.2))
    ++ [(kDecay, .seq ((List.range c.core.channels.length).map (writeChan C c s.P)))]
    ++ (if c.total > c.core.channels.length then
          [(kExtra, .seq ((List.range' c.core.channels.length (c.total - c.core.channels.length)).map
            fun i => .map (writeChConsts C c.consts i)))] else [])
    ++ writeConsts C c.consts)

/-! ## final-state mass dependence -/

/-- the function of a bin: formula and parameters -/
structure FsmdBin where
  text : Name
  pars : List Par

/-- final-state mass dependence with its formulas and parameters -/
structure FsmdC where
  core : Fsmd
  bins : List FsmdBin

def kFsmd : Name := "finalStateMassDependence".toList
def kFormula : Name := "formula".toList

/-- `readModelFsmdBin` (resonanceFitReadConfig.cc:1332-1370) -/
noncomputable def readFsmdBin (S : Setup) (C : Codec) (v : V) : Outcome FsmdBin :=
  match v with
  | .map _ => do
    let text ← mand v kFormula str
    let pars ← (S.formula text).1.mapM fun n => readPar C v n 0.0001
    .ok ⟨text, pars⟩
  | _ => .terminate

/-- the formula of a text as the fit uses it -/
def Setup.fn (S : Setup) (text : Name) : Formula := ⟨(S.formula text).1.length, (S.formula text).2⟩

/-- `readModelFsmd` (resonanceFitReadConfig.cc:1373-1463) -/
noncomputable def readFsmd (S : Setup) (C : Codec) (I : Input) (id : ℕ) (m : V) (s : Store) :
    Outcome (Option FsmdC × Store) :=
  opt m kFsmd (none, s) fun w =>
    match w with
    | .map _ => do
      let b ← readFsmdBin S C w
      let core ← need (ResFit.mkFsmdSame I id (S.fn b.text))
      .ok (some ⟨core, [b]⟩, storePars id 0 b.pars s)
    | .seq l => do
      let bs ← l.mapM (readFsmdBin S C)
      let core ← need (ResFit.mkFsmdPerBin I id (bs.map fun b => S.fn b.text))
      .ok (some ⟨core, bs⟩,
        (bs.foldl (fun (acc : ℕ × Store) b =>
          (acc.1 + b.pars.length, storePars id acc.1 b.pars acc.2)) (0, s)).2)
    | .scalar _ => .terminate

/-- `writeModelFsmdBin` (resonanceFitWriteConfig.cc:620-644) -/
def writeFsmdBin (C : Codec) (f : Fsmd) (s : Store) (i : ℕ) (b : FsmdBin) : V :=
  .map ((kFormula, .text b.text)
    :: b.pars.zipIdx.map fun x => writePar C x.1 (s.P.par f.id (f.parIndex.getD i 0 + x.2))
        (s.E f.id (f.parIndex.getD i 0 + x.2)))

/-- `writeModelFsmd` (resonanceFitWriteConfig.cc:647-676).  The pointer is dereferenced without a
check: without a final-state mass dependence the behaviour is undefined. -/
def writeFsmd (C : Codec) (f : Option FsmdC) (s : Store) : Outcome (List (Name × Doc)) :=
  match f with
  | none => .ub
  | some f =>
    if f.core.same then
      match f.bins with
      | b :: _ => .ok [(kFsmd, .plain (writeFsmdBin C f.core s 0 b))]
      | [] => .ub
    else .ok [(kFsmd, .plain (.seq (f.bins.zipIdx.map fun x => writeFsmdBin C f.core s x.2 x.1)))]

/-! ## the whole document -/

/-- everything that is read from a configuration -/
structure Config where
  quality : List (Name × Num)
  free : List Name
  bins : List BinC
  anchors : List (Name × Name)
  comps : List Comp
  fsmd : Option FsmdC
  model : Model
  store : Store

/-- the data of the bins with the waves of the configuration -/
def inputOf (dat : List BinC → Input) (bins : List BinC) : Input :=
  { dat bins with waves := bins.map fun b => b.waves.map (·.name) }

/-- constructor of `model` (resonanceFit/model.cc:43-283), see `ResFit.readModel` -/
def mkModel (I : Input) (comps : List Component) (fsmd : Option Fsmd) (anchors : List (Name × Name)) :
    Outcome Model :=
  if I.nrBins = 0 ∨ I.waves.length ≠ I.nrBins ∨ anchors.length ≠ I.nrBins then .terminate
  else if ResFit.allWavesUsed I comps = false then .terminate
  else need ((anchors.zipIdx.mapM fun (a : (Name × Name) × ℕ) => ResFit.findAnchor I comps a.2 a.1).map
    fun as => ⟨comps, fsmd, I, as.map (·.1), as.map (·.2)⟩)

/-- `readModel` (resonanceFitReadConfig.cc:1468-1512) -/
noncomputable def readModel (S : Setup) (C : Codec) (I : Input) (tMeans : List ℝ) (root : V) :
    Outcome (List (Name × Name) × List Comp × Option FsmdC × Model × Store) :=
  mand root kModel fun m => do
    let anchors ← readAnchors m
    let r ← readComps S C I tMeans m Store.empty
    let f ← readFsmd S C I r.1.length m r.2
    let M ← mkModel I (r.1.map (·.core)) (f.1.map (·.core)) anchors
    .ok (anchors, r.1, f.1, M, f.2)

/-- reading a configuration (resonanceFit/resonanceFit.cc:117-163): `dat` are the data read from the
files of the bins -/
noncomputable def readConfig (S : Setup) (C : Codec) (dat : List BinC → Input) (root : V) :
    Outcome Config := do
  let quality ← readQuality C root
  let free ← readFree root
  let bins ← readInput C root
  let r ← readModel S C (inputOf dat bins) (bins.map (·.tMean)) root
  .ok ⟨quality, free, bins, r.1, r.2.1, r.2.2.1, r.2.2.2.1, r.2.2.2.2⟩

/-- `writeConfig` (resonanceFitWriteConfig.cc:679-763): the configuration with fit parameters, errors,
quality and release order of the caller (`cfg.store`, `cfg.quality`, `cfg.free` are those read, they
are not written) -/
noncomputable def writeConfig (C : Codec) (cfg : Config) (s : Store) (quality : List (Name × Num))
    (free : List Name) : Outcome Doc := do
  let f ← writeFsmd C cfg.fsmd s
  .ok (.map (writeQuality C quality ++ writeFree free ++ writeInput C cfg.bins
    ++ [(kModel, .map (writeAnchors cfg.anchors
      ++ [(kComponents, .plain (.seq (cfg.comps.map (writeComp C s))))] ++ f))]))

end Rpwa.ResCfg
