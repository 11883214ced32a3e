import Verif.Model.Particle
import Mathlib.Analysis.Real.Sqrt
/-!
# Events in text files

Models `decayAmplitude/evtTreeHelper.cc` and the translation of GEANT particle numbers (`particleData/particleDataTable.cc:54-133`).
Simplifications:
* a text file is a list of lines, a line a list of words: integers, other numbers, or neither. Reading an integer from a word that is another number fails
  (the code reads the leading digits and fails at the next word; only for the line with the number of particles "4.5" would be read as 4);
* numbers are real; what is read back from the text printed for `x` is `rd x`, an arbitrary function (16 digits are printed);
* momenta that could not be read (`none`) are what the previous event left or null; the energies are not used;
* a tree is the list of its entries. -/
namespace Rpwa.Evt
open Rpwa.Particle

/-- particleDataTable.cc:54-85. -/
def geantTable : List (String × ℤ) :=
  [("gamma", 1), ("e+", 2), ("e-", 3), ("mu+", 5), ("mu-", 6), ("pi0", 7), ("pi+", 8), ("pi-", 9), ("K_L", 10), ("K+", 11), ("K-", 12), ("n", 13), ("p+", 14), ("pbar-", 15),
   ("K_S", 16), ("eta", 17), ("Lambda", 18), ("nbar", 25), ("Lambdabar", 26), ("rho(770)0", 57), ("rho(770)+", 58), ("rho(770)-", 59), ("omega(782)", 60), ("eta'(982)", 61),
   ("phi(1020)", 62)]

/-- `particleNameFromGeantId` (particleDataTable.cc:96-106). -/
def nameOfId (id : ℤ) : Outcome Name := match geantTable.find? fun x => x.2 = id with
  | none => .ok "unknown".toList
  | some x => (chargeFromName x.1.toList).bind fun r => .ok (nameWithCharge r.1 r.2)

/-- `geantIdAndChargeFromParticleName` (particleDataTable.cc:109-125). -/
def idOfName (name : Name) : Outcome (ℤ × ℤ) := (chargeFromName name).bind fun r =>
  match geantTable.find? fun x => x.1.toList = name with
  | some x => .ok (x.2, r.2)
  | none => match geantTable.find? fun x => x.1.toList = r.1 with
    | some x => .ok (x.2, r.2)
    | none => .ok (0, r.2)

/-- a word of a line. -/
inductive Tok where
  | int (n : ℤ)
  | num (x : ℝ)
  | word

abbrev Line := List Tok
abbrev Mom := ℝ × ℝ × ℝ

/-- reading of an `int`. -/
def Tok.toInt : Tok → Option ℤ
  | .int n => some n
  | _ => none

/-- reading of a `double`. -/
noncomputable def Tok.toDbl : Tok → Option ℝ
  | .int n => some n
  | .num x => some x
  | .word => none

/-- `lineStream >> id >> charge >> momX >> momY >> momZ >> E` (evtTreeHelper.cc:384, 419). -/
noncomputable def readPart : Line → Option (ℤ × ℤ × Mom)
  | a :: b :: x :: y :: z :: e :: _ => do
    let id ← a.toInt
    let q ← b.toInt
    let px ← x.toDbl
    let py ← y.toDbl
    let pz ← z.toDbl
    let _ ← e.toDbl
    return (id, q, px, py, pz)
  | _ => none

/-- the number of particles (evtTreeHelper.cc:361-367); 0 if it cannot be read. -/
def readNumber : Line → ℤ
  | a :: _ => a.toInt.getD 0
  | [] => 0

/-- `checkParticleCharge` (evtTreeHelper.cc:69-93). -/
def checkCharge (name : Name) (q : ℤ) : Outcome Bool :=
  if name = "unknown".toList then .ok false else (chargeFromName name).bind fun r => .ok (decide (q = r.2))

/-- one event of the tree: momentum of the beam, momenta of the decay particles. -/
structure Ev where
  beam : Mom
  decay : List (Option Mom)

/-- what a particle line gives: name, momentum, charge as expected. -/
noncomputable def part (l : Line) : Outcome (Option (Name × Mom × Bool)) := match readPart l with
  | none => .ok none
  | some r => (nameOfId r.1).bind fun n => (checkCharge n r.2.1).bind fun ok => .ok (some (n, r.2.2, ok))

/-- the state of the loop over events (evtTreeHelper.cc:340-347): `success`, entries of the tree, names from the first event. -/
structure St where
  success : Bool
  events : List Ev
  names : Option (Name × List Name)

/-- the name of a decay particle (empty if the line could not be read). -/
def nm (x : Option (Name × Mom × Bool)) : Name := match x with
  | some r => r.1
  | none => []

/-- one event from its lines (evtTreeHelper.cc:370-490): `n` particles, the line of the beam, the lines of the decay particles. The assertions ask for at least one decay
particle, all lines, and a last line that was read; a change of the particles ends the program (`throw` without exception). -/
noncomputable def event (s : St) (n : ℤ) (beam : Line) (ls : List Line) : Outcome St :=
  (part beam).bind fun b => match b with
    | none => .terminate
    | some b => (ls.mapM part).bind fun ds =>
      if n - 1 > 0 ∧ (ds.length : ℤ) = n - 1 ∧ ds.getLast?.any Option.isSome then
        let names := (b.1, ds.map nm)
        let st : St :=
          { success := s.success && b.2.2 && ds.all fun x => match x with | some r => r.2.2 | none => false
            events := s.events ++ [⟨b.2.1, ds.map fun x => x.map fun r => r.2.1⟩]
            names := some (s.names.getD names) }
        if s.names.getD names = names then .ok st else .terminate
      else .terminate

/-- the loop over events (evtTreeHelper.cc:353-497); `max ≤ 0`: no limit. The fuel is the number of lines. -/
noncomputable def fillLoop (max : ℤ) : ℕ → St → List Line → Outcome St
  | 0, s, _ => .ok s
  | _ + 1, s, [] => .ok s
  | k + 1, s, l :: ls =>
    let n := readNumber l
    if n > 0 then match ls with
      | [] => .ok s
      | b :: rest => (event s n b (rest.take (n - 1).toNat)).bind fun s' =>
        if max > 0 ∧ (s'.events.length : ℤ) ≥ max then .ok s' else fillLoop max k s' (rest.drop (n - 1).toNat)
    else .terminate

/-- `fillTreeFromEvt` (evtTreeHelper.cc:314-508) for a stream that can be read. -/
noncomputable def fillTree (ls : List Line) (max : ℤ) : Outcome St := fillLoop max ls.length ⟨true, [], none⟩ ls

/-! ### writing -/

/-- a particle line (evtTreeHelper.cc:586-589, 607-610). -/
noncomputable def writePart (rd : ℝ → ℝ) (mass : Name → ℝ) (name : Name) (p : Mom) : Outcome Line := (idOfName name).bind fun r =>
  .ok [.int r.1, .int r.2, .num (rd p.1), .num (rd p.2.1), .num (rd p.2.2), .num (rd (Real.sqrt (mass name * mass name + (p.1 * p.1 + p.2.1 * p.2.1 + p.2.2 * p.2.2))))]

/-- an entry of the tree that is written: momenta of production and decay particles. -/
structure Entry where
  prod : List Mom
  decay : List Mom

/-- one entry (evtTreeHelper.cc:552-617). -/
noncomputable def writeEntry (rd : ℝ → ℝ) (mass : Name → ℝ) (prodNames decayNames : List Name) (e : Entry) : Outcome (List Line) :=
  if prodNames.length = e.prod.length ∧ decayNames.length = e.decay.length then
    match prodNames, e.prod with
    | beam :: _, p :: _ => if decayNames = [] then .ok [] else
      (writePart rd mass beam p).bind fun l => ((decayNames.zip e.decay).mapM fun x => writePart rd mass x.1 x.2).bind fun ls =>
        .ok ([.int (1 + decayNames.length)] :: l :: ls)
    | _, _ => .ok []
  else .terminate

/-- `writeEvtFromTree` (evtTreeHelper.cc:511-623). -/
noncomputable def writeEvt (rd : ℝ → ℝ) (mass : Name → ℝ) (prodNames decayNames : List Name) (es : List Entry) (max : ℤ) : Outcome (List Line) :=
  ((if max > 0 then es.take max.toNat else es).mapM (writeEntry rd mass prodNames decayNames)).bind fun ls => .ok ls.flatten

/-! ### opening of several files -/

/-- the names of particles known so far, the trees. -/
structure Opened where
  prod : Option (List Name)
  decay : Option (List Name)
  trees : List (List Ev)

/-- the comparison of names (evtTreeHelper.cc:254-271, 277-294): the error is reported if the numbers differ; otherwise **the body of the loop ends in the report of the error**,
the comparison in it only skips nothing. `some k`: continue with the names `k`; `none`: return false. -/
def checkNames (known : Option (List Name)) (new : List Name) : Option (Option (List Name)) := match known with
  | none => some (some new)
  | some old => if new.length ≠ old.length then none else if new = [] then some (some old) else none

/-- one text file (evtTreeHelper.cc:224-300); `none`: the file cannot be opened. The inner `none`: return false. -/
noncomputable def openOne (s : Opened) (f : Option (List Line)) : Outcome (Option Opened) := match f with
  | none => .ok (some s)
  | some ls => (fillTree ls (-1)).bind fun st =>
    let trees := if st.success then s.trees ++ [st.events] else s.trees
    let prodNew := match st.names with | some n => [n.1] | none => []
    let decayNew := match st.names with | some n => n.2 | none => []
    match checkNames s.prod prodNew with
    | none => .ok none
    | some prod => match checkNames s.decay decayNew with
      | none => .ok none
      | some decay => .ok (some ⟨prod, decay, trees⟩)

/-- all text files. -/
noncomputable def openAll : Opened → List (Option (List Line)) → Outcome (Option Opened)
  | s, [] => .ok (some s)
  | s, f :: fs => (openOne s f).bind fun r => match r with
    | none => .ok none
    | some s' => openAll s' fs

/-- `openRootEvtFiles` (evtTreeHelper.cc:178-311); `root` are the names in the first ROOT file and the entries of all ROOT files. `none`: false is returned. -/
noncomputable def openFiles (root : Option (List Name × List Name × List Ev)) (fs : List (Option (List Line))) : Outcome (Option Opened) :=
  let s : Opened := match root with
    | none => ⟨none, none, []⟩
    | some r => ⟨some r.1, some r.2.1, [r.2.2]⟩
  (openAll s fs).bind fun r => match r with
    | none => .ok none
    | some s => if s.prod.isSome ∧ s.decay.isSome then .ok (some s) else .ok none

/-! ### amplitudes for the events of a tree -/

/-- `processTree` (evtTreeHelper.cc:626-714) after the branches were connected; `amp e`: the amplitude if the momenta of the event can be read. -/
def processTree {C E : Type} (amp : E → Option C) (es : List E) (max : ℤ) : Bool × List C :=
  (if max > 0 then es.take max.toNat else es).foldl (fun r e => match amp e with | some c => (r.1, r.2 ++ [c]) | none => (false, r.2)) (true, [])

end Rpwa.Evt
