import Verif.Model.Storage
import Verif.Model.EvtFile
/-!
# Conversion of event files to text and back

Models pyInterface/scripts/convertEvtToTree.py and convertTreeToEvt.py.  Simplifications:
* a text is a list of lines that end with a line feed, a line is the list of its words (`split()`); lines that have only blanks do not occur;
* Python's `int`, `float`, `str` and the format `%.16e` are functions between words and numbers; the energy that is written is a function of
  particle and momentum;
* exceptions and `sys.exit` end the script before the metadata are written: no event file;
* opening files, command lines and messages are omitted. -/
namespace Rpwa.EvtConvert

open Rpwa.Storage

/-- conversion of words (Python): `int`, `float`, `str`, `'%.16e' %`. -/
structure Text where
  pInt : String → Option ℤ
  pDbl : String → Option Dbl
  fInt : ℤ → String
  fDbl : Dbl → String

abbrev Line := List String

/-- convertEvtToTree.py:16-25 `getEvent`: the lines of the particles of the next event and the lines that remain; `none`: no further event. -/
def getEvent (T : Text) : List Line → Outcome (Option (List Line × List Line))
  | [] => .ok none
  | [] :: _ => .ok none
  | [w] :: ls => match T.pInt w with
    | none => .terminate
    | some n =>
      if (ls.take n.toNat).length < n.toNat ∨ [] ∈ ls.take n.toNat then .terminate
      else .ok (some (ls.take n.toNat, ls.drop n.toNat))
  | (_ :: _ :: _) :: _ => .terminate

/-- convertEvtToTree.py:59-65, 71-77: the name of the particle of a line. -/
def lineName (T : Text) : Line → Outcome String
  | [] => .terminate
  | w :: _ => match T.pInt w with
    | none => .terminate
    | some id => do
      let n ← Evt.nameOfId id
      .ok (String.ofList n)

/-- convertEvtToTree.py:82-83, 89-90: the momentum of a line. -/
def lineMomentum (T : Text) : Line → Outcome Vec3
  | _ :: _ :: x :: y :: z :: _ => match T.pDbl x, T.pDbl y, T.pDbl z with
    | some a, some b, some c => .ok ⟨a, b, c⟩
    | _, _, _ => .terminate
  | _ => .terminate

/-- convertEvtToTree.py:57-66 `getProductionKinematicsParticleNames`. -/
def prodNames (T : Text) (lines : List Line) : Outcome (List String) := match lines with
  | [] => .terminate
  | b :: _ => do
    let n ← lineName T b
    .ok [n]

/-- convertEvtToTree.py:68-78 `getDecayKinematicsParticleNames`. -/
def decayNames (T : Text) (lines : List Line) : Outcome (List String) := (lines.drop 1).mapM (lineName T)

/-- convertEvtToTree.py:50-54: the first line whose particle has this name; its name is then empty. -/
def takeLine (target : String) : List (String × Line) → Option (Line × List (String × Line))
  | [] => none
  | (n, l) :: rest =>
    if n = target then some (l, ("", l) :: rest)
    else match takeLine target rest with
      | none => none
      | some r => some (r.1, (n, l) :: r.2)

/-- convertEvtToTree.py:49-54. -/
def orderLines : List String → List (String × Line) → List Line
  | [], _ => []
  | t :: ts, cur => match takeLine t cur with
    | none => orderLines ts cur
    | some r => r.1 :: orderLines ts r.2

/-- convertEvtToTree.py:39-55 `reorder`. -/
def reorder (T : Text) (targetProd targetDecay : List String) (lines : List Line) : Outcome (List Line) := do
  let p ← prodNames T lines
  let d ← decayNames T lines
  if p.head? ≠ targetProd.head? then .terminate
  else match lines with
    | [] => .terminate
    | b :: ds => .ok (b :: orderLines targetDecay (d.zip ds))

/-- convertEvtToTree.py:161-162: one event is added. -/
def convertEvent (T : Text) (targetProd targetDecay : List String) (w : EventWriter) (lines : List Line) : Outcome EventWriter := do
  let ls ← reorder T targetProd targetDecay lines
  match ls with
  | [] => .terminate
  | b :: ds => do
    let p ← lineMomentum T b
    let d ← ds.mapM (lineMomentum T)
    w.addEvent [p] d []

/-- convertEvtToTree.py:160-163: the loop; every event takes at least one line, the fuel is the number of lines. -/
def convertLoop (T : Text) (targetProd targetDecay : List String) : ℕ → EventWriter → List Line → Outcome EventWriter
  | 0, w, _ => .ok w
  | k + 1, w, ls => do
    let e ← getEvent T ls
    match e with
    | none => .ok w
    | some e => do
      let w' ← convertEvent T targetProd targetDecay w e.1
      convertLoop T targetProd targetDecay k w' e.2

/-- arguments of convertEvtToTree.py; `bounds = none`: a binning that cannot be read. -/
structure ConvArgs where
  aux : String
  type : EventsType
  bounds : Option Bounds

/-- convertEvtToTree.py:139-165: the event file that is written. -/
def evtToTree (md5 : Hashor → String) (T : Text) (a : ConvArgs) (ls : List Line) : Outcome EventMeta :=
  match a.bounds with
  | none => .terminate
  | some bounds => do
    let e ← getEvent T ls
    match e with
    | none => .terminate
    | some e => do
      let p ← prodNames T e.1
      let d ← decayNames T e.1
      let i := EventWriter.new.initialize ⟨a.aux, a.type, p, d, bounds, []⟩
      if !i.1 then .terminate
      else do
        let w ← convertLoop T p d (ls.length + 1) i.2 ls
        match (w.finalize md5).1 with
        | none => .terminate
        | some m => .ok m

/-- the particle data used when writing: particles of the table, charge, energy for a momentum. -/
structure PartData where
  inTable : String → Bool
  charge : String → ℤ
  energy : String → Vec3 → Dbl

/-- convertTreeToEvt.py:11-27 `writeParticleToFile`. -/
def writeParticle (T : Text) (P : PartData) (x : String × Vec3) : Outcome Line :=
  if !P.inTable x.1 then .terminate
  else do
    let r ← Evt.idOfName x.1.toList
    .ok [T.fInt r.1, T.fInt (P.charge x.1), T.fDbl x.2.x, T.fDbl x.2.y, T.fDbl x.2.z, T.fDbl (P.energy x.1 x.2)]

/-- convertTreeToEvt.py:64-80: one event; more momenta than names of one kind are an `IndexError`. -/
def writeEvent (T : Text) (P : PartData) (em : EventMeta) (r : Row) : Outcome (List Line) :=
  if em.prodNames.length + em.decayNames.length ≠ r.prod.length + r.decay.length then .terminate
  else if em.prodNames.length < r.prod.length ∨ em.decayNames.length < r.decay.length then .terminate
  else do
    let p ← (em.prodNames.zip r.prod).mapM (writeParticle T P)
    let d ← (em.decayNames.zip r.decay).mapM (writeParticle T P)
    .ok ([T.fInt ((em.prodNames.length + em.decayNames.length : ℕ) : ℤ)] :: p ++ d)

/-- convertTreeToEvt.py:55-80: the text; a script that stops leaves the text of the events before. -/
def treeToEvt (T : Text) (P : PartData) (em : EventMeta) : Outcome (List Line) :=
  match em.tree with
  | none => .terminate
  | some t => do
    let l ← t.rows.mapM (writeEvent T P em)
    .ok l.flatten

end Rpwa.EvtConvert
