import Verif.Model.Basic
import Mathlib.Data.Multiset.Basic
import Mathlib.Data.List.Sort
import Mathlib.Data.Rat.Defs
import Mathlib.Data.String.Basic
import Mathlib.Algebra.Order.Ring.Rat
/-!
Model of `particleData/particleProperties.{h,cc}` and `particleData/particleDataTable.cc`.

Names are lists of characters; `double` values are exact rationals; the `std::map<string, particleProperties>` is a list of
key/value pairs sorted by key; `std::multiset<string>` is a `Multiset`.
-/
namespace Rpwa.Particle

abbrev Name := List Char

/-- utilities/conversionUtils.hpp l.46-55 `sign(char)`. -/
def signOfChar (c : Char) : Int := if c = '+' then 1 else if c = '-' then -1 else 0

/-- utilities/conversionUtils.hpp l.58-68 `sign(T)`. -/
def signString (v : Int) : Name := if v < 0 then ['-'] else if v > 0 then ['+'] else ['0']

/-- `boost::lexical_cast<int>(char)` with `bad_lexical_cast` swallowed (particleProperties.cc l.557-560): the value of a
decimal digit, 0 for every other character. -/
def digitVal (c : Char) : Nat := if c.isDigit then c.toNat - '0'.toNat else 0

/-- `boost::lexical_cast<char>(int)` with `bad_lexical_cast` swallowed (particleProperties.cc l.521-526): one digit, empty
for numbers with more than one digit. -/
def digitString (n : Nat) : Name := if n < 10 then [Char.ofNat ('0'.toNat + n)] else []

/-- particleProperties.cc l.515-531 `nameWithCharge`. -/
def nameWithCharge (bare : Name) (charge : Int) : Name :=
  if bare ≠ [] then
    (if charge.natAbs > 1 then bare ++ digitString charge.natAbs else bare) ++ signString charge
  else bare

/-- particleProperties.cc l.534-568 `chargeFromName`; reading `partName[length-1]` of an empty string and
`partName[length-2]` of a one-character string are undefined behaviour. -/
def chargeFromName (partName : Name) : Outcome (Name × Int) :=
  match partName.reverse with
  | [] => .ub
  | last :: rest =>
    if last = '+' ∨ last = '0' ∨ last = '-' then
      let charge := signOfChar last
      match rest with
      | [] => .ub
      | c :: rest' =>
        let chargeVal := digitVal c
        if chargeVal ≠ 0 then .ok (rest'.reverse, charge * chargeVal)
        else .ok (rest.reverse, charge)
    else .ok (partName, 0)

/-- particleProperties.cc l.571-576 `stripChargeFromName`. -/
def stripCharge (partName : Name) : Outcome Name := (chargeFromName partName).map Prod.fst

/-- particleProperties.h l.60-76 `decayMode`; -1 = undefined. -/
structure DecayMode where
  daughters : Multiset Name
  L : Int
  S : Int
  massDeps : List Name := []

/-- particleProperties.cc l.67-78 `decayMode::operator ==`. -/
def DecayMode.eq (a b : DecayMode) : Bool :=
  if a.daughters ≠ b.daughters then false
  else if a.L ≠ -1 ∧ b.L ≠ -1 ∧ a.L ≠ b.L then false
  else if a.S ≠ -1 ∧ b.S ≠ -1 ∧ a.S ≠ b.S then false
  else true

/-- particleProperties.h l.199-215: the fields. -/
structure Props where
  name : Name            -- bare name
  antiName : Name        -- bare name of the antiparticle
  charge : Int
  mass : Rat
  mass2 : Rat
  width : Rat
  baryonNmb : Int
  isospin : Int
  strangeness : Int
  charm : Int
  beauty : Int
  G : Int
  J : Int
  P : Int
  C : Int
  decays : List DecayMode

namespace Props

/-- particleProperties.cc l.105-123: default constructor. -/
def default : Props := ⟨[], [], 0, 0, 0, 0, 0, 0, 0, 0, 0, 0, 0, 0, 0, []⟩

/-- particleProperties.h l.101 `name()`. -/
def fullName (p : Props) : Name := nameWithCharge p.name p.charge
/-- particleProperties.h l.103 `antiPartName()`. -/
def antiFullName (p : Props) : Name := nameWithCharge p.antiName (-p.charge)
/-- particleProperties.h l.111 `isospinProj()`. -/
def isospinProj (p : Props) : Int := 2 * p.charge - (p.baryonNmb + p.strangeness + p.charm + p.beauty)

/-- particleProperties.h l.239-247 `isMeson`. -/
def isMeson (p : Props) : Bool :=
  decide (p.charge.natAbs ≤ 1) && decide (p.baryonNmb = 0) && decide (p.isospin ≤ 2) &&
  decide (p.strangeness.natAbs ≤ 1) && decide (p.charm.natAbs ≤ 1) && decide (p.beauty.natAbs ≤ 1) &&
  isEven p.J && decide (p.P.natAbs = 1) && decide (p.C.natAbs ≤ 1) &&
  (decide (p.charge.natAbs ≠ 0) || decide (p.G = powMinusOne (Int.tdiv p.isospin 2) * p.C))

/-- particleProperties.h l.250-258 `isBaryon`. -/
def isBaryon (p : Props) : Bool :=
  decide (p.charge.natAbs ≤ 2) && decide (p.baryonNmb = 1) && decide (p.isospin ≤ 3) &&
  decide (p.strangeness.natAbs ≤ 3) && decide (p.charm.natAbs ≤ 3) && decide (p.beauty.natAbs ≤ 3) &&
  isOdd p.J && decide (p.P.natAbs = 1) && decide (p.C = 0) && decide (p.G = 0)

/-- particleProperties.h l.271-278 `isPhoton`. -/
def isPhoton (p : Props) : Bool :=
  decide (p.charge = 0) && decide (p.baryonNmb = 0) && decide (p.isospin = 0) && decide (p.strangeness = 0) &&
  decide (p.charm = 0) && decide (p.beauty = 0) && decide (p.J = 2) && decide (p.P = -1) && decide (p.C = -1) &&
  decide (p.G = 0)

/-- particleProperties.h l.281-288 `isItsOwnAntiPart`. -/
def isItsOwnAntiPart (p : Props) : Bool :=
  (p.isMeson || p.isPhoton) && decide (p.fullName = p.antiFullName) && decide (p.charge = 0) &&
  decide (p.baryonNmb = 0) && decide (p.isospinProj = 0) && decide (p.strangeness = 0) && decide (p.charm = 0) &&
  decide (p.beauty = 0)

/-- particleProperties.h l.301-312 `setCharge`. -/
def setCharge (p : Props) (q : Int) : Outcome Props :=
  if q.natAbs < 10 then .ok { p with charge := q } else .terminate

/-- particleProperties.h l.291-298 `setName`. -/
def setName (p : Props) (n : Name) : Outcome Props := do
  let r ← chargeFromName n
  setCharge { p with name := r.1 } r.2

/-- particleProperties.h l.144 `setAntiPartName`. -/
def setAntiPartName (p : Props) (n : Name) : Outcome Props := do
  let r ← stripCharge n
  return { p with antiName := r }

/-- particleProperties.h l.315-321 `setMass`. -/
def setMass (p : Props) (m : Rat) : Props := { p with mass := m, mass2 := m * m }

/-- particleProperties.cc l.237-241 `hasDecay` (`std::find` uses `element == decay`). -/
def hasDecay (p : Props) (d : DecayMode) : Bool := p.decays.any fun e => e.eq d

end Props

/-- the data table: `std::map`, i.e. pairs sorted by key. -/
abbrev Table := List (Name × Props)

/-- `_dataTable.find(partName)` (particleDataTable.cc l.136-157 `isInTable`, `entry`). -/
def entry (t : Table) (n : Name) : Option Props := (t.find? fun e => e.1 = n).map Prod.snd

/-- insertion into the ordered map (`_dataTable[name] = partProp` for a new key). -/
def insertSorted (n : Name) (p : Props) : Table → Table
  | [] => [(n, p)]
  | e :: es => if n < e.1 then (n, p) :: e :: es else e :: insertSorted n p es

/-- particleDataTable.cc l.235-253 `addEntry`. -/
def addEntry (t : Table) (p : Props) : Table × Bool :=
  let n := p.fullName
  if (entry t n).isSome then (t, false) else (insertSorted n p t, true)

/-- particleProperties.cc l.249-272 `fillFromDataTable`, the record found or `none` (object unchanged). -/
def fillFromDataTable (t : Table) (partName : Name) : Outcome (Option Props) := do
  if (entry t partName).isSome then return entry t partName
  let s ← stripCharge partName
  let n := if partName = s then partName ++ ['0'] else partName
  return entry t n

/-- the loop particleProperties.cc l.329-339 over the daughters of one mode. -/
def antiDaughters (t : Table) : List Name → Outcome (List Name)
  | [] => .ok []
  | n :: ns => do
    let r ← fillFromDataTable t n
    let rest ← antiDaughters t ns
    return (r.getD Props.default).antiFullName :: rest

/-- particleProperties.cc l.300-345 `antiPartProperties(convertDecaysModes = false)`. -/
def antiPartProperties (p : Props) : Outcome Props :=
  if p.isItsOwnAntiPart then .ok { p with decays := [] }
  else do
    let a ← Props.default.setName p.antiName
    let a ← a.setAntiPartName p.name
    let a ← a.setCharge (-p.charge)
    let a := a.setMass p.mass
    return { a with
      width := p.width, baryonNmb := -p.baryonNmb, isospin := (p.isospin.natAbs : Int),
      strangeness := -p.strangeness, charm := -p.charm, beauty := -p.beauty,
      G := signum p.G, J := (p.J.natAbs : Int), P := signum p.P, C := signum p.C, decays := [] }

/-- `string::find(pattern) != npos`. -/
def contains (pat s : Name) : Bool := s.tails.any fun t => pat.isPrefixOf t

/-- particleProperties.cc l.189-220 `operator ==(particleProperties, pair<particleProperties, string>)`. -/
def matchesSel (l r : Props) (sel : String) : Bool :=
  let s := sel.toList
  let has := fun k : String => contains k.toList s
  let all := has "allQn"
  ((!has "charge" && !all) || decide (l.charge = r.charge)) &&
  ((!has "baryonNmb" && !all) || decide (l.baryonNmb = r.baryonNmb)) &&
  ((!has "I" && !all) || decide (l.isospin = r.isospin)) &&
  ((!has "strangeness" && !all) || decide (l.strangeness = r.strangeness)) &&
  ((!has "charm" && !all) || decide (l.charm = r.charm)) &&
  ((!has "beauty" && !all) || decide (l.beauty = r.beauty)) &&
  ((!has "G" && !all) || decide (l.G = r.G)) &&
  ((!has "J" && !all) || decide (l.J = r.J)) &&
  ((!has "P" && !all) || decide (l.P = r.P)) &&
  ((!has "C" && !all) || decide (l.C = r.C))

/-- the loops over white and black list (particleDataTable.cc l.182-203): is the particle named in the list? -/
def inNameList (p : Props) (l : List Name) : Bool := l.any fun n => p.fullName = n || p.name = n

/-- body of the loop of `entriesMatching` (particleDataTable.cc l.172-215): `true` = the entry is appended. -/
def keepEntry (prototype : Props) (sel : String) (minMass minMassWidthFactor : Rat) (whiteList blackList : List Name)
    (decay : DecayMode) (forceDecayCheck : Bool) (p : Props) : Bool :=
  if !matchesSel p prototype sel then false
  else if minMass > 0 ∧ p.mass + minMassWidthFactor * p.width < minMass then false
  else if !(whiteList.isEmpty || inNameList p whiteList) then false
  else if inNameList p blackList then false
  else
    let decayMatch :=
      if 0 < Multiset.card decay.daughters ∧ 0 < p.decays.length then p.hasDecay decay
      else !forceDecayCheck
    if !decayMatch then false else true

/-- particleDataTable.cc l.160-232 `entriesMatching`. -/
def entriesMatching (t : Table) (prototype : Props) (sel : String) (minMass minMassWidthFactor : Rat)
    (whiteList blackList : List Name) (decay : DecayMode) (forceDecayCheck : Bool) : List Props :=
  t.foldl (fun acc e =>
    if keepEntry prototype sel minMass minMassWidthFactor whiteList blackList decay forceDecayCheck e.2
    then acc ++ [e.2] else acc) []

/-! ### text format -/

/-- whitespace separated fields of a line; a number is an integer literal or a literal with a fractional part; `junk` is what
is left in the stream after an integer has been extracted from a literal with a fractional part. -/
inductive Tok where
  | word (s : Name)
  | int (z : Int)
  | frac (q : Rat)
  | junk
  deriving DecidableEq

/-- how `operator<<(double)` prints: no decimal point for integral values (rounding to 6 digits is not modelled). -/
def doubleTok (q : Rat) : Tok := if q.den = 1 then .int q.num else .frac q

/-- `stream >> double`. -/
def getDouble : List Tok → Option (Rat × List Tok)
  | .int z :: ts => some (z, ts)
  | .frac q :: ts => some (q, ts)
  | _ => none

/-- `stream >> int`: of a literal with fractional part only the integer part is consumed. -/
def getInt : List Tok → Option (Int × List Tok)
  | .int z :: ts => some (z, ts)
  | .frac q :: ts => some ((if q < 0 then -(-q).floor else q.floor), .junk :: ts)
  | _ => none

/-- `stream >> string`. -/
def getWord : List Tok → Option (Name × List Tok)
  | .word s :: ts => some (s, ts)
  | _ => none

/-- particleProperties.cc l.447-465 `dump`: 14 columns. -/
def dump (p : Props) : List Tok :=
  [.word p.fullName, .word p.antiFullName, doubleTok p.mass, doubleTok p.mass2, doubleTok p.width,
   .int p.baryonNmb, .int p.isospin, .int p.strangeness, .int p.charm, .int p.beauty, .int p.G, .int p.J, .int p.P,
   .int p.C]

/-- local variables of `read` (particleProperties.cc l.473-476). -/
structure Raw where
  name : Name
  antiName : Name
  mass : Rat
  width : Rat
  ints : List Int

/-- extraction of `n` integers from the stream. -/
def getInts : Nat → List Tok → Option (List Int)
  | 0, _ => some []
  | n + 1, ts => (getInt ts).bind fun r => (getInts n r.2).map fun l => r.1 :: l

/-- particleProperties.cc l.477-489: `line >> name >> antiPartName >> mass >> width >> baryonNmb >> isospin >> strangeness >>
charm >> beauty >> G >> J >> P >> C` (two words, two doubles, nine integers); `none` = the stream is in error. -/
def parseLine (line : List Tok) : Option Raw :=
  (getWord line).bind fun a =>
  (getWord a.2).bind fun b =>
  (getDouble b.2).bind fun c =>
  (getDouble c.2).bind fun d =>
  (getInts 9 d.2).map fun is => ⟨a.1, b.1, c.1, d.1, is⟩

/-- particleProperties.cc l.490-502: fill the record. -/
def fromRaw (r : Raw) : Outcome Props := do
  let a ← Props.default.setName r.name
  let a ← a.setAntiPartName r.antiName
  let a := a.setMass r.mass
  let i := fun k : Nat => r.ints.getD k 0
  return { a with
    width := r.width, baryonNmb := i 0, isospin := ((i 1).natAbs : Int), strangeness := i 2, charm := i 3,
    beauty := i 4, G := signum (i 5), J := ((i 6).natAbs : Int), P := signum (i 7), C := signum (i 8) }

/-- particleProperties.cc l.468-512 `read`; inner `none` = "problems reading", object unchanged. -/
def readLine (line : List Tok) : Outcome (Option Props) :=
  match parseLine line with
  | none => .ok none
  | some r => do
    let p ← fromRaw r
    return some p

/-- one turn of the loop of `particleDataTable::read` (particleDataTable.cc l.301-310) on a non-comment line; a line that
cannot be parsed leaves the default-constructed record, which is then added (the result of `partProp.read` is ignored by
`operator >>`, particleProperties.h l.333-354). -/
def readEntry (t : Table) (line : List Tok) : Outcome Table := do
  let r ← readLine line
  let p := r.getD Props.default
  let t := (addEntry t p).1
  if p.isItsOwnAntiPart then return t
  else
    let a ← antiPartProperties p
    return (addEntry t a).1

/-- the loop of `particleDataTable::read`. -/
def readTable : Table → List (List Tok) → Outcome Table
  | t, [] => .ok t
  | t, l :: ls => do
    let t ← readEntry t l
    readTable t ls

/-- particleDataTable.cc l.268-276 `dump`. -/
def dumpTable (t : Table) : List (List Tok) := t.map fun e => dump e.2

end Rpwa.Particle
