import Verif.Model.KeyFile
/-!
# Key files that describe several waves

Models `expand` and its helpers (decayAmplitude/waveDescription.cc l.60-175), `parseKeyFile` / `parseKeyFileContent`
(l.292-349) and the text round trip `copyConfig` / `getConfigString` (utilities/libConfigUtils.hpp l.312-366).
Simplifications: as in `Model/KeyFile.lean`; an uncaught exception of libconfig is `terminate`; the place of a setting in the
tree, which the code keeps as a pointer, is the function that rebuilds the tree around it (`Found.plug`).
-/
namespace Rpwa.KeyFile

open Rpwa.Particle

abbrev Members := List (String × Setting)

/-- a group of settings that has an `expand` group, with its place in the tree -/
structure Found (α : Type) where
  parent : Members
  spec : Members
  plug : Members → α

/-- the `expand` group of a group, waveDescription.cc l.115-118 -/
def expandGroup (g : Members) : Option Members :=
  match g.lookup "expand" with
  | some (.group e) => some e
  | _ => none

mutual
/-- waveDescription.cc l.112-132 `findExpand`: the setting itself, then its children in order. -/
def findExpand : Setting → Option (Found Setting)
  | .group g =>
    match expandGroup g with
    | some e => some ⟨g, e, .group⟩
    | none => (findMembers g).map fun f => ⟨f.parent, f.spec, fun x => .group (f.plug x)⟩
  | .list l => (findElements l).map fun f => ⟨f.parent, f.spec, fun x => .list (f.plug x)⟩
  | .int _ => none
  | .float _ => none
  | .str _ => none
  | .bool _ => none
/-- the loop l.119-130 over the members of a group. -/
def findMembers : Members → Option (Found Members)
  | [] => none
  | (n, s) :: r =>
    match findExpand s with
    | some f => some ⟨f.parent, f.spec, fun x => (n, f.plug x) :: r⟩
    | none => (findMembers r).map fun f => ⟨f.parent, f.spec, fun x => (n, s) :: f.plug x⟩
/-- the loop l.119-130 over the elements of a list. -/
def findElements : List Setting → Option (Found (List Setting))
  | [] => none
  | s :: r =>
    match findExpand s with
    | some f => some ⟨f.parent, f.spec, fun x => f.plug x :: r⟩
    | none => (findElements r).map fun f => ⟨f.parent, f.spec, fun x => s :: f.plug x⟩
end

mutual
/-- writing a tree of settings as text and parsing the text: every number is rounded (libConfigUtils.hpp l.352-366
`copyConfig`). -/
def reread (prec : ℚ → ℚ) : Setting → Setting
  | .group g => .group (rereadMembers prec g)
  | .list l => .list (rereadElements prec l)
  | .float x => .float (prec x)
  | .int z => .int z
  | .str s => .str s
  | .bool b => .bool b
def rereadMembers (prec : ℚ → ℚ) : Members → Members
  | [] => []
  | (n, s) :: r => (n, reread prec s) :: rereadMembers prec r
def rereadElements (prec : ℚ → ℚ) : List Setting → List Setting
  | [] => []
  | s :: r => reread prec s :: rereadElements prec r
end

/-- `Setting::remove(name)` of a group. -/
def removeMember (g : Members) (name : String) : Members := g.eraseP (fun e => e.1 == name)

/-- names libconfig accepts (`__config_validate_name`). -/
def validName (n : Name) : Bool :=
  match n with
  | [] => false
  | c :: r => (c.isAlpha || c == '*') && r.all fun c => c.isAlphanum || c == '*' || c == '_' || c == '-'

/-- `Setting::add(name, type)`: an exception if the name is not valid or taken. -/
def addMember (g : Members) (n : Name) (s : Setting) : Outcome Members :=
  if validName n && (g.lookup (String.ofList n)).isNone then .ok (g ++ [(String.ofList n, s)]) else .terminate

/-- waveDescription.cc l.94-109 `getBinning`: integers are not converted but cause an exception. -/
def getBinning (e : Members) : Outcome (List ℚ) :=
  match findList (.group e) "bins" with
  | none => .ok []
  | some l => l.mapM fun s => match s with
    | .float x => .ok x
    | _ => .terminate

/-- waveDescription.cc l.72-80, 83-91: the text of a setting, empty if there is none. -/
def textOf (e : Members) (name : String) : Name := ((Setting.group e).lookupStr name).getD []

/-- number of `expand` groups, for termination -/
def isExpand (n : String) (s : Setting) : Bool :=
  match s with
  | .group _ => n == "expand"
  | _ => false

mutual
def count : Setting → ℕ
  | .group g => countMembers g
  | .list l => countElements l
  | .int _ => 0
  | .float _ => 0
  | .str _ => 0
  | .bool _ => 0
def countMembers : Members → ℕ
  | [] => 0
  | (n, s) :: r => (if isExpand n s then 1 else 0) + count s + countMembers r
def countElements : List Setting → ℕ
  | [] => 0
  | s :: r => count s + countElements r
end

theorem expandGroup_some {g e : Members} (h : expandGroup g = some e) : g.lookup "expand" = some (.group e) := by
  unfold expandGroup at h
  split at h
  · rename_i e' he
    cases h
    exact he
  · cases h

theorem count_remove : ∀ {g e : Members}, g.lookup "expand" = some (.group e) →
    countMembers (removeMember g "expand") < countMembers g
  | [], e, h => by simp at h
  | (n, s) :: r, e, h => by
    rw [List.lookup_cons] at h
    by_cases hn : n = "expand"
    · subst hn
      simp only [beq_self_eq_true] at h
      cases h
      simp [removeMember, countMembers, isExpand]
    · have hb : ("expand" == n) = false := by simpa using fun h => hn h.symm
      rw [hb] at h
      have := count_remove h
      have hr : removeMember ((n, s) :: r) "expand" = (n, s) :: removeMember r "expand" := by
        unfold removeMember
        rw [List.eraseP_cons_of_neg (by simpa using hn)]
      rw [hr]
      simp only [countMembers]
      omega

mutual
theorem findExpand_spec : ∀ (s : Setting) {f : Found Setting}, findExpand s = some f →
    expandGroup f.parent = some f.spec ∧ ∀ x, count (f.plug x) + countMembers f.parent = count s + countMembers x
  | .group g, f, h => by
    unfold findExpand at h
    split at h
    · rename_i e he
      cases h
      exact ⟨he, fun x => by simp only [count]; omega⟩
    · rw [Option.map_eq_some_iff] at h
      obtain ⟨f', h', rfl⟩ := h
      obtain ⟨h1, h2, -⟩ := findMembers_spec g h'
      exact ⟨h1, fun x => by simp only [count]; exact h2 x⟩
  | .list l, f, h => by
    unfold findExpand at h
    rw [Option.map_eq_some_iff] at h
    obtain ⟨f', h', rfl⟩ := h
    obtain ⟨h1, h2⟩ := findElements_spec l h'
    exact ⟨h1, fun x => by simp only [count]; exact h2 x⟩
  | .int _, f, h => by simp [findExpand] at h
  | .float _, f, h => by simp [findExpand] at h
  | .str _, f, h => by simp [findExpand] at h
  | .bool _, f, h => by simp [findExpand] at h
theorem findMembers_spec : ∀ (g : Members) {f : Found Members}, findMembers g = some f →
    expandGroup f.parent = some f.spec ∧ (∀ x, countMembers (f.plug x) + countMembers f.parent = countMembers g + countMembers x) ∧
    ∀ x, (f.plug x).map Prod.fst = g.map Prod.fst
  | [], f, h => by simp [findMembers] at h
  | (n, s) :: r, f, h => by
    unfold findMembers at h
    split at h
    · rename_i f' he
      cases h
      obtain ⟨h1, h2⟩ := findExpand_spec s he
      refine ⟨h1, fun x => ?_, fun x => rfl⟩
      have hsame : ∀ x, isExpand n (f'.plug x) = isExpand n s := by
        intro x
        cases s with
        | group g =>
          unfold findExpand at he
          split at he
          · cases he; rfl
          · rw [Option.map_eq_some_iff] at he
            obtain ⟨f'', -, rfl⟩ := he
            rfl
        | list l =>
          unfold findExpand at he
          rw [Option.map_eq_some_iff] at he
          obtain ⟨f'', -, rfl⟩ := he
          rfl
        | int _ => simp [findExpand] at he
        | float _ => simp [findExpand] at he
        | str _ => simp [findExpand] at he
        | bool _ => simp [findExpand] at he
      simp only [countMembers, hsame x]
      have := h2 x
      omega
    · rw [Option.map_eq_some_iff] at h
      obtain ⟨f', h', rfl⟩ := h
      obtain ⟨h1, h2, h3⟩ := findMembers_spec r h'
      refine ⟨h1, fun x => ?_, fun x => by simp [h3 x]⟩
      simp only [countMembers]
      have := h2 x
      omega
theorem findElements_spec : ∀ (l : List Setting) {f : Found (List Setting)}, findElements l = some f →
    expandGroup f.parent = some f.spec ∧ ∀ x, countElements (f.plug x) + countMembers f.parent = countElements l + countMembers x
  | [], f, h => by simp [findElements] at h
  | s :: r, f, h => by
    unfold findElements at h
    split at h
    · rename_i f' he
      cases h
      obtain ⟨h1, h2⟩ := findExpand_spec s he
      refine ⟨h1, fun x => ?_⟩
      simp only [countElements]
      have := h2 x
      omega
    · rw [Option.map_eq_some_iff] at h
      obtain ⟨f', h', rfl⟩ := h
      obtain ⟨h1, h2⟩ := findElements_spec r h'
      refine ⟨h1, fun x => ?_⟩
      simp only [countElements]
      have := h2 x
      omega
end

mutual
theorem count_reread (prec : ℚ → ℚ) : ∀ s, count (reread prec s) = count s
  | .group g => by simp only [reread, count]; exact countMembers_reread prec g
  | .list l => by simp only [reread, count]; exact countElements_reread prec l
  | .int _ => rfl
  | .float _ => rfl
  | .str _ => rfl
  | .bool _ => rfl
theorem countMembers_reread (prec : ℚ → ℚ) : ∀ g, countMembers (rereadMembers prec g) = countMembers g
  | [] => rfl
  | (n, s) :: r => by
    have : isExpand n (reread prec s) = isExpand n s := by cases s <;> simp [reread, isExpand]
    simp only [rereadMembers, countMembers, this, count_reread prec s, countMembers_reread prec r]
theorem countElements_reread (prec : ℚ → ℚ) : ∀ l, countElements (rereadElements prec l) = countElements l
  | [] => rfl
  | s :: r => by simp only [rereadElements, countElements, count_reread prec s, countElements_reread prec r]
end

/-- the list `( lo, hi )` of a bin, l.158-160. -/
def binSetting (lo hi : ℚ) : Setting := .list [.float lo, .float hi]

theorem countMembers_append : ∀ (g h : Members), countMembers (g ++ h) = countMembers g + countMembers h
  | [], h => by simp [countMembers]
  | (n, s) :: r, h => by simp only [List.cons_append, countMembers, countMembers_append r h]; omega

theorem count_step {s : Setting} {f : Found Setting} (h : findExpand s = some f) (prec : ℚ → ℚ) (n : String) (lo hi : ℚ) :
    count (reread prec (f.plug (removeMember f.parent "expand" ++ [(n, binSetting lo hi)]))) < count s := by
  rw [count_reread]
  obtain ⟨h1, h2⟩ := findExpand_spec s h
  have h3 := h2 (removeMember f.parent "expand" ++ [(n, binSetting lo hi)])
  have h4 := count_remove (expandGroup_some h1)
  rw [countMembers_append] at h3
  have h5 : countMembers [(n, binSetting lo hi)] = 0 := rfl
  omega

/-- waveDescription.cc l.135-173 `expand`: an empty list of edges makes `binning.size()-1` the largest number, so that the
first access is outside of the vector (after the setting has been added). -/
def expand (prec : ℚ → ℚ) (config : Setting) : Outcome (List Setting) :=
  match h : findExpand config with
  | none => .ok [config]
  | some f =>
    if textOf f.spec "type" = "binning".toList then do
      let name := textOf f.spec "name"
      let binning ← getBinning f.spec
      let parent := removeMember f.parent "expand"
      if binning = [] then do
        let _ ← addMember parent name (.list [])
        .ub
      else do
        let parts ← (binning.zip binning.tail).mapM fun b => do
          let _ ← addMember parent name (.list [])
          expand prec (reread prec (f.plug (parent ++ [(String.ofList name, binSetting b.1 b.2)])))
        .ok parts.flatten
    else .ok []
termination_by count config
decreasing_by exact count_step h prec _ _ _

/-- waveDescription.cc l.292-349 `parseKeyFile`, `parseKeyFileContent`: the settings of the wave descriptions; the file has
been parsed. -/
def parseWaves (prec : ℚ → ℚ) (config : Setting) : Outcome (List Setting) := do
  let configs ← expand prec config
  .ok (configs.map (reread prec))

/-! ### the pipe -/

/-- libConfigUtils.hpp l.312-349 `getConfigString`: characters still to be written, in the pipe, and read; whether the write
end is closed. -/
structure Pipe where
  todo : List Char
  inPipe : List Char
  out : List Char
  closed : Bool

/-- a step of the (single-threaded) function with a pipe that holds `cap` characters: writing goes on as long as there is room,
reading starts after the write end is closed; `none`: the function has returned or is blocked. -/
def Pipe.step (cap : ℕ) (p : Pipe) : Option Pipe :=
  if p.closed then
    match p.inPipe with
    | [] => none
    | c :: r => some { p with inPipe := r, out := p.out ++ [c] }
  else
    match p.todo with
    | [] => some { p with closed := true }
    | c :: r => if p.inPipe.length < cap then some { p with todo := r, inPipe := p.inPipe ++ [c] } else none

end Rpwa.KeyFile
