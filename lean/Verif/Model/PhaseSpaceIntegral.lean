import Verif.Model.Basic
import Verif.Model.MassDependence
import Mathlib.Tactic.NormNum
import Mathlib.Tactic.Linarith
/-!
# `decayAmplitude/phaseSpaceIntegral.cc`: Breit-Wigner amplitudes with tabulated phase-space integrals

One `integralTableContainer`, i.e. one decay chain.  `double` is `ℝ` without rounding.  The Monte Carlo estimate `evalInt`
(l.249-345) is a function of the number of estimates done so far (the state of the random generator) and of the mass.  The
errors of the estimates and the list `_M0s` enter only graphs in the file and are left out.
-/
namespace Rpwa.PSI

open Rpwa.MassDep

/-- phaseSpaceIntegral.h l.12-28 `integralTablePoint`. -/
structure Point where
  M : ℝ
  val : ℝ

abbrev Tab := List Point

open Classical in
/-- the loop phaseSpaceIntegral.cc l.206-217: the points `last` and `current` after it. -/
noncomputable def findInterval (M : ℝ) (last : Point) : List Point → Point × Point
  | [] => (last, last)
  | p :: ps => if last.M ≤ M ∧ M < p.M then (last, p) else findInterval M p ps

/-- phaseSpaceIntegral.cc l.201-220 `interpolate`; `none`: not a number. -/
noncomputable def interpolate (t : Tab) (M : ℝ) : Option ℝ :=
  match t with
  | [] => none
  | p :: ps => do
    let r := findInterval M p ps
    let slope ← fdiv (r.2.val - r.1.val) (r.2.M - r.1.M)
    return r.1.val + slope * (M - r.1.M)

open Classical in
/-- the loop phaseSpaceIntegral.cc l.470-478 of `addToIntegralTable`. -/
noncomputable def addLoop (new last : Point) : List Point → List Point × Bool
  | [] => ([], false)
  | p :: ps =>
    let r := addLoop new p ps
    if last.M ≤ new.M ∧ new.M < p.M then (new :: p :: r.1, true) else (p :: r.1, r.2)

/-- phaseSpaceIntegral.cc l.464-485 `addToIntegralTable`. -/
noncomputable def addToTable (t : Tab) (new : Point) : Outcome Tab :=
  match t with
  | [] => .ub
  | p :: ps => if (addLoop new p ps).2 then .ok (p :: (addLoop new p ps).1) else .terminate

/-- content of the table file (phaseSpaceIntegral.cc l.347-424).  `noTree` is a file that has been created or truncated but not
yet written: `Get` finds no tree in it (l.358-360 dereference the null pointer); if ROOT rejects the file altogether, a new
table is calculated and writing it with option `NEW` fails, since there is a file (l.385-387 dereference the null pointer). -/
inductive Disk where
  | absent
  | noTree
  | full (t : Tab)

/-- an `integralTableContainer` with its file; `calls` counts the Monte Carlo estimates. -/
structure State where
  table : Tab
  disk : Disk
  calls : ℕ

/-- phaseSpaceIntegral.cc l.234: a point of the table within 1e-10 of the mass. -/
def Near (t : Tab) (M0 : ℝ) : Prop := ∃ p ∈ t, |p.M - M0| < 1e-10

theorem addLoop_mem (new : Point) : ∀ (last : Point) (ps : List Point), (addLoop new last ps).2 = true →
    new ∈ (addLoop new last ps).1
  | _, [], h => by simp [addLoop] at h
  | last, p :: ps, h => by
    unfold addLoop at h ⊢
    dsimp only at h ⊢
    split
    · simp
    · rename_i hn
      rw [if_neg hn] at h
      exact List.mem_cons_of_mem _ (addLoop_mem new p ps h)

theorem addToTable_near {t t' : Tab} {new : Point} (h : addToTable t new = .ok t') : Near t' new.M := by
  unfold addToTable at h
  split at h
  · cases h
  · split at h
    · rename_i hb
      cases h
      exact ⟨new, List.mem_cons_of_mem _ (addLoop_mem _ _ _ hb), by rw [sub_self, abs_zero]; norm_num⟩
    · cases h

open Classical in
/-- phaseSpaceIntegral.cc l.223-246 `getInt0`. -/
noncomputable def getInt0 (eval : ℕ → ℝ → ℝ) (s : State) (M0 : ℝ) : Outcome (Option ℝ × State) :=
  if Near s.table M0 then .ok (interpolate s.table M0, s)
  else match h : addToTable s.table ⟨M0, eval s.calls M0⟩ with
  | .ok t => getInt0 eval ⟨t, .full t, s.calls + 1⟩ M0
  | .terminate => .terminate
  | .ub => .ub
termination_by (if Near s.table M0 then 0 else 1)
decreasing_by
  rw [if_pos (addToTable_near h), if_neg (by assumption)]
  exact Nat.one_pos

/-- phaseSpaceIntegral.cc l.171-199 `operator()`, `dyn`: the table is interpolated before the value at the nominal mass is
looked up; `none`: not a number. -/
noncomputable def amp (eval : ℕ → ℝ → ℝ) (s : State) (M M0 Gamma0 : ℝ) : Outcome (Option ℂ × State) := do
  let psInt := interpolate s.table M
  let r ← getInt0 eval s M0
  let a : Option ℂ := do
    let d ← fdiv (← psInt) (← r.1)
    bwForm (M0 * Gamma0) (M0 * M0 - M * M) (M0 * (Gamma0 * d))
  return (a, r.2)

open Classical in
/-- the loop phaseSpaceIntegral.cc l.450-455 of `fillIntegralTable`: the points appended; `none`: it never ends. -/
noncomputable def fillLoop (eval : ℕ → ℝ → ℝ) (M0 upper step : ℝ) (n : ℕ) (M : ℝ) : Option (List Point × ℕ) :=
  if M ≤ upper then
    if M0 > M - step ∧ M0 < M then do
      let r ← fillLoop eval M0 upper step (n + 2) (M + step)
      return (⟨M0, eval n M0⟩ :: ⟨M, eval (n + 1) M⟩ :: r.1, r.2)
    else do
      let r ← fillLoop eval M0 upper step (n + 1) (M + step)
      return (⟨M, eval n M⟩ :: r.1, r.2)
  else return ([], n)
partial_fixpoint

/-- phaseSpaceIntegral.cc l.428-457 `fillIntegralTable` for a chain with threshold `thr`. -/
noncomputable def fill (eval : ℕ → ℝ → ℝ) (thr M0 upper : ℝ) (n : ℕ) : Option (Tab × ℕ) := do
  let step := (upper - thr) / 50
  let r ← fillLoop eval M0 upper step n (thr + step)
  return (⟨thr, 0⟩ :: r.1, r.2)

/-- what a program does with the file of the table, in steps that can be interleaved with other programs or be the last ones
before a crash. -/
inductive Phase where
  | idle
  /-- the file was not there; the table has been calculated (l.352-354) -/
  | creating (t : Tab)
  /-- the table is in memory (l.362-374) -/
  | ready (t : Tab)
  /-- the file has been opened with `RECREATE`, nothing is written yet (l.382-384) -/
  | updating (t : Tab)
  /-- null pointer dereferenced -/
  | dead

/-- steps of program `i`. -/
inductive Action where
  /-- look for the file (l.348-374); `t` is the table calculated if there is none -/
  | start (i : ℕ) (t : Tab)
  /-- write the new table with option `NEW` and read it (l.355-357, 385-387) -/
  | create (i : ℕ)
  /-- a point has been added; open the file with `RECREATE` -/
  | truncate (i : ℕ) (t : Tab)
  /-- write and close the file (l.418-424) -/
  | close (i : ℕ)
  /-- end of the program at any time -/
  | stop (i : ℕ)

/-- one step; programs are numbered. -/
def step (w : Disk × (ℕ → Phase)) (a : Action) : Disk × (ℕ → Phase) :=
  match a with
  | .start i t =>
    match w.2 i, w.1 with
    | .idle, .absent => (w.1, Function.update w.2 i (.creating t))
    | .idle, .noTree => (w.1, Function.update w.2 i .dead)
    | .idle, .full t' => (w.1, Function.update w.2 i (.ready t'))
    | _, _ => w
  | .create i =>
    match w.2 i, w.1 with
    | .creating t, .absent => (.full t, Function.update w.2 i (.ready t))
    | .creating _, _ => (w.1, Function.update w.2 i .dead)
    | _, _ => w
  | .truncate i t =>
    match w.2 i with
    | .ready _ => (.noTree, Function.update w.2 i (.updating t))
    | _ => w
  | .close i =>
    match w.2 i with
    | .updating t => (.full t, Function.update w.2 i (.ready t))
    | _ => w
  | .stop i =>
    match w.2 i with
    | .dead => w
    | _ => (w.1, Function.update w.2 i .idle)

end Rpwa.PSI
