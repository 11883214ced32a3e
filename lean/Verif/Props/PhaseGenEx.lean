import Verif.Props.PhaseGen
/-! # C97: examples -/
namespace Rpwa.PhaseGen

open Rpwa.Storage

def exTry : Try := ⟨⟨Dbl.zero, Dbl.zero, Dbl.zero⟩, [⟨Dbl.zero, Dbl.zero, Dbl.zero⟩, ⟨Dbl.zero, Dbl.zero, Dbl.zero⟩], Dbl.zero, Dbl.zero⟩

def exOpts : Opts := ⟨2, 4, "", ["mass", "tPrime"], false, (1, 2), (0, 1), "pi-", ["pi-", "pi0"]⟩

/-- one success among the first four attempts, the next one comes too late. -/
def exTries : List (Option Try) := [none, some exTry, none, none, none, some exTry]

theorem exOpts_limit : exOpts.limit = 4 := by decide

theorem exOpts_variables : ∃ b, exOpts.variables = some (["mass", "tPrime"], b) ∧ b "mass" = some (1, 2) ∧ b "tPrime" = some (0, 1) := by
  obtain ⟨b, h1, h2, h3, -⟩ := (limits_spec exOpts).2 "mass" "tPrime" rfl rfl (by decide)
  exact ⟨b, h1, h2, h3⟩

/-- the file has one event, although the generator made two. -/
theorem ex_script (md5 : Hashor → String) : ∃ m e b, script md5 exOpts (group 0 exTries) = .ok (some m, e) ∧
    FileOf md5 m exOpts ["mass", "tPrime"] b [tryRow exOpts exTry] := by
  obtain ⟨b, hb, -⟩ := exOpts_variables
  obtain ⟨m, e, h1, h2⟩ := script_tries md5 exOpts exTries hb (fun t ht => by
    have : t = exTry := by simpa [exTries] using ht
    rw [this]
    rfl) (by decide)
  exact ⟨m, e, b, h1, h2⟩

theorem ex_count : IsCount exOpts (group 0 exTries) 1 := by
  refine ⟨by decide, by decide, fun _ _ => by decide, fun _ _ => ⟨by decide, by decide⟩⟩

/-- six attempts are reported, so the efficiency is 1/6 instead of 1/4. -/
theorem ex_end : endOf exOpts (group 0 exTries) 1 = .done 1 6 (1 / 6) := by
  unfold endOf report
  rw [if_pos (by decide), if_neg (by decide), if_neg (by decide)]
  have : total (group 0 exTries) (1 + 1) = 6 := by decide
  rw [this]
  norm_num

/-- without another event the script does not end. -/
theorem ex_hangs (n : ℕ) (k : ℕ) (hk : IsCount exOpts (group 0 ([none, some exTry, none, none] ++ List.replicate n none)) k) :
    endOf exOpts (group 0 ([none, some exTry, none, none] ++ List.replicate n none)) k = .interrupted :=
  limit_needs_event exOpts _ k hk (by decide) (fun a ha => by
    have e : exOpts.limit.toNat = 4 := by decide
    rw [e] at ha
    have : ([none, some exTry, none, none] ++ List.replicate n none).drop 4 = List.replicate n (none : Option Try) := rfl
    rw [this] at ha
    exact List.eq_of_mem_replicate ha) (by
    have e : exOpts.limit.toNat = 4 := by decide
    rw [e]
    have : ([none, some exTry, none, none] ++ List.replicate n none).take 4 = [none, some exTry, none, none] := rfl
    rw [this]
    decide)

theorem ex_name : freeName (fun i => decide (i = 1 ∨ i = 2)) 10 1 = some 3 :=
  freeName_spec _ 10 1 3 (by omega) (by omega) (by decide) fun i h1 h2 => by
    have : i = 1 ∨ i = 2 := by omega
    simpa using this

/-- a limit of one attempt for two events counts as none. -/
theorem ex_ignored : ({ exOpts with maxAttempts := 1 } : Opts).limit = 0 := limit_ignored _ (by decide)

theorem ex_wrong (md5 : Hashor → String) : script md5 { exOpts with varNames := ["mass"] } [] = .ok (none, .exit) := wrong_names md5 _ _ rfl (by decide)

end Rpwa.PhaseGen
