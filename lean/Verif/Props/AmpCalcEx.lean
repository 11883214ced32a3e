import Verif.Props.AmpCalc
/-! # C92: an example -/
namespace Rpwa.AmpCalc

open Rpwa.Storage Rpwa.EventMomenta

def exByte (n : UInt8) : Dbl := fun _ => n
def exVec (n : UInt8) : Vec3 := ⟨exByte n, exByte (n + 1), exByte (n + 2)⟩

/-- the x components of the first two particles of the topology. -/
def exAmp : Amplitude where
  topo := ⟨[⟨"pi+", -1⟩, ⟨"pi-", -1⟩], [], [], []⟩
  prodInit names := decide (names = ["pi-"])
  prodRead moms := decide (moms.length = 1)
  value _ ms := match ms with
    | a :: b :: _ => (a.x, b.x)
    | _ => (Dbl.zero, Dbl.zero)

/-- the columns are in the other order. -/
def exEvents : EventMeta :=
  { EventMeta.default with prodNames := ["pi-"], decayNames := ["pi-", "pi+"], contentHash := "h",
                           tree := some ⟨[], [⟨[exVec 0], [exVec 10, exVec 20], []⟩, ⟨[exVec 1], [exVec 30, exVec 40], []⟩]⟩ }

def exWorld : World := ⟨fun p => if p = "events.root" then some exEvents else none, true, "git", fun b => toString b.length⟩
def exTask : Task := ⟨"events.root", ⟨some exAmp, "key", "wave"⟩, "amp.root"⟩
def exEmpty : Disk := fun _ => none

theorem exValid : exTask.wave.Valid := by
  intro a ha
  cases Option.some.inj ha
  decide +kernel

theorem exReadable : Readable exAmp exEvents [⟨[exVec 0], [exVec 10, exVec 20], []⟩, ⟨[exVec 1], [exVec 30, exVec 40], []⟩] := by
  refine ⟨by decide, ?_, ?_⟩
  · show ["pi-", "pi+"].Perm ["pi+", "pi-"]
    decide
  · intro row hrow
    simp only [List.mem_cons, List.not_mem_nil, or_false] at hrow
    rcases hrow with rfl | rfl <;> exact ⟨by decide, rfl⟩

theorem exPossible : Possible exWorld exTask :=
  ⟨rfl, exEvents, _, exAmp, rfl, rfl, rfl, by simp, exReadable⟩

/-- the calculation gives the complete file. -/
example : ∃ f m, after exWorld exEmpty exTask "amp.root" = some f ∧ readAmplitudeFile f "wave" = some m ∧ Complete exWorld exTask m :=
  success_complete exWorld exEmpty exTask exValid ((success_iff _ _ _ exValid).2 ⟨exPossible, rfl⟩)

/-- the amplitudes themselves: the momenta went to the particles with the right names. -/
example : calcAmplitudes (some exAmp) exEvents (-1) = [(exByte 20, exByte 10), (exByte 40, exByte 30)] := by
  rfl

/-- the run goes through six states, the last but one can be the state after a crash. -/
example : ∀ t', t'.out = "amp.root" → (calcAmplitude exWorld (history exWorld (act exWorld exEmpty (.crash exTask 4)) [.run exTask, .run exTask]) t').1 = false := by
  refine (crash_blocks exWorld exEmpty exTask exValid 4 (by omega) exPossible ?_ [.run exTask, .run exTask] ?_ ?_).2
  · rcases calc_cases exWorld exEmpty exTask exValid with ⟨h, -⟩ | ⟨-, -, -, h, -⟩ | ⟨-, -, em, tree, a, amps, h3, h4, h5, h6, h7⟩
    · rcases h with h | h | h
      · cases h
      · cases h
      · exact absurd rfl h
    · exact absurd exPossible h
    · rw [h7]
      cases Option.some.inj h3
      cases Option.some.inj h4
      obtain ⟨_, -, hl, -⟩ := h6
      have : amps.length = 2 := hl
      unfold savedStates
      simp [this]
  · intro a ha t ht
    simp only [List.mem_cons, List.not_mem_nil, or_false] at ha
    rcases ha with rfl | rfl <;> (cases Option.some.inj ht; exact exValid)
  · simp

/-- an event file without events. -/
def exNoEvents : EventMeta := { exEvents with tree := some ⟨[], []⟩ }
def exWorld' : World := { exWorld with events := fun _ => some exNoEvents }

example : (calcAmplitude exWorld' exEmpty exTask).1 = false ∧ ∃ f, after exWorld' exEmpty exTask "amp.root" = some f ∧ ∀ b, readAmplitudeFile f b = none :=
  impossible_leaves_file exWorld' exEmpty exTask exValid rfl exNoEvents rfl
    (by rintro ⟨-, em, tree, a, h1, h2, -, h3, -⟩; cases Option.some.inj h1; cases Option.some.inj h2; exact h3 rfl) rfl

end Rpwa.AmpCalc
