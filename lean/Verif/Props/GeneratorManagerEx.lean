import Verif.Props.GeneratorManager
/-! # C69: findings, and an example -/
namespace Rpwa.Mgr

open Rpwa.Pick (Cfg Group Ranges ExpPicker PolyPicker)
open Rpwa.Gen (V3 LV Diff PS Ready Rnd RndsOk FinalState)

variable {P : Type}

/-! ### findings -/

/-- **finding.** A further file: its final state is appended to what has been there. -/
theorem read_appends (e : Env P) (root : Group) (s s' : Mgr P) (R : Reaction P) (hD : Describes e s.beamFileName root R)
    (h : readReactionFile e (some root) s = .ok (true, s')) : s'.finalState = s.finalState ++ R.final ∧ s'.beam = some R.beam ∧ s'.target = some R.target := by
  obtain ⟨R', bv, hD', _, rfl⟩ := (read_iff e root s s').1 h
  obtain rfl := describes_unique hD hD'
  exact ⟨rfl, rfl, rfl⟩

/-- **finding.** The same file twice, before the generator is set up: the generator has every particle twice. -/
theorem read_twice (e : Env P) (root : Group) (s1 s2 s3 : Mgr P) (R : Reaction P) (rnds : ℕ → List PS.Randoms) (hD : Describes e "" root R) (hsim : R.sim = none)
    (h1 : readReactionFile e (some root) Mgr.new = .ok (true, s1)) (h2 : readReactionFile e (some root) s1 = .ok (true, s2))
    (h3 : initializeGenerator e rnds s2 = .ok (some (true, s3))) : ∃ g, s3.gen = some g ∧ g.products = R.final ++ R.final := by
  obtain ⟨R', bv, hD', _, rfl⟩ := (read_iff e root _ s1).1 h1
  obtain rfl : R = R' := describes_unique hD hD'
  have hn : (afterRead Mgr.new R bv).beamFileName = "" := by
    unfold afterRead
    rw [hsim]
    rfl
  obtain ⟨a, _⟩ := read_appends e root _ s2 R (by rw [hn]; exact hD) h2
  rcases init_shape e rnds s2 s3 true h3 with ⟨hc, _⟩ | ⟨_, _, B, T, d, _, _, rfl⟩
  · cases hc
  · exact ⟨_, rfl, a⟩

/-- **finding.** A further file with a beam package: the beam file is the one used before, whatever the file says. -/
theorem beam_file_sticky (e : Env P) (root : Group) (s : Mgr P) (R : Reaction P) (m : Sim) (hD : Describes e s.beamFileName root R) (hs : s.beamFileName ≠ "")
    (hm : R.sim = some m) : m.file = s.beamFileName := by
  rcases hD.hsim with ⟨hc, _⟩ | ⟨g, m', hm', _, h⟩
  · rw [hm] at hc; cases hc
  · rw [hm] at hm'
    cases hm'
    have := h.hfile
    rwa [if_neg hs] at this

/-- **finding.** A further file without (or with a disabled) beam package does not disable the beam package. -/
theorem beam_mode_kept (e : Env P) (root : Group) (s s' : Mgr P) (R : Reaction P) (hD : Describes e s.beamFileName root R) (hsim : R.sim = none)
    (h : readReactionFile e (some root) s = .ok (true, s')) : s'.bv = s.bv := by
  obtain ⟨R', bv, hD', hP, rfl⟩ := (read_iff e root s s').1 h
  obtain rfl := describes_unique hD hD'
  rw [hsim] at hP
  exact hP

/-- **finding.** An event before any file was read ends the program, an event before the generator was set up is undefined. -/
theorem event_early (e : Env P) (eps : ℝ) (eig : (Fin 4 → Fin 4 → ℝ) → (Fin 4 → ℝ) × (Fin 4 → Fin 4 → ℝ)) (r : EvRandoms) (s : Mgr P) :
    (s.fileRead = false → event e eps eig r s = .terminate) ∧ (s.fileRead = true → s.gen = none → event e eps eig r s = .ub) := by
  constructor
  · intro h
    unfold event
    rw [if_pos (by simp [h])]
  · intro h hg
    unfold event
    rw [if_neg (by simp [h]), hg]

/-- **finding.** `randomizeBeamfileStartingPosition` without a beam file is undefined. -/
theorem randomize_undefined (u : ℝ) (s : Mgr P) (hf : s.fileRead = true) : randomizeStart u s = .ub ↔ s.bv.tree = none := by
  unfold randomizeStart BeamGen.Gen.randomizeStart
  rw [if_neg (by simp [hf])]
  cases s.bv.tree with
  | none => exact ⟨fun _ => rfl, fun _ => rfl⟩
  | some t => exact ⟨fun h => (by cases h), fun h => (by cases h)⟩

/-- **finding.** After a file that failed at the picker function: the override of the mass range ends the program and so does setting up two or more particles. -/
theorem after_failure (e : Env P) (s : Mgr P) (hf : s.fileRead = true) (hb : s.beam.isSome) (ht : s.target.isSome) (hp : s.picker = none) (lo hi : ℝ)
    (rnds : ℕ → List PS.Randoms) : overrideMassRange lo hi s = .terminate ∧ (2 ≤ s.finalState.length → initializeGenerator e rnds s = .ok none) := by
  constructor
  · unfold overrideMassRange
    rw [if_neg (by simp [hf]), hp]
  · intro h2
    obtain ⟨B, hB⟩ := Option.isSome_iff_exists.1 hb
    obtain ⟨T, hT⟩ := Option.isSome_iff_exists.1 ht
    unfold initializeGenerator
    rw [if_neg (by simp [hf]), hB, hT, hp]
    dsimp only
    have : ({ Diff.new with range := s.rangeAt none } : Diff).setDecayProducts (s.finalState.map e.mass) rnds = none := by
      unfold Diff.setDecayProducts Diff.build Mgr.rangeAt
      dsimp only
      rw [if_neg (by rw [List.length_map]; omega)]
    rw [this]

/-- **finding.** After an override of the mass range the generator keeps the slices of the old range: a mass above all of them has no maximum weight, and the
program reads outside of the vectors. -/
theorem override_too_late (e : Env P) (s : Mgr P) (g : GenObj P) (bv : BeamGen.Gen) (range x : ℝ × ℝ) (r : EvRandoms) (hx : ∀ S ∈ g.diff.slices, S < x.1) :
    finishEvent e s g bv range x r = .ok none := by
  have key : ({ g.diff with range := some range } : Diff).event bv.beam (e.mass g.target.target) (e.mass g.target.recoil) [x] r.phi r.tries = none := by
    cases hev : ({ g.diff with range := some range } : Diff).event bv.beam (e.mass g.target.target) (e.mass g.target.recoil) [x] r.phi r.tries with
    | none => rfl
    | some ev =>
      exfalso
      unfold Diff.event at hev
      dsimp only at hev
      split at hev
      · cases hev
      obtain ⟨⟨x1, t'⟩, hp, hev⟩ := Option.bind_eq_some_iff.1 hev
      dsimp only at hev
      obtain ⟨w, hw, hev⟩ := Option.bind_eq_some_iff.1 hev
      have hx1 : (x1, t') = x := by
        have := (Gen.pick_spec hp).1
        simpa using this
      rw [← hx1] at hx
      rw [Gen.findWeight_outside g.diff.weights hx] at hw
      cases hw
  unfold finishEvent
  rw [key]

/-- **finding.** A target position with integers ends the program, although the check accepts it. -/
theorem integer_position (e : Env P) (root g : Group) (s : Mgr P) (n : ℤ) (a b : Cfg) (t r : P) (radius length il : ℝ) (hs : Section root "target" g)
    (ht : IsParticle e g "targetParticleName" t) (hr : IsParticle e g "recoilParticleName" r) (hpos : g "pos" = some (.array [.int n, a, b]))
    (h1 : g "radius" = some (.float radius)) (h2 : g "length" = some (.float length)) (h3 : g "interactionLength" = some (.float il)) (h0 : 0 ≤ il) :
    targetStage e root s = .terminate := by
  obtain ⟨tn, ht1, ht2⟩ := ht
  obtain ⟨rn, hr1, hr2⟩ := hr
  unfold targetStage
  rw [(findGroup_iff root "target" g).2 hs]
  dsimp only
  have hall : Pick.allThere g [("targetParticleName", .str), ("recoilParticleName", .str), ("pos", .array), ("radius", .float), ("length", .float),
        ("interactionLength", .float)] = true := by
    unfold Pick.allThere
    simp [ht1, hr1, hpos, h1, h2, h3, Cfg.type]
  rw [hall, if_neg (by decide), hpos]
  dsimp only
  have hl : ¬ (Cfg.array [.int n, a, b]).length ≠ 3 := not_not.2 rfl
  rw [if_neg hl]
  have h0' : (Cfg.array [.int n, a, b]).at 0 = .ok (.int n) := rfl
  rw [h0', Outcome.ok_bind, if_neg (by simp [Cfg.isNumber]), lookupStr_of ht1, lookupStr_of hr1]
  show (match e.table tn, e.table rn with
    | some t, some r => makeTarget g (.array [.int n, a, b]) t r s
    | _, _ => .ok (false, s)) = _
  rw [ht2, hr2]
  dsimp only
  unfold makeTarget
  rw [(double_iff g _ _).2 h3, Outcome.ok_bind, if_neg (not_lt.2 h0), h0']
  rfl

/-! ### an example -/

/-- a heavy particle of mass 3 and a light one of mass 1. -/
noncomputable def exEnv : Env Bool := ⟨fun n => some (n == "heavy"), fun _ => .missing, 1000, fun b => if b then 3 else 1⟩

/-- `heavy light → light light light` with a mass of 5 and t' = `t`. -/
noncomputable def exFile (t : ℝ) : Group := fun k => List.lookup k [
  ("beam", Cfg.group [("name", .str "heavy"), ("momentum", .float (Real.sqrt 160)), ("momentumSigma", .float 0), ("DxDz", .float 0), ("DxDzSigma", .float 0),
    ("DyDz", .float 0), ("DyDzSigma", .float 0)]),
  ("target", .group [("targetParticleName", .str "light"), ("recoilParticleName", .str "light"), ("pos", .array [.float 0, .float 0, .float (-48)]),
    ("radius", .float 2), ("length", .float 40), ("interactionLength", .float 80)]),
  ("beamSimulation", .group [("active", .bool false)]),
  ("finalstate", .group [("particles", .array [.str "light", .str "light"])]),
  ("t_and_m_dependence", .group [("function", .str "uniformMassAndT"), ("settings", .group [("massMin", .float 5), ("massMax", .float 5),
    ("tPrimeMin", .float t), ("tPrimeMax", .float t)])])]

noncomputable def exReaction (t : ℝ) : Reaction Bool :=
  ⟨⟨true, Real.sqrt 160, 0, 0, 0, 0, 0⟩, ⟨false, false, 0, 0, -48, 40, 2, 80⟩, none, [false, false], .uniform ⟨5, 5, t, t, true⟩⟩

theorem ex_describes (t : ℝ) : Describes exEnv "" (exFile t) (exReaction t) := by
  refine ⟨⟨_, ⟨_, rfl, rfl⟩, ⟨"heavy", rfl, rfl⟩, rfl, rfl, rfl, rfl, rfl, rfl⟩,
    ⟨_, ⟨_, rfl, rfl⟩, ⟨"light", rfl, rfl⟩, ⟨"light", rfl, rfl⟩, rfl, rfl, rfl, rfl, by show (0 : ℝ) ≤ 80; norm_num⟩, ?_, ?_, ?_⟩
  · refine .inl ⟨rfl, ?_⟩
    rintro g ⟨l, hl, rfl⟩
    have : (Cfg.group [("active", .bool false)]) = .group l := Option.some.inj hl
    cases this
    rfl
  · exact ⟨_, ["light", "light"], ⟨_, rfl, rfl⟩, rfl, by simp, rfl⟩
  · refine ⟨_, "uniformMassAndT", _, ⟨_, rfl, rfl⟩, rfl, ⟨_, rfl, rfl⟩, .inr (.inr ⟨rfl, ⟨5, 5, t, t, true⟩, ?_, rfl⟩)⟩
    exact (Pick.uniform_init_iff _ _ _).2 ⟨rfl, ⟨5, 5, t, t, true⟩, ⟨rfl, rfl, le_rfl, .inl rfl, .inl rfl, le_rfl⟩, rfl, rfl, rfl⟩

noncomputable def exEvRandoms : EvRandoms := ⟨⟨0, [1], 0, 0, fun _ => 0⟩, [⟨1 / 2, 5, [], 1 / 2⟩], 0, [{ Gen.exRnd with r := [] }]⟩

/-- **the example runs**: read, set up, one event. -/
theorem ex_runs (eig : (Fin 4 → Fin 4 → ℝ) → (Fin 4 → ℝ) × (Fin 4 → Fin 4 → ℝ)) : ∃ t s1 s2 s3 ev,
    readReactionFile exEnv (some (exFile t)) (overrideBeamFile "" Mgr.new) = .ok (true, s1) ∧ initializeGenerator exEnv Gen.exRnds s1 = .ok (some (true, s2)) ∧
    run exEnv 0 eig s2 [.sequential true, .event exEvRandoms] = .ok (some ([ev], s3)) ∧ 0 < ev.beam.2.P ∧ ev.xMass = 5 := by
  obtain ⟨g, dv, t, hg, ht0, hRdy, hrange, hev⟩ := Gen.exEvent
  obtain ⟨s1, hs1⟩ : ∃ s1, s1 = afterRead (overrideBeamFile "" Mgr.new) (exReaction t) BeamGen.Gen.new := ⟨_, rfl⟩
  have h1 : readReactionFile exEnv (some (exFile t)) (overrideBeamFile "" Mgr.new) = .ok (true, s1) :=
    (read_iff _ _ _ _).2 ⟨exReaction t, BeamGen.Gen.new, ex_describes t, rfl, hs1⟩
  obtain ⟨G, hG⟩ : ∃ G : GenObj Bool, G = ⟨(exReaction t).beam, (exReaction t).target, some 0, [false, false], g⟩ := ⟨_, rfl⟩
  have hmap : ([false, false] : List Bool).map exEnv.mass = [1, 1] := by simp [exEnv]
  have h2 : initializeGenerator exEnv Gen.exRnds s1 = .ok (some (true, { s1 with gen := some G })) := by
    unfold initializeGenerator
    rw [hs1, hG]
    have hr : (afterRead (overrideBeamFile "" Mgr.new) (exReaction t) BeamGen.Gen.new).rangeAt
        (afterRead (overrideBeamFile "" Mgr.new) (exReaction t) BeamGen.Gen.new).picker = some (5, 5) := rfl
    rw [if_neg (by simp [afterRead]), hr]
    show (match ({ Diff.new with range := some (5, 5) } : Diff).setDecayProducts (([false, false] : List Bool).map exEnv.mass) Gen.exRnds with
      | none => Outcome.ok none
      | some d => Outcome.ok (some (true, { afterRead (overrideBeamFile "" Mgr.new) (exReaction t) BeamGen.Gen.new with
          gen := some ⟨(exReaction t).beam, (exReaction t).target, some 0, [false, false], d⟩ }))) = _
    have hg' : ({ Diff.new with range := some (5, 5) } : Diff).setDecayProducts (([false, false] : List Bool).map exEnv.mass) Gen.exRnds = some g := by
      rw [hmap]
      exact hg
    rw [hg']
  obtain ⟨bv, hbv⟩ : ∃ bv : BeamGen.Gen, bv = { (BeamGen.Gen.new.setSequential true) with vertex := ⟨0, 0, -68⟩, beam := ⟨0, 0, Real.sqrt 160, 13⟩ } := ⟨_, rfl⟩
  have h160 : Real.sqrt 160 * Real.sqrt 160 = 160 := Real.mul_self_sqrt (by norm_num)
  have hb : (BeamGen.Gen.new.setSequential true).event eig (exReaction t).target.toGen ((exReaction t).beam.toGen exEnv) exEvRandoms.beam = .ok (some bv) := by
    unfold BeamGen.Gen.event
    show Outcome.ok (BeamGen.Gen.eventSimple _ _ _ _) = _
    congr 1
    unfold BeamGen.Gen.eventSimple
    have hz : (BeamGen.Gen.new.setSequential true).vertexZ (exReaction t).target.toGen exEvRandoms.beam.z = some (-68) := by
      unfold BeamGen.Gen.vertexZ
      rw [if_neg (by simp [BeamGen.Gen.new, BeamGen.Gen.setSequential])]
      have : BeamGen.expLoop (exReaction t).target.toGen.interactionLength (exReaction t).target.toGen.length exEvRandoms.beam.z = some 0 :=
        (BeamGen.expLoop_iff _ _ _ _).2 ⟨[], 1, [], rfl, fun y hy => (by cases hy), by rw [Real.log_one, mul_zero], by
          show (0 : ℝ) ≤ 40
          norm_num⟩
      rw [this]
      show some ((-48 : ℝ) - 40 * (1 / 2) + 0) = some (-68)
      norm_num
    rw [hz, hbv]
    have h169 : Real.sqrt 169 = 13 := by
      rw [show (169 : ℝ) = 13 ^ 2 by norm_num]
      exact Real.sqrt_sq (by norm_num)
    simp [exReaction, exEvRandoms, BeamPar.toGen, TargetPar.toGen, exEnv, h160]
    norm_num [h169]
  have hcm : Real.sqrt (bv.beam + (⟨0, 0, 0, 1⟩ : LV)).m2 = 6 := by
    have : (bv.beam + (⟨0, 0, 0, 1⟩ : LV)).m2 = 6 ^ 2 := by
      rw [hbv]
      unfold LV.m2
      simp only [Gen.add_x, Gen.add_y, Gen.add_z, Gen.add_t]
      linear_combination -h160
    rw [this]
    exact Real.sqrt_sq (by norm_num)
  obtain ⟨s2, hs2⟩ : ∃ s2 : Mgr Bool, s2 = { s1 with gen := some G } := ⟨_, rfl⟩
  obtain ⟨s2', hs2'⟩ : ∃ s2' : Mgr Bool, s2' = { s2 with bv := s2.bv.setSequential true } := ⟨_, rfl⟩
  have hheap : s2'.heap[0]? = some (Picker.uniform ⟨5, 5, t, t, true⟩) := by rw [hs2', hs2, hs1]; rfl
  have hbv2 : s2'.bv = BeamGen.Gen.new.setSequential true := by rw [hs2', hs2, hs1]; rfl
  have hgen2 : s2'.gen = some G := by rw [hs2', hs2]
  have hread2 : s2'.fileRead = true := by rw [hs2', hs2, hs1]; rfl
  have hpl : pickLoop 0 (Picker.uniform ⟨5, 5, t, t, true⟩) 1 6 exEvRandoms.picks = .ok (some (5, t)) := by
    unfold exEvRandoms pickLoop
    have hp : (Picker.uniform ⟨5, 5, t, t, true⟩).pick 0 ⟨1 / 2, 5, [], 1 / 2⟩ = .ok (some (some (5, t))) := by
      unfold Picker.pick Pick.uniformPick
      simp
    rw [hp, Outcome.ok_bind]
    dsimp only
    rw [if_neg]
    rintro (h | h)
    · norm_num at h
    · exact absurd h (not_lt.2 ht0)
  have hm1 : exEnv.mass false = 1 := by simp [exEnv]
  have hevent : ∃ s3 ev, event exEnv 0 eig exEvRandoms s2' = .ok (some (ev, s3)) ∧ ev.beam.2 = bv.beam ∧ ev.xMass = dv.xMass := by
    unfold event
    rw [if_neg (by simp [hread2]), hgen2, hbv2]
    dsimp only
    rw [hG]
    dsimp only
    rw [hb, Outcome.ok_bind]
    dsimp only
    unfold pickAndFinish
    dsimp only
    rw [hheap]
    dsimp only
    have e1 : exEnv.mass (exReaction t).target.target = 1 := hm1
    have e2 : exEnv.mass (exReaction t).target.recoil = 1 := hm1
    rw [e1, e2, hcm, if_neg (by show ¬ (5 + 1 > (6 : ℝ)); norm_num), hpl, Outcome.ok_bind]
    dsimp only
    unfold finishEvent
    dsimp only
    rw [e1, e2]
    have hd : ({ g with range := some (5, 5) } : Diff) = g := by rw [← hrange]
    have : ({ g with range := some ((Picker.uniform ⟨5, 5, t, t, true⟩).ranges.massLo, (Picker.uniform ⟨5, 5, t, t, true⟩).ranges.massHi) } : Diff).event bv.beam 1 1
        [(5, t)] exEvRandoms.phi exEvRandoms.tries = some dv := by
      have h5 : ({ g with range := some ((Picker.uniform ⟨5, 5, t, t, true⟩).ranges.massLo, (Picker.uniform ⟨5, 5, t, t, true⟩).ranges.massHi) } : Diff) = g := hd
      rw [h5, hbv]
      exact hev
    rw [this]
    exact ⟨_, _, rfl, rfl, rfl⟩
  obtain ⟨s3, ev, h3, hbe, hxe⟩ := hevent
  have hx5 : dv.xMass = 5 := by
    have hb160 : 0 < Real.sqrt 160 := Real.sqrt_pos.2 (by norm_num)
    have := (Gen.event_spec g [1, 1] hRdy (by norm_num [List.getD]) (by norm_num) (by norm_num) (by norm_num) (by
      unfold LV.m2; dsimp only; nlinarith only [h160]) (by
        rcases lt_or_eq_of_le (Gen.P_nonneg (⟨0, 0, Real.sqrt 160, 13⟩ : LV)) with h | h
        · exact h
        · exfalso
          have h2 := Gen.P_sq (⟨0, 0, Real.sqrt 160, 13⟩ : LV)
          rw [← h] at h2
          unfold LV.m2 at h2
          dsimp only at h2
          nlinarith only [h2, h160]) (fun p hp => by rw [List.mem_singleton.1 hp]; norm_num)
      (by
        intro r hr
        exact (Gen.exRnds_ok 0).2 r (by simpa [Gen.exRnds] using hr)) hev).1
    exact congrArg Prod.fst (List.mem_singleton.1 this)
  refine ⟨t, s1, s2, s3, ev, h1, by rw [hs2]; exact h2, ?_, ?_, hxe.trans hx5⟩
  · unfold run
    have hst : step exEnv 0 eig s2 (.sequential true) = .ok (some (none, s2')) := by
      show (readSequentially true s2).bind (fun r => Outcome.ok (some (none, r))) = _
      unfold readSequentially
      have hfr : ¬ ((!s2.fileRead) = true) := by rw [hs2, hs1]; simp [afterRead]
      rw [if_neg hfr, hs2']
      rfl
    rw [hst]
    show ((run exEnv 0 eig s2' [.event exEvRandoms]).bind fun q => Outcome.ok (q.map fun q => ((none : Option (EventOut Bool)).toList ++ q.1, q.2))) = _
    unfold run
    have hst2 : step exEnv 0 eig s2' (.event exEvRandoms) = .ok (some (some ev, s3)) := by
      show (event exEnv 0 eig exEvRandoms s2').bind (fun x => Outcome.ok (x.map fun x => (some x.1, x.2))) = _
      rw [h3]
      rfl
    rw [hst2]
    rfl
  · rw [hbe, hbv]
    rcases lt_or_eq_of_le (Gen.P_nonneg (⟨0, 0, Real.sqrt 160, 13⟩ : LV)) with h | h
    · exact h
    · exfalso
      have h2 := Gen.P_sq (⟨0, 0, Real.sqrt 160, 13⟩ : LV)
      rw [← h] at h2
      unfold LV.m2 at h2
      dsimp only at h2
      nlinarith only [h2, h160]

/-- a file whose picker function has settings without a mass range, after the example: a failing read with the picker function lost. -/
theorem ex_failure (t : ℝ) : ∃ s1 s2, readReactionFile exEnv (some (exFile t)) Mgr.new = .ok (true, s1) ∧
    readReactionFile exEnv (some fun k => if k = "t_and_m_dependence" then some (.group [("function", .str "uniformMassAndT"), ("settings", .group [])])
      else exFile t k) s1 = .ok (false, s2) ∧ s2.fileRead = true ∧ s2.picker = none ∧ s2.finalState = [false, false, false, false] := by
  obtain ⟨s1, hs1⟩ : ∃ s1, s1 = afterRead Mgr.new (exReaction t) BeamGen.Gen.new := ⟨_, rfl⟩
  obtain ⟨root, hroot⟩ : ∃ root : Group, root = fun k => if k = "t_and_m_dependence" then some (.group [("function", .str "uniformMassAndT"), ("settings", .group [])])
      else exFile t k := ⟨_, rfl⟩
  have hsec : ∀ k g, k ≠ "t_and_m_dependence" → Section (exFile t) k g → Section root k g := by
    rintro k g hk ⟨l, hl, rfl⟩
    refine ⟨l, ?_, rfl⟩
    rw [hroot]
    dsimp only
    rw [if_neg hk]
    exact hl
  obtain ⟨⟨gB, hB⟩, ⟨gT, hT⟩, hS, hF, _⟩ := ex_describes t
  have hB' : IsBeam exEnv root (exReaction t).beam gB := ⟨hsec _ _ (by decide) hB.hsection, hB.2, hB.3, hB.4, hB.5, hB.6, hB.7, hB.8⟩
  have hT' : IsTarget exEnv root (exReaction t).target gT := ⟨hsec _ _ (by decide) hT.hsection, hT.2, hT.3, hT.4, hT.5, hT.6, hT.7, hT.8⟩
  have hF' : FinalOf exEnv root (exReaction t).final := by
    obtain ⟨g, ns, a, b⟩ := hF
    exact ⟨g, ns, hsec _ _ (by decide) a, b⟩
  have hS' : SimOf "" root none := by
    refine .inl ⟨rfl, ?_⟩
    rintro g ⟨l, hl, rfl⟩
    rw [hroot] at hl
    have : (Cfg.group [("active", .bool false)]) = .group l := Option.some.inj hl
    cases this
    rfl
  refine ⟨s1, { s1 with beam := some (exReaction t).beam, target := some (exReaction t).target, finalState := s1.finalState ++ (exReaction t).final, picker := none },
    (read_iff _ _ _ _).2 ⟨exReaction t, BeamGen.Gen.new, ex_describes t, rfl, hs1⟩, ?_, ?_⟩
  · rw [← hroot]
    unfold readReactionFile andThen
    dsimp only
    rw [beamStage_true _ _ _ _ _ hB']
    dsimp only
    rw [targetStage_true _ _ _ _ _ hT']
    dsimp only
    rw [beamSimStage_true exEnv root ({ s1 with beam := some (exReaction t).beam, target := some (exReaction t).target } : Mgr Bool) none s1.bv
      (by rw [show ({ s1 with beam := some (exReaction t).beam, target := some (exReaction t).target } : Mgr Bool).beamFileName = "" by rw [hs1]; rfl]; exact hS') rfl]
    dsimp only
    rw [finalStage_true _ _ _ _ hF']
    dsimp only
    unfold pickerStage
    have hg : findGroup root "t_and_m_dependence" = some (fun k => List.lookup k [("function", Cfg.str "uniformMassAndT"), ("settings", .group [])]) := by
      rw [hroot]
      rfl
    rw [hg]
    dsimp only
    rfl
  · rw [hs1]
    exact ⟨rfl, rfl, rfl⟩

end Rpwa.Mgr
