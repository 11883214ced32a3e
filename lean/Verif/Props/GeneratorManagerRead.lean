import Verif.Spec.GeneratorManager
import Verif.Props.PickersInit
import Verif.Props.BeamVertexRun
/-! Reading a reaction file -/
namespace Rpwa.Mgr

open Rpwa.Pick (Cfg CfgType Group allThere ExpPicker PolyPicker Ranges bind_ok_iff toDouble_iff array_at_iff)

variable {P : Type}

theorem findGroup_iff (root : Group) (n : String) (g : Group) : findGroup root n = some g ↔ Section root n g := by
  unfold findGroup Section
  constructor
  · intro h
    split at h
    · rename_i l hl
      exact ⟨l, hl, (Option.some.inj h).symm⟩
    · cases h
  · rintro ⟨l, hl, rfl⟩
    rw [hl]

theorem findGroup_none (root : Group) (n : String) : findGroup root n = none ↔ ∀ g, ¬ Section root n g := by
  rw [Option.eq_none_iff_forall_not_mem]
  exact forall_congr' fun g => not_congr (findGroup_iff root n g)

theorem section_unique {root : Group} {n : String} {g g' : Group} (h : Section root n g) (h' : Section root n g') : g = g' := by
  obtain ⟨l, hl, rfl⟩ := h
  obtain ⟨l', hl', rfl⟩ := h'
  rw [hl] at hl'
  cases hl'
  rfl

theorem allThere_nil (g : Group) : allThere g [] = true := rfl

theorem allThere_cons (g : Group) (n : String) (t : CfgType) (l : List (String × CfgType)) :
    allThere g ((n, t) :: l) = true ↔ (∃ c, g n = some c ∧ c.type = t) ∧ allThere g l = true := by
  unfold allThere
  rw [List.all_cons, Bool.and_eq_true]
  refine and_congr_left fun _ => ?_
  dsimp only
  cases g n with
  | none => simp
  | some c => simp

theorem type_float (g : Group) (n : String) : (∃ c, g n = some c ∧ c.type = .float) ↔ ∃ x, g n = some (.float x) := by
  constructor
  · rintro ⟨c, hc, ht⟩
    cases c <;> first | exact ⟨_, hc⟩ | cases ht
  · rintro ⟨x, hx⟩
    exact ⟨_, hx, rfl⟩

theorem type_str (g : Group) (n : String) : (∃ c, g n = some c ∧ c.type = .str) ↔ ∃ x, g n = some (.str x) := by
  constructor
  · rintro ⟨c, hc, ht⟩
    cases c <;> first | exact ⟨_, hc⟩ | cases ht
  · rintro ⟨x, hx⟩
    exact ⟨_, hx, rfl⟩

theorem type_array (g : Group) (n : String) : (∃ c, g n = some c ∧ c.type = .array) ↔ ∃ x, g n = some (.array x) := by
  constructor
  · rintro ⟨c, hc, ht⟩
    cases c <;> first | exact ⟨_, hc⟩ | cases ht
  · rintro ⟨x, hx⟩
    exact ⟨_, hx, rfl⟩

theorem double_iff (g : Group) (n : String) (x : ℝ) : g.double n = .ok x ↔ g n = some (.float x) := by
  unfold Group.double
  cases hg : g n with
  | none => exact ⟨fun h => (by cases h), fun h => by cases h⟩
  | some c =>
    refine (toDouble_iff c x).trans ⟨fun h => congrArg _ h, fun h => Option.some.inj h⟩

theorem lookupStr_of {g : Group} {n v : String} (h : g n = some (.str v)) : lookupStr g n = some v := by
  unfold lookupStr
  rw [h]

/-! ### the parts of the file -/

/-- the beam. -/
theorem beamStage_ok (e : Env P) (root : Group) (s s' : Mgr P) (b : Bool) (h : beamStage e root s = .ok (b, s')) :
    (b = true ∧ ∃ B g, IsBeam e root B g ∧ s' = { s with beam := some B }) ∨ (b = false ∧ s' = s) := by
  unfold beamStage at h
  split at h
  · cases h; exact .inr ⟨rfl, rfl⟩
  rename_i g hg
  split at h
  · cases h; exact .inr ⟨rfl, rfl⟩
  rename_i ha
  have ha : allThere g [("name", .str), ("momentum", .float), ("momentumSigma", .float), ("DxDz", .float), ("DxDzSigma", .float), ("DyDz", .float),
        ("DyDzSigma", .float)] = true := by simpa using ha
  rw [allThere_cons] at ha
  obtain ⟨n, hn⟩ := (type_str g "name").1 ha.1
  split at h
  · cases h; exact .inr ⟨rfl, rfl⟩
  rename_i p hp
  rw [lookupStr_of hn] at hp
  obtain ⟨x1, h1, h⟩ := (bind_ok_iff _ _ _).1 h
  obtain ⟨x2, h2, h⟩ := (bind_ok_iff _ _ _).1 h
  obtain ⟨x3, h3, h⟩ := (bind_ok_iff _ _ _).1 h
  obtain ⟨x4, h4, h⟩ := (bind_ok_iff _ _ _).1 h
  obtain ⟨x5, h5, h⟩ := (bind_ok_iff _ _ _).1 h
  obtain ⟨x6, h6, h⟩ := (bind_ok_iff _ _ _).1 h
  cases h
  exact .inl ⟨rfl, ⟨p, x1, x2, x3, x4, x5, x6⟩, g, ⟨(findGroup_iff _ _ _).1 hg, ⟨n, hn, hp⟩, (double_iff _ _ _).1 h1, (double_iff _ _ _).1 h2,
    (double_iff _ _ _).1 h3, (double_iff _ _ _).1 h4, (double_iff _ _ _).1 h5, (double_iff _ _ _).1 h6⟩, rfl⟩

theorem beamStage_true (e : Env P) (root : Group) (s : Mgr P) (B : BeamPar P) (g : Group) (h : IsBeam e root B g) :
    beamStage e root s = .ok (true, { s with beam := some B }) := by
  obtain ⟨n, hn, hp⟩ := h.hname
  unfold beamStage
  rw [(findGroup_iff _ _ _).2 h.hsection]
  dsimp only
  rw [if_neg]
  · rw [lookupStr_of hn, Option.getD_some, hp]
    dsimp only
    refine (bind_ok_iff _ _ _).2 ⟨_, (double_iff _ _ _).2 h.hmomentum, (bind_ok_iff _ _ _).2 ⟨_, (double_iff _ _ _).2 h.hmomentumSigma,
      (bind_ok_iff _ _ _).2 ⟨_, (double_iff _ _ _).2 h.hdxdz, (bind_ok_iff _ _ _).2 ⟨_, (double_iff _ _ _).2 h.hdxdzSigma,
      (bind_ok_iff _ _ _).2 ⟨_, (double_iff _ _ _).2 h.hdydz, (bind_ok_iff _ _ _).2 ⟨_, (double_iff _ _ _).2 h.hdydzSigma, rfl⟩⟩⟩⟩⟩⟩
  · rw [Bool.not_eq_true', Bool.not_eq_false]
    simp only [allThere_cons]
    exact ⟨⟨_, hn, rfl⟩, ⟨_, h.hmomentum, rfl⟩, ⟨_, h.hmomentumSigma, rfl⟩, ⟨_, h.hdxdz, rfl⟩, ⟨_, h.hdxdzSigma, rfl⟩, ⟨_, h.hdydz, rfl⟩,
      ⟨_, h.hdydzSigma, rfl⟩, allThere_nil g⟩

theorem length_three {l : List Cfg} (h : (Cfg.array l).length = 3) : ∃ a b c, l = [a, b, c] := by
  have h' : l.length = 3 := h
  match l, h' with
  | [a, b, c], _ => exact ⟨a, b, c, rfl⟩

/-- the target. -/
theorem targetStage_ok (e : Env P) (root : Group) (s s' : Mgr P) (b : Bool) (h : targetStage e root s = .ok (b, s')) :
    (b = true ∧ ∃ T g, IsTarget e root T g ∧ s' = { s with target := some T }) ∨ (b = false ∧ s' = s) := by
  unfold targetStage at h
  split at h
  · cases h; exact .inr ⟨rfl, rfl⟩
  rename_i g hg
  split at h
  · cases h; exact .inr ⟨rfl, rfl⟩
  rename_i ha
  have ha : allThere g [("targetParticleName", .str), ("recoilParticleName", .str), ("pos", .array), ("radius", .float), ("length", .float),
        ("interactionLength", .float)] = true := by simpa using ha
  simp only [allThere_cons] at ha
  obtain ⟨nt, hnt⟩ := (type_str g _).1 ha.1
  obtain ⟨nr, hnr⟩ := (type_str g _).1 ha.2.1
  obtain ⟨l, hl⟩ := (type_array g _).1 ha.2.2.1
  rw [hl] at h
  dsimp only at h
  split at h
  · cases h; exact .inr ⟨rfl, rfl⟩
  rename_i h3
  obtain ⟨a, b', c, rfl⟩ := length_three (not_not.1 h3)
  obtain ⟨p0, h0, h⟩ := (bind_ok_iff _ _ _).1 h
  split at h
  · cases h; exact .inr ⟨rfl, rfl⟩
  rw [lookupStr_of hnt, lookupStr_of hnr] at h
  split at h
  · rename_i t r ht hr
    unfold makeTarget at h
    obtain ⟨il, hil, h⟩ := (bind_ok_iff _ _ _).1 h
    split at h
    · cases h; exact .inr ⟨rfl, rfl⟩
    rename_i hneg
    obtain ⟨_, e0, h⟩ := (bind_ok_iff _ _ _).1 h
    obtain ⟨x, hx, h⟩ := (bind_ok_iff _ _ _).1 h
    obtain ⟨_, e1, h⟩ := (bind_ok_iff _ _ _).1 h
    obtain ⟨y, hy, h⟩ := (bind_ok_iff _ _ _).1 h
    obtain ⟨_, e2, h⟩ := (bind_ok_iff _ _ _).1 h
    obtain ⟨z, hz, h⟩ := (bind_ok_iff _ _ _).1 h
    obtain ⟨ra, hra, h⟩ := (bind_ok_iff _ _ _).1 h
    obtain ⟨le, hle, h⟩ := (bind_ok_iff _ _ _).1 h
    cases h
    cases Option.some.inj ((array_at_iff _ _ _).1 e0)
    cases Option.some.inj ((array_at_iff _ _ _).1 e1)
    cases Option.some.inj ((array_at_iff _ _ _).1 e2)
    rw [(toDouble_iff _ _).1 hx, (toDouble_iff _ _).1 hy, (toDouble_iff _ _).1 hz] at hl
    exact .inl ⟨rfl, ⟨t, r, x, y, z, le, ra, il⟩, g, ⟨(findGroup_iff _ _ _).1 hg, ⟨nt, hnt, ht⟩, ⟨nr, hnr, hr⟩, hl, (double_iff _ _ _).1 hra,
      (double_iff _ _ _).1 hle, (double_iff _ _ _).1 hil, not_lt.1 hneg⟩, rfl⟩
  · cases h; exact .inr ⟨rfl, rfl⟩

theorem targetStage_true (e : Env P) (root : Group) (s : Mgr P) (T : TargetPar P) (g : Group) (h : IsTarget e root T g) :
    targetStage e root s = .ok (true, { s with target := some T }) := by
  obtain ⟨nt, hnt, ht⟩ := h.htarget
  obtain ⟨nr, hnr, hr⟩ := h.hrecoil
  unfold targetStage
  rw [(findGroup_iff _ _ _).2 h.hsection]
  dsimp only
  rw [if_neg, h.hpos]
  · dsimp only
    have h3 : (Cfg.array [Cfg.float T.posX, Cfg.float T.posY, Cfg.float T.posZ]).length = 3 := rfl
    rw [if_neg (not_not.2 h3), lookupStr_of hnt, lookupStr_of hnr, Option.getD_some, Option.getD_some, ht, hr]
    refine (bind_ok_iff _ _ _).2 ⟨.float T.posX, rfl, ?_⟩
    rw [if_neg (by simp [Cfg.isNumber])]
    dsimp only
    unfold makeTarget
    refine (bind_ok_iff _ _ _).2 ⟨_, (double_iff _ _ _).2 h.hinteraction, ?_⟩
    rw [if_neg (not_lt.2 h.hnonneg)]
    exact (bind_ok_iff _ _ _).2 ⟨_, rfl, (bind_ok_iff _ _ _).2 ⟨_, rfl, (bind_ok_iff _ _ _).2 ⟨_, rfl, (bind_ok_iff _ _ _).2 ⟨_, rfl,
      (bind_ok_iff _ _ _).2 ⟨_, rfl, (bind_ok_iff _ _ _).2 ⟨_, rfl, (bind_ok_iff _ _ _).2 ⟨_, (double_iff _ _ _).2 h.hradius,
      (bind_ok_iff _ _ _).2 ⟨_, (double_iff _ _ _).2 h.hlength, rfl⟩⟩⟩⟩⟩⟩⟩⟩
  · rw [Bool.not_eq_true', Bool.not_eq_false]
    simp only [allThere_cons]
    exact ⟨⟨_, hnt, rfl⟩, ⟨_, hnr, rfl⟩, ⟨_, h.hpos, rfl⟩, ⟨_, h.hradius, rfl⟩, ⟨_, h.hlength, rfl⟩, ⟨_, h.hinteraction, rfl⟩, allThere_nil g⟩

theorem optDouble_iff (g : Group) (n : String) (d x : ℝ) : optDouble g n d = some x ↔ OptFloat g n d x := by
  unfold optDouble OptFloat
  cases hg : g n with
  | none => simp [eq_comm]
  | some c => cases c <;> simp

theorem optBool_iff (g : Group) (n : String) (d x : Bool) : optBool g n d = some x ↔ OptBool g n d x := by
  unfold optBool OptBool
  cases hg : g n with
  | none => simp [eq_comm]
  | some c => cases c <;> simp

theorem load_fileName (s s' : BeamGen.Gen) (n : String) (f : BeamGen.File) (b : Bool) (h : s.loadBeamFile n f = .ok (b, s')) : s'.fileName = n := by
  unfold BeamGen.Gen.loadBeamFile at h
  split at h
  · cases h; rfl
  · cases h; rfl
  · dsimp only at h
    split at h
    · unfold BeamGen.Gen.loadMomenta at h
      split at h <;> cases h
      rfl
    · split at h
      · unfold BeamGen.Gen.loadInclinations at h
        split at h <;> cases h
        rfl
      · cases h; rfl

/-- the beam package: what succeeded, and what an unsuccessful attempt may change. -/
theorem beamSimStage_ok (e : Env P) (root : Group) (s s' : Mgr P) (b : Bool) (h : beamSimStage e root s = .ok (b, s')) :
    (b = true ∧ ∃ m bv, SimOf s.beamFileName root m ∧ Prepared e s.bv m bv ∧
      s' = { s with bv := bv, beamFileName := (m.map Sim.file).getD s.beamFileName }) ∨
    (b = false ∧ ∃ bv n, s' = { s with bv := bv, beamFileName := n }) := by
  unfold beamSimStage at h
  split at h
  · rename_i hg
    cases h
    refine .inl ⟨rfl, none, s.bv, .inl ⟨rfl, fun g hs => absurd hs ((findGroup_none _ _).1 hg g)⟩, rfl, rfl⟩
  rename_i g hg
  have hsec := (findGroup_iff _ _ _).1 hg
  split at h
  · rename_i hact
    unfold beamName at h
    split at h
    · cases h
      exact .inr ⟨rfl, s.bv, s.beamFileName, rfl⟩
    rename_i s1 hs1
    have hn : ∃ f, (if s.beamFileName = "" then g "beamFile" = some (.str f) else f = s.beamFileName) ∧ s1 = { s with beamFileName := f } := by
      split at hs1
      · rename_i h0
        split at hs1
        · cases hs1
        · rename_i f hf
          cases hs1
          refine ⟨f, ?_, rfl⟩
          rw [if_pos h0]
          unfold lookupStr at hf
          split at hf
          · rename_i v hv
            rw [hv, Option.some.inj hf]
          · cases hf
      · rename_i h0
        cases hs1
        exact ⟨s.beamFileName, by rw [if_neg h0], rfl⟩
    obtain ⟨f, hf, rfl⟩ := hn
    clear hs1
    unfold beamSettings at h
    split at h
    · cases h; exact .inr ⟨rfl, s.bv, f, rfl⟩
    rename_i scale hsc
    split at h
    · cases h; exact .inr ⟨rfl, s.bv, f, rfl⟩
    rename_i hsc0
    split at h
    · rename_i z res sigma mean hz hres hsig hmean
      unfold loadBeam at h
      obtain ⟨r, hr, h⟩ := (bind_ok_iff _ _ _).1 h
      obtain ⟨ok, b1⟩ := r
      cases ok with
      | false => cases h; exact .inr ⟨rfl, b1, f, rfl⟩
      | true =>
        obtain ⟨b2, hb2, h⟩ := (bind_ok_iff _ _ _).1 h
        cases h
        have hfn := load_fileName _ _ _ _ _ hr
        dsimp only at hfn hb2 hr
        have hz2 : b2 = { b1 with takeZ := z } ∧ (z = true → f ≠ "") := by
          unfold BeamGen.Gen.setTakeZ at hb2
          split at hb2
          · cases hb2
          · rename_i hc
            cases hb2
            refine ⟨rfl, fun hz hf0 => hc ?_⟩
            rw [hfn, hz, hf0]
            rfl
        refine .inl ⟨rfl, some ⟨f, scale, z, res, sigma, mean⟩, b2, .inr ⟨g, _, rfl, hsec, ⟨hact, hf, (optDouble_iff _ _ _ _).1 hsc, not_lt.1 hsc0,
          (optBool_iff _ _ _ _).1 hz, (optDouble_iff _ _ _ _).1 hres, (optDouble_iff _ _ _ _).1 hsig, (optDouble_iff _ _ _ _).1 hmean⟩⟩,
          ⟨b1, hr, hz2.1, hz2.2⟩, rfl⟩
    · cases h; exact .inr ⟨rfl, s.bv, f, rfl⟩
  · rename_i hact
    cases h
    exact .inl ⟨rfl, none, s.bv, .inl ⟨rfl, fun g' hs => by rw [section_unique hs hsec]; exact hact⟩, rfl, rfl⟩
  · cases h; exact .inr ⟨rfl, s.bv, s.beamFileName, rfl⟩

theorem beamSimStage_true (e : Env P) (root : Group) (s : Mgr P) (m : Option Sim) (bv : BeamGen.Gen) (h : SimOf s.beamFileName root m)
    (hp : Prepared e s.bv m bv) : beamSimStage e root s = .ok (true, { s with bv := bv, beamFileName := (m.map Sim.file).getD s.beamFileName }) := by
  rcases h with ⟨rfl, h⟩ | ⟨g, m, rfl, hsec, h⟩
  · have hp : bv = s.bv := hp
    subst hp
    unfold beamSimStage
    cases hg : findGroup root "beamSimulation" with
    | none => rfl
    | some g =>
      dsimp only
      rw [h g ((findGroup_iff _ _ _).1 hg)]
      rfl
  · obtain ⟨b, hb, rfl, hz⟩ := hp
    have hn : beamName g s = some { s with beamFileName := m.file } := by
      have hf := h.hfile
      unfold beamName
      split
      · rename_i h0
        rw [if_pos h0] at hf
        rw [lookupStr_of hf]
      · rename_i h0
        rw [if_neg h0] at hf
        rw [hf]
    unfold beamSimStage
    rw [(findGroup_iff _ _ _).2 hsec]
    dsimp only
    rw [h.hactive]
    dsimp only
    rw [hn]
    dsimp only
    unfold beamSettings
    rw [(optDouble_iff _ _ _ _).2 h.hscale]
    dsimp only
    rw [if_neg (not_lt.2 h.hscale0), (optBool_iff _ _ _ _).2 h.htakeZ, (optDouble_iff _ _ _ _).2 h.hres, (optDouble_iff _ _ _ _).2 h.hsigma,
      (optDouble_iff _ _ _ _).2 h.hmean]
    dsimp only
    unfold loadBeam
    refine (bind_ok_iff _ _ _).2 ⟨_, hb, ?_⟩
    rw [if_neg (by simp)]
    refine (bind_ok_iff _ _ _).2 ⟨{ b with takeZ := m.takeZ }, ?_, rfl⟩
    unfold BeamGen.Gen.setTakeZ
    have hfn := load_fileName _ _ _ _ _ hb
    rw [if_neg]
    rw [Bool.and_eq_true, beq_iff_eq]
    rintro ⟨h1, h2⟩
    exact hz h1 (by rw [← hfn]; exact String.length_eq_zero_iff.1 h2)

theorem pushParticles_ok (e : Env P) : ∀ (cs : List Cfg) (s s' : Mgr P) (b : Bool), pushParticles e cs s = .ok (b, s') →
    (b = true ∧ ∃ (names : List String) (ps : List P), cs = names.map .str ∧ names.map e.table = ps.map some ∧ s' = { s with finalState := s.finalState ++ ps }) ∨
    (b = false ∧ ∃ (names : List String) (ps : List P), names.map Cfg.str <+: cs ∧ names.map e.table = ps.map some ∧ s' = { s with finalState := s.finalState ++ ps }) := by
  intro cs
  induction cs with
  | nil =>
    intro s s' b h
    cases h
    exact .inl ⟨rfl, [], [], rfl, rfl, by simp⟩
  | cons c cs ih =>
    intro s s' b h
    cases c with
    | str n =>
      unfold pushParticles at h
      split at h
      · cases h
        exact .inr ⟨rfl, [], [], by simp, rfl, by simp⟩
      · rename_i p hp
        rcases ih _ _ _ h with ⟨hb, names, ps, h1, h2, h3⟩ | ⟨hb, names, ps, h1, h2, h3⟩
        · refine .inl ⟨hb, n :: names, p :: ps, by rw [h1]; rfl, by rw [List.map_cons, List.map_cons, h2, hp], ?_⟩
          rw [h3]
          simp
        · refine .inr ⟨hb, n :: names, p :: ps, by rw [List.map_cons]; exact (List.cons_prefix_cons).2 ⟨rfl, h1⟩,
            by rw [List.map_cons, List.map_cons, h2, hp], ?_⟩
          rw [h3]
          simp
    | _ => cases h

theorem pushParticles_true (e : Env P) : ∀ (names : List String) (ps : List P) (s : Mgr P), names.map e.table = ps.map some →
    pushParticles e (names.map .str) s = .ok (true, { s with finalState := s.finalState ++ ps }) := by
  intro names
  induction names with
  | nil =>
    intro ps s h
    cases ps with
    | nil => simp [pushParticles]
    | cons p ps => simp at h
  | cons n names ih =>
    intro ps s h
    cases ps with
    | nil => simp at h
    | cons p ps =>
      rw [List.map_cons, List.map_cons, List.cons.injEq] at h
      rw [List.map_cons]
      unfold pushParticles
      rw [h.1]
      dsimp only
      rw [ih ps _ h.2]
      simp

/-- the final state: the particles are appended to those that are there, in a failing read a part of them. -/
theorem finalStage_ok (e : Env P) (root : Group) (s s' : Mgr P) (b : Bool) (h : finalStage e root s = .ok (b, s')) :
    (b = true ∧ ∃ ps, FinalOf e root ps ∧ s' = { s with finalState := s.finalState ++ ps }) ∨
    (b = false ∧ ∃ ps, s' = { s with finalState := s.finalState ++ ps }) := by
  unfold finalStage at h
  split at h
  · cases h; exact .inr ⟨rfl, [], by simp⟩
  rename_i g hg
  split at h
  · rename_i l hl
    split at h
    · rename_i n cs
      rcases pushParticles_ok e _ _ _ _ h with ⟨hb, names, ps, h1, h2, h3⟩ | ⟨hb, names, ps, h1, h2, h3⟩
      · refine .inl ⟨hb, ps, ⟨g, names, (findGroup_iff _ _ _).1 hg, by rw [hl, h1], ?_, h2⟩, h3⟩
        rintro rfl
        simp at h1
      · exact .inr ⟨hb, ps, h3⟩
    · cases h; exact .inr ⟨rfl, [], by simp⟩
  · cases h; exact .inr ⟨rfl, [], by simp⟩

theorem finalStage_true (e : Env P) (root : Group) (s : Mgr P) (ps : List P) (h : FinalOf e root ps) :
    finalStage e root s = .ok (true, { s with finalState := s.finalState ++ ps }) := by
  obtain ⟨g, names, h1, h2, h3, h4⟩ := h
  unfold finalStage
  rw [(findGroup_iff _ _ _).2 h1]
  dsimp only
  rw [h2]
  dsimp only
  cases names with
  | nil => exact absurd rfl h3
  | cons n names => exact pushParticles_true e (n :: names) ps s h4

theorem init_iff (p q : Picker) (g : Group) (b : Bool) : p.init g = .ok (b, q) ↔ match p with
    | .exp p => ∃ q', p.init g = .ok (b, q') ∧ q = .exp q'
    | .poly p => ∃ q', p.init g = .ok (b, q') ∧ q = .poly q'
    | .uniform p => ∃ q', Pick.uniformInit p g = .ok (b, q') ∧ q = .uniform q' := by
  cases p <;>
  · dsimp only
    unfold Picker.init
    dsimp only
    rw [bind_ok_iff]
    constructor
    · rintro ⟨r, h1, h2⟩
      cases h2
      exact ⟨r.2, h1, rfl⟩
    · rintro ⟨q', h1, rfl⟩
      exact ⟨_, h1, rfl⟩

/-- the picker function. -/
theorem pickerStage_ok (e : Env P) (root : Group) (s s' : Mgr P) (b : Bool) (h : pickerStage e root s = .ok (b, s')) :
    (b = true ∧ ∃ p, PickerOf e root p ∧ s' = { s with heap := s.heap ++ [p], picker := some s.heap.length, fileRead := true }) ∨
    (b = false ∧ (s' = s ∨ s' = { s with picker := none })) := by
  unfold pickerStage at h
  split at h
  · cases h; exact .inr ⟨rfl, .inl rfl⟩
  rename_i g hg
  split at h
  · rename_i name l hname hset
    unfold makePicker at h
    split at h
    · cases h; exact .inr ⟨rfl, .inl rfl⟩
    · rename_i p hp
      obtain ⟨⟨ok, q⟩, hr, h⟩ := (bind_ok_iff _ _ _).1 h
      cases ok with
      | false => cases h; exact .inr ⟨rfl, .inr rfl⟩
      | true =>
        cases h
        refine .inl ⟨rfl, q, ⟨g, name, _, (findGroup_iff _ _ _).1 hg, hname, ⟨l, hset, rfl⟩, ?_⟩, rfl⟩
        rw [init_iff] at hr
        unfold newPicker at hp
        split at hp
        · rename_i hn
          cases hp
          exact .inl ⟨hn, hr⟩
        · split at hp
          · rename_i hn
            cases hp
            exact .inr (.inl ⟨hn, hr⟩)
          · split at hp
            · rename_i hn
              cases hp
              exact .inr (.inr ⟨hn, hr⟩)
            · cases hp
  · cases h; exact .inr ⟨rfl, .inl rfl⟩

theorem pickerStage_true (e : Env P) (root : Group) (s : Mgr P) (p : Picker) (h : PickerOf e root p) :
    pickerStage e root s = .ok (true, { s with heap := s.heap ++ [p], picker := some s.heap.length, fileRead := true }) := by
  obtain ⟨g, name, settings, h1, h2, ⟨l, h3, rfl⟩, h4⟩ := h
  unfold pickerStage
  rw [(findGroup_iff _ _ _).2 h1]
  dsimp only
  rw [h2, h3]
  dsimp only
  have : ∃ p0, newPicker e.dblMax name = some p0 ∧ p0.init (fun k => l.lookup k) = .ok (true, p) := by
    rcases h4 with ⟨rfl, hq⟩ | ⟨rfl, hq⟩ | ⟨rfl, hq⟩
    · exact ⟨.exp (ExpPicker.new e.dblMax), rfl, (init_iff _ _ _ _).2 hq⟩
    · exact ⟨.poly ⟨Ranges.new e.dblMax, [], []⟩, rfl, (init_iff _ _ _ _).2 hq⟩
    · exact ⟨.uniform (Ranges.new e.dblMax), rfl, (init_iff _ _ _ _).2 hq⟩
  obtain ⟨p0, hp0, hi⟩ := this
  unfold makePicker
  rw [hp0]
  dsimp only
  exact (bind_ok_iff _ _ _).2 ⟨_, hi, rfl⟩

/-! ### the whole file -/

/-- what a successful read makes of the state. -/
def afterRead (s : Mgr P) (R : Reaction P) (bv : BeamGen.Gen) : Mgr P :=
  { s with beam := some R.beam, target := some R.target, bv := bv, beamFileName := (R.sim.map Sim.file).getD s.beamFileName,
           finalState := s.finalState ++ R.final, heap := s.heap ++ [R.picker], picker := some s.heap.length, fileRead := true }

/-- **C69.** Reading succeeds exactly if the file describes a reaction and its beam file can be loaded; then beam, target, beam package and picker function are those
of the file, and the final-state particles are appended. -/
theorem read_iff (e : Env P) (root : Group) (s s' : Mgr P) : readReactionFile e (some root) s = .ok (true, s') ↔
    ∃ R bv, Describes e s.beamFileName root R ∧ Prepared e s.bv R.sim bv ∧ s' = afterRead s R bv := by
  constructor
  · intro h
    unfold readReactionFile andThen at h
    dsimp only at h
    cases h1 : beamStage e root s with
    | terminate => rw [h1] at h; cases h
    | ub => rw [h1] at h; cases h
    | ok x =>
    obtain ⟨b1, s1⟩ := x
    rw [h1] at h
    cases b1 with
    | false => cases h
    | true =>
    dsimp only at h
    cases h2 : targetStage e root s1 with
    | terminate => rw [h2] at h; cases h
    | ub => rw [h2] at h; cases h
    | ok x =>
    obtain ⟨b2, s2⟩ := x
    rw [h2] at h
    cases b2 with
    | false => cases h
    | true =>
    dsimp only at h
    cases h3 : beamSimStage e root s2 with
    | terminate => rw [h3] at h; cases h
    | ub => rw [h3] at h; cases h
    | ok x =>
    obtain ⟨b3, s3⟩ := x
    rw [h3] at h
    cases b3 with
    | false => cases h
    | true =>
    dsimp only at h
    cases h4 : finalStage e root s3 with
    | terminate => rw [h4] at h; cases h
    | ub => rw [h4] at h; cases h
    | ok x =>
    obtain ⟨b4, s4⟩ := x
    rw [h4] at h
    cases b4 with
    | false => cases h
    | true =>
    dsimp only at h
    rcases beamStage_ok e root _ _ _ h1 with ⟨_, B, gB, hB, rfl⟩ | ⟨hh, _⟩
    swap; · cases hh
    rcases targetStage_ok e root _ _ _ h2 with ⟨_, T, gT, hT, rfl⟩ | ⟨hh, _⟩
    swap; · cases hh
    rcases beamSimStage_ok e root _ _ _ h3 with ⟨_, m, bv, hm, hbv, rfl⟩ | ⟨hh, _⟩
    swap; · cases hh
    rcases finalStage_ok e root _ _ _ h4 with ⟨_, ps, hps, rfl⟩ | ⟨hh, _⟩
    swap; · cases hh
    rcases pickerStage_ok e root _ _ _ h with ⟨_, p, hp, rfl⟩ | ⟨hh, _⟩
    swap; · cases hh
    exact ⟨⟨B, T, m, ps, p⟩, bv, ⟨⟨gB, hB⟩, ⟨gT, hT⟩, hm, hps, hp⟩, hbv, rfl⟩
  · rintro ⟨R, bv, hD, hP, rfl⟩
    obtain ⟨gB, hB⟩ := hD.hbeam
    obtain ⟨gT, hT⟩ := hD.htarget
    unfold readReactionFile andThen
    dsimp only
    rw [beamStage_true e root s _ _ hB]
    dsimp only
    rw [targetStage_true e root _ _ _ hT]
    dsimp only
    rw [beamSimStage_true e root ({ s with beam := some R.beam, target := some R.target } : Mgr P) R.sim bv hD.hsim hP]
    dsimp only
    rw [finalStage_true e root _ _ hD.hfinal]
    dsimp only
    rw [pickerStage_true e root _ _ hD.hpicker]
    rfl

/-- **C69, failing reads.** A read that fails leaves the generator and all existing picker functions alone, but beam, target, beam package and picker function
may be changed, and final-state particles may have been appended; the flag that a file has been read stays. -/
theorem read_false (e : Env P) (file : Option Group) (s s' : Mgr P) (h : readReactionFile e file s = .ok (false, s')) :
    s'.gen = s.gen ∧ s'.heap = s.heap ∧ s'.fileRead = s.fileRead ∧ (s'.picker = s.picker ∨ s'.picker = none) ∧ (s'.beam = s.beam ∨ s'.beam.isSome) ∧
    (s'.target = s.target ∨ s'.target.isSome) ∧ s.finalState <+: s'.finalState := by
  unfold readReactionFile at h
  cases file with
  | none => cases h; exact ⟨rfl, rfl, rfl, .inl rfl, .inl rfl, .inl rfl, List.prefix_rfl⟩
  | some root =>
  dsimp only [andThen] at h
  cases h1 : beamStage e root s with
  | terminate => rw [h1] at h; cases h
  | ub => rw [h1] at h; cases h
  | ok x =>
  obtain ⟨b1, s1⟩ := x
  rw [h1] at h
  rcases beamStage_ok e root _ _ _ h1 with ⟨rfl, B, gB, hB, rfl⟩ | ⟨rfl, rfl⟩
  swap; · cases h; exact ⟨rfl, rfl, rfl, .inl rfl, .inl rfl, .inl rfl, List.prefix_rfl⟩
  dsimp only at h
  cases h2 : targetStage e root { s with beam := some B } with
  | terminate => rw [h2] at h; cases h
  | ub => rw [h2] at h; cases h
  | ok x =>
  obtain ⟨b2, s2⟩ := x
  rw [h2] at h
  rcases targetStage_ok e root _ _ _ h2 with ⟨rfl, T, gT, hT, rfl⟩ | ⟨rfl, rfl⟩
  swap; · cases h; exact ⟨rfl, rfl, rfl, .inl rfl, .inr rfl, .inl rfl, List.prefix_rfl⟩
  dsimp only at h
  cases h3 : beamSimStage e root { s with beam := some B, target := some T } with
  | terminate => rw [h3] at h; cases h
  | ub => rw [h3] at h; cases h
  | ok x =>
  obtain ⟨b3, s3⟩ := x
  rw [h3] at h
  rcases beamSimStage_ok e root _ _ _ h3 with ⟨rfl, m, bv, hm, hbv, rfl⟩ | ⟨rfl, bv, n, rfl⟩
  swap; · cases h; exact ⟨rfl, rfl, rfl, .inl rfl, .inr rfl, .inr rfl, List.prefix_rfl⟩
  dsimp only at h
  cases h4 : finalStage e root { s with beam := some B, target := some T, bv := bv, beamFileName := (m.map Sim.file).getD s.beamFileName } with
  | terminate => rw [h4] at h; cases h
  | ub => rw [h4] at h; cases h
  | ok x =>
  obtain ⟨b4, s4⟩ := x
  rw [h4] at h
  rcases finalStage_ok e root _ _ _ h4 with ⟨rfl, ps, hps, rfl⟩ | ⟨rfl, ps, rfl⟩
  swap; · cases h; exact ⟨rfl, rfl, rfl, .inl rfl, .inr rfl, .inr rfl, List.prefix_append _ _⟩
  dsimp only at h
  rcases pickerStage_ok e root _ _ _ h with ⟨hh, _⟩ | ⟨_, rfl | rfl⟩
  · cases hh
  · exact ⟨rfl, rfl, rfl, .inl rfl, .inr rfl, .inr rfl, List.prefix_append _ _⟩
  · exact ⟨rfl, rfl, rfl, .inr rfl, .inr rfl, .inr rfl, List.prefix_append _ _⟩

end Rpwa.Mgr
