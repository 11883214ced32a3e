import Verif.Props.BeamVertex
import Mathlib.Data.Int.ModEq
/-! Beam and vertex: files and sequences of events -/
namespace Rpwa.BeamGen
open Rpwa.Gen (V3 LV)
open MeasureTheory Set

variable (eig : (Fin 4 → Fin 4 → ℝ) → (Fin 4 → ℝ) × (Fin 4 → Fin 4 → ℝ)) (tg : Target) (b : Beam)

theorem has_iff (t : Tree) (n : String) : t.has n = true ↔ n ∈ t.branches := by
  unfold Tree.has; rw [List.contains_iff_mem]

theorem all_has_iff (t : Tree) (l : List String) : l.all t.has = true ↔ ∀ n ∈ l, n ∈ t.branches := by
  rw [List.all_eq_true]; exact forall₂_congr fun n _ => has_iff t n

theorem check_iff (s : Gen) : s.check = true ↔
    (s.tree.isSome = true ∨ s.mode = .simple) ∧ (s.pdfMean ≠ 0 → s.mode = .momentaCorrected ∧ s.pdfSigma ≠ 0 ∧ s.resolution ≠ 0) := by
  unfold Gen.check
  by_cases h1 : s.tree.isSome = true ∨ s.mode = .simple
  · rw [if_neg (not_not.2 h1)]
    by_cases h2 : s.pdfMean ≠ 0
    · rw [if_pos h2]
      by_cases h3 : s.mode = .momentaCorrected
      · rw [if_neg (not_not.2 h3)]
        by_cases h4 : s.pdfSigma = 0 ∨ s.resolution = 0
        · rw [if_pos h4]
          constructor
          · intro h; cases h
          · rintro ⟨_, h⟩
            obtain ⟨_, a, b⟩ := h h2
            rcases h4 with h | h
            · exact absurd h a
            · exact absurd h b
        · rw [if_neg h4]
          push Not at h4
          exact ⟨fun _ => ⟨h1, fun _ => ⟨h3, h4⟩⟩, fun _ => rfl⟩
      · rw [if_pos h3]
        constructor
        · intro h; cases h
        · rintro ⟨_, h⟩; exact absurd (h h2).1 h3
    · rw [if_neg h2]
      exact ⟨fun _ => ⟨h1, fun h => absurd h h2⟩, fun _ => rfl⟩
  · rw [if_pos h1]
    constructor
    · intro h; cases h
    · rintro ⟨h, _⟩; exact absurd h h1

theorem mem_mx : "beam_momentum_x" ∈ momentaBranches := by decide
theorem mem_dx : "beam_dXdZ" ∈ inclinationBranches := by decide

/-- **loading a beam file succeeds exactly for a usable tree**, and then the generator reads from it. -/
theorem load_iff (s : Gen) (name : String) (f : File) :
    (∃ s', s.loadBeamFile name f = .ok (true, s')) ↔ ∃ t, f = .tree t ∧ Usable s t := by
  cases f with
  | missing =>
    constructor
    · rintro ⟨s', h⟩
      have h := Outcome.ok.inj h
      cases (Prod.mk.inj h).1
    · rintro ⟨t, h, _⟩; cases h
  | noTree =>
    constructor
    · rintro ⟨s', h⟩
      have h := Outcome.ok.inj h
      cases (Prod.mk.inj h).1
    · rintro ⟨t, h, _⟩; cases h
  | tree t =>
    unfold Gen.loadBeamFile
    dsimp only
    unfold Usable
    by_cases hx : t.has "beam_momentum_x" = true
    · rw [if_pos hx]
      have hx' := (has_iff _ _).1 hx
      unfold Gen.loadMomenta
      by_cases ha : momentaBranches.all t.has = true
      · rw [if_neg (by rw [ha]; decide)]
        have ha' := (all_has_iff _ _).1 ha
        dsimp only
        constructor
        · rintro ⟨s', h⟩
          have h := (Prod.mk.inj (Outcome.ok.inj h)).1
          refine ⟨t, rfl, Or.inl ⟨ha', fun h0 => ?_⟩⟩
          exact (((check_iff _).1 h).2 h0).2
        · rintro ⟨t', h, hu⟩
          have h := File.tree.inj h
          subst h
          rcases hu with ⟨_, hu⟩ | ⟨hu, _⟩
          · refine ⟨_, congrArg Outcome.ok (Prod.ext ?_ rfl)⟩
            rw [check_iff]
            exact ⟨Or.inl rfl, fun h0 => ⟨if_neg h0, hu h0⟩⟩
          · exact absurd hx' hu
      · rw [if_pos (by rw [Bool.not_eq_true] at ha; rw [ha]; decide)]
        constructor
        · rintro ⟨s', h⟩; cases h
        · rintro ⟨t', h, hu⟩
          have h := File.tree.inj h
          subst h
          rcases hu with ⟨hu, _⟩ | ⟨hu, _⟩
          · exact absurd ((all_has_iff _ _).2 hu) ha
          · exact absurd hx' hu
    · rw [if_neg hx]
      have hx' : "beam_momentum_x" ∉ t.branches := fun h => hx ((has_iff _ _).2 h)
      by_cases hd : t.has "beam_dXdZ" = true
      · rw [if_pos hd]
        unfold Gen.loadInclinations
        by_cases ha : inclinationBranches.all t.has = true
        · rw [if_neg (by rw [ha]; decide)]
          have ha' := (all_has_iff _ _).1 ha
          dsimp only
          constructor
          · rintro ⟨s', h⟩
            have h := (Prod.mk.inj (Outcome.ok.inj h)).1
            refine ⟨t, rfl, Or.inr ⟨hx', ha', ?_⟩⟩
            by_contra h0
            cases (((check_iff _).1 h).2 h0).1
          · rintro ⟨t', h, hu⟩
            have h := File.tree.inj h
            subst h
            rcases hu with ⟨hu, _⟩ | ⟨_, _, hu⟩
            · exact absurd (hu _ mem_mx) hx'
            · refine ⟨_, congrArg Outcome.ok (Prod.ext ?_ rfl)⟩
              rw [check_iff]
              exact ⟨Or.inl rfl, fun h0 => absurd hu h0⟩
        · rw [if_pos (by rw [Bool.not_eq_true] at ha; rw [ha]; decide)]
          constructor
          · rintro ⟨s', h⟩; cases h
          · rintro ⟨t', h, hu⟩
            have h := File.tree.inj h
            subst h
            rcases hu with ⟨hu, _⟩ | ⟨_, hu, _⟩
            · exact absurd (hu _ mem_mx) hx'
            · exact absurd ((all_has_iff _ _).2 hu) ha
      · rw [if_neg hd]
        constructor
        · rintro ⟨s', h⟩
          have h := (Prod.mk.inj (Outcome.ok.inj h)).1
          cases h
        · rintro ⟨t', h, hu⟩
          have h := File.tree.inj h
          subst h
          rcases hu with ⟨hu, _⟩ | ⟨_, hu, _⟩
          · exact absurd (hu _ mem_mx) hx'
          · exact absurd ((has_iff _ _).2 (hu _ mem_dx)) hd

/-- after a successful load the generator reads from the tree of that file; momenta are used if the tree has them. -/
theorem load_linked (s s' : Gen) (name : String) (t : Tree) (h : s.loadBeamFile name (.tree t) = .ok (true, s')) :
    Linked s' t ∧ s'.fileName = name ∧ s'.current = s.current ∧ s'.sequential = s.sequential ∧ s'.takeZ = s.takeZ ∧ s'.scale = s.scale ∧
    (s'.mode = if "beam_momentum_x" ∈ t.branches then (if s.pdfMean = 0 then .momenta else .momentaCorrected) else .inclinations) ∧
    (s'.sigmasPresent = true ↔ "beam_momentum_x" ∉ t.branches ∨ ∀ b ∈ sigmaBranches, b ∈ t.branches) := by
  unfold Gen.loadBeamFile at h
  dsimp only at h
  by_cases hx : t.has "beam_momentum_x" = true
  · rw [if_pos hx] at h
    have hx' := (has_iff _ _).1 hx
    unfold Gen.loadMomenta at h
    by_cases ha : momentaBranches.all t.has = true
    · rw [if_neg (by rw [ha]; decide)] at h
      have h := (Prod.mk.inj (Outcome.ok.inj h)).2
      subst h
      dsimp only
      refine ⟨⟨rfl, rfl, fun hz => ?_, ?_, ?_, fun _ => rfl⟩, rfl, rfl, rfl, rfl, rfl, ?_, ?_⟩
      · show (if t.has "vertex_z_position" = true then s.row else _).vz = 0
        rw [if_neg (by rw [hz]; decide)]
      · show (if s.pdfMean = 0 then Mode.momenta else Mode.momentaCorrected) ≠ Mode.simple
        split_ifs <;> decide
      · show false = decide ((if s.pdfMean = 0 then Mode.momenta else Mode.momentaCorrected) = Mode.inclinations)
        split_ifs <;> decide
      · rw [if_pos hx']
      · exact (all_has_iff _ _).trans ⟨Or.inr, fun h => h.resolve_left (not_not.2 hx')⟩
    · rw [if_pos (by rw [Bool.not_eq_true] at ha; rw [ha]; decide)] at h
      cases h
  · rw [if_neg hx] at h
    have hx' : "beam_momentum_x" ∉ t.branches := fun h => hx ((has_iff _ _).2 h)
    by_cases hd : t.has "beam_dXdZ" = true
    · rw [if_pos hd] at h
      unfold Gen.loadInclinations at h
      by_cases ha : inclinationBranches.all t.has = true
      · rw [if_neg (by rw [ha]; decide)] at h
        have h := (Prod.mk.inj (Outcome.ok.inj h)).2
        subst h
        dsimp only
        have hz : t.has "vertex_z_position" = true := (has_iff _ _).2 ((all_has_iff _ _).1 ha _ (by decide))
        refine ⟨⟨rfl, hz.symm, fun h => ?_, Mode.noConfusion, rfl, fun h => absurd rfl h⟩, rfl, rfl, rfl, rfl, rfl, ?_, ?_⟩
        · rw [hz] at h; cases h
        · rw [if_neg hx']
        · exact ⟨fun _ => Or.inl hx', fun _ => rfl⟩
      · rw [if_pos (by rw [Bool.not_eq_true] at ha; rw [ha]; decide)] at h
        cases h
    · rw [if_neg hd] at h
      have h := (Prod.mk.inj (Outcome.ok.inj h)).1
      cases h

/-- **a missing branch is undefined behaviour** (the tree is deleted after the file that owns it), although an error is reported. -/
theorem load_ub_iff (s : Gen) (name : String) (f : File) : s.loadBeamFile name f = .ub ↔ ∃ t, f = .tree t ∧
    (("beam_momentum_x" ∈ t.branches ∧ ¬ ∀ b ∈ momentaBranches, b ∈ t.branches) ∨
     ("beam_momentum_x" ∉ t.branches ∧ "beam_dXdZ" ∈ t.branches ∧ ¬ ∀ b ∈ inclinationBranches, b ∈ t.branches)) := by
  cases f with
  | missing => exact ⟨fun h => (by cases h), fun ⟨t, h, _⟩ => (by cases h)⟩
  | noTree => exact ⟨fun h => (by cases h), fun ⟨t, h, _⟩ => (by cases h)⟩
  | tree t =>
    have key : ∀ P : Prop, (∃ t', File.tree t = File.tree t' ∧ (("beam_momentum_x" ∈ t'.branches ∧ ¬ ∀ b ∈ momentaBranches, b ∈ t'.branches) ∨
     ("beam_momentum_x" ∉ t'.branches ∧ "beam_dXdZ" ∈ t'.branches ∧ ¬ ∀ b ∈ inclinationBranches, b ∈ t'.branches))) ↔
     (("beam_momentum_x" ∈ t.branches ∧ ¬ ∀ b ∈ momentaBranches, b ∈ t.branches) ∨
     ("beam_momentum_x" ∉ t.branches ∧ "beam_dXdZ" ∈ t.branches ∧ ¬ ∀ b ∈ inclinationBranches, b ∈ t.branches)) := fun _ =>
      ⟨fun ⟨t', h, h2⟩ => (by have h := File.tree.inj h; subst h; exact h2), fun h => ⟨t, rfl, h⟩⟩
    rw [key True]
    rw [← all_has_iff, ← all_has_iff, ← has_iff, ← has_iff]
    unfold Gen.loadBeamFile
    dsimp only
    by_cases hx : t.has "beam_momentum_x" = true
    · rw [if_pos hx]
      unfold Gen.loadMomenta
      by_cases ha : momentaBranches.all t.has = true
      · rw [if_neg (by rw [ha]; decide)]
        exact ⟨fun h => (by cases h), fun h => (by rcases h with h | h; exacts [absurd ha h.2, absurd hx h.1])⟩
      · rw [if_pos (by rw [Bool.not_eq_true] at ha; rw [ha]; decide)]
        exact ⟨fun _ => Or.inl ⟨hx, ha⟩, fun _ => rfl⟩
    · rw [if_neg hx]
      by_cases hd : t.has "beam_dXdZ" = true
      · rw [if_pos hd]
        unfold Gen.loadInclinations
        by_cases ha : inclinationBranches.all t.has = true
        · rw [if_neg (by rw [ha]; decide)]
          exact ⟨fun h => (by cases h), fun h => (by rcases h with h | h; exacts [absurd h.1 hx, absurd ha h.2.2])⟩
        · rw [if_pos (by rw [Bool.not_eq_true] at ha; rw [ha]; decide)]
          exact ⟨fun _ => Or.inr ⟨hx, hd, ha⟩, fun _ => rfl⟩
      · rw [if_neg hd]
        exact ⟨fun h => (by cases h), fun h => (by rcases h with h | h; exacts [absurd h.1 hx, absurd h.2.1 hd])⟩

/-! ### reading entries -/

/-- what computing vertex and beam leaves as it is. -/
structure Frame (s s' : Gen) : Prop where
  htree : s'.tree = s.tree
  hlinks : s'.linkZ = s.linkZ ∧ s'.linkSigma = s.linkSigma ∧ s'.linkIncl = s.linkIncl
  hrest : s'.current = s.current ∧ s'.sequential = s.sequential ∧ s'.mode = s.mode ∧ s'.sigmasPresent = s.sigmasPresent
  hset : s'.scale = s.scale ∧ s'.takeZ = s.takeZ ∧ s'.fileName = s.fileName ∧ s'.resolution = s.resolution ∧ s'.pdfSigma = s.pdfSigma ∧ s'.pdfMean = s.pdfMean
  hrow : { s'.row with mom := s.row.mom } = s.row
  hmom : s.mode ≠ .momentaCorrected → s'.row.mom = s.row.mom

theorem frame_momenta (s : Gen) (z : ℝ) (g : ℕ → ℝ) : Frame s (s.fromMomenta b z g) := by
  unfold Gen.fromMomenta
  dsimp only
  split_ifs
  · exact ⟨rfl, ⟨rfl, rfl, rfl⟩, ⟨rfl, rfl, rfl, rfl⟩, ⟨rfl, rfl, rfl, rfl, rfl, rfl⟩, rfl, fun _ => rfl⟩
  · exact ⟨rfl, ⟨rfl, rfl, rfl⟩, ⟨rfl, rfl, rfl, rfl⟩, ⟨rfl, rfl, rfl, rfl, rfl, rfl⟩, rfl, fun _ => rfl⟩

theorem frame_incl (s : Gen) (z : ℝ) (g : ℕ → ℝ) : Frame s (s.fromInclinations eig b z g) :=
  ⟨rfl, ⟨rfl, rfl, rfl⟩, ⟨rfl, rfl, rfl, rfl⟩, ⟨rfl, rfl, rfl, rfl, rfl, rfl⟩, rfl, fun _ => rfl⟩

theorem frame_corrected (s : Gen) (z : ℝ) (g : ℕ → ℝ) (h : s.mode = .momentaCorrected) : Frame s (s.fromMomentaCorrected b z g) :=
  ⟨rfl, ⟨rfl, rfl, rfl⟩, ⟨rfl, rfl, rfl, rfl⟩, ⟨rfl, rfl, rfl, rfl, rfl, rfl⟩, rfl, fun h' => absurd h h'⟩

/-- the function that computes vertex and beam in a mode. -/
noncomputable def compute (s : Gen) (z : ℝ) (g : ℕ → ℝ) : Gen :=
  match s.mode with
  | .simple => s
  | .momenta => s.fromMomenta b z g
  | .momentaCorrected => s.fromMomentaCorrected b z g
  | .inclinations => s.fromInclinations eig b z g

theorem frame_compute (s : Gen) (z : ℝ) (g : ℕ → ℝ) : Frame s (compute eig b s z g) := by
  unfold compute
  cases h : s.mode with
  | simple => exact ⟨rfl, ⟨rfl, rfl, rfl⟩, ⟨rfl, rfl, rfl, rfl⟩, ⟨rfl, rfl, rfl, rfl, rfl, rfl⟩, rfl, fun _ => rfl⟩
  | momenta => exact frame_momenta b s z g
  | inclinations => exact frame_incl eig b s z g
  | momentaCorrected => exact frame_corrected b s z g h

theorem getEntry_cases (s : Gen) (t : Tree) (i : ℤ) : ∃ r, s.getEntry t i = { s with row := r } := by
  unfold Gen.getEntry
  by_cases hi : i < 0
  · rw [if_pos hi]; exact ⟨_, rfl⟩
  · rw [if_neg hi]
    cases t.rows[i.toNat]? with
    | none => exact ⟨_, rfl⟩
    | some r => exact ⟨_, rfl⟩

theorem getEntry_mode (s : Gen) (t : Tree) (i : ℤ) : (s.getEntry t i).mode = s.mode := by
  obtain ⟨r, h⟩ := getEntry_cases s t i
  rw [h]

/-- `loadNext` with a tree: the entry, and the entry number kept for the next event. -/
theorem loadNext_eq (s : Gen) (t : Tree) (u : ℝ) (h : s.tree = some t) : s.loadNext u = .ok
    (if s.sequential = true then { s.getEntry t (if (t.rows.length : ℤ) ≤ s.current then 0 else s.current) with
        current := (if (t.rows.length : ℤ) ≤ s.current then 0 else s.current) + 1 }
      else { s.getEntry t (trunc (0 + ((t.rows.length : ℝ) - 0) * u)) with current := trunc (0 + ((t.rows.length : ℝ) - 0) * u) }) := by
  unfold Gen.loadNext
  rw [h]
  dsimp only
  split_ifs <;> rfl

theorem loadNext_frame (s s1 : Gen) (t : Tree) (u : ℝ) (h : s.tree = some t) (hl : s.loadNext u = .ok s1) : ∃ r c, s1 = { s with row := r, current := c } := by
  rw [loadNext_eq s t u h] at hl
  have hl := Outcome.ok.inj hl
  by_cases hs : s.sequential = true
  · rw [if_pos hs] at hl
    obtain ⟨r, e⟩ := getEntry_cases s t (if (t.rows.length : ℤ) ≤ s.current then 0 else s.current)
    rw [e] at hl
    exact ⟨_, _, hl.symm⟩
  · rw [if_neg hs] at hl
    obtain ⟨r, e⟩ := getEntry_cases s t (trunc (0 + ((t.rows.length : ℝ) - 0) * u))
    rw [e] at hl
    exact ⟨_, _, hl.symm⟩

/-- an event from a file: read an entry, choose the position along the beam, compute. -/
theorem event_file (s : Gen) (t : Tree) (r : Randoms) (h : s.tree = some t) (hm : s.mode ≠ .simple) :
    ∃ s1, s.loadNext r.entry = .ok s1 ∧ s1.mode = s.mode ∧ s.event eig tg b r = .ok ((s1.vertexZ tg r.z).map fun z => compute eig b s1 z r.g) := by
  obtain ⟨s1, hs1⟩ : ∃ s1, s1 = (if s.sequential = true then { s.getEntry t (if (t.rows.length : ℤ) ≤ s.current then 0 else s.current) with
        current := (if (t.rows.length : ℤ) ≤ s.current then 0 else s.current) + 1 }
      else { s.getEntry t (trunc (0 + ((t.rows.length : ℝ) - 0) * r.entry)) with current := trunc (0 + ((t.rows.length : ℝ) - 0) * r.entry) }) := ⟨_, rfl⟩
  have hl := loadNext_eq s t r.entry h
  rw [← hs1] at hl
  have hm1 : s1.mode = s.mode := by
    rw [hs1]
    split_ifs <;> exact getEntry_mode _ _ _
  refine ⟨s1, hl, hm1, ?_⟩
  unfold Gen.event compute
  rw [hm1]
  cases hmode : s.mode with
  | simple => exact absurd hmode hm
  | momenta => simp only [Gen.eventFile, hl]; rfl
  | momentaCorrected => simp only [Gen.eventFile, hl]; rfl
  | inclinations => simp only [Gen.eventFile, hl]; rfl

theorem getEntry_holds (s : Gen) (t : Tree) (i : ℕ) (r : Row) (h : Linked s t) (hr : t.rows[i]? = some r) :
    Linked (s.getEntry t i) t ∧ Holds (s.getEntry t i) (t.has "vertex_z_position") r ∧ (s.getEntry t i).sequential = s.sequential := by
  have e : s.getEntry t i = { s with row :=
        { vx := r.vx, vy := r.vy, vz := if s.linkZ then r.vz else s.row.vz,
          px := if s.linkIncl then s.row.px else r.px, py := if s.linkIncl then s.row.py else r.py, pz := if s.linkIncl then s.row.pz else r.pz,
          dxdz := if s.linkIncl then r.dxdz else s.row.dxdz, dydz := if s.linkIncl then r.dydz else s.row.dydz,
          mom := if s.linkIncl then r.mom else s.row.mom,
          vxSigma := if s.linkSigma then r.vxSigma else s.row.vxSigma, vySigma := if s.linkSigma then r.vySigma else s.row.vySigma,
          pxSigma := if s.linkSigma then r.pxSigma else s.row.pxSigma, pySigma := if s.linkSigma then r.pySigma else s.row.pySigma,
          pzSigma := if s.linkSigma then r.pzSigma else s.row.pzSigma, momSigma := if s.linkIncl then r.momSigma else s.row.momSigma,
          cov := if s.linkIncl then r.cov else s.row.cov } } := by
    unfold Gen.getEntry
    rw [if_neg (by omega), Int.toNat_natCast, hr]
  rw [e]
  have hzz : (if s.linkZ = true then r.vz else s.row.vz) = if t.has "vertex_z_position" = true then r.vz else 0 := by
    rw [h.hlinkZ]
    by_cases hz : t.has "vertex_z_position" = true
    · rw [if_pos hz, if_pos hz]
    · rw [if_neg hz, if_neg hz, h.hz0 (by simpa using hz)]
  refine ⟨⟨h.htree, h.hlinkZ, fun hz => ?_, h.hmode, h.hincl, h.hsig⟩, ⟨⟨rfl, rfl⟩, hzz, fun hm => ?_, fun hm hs => ?_, fun hm => ?_⟩, rfl⟩
  · exact hzz.trans (if_neg (by rw [hz]; decide))
  · have : s.linkIncl = false := by rw [h.hincl]; exact decide_eq_false hm
    dsimp only
    rw [this]
    exact ⟨rfl, rfl, rfl⟩
  · have : s.linkSigma = true := by rw [← h.hsig hm]; exact hs
    dsimp only
    rw [this]
    exact ⟨rfl, rfl, rfl, rfl, rfl⟩
  · have : s.linkIncl = true := by rw [h.hincl]; exact decide_eq_true hm
    dsimp only
    rw [this]
    exact ⟨rfl, rfl, rfl, rfl, rfl⟩

theorem Frame.row_eq {s s' : Gen} (h : Frame s s') : s'.row = { s.row with mom := s'.row.mom } := by
  rw [← h.hrow]

theorem Frame.linked {s s' : Gen} {t : Tree} (h : Frame s s') (hl : Linked s t) : Linked s' t := by
  refine ⟨h.htree.trans hl.htree, h.hlinks.1.trans hl.hlinkZ, fun hz => ?_, ?_, ?_, fun hm => ?_⟩
  · rw [h.row_eq]; exact hl.hz0 hz
  · rw [h.hrest.2.2.1]; exact hl.hmode
  · rw [h.hlinks.2.2, h.hrest.2.2.1]; exact hl.hincl
  · rw [h.hrest.2.2.2, h.hlinks.2.1]
    exact hl.hsig (by rw [← h.hrest.2.2.1]; exact hm)

theorem Frame.holds {s s' : Gen} {z : Bool} {r : Row} (h : Frame s s') (hl : Holds s z r) : Holds s' z r := by
  have e := h.row_eq
  refine ⟨?_, ?_, fun hm => ?_, fun hm hs => ?_, fun hm => ?_⟩
  · rw [e]; exact hl.hx
  · rw [e]; exact hl.hz
  · rw [e]; exact hl.hp (by rw [← h.hrest.2.2.1]; exact hm)
  · rw [e]; exact hl.hsigma (by rw [← h.hrest.2.2.1]; exact hm) (by rw [← h.hrest.2.2.2]; exact hs)
  · have hm' : s.mode = .inclinations := by rw [← h.hrest.2.2.1]; exact hm
    have := hl.hincl hm'
    rw [e, h.hmom (by rw [hm']; decide)]
    exact this

/-- one event of sequential reading. -/
theorem event_sequential (s s' : Gen) (t : Tree) (r : Randoms) (h : Linked s t) (hseq : s.sequential = true) (hn : 0 < t.rows.length)
    (hc : 0 ≤ s.current ∧ s.current ≤ t.rows.length) (he : s.event eig tg b r = .ok (some s')) :
    Linked s' t ∧ s'.sequential = true ∧ s'.current = s.current % t.rows.length + 1 ∧
    ∃ row, t.rows[(s.current % t.rows.length).toNat]? = some row ∧ Holds s' (t.has "vertex_z_position") row := by
  obtain ⟨s1, hl, hm, e⟩ := event_file eig tg b s t r h.htree h.hmode
  rw [e] at he
  obtain ⟨z, hz, hs'⟩ := Option.map_eq_some_iff.1 (Outcome.ok.inj he)
  have hF := frame_compute eig b s1 z r.g
  rw [hs'] at hF
  have hidx : (if (t.rows.length : ℤ) ≤ s.current then 0 else s.current) = ((s.current % t.rows.length).toNat : ℤ) := by
    rw [Int.toNat_of_nonneg (Int.emod_nonneg _ (by omega))]
    split_ifs with h'
    · have : s.current = t.rows.length := by omega
      rw [this, Int.emod_self]
    · rw [Int.emod_eq_of_lt hc.1 (by omega)]
  have hlt : (s.current % t.rows.length).toNat < t.rows.length := by
    have := Int.emod_lt_of_pos s.current (b := (t.rows.length : ℤ)) (by omega)
    have := Int.emod_nonneg s.current (b := (t.rows.length : ℤ)) (by omega)
    omega
  obtain ⟨row, hrow⟩ : ∃ row, t.rows[(s.current % t.rows.length).toNat]? = some row := ⟨_, List.getElem?_eq_getElem hlt⟩
  rw [loadNext_eq s t _ h.htree, if_pos hseq, hidx] at hl
  have hl := (Outcome.ok.inj hl).symm
  obtain ⟨a1, a2, a3⟩ := getEntry_holds s t _ row h hrow
  have b1 : Linked s1 t := by rw [hl]; exact ⟨a1.htree, a1.hlinkZ, a1.hz0, a1.hmode, a1.hincl, a1.hsig⟩
  have b2 : Holds s1 (t.has "vertex_z_position") row := by rw [hl]; exact ⟨a2.hx, a2.hz, a2.hp, a2.hsigma, a2.hincl⟩
  refine ⟨hF.linked b1, ?_, ?_, row, hrow, hF.holds b2⟩
  · rw [hF.hrest.2.1, hl]; exact a3.trans hseq
  · rw [hF.hrest.1, hl]
    show ((s.current % t.rows.length).toNat : ℤ) + 1 = _
    rw [Int.toNat_of_nonneg (Int.emod_nonneg _ (by omega))]

/-- **sequential reading**: the event number `k` (from 0) after the start at entry `c` uses entry `(c + k) mod n`, for every number of events. -/
theorem run_sequential (t : Tree) (hn : 0 < t.rows.length) (rs : List Randoms) : ∀ (s s' : Gen), Linked s t → s.sequential = true →
    0 ≤ s.current ∧ s.current ≤ t.rows.length → rs ≠ [] → Gen.run eig tg b s rs = .ok (some s') →
    ∃ row, t.rows[((s.current + (rs.length - 1 : ℕ)) % t.rows.length).toNat]? = some row ∧ Holds s' (t.has "vertex_z_position") row := by
  induction rs with
  | nil => intro s s' _ _ _ h; exact absurd rfl h
  | cons r rs ih =>
    intro s s' hl hs hc _ hr
    unfold Gen.run at hr
    cases he : s.event eig tg b r with
    | ok o =>
      rw [he] at hr
      cases o with
      | none => cases Outcome.ok.inj hr
      | some s1 =>
        dsimp only at hr
        obtain ⟨a1, a2, a3, row, a4, a5⟩ := event_sequential eig tg b s s1 t r hl hs hn hc he
        cases rs with
        | nil =>
          have := Option.some.inj (Outcome.ok.inj hr)
          subst this
          refine ⟨row, ?_, a5⟩
          simpa using a4
        | cons r' rs =>
          have m1 := Int.emod_nonneg s.current (b := (t.rows.length : ℤ)) (by omega)
          have m2 := Int.emod_lt_of_pos s.current (b := (t.rows.length : ℤ)) (by omega)
          obtain ⟨row', b1, b2⟩ := ih s1 s' a1 a2 (by rw [a3]; constructor <;> omega) (by simp) hr
          refine ⟨row', ?_, b2⟩
          rw [a3] at b1
          rw [← b1]
          congr 2
          simp only [List.length_cons, Nat.add_sub_cancel]
          push_cast
          rw [add_assoc, Int.emod_add_emod]
          congr 1
          ring
    | ub => rw [he] at hr; cases hr
    | terminate => rw [he] at hr; cases hr

/-- **random reading**: the entry is chosen by the random number, whatever was read before. -/
theorem event_random (s s' : Gen) (t : Tree) (r : Randoms) (h : Linked s t) (hseq : s.sequential = false) (hu : 0 ≤ r.entry ∧ r.entry < 1)
    (hn : 0 < t.rows.length) (he : s.event eig tg b r = .ok (some s')) :
    ∃ row, t.rows[⌊t.rows.length * r.entry⌋₊]? = some row ∧ Holds s' (t.has "vertex_z_position") row ∧ Linked s' t := by
  obtain ⟨s1, hl, hm, e⟩ := event_file eig tg b s t r h.htree h.hmode
  rw [e] at he
  obtain ⟨z, hz, hs'⟩ := Option.map_eq_some_iff.1 (Outcome.ok.inj he)
  have hF := frame_compute eig b s1 z r.g
  rw [hs'] at hF
  have hn' : (0 : ℝ) < t.rows.length := by exact_mod_cast hn
  have h0 : 0 ≤ (t.rows.length : ℝ) * r.entry := mul_nonneg hn'.le hu.1
  have hidx : trunc (0 + ((t.rows.length : ℝ) - 0) * r.entry) = (⌊t.rows.length * r.entry⌋₊ : ℕ) := by
    rw [zero_add, sub_zero]
    unfold trunc
    rw [if_pos h0, Int.natCast_floor_eq_floor h0]
  have hlt : ⌊t.rows.length * r.entry⌋₊ < t.rows.length := (Nat.floor_lt h0).2 (by nlinarith)
  obtain ⟨row, hrow⟩ : ∃ row, t.rows[⌊t.rows.length * r.entry⌋₊]? = some row := ⟨_, List.getElem?_eq_getElem hlt⟩
  rw [loadNext_eq s t _ h.htree, if_neg (by rw [hseq]; decide), hidx] at hl
  have hl := (Outcome.ok.inj hl).symm
  obtain ⟨a1, a2, a3⟩ := getEntry_holds s t _ row h hrow
  have b1 : Linked s1 t := by rw [hl]; exact ⟨a1.htree, a1.hlinkZ, a1.hz0, a1.hmode, a1.hincl, a1.hsig⟩
  have b2 : Holds s1 (t.has "vertex_z_position") row := by rw [hl]; exact ⟨a2.hx, a2.hz, a2.hp, a2.hsigma, a2.hincl⟩
  exact ⟨row, hrow, hF.holds b2, hF.linked b1⟩

/-- every entry has the same probability. -/
theorem random_uniform (n i : ℕ) (hi : i < n) : volume {u : ℝ | (0 < u ∧ u < 1) ∧ trunc (0 + ((n : ℝ) - 0) * u) = i} = ENNReal.ofReal (1 / n) := by
  have hn : (0 : ℝ) < n := by exact_mod_cast (by omega : 0 < n)
  have key : ∀ u : ℝ, 0 < u → (trunc (0 + ((n : ℝ) - 0) * u) = i ↔ (i : ℝ) / n ≤ u ∧ u < (i + 1) / n) := by
    intro u hu
    have h0 : 0 ≤ (n : ℝ) * u := (mul_pos hn hu).le
    rw [zero_add, sub_zero]
    unfold trunc
    rw [if_pos h0, Int.floor_eq_iff, div_le_iff₀ hn, lt_div_iff₀ hn, mul_comm u]
    push_cast
    rfl
  have hle : ((i : ℝ) + 1) / n ≤ 1 := by
    rw [div_le_one hn]; exact_mod_cast hi
  have g1 : Ioo ((i : ℝ) / n) ((i + 1) / n) ⊆ {u : ℝ | (0 < u ∧ u < 1) ∧ trunc (0 + ((n : ℝ) - 0) * u) = i} := by
    intro u hu
    have h0 : 0 < u := lt_of_le_of_lt (by positivity) hu.1
    exact ⟨⟨h0, lt_of_lt_of_le hu.2 hle⟩, (key u h0).2 ⟨hu.1.le, hu.2⟩⟩
  have g2 : {u : ℝ | (0 < u ∧ u < 1) ∧ trunc (0 + ((n : ℝ) - 0) * u) = i} ⊆ Icc ((i : ℝ) / n) ((i + 1) / n) := by
    intro u hu
    have := (key u hu.1.1).1 hu.2
    exact ⟨this.1, this.2.le⟩
  have hd : ((i : ℝ) + 1) / n - i / n = 1 / n := by ring
  refine le_antisymm ((measure_mono g2).trans ?_) (le_trans ?_ (measure_mono g1))
  · rw [Real.volume_Icc, hd]
  · rw [Real.volume_Ioo, hd]

/-- **a random start** is an entry of the file. -/
theorem randomizeStart_range (s : Gen) (t : Tree) (u : ℝ) (h : s.tree = some t) (hn : 0 < t.rows.length) (hu : 0 < u ∧ u < 1) :
    ∃ s', s.randomizeStart u = .ok s' ∧ 0 ≤ s'.current ∧ s'.current < t.rows.length ∧ s' = { s with current := s'.current } := by
  unfold Gen.randomizeStart
  rw [h]
  have hn' : (0 : ℝ) < t.rows.length := by exact_mod_cast hn
  have h0 : 0 ≤ -(-(t.rows.length : ℝ) + (0 - -(t.rows.length : ℝ)) * u) := by nlinarith [hu.2]
  refine ⟨_, rfl, ?_, ?_, rfl⟩
  · show 0 ≤ trunc _
    unfold trunc
    rw [if_pos h0]
    exact Int.floor_nonneg.2 h0
  · show trunc _ < _
    unfold trunc
    rw [if_pos h0, Int.floor_lt]
    push_cast
    nlinarith [mul_pos hn' hu.1]

/-- **no event after a successful load is undefined**, whatever was generated before. -/
theorem run_defined (t : Tree) (rs : List Randoms) : ∀ s : Gen, s.tree = some t → s.mode ≠ .simple → ∃ o, Gen.run eig tg b s rs = .ok o := by
  induction rs with
  | nil => intro s _ _; exact ⟨_, rfl⟩
  | cons r rs ih =>
    intro s ht hm
    obtain ⟨s1, hl, hm1, e⟩ := event_file eig tg b s t r ht hm
    unfold Gen.run
    rw [e]
    cases hv : s1.vertexZ tg r.z with
    | none => exact ⟨_, rfl⟩
    | some z =>
      have hF := frame_compute eig b s1 z r.g
      have ht1 : s1.tree = some t := by
        obtain ⟨r1, c, e1⟩ := loadNext_frame s s1 t _ ht hl
        rw [e1]
        exact ht
      exact ih _ (hF.htree.trans ht1) (by rw [hF.hrest.2.2.1, hm1]; exact hm)

/-- an event from a file that was loaded, without position along the beam from the data, lies within the target along the beam. -/
theorem vertexZ_inTarget (s : Gen) (us : List ℝ) (z : ℝ) (hz : s.takeZ = false) (htau : 0 ≤ tg.interactionLength) (hu : ∀ u ∈ us, 0 < u ∧ u < 1)
    (h : s.vertexZ tg us = some z) : tg.posZ - tg.length / 2 ≤ z ∧ z ≤ tg.posZ + tg.length / 2 := by
  unfold Gen.vertexZ at h
  rw [if_neg (by rw [hz]; decide)] at h
  obtain ⟨d, hd, rfl⟩ := Option.map_eq_some_iff.1 h
  obtain ⟨pre, u, post, e1, _, e3, e4⟩ := (expLoop_iff _ _ _ _).1 hd
  have hu' := hu u (by rw [e1]; simp)
  have hd0 : 0 ≤ d := by
    rw [e3, neg_mul, ← mul_neg]
    exact mul_nonneg htau (neg_nonneg.2 (Real.log_neg hu'.1 hu'.2).le)
  constructor <;> linarith

/-- **end to end**: sequential reading of a file with momenta and without smearing: the beam of the event number `k` has the momentum of entry `(c + k) mod n`. -/
theorem run_sequential_beam (t : Tree) (hn : 0 < t.rows.length) (rs : List Randoms) (r : Randoms) (s s' : Gen) (hl : Linked s t) (hs : s.sequential = true)
    (hm : s.mode = .momenta) (hsm : s.sigmasPresent = false) (hb : 0 ≤ b.mass)
    (hc : 0 ≤ s.current ∧ s.current ≤ t.rows.length) (h : Gen.run eig tg b s (rs ++ [r]) = .ok (some s')) :
    ∃ row, t.rows[((s.current + rs.length) % t.rows.length).toNat]? = some row ∧ OnShell b.mass s'.beam ∧
      s'.beam.x = row.px ∧ s'.beam.y = row.py ∧ s'.beam.z = row.pz ∧
      OnLine row.vx row.vy (if "vertex_z_position" ∈ t.branches then row.vz else 0) (row.px / row.pz) (row.py / row.pz) s'.vertex := by
  obtain ⟨row, h1, h2⟩ := run_sequential eig tg b t hn (rs ++ [r]) s s' hl hs hc (by simp) h
  refine ⟨row, ?_, ?_⟩
  · rw [← h1]; simp
  -- the last event
  have hmodes : ∀ (rs : List Randoms) (s s' : Gen), Linked s t → s.mode = .momenta → s.sigmasPresent = false → Gen.run eig tg b s (rs ++ [r]) = .ok (some s') →
      ∃ (s1 : Gen) (z : ℝ), s1.mode = .momenta ∧ s1.sigmasPresent = false ∧ s' = s1.fromMomenta b z r.g := by
    intro rs
    induction rs with
    | nil =>
      intro s s' hl hm hsm h
      obtain ⟨s1, e1, e2, e3⟩ := event_file eig tg b s t r hl.htree hl.hmode
      simp only [List.nil_append, Gen.run, e3] at h
      cases hv : s1.vertexZ tg r.z with
      | none => rw [hv] at h; cases Outcome.ok.inj h
      | some z =>
        rw [hv] at h
        have h := Option.some.inj (Outcome.ok.inj h)
        refine ⟨s1, z, e2.trans hm, ?_, ?_⟩
        · obtain ⟨r1, c, e4⟩ := loadNext_frame s s1 t _ hl.htree e1
          rw [e4]
          exact hsm
        · rw [← h]
          unfold compute
          rw [e2, hm]
    | cons r0 rs ih =>
      intro s s' hl hm hsm h
      obtain ⟨s1, e1, e2, e3⟩ := event_file eig tg b s t r0 hl.htree hl.hmode
      simp only [List.cons_append, Gen.run, e3] at h
      cases hv : s1.vertexZ tg r0.z with
      | none => rw [hv] at h; cases Outcome.ok.inj h
      | some z =>
        rw [hv] at h
        simp only [Option.map_some] at h
        have hF := frame_compute eig b s1 z r0.g
        have hrest : s1.sigmasPresent = s.sigmasPresent ∧ Linked s1 t := by
          rw [loadNext_eq s t _ hl.htree] at e1
          rw [← Outcome.ok.inj e1]
          have hg : ∀ i, (s.getEntry t i).sigmasPresent = s.sigmasPresent ∧ Linked (s.getEntry t i) t := by
            intro i
            by_cases hi : i < 0
            · unfold Gen.getEntry; rw [if_pos hi]; exact ⟨rfl, hl⟩
            · obtain ⟨j, rfl⟩ := Int.eq_ofNat_of_zero_le (not_lt.1 hi)
              cases hr : t.rows[j]? with
              | none =>
                have : s.getEntry t j = s := by
                  unfold Gen.getEntry; rw [if_neg hi, Int.toNat_natCast, hr]
                rw [this]; exact ⟨rfl, hl⟩
              | some row =>
                refine ⟨?_, (getEntry_holds s t j row hl hr).1⟩
                unfold Gen.getEntry; rw [if_neg hi, Int.toNat_natCast, hr]
          by_cases hq : s.sequential = true
          · rw [if_pos hq]
            exact ⟨(hg _).1, ⟨(hg _).2.htree, (hg _).2.hlinkZ, (hg _).2.hz0, (hg _).2.hmode, (hg _).2.hincl, (hg _).2.hsig⟩⟩
          · rw [if_neg hq]
            exact ⟨(hg _).1, ⟨(hg _).2.htree, (hg _).2.hlinkZ, (hg _).2.hz0, (hg _).2.hmode, (hg _).2.hincl, (hg _).2.hsig⟩⟩
        exact ih _ s' (hF.linked hrest.2) (by rw [hF.hrest.2.2.1, e2]; exact hm) (by rw [hF.hrest.2.2.2, hrest.1]; exact hsm) h
  obtain ⟨s1, z, m1, m2, e⟩ := hmodes rs s s' hl hm hsm h
  obtain ⟨a1, a2, a3, a4, a5, a6⟩ := fromMomenta_exact s1 b z r.g hb (Or.inl m2)
  have hF := frame_momenta b s1 z r.g
  rw [← e] at a1 a2 a3 a4 a5 a6 hF
  have hrow : s'.row = s1.row := by
    have := hF.hmom (by rw [m1]; decide)
    rw [hF.row_eq, this]
  rw [← hrow] at a2 a3 a4 a6
  have hp := h2.hp (by rw [hF.hrest.2.2.1, m1]; decide)
  have hz := h2.hz
  have hz' : (if t.has "vertex_z_position" = true then row.vz else 0) = if "vertex_z_position" ∈ t.branches then row.vz else 0 :=
    if_congr (has_iff _ _) rfl rfl
  rw [hz'] at hz
  rw [h2.hx.1, h2.hx.2, hz, hp.1, hp.2.1, hp.2.2] at a6
  exact ⟨a1, a2.trans hp.1, a3.trans hp.2.1, a4.trans hp.2.2, a6⟩

end Rpwa.BeamGen
