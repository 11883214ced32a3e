import Verif.Props.GeneratorManagerRead
import Verif.Props.GeneratorEvent
import Verif.Props.BeamVertexRun
/-! # C69: events from the manager -/
namespace Rpwa.Mgr

open Rpwa.Pick (Cfg Group Ranges)
open Rpwa.Gen (V3 LV Diff PS Ready Rnd RndsOk)
open Rpwa.BeamGen (OnShell)

variable {P : Type}

/-! ### sums of four-momenta -/

theorem lv_assoc (a b c : LV) : a + b + c = a + (b + c) := by ext <;> simp [add_assoc]
theorem lv_add_zero (a : LV) : a + 0 = a := by
  ext
  · exact add_zero a.x
  · exact add_zero a.y
  · exact add_zero a.z
  · exact add_zero a.t

theorem foldr_add (l : List LV) (a : LV) : l.foldr (· + ·) a = sumLV l + a := by
  induction l with
  | nil =>
    show a = 0 + a
    ext
    · exact (zero_add a.x).symm
    · exact (zero_add a.y).symm
    · exact (zero_add a.z).symm
    · exact (zero_add a.t).symm
  | cons b l ih =>
    show b + l.foldr (· + ·) a = b + sumLV l + a
    rw [ih, lv_assoc]

theorem sum_total (ds : ℕ → LV) (n : ℕ) : sumLV ((List.range (n + 1)).map ds) = Gen.Spec.total ds n := by
  induction n with
  | zero =>
    show ds 0 + 0 = ds 0
    exact lv_add_zero _
  | succ n ih =>
    rw [List.range_succ, List.map_append]
    unfold sumLV
    rw [List.foldr_append, foldr_add, ih]
    show _ + (ds (n + 1) + 0) = _ + ds (n + 1)
    rw [lv_add_zero]

theorem zip_fst {A : Type} (l : List A) (ds : ℕ → LV) : (l.zipIdx.map fun p => (p.1, ds p.2)).map Prod.fst = l := by
  rw [List.map_map]
  have : (Prod.fst ∘ fun p : A × ℕ => (p.1, ds p.2)) = Prod.fst := rfl
  rw [this]
  exact List.zipIdx_map_fst 0 l

theorem zip_snd {A : Type} (l : List A) (ds : ℕ → LV) : (l.zipIdx.map fun p => (p.1, ds p.2)).map Prod.snd = (List.range l.length).map ds := by
  rw [List.map_map]
  have : (Prod.snd ∘ fun p : A × ℕ => (p.1, ds p.2)) = ds ∘ Prod.snd := rfl
  rw [this, ← List.map_map, List.zipIdx_map_snd, List.range_eq_range']

/-! ### the beam particle -/

theorem bv_onShell (eig : (Fin 4 → Fin 4 → ℝ) → (Fin 4 → ℝ) × (Fin 4 → Fin 4 → ℝ)) (s s' : BeamGen.Gen) (tg : BeamGen.Target) (b : BeamGen.Beam)
    (r : BeamGen.Randoms) (hm : 0 ≤ b.mass) (h : s.event eig tg b r = .ok (some s')) : OnShell b.mass s'.beam := by
  have file : ∀ f : BeamGen.Gen → ℝ → BeamGen.Gen, (∀ s z, OnShell b.mass (f s z).beam) → s.eventFile f tg r = .ok (some s') → OnShell b.mass s'.beam := by
    intro f hf h
    unfold BeamGen.Gen.eventFile at h
    obtain ⟨s1, _, h⟩ := (Pick.bind_ok_iff _ _ _).1 h
    obtain ⟨z, _, rfl⟩ := Option.map_eq_some_iff.1 (Outcome.ok.inj h)
    exact hf s1 z
  unfold BeamGen.Gen.event at h
  cases hmode : s.mode with
  | simple =>
    rw [hmode] at h
    have h := Outcome.ok.inj h
    unfold BeamGen.Gen.eventSimple at h
    obtain ⟨z, _, rfl⟩ := Option.map_eq_some_iff.1 h
    dsimp only
    refine ⟨?_, Real.sqrt_nonneg _⟩
    generalize b.momentum + b.momentumSigma * r.g 0 = p
    generalize b.dxdz + b.dxdzSigma * r.g 1 = dx
    generalize b.dydz + b.dydzSigma * r.g 2 = dy
    unfold LV.m2
    dsimp only
    rw [Real.mul_self_sqrt (add_nonneg (mul_self_nonneg _) (mul_self_nonneg _))]
    have hpos : 0 < 1 + dx * dx + dy * dy := by nlinarith only [mul_self_nonneg dx, mul_self_nonneg dy]
    obtain ⟨q, hq⟩ : ∃ q, q = Real.sqrt (1 + dx * dx + dy * dy) := ⟨_, rfl⟩
    have hq0 : 0 < q := by rw [hq]; exact Real.sqrt_pos.2 hpos
    have hq2 : q * q = 1 + dx * dx + dy * dy := by rw [hq]; exact Real.mul_self_sqrt hpos.le
    rw [← hq]
    obtain ⟨w, hw⟩ : ∃ w, w = p / q := ⟨_, rfl⟩
    have hp : p = w * q := by rw [hw, div_mul_cancel₀ _ hq0.ne']
    rw [← hw, hp]
    linear_combination w ^ 2 * hq2
  | momenta =>
    rw [hmode] at h
    refine file _ (fun s z => ?_) h
    unfold BeamGen.Gen.fromMomenta
    dsimp only
    split
    · exact (BeamGen.setXYZM_spec _ _ _ _ hm).1
    · exact (BeamGen.setXYZM_spec _ _ _ _ hm).1
  | momentaCorrected =>
    rw [hmode] at h
    exact file _ (fun s z => (BeamGen.setXYZM_spec _ _ _ _ hm).1) h
  | inclinations =>
    rw [hmode] at h
    exact file _ (fun s z => (BeamGen.setXYZM_spec _ _ _ _ hm).1) h

/-! ### mass and t' -/

theorem pickLoop_spec (eps : ℝ) (p : Picker) (mr sqrtS : ℝ) (x : ℝ × ℝ) : ∀ rs : List PickRandoms, pickLoop eps p mr sqrtS rs = .ok (some x) →
    (∃ r ∈ rs, p.pick eps r = .ok (some (some x))) ∧ x.1 + mr ≤ sqrtS ∧ 0 ≤ x.2 := by
  intro rs
  induction rs with
  | nil => intro h; cases h
  | cons r rs ih =>
    intro h
    unfold pickLoop at h
    obtain ⟨o, ho, h⟩ := (Pick.bind_ok_iff _ _ _).1 h
    match o, ho, h with
    | none, _, h => cases h
    | some none, _, h => cases h
    | some (some y), ho, h =>
      dsimp only at h
      by_cases hc : y.1 + mr > sqrtS ∨ y.2 < 0
      · rw [if_pos hc] at h
        obtain ⟨⟨r', hr', e⟩, h2⟩ := ih h
        exact ⟨⟨r', List.mem_cons_of_mem _ hr', e⟩, h2⟩
      · rw [if_neg hc] at h
        cases h
        push Not at hc
        exact ⟨⟨r, List.mem_cons_self, ho⟩, hc.1, hc.2⟩

/-- uniform random numbers; the mass from `TF1::GetRandom` is in the mass range. -/
def PickOk (p : Picker) (r : PickRandoms) : Prop :=
  (0 < r.mass ∧ r.mass < 1) ∧ p.ranges.massLo ≤ r.polyMass ∧ r.polyMass ≤ p.ranges.massHi

theorem pick_mass (eps : ℝ) (p : Picker) (r : PickRandoms) (x : ℝ × ℝ) (h : p.pick eps r = .ok (some (some x))) (hr : PickOk p r)
    (hm : p.ranges.massLo ≤ p.ranges.massHi) : p.ranges.massLo ≤ x.1 ∧ x.1 ≤ p.ranges.massHi := by
  have lin : ∀ a b u : ℝ, a ≤ b → 0 < u ∧ u < 1 → a ≤ a + (b - a) * u ∧ a + (b - a) * u ≤ b := by
    intro a b u hab hu
    constructor
    · nlinarith only [mul_nonneg (sub_nonneg.2 hab) hu.1.le]
    · nlinarith only [mul_nonneg (sub_nonneg.2 hab) (sub_nonneg.2 hu.2.le)]
  cases p with
  | exp p =>
    unfold Picker.pick at h
    obtain ⟨y, hy, h⟩ := (Pick.bind_ok_iff _ _ _).1 h
    cases h
    unfold Pick.ExpPicker.pick at hy
    split at hy
    · cases hy
    · obtain ⟨t, _, hy⟩ := (Pick.bind_ok_iff _ _ _).1 hy
      have hy := Outcome.ok.inj hy
      obtain ⟨t', _, rfl⟩ := Option.map_eq_some_iff.1 hy
      exact lin _ _ _ hm hr.1
  | poly p =>
    unfold Picker.pick at h
    dsimp only at h
    split at h
    · cases h
    · cases h
    · cases h
      exact hr.2
  | uniform u =>
    unfold Picker.pick Pick.uniformPick at h
    have h := Option.some.inj (Outcome.ok.inj h)
    split at h
    · cases h
    · cases h
      exact lin _ _ _ hm hr.1

/-! ### an event of the phase-space generator is above threshold -/

theorem attempts_threshold {x xMax mt sqrtS : ℝ} {X : LV} {masses : List ℝ} {tries : List PS.Randoms} {ps : PS} {q : PS × ℕ} (hr : Ready ps masses)
    (htr : ∀ r ∈ tries, Rnd masses.length r) (h : Diff.attempts x xMax mt sqrtS X tries ps = some q) : masses.sum ≤ x := by
  by_contra hx
  cases tries with
  | nil => cases h
  | cons r rs =>
    have hb := Gen.weigh_below hr (not_le.1 hx) (htr r List.mem_cons_self)
    unfold Diff.attempts at h
    dsimp only at h
    rw [hb] at h
    obtain ⟨a, _, h⟩ := Option.bind_eq_some_iff.1 h
    obtain ⟨b, _, h⟩ := Option.bind_eq_some_iff.1 h
    cases h

theorem event_threshold (g : Diff) (masses : List ℝ) (hr : Ready g.ps masses) {beam : LV} {mt mr : ℝ} {x : ℝ × ℝ} {phi : ℝ} {tries : List PS.Randoms}
    (htr : ∀ r ∈ tries, Rnd masses.length r) {ev : Diff.Event} (h : g.event beam mt mr [x] phi tries = some ev) : masses.sum ≤ x.1 := by
  unfold Diff.event at h
  cases hrg : g.range with
  | none => rw [hrg] at h; cases h
  | some p =>
  obtain ⟨lo, xMax⟩ := p
  rw [hrg] at h
  dsimp only at h
  split at h
  · cases h
  obtain ⟨⟨x1, t'⟩, hp, h⟩ := Option.bind_eq_some_iff.1 h
  have hx : (x1, t') = x := by
    have := (Gen.pick_spec hp).1
    simpa using this
  dsimp only at h
  obtain ⟨w, _, h⟩ := Option.bind_eq_some_iff.1 h
  obtain ⟨X, _, h⟩ := Option.bind_eq_some_iff.1 h
  obtain ⟨q, ha, h⟩ := Option.bind_eq_some_iff.1 h
  have hr' : Ready { g.ps with maxWeight := w } masses :=
    ⟨⟨hr.conf.two, hr.conf.nonneg, hr.conf.sums, hr.conf.first⟩, hr.n, hr.m, hr.wt, hr.norm, hr.kin⟩
  have := attempts_threshold hr' htr ha
  rw [← hx]
  exact this

/-! ### the generator stays ready -/

theorem attempts_ready {x xMax mt sqrtS : ℝ} {X : LV} {masses : List ℝ} (hmass : 0 < masses.getD 0 0 + masses.getD 1 0) :
    ∀ (tries : List PS.Randoms) (ps ps' : PS) (k : ℕ), Ready ps masses → (∀ r ∈ tries, Rnd masses.length r) →
      Diff.attempts x xMax mt sqrtS X tries ps = some (ps', k) → Ready ps' masses := by
  intro tries
  induction tries with
  | nil => intro ps ps' k _ _ h; cases h
  | cons r rs ih =>
    intro ps ps' k hr htr h
    have hx := attempts_threshold hr htr h
    obtain ⟨ps1, e1, hr2, _⟩ := Gen.weigh_ready hr hx (Or.inl hmass) (htr r List.mem_cons_self)
    unfold Diff.attempts at h
    dsimp only at h
    rw [e1] at h
    obtain ⟨a, _, h⟩ := Option.bind_eq_some_iff.1 h
    obtain ⟨b, _, h⟩ := Option.bind_eq_some_iff.1 h
    rw [Option.bind_eq_bind, Option.bind_some] at h
    split at h
    · obtain ⟨⟨ps2, k2⟩, h2, h⟩ := Option.bind_eq_some_iff.1 h
      cases h
      exact ih ps1 ps2 k2 hr2 (fun r hr => htr r (List.mem_cons_of_mem _ hr)) h2
    · cases h
      have hfr : ∀ g : PS, (g.calcEventKinematics X).n = g.n ∧ (g.calcEventKinematics X).m = g.m ∧
          (g.calcEventKinematics X).mSum = g.mSum ∧ (g.calcEventKinematics X).M = g.M ∧
          (g.calcEventKinematics X).weightType = g.weightType ∧ (g.calcEventKinematics X).norm = g.norm ∧
          (g.calcEventKinematics X).kinType = g.kinType := by
        intro g
        unfold PS.calcEventKinematics
        cases g.kinType <;> exact ⟨rfl, rfl, rfl, rfl, rfl, rfl, rfl⟩
      obtain ⟨f1, f2, f3, f4, f5, f6, f7⟩ := hfr (ps1.pickAngles r.u r.v)
      refine ⟨⟨?_, ?_, ?_, ?_⟩, ?_, ?_, ?_, ?_, ?_⟩
      · rw [f1]; exact hr2.conf.two
      · rw [f1, f2]; exact hr2.conf.nonneg
      · rw [f2, f3]; exact hr2.conf.sums
      · rw [f2, f4]; exact hr2.conf.first
      · rw [f1]; exact hr2.n
      · rw [f2]; exact hr2.m
      · rw [f5]; exact hr2.wt
      · rw [f6]; exact hr2.norm
      · rw [f7]; exact hr2.kin

theorem event_ready (g : Diff) (masses : List ℝ) (hmass : 0 < masses.getD 0 0 + masses.getD 1 0) (hr : Ready g.ps masses) {beam : LV} {mt mr : ℝ} {x : ℝ × ℝ}
    {phi : ℝ} {tries : List PS.Randoms} (htr : ∀ r ∈ tries, Rnd masses.length r) {ev : Diff.Event} (h : g.event beam mt mr [x] phi tries = some ev) :
    Ready ev.gen.ps masses := by
  unfold Diff.event at h
  cases hrg : g.range with
  | none => rw [hrg] at h; cases h
  | some p =>
  obtain ⟨lo, xMax⟩ := p
  rw [hrg] at h
  dsimp only at h
  split at h
  · cases h
  obtain ⟨⟨x1, t'⟩, hp, h⟩ := Option.bind_eq_some_iff.1 h
  dsimp only at h
  obtain ⟨w, _, h⟩ := Option.bind_eq_some_iff.1 h
  obtain ⟨X, _, h⟩ := Option.bind_eq_some_iff.1 h
  obtain ⟨⟨ps', k⟩, ha, h⟩ := Option.bind_eq_some_iff.1 h
  dsimp only at h
  split at h
  · cases h
  cases h
  have hr' : Ready { g.ps with maxWeight := w } masses :=
    ⟨⟨hr.conf.two, hr.conf.nonneg, hr.conf.sums, hr.conf.first⟩, hr.n, hr.m, hr.wt, hr.norm, hr.kin⟩
  exact attempts_ready hmass tries _ _ _ hr' htr ha

theorem event_slices (g : Diff) {beam : LV} {mt mr : ℝ} {x : ℝ × ℝ} {phi : ℝ} {tries : List PS.Randoms} {ev : Diff.Event}
    (h : g.event beam mt mr [x] phi tries = some ev) : ev.gen.slices = g.slices ∧ g.slices ≠ [] := by
  unfold Diff.event at h
  cases hrg : g.range with
  | none => rw [hrg] at h; cases h
  | some p =>
  obtain ⟨lo, xMax⟩ := p
  rw [hrg] at h
  dsimp only at h
  split at h
  · cases h
  obtain ⟨⟨x1, t'⟩, hp, h⟩ := Option.bind_eq_some_iff.1 h
  dsimp only at h
  obtain ⟨w, hw, h⟩ := Option.bind_eq_some_iff.1 h
  obtain ⟨X, _, h⟩ := Option.bind_eq_some_iff.1 h
  obtain ⟨⟨ps', k⟩, ha, h⟩ := Option.bind_eq_some_iff.1 h
  dsimp only at h
  split at h
  · cases h
  cases h
  refine ⟨rfl, fun hs => ?_⟩
  rw [hs] at hw
  unfold Diff.findWeight at hw
  cases hw

/-- what an event changes. -/
theorem event_shape (e : Env P) (eps : ℝ) (eig : (Fin 4 → Fin 4 → ℝ) → (Fin 4 → ℝ) × (Fin 4 → Fin 4 → ℝ)) (r : EvRandoms) (s s' : Mgr P) (ev : EventOut P)
    (h : event e eps eig r s = .ok (some (ev, s'))) : ∃ g d bv, s.gen = some g ∧ s' = { s with bv := bv, gen := some { g with diff := d } } ∧
      d.slices = g.diff.slices ∧ g.diff.slices ≠ [] ∧ ((∀ t ∈ r.tries, Rnd g.products.length t) → 0 < (g.products.map e.mass).getD 0 0 + (g.products.map e.mass).getD 1 0 →
        Ready g.diff.ps (g.products.map e.mass) → Ready d.ps (g.products.map e.mass)) := by
  unfold event at h
  split at h
  · cases h
  cases hg : s.gen with
  | none => rw [hg] at h; cases h
  | some g =>
  rw [hg] at h
  dsimp only at h
  obtain ⟨bv, hbv, h⟩ := (Pick.bind_ok_iff _ _ _).1 h
  cases bv with
  | none => cases h
  | some bv =>
  dsimp only at h
  unfold pickAndFinish at h
  cases hi : g.picker with
  | none => rw [hi] at h; cases h
  | some i =>
  rw [hi] at h
  dsimp only at h
  cases hp : s.heap[i]? with
  | none => rw [hp] at h; cases h
  | some p =>
  rw [hp] at h
  dsimp only at h
  split at h
  · cases h
  obtain ⟨x, hx, h⟩ := (Pick.bind_ok_iff _ _ _).1 h
  cases x with
  | none => cases h
  | some x =>
  dsimp only at h
  unfold finishEvent at h
  cases hev : ({ g.diff with range := some (p.ranges.massLo, p.ranges.massHi) } : Diff).event bv.beam (e.mass g.target.target) (e.mass g.target.recoil)
      [x] r.phi r.tries with
  | none => rw [hev] at h; cases h
  | some dv =>
  rw [hev] at h
  dsimp only at h
  have h := Option.some.inj (Outcome.ok.inj h)
  obtain ⟨rfl, rfl⟩ := Prod.mk.inj h
  obtain ⟨hs1, hs2⟩ := event_slices _ hev
  refine ⟨g, dv.gen, bv, rfl, rfl, hs1, hs2, fun htr hm hr => ?_⟩
  exact event_ready ({ g.diff with range := some (p.ranges.massLo, p.ranges.massHi) } : Diff) _ hm hr (by rw [List.length_map]; exact htr) hev

/-! ### one event -/

/-- **C69, one event.** An event of a generator that was set up for its decay products is an event of its reaction; mass and t' are those that the picker
function gave, and the generator stays set up. -/
theorem event_good (e : Env P) (eps : ℝ) (eig : (Fin 4 → Fin 4 → ℝ) → (Fin 4 → ℝ) × (Fin 4 → Fin 4 → ℝ)) (r : EvRandoms) (s s' : Mgr P) (ev : EventOut P)
    (g : GenObj P) (hg : s.gen = some g) (hready : Ready g.diff.ps (g.products.map e.mass)) (hpos : ∀ p, 0 ≤ e.mass p)
    (hmassive : 0 < (g.products.map e.mass).getD 0 0 + (g.products.map e.mass).getD 1 0) (htarget : 0 < e.mass g.target.target)
    (htries : ∀ t ∈ r.tries, Rnd g.products.length t) (hmoves : 0 < ev.beam.2.P) (h : event e eps eig r s = .ok (some (ev, s'))) :
    GoodEvent e g.beam g.target g.products ev ∧
    (∃ i p, g.picker = some i ∧ s.heap[i]? = some p ∧ ∃ q ∈ r.picks, p.pick eps q = .ok (some (some (ev.xMass, ev.tPrime)))) ∧
    (∃ bv d, s.bv.event eig g.target.toGen (g.beam.toGen e) r.beam = .ok (some bv) ∧ ev.beam.2 = bv.beam ∧ ev.vertex = bv.vertex ∧
      s' = { s with bv := bv, gen := some { g with diff := d } } ∧ Ready d.ps (g.products.map e.mass) ∧ d.slices = g.diff.slices ∧
      d.weights = g.diff.weights) := by
  unfold event at h
  split at h
  · cases h
  rw [hg] at h
  dsimp only at h
  obtain ⟨bv, hbv, h⟩ := (Pick.bind_ok_iff _ _ _).1 h
  cases bv with
  | none => cases h
  | some bv =>
  dsimp only at h
  unfold pickAndFinish at h
  cases hi : g.picker with
  | none => rw [hi] at h; cases h
  | some i =>
  rw [hi] at h
  dsimp only at h
  cases hp : s.heap[i]? with
  | none => rw [hp] at h; cases h
  | some p =>
  rw [hp] at h
  dsimp only at h
  split at h
  · cases h
  obtain ⟨x, hx, h⟩ := (Pick.bind_ok_iff _ _ _).1 h
  cases x with
  | none => cases h
  | some x =>
  dsimp only at h
  unfold finishEvent at h
  cases hev : ({ g.diff with range := some (p.ranges.massLo, p.ranges.massHi) } : Diff).event bv.beam (e.mass g.target.target) (e.mass g.target.recoil)
      [x] r.phi r.tries with
  | none => rw [hev] at h; cases h
  | some dv =>
  rw [hev] at h
  dsimp only at h
  have h := Option.some.inj (Outcome.ok.inj h)
  obtain ⟨rfl, rfl⟩ := Prod.mk.inj h
  dsimp only at hmoves ⊢
  have hshell : OnShell (e.mass g.beam.particle) bv.beam := bv_onShell eig s.bv bv _ (g.beam.toGen e) r.beam (hpos _) hbv
  obtain ⟨⟨q, hq, hpick⟩, _, ht0⟩ := pickLoop_spec eps p _ _ x _ hx
  have hlen : (g.products.map e.mass).length = g.products.length := List.length_map ..
  have hready' : Ready ({ g.diff with range := some (p.ranges.massLo, p.ranges.massHi) } : Diff).ps (g.products.map e.mass) := hready
  have hth := event_threshold _ _ hready' (by rw [hlen]; exact htries) hev
  have hsum : 0 ≤ (g.products.map e.mass).sum := List.sum_nonneg fun a ha => by
    obtain ⟨b, _, rfl⟩ := List.mem_map.1 ha
    exact hpos b
  have hbt : 0 < bv.beam.t := by
    have := Gen.P_sq bv.beam
    rw [hshell.1] at this
    have h2 : 0 < bv.beam.P ^ 2 := by positivity
    have h3 : 0 ≤ (e.mass g.beam.particle) ^ 2 := sq_nonneg _
    rcases lt_or_eq_of_le hshell.2 with h | h
    · exact h
    · exfalso
      rw [← h] at this
      nlinarith only [this, h2, h3]
  obtain ⟨c1, c2, c3, c4, c5, c6, c7, c8, c9, c10, c11, c12⟩ := Gen.event_spec _ _ hready' hmassive htarget (hpos _) hbt
    (by rw [hshell.1]; exact sq_nonneg _) hmoves (fun y hy => by rw [List.mem_singleton.1 hy]; exact hsum.trans hth) (by rw [hlen]; exact htries) hev
  have hx' : (dv.xMass, dv.tPrime) = x := by simpa using c1
  have hn2 : 2 ≤ g.products.length := by
    have := hready.conf.two
    rwa [hready.n, hlen] at this
  have hX : sumLV ((g.products.zipIdx.map fun p => (p.1, dv.daughters p.2)).map Prod.snd) = dv.X := by
    rw [zip_snd]
    obtain ⟨n, hn⟩ : ∃ n, g.products.length = n + 1 := ⟨g.products.length - 1, by omega⟩
    have := c7.conserved
    rw [hlen, hn] at this
    rw [hn, sum_total]
    exact this
  have htx : 0 ≤ dv.tPrime := by rw [← hx'] at ht0; exact ht0
  refine ⟨⟨⟨rfl, hshell⟩, ⟨rfl, c5, c6⟩, zip_fst _ _, ?_, ?_, ⟨?_, hsum.trans c2⟩, ?_, htx⟩, ⟨i, p, rfl, hp, q, hq, ?_⟩, bv, dv.gen, hbv, rfl, rfl, (by rw [hi]), c9, c10, c11⟩
  · intro y hy
    obtain ⟨⟨a, k⟩, hk, rfl⟩ := List.mem_map.1 hy
    obtain ⟨hk1, hk2⟩ := List.mem_zipIdx' hk
    dsimp only
    have h1 := c7.onShell k (by rw [hlen]; exact hk1)
    have h2 := c7.energy k (by rw [hlen]; exact hk1)
    refine ⟨?_, h2⟩
    rw [h1]
    rw [List.getD_eq_getElem _ _ (by rw [hlen]; exact hk1), List.getElem_map, hk2]
  · dsimp only
    rw [hX]
    have := c8
    have h3 := c7.conserved
    rw [h3] at this
    exact this
  · dsimp only
    rw [hX]
    exact c3.1
  · dsimp only
    rw [hX]
    exact c4
  · rw [hx']
    exact hpick

end Rpwa.Mgr
