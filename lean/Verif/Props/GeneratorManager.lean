import Verif.Props.GeneratorManagerEvent
import Verif.Props.PickersOther
/-! # C69: histories of the generator manager -/
namespace Rpwa.Mgr

open Rpwa.Pick (Cfg Group Ranges ExpPicker PolyPicker)
open Rpwa.Gen (V3 LV Diff PS Ready Rnd RndsOk FinalState)
open Rpwa.BeamGen (OnShell)

variable {P : Type}

/-! ### a file describes at most one reaction -/

theorem particle_unique {e : Env P} {g : Group} {k : String} {p q : P} (h : IsParticle e g k p) (h' : IsParticle e g k q) : p = q := by
  obtain ⟨n, h1, h2⟩ := h
  obtain ⟨n', h3, h4⟩ := h'
  rw [h1] at h3
  cases h3
  rw [h2] at h4
  exact Option.some.inj h4

theorem float_unique {g : Group} {k : String} {x y : ℝ} (h : g k = some (.float x)) (h' : g k = some (.float y)) : x = y := by
  rw [h] at h'
  cases h'
  rfl

theorem optFloat_unique {g : Group} {k : String} {d x y : ℝ} (h : OptFloat g k d x) (h' : OptFloat g k d y) : x = y := by
  rw [← optDouble_iff] at h h'
  exact Option.some.inj (h.symm.trans h')

theorem optBool_unique {g : Group} {k : String} {d x y : Bool} (h : OptBool g k d x) (h' : OptBool g k d y) : x = y := by
  rw [← optBool_iff] at h h'
  exact Option.some.inj (h.symm.trans h')

theorem beam_unique {e : Env P} {root g g' : Group} {b b' : BeamPar P} (h : IsBeam e root b g) (h' : IsBeam e root b' g') : b = b' := by
  obtain rfl := section_unique h.hsection h'.hsection
  obtain ⟨p, x1, x2, x3, x4, x5, x6⟩ := b
  obtain ⟨p', y1, y2, y3, y4, y5, y6⟩ := b'
  obtain rfl : p = p' := particle_unique h.hname h'.hname
  obtain rfl : x1 = y1 := float_unique h.hmomentum h'.hmomentum
  obtain rfl : x2 = y2 := float_unique h.hmomentumSigma h'.hmomentumSigma
  obtain rfl : x3 = y3 := float_unique h.hdxdz h'.hdxdz
  obtain rfl : x4 = y4 := float_unique h.hdxdzSigma h'.hdxdzSigma
  obtain rfl : x5 = y5 := float_unique h.hdydz h'.hdydz
  obtain rfl : x6 = y6 := float_unique h.hdydzSigma h'.hdydzSigma
  rfl

theorem target_unique {e : Env P} {root g g' : Group} {b b' : TargetPar P} (h : IsTarget e root b g) (h' : IsTarget e root b' g') : b = b' := by
  obtain rfl := section_unique h.hsection h'.hsection
  obtain ⟨p, q, x1, x2, x3, x4, x5, x6⟩ := b
  obtain ⟨p', q', y1, y2, y3, y4, y5, y6⟩ := b'
  obtain rfl : p = p' := particle_unique h.htarget h'.htarget
  obtain rfl : q = q' := particle_unique h.hrecoil h'.hrecoil
  have hp := h.hpos.symm.trans h'.hpos
  simp only [Option.some.injEq, Cfg.array.injEq, List.cons.injEq, Cfg.float.injEq, and_true] at hp
  obtain ⟨rfl, rfl, rfl⟩ := hp
  obtain rfl : x5 = y5 := float_unique h.hradius h'.hradius
  obtain rfl : x4 = y4 := float_unique h.hlength h'.hlength
  obtain rfl : x6 = y6 := float_unique h.hinteraction h'.hinteraction
  rfl

theorem sim_unique {o : String} {root : Group} {m m' : Option Sim} (h : SimOf o root m) (h' : SimOf o root m') : m = m' := by
  have key : ∀ {g : Group} {m : Sim}, Section root "beamSimulation" g → IsSim o g m → ¬ ∀ g, Section root "beamSimulation" g → g "active" = some (.bool false) := by
    intro g m hs hm hf
    have := hf g hs
    rw [hm.hactive] at this
    cases this
  rcases h with ⟨rfl, h⟩ | ⟨g, m1, rfl, hs, hm⟩
  · rcases h' with ⟨rfl, _⟩ | ⟨g', m2, rfl, hs', hm'⟩
    · rfl
    · exact absurd h (key hs' hm')
  · rcases h' with ⟨rfl, h'⟩ | ⟨g', m2, rfl, hs', hm'⟩
    · exact absurd h' (key hs hm)
    · obtain rfl := section_unique hs hs'
      obtain ⟨f, x1, x2, x3, x4, x5⟩ := m1
      obtain ⟨f', y1, y2, y3, y4, y5⟩ := m2
      obtain rfl : f = f' := by
        have a := hm.hfile
        have b := hm'.hfile
        by_cases ho : o = ""
        · rw [if_pos ho] at a b
          rw [a] at b
          cases b
          rfl
        · rw [if_neg ho] at a b
          exact a.trans b.symm
      obtain rfl : x1 = y1 := optFloat_unique hm.hscale hm'.hscale
      obtain rfl : x2 = y2 := optBool_unique hm.htakeZ hm'.htakeZ
      obtain rfl : x3 = y3 := optFloat_unique hm.hres hm'.hres
      obtain rfl : x4 = y4 := optFloat_unique hm.hsigma hm'.hsigma
      obtain rfl : x5 = y5 := optFloat_unique hm.hmean hm'.hmean
      rfl

theorem map_str_inj {a b : List String} (h : a.map Cfg.str = b.map Cfg.str) : a = b :=
  List.map_injective_iff.2 (fun _ _ h => Cfg.str.inj h) h

theorem final_unique {e : Env P} {root : Group} {ps qs : List P} (h : FinalOf e root ps) (h' : FinalOf e root qs) : ps = qs := by
  obtain ⟨g, ns, hs, hp, _, hm⟩ := h
  obtain ⟨g', ns', hs', hp', _, hm'⟩ := h'
  obtain rfl := section_unique hs hs'
  rw [hp] at hp'
  have : ns = ns' := map_str_inj (Cfg.array.inj (Option.some.inj hp'))
  subst this
  exact List.map_injective_iff.2 (fun _ _ h => Option.some.inj h) (hm.symm.trans hm')

theorem picker_unique {e : Env P} {root : Group} {p q : Picker} (h : PickerOf e root p) (h' : PickerOf e root q) : p = q := by
  obtain ⟨g, n, st, hs, hn, hst, h⟩ := h
  obtain ⟨g', n', st', hs', hn', hst', h'⟩ := h'
  obtain rfl := section_unique hs hs'
  rw [hn] at hn'
  cases hn'
  obtain rfl := section_unique hst hst'
  rcases h with ⟨rfl, a, ha, rfl⟩ | ⟨rfl, a, ha, rfl⟩ | ⟨rfl, a, ha, rfl⟩ <;>
    rcases h' with ⟨hh, b, hb, rfl⟩ | ⟨hh, b, hb, rfl⟩ | ⟨hh, b, hb, rfl⟩ <;>
    first
    | (rw [ha] at hb; cases hb; rfl)
    | exact absurd hh (by decide)

/-- **a file describes at most one reaction.** -/
theorem describes_unique {e : Env P} {o : String} {root : Group} {R R' : Reaction P} (h : Describes e o root R) (h' : Describes e o root R') : R = R' := by
  obtain ⟨b, t, m, f, p⟩ := R
  obtain ⟨b', t', m', f', p'⟩ := R'
  obtain ⟨⟨_, h1⟩, ⟨_, h2⟩, h3, h4, h5⟩ := h
  obtain ⟨⟨_, k1⟩, ⟨_, k2⟩, k3, k4, k5⟩ := h'
  obtain rfl : b = b' := beam_unique h1 k1
  obtain rfl : t = t' := target_unique h2 k2
  obtain rfl : m = m' := sim_unique h3 k3
  obtain rfl : f = f' := final_unique h4 k4
  obtain rfl : p = p' := picker_unique h5 k5
  rfl

/-- the picker function of a file has been initialised; its range is not reversed. -/
theorem picker_init {e : Env P} {root : Group} {p : Picker} (h : PickerOf e root p) : p.ranges.initialized = true ∧ p.ranges.massLo ≤ p.ranges.massHi := by
  obtain ⟨g, n, st, _, _, _, h⟩ := h
  rcases h with ⟨rfl, a, ha, rfl⟩ | ⟨rfl, a, ha, rfl⟩ | ⟨rfl, a, ha, rfl⟩
  · obtain ⟨_, r, _, _, _, hR, _, _, rfl⟩ := (Pick.exp_init_iff _ _ _).1 ha
    exact ⟨rfl, hR.hmass⟩
  · obtain ⟨_, r, _, _, hR, _, _, _, _, rfl⟩ := (Pick.poly_init_iff _ _ _).1 ha
    exact ⟨rfl, hR.hmass⟩
  · obtain ⟨_, r, hR, _, _, rfl⟩ := (Pick.uniform_init_iff _ _ _).1 ha
    exact ⟨rfl, hR.hmass⟩

/-! ### setting up the generator -/

/-- setting up succeeds for a final state above threshold, fails below, and makes the generator ready. -/
theorem init_ready (e : Env P) (rnds : ℕ → List PS.Randoms) (s s' : Mgr P) (hpos : ∀ p, 0 ≤ e.mass p) (hr : RndsOk s.finalState.length rnds)
    (h2 : 2 ≤ s.finalState.length) (hm : 0 < (s.finalState.map e.mass).getD 0 0 + (s.finalState.map e.mass).getD 1 0)
    (h : initializeGenerator e rnds s = .ok (some (true, s'))) :
    ∃ lo hi d, s.rangeAt s.picker = some (lo, hi) ∧ FinalState (s.finalState.map e.mass) lo hi ∧ (∃ B T, s.beam = some B ∧ s.target = some T ∧
      s' = { s with gen := some ⟨B, T, s.picker, s.finalState, d⟩ }) ∧ Ready d.ps (s.finalState.map e.mass) ∧ d.slices = Diff.sliceList lo hi ∧
      List.Forall₂ (Gen.Spec.Estimate (s.finalState.map e.mass)) d.slices d.weights := by
  unfold initializeGenerator at h
  split at h
  · cases h
  cases hB : s.beam with
  | none => rw [hB] at h; cases h
  | some B =>
  cases hT : s.target with
  | none => rw [hB, hT] at h; cases h
  | some T =>
  rw [hB, hT] at h
  dsimp only at h
  have hlen : (s.finalState.map e.mass).length = s.finalState.length := List.length_map ..
  cases hd : ({ Diff.new with range := s.rangeAt s.picker } : Diff).setDecayProducts (s.finalState.map e.mass) rnds with
  | none => rw [hd] at h; cases h
  | some d =>
  rw [hd] at h
  cases h
  cases hrange : s.rangeAt s.picker with
  | none =>
    rw [hrange] at hd
    unfold Diff.setDecayProducts Diff.build at hd
    dsimp only at hd
    rw [if_neg (by omega)] at hd
    cases hd
  | some p =>
  obtain ⟨lo, hi⟩ := p
  rw [hrange] at hd
  have hnn : ∀ x ∈ s.finalState.map e.mass, 0 ≤ x := by
    intro x hx
    obtain ⟨b, _, rfl⟩ := List.mem_map.1 hx
    exact hpos b
  have hord : ¬ (hi < lo ∨ hi ≤ 0) := by
    intro hc
    unfold Diff.setDecayProducts Diff.build at hd
    dsimp only at hd
    rw [if_neg (by omega), if_pos hc] at hd
    cases hd
  push Not at hord
  have hth : (s.finalState.map e.mass).sum ≤ lo + (hi - lo) / Gen.nSlices lo hi := by
    by_contra hc
    rw [Gen.build_below ({ Diff.new with range := some (lo, hi) } : Diff) _ (lo := lo) (hi := hi) rfl rfl rfl rfl (by rw [hlen]; exact h2) hnn (not_le.1 hc)
      (by rw [hlen]; exact hr)] at hd
    cases hd
  have hF : FinalState (s.finalState.map e.mass) lo hi := ⟨by rw [hlen]; exact h2, hnn, hm, hord.2, hord.1, hth⟩
  obtain ⟨d', e1, e2, e3, e4, e5, e6⟩ := Gen.build_first ({ Diff.new with range := some (lo, hi) } : Diff) _ (lo := lo) (hi := hi) rfl rfl rfl rfl rfl hF
    (rnds := rnds) (by rw [hlen]; exact hr)
  rw [hd] at e1
  cases e1
  exact ⟨lo, hi, d, rfl, hF, ⟨B, T, rfl, rfl, rfl⟩, e4, e5, e6⟩

/-- the shape of a successful call in general. -/
theorem init_shape (e : Env P) (rnds : ℕ → List PS.Randoms) (s s' : Mgr P) (b : Bool) (h : initializeGenerator e rnds s = .ok (some (b, s'))) :
    (b = false ∧ s.fileRead = false ∧ s' = s) ∨
    (b = true ∧ s.fileRead = true ∧ ∃ B T d, s.beam = some B ∧ s.target = some T ∧ s' = { s with gen := some ⟨B, T, s.picker, s.finalState, d⟩ }) := by
  unfold initializeGenerator at h
  by_cases hf : s.fileRead = true
  · rw [if_neg (by simp [hf])] at h
    cases hB : s.beam with
    | none => rw [hB] at h; cases h
    | some B =>
    cases hT : s.target with
    | none => rw [hB, hT] at h; cases h
    | some T =>
    rw [hB, hT] at h
    dsimp only at h
    cases hd : ({ Diff.new with range := s.rangeAt s.picker } : Diff).setDecayProducts (s.finalState.map e.mass) rnds with
    | none => rw [hd] at h; cases h
    | some d =>
    rw [hd] at h
    cases h
    exact .inr ⟨rfl, hf, B, T, d, rfl, rfl, rfl⟩
  · rw [if_pos (by simp [hf])] at h
    cases h
    exact .inl ⟨rfl, by simpa using hf, rfl⟩

/-- one particle: nothing is set up. -/
theorem init_single (e : Env P) (rnds : ℕ → List PS.Randoms) (s s' : Mgr P) (hl : s.finalState.length ≤ 1) (d : Diff) (B : BeamPar P) (T : TargetPar P)
    (h : initializeGenerator e rnds s = .ok (some (true, s'))) (hs : s' = { s with gen := some ⟨B, T, s.picker, s.finalState, d⟩ }) : d.slices = [] := by
  unfold initializeGenerator at h
  split at h
  · cases h
  cases hB : s.beam with
  | none => rw [hB] at h; cases h
  | some B' =>
  cases hT : s.target with
  | none => rw [hB, hT] at h; cases h
  | some T' =>
  rw [hB, hT] at h
  unfold Diff.setDecayProducts Diff.build at h
  dsimp only at h
  rw [if_pos (by rw [List.length_map]; exact hl)] at h
  have h := congrArg Mgr.gen (Prod.mk.inj (Option.some.inj (Outcome.ok.inj h))).2
  rw [hs] at h
  have h := congrArg GenObj.diff (Option.some.inj h)
  dsimp only at h
  rw [← h]
  rfl

/-! ### the invariant -/

/-- the random numbers of a call are as many as it needs, and in their ranges. -/
def Legit (s : Mgr P) : Call → Prop
  | .initGen rnds => RndsOk s.finalState.length rnds
  | .event r => ∀ g, s.gen = some g → ∀ t ∈ r.tries, Rnd g.products.length t
  | _ => True

/-- the states that sequences of calls lead to. -/
inductive Reach (e : Env P) (eps : ℝ) (eig : (Fin 4 → Fin 4 → ℝ) → (Fin 4 → ℝ) × (Fin 4 → Fin 4 → ℝ)) : Mgr P → Prop
  | new : Reach e eps eig Mgr.new
  | call (s s' : Mgr P) (c : Call) (o : Option (EventOut P)) : Reach e eps eig s → Legit s c → step e eps eig s c = .ok (some (o, s')) → Reach e eps eig s'

structure Inv (e : Env P) (s : Mgr P) : Prop where
  hread : s.fileRead = true → s.beam.isSome ∧ s.target.isSome
  hpicker : ∀ i, s.picker = some i → i < s.heap.length
  hinit : ∀ p ∈ s.heap, p.ranges.initialized = true
  hgen : ∀ g, s.gen = some g → s.fileRead = true ∧ (∀ i, g.picker = some i → i < s.heap.length) ∧
    (2 ≤ g.products.length → 0 < (g.products.map e.mass).getD 0 0 + (g.products.map e.mass).getD 1 0 → Ready g.diff.ps (g.products.map e.mass)) ∧
    (g.products.length ≤ 1 → g.diff.slices = [])

theorem inv_new (e : Env P) : Inv e (Mgr.new : Mgr P) :=
  ⟨fun h => (by cases h), fun i h => (by cases h), fun p h => (by cases h), fun g h => (by cases h)⟩

theorem inv_frame {e : Env P} {s s' : Mgr P} (h : Inv e s) (h1 : s'.fileRead = s.fileRead) (h2 : s.beam = s'.beam) (h3 : s.target = s'.target)
    (h4 : s'.picker = s.picker) (h5 : s'.heap = s.heap) (h6 : s'.gen = s.gen) : Inv e s' := by
  refine ⟨fun hf => ?_, fun i hi => ?_, fun p hp => ?_, fun g hg => ?_⟩
  · rw [← h2, ← h3]; exact h.hread (h1 ▸ hf)
  · rw [h5]; exact h.hpicker i (h4 ▸ hi)
  · exact h.hinit p (h5 ▸ hp)
  · obtain ⟨a, b, c⟩ := h.hgen g (h6 ▸ hg)
    exact ⟨h1 ▸ a, by rw [h5]; exact b, c⟩

/-- the override of a range changes nothing else. -/
theorem override_shape (lo hi : ℝ) (s s' : Mgr P) (h : overrideMassRange lo hi s = .ok s') : s.fileRead = true ∧ ∃ i p, s.picker = some i ∧
    s.heap[i]? = some p ∧ s' = { s with heap := s.heap.set i (p.setRanges { p.ranges with massLo := lo, massHi := hi }) } := by
  unfold overrideMassRange at h
  by_cases hf : s.fileRead = true
  · rw [if_neg (by simp [hf])] at h
    refine ⟨hf, ?_⟩
    cases hi' : s.picker with
    | none => rw [hi'] at h; cases h
    | some i =>
    rw [hi'] at h
    dsimp only at h
    cases hp : s.heap[i]? with
    | none => rw [hp] at h; cases h
    | some p =>
    rw [hp] at h
    dsimp only at h
    obtain ⟨q, hq, h⟩ := (Pick.bind_ok_iff _ _ _).1 h
    cases h
    unfold Picker.overrideMassRange Ranges.overrideMassRange at hq
    obtain ⟨r, hr, hq⟩ := (Pick.bind_ok_iff _ _ _).1 hq
    cases hq
    split at hr
    · cases hr
      exact ⟨i, p, rfl, hp, rfl⟩
    · cases hr
  · rw [if_pos (by simp [hf])] at h
    cases h

theorem setRanges_ranges (p : Picker) (r : Ranges) : (p.setRanges r).ranges = r := by cases p <;> rfl

theorem inv_step (e : Env P) (eps : ℝ) (eig : (Fin 4 → Fin 4 → ℝ) → (Fin 4 → ℝ) × (Fin 4 → Fin 4 → ℝ)) (hpos : ∀ p, 0 ≤ e.mass p) (s s' : Mgr P) (c : Call)
    (o : Option (EventOut P)) (hI : Inv e s) (hL : Legit s c) (h : step e eps eig s c = .ok (some (o, s'))) : Inv e s' := by
  cases c with
  | read f =>
    unfold step at h
    obtain ⟨⟨b, s1⟩, h1, h⟩ := (Pick.bind_ok_iff _ _ _).1 h
    cases h
    dsimp only
    cases b with
    | true =>
      cases f with
      | none => cases h1
      | some root =>
      obtain ⟨R, bv, hD, _, rfl⟩ := (read_iff e root s s1).1 h1
      refine ⟨fun _ => ⟨rfl, rfl⟩, fun i hi => ?_, fun p hp => ?_, fun g hg => ?_⟩
      · cases hi
        unfold afterRead
        simp
      · rcases List.mem_append.1 hp with hp | hp
        · exact hI.hinit p hp
        · rw [List.mem_singleton.1 hp]
          exact (picker_init hD.hpicker).1
      · obtain ⟨_, b, c⟩ := hI.hgen g hg
        refine ⟨rfl, fun i hi => ?_, c⟩
        have := b i hi
        unfold afterRead
        simp
        omega
    | false =>
      obtain ⟨a1, a2, a3, a4, a5, a6, _⟩ := read_false e f s s1 h1
      refine ⟨fun hf => ?_, fun i hi => ?_, fun p hp => ?_, fun g hg => ?_⟩
      · obtain ⟨x, y⟩ := hI.hread (a3 ▸ hf)
        refine ⟨?_, ?_⟩
        · rcases a5 with a | a
          · rw [a]; exact x
          · exact a
        · rcases a6 with a | a
          · rw [a]; exact y
          · exact a
      · rw [a2]
        rcases a4 with a | a
        · exact hI.hpicker i (a ▸ hi)
        · rw [a] at hi; cases hi
      · exact hI.hinit p (a2 ▸ hp)
      · obtain ⟨x, y, z⟩ := hI.hgen g (a1 ▸ hg)
        exact ⟨a3 ▸ x, by rw [a2]; exact y, z⟩
  | initGen rnds =>
    unfold step at h
    obtain ⟨r, h1, h⟩ := (Pick.bind_ok_iff _ _ _).1 h
    cases r with
    | none => cases h
    | some r =>
    obtain ⟨b, s1⟩ := r
    cases h
    rcases init_shape e rnds s s1 b h1 with ⟨_, _, rfl⟩ | ⟨rfl, hf, B, T, d, hB, hT, hs1⟩
    · exact hI
    · refine ⟨?_, ?_, ?_, ?_⟩
      · rw [hs1]; exact hI.hread
      · rw [hs1]; exact hI.hpicker
      · rw [hs1]; exact hI.hinit
      · intro g hg
        refine ⟨by rw [hs1]; exact hf, ?_, fun h2 hm => ?_, fun hl => ?_⟩
        · rw [hs1] at hg ⊢
          cases hg
          exact hI.hpicker
        · have hg' := hg
          rw [hs1] at hg'
          cases hg'
          obtain ⟨lo, hi, d', _, _, ⟨B', T', _, _, hs2⟩, hR, _⟩ := init_ready e rnds s s1 hpos hL h2 hm h1
          rw [hs2] at hg
          cases hg
          exact hR
        · have hsl := init_single e rnds s s1
          rw [hs1] at hg
          cases hg
          exact hsl hl d B T h1 hs1
  | overrideRange lo hi =>
    unfold step at h
    obtain ⟨s1, h1, h⟩ := (Pick.bind_ok_iff _ _ _).1 h
    cases h
    obtain ⟨_, i, p, hi', hp, rfl⟩ := override_shape lo hi s s' h1
    refine ⟨hI.hread, fun j hj => ?_, fun q hq => ?_, fun g hg => ?_⟩
    · dsimp only
      rw [List.length_set]
      exact hI.hpicker j hj
    · dsimp only at hq
      rcases List.mem_or_eq_of_mem_set hq with hq | rfl
      · exact hI.hinit q hq
      · rw [setRanges_ranges]
        exact hI.hinit p (List.mem_of_getElem? hp)
    · obtain ⟨a, b, c⟩ := hI.hgen g hg
      exact ⟨a, by dsimp only; rw [List.length_set]; exact b, c⟩
  | overrideFile n => cases h; exact inv_frame hI rfl rfl rfl rfl rfl rfl
  | sequential b =>
    unfold step at h
    obtain ⟨s1, h1, h⟩ := (Pick.bind_ok_iff _ _ _).1 h
    cases h
    unfold readSequentially at h1
    split at h1
    · cases h1
    · cases h1; exact inv_frame hI rfl rfl rfl rfl rfl rfl
  | randomize u =>
    unfold step at h
    obtain ⟨s1, h1, h⟩ := (Pick.bind_ok_iff _ _ _).1 h
    cases h
    unfold randomizeStart at h1
    split at h1
    · cases h1
    · obtain ⟨bv, _, h1⟩ := (Pick.bind_ok_iff _ _ _).1 h1
      cases h1; exact inv_frame hI rfl rfl rfl rfl rfl rfl
  | event r =>
    unfold step at h
    obtain ⟨x, h1, h⟩ := (Pick.bind_ok_iff _ _ _).1 h
    cases x with
    | none => cases h
    | some x =>
    obtain ⟨ev, s1⟩ := x
    cases h
    obtain ⟨g, d, bv, hg, rfl, hsl, hne, hR⟩ := event_shape e eps eig r s s1 ev h1
    refine ⟨hI.hread, hI.hpicker, hI.hinit, fun g' hg' => ?_⟩
    obtain ⟨a, b, c⟩ := hI.hgen g hg
    cases hg'
    exact ⟨a, b, fun h2 hm => hR (hL g hg) hm (c.1 h2 hm), fun h1 => hsl.trans (c.2 h1)⟩

/-- **the invariant of all histories.** -/
theorem reach_inv (e : Env P) (eps : ℝ) (eig : (Fin 4 → Fin 4 → ℝ) → (Fin 4 → ℝ) × (Fin 4 → Fin 4 → ℝ)) (hpos : ∀ p, 0 ≤ e.mass p) (s : Mgr P)
    (h : Reach e eps eig s) : Inv e s := by
  induction h with
  | new => exact inv_new e
  | call s s' c o _ hL hs ih => exact inv_step e eps eig hpos s s' c o ih hL hs

/-! ### what histories can do -/

/-- **no undefined behaviour.** Whatever was called before, setting up the generator and overriding the mass range are defined; the override works whenever there is
a picker function. -/
theorem reach_defined (e : Env P) (eps : ℝ) (eig : (Fin 4 → Fin 4 → ℝ) → (Fin 4 → ℝ) × (Fin 4 → Fin 4 → ℝ)) (hpos : ∀ p, 0 ≤ e.mass p) (s : Mgr P)
    (h : Reach e eps eig s) (rnds : ℕ → List PS.Randoms) (lo hi : ℝ) : initializeGenerator e rnds s ≠ .ub ∧ overrideMassRange lo hi s ≠ .ub ∧
    (s.fileRead = true → s.picker.isSome → ∃ s', overrideMassRange lo hi s = .ok s' ∧ s'.rangeAt s'.picker = some (lo, hi)) := by
  have hI := reach_inv e eps eig hpos s h
  have main : s.fileRead = true → s.picker.isSome → ∃ s', overrideMassRange lo hi s = .ok s' ∧ s'.rangeAt s'.picker = some (lo, hi) := by
    intro hf hp
    obtain ⟨i, hi'⟩ := Option.isSome_iff_exists.1 hp
    have hlt := hI.hpicker i hi'
    have hinit := hI.hinit _ (List.getElem_mem hlt)
    refine ⟨{ s with heap := s.heap.set i (s.heap[i].setRanges { s.heap[i].ranges with massLo := lo, massHi := hi }) }, ?_, ?_⟩
    · unfold overrideMassRange Picker.overrideMassRange Ranges.overrideMassRange
      rw [if_neg (by simp [hf]), hi']
      dsimp only
      rw [List.getElem?_eq_getElem hlt]
      dsimp only
      rw [if_pos hinit]
      rfl
    · unfold Mgr.rangeAt
      dsimp only
      rw [hi']
      dsimp only
      rw [List.getElem?_set_self hlt, Option.map_some, setRanges_ranges]
  refine ⟨?_, ?_, main⟩
  · unfold initializeGenerator
    by_cases hf : s.fileRead = true
    · rw [if_neg (by simp [hf])]
      obtain ⟨hb, ht⟩ := hI.hread hf
      obtain ⟨B, hB⟩ := Option.isSome_iff_exists.1 hb
      obtain ⟨T, hT⟩ := Option.isSome_iff_exists.1 ht
      rw [hB, hT]
      dsimp only
      split <;> exact fun h => (by cases h)
    · rw [if_pos (by simp [hf])]
      exact fun h => (by cases h)
  · by_cases hf : s.fileRead = true
    · by_cases hp : s.picker.isSome = true
      · obtain ⟨s', h1, _⟩ := main hf hp
        rw [h1]
        exact fun h => (by cases h)
      · unfold overrideMassRange
        rw [if_neg (by simp [hf]), Option.not_isSome_iff_eq_none.1 hp]
        exact fun h => (by cases h)
    · unfold overrideMassRange
      rw [if_pos (by simp [hf])]
      exact fun h => (by cases h)

/-- **events after any history.** Every event is an event of the reaction of the generator, with mass and t' from its picker function. -/
theorem reach_event (e : Env P) (eps : ℝ) (eig : (Fin 4 → Fin 4 → ℝ) → (Fin 4 → ℝ) × (Fin 4 → Fin 4 → ℝ)) (hpos : ∀ p, 0 ≤ e.mass p) (s s' : Mgr P)
    (hR : Reach e eps eig s) (r : EvRandoms) (hL : Legit s (.event r)) (ev : EventOut P) (h : event e eps eig r s = .ok (some (ev, s')))
    (hmoves : 0 < ev.beam.2.P) : ∃ g, s.gen = some g ∧ 2 ≤ g.products.length ∧
    (0 < (g.products.map e.mass).getD 0 0 + (g.products.map e.mass).getD 1 0 → 0 < e.mass g.target.target →
      GoodEvent e g.beam g.target g.products ev ∧
      ∃ i p, g.picker = some i ∧ s.heap[i]? = some p ∧ ∃ q ∈ r.picks, p.pick eps q = .ok (some (some (ev.xMass, ev.tPrime)))) := by
  have hI := reach_inv e eps eig hpos s hR
  obtain ⟨g, d, bv, hg, _, _, hne, _⟩ := event_shape e eps eig r s s' ev h
  obtain ⟨_, _, h3, h4⟩ := hI.hgen g hg
  have h2 : 2 ≤ g.products.length := by
    by_contra hc
    exact hne (h4 (by omega))
  refine ⟨g, hg, h2, fun hm ht => ?_⟩
  obtain ⟨a, b, _⟩ := event_good e eps eig r s s' ev g hg (h3 h2 hm) hpos hm ht (hL g hg) hmoves h
  exact ⟨a, b⟩

/-- **the generator is that of the last call of `initializeGenerator`**: other calls do not change its beam, target, picker function and decay products. -/
theorem step_gen (e : Env P) (eps : ℝ) (eig : (Fin 4 → Fin 4 → ℝ) → (Fin 4 → ℝ) × (Fin 4 → Fin 4 → ℝ)) (s s' : Mgr P) (c : Call) (o : Option (EventOut P))
    (h : step e eps eig s c = .ok (some (o, s'))) (hc : ∀ rnds, c ≠ .initGen rnds) :
    (s'.gen.map fun g => (g.beam, g.target, g.picker, g.products)) = s.gen.map fun g => (g.beam, g.target, g.picker, g.products) := by
  cases c with
  | read f =>
    unfold step at h
    obtain ⟨⟨b, s1⟩, h1, h⟩ := (Pick.bind_ok_iff _ _ _).1 h
    cases h
    dsimp only
    cases b with
    | true =>
      cases f with
      | none => cases h1
      | some root =>
      obtain ⟨R, bv, _, _, rfl⟩ := (read_iff e root s s1).1 h1
      rfl
    | false => rw [(read_false e f s s1 h1).1]
  | initGen rnds => exact absurd rfl (hc rnds)
  | overrideRange lo hi =>
    unfold step at h
    obtain ⟨s1, h1, h⟩ := (Pick.bind_ok_iff _ _ _).1 h
    cases h
    obtain ⟨_, i, p, _, _, rfl⟩ := override_shape lo hi s s' h1
    rfl
  | overrideFile n => cases h; rfl
  | sequential b =>
    unfold step at h
    obtain ⟨s1, h1, h⟩ := (Pick.bind_ok_iff _ _ _).1 h
    cases h
    unfold readSequentially at h1
    split at h1
    · cases h1
    · cases h1; rfl
  | randomize u =>
    unfold step at h
    obtain ⟨s1, h1, h⟩ := (Pick.bind_ok_iff _ _ _).1 h
    cases h
    unfold randomizeStart at h1
    split at h1
    · cases h1
    · obtain ⟨bv, _, h1⟩ := (Pick.bind_ok_iff _ _ _).1 h1
      cases h1; rfl
  | event r =>
    unfold step at h
    obtain ⟨x, h1, h⟩ := (Pick.bind_ok_iff _ _ _).1 h
    cases x with
    | none => cases h
    | some x =>
    obtain ⟨ev, s1⟩ := x
    cases h
    obtain ⟨g, d, bv, hg, rfl, _⟩ := event_shape e eps eig r s s1 ev h1
    rw [hg]
    rfl

/-- **maximum weights of the current final state.** Whatever was configured before, after `initializeGenerator` the maximum weight of every mass in the range is
an estimate for the final state the generator was set up for (compare `Gen.weights_stale`). -/
theorem init_weights (e : Env P) (rnds : ℕ → List PS.Randoms) (s s' : Mgr P) (hpos : ∀ p, 0 ≤ e.mass p) (hr : RndsOk s.finalState.length rnds)
    (h2 : 2 ≤ s.finalState.length) (hm : 0 < (s.finalState.map e.mass).getD 0 0 + (s.finalState.map e.mass).getD 1 0)
    (h : initializeGenerator e rnds s = .ok (some (true, s'))) : ∃ lo hi g, s.rangeAt s.picker = some (lo, hi) ∧ s'.gen = some g ∧
      ∀ x, lo < x → x ≤ hi → ∃ S w, Diff.findWeight x g.diff.slices g.diff.weights = some w ∧ Gen.Spec.Estimate (s.finalState.map e.mass) S w ∧ x ≤ S ∧
        S - x ≤ (hi - lo) / Gen.nSlices lo hi := by
  have hlen : (s.finalState.map e.mass).length = s.finalState.length := List.length_map ..
  obtain ⟨lo, hi, d, h1, hF, ⟨B, T, hB, hT, hs⟩, _⟩ := init_ready e rnds s s' hpos hr h2 hm h
  obtain ⟨d', e1, _, e3⟩ := Gen.weights_current_partial _ hF (rnds := rnds) (by rw [hlen]; exact hr)
  refine ⟨lo, hi, ⟨B, T, s.picker, s.finalState, d⟩, h1, by rw [hs], ?_⟩
  have : d = d' := by
    unfold initializeGenerator at h
    split at h
    · cases h
    rw [hB, hT, h1] at h
    dsimp only at h
    have e2 : ({ Diff.new with range := some (lo, hi) } : Diff).setDecayProducts (s.finalState.map e.mass) rnds = some d' := e1
    rw [e2] at h
    have h := congrArg Mgr.gen (Prod.mk.inj (Option.some.inj (Outcome.ok.inj h))).2
    rw [hs] at h
    exact (congrArg GenObj.diff (Option.some.inj h)).symm
  rw [this]
  exact e3

/-! ### the intended use -/

/-- calls after the generator has been set up (`n` decay products). -/
def Plain (n : ℕ) : Call → Prop
  | .event r => ∀ t ∈ r.tries, Rnd n t
  | .overrideFile _ => True
  | .sequential _ => True
  | .randomize _ => True
  | _ => False

theorem plain_run (e : Env P) (eps : ℝ) (eig : (Fin 4 → Fin 4 → ℝ) → (Fin 4 → ℝ) × (Fin 4 → Fin 4 → ℝ)) (hpos : ∀ p, 0 ≤ e.mass p) (R : Reaction P)
    (hm : 0 < (R.final.map e.mass).getD 0 0 + (R.final.map e.mass).getD 1 0) (ht : 0 < e.mass R.target.target) :
    ∀ (cs : List Call) (s s' : Mgr P) (evs : List (EventOut P)) (d : Diff), s.gen = some ⟨R.beam, R.target, some 0, R.final, d⟩ → s.heap = [R.picker] →
      (2 ≤ R.final.length → Ready d.ps (R.final.map e.mass)) → (R.final.length ≤ 1 → d.slices = []) → (∀ c ∈ cs, Plain R.final.length c) →
      run e eps eig s cs = .ok (some (evs, s')) → ∀ ev ∈ evs, 0 < ev.beam.2.P → GoodEvent e R.beam R.target R.final ev ∧
        ∃ r q, Call.event r ∈ cs ∧ q ∈ r.picks ∧ R.picker.pick eps q = .ok (some (some (ev.xMass, ev.tPrime))) := by
  intro cs
  induction cs with
  | nil =>
    intro s s' evs d _ _ _ _ _ h ev hev
    cases h
    cases hev
  | cons c cs ih =>
    intro s s' evs d hg hh h2 h1 hp h ev hev hmoves
    unfold run at h
    obtain ⟨o, ho, h⟩ := (Pick.bind_ok_iff _ _ _).1 h
    cases o with
    | none => cases h
    | some o =>
    obtain ⟨o, s1⟩ := o
    dsimp only at h
    obtain ⟨q, hq, h⟩ := (Pick.bind_ok_iff _ _ _).1 h
    cases q with
    | none => cases h
    | some q =>
    obtain ⟨evs1, s2⟩ := q
    have h := Option.some.inj (Outcome.ok.inj h)
    obtain ⟨rfl, rfl⟩ := Prod.mk.inj h
    dsimp only at hev
    have hpc := hp c List.mem_cons_self
    have hpcs : ∀ c ∈ cs, Plain R.final.length c := fun c hc => hp c (List.mem_cons_of_mem _ hc)
    have tail : ∀ d', s1.gen = some ⟨R.beam, R.target, some 0, R.final, d'⟩ → s1.heap = [R.picker] → (2 ≤ R.final.length → Ready d'.ps (R.final.map e.mass)) →
        (R.final.length ≤ 1 → d'.slices = []) → ev ∈ evs1 → GoodEvent e R.beam R.target R.final ev ∧
          ∃ r q, Call.event r ∈ c :: cs ∧ q ∈ r.picks ∧ R.picker.pick eps q = .ok (some (some (ev.xMass, ev.tPrime))) := by
      intro d' a1 a2 a3 a4 a5
      obtain ⟨b1, r, q, b2, b3⟩ := ih s1 s2 evs1 d' a1 a2 a3 a4 hpcs hq ev a5 hmoves
      exact ⟨b1, r, q, List.mem_cons_of_mem _ b2, b3⟩
    cases c with
    | read f => exact absurd hpc id
    | initGen rnds => exact absurd hpc id
    | overrideRange lo hi => exact absurd hpc id
    | overrideFile n =>
      cases ho
      exact tail d hg hh h2 h1 (by simpa using hev)
    | sequential b =>
      unfold step at ho
      obtain ⟨s3, h3, ho⟩ := (Pick.bind_ok_iff _ _ _).1 ho
      cases ho
      unfold readSequentially at h3
      split at h3
      · cases h3
      · cases h3; exact tail d hg hh h2 h1 (by simpa using hev)
    | randomize u =>
      unfold step at ho
      obtain ⟨s3, h3, ho⟩ := (Pick.bind_ok_iff _ _ _).1 ho
      cases ho
      unfold randomizeStart at h3
      split at h3
      · cases h3
      · obtain ⟨bv, _, h3⟩ := (Pick.bind_ok_iff _ _ _).1 h3
        cases h3; exact tail d hg hh h2 h1 (by simpa using hev)
    | event r =>
      unfold step at ho
      obtain ⟨x, h3, ho⟩ := (Pick.bind_ok_iff _ _ _).1 ho
      cases x with
      | none => cases ho
      | some x =>
      obtain ⟨ev0, s3⟩ := x
      cases ho
      obtain ⟨g, d', bv, hg', hs3, hsl, hne, hRd⟩ := event_shape e eps eig r s s3 ev0 h3
      rw [hg] at hg'
      cases hg'
      have h2' : 2 ≤ R.final.length := by
        by_contra hc
        exact hne (h1 (by omega))
      rcases List.mem_append.1 hev with hev | hev
      · have : ev = ev0 := by simpa using hev
        subst this
        obtain ⟨a, ⟨i, p, hi, hp', q, hq1, hq2⟩, _⟩ := event_good e eps eig r s s3 ev _ hg (h2 h2') hpos hm ht hpc hmoves h3
        cases hi
        rw [hh] at hp'
        cases hp'
        exact ⟨a, r, q, List.mem_cons_self, hq1, hq2⟩
      · refine tail d' (by rw [hs3]) (by rw [hs3]; exact hh) (fun h => hRd hpc hm (h2 h)) (fun h => hsl.trans (h1 h)) hev

/-- **C69, the intended use.** Read a reaction file (with or without an override of the beam file), set up the generator, and generate any number of events,
with calls in between that concern the beam file: all events are events of the reaction that the file describes, with mass and t' from its picker function; with uniform
random numbers the masses are in the mass range of the file. -/
theorem protocol (e : Env P) (eps : ℝ) (eig : (Fin 4 → Fin 4 → ℝ) → (Fin 4 → ℝ) × (Fin 4 → Fin 4 → ℝ)) (hpos : ∀ p, 0 ≤ e.mass p) (override : String) (root : Group)
    (R : Reaction P) (hD : Describes e override root R) (hm : 0 < (R.final.map e.mass).getD 0 0 + (R.final.map e.mass).getD 1 0)
    (ht : 0 < e.mass R.target.target) (s1 s2 s3 : Mgr P) (rnds : ℕ → List PS.Randoms) (hr : RndsOk R.final.length rnds) (cs : List Call)
    (evs : List (EventOut P)) (h1 : readReactionFile e (some root) (overrideBeamFile override Mgr.new) = .ok (true, s1))
    (h2 : initializeGenerator e rnds s1 = .ok (some (true, s2))) (hcs : ∀ c ∈ cs, Plain R.final.length c) (h3 : run e eps eig s2 cs = .ok (some (evs, s3))) :
    ∀ ev ∈ evs, 0 < ev.beam.2.P → GoodEvent e R.beam R.target R.final ev ∧
      ∃ r q, Call.event r ∈ cs ∧ q ∈ r.picks ∧ R.picker.pick eps q = .ok (some (some (ev.xMass, ev.tPrime))) ∧
        (PickOk R.picker q → R.picker.ranges.massLo ≤ ev.xMass ∧ ev.xMass ≤ R.picker.ranges.massHi) := by
  obtain ⟨R', bv, hD', _, hs1⟩ := (read_iff e root _ s1).1 h1
  obtain rfl : R = R' := describes_unique hD hD'
  have hf1 : s1.finalState = R.final := by rw [hs1]; rfl
  have hp1 : s1.picker = some 0 := by rw [hs1]; rfl
  have hb1 : s1.beam = some R.beam := by rw [hs1]; rfl
  have ht1 : s1.target = some R.target := by rw [hs1]; rfl
  have hh1 : s1.heap = [R.picker] := by rw [hs1]; rfl
  rcases init_shape e rnds s1 s2 true h2 with ⟨hc, _⟩ | ⟨_, _, B, T, d, hB, hT, hs2⟩
  · cases hc
  rw [hb1] at hB
  rw [ht1] at hT
  cases hB
  cases hT
  have hg2 : s2.gen = some ⟨R.beam, R.target, some 0, R.final, d⟩ := by rw [hs2, hp1, hf1]
  have hready : 2 ≤ R.final.length → Ready d.ps (R.final.map e.mass) := by
    intro hl
    obtain ⟨lo, hi, d', _, _, ⟨B, T, _, _, hs2'⟩, hRd, _⟩ := init_ready e rnds s1 s2 hpos (by rw [hf1]; exact hr) (by rw [hf1]; exact hl) (by rw [hf1]; exact hm) h2
    rw [hs2'] at hg2
    have := congrArg GenObj.diff (Option.some.inj hg2)
    dsimp only at this
    rw [← this, ← hf1]
    exact hRd
  intro ev hev hmoves
  obtain ⟨a, r, q, b1, b2, b3⟩ := plain_run e eps eig hpos R hm ht cs s2 s3 evs d hg2 (by rw [hs2]; exact hh1) hready
    (fun hl => init_single e rnds s1 s2 (by rw [hf1]; exact hl) d R.beam R.target h2 hs2) hcs h3 ev hev hmoves
  exact ⟨a, r, q, b1, b2, b3, fun hok => pick_mass eps R.picker q _ b3 hok (picker_init hD.hpicker).2⟩

end Rpwa.Mgr
