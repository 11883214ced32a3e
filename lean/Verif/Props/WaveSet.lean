import Verif.Lemmas.WaveSet
import Verif.Props.Vertex
/-! # C17: wave-set generation is sound, complete and free of duplicates -/
namespace Rpwa.WaveSet
open Rpwa.Particle Rpwa.Spin
open Rpwa.Vertex (CgTest)
open Rpwa.Clebsch (racah)

/-- the coupling test of the running program agrees with the exact one for all isospins below the size of the
Clebsch-Gordan table, whatever was requested before. -/
theorem cgTest_exact (ops : List Clebsch.Op) (s : Clebsch.State) (h : Clebsch.run Clebsch.init ops = some s)
    (j1 m1 j2 m2 J M : ℤ) (hb : j1 < 18 ∧ j2 < 18 ∧ J < 18) :
    Vertex.cgTest s j1 m1 j2 m2 J M = exactCg j1 m1 j2 m2 J M := by
  rw [Bool.eq_iff_iff, exactCg_iff]
  unfold Vertex.cgTest
  rcases Clebsch.request_after_any_history ops s h j1 m1 j2 m2 J M with ⟨_, hb', _⟩ | ⟨_, s', hs⟩
  · omega
  · rw [hs]; simp

/-! ### one vertex -/

private theorem wanted_eq (parent a b : Props) (L J I : ℤ) (ha : Regular a) (hb : Regular b) (hJ : 0 ≤ J) (hI : 0 ≤ I) :
    isobarProp parent a b L J I = wanted parent a b J I (parentG a b) (parentP a b L) (parentC a b I) := by
  have hG := tri_mul ha.g hb.g
  have hP : parentP a b L = -1 ∨ parentP a b L = 0 ∨ parentP a b L = 1 := by
    unfold parentP; rw [powMinusOne_msgn]; exact tri_msgn _ (tri_mul ha.par hb.par)
  have hC : parentC a b I = -1 ∨ parentC a b I = 0 ∨ parentC a b I = 1 := by
    have h := parentC_spec a b I (Or.inr hI)
    by_cases hn : FlavourNeutral a b
    · rw [h.1 hn]; exact tri_msgn _ hG
    · rw [h.2 hn]; simp
  unfold isobarProp wanted
  rw [signum_tri hP, signum_tri hC, signum_tri (z := parentG a b) hG, Int.natAbs_of_nonneg hJ, Int.natAbs_of_nonneg hI]

private theorem setCharge_ok {p q : Props} {c : ℤ} (h : p.setCharge c = .ok q) : q = { p with charge := c } ∧ c.natAbs < 10 := by
  unfold Props.setCharge at h
  split_ifs at h with hc
  cases h; exact ⟨rfl, hc⟩

/-- the parent particles built for fixed daughters and quantum numbers (specification side) -/
inductive Built (cfg : Cfg) (t : Table) (parent : Part) (md : Name) (d1 d2 : Decay) (L S J I G P C : ℤ) : Decay → Prop
  | x {M r : ℤ} : isX parent.props = true → MReflAllowed cfg J P M r →
      Built cfg t parent md d1 d2 L S J I G P C
        (.node { parent with
                  props := { wanted parent.props d1.top.props d2.top.props J I G P C with
                              charge := d1.top.props.charge + d2.top.props.charge },
                  spinProj := M, refl := r } L S md d1 d2)
  | isobar {m : Name} {iso : Props} : isX parent.props = false →
      (∃ n, (n, iso) ∈ t) →
      Selected (wanted parent.props d1.top.props d2.top.props J I G P C) "allQn" (MinMass cfg d1.top.props d2.top.props)
        cfg.massWindow cfg.whiteList cfg.blackList
        { daughters := {d1.top.props.fullName, d2.top.props.fullName}, L := L, S := S } cfg.forceDecayCheck iso →
      MassDepAllowed iso d1.top.props d2.top.props L S m →
      Built cfg t parent md d1 d2 L S J I G P C
        (.node { parent with props := { iso with charge := d1.top.props.charge + d2.top.props.charge } } L S m d1 d2)

private theorem agree_all {a b : Props} {mm mf : Rat} {wl bl : List Name} {d : DecayMode} {f : Bool}
    (h : Selected b "allQn" mm mf wl bl d f a) :
    a.charge = b.charge ∧ a.baryonNmb = b.baryonNmb ∧ a.isospin = b.isospin ∧ a.strangeness = b.strangeness ∧
    a.charm = b.charm ∧ a.beauty = b.beauty ∧ a.G = b.G ∧ a.J = b.J ∧ a.P = b.P ∧ a.C = b.C := by
  have key := fun k hk => h.qn k hk (Or.inl (List.infix_refl _))
  exact ⟨key "charge" (by decide), key "baryonNmb" (by decide), key "I" (by decide), key "strangeness" (by decide),
    key "charm" (by decide), key "beauty" (by decide), key "G" (by decide), key "J" (by decide), key "P" (by decide),
    key "C" (by decide)⟩

def dL : Decay → ℤ | .fs _ => 0 | .node _ L _ _ _ _ => L
def dS : Decay → ℤ | .fs _ => 0 | .node _ _ S _ _ _ => S
def dD1 : Decay → Decay | .fs p => .fs p | .node _ _ _ _ d _ => d
def dD2 : Decay → Decay | .fs p => .fs p | .node _ _ _ _ _ d => d

/-- no entry of the table requests a mass dependence by one of its two deprecated names -/
def NoDeprecated (t : Table) : Prop := ∀ e ∈ t, ∀ d ∈ e.2.decays, ∀ n ∈ d.massDeps, ¬ deprecated n

private theorem table_nodup (t : Table) (h : WfTable t) : (t.map Prod.snd).Nodup := by
  have h1 : (t.map (fun e => e.2.fullName)).Nodup := by
    have : t.map (fun e => e.2.fullName) = t.map Prod.fst := List.map_congr_left fun e he => h.2 e he
    rw [this, List.Nodup, List.pairwise_map]
    exact h.1.imp fun hab => ne_of_lt hab
  have h2 : t.map (fun e => e.2.fullName) = (t.map Prod.snd).map Props.fullName := by simp
  rw [h2] at h1
  exact h1.of_map _

theorem buildParents_spec (cfg : Cfg) (t : Table) (parent : Part) (md : Name) (d1 d2 : Decay) (S L J I : ℤ)
    (hp : Regular parent.props) (hmd : isX parent.props = false → md = bwName)
    (ht : ∀ e ∈ t, Regular e.2)
    (h1 : Regular d1.top.props) (h2 : Regular d2.top.props) (hJ : 0 ≤ J) (hI : 0 ≤ I) (r : List Decay)
    (h : buildParents cfg t parent md d1 d2 S L J I = .ok r) :
    (∀ D, D ∈ r ↔ Built cfg t parent md d1 d2 L S J I (parentG d1.top.props d2.top.props)
        (parentP d1.top.props d2.top.props L) (parentC d1.top.props d2.top.props I) D) ∧
    (∀ D ∈ r, Regular D.top.props ∧ dL D = L ∧ dS D = S ∧ D.top.props.J = J ∧ D.top.props.isospin = I ∧ dD1 D = d1 ∧
      dD2 D = d2) ∧
    (WfTable t → NoDeprecated t → r.Nodup) := by
  have hG := tri_mul h1.g h2.g
  have hP : parentP d1.top.props d2.top.props L = -1 ∨ parentP d1.top.props d2.top.props L = 0 ∨
      parentP d1.top.props d2.top.props L = 1 := by
    unfold parentP; rw [powMinusOne_msgn]; exact tri_msgn _ (tri_mul h1.par h2.par)
  have hC : parentC d1.top.props d2.top.props I = -1 ∨ parentC d1.top.props d2.top.props I = 0 ∨
      parentC d1.top.props d2.top.props I = 1 := by
    have h := parentC_spec d1.top.props d2.top.props I (Or.inr hI)
    by_cases hn : FlavourNeutral d1.top.props d2.top.props
    · rw [h.1 hn]; exact tri_msgn _ hG
    · rw [h.2 hn]; simp
  unfold buildParents at h
  simp only [wanted_eq parent.props d1.top.props d2.top.props L J I h1 h2 hJ hI] at h
  generalize hw : wanted parent.props d1.top.props d2.top.props J I (parentG d1.top.props d2.top.props)
    (parentP d1.top.props d2.top.props L) (parentC d1.top.props d2.top.props I) = w at h
  generalize hc : d1.top.props.charge + d2.top.props.charge = c at h
  by_cases hx : isX parent.props = true
  · rw [if_pos hx] at h
    have step : ∀ mr x, (do
        let q ← w.setCharge c
        return [Decay.node { parent with props := q, spinProj := mr.1, refl := mr.2 } L S md d1 d2] : Outcome (List Decay))
        = .ok x → c.natAbs < 10 ∧
        x = [Decay.node { parent with props := { w with charge := c }, spinProj := (mr : ℤ × ℤ).1, refl := mr.2 } L S md d1 d2] := by
      intro mr x hx
      cases hq : w.setCharge c with
      | ok q =>
        rw [hq] at hx; simp at hx
        obtain ⟨e1, e2⟩ := setCharge_ok hq
        exact ⟨e2, by rw [← hx, e1]⟩
      | terminate => rw [hq] at hx; simp at hx
      | ub => rw [hq] at hx; simp at hx
    refine ⟨fun D => ?_, fun D hD => ?_, fun _ _ => ?_⟩
    · rw [mem_forEach h]
      constructor
      · rintro ⟨⟨M, rr⟩, hm, x, hxe, hD⟩
        obtain ⟨_, rfl⟩ := step _ _ hxe
        rw [List.mem_singleton] at hD
        subst hD
        rw [mem_mReflList _ _ _ _ _ hJ hP] at hm
        have := Built.x (t := t) (md := md) (d1 := d1) (d2 := d2) (L := L) (S := S) (I := I)
          (G := parentG d1.top.props d2.top.props) (C := parentC d1.top.props d2.top.props I) hx hm
        rw [hw, hc] at this
        exact this
      · intro hB
        cases hB with
        | x _ hm =>
          rw [← mem_mReflList _ _ _ _ _ hJ hP] at hm
          obtain ⟨x, hxe⟩ := ok_of_forEach h _ hm
          refine ⟨_, hm, x, hxe, ?_⟩
          obtain ⟨_, rfl⟩ := step _ _ hxe
          rw [hw, hc, List.mem_singleton]
        | isobar hnx => rw [hx] at hnx; simp at hnx
    · obtain ⟨mr, hm, x, hxe, hD⟩ := (mem_forEach h D).1 hD
      obtain ⟨hc10, rfl⟩ := step _ _ hxe
      rw [List.mem_singleton] at hD
      subst hD
      subst hw
      exact ⟨⟨hp.nm, hp.an, hc10, hp.m2, hI, hJ, tri_mem hG, tri_mem hP, tri_mem hC⟩, rfl, rfl, rfl, rfl, rfl, rfl⟩
    · refine nodup_forEach (fun D => (D.top.spinProj, D.top.refl)) id h (by simpa using nodup_mReflList cfg J _) ?_
      intro mr _ x hxe
      obtain ⟨_, rfl⟩ := step _ _ hxe
      simp [Decay.top]
  · rw [if_neg hx] at h
    have hx' : isX parent.props = false := by simpa using hx
    have hmd' := hmd hx'
    subst hmd'
    have step : ∀ (iso : Props) (x : List Decay), (do
        let q ← iso.setCharge c
        let mds ← setMassDeps bwName iso (decayModeOf d1.top.props d2.top.props L S)
        return mds.map fun m => Decay.node { parent with props := q } L S m d1 d2 : Outcome (List Decay)) = .ok x →
        c.natAbs < 10 ∧ ∃ mds, setMassDeps bwName iso (decayModeOf d1.top.props d2.top.props L S) = .ok mds ∧
          x = mds.map fun m => Decay.node { parent with props := { iso with charge := c } } L S m d1 d2 := by
      intro iso x hxe
      cases hq : iso.setCharge c with
      | ok q =>
        rw [hq] at hxe
        obtain ⟨e1, e2⟩ := setCharge_ok hq
        cases hs : setMassDeps bwName iso (decayModeOf d1.top.props d2.top.props L S) with
        | ok mds =>
          rw [hs] at hxe; simp at hxe
          exact ⟨e2, mds, rfl, by rw [← hxe, e1]⟩
        | terminate => rw [hs] at hxe; simp at hxe
        | ub => rw [hs] at hxe; simp at hxe
      | terminate => rw [hq] at hxe; simp at hxe
      | ub => rw [hq] at hxe; simp at hxe
    refine ⟨fun D => ?_, fun D hD => ?_, fun hwf hnd => ?_⟩
    · rw [mem_forEach h]
      constructor
      · rintro ⟨iso, hm, x, hxe, hD⟩
        obtain ⟨_, mds, hs, rfl⟩ := step _ _ hxe
        obtain ⟨m, hmm, rfl⟩ := List.mem_map.1 hD
        rw [mem_entriesMatching] at hm
        have hma := ((setMassDeps_spec _ _ _ _ _ _ hs).1 m).1 hmm
        rw [← hc]
        refine Built.isobar hx' hm.1 ?_ hma
        rw [hw]; exact hm.2
      · intro hB
        cases hB with
        | x hxx => rw [hx'] at hxx; simp at hxx
        | @isobar m iso _ hin hsel hma =>
          rw [hw] at hsel
          have hm : iso ∈ entriesMatching t w "allQn" (minIsobarMass cfg d1.top.props d2.top.props) cfg.massWindow
              cfg.whiteList cfg.blackList (decayModeOf d1.top.props d2.top.props L S) cfg.forceDecayCheck :=
            (mem_entriesMatching _ _ _ _ _ _ _ _ _ _).2 ⟨hin, hsel⟩
          obtain ⟨x, hxe⟩ := ok_of_forEach h _ hm
          refine ⟨_, hm, x, hxe, ?_⟩
          obtain ⟨_, mds, hs, rfl⟩ := step _ _ hxe
          rw [hc]
          exact List.mem_map.2 ⟨m, ((setMassDeps_spec _ _ _ _ _ _ hs).1 m).2 hma, rfl⟩
    · obtain ⟨iso, hm, x, hxe, hD⟩ := (mem_forEach h D).1 hD
      obtain ⟨hc10, mds, hs, rfl⟩ := step _ _ hxe
      obtain ⟨m, hmm, rfl⟩ := List.mem_map.1 hD
      rw [mem_entriesMatching] at hm
      obtain ⟨⟨n, hn⟩, hsel⟩ := hm
      have hr := ht _ hn
      have ha := agree_all hsel
      subst hw
      refine ⟨⟨hr.nm, hr.an, hc10, hr.m2, hr.iso, hr.spin, hr.g, hr.par, hr.c⟩, rfl, rfl, ?_, ?_, rfl, rfl⟩
      · exact ha.2.2.2.2.2.2.2.1
      · exact ha.2.2.1
    · refine nodup_forEach (fun D => D.top.props) (fun iso : Props => { iso with charge := c }) h ?_ ?_
      · have hnd' : (entriesMatching t w "allQn" (minIsobarMass cfg d1.top.props d2.top.props) cfg.massWindow
            cfg.whiteList cfg.blackList (decayModeOf d1.top.props d2.top.props L S) cfg.forceDecayCheck).Nodup := by
          classical
          rw [entriesMatching_spec]
          exact (table_nodup t hwf).filter _
        rw [List.nodup_map_iff_inj_on hnd']
        intro i hi j hj hij
        rw [mem_entriesMatching] at hi hj
        have e1 := (agree_all hi.2).1
        have e2 := (agree_all hj.2).1
        have : i.charge = j.charge := e1.trans e2.symm
        cases i; cases j
        simp only [Props.mk.injEq] at hij ⊢
        simp_all
      · intro iso hm x hxe
        obtain ⟨_, mds, hs, rfl⟩ := step _ _ hxe
        rw [mem_entriesMatching] at hm
        obtain ⟨⟨n, hn⟩, -⟩ := hm
        refine ⟨?_, ?_⟩
        · have := (setMassDeps_spec _ _ _ _ _ _ hs).2 (hnd _ hn)
          exact this.map (fun a b hab => by simpa using hab)
        · intro D hD
          obtain ⟨m, _, rfl⟩ := List.mem_map.1 hD
          rfl

theorem pairDecays_spec (cfg : Cfg) (t : Table) (parent : Part) (md : Name) (d1 d2 : Decay)
    (hL : 2 ∣ cfg.LRange.1) (hp : Regular parent.props) (hmd : isX parent.props = false → md = bwName)
    (ht : ∀ e ∈ t, Regular e.2) (h1 : Regular d1.top.props) (h2 : Regular d2.top.props) (r : List Decay)
    (h : pairDecays cfg exactCg t parent md d1 d2 = .ok r) :
    (∀ D, D ∈ r ↔ ∃ L S J I G P C, VertexAllowed cfg d1.top d2.top L S J I G P C ∧
      Built cfg t parent md d1 d2 L S J I G P C D) ∧
    (∀ D ∈ r, Regular D.top.props ∧ dD1 D = d1 ∧ dD2 D = d2) ∧
    (WfTable t → NoDeprecated t → r.Nodup) := by
  unfold pairDecays at h
  dsimp only at h
  have memL : ∀ L, L ∈ stepBy2 (max 0 cfg.LRange.1) cfg.LRange.2 ↔ 2 ∣ L ∧ 0 ≤ L ∧ In cfg.LRange L := by
    intro L; rw [mem_stepBy2]; unfold In
    rcases le_total 0 cfg.LRange.1 with hl | hl
    · rw [max_eq_right hl]; omega
    · rw [max_eq_left hl]; omega
  -- one innermost iteration
  have inner : ∀ S L J I x, S ∈ stepBy2 (getSpinRangeIn d1.top.props.J d2.top.props.J cfg.SRange.1 cfg.SRange.2).lo
        (getSpinRangeIn d1.top.props.J d2.top.props.J cfg.SRange.1 cfg.SRange.2).hi →
      L ∈ stepBy2 (max 0 cfg.LRange.1) cfg.LRange.2 →
      J ∈ stepBy2 (getSpinRangeIn L S cfg.JRange.1 cfg.JRange.2).lo (getSpinRangeIn L S cfg.JRange.1 cfg.JRange.2).hi →
      I ∈ stepBy2 (getSpinRangeIn d1.top.props.isospin d2.top.props.isospin cfg.isospinRange.1 cfg.isospinRange.2).lo
        (getSpinRangeIn d1.top.props.isospin d2.top.props.isospin cfg.isospinRange.1 cfg.isospinRange.2).hi →
      (do
        let keep ← qnFilter cfg exactCg d1.top d2.top S L J I
        if keep then buildParents cfg t parent md d1 d2 S L J I else return [] : Outcome (List Decay)) = .ok x →
      (∀ D, D ∈ x ↔ (∃ G P C, VertexAllowed cfg d1.top d2.top L S J I G P C ∧
        Built cfg t parent md d1 d2 L S J I G P C D)) ∧
      (∀ D ∈ x, Regular D.top.props ∧ dL D = L ∧ dS D = S ∧ D.top.props.J = J ∧ D.top.props.isospin = I ∧ dD1 D = d1 ∧
        dD2 D = d2) ∧
      (WfTable t → NoDeprecated t → x.Nodup) := by
    intro S L J I x hS hLm hJ hI hx
    rw [mem_spinRangeIn] at hS hJ hI
    rw [memL] at hLm
    have hI0 : 0 ≤ I := by have := hI.1.1; have := hI.1.2.1; omega
    have hJ0 : 0 ≤ J := by have := hJ.1.1; have := hJ.1.2.1; omega
    obtain ⟨b, hb, hbiff⟩ := qnFilter_spec cfg d1.top d2.top S L J I h1 h2 ⟨hLm.1, hLm.2.1⟩ hS.1 hI.1
    rw [hb] at hx
    have hva : b = true ↔ ∃ G P C, VertexAllowed cfg d1.top d2.top L S J I G P C := by
      rw [hbiff]
      have hCs := parentC_spec d1.top.props d2.top.props I (Or.inr hI0)
      constructor
      · rintro ⟨f1, f2, f3, f4⟩
        exact ⟨parentG d1.top.props d2.top.props, parentP d1.top.props d2.top.props L,
          parentC d1.top.props d2.top.props I, hS, hLm, hJ, hI, f1,
          by unfold parentP; rw [powMinusOne_msgn, Int.tdiv_eq_ediv_of_nonneg hLm.2.1], rfl, hCs, f2, f3, f4⟩
      · rintro ⟨G, P, C, va⟩
        have eG : parentG d1.top.props d2.top.props = G := va.gParity.symm
        have eP : parentP d1.top.props d2.top.props L = P := by
          unfold parentP; rw [powMinusOne_msgn, Int.tdiv_eq_ediv_of_nonneg hLm.2.1]; exact va.parity.symm
        rw [eG, eP]
        exact ⟨va.isospinCG, va.exotic, va.particleAntiparticle, va.identical⟩
    have huniq : ∀ G P C, VertexAllowed cfg d1.top d2.top L S J I G P C → G = parentG d1.top.props d2.top.props ∧
        P = parentP d1.top.props d2.top.props L ∧ C = parentC d1.top.props d2.top.props I := by
      intro G P C va
      refine ⟨va.gParity, ?_, ?_⟩
      · unfold parentP; rw [powMinusOne_msgn, Int.tdiv_eq_ediv_of_nonneg hLm.2.1]; exact va.parity
      · have hCs := parentC_spec d1.top.props d2.top.props I (Or.inr hI0)
        by_cases hn : FlavourNeutral d1.top.props d2.top.props
        · rw [va.cParity.1 hn, hCs.1 hn, va.gParity]; rfl
        · rw [va.cParity.2 hn, hCs.2 hn]
    cases b with
    | false =>
      simp at hx; subst hx
      have hno : ¬ ∃ G P C, VertexAllowed cfg d1.top d2.top L S J I G P C := by rw [← hva]; simp
      refine ⟨fun D => ?_, by simp, by simp⟩
      simp only [List.not_mem_nil, false_iff]
      rintro ⟨G, P, C, va, -⟩; exact hno ⟨G, P, C, va⟩
    | true =>
      simp only [Outcome.ok_bind, if_true] at hx
      obtain ⟨k1, k2, k3⟩ := buildParents_spec cfg t parent md d1 d2 S L J I hp hmd ht h1 h2 hJ0 hI0 x hx
      refine ⟨fun D => ?_, k2, k3⟩
      rw [k1]
      obtain ⟨G, P, C, va⟩ := hva.1 rfl
      obtain ⟨rfl, rfl, rfl⟩ := huniq G P C va
      constructor
      · intro hB; exact ⟨_, _, _, va, hB⟩
      · rintro ⟨G, P, C, va', hB⟩
        obtain ⟨rfl, rfl, rfl⟩ := huniq G P C va'
        exact hB
  -- membership in the nested loops
  have path : ∀ D, D ∈ r → ∃ S L J I x, S ∈ stepBy2 (getSpinRangeIn d1.top.props.J d2.top.props.J cfg.SRange.1 cfg.SRange.2).lo
        (getSpinRangeIn d1.top.props.J d2.top.props.J cfg.SRange.1 cfg.SRange.2).hi ∧
      L ∈ stepBy2 (max 0 cfg.LRange.1) cfg.LRange.2 ∧
      J ∈ stepBy2 (getSpinRangeIn L S cfg.JRange.1 cfg.JRange.2).lo (getSpinRangeIn L S cfg.JRange.1 cfg.JRange.2).hi ∧
      I ∈ stepBy2 (getSpinRangeIn d1.top.props.isospin d2.top.props.isospin cfg.isospinRange.1 cfg.isospinRange.2).lo
        (getSpinRangeIn d1.top.props.isospin d2.top.props.isospin cfg.isospinRange.1 cfg.isospinRange.2).hi ∧
      (do
        let keep ← qnFilter cfg exactCg d1.top d2.top S L J I
        if keep then buildParents cfg t parent md d1 d2 S L J I else return [] : Outcome (List Decay)) = .ok x ∧ D ∈ x := by
    intro D hD
    obtain ⟨S, hS, x1, hx1, hD⟩ := (mem_forEach h D).1 hD
    obtain ⟨L, hL', x2, hx2, hD⟩ := (mem_forEach hx1 D).1 hD
    obtain ⟨J, hJ, x3, hx3, hD⟩ := (mem_forEach hx2 D).1 hD
    obtain ⟨I, hI, x4, hx4, hD⟩ := (mem_forEach hx3 D).1 hD
    exact ⟨S, L, J, I, x4, hS, hL', hJ, hI, hx4, hD⟩
  refine ⟨fun D => ⟨fun hD => ?_, ?_⟩, fun D hD => ?_, fun hwf hnd => ?_⟩
  · obtain ⟨S, L, J, I, x, hS, hL', hJ, hI, hx, hDx⟩ := path D hD
    obtain ⟨G, P, C, hv, hb⟩ := ((inner S L J I x hS hL' hJ hI hx).1 D).1 hDx
    exact ⟨L, S, J, I, G, P, C, hv, hb⟩
  · rintro ⟨L, S, J, I, G, P, C, hv, hb⟩
    have hS := (mem_spinRangeIn _ _ _ _ _).2 hv.totalSpin
    have hL' := (memL L).2 hv.orbital
    have hJ := (mem_spinRangeIn _ _ _ _ _).2 hv.angMom
    have hI := (mem_spinRangeIn _ _ _ _ _).2 hv.isospin
    obtain ⟨x1, hx1⟩ := ok_of_forEach h S hS
    obtain ⟨x2, hx2⟩ := ok_of_forEach hx1 L hL'
    obtain ⟨x3, hx3⟩ := ok_of_forEach hx2 J hJ
    obtain ⟨x4, hx4⟩ := ok_of_forEach hx3 I hI
    have hD : D ∈ x4 := ((inner S L J I x4 hS hL' hJ hI hx4).1 D).2 ⟨G, P, C, hv, hb⟩
    exact (mem_forEach h D).2 ⟨S, hS, x1, hx1, (mem_forEach hx1 D).2 ⟨L, hL', x2, hx2, (mem_forEach hx2 D).2
      ⟨J, hJ, x3, hx3, (mem_forEach hx3 D).2 ⟨I, hI, x4, hx4, hD⟩⟩⟩⟩
  · obtain ⟨S, L, J, I, x, hS, hL', hJ, hI, hx, hDx⟩ := path D hD
    have := (inner S L J I x hS hL' hJ hI hx).2.1 D hDx
    exact ⟨this.1, this.2.2.2.2.2.1, this.2.2.2.2.2.2⟩
  · refine nodup_forEach dS id h (by simpa using nodup_stepBy2 _ _) ?_
    intro S hS x1 hx1
    refine ⟨?_, ?_⟩
    · refine nodup_forEach dL id hx1 (by simpa using nodup_stepBy2 _ _) ?_
      intro L hL' x2 hx2
      refine ⟨?_, ?_⟩
      · refine nodup_forEach (fun D => D.top.props.J) id hx2 (by simpa using nodup_stepBy2 _ _) ?_
        intro J hJ x3 hx3
        refine ⟨?_, ?_⟩
        · refine nodup_forEach (fun D => D.top.props.isospin) id hx3 (by simpa using nodup_stepBy2 _ _) ?_
          intro I hI x4 hx4
          have hin := inner S L J I x4 hS hL' hJ hI hx4
          exact ⟨hin.2.2 hwf hnd, fun D hD => (hin.2.1 D hD).2.2.2.2.1⟩
        · intro D hD
          obtain ⟨I, hI, x4, hx4, hD⟩ := (mem_forEach hx3 D).1 hD
          exact ((inner S L J I x4 hS hL' hJ hI hx4).2.1 D hD).2.2.2.1
      · intro D hD
        obtain ⟨J, hJ, x3, hx3, hD⟩ := (mem_forEach hx2 D).1 hD
        obtain ⟨I, hI, x4, hx4, hD⟩ := (mem_forEach hx3 D).1 hD
        exact ((inner S L J I x4 hS hL' hJ hI hx4).2.1 D hD).2.1
    · intro D hD
      obtain ⟨L, hL', x2, hx2, hD⟩ := (mem_forEach hx1 D).1 hD
      obtain ⟨J, hJ, x3, hx3, hD⟩ := (mem_forEach hx2 D).1 hD
      obtain ⟨I, hI, x4, hx4, hD⟩ := (mem_forEach hx3 D).1 hD
      exact ((inner S L J I x4 hS hL' hJ hI hx4).2.1 D hD).2.2.1

/-- C17: for every particle table, every template decay tree and every configuration (with an integer lower limit of `L`):
if the generation ends normally, the generated waves are exactly the decays allowed by the rules, and - if no table entry
uses a deprecated mass-dependence name - no decay is generated twice. -/
theorem generated_waves (cfg : Cfg) (t : Table) (tmpl : Template) (hL : 2 ∣ cfg.LRange.1) (ht : ∀ e ∈ t, Regular e.2)
    (hw : tmpl.Wf) (waves : List Decay) (h : decays cfg exactCg t tmpl = .ok waves) :
    (∀ D, D ∈ waves ↔ IsWave cfg t tmpl D) ∧ (WfTable t → NoDeprecated t → waves.Nodup) ∧
    (∀ D ∈ waves, Regular D.top.props) := by
  induction tmpl generalizing waves with
  | fs p =>
    simp [decays] at h; subst h
    refine ⟨fun D => ?_, by simp, ?_⟩
    · rw [List.mem_singleton]
      constructor
      · rintro rfl; exact .fs p
      · intro hi; cases hi; rfl
    · intro D hD; rw [List.mem_singleton] at hD; subst hD; exact hw
  | node parent md t1 t2 ih1 ih2 =>
    obtain ⟨hp, hmd, hw1, hw2⟩ := hw
    unfold decays at h
    cases e1 : decays cfg exactCg t t1 with
    | terminate => rw [e1] at h; simp at h
    | ub => rw [e1] at h; simp at h
    | ok l1 =>
      cases e2 : decays cfg exactCg t t2 with
      | terminate => rw [e1, e2] at h; simp at h
      | ub => rw [e1, e2] at h; simp at h
      | ok l2 =>
        rw [e1, e2] at h
        simp only [Outcome.ok_bind] at h
        obtain ⟨a1, a2, a3⟩ := ih1 hw1 l1 e1
        obtain ⟨b1, b2, b3⟩ := ih2 hw2 l2 e2
        have hpair : ∀ d1 ∈ l1, ∀ d2 ∈ l2, ∀ r, pairDecays cfg exactCg t parent md d1 d2 = .ok r → _ :=
          fun d1 h1 d2 h2 r hr => pairDecays_spec cfg t parent md d1 d2 hL hp hmd ht (a3 d1 h1) (b3 d2 h2) r hr
        refine ⟨fun D => ⟨fun hD => ?_, fun hD => ?_⟩, fun hwf hnd => ?_, fun D hD => ?_⟩
        · obtain ⟨d1, h1, x, hx, hD⟩ := (mem_forEach h D).1 hD
          obtain ⟨d2, h2, y, hy, hD⟩ := (mem_forEach hx D).1 hD
          obtain ⟨L, S, J, I, G, P, C, hv, hb⟩ := ((hpair d1 h1 d2 h2 y hy).1 D).1 hD
          have i1 := (a1 d1).1 h1
          have i2 := (b1 d2).1 h2
          cases hb with
          | x hx hm => exact .x hx i1 i2 hv hm
          | isobar hx hin hsel hma => exact .isobar hx i1 i2 hv hin hsel hma
        · have main : ∀ d1 d2 L S J I G P C, IsWave cfg t t1 d1 → IsWave cfg t t2 d2 →
              VertexAllowed cfg d1.top d2.top L S J I G P C → Built cfg t parent md d1 d2 L S J I G P C D → D ∈ waves := by
            intro d1 d2 L S J I G P C i1 i2 hv hb
            have h1 := (a1 d1).2 i1
            have h2 := (b1 d2).2 i2
            obtain ⟨x, hx⟩ := ok_of_forEach h d1 h1
            obtain ⟨y, hy⟩ := ok_of_forEach hx d2 h2
            have := ((hpair d1 h1 d2 h2 y hy).1 D).2 ⟨L, S, J, I, G, P, C, hv, hb⟩
            exact (mem_forEach h D).2 ⟨d1, h1, x, hx, (mem_forEach hx D).2 ⟨d2, h2, y, hy, this⟩⟩
          cases hD with
          | x hx i1 i2 hv hm => exact main _ _ _ _ _ _ _ _ _ i1 i2 hv (.x hx hm)
          | isobar hx i1 i2 hv hin hsel hma => exact main _ _ _ _ _ _ _ _ _ i1 i2 hv (.isobar hx hin hsel hma)
        · refine nodup_forEach dD1 id h (by simpa using a2 hwf hnd) ?_
          intro d1 h1 x hx
          refine ⟨?_, ?_⟩
          · refine nodup_forEach dD2 id hx (by simpa using b2 hwf hnd) ?_
            intro d2 h2 y hy
            have hp := hpair d1 h1 d2 h2 y hy
            exact ⟨hp.2.2 hwf hnd, fun D hD => (hp.2.1 D hD).2.2⟩
          · intro D hD
            obtain ⟨d2, h2, y, hy, hD⟩ := (mem_forEach hx D).1 hD
            exact ((hpair d1 h1 d2 h2 y hy).2.1 D hD).2.1
        · obtain ⟨d1, h1, x, hx, hD⟩ := (mem_forEach h D).1 hD
          obtain ⟨d2, h2, y, hy, hD⟩ := (mem_forEach hx D).1 hD
          exact ((hpair d1 h1 d2 h2 y hy).2.1 D hD).1

/-! ### the generation ends normally -/

private theorem forEach_total {α β : Type} (l : List α) (f : α → Outcome (List β)) (h : ∀ a ∈ l, ∃ x, f a = .ok x) :
    ∃ r, forEach l f = .ok r := by
  induction l with
  | nil => exact ⟨[], rfl⟩
  | cons a as ih =>
    obtain ⟨x, hx⟩ := h a List.mem_cons_self
    obtain ⟨y, hy⟩ := ih fun b hb => h b (List.mem_cons_of_mem _ hb)
    exact ⟨x ++ y, by simp [forEach, hx, hy]⟩

private theorem massDepLoop_total (ns : List Name) (st : List Name × List Name) (h : ∀ n ∈ ns, ∃ m, MassDepOf n m) :
    ∃ st', massDepLoop ns st = .ok st' := by
  induction ns generalizing st with
  | nil => exact ⟨st, rfl⟩
  | cons n ns ih =>
    obtain ⟨u, o⟩ := st
    unfold massDepLoop
    have ih' := fun st => ih st fun k hk => h k (List.mem_cons_of_mem _ hk)
    split_ifs
    · exact ih' _
    · obtain ⟨m, hm⟩ := h n List.mem_cons_self
      rw [(create_iff n m).2 hm]
      exact ih' _

private theorem setMassDeps_total (dflt : Name) (iso : Props) (d : DecayMode)
    (h : ∀ e ∈ iso.decays, ∀ n ∈ e.massDeps, ∃ m, MassDepOf n m) : ∃ out, setMassDeps dflt iso d = .ok out := by
  have key : ∀ (ms : List DecayMode) (st : List Name × List Name),
      (∀ e ∈ ms, ∀ n ∈ e.massDeps, ∃ m, MassDepOf n m) → ∃ st', modeLoop dflt d ms st = .ok st' := by
    intro ms
    induction ms with
    | nil => intro st _; exact ⟨st, rfl⟩
    | cons e es ih =>
      intro st hk
      have ih' := fun st => ih st fun k hk' => hk k (List.mem_cons_of_mem _ hk')
      unfold modeLoop
      split_ifs
      · exact ih' _
      · obtain ⟨st1, h1⟩ := massDepLoop_total e.massDeps st (hk e List.mem_cons_self)
        rw [h1]; exact ih' _
      · exact ih' _
      · exact ih' _
  obtain ⟨⟨u, o⟩, hs⟩ := key iso.decays ([], []) h
  unfold setMassDeps
  rw [hs]
  cases o <;> exact ⟨_, rfl⟩

/-- sum of the absolute charges of the final-state particles -/
def Template.absCharge : Template → ℕ
  | .fs p => p.props.charge.natAbs
  | .node _ _ t1 t2 => t1.absCharge + t2.absCharge

/-- C17: the generation ends normally (in particular, its two `assert`s never fire) if the table requests only known mass
dependences and the final state has fewer than ten charges. -/
theorem generation_ends (cfg : Cfg) (t : Table) (tmpl : Template) (hL : 2 ∣ cfg.LRange.1) (ht : ∀ e ∈ t, Regular e.2)
    (hmd : ∀ e ∈ t, ∀ d ∈ e.2.decays, ∀ n ∈ d.massDeps, ∃ m, MassDepOf n m)
    (hw : tmpl.Wf) (hq : tmpl.absCharge < 10) : ∃ waves, decays cfg exactCg t tmpl = .ok waves := by
  have key : ∃ waves, decays cfg exactCg t tmpl = .ok waves ∧ ∀ D ∈ waves, D.top.props.charge.natAbs ≤ tmpl.absCharge := by
    induction tmpl with
    | fs p => exact ⟨[.fs p], rfl, by simp [Decay.top, Template.absCharge]⟩
    | node parent md t1 t2 ih1 ih2 =>
      have hw0 := hw
      obtain ⟨hp, hmdb, hw1, hw2⟩ := hw
      simp only [Template.absCharge] at hq ⊢
      obtain ⟨l1, e1, c1⟩ := ih1 hw1 (by omega)
      obtain ⟨l2, e2, c2⟩ := ih2 hw2 (by omega)
      have r1 := (generated_waves cfg t t1 hL ht hw1 l1 e1).2.2
      have r2 := (generated_waves cfg t t2 hL ht hw2 l2 e2).2.2
      have htot : ∃ r, forEach l1 (fun d1 => forEach l2 fun d2 => pairDecays cfg exactCg t parent md d1 d2) = .ok r := by
        refine forEach_total _ _ fun d1 h1 => forEach_total _ _ fun d2 h2 => ?_
        unfold pairDecays
        refine forEach_total _ _ fun S hS => forEach_total _ _ fun L hLm => forEach_total _ _ fun J hJ =>
          forEach_total _ _ fun I hI => ?_
        rw [mem_spinRangeIn] at hS hJ hI
        have hL' : 2 ∣ L ∧ 0 ≤ L := by
          rw [mem_stepBy2] at hLm
          rcases le_total 0 cfg.LRange.1 with hl | hl
          · rw [max_eq_right hl] at hLm; omega
          · rw [max_eq_left hl] at hLm; omega
        obtain ⟨b, hb, -⟩ := qnFilter_spec cfg d1.top d2.top S L J I (r1 d1 h1) (r2 d2 h2) hL' hS.1 hI.1
        rw [hb]
        have hc : (d1.top.props.charge + d2.top.props.charge).natAbs < 10 := by
          have := c1 d1 h1; have := c2 d2 h2; omega
        cases b with
        | false => exact ⟨[], rfl⟩
        | true =>
          simp only [Outcome.ok_bind, if_true]
          unfold buildParents
          dsimp only
          split_ifs
          · refine forEach_total _ _ fun mr _ => ?_
            exact ⟨_, by simp [Props.setCharge, hc]; rfl⟩
          · refine forEach_total _ _ fun iso hiso => ?_
            rw [mem_entriesMatching] at hiso
            obtain ⟨⟨n, hn⟩, -⟩ := hiso
            obtain ⟨out, ho⟩ := setMassDeps_total md iso (decayModeOf d1.top.props d2.top.props L S) (hmd _ hn)
            exact ⟨_, by simp [Props.setCharge, hc, ho]; rfl⟩
      obtain ⟨r, hr⟩ := htot
      have hdec : decays cfg exactCg t (.node parent md t1 t2) = .ok r := by
        unfold decays; rw [e1, e2]; exact hr
      refine ⟨r, hdec, fun D hD => ?_⟩
      have hi := ((generated_waves cfg t (.node parent md t1 t2) hL ht hw0 r hdec).1 D).1 hD
      cases hi with
      | x hx i1 i2 hv hm =>
        have h1 := c1 _ (((generated_waves cfg t t1 hL ht hw1 l1 e1).1 _).2 i1)
        have h2 := c2 _ (((generated_waves cfg t t2 hL ht hw2 l2 e2).1 _).2 i2)
        show (_ + _ : ℤ).natAbs ≤ _
        omega
      | isobar hx i1 i2 hv hin hsel hma =>
        have h1 := c1 _ (((generated_waves cfg t t1 hL ht hw1 l1 e1).1 _).2 i1)
        have h2 := c2 _ (((generated_waves cfg t t2 hL ht hw2 l2 e2).1 _).2 i2)
        show (_ + _ : ℤ).natAbs ≤ _
        omega
  exact ⟨_, key.choose_spec.1⟩

/-! ### non-vacuity: X → π⁺ π⁻ -/

def piP : Part := ⟨⟨['p', 'i'], ['p', 'i'], 1, 1/7, 1/49, 0, 0, 2, 0, 0, 0, -1, 0, -1, 0, []⟩, -1, 0, 0⟩
def piM : Part := ⟨⟨['p', 'i'], ['p', 'i'], -1, 1/7, 1/49, 0, 0, 2, 0, 0, 0, -1, 0, -1, 0, []⟩, -1, 0, 0⟩
def xPart : Part := ⟨⟨['X'], ['X'], 0, 0, 0, 0, 0, 0, 0, 0, 0, 0, 0, 0, 0, []⟩, -1, 0, 0⟩
def exTmpl : Template := .node xPart "flat".toList (.fs piP) (.fs piM)
def exCfg : Cfg := ⟨(0, 2), (0, 4), (0, 2), (0, 4), (0, 4), 0, true, false, false, 0, [], [], false⟩

theorem exTmpl_wf : exTmpl.Wf := by
  have hr : ∀ p : Props, p = piP.props ∨ p = piM.props ∨ p = xPart.props → Regular p := by
    rintro p (rfl | rfl | rfl)
    · exact ⟨⟨'i', by decide, by decide, by decide, by decide⟩, ⟨'i', by decide, by decide, by decide, by decide⟩,
        by decide, by simp [piP]; norm_num, by decide, by decide, by decide, by decide, by decide⟩
    · exact ⟨⟨'i', by decide, by decide, by decide, by decide⟩, ⟨'i', by decide, by decide, by decide, by decide⟩,
        by decide, by simp [piM]; norm_num, by decide, by decide, by decide, by decide, by decide⟩
    · exact ⟨⟨'X', by decide, by decide, by decide, by decide⟩, ⟨'X', by decide, by decide, by decide, by decide⟩,
        by decide, by simp [xPart], by decide, by decide, by decide, by decide, by decide⟩
  exact ⟨hr _ (by simp), by decide, hr _ (by simp), hr _ (by simp)⟩

/-- the generation ends and produces the ρ-like wave `1⁺(1⁻⁻) 1⁺` (P wave, natural parity exchange). -/
example : ∃ waves, decays exCfg exactCg [] exTmpl = .ok waves ∧ ∃ D ∈ waves, dL D = 2 ∧ D.top.props.J = 2 := by
  obtain ⟨waves, hw⟩ := generation_ends exCfg [] exTmpl (by decide) (by simp) (by simp) exTmpl_wf (by decide)
  refine ⟨waves, hw, ?_⟩
  have hiff := (generated_waves exCfg [] exTmpl (by decide) (by simp) exTmpl_wf waves hw).1
  have hva : VertexAllowed exCfg piP piM 2 0 2 2 1 (-1) (-1) := by
    refine ⟨⟨⟨by decide, by decide, by decide, 0, by decide⟩, by unfold In; decide⟩, ⟨by decide, by decide, by unfold In; decide⟩,
      ⟨⟨by decide, by decide, by decide, 0, by decide⟩, by unfold In; decide⟩,
      ⟨⟨by decide, by decide, by decide, 1, by decide⟩, by unfold In; decide⟩, Vertex.rho_racah, by decide, by decide, ?_, ?_,
      fun _ => by decide, ?_⟩
    · refine ⟨fun _ => by decide, fun h => absurd ?_ h⟩
      unfold FlavourNeutral; decide
    · intro _ he
      exact he.2.2.2.2.2.2 ⟨0, 1, Or.inr rfl, by decide, by decide, by decide, by decide, by decide⟩
    · intro h; exact absurd h.2.2.1 (by decide)
  have hm : MReflAllowed exCfg 2 (-1) 2 1 := by
    refine ⟨by unfold In; decide, by decide, by decide, by decide, fun _ => ⟨by decide, Or.inl rfl, by decide, by decide, ?_⟩⟩
    decide
  have := IsWave.x (t := []) (cfg := exCfg) (parent := xPart) (md := "flat".toList) (by decide) (.fs piP) (.fs piM) hva hm
  exact ⟨_, (hiff _).2 this, rfl, rfl⟩

/-! ### findings -/

/-- In the reflectivity basis the spin projection of a half-integer spin starts at `M = -1/2`, which `reflectivityFactor` then
rejects ("M < 0 is not allowed", factor 0). -/
theorem halfinteger_negative_M (cfg : Cfg) (hu : cfg.useReflectivity = true) (hr : 0 < cfg.reflectivity)
    (hm : cfg.MRange.1 ≤ -1 ∧ -1 ≤ cfg.MRange.2) (J P : ℤ) (hJ : 0 ≤ J) (hodd : ¬ 2 ∣ J) (hP : P = 1 ∨ P = -1) :
    (-1, 1) ∈ mReflList cfg J P ∧ reflectivityFactor J P (-1) 1 = 0 := by
  refine ⟨?_, ?_⟩
  · rw [mem_mReflList _ _ _ _ _ hJ (by omega)]
    refine ⟨hm, by omega, by omega, by simp [hu], fun _ => ⟨by simp [hodd], Or.inl rfl, fun _ => rfl, by omega, by omega⟩⟩
  · rcases hP with rfl | rfl <;> simp [reflectivityFactor]

example : ∃ cfg : Cfg, cfg.useReflectivity = true ∧ 0 < cfg.reflectivity ∧ cfg.MRange.1 ≤ -1 ∧ -1 ≤ cfg.MRange.2 :=
  ⟨⟨(0, 2), (0, 4), (-1, 1), (0, 4), (0, 4), 1, true, false, false, 0, [], [], false⟩, by decide⟩

/-- With a deprecated mass-dependence name in the table the same wave can be generated twice (the duplicate check at the end
then aborts the program). -/
theorem deprecated_name_duplicates :
    ∃ iso a b, setMassDeps bwName iso (decayModeOf a b 0 0) = .ok ["f0980BreitWigner".toList, "f0980BreitWigner".toList] := by
  refine ⟨{ Props.default with decays := [⟨{piP.props.fullName, piM.props.fullName}, 0, 0,
    ["f_0(980)".toList, "f0980BreitWigner".toList]⟩] }, piP.props, piM.props, ?_⟩
  decide

/-! ### removal of Bose duplicates and the uniqueness check -/

/-- partner relation that pairs every candidate wave with at most one other wave, mutually -/
structure Matching (n : ℕ) (candidate : ℕ → Bool) (partner : ℕ → ℕ → Bool) : Prop where
  symm : ∀ i j, i < n → j < n → i ≠ j → candidate i = true → partner i j = true → candidate j = true ∧ partner j i = true
  unique : ∀ i j k, i < n → j < n → k < n → candidate i = true → i ≠ j → i ≠ k → partner i j = true → partner i k = true → j = k

private theorem inner_one (n : ℕ) (partner : ℕ → ℕ → Bool) (hf : ℕ → Bool) (w : ℕ) (is : List ℕ) (hnd : is.Nodup)
    (hu : ∀ j ∈ is, ∀ k ∈ is, w ≠ j → w ≠ k → partner w j = true → partner w k = true → j = k)
    (s : Tags) (hs : ∀ j ∈ is, j ≠ w → partner w j = true → w ∉ s.1 ∧ w ∉ s.2 ∧ j ∉ s.1 ∧ j ∉ s.2) :
    ((∀ j ∈ is, j ≠ w → partner w j = false) ∧ innerLoop partner hf w is s = .ok s) ∨
    (∃ j ∈ is, j ≠ w ∧ partner w j = true ∧ innerLoop partner hf w is s =
      .ok (if hf w then (j :: s.1, w :: s.2) else (w :: s.1, j :: s.2))) := by
  induction is generalizing s with
  | nil => left; exact ⟨by simp, rfl⟩
  | cons i is ih =>
    rw [List.nodup_cons] at hnd
    unfold innerLoop
    by_cases hi : i ≠ w ∧ partner w i = true
    · right
      refine ⟨i, List.mem_cons_self, hi.1, hi.2, ?_⟩
      have hrest : ∀ s', innerLoop partner hf w is s' = .ok s' := by
        have hnone : ∀ j ∈ is, j ≠ w → partner w j = false := by
          intro j hj hjw
          by_contra hc
          have hc' : partner w j = true := by simpa using hc
          have := hu i List.mem_cons_self j (List.mem_cons_of_mem _ hj) hi.1.symm hjw.symm hi.2 hc'
          subst this; exact hnd.1 hj
        clear ih hu hs hnd
        induction is with
        | nil => intro s'; rfl
        | cons j js ih2 =>
          intro s'
          unfold innerLoop
          have : (j == w || !partner w j) = true := by
            by_cases hjw : j = w
            · simp [hjw]
            · simp [hnone j List.mem_cons_self hjw]
          rw [if_pos this]
          exact ih2 (fun k hk => hnone k (List.mem_cons_of_mem _ hk)) s'
      obtain ⟨q1, q2, q3, q4⟩ := hs i List.mem_cons_self hi.1 hi.2
      rw [if_neg (by simp [hi.1, hi.2])]
      by_cases hh : hf w = true
      · simp only [hh, if_true]
        rw [if_neg (by simp [q3, q2])]
        exact hrest _
      · simp only [hh]
        simp only [Bool.false_eq_true, if_false]
        rw [if_neg (by simp [q1, q4])]
        exact hrest _
    · have hcond : (i == w || !partner w i) = true := by
        by_cases hiw : i = w
        · simp [hiw]
        · have : partner w i = false := by
            by_contra hc; exact hi ⟨hiw, by simpa using hc⟩
          simp [this]
      rw [if_pos hcond]
      rcases ih hnd.2 (fun j hj k hk => hu j (List.mem_cons_of_mem _ hj) k (List.mem_cons_of_mem _ hk)) s
        (fun j hj => hs j (List.mem_cons_of_mem _ hj)) with ⟨h1, h2⟩ | ⟨j, hj, h1, h2, h3⟩
      · left
        refine ⟨fun j hj hjw => ?_, h2⟩
        rcases List.mem_cons.1 hj with rfl | hj
        · by_contra hc; exact hi ⟨hjw, by simpa using hc⟩
        · exact h1 j hj hjw
      · exact Or.inr ⟨j, List.mem_cons_of_mem _ hj, h1, h2, h3⟩

/-- C17 (Bose duplicates): if partner waves come in mutual pairs, the search for Bose duplicates does not abort, exactly one
wave of every pair is removed, and no other wave is removed. -/
theorem bose_removal (n : ℕ) (candidate : ℕ → Bool) (partner : ℕ → ℕ → Bool) (heavyFirst : ℕ → Bool)
    (hm : Matching n candidate partner) :
    ∃ rem, findBoseSymDecays n candidate partner heavyFirst = .ok rem ∧
      (∀ i ∈ rem, i < n ∧ candidate i = true ∧ ∃ j < n, j ≠ i ∧ partner i j = true ∧ j ∉ rem) ∧
      (∀ i < n, ∀ j < n, i ≠ j → candidate i = true → partner i j = true → (i ∈ rem ∧ j ∉ rem) ∨ (i ∉ rem ∧ j ∈ rem)) := by
  -- invariant of the outer loop
  let Inv : List ℕ → Tags → Prop := fun done s =>
    (∀ i, ¬ (i ∈ s.1 ∧ i ∈ s.2)) ∧
    (∀ i, i ∈ s.1 ∨ i ∈ s.2 → i < n ∧ candidate i = true ∧ ∃ j < n, j ≠ i ∧ partner i j = true ∧
      ((i ∈ s.1 ∧ j ∈ s.2) ∨ (i ∈ s.2 ∧ j ∈ s.1))) ∧
    (∀ i ∈ done, ∀ j < n, i ≠ j → candidate i = true → partner i j = true → i ∈ s.1 ∨ i ∈ s.2)
  have key : ∀ (ws done : List ℕ) (s : Tags), (∀ w ∈ ws, w < n) → (∀ w ∈ done, w < n) → Inv done s →
      ∃ s', outerLoop n candidate partner heavyFirst ws s = .ok s' ∧ Inv (done ++ ws) s' := by
    intro ws
    induction ws with
    | nil => intro done s _ _ hi; exact ⟨s, rfl, by simpa using hi⟩
    | cons w ws ih =>
      intro done s hws hdone hi
      obtain ⟨i1, i2, i3⟩ := hi
      have hwn := hws w List.mem_cons_self
      have hdone' : ∀ x ∈ done ++ [w], x < n := by
        intro x hx
        rcases List.mem_append.1 hx with hx | hx
        · exact hdone x hx
        · rw [List.mem_singleton] at hx; rw [hx]; exact hwn
      have hws' : ∀ x ∈ ws, x < n := fun x hx => hws x (List.mem_cons_of_mem _ hx)
      have fin : ∀ s', Inv (done ++ [w]) s' →
          ∃ s'', outerLoop n candidate partner heavyFirst ws s' = .ok s'' ∧ Inv (done ++ w :: ws) s'' := by
        intro s' hi'
        have := ih (done ++ [w]) s' hws' hdone' hi'
        simpa using this
      unfold outerLoop
      by_cases hskip : w ∈ s.1 ∨ w ∈ s.2 ∨ candidate w = false
      · have hc : (decide (w ∈ s.1) || decide (w ∈ s.2) || !candidate w) = true := by
          rcases hskip with h | h | h <;> simp [h]
        rw [if_pos hc]
        refine fin s ⟨i1, i2, fun i hi j hj hij hci hpij => ?_⟩
        rcases List.mem_append.1 hi with hi | hi
        · exact i3 i hi j hj hij hci hpij
        · rw [List.mem_singleton] at hi; subst hi
          rcases hskip with h | h | h
          · exact Or.inl h
          · exact Or.inr h
          · rw [h] at hci; simp at hci
      · push Not at hskip
        obtain ⟨k1, k2, k3⟩ := hskip
        have hcw : candidate w = true := by simpa using k3
        rw [if_neg (by simp [k1, k2, hcw])]
        have hs : ∀ j ∈ List.range n, j ≠ w → partner w j = true → w ∉ s.1 ∧ w ∉ s.2 ∧ j ∉ s.1 ∧ j ∉ s.2 := by
          intro j hj hjw hpj
          have hjn := List.mem_range.1 hj
          have hpart : ∀ h : (j ∈ s.1 ∨ j ∈ s.2), False := by
            intro h
            obtain ⟨_, hcj, k, hk, hkj, hpk, hcase⟩ := i2 j h
            have hb := hm.symm w j hwn hjn hjw.symm hcw hpj
            have : k = w := hm.unique j k w hjn hk hwn hcj hkj.symm hjw hpk hb.2
            subst this
            rcases hcase with ⟨_, h⟩ | ⟨_, h⟩
            · exact k2 h
            · exact k1 h
          exact ⟨k1, k2, fun h => hpart (Or.inl h), fun h => hpart (Or.inr h)⟩
        rcases inner_one n partner heavyFirst w (List.range n) List.nodup_range
          (fun j hj k hk h1 h2 => hm.unique w j k hwn (List.mem_range.1 hj) (List.mem_range.1 hk) hcw h1 h2) s hs with
          ⟨h1, h2⟩ | ⟨j, hj, hjw, hpj, h3⟩
        · rw [h2]
          refine fin s ⟨i1, i2, fun i hi j hj hij hci hpij => ?_⟩
          rcases List.mem_append.1 hi with hi | hi
          · exact i3 i hi j hj hij hci hpij
          · rw [List.mem_singleton] at hi; subst hi
            rw [h1 j (List.mem_range.2 hj) hij.symm] at hpij; simp at hpij
        · rw [h3]
          obtain ⟨q1, q2, q3, q4⟩ := hs j hj hjw hpj
          have hjn := List.mem_range.1 hj
          have hb := hm.symm w j hwn hjn hjw.symm hcw hpj
          refine fin _ ?_
          -- common treatment of the two orders
          have two : ∀ a b : ℕ, ((a = j ∧ b = w) ∨ (a = w ∧ b = j)) → Inv (done ++ [w]) (a :: s.1, b :: s.2) := by
            intro a b hab
            have hne : a ≠ b := by rcases hab with ⟨rfl, rfl⟩ | ⟨rfl, rfl⟩ <;> [exact hjw; exact hjw.symm]
            have ha : a ∉ s.1 ∧ a ∉ s.2 ∧ b ∉ s.1 ∧ b ∉ s.2 ∧ a < n ∧ b < n ∧ candidate a = true ∧ candidate b = true ∧
                partner a b = true ∧ partner b a = true := by
              rcases hab with ⟨rfl, rfl⟩ | ⟨rfl, rfl⟩
              · exact ⟨q3, q4, q1, q2, hjn, hwn, hb.1, hcw, hb.2, hpj⟩
              · exact ⟨q1, q2, q3, q4, hwn, hjn, hcw, hb.1, hpj, hb.2⟩
            obtain ⟨a1, a2, a3, a4, a5, a6, a7, a8, a9, a10⟩ := ha
            refine ⟨?_, ?_, ?_⟩
            · rintro i ⟨hi1, hi2⟩
              rcases List.mem_cons.1 hi1 with h1' | h1' <;> rcases List.mem_cons.1 hi2 with h2' | h2'
              · exact hne (h1'.symm.trans h2')
              · rw [h1'] at h2'; exact a2 h2'
              · rw [h2'] at h1'; exact a3 h1'
              · exact i1 i ⟨h1', h2'⟩
            · rintro i (hi | hi)
              · rcases List.mem_cons.1 hi with rfl | hi
                · exact ⟨a5, a7, b, a6, hne.symm, a9, Or.inl ⟨List.mem_cons_self, List.mem_cons_self⟩⟩
                · obtain ⟨x1, x2, k, x3, x4, x5, x6⟩ := i2 i (Or.inl hi)
                  refine ⟨x1, x2, k, x3, x4, x5, ?_⟩
                  rcases x6 with ⟨y1, y2⟩ | ⟨y1, y2⟩
                  · exact Or.inl ⟨List.mem_cons_of_mem _ y1, List.mem_cons_of_mem _ y2⟩
                  · exact Or.inr ⟨List.mem_cons_of_mem _ y1, List.mem_cons_of_mem _ y2⟩
              · rcases List.mem_cons.1 hi with rfl | hi
                · exact ⟨a6, a8, a, a5, hne, a10, Or.inr ⟨List.mem_cons_self, List.mem_cons_self⟩⟩
                · obtain ⟨x1, x2, k, x3, x4, x5, x6⟩ := i2 i (Or.inr hi)
                  refine ⟨x1, x2, k, x3, x4, x5, ?_⟩
                  rcases x6 with ⟨y1, y2⟩ | ⟨y1, y2⟩
                  · exact Or.inl ⟨List.mem_cons_of_mem _ y1, List.mem_cons_of_mem _ y2⟩
                  · exact Or.inr ⟨List.mem_cons_of_mem _ y1, List.mem_cons_of_mem _ y2⟩
            · intro i hi k hk hik hci hpik
              rcases List.mem_append.1 hi with hi | hi
              · rcases i3 i hi k hk hik hci hpik with h | h
                · exact Or.inl (List.mem_cons_of_mem _ h)
                · exact Or.inr (List.mem_cons_of_mem _ h)
              · rw [List.mem_singleton] at hi; subst hi
                rcases hab with ⟨rfl, rfl⟩ | ⟨rfl, rfl⟩
                · exact Or.inr List.mem_cons_self
                · exact Or.inl List.mem_cons_self
          by_cases hh : heavyFirst w = true
          · rw [if_pos hh]; exact two j w (Or.inl ⟨rfl, rfl⟩)
          · rw [if_neg hh]; exact two w j (Or.inr ⟨rfl, rfl⟩)
  obtain ⟨s, hs, i1, i2, i3⟩ := key (List.range n) [] ([], []) (fun w hw => List.mem_range.1 hw) (by simp)
    ⟨by simp, by simp, by simp⟩
  rw [List.nil_append] at i3
  refine ⟨s.1, by unfold findBoseSymDecays; rw [hs]; rfl, ?_, ?_⟩
  · intro i hi
    obtain ⟨x1, x2, k, x3, x4, x5, x6⟩ := i2 i (Or.inl hi)
    refine ⟨x1, x2, k, x3, x4, x5, ?_⟩
    rcases x6 with ⟨_, y⟩ | ⟨y, _⟩
    · exact fun hk => i1 k ⟨hk, y⟩
    · exact absurd ⟨hi, y⟩ (i1 i)
  · intro i hi j hj hij hci hpij
    have ht := i3 i (List.mem_range.2 hi) j hj hij hci hpij
    obtain ⟨x1, x2, k, x3, x4, x5, x6⟩ := i2 i ht
    have : k = j := hm.unique i k j hi x3 hj hci x4.symm hij x5 hpij
    subst this
    rcases x6 with ⟨y1, y2⟩ | ⟨y1, y2⟩
    · exact Or.inl ⟨y1, fun h => i1 k ⟨h, y2⟩⟩
    · exact Or.inr ⟨fun h => i1 i ⟨h, y1⟩, y2⟩

example : ∃ (candidate : ℕ → Bool) (partner : ℕ → ℕ → Bool), Matching 3 candidate partner ∧ partner 0 2 = true :=
  ⟨fun i => i ≠ 1, fun i j => (i = 0 && j = 2) || (i = 2 && j = 0),
   ⟨by intro i j hi hj; interval_cases i <;> interval_cases j <;> decide,
    by intro i j k hi hj hk; interval_cases i <;> interval_cases j <;> interval_cases k <;> decide⟩, by decide⟩

/-- C17 (uniqueness check): if the post-processing returns, the waves are the generated ones without the removed indices, in
the same order, and all wave names differ; it aborts exactly when two of the remaining waves have the same name. -/
theorem postProcess_spec {W N : Type} [DecidableEq N] (waves : List W) (name : W → N) (rem : List ℕ) :
    (∀ kept, postProcess waves name rem = .ok kept → kept.Sublist waves ∧ (kept.map name).Nodup ∧
      ∀ w, w ∈ kept ↔ ∃ i, i ∉ rem ∧ waves[i]? = some w) ∧
    (postProcess waves name rem = .terminate ∨ ∃ kept, postProcess waves name rem = .ok kept) := by
  unfold postProcess
  dsimp only
  refine ⟨fun kept hk => ?_, ?_⟩
  · split_ifs at hk with hn
    cases hk
    refine ⟨?_, hn, fun w => ?_⟩
    · have := (List.filter_sublist (l := waves.zipIdx) (p := fun x => decide (x.2 ∉ rem))).map Prod.fst
      rwa [List.zipIdx_map_fst] at this
    · simp only [List.mem_map, List.mem_filter, decide_eq_true_eq, Prod.exists, List.mem_zipIdx_iff_getElem?]
      constructor
      · rintro ⟨a, b, ⟨h1, h2⟩, rfl⟩; exact ⟨b, h2, h1⟩
      · rintro ⟨i, h1, h2⟩; exact ⟨w, i, ⟨h2, h1⟩, rfl⟩
  · split_ifs
    · exact Or.inr ⟨_, rfl⟩
    · exact Or.inl rfl

example : postProcess [10, 20, 30] (fun x : ℕ => x) [1] = .ok [10, 30] := by decide

/-- whatever the comparison of waves answers: if the search for Bose duplicates ends normally, no wave was removed twice, no
wave was kept for two removed ones, and for every removed wave exactly one is kept. -/
theorem bose_tags_once (n : ℕ) (candidate : ℕ → Bool) (partner : ℕ → ℕ → Bool) (heavyFirst : ℕ → Bool) (s : Tags)
    (h : outerLoop n candidate partner heavyFirst (List.range n) ([], []) = .ok s) :
    s.1.Nodup ∧ s.2.Nodup ∧ s.1.length = s.2.length := by
  let Inv : Tags → Prop := fun s => s.1.Nodup ∧ s.2.Nodup ∧ s.1.length = s.2.length
  have inner : ∀ (w : ℕ) (is : List ℕ) (s s' : Tags), Inv s → innerLoop partner heavyFirst w is s = .ok s' → Inv s' := by
    intro w is
    induction is with
    | nil => intro s s' hs h; unfold innerLoop at h; rw [← Outcome.ok.inj h]; exact hs
    | cons i is ih =>
      intro s s' hs h
      unfold innerLoop at h
      split at h
      · exact ih s s' hs h
      · have step : ∀ rem keep : ℕ, (if (decide (rem ∈ s.1) || decide (keep ∈ s.2)) = true then Outcome.terminate
            else innerLoop partner heavyFirst w is (rem :: s.1, keep :: s.2)) = .ok s' → Inv s' := by
          intro rem keep h
          split at h
          · exact absurd h (by simp)
          · rename_i hc
            simp only [Bool.or_eq_true, decide_eq_true_eq, not_or] at hc
            refine ih _ s' ⟨List.nodup_cons.2 ⟨hc.1, hs.1⟩, List.nodup_cons.2 ⟨hc.2, hs.2.1⟩, ?_⟩ h
            simp [hs.2.2]
        cases hf : heavyFirst w
        · rw [hf] at h; exact step _ _ h
        · rw [hf] at h; exact step _ _ h
  have outer : ∀ (ws : List ℕ) (s s' : Tags), Inv s → outerLoop n candidate partner heavyFirst ws s = .ok s' → Inv s' := by
    intro ws
    induction ws with
    | nil => intro s s' hs h; unfold outerLoop at h; rw [← Outcome.ok.inj h]; exact hs
    | cons w ws ih =>
      intro s s' hs h
      unfold outerLoop at h
      split at h
      · exact ih s s' hs h
      · cases hi : innerLoop partner heavyFirst w (List.range n) s with
        | ok t =>
          rw [hi] at h
          exact ih t s' (inner w _ s t hs hi) h
        | terminate => rw [hi] at h; exact absurd h (by simp)
        | ub => rw [hi] at h; exact absurd h (by simp)
  exact outer _ _ s ⟨List.nodup_nil, List.nodup_nil, rfl⟩ h

end Rpwa.WaveSet
