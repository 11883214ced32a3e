import Verif.Spec.WaveSet
import Mathlib.Tactic.Linarith
/-! Lemmas for C17. -/
namespace Rpwa.WaveSet
open Rpwa.Particle Rpwa.Spin
open Rpwa.Vertex (CgTest)
open Rpwa.Clebsch (racah)

/-! ### loops -/

theorem mem_forEach {α β : Type} {l : List α} {f : α → Outcome (List β)} {r : List β} (h : forEach l f = .ok r) (y : β) :
    y ∈ r ↔ ∃ a ∈ l, ∃ x, f a = .ok x ∧ y ∈ x := by
  induction l generalizing r with
  | nil => simp [forEach] at h; subst h; simp
  | cons a as ih =>
    simp only [forEach] at h
    cases hf : f a with
    | ok x =>
      rw [hf] at h
      cases hg : forEach as f with
      | ok z =>
        rw [hg] at h; simp at h; subst h
        rw [List.mem_append, ih hg]
        constructor
        · rintro (hy | ⟨b, hb, w, hw⟩)
          · exact ⟨a, List.mem_cons_self, x, hf, hy⟩
          · exact ⟨b, List.mem_cons_of_mem _ hb, w, hw⟩
        · rintro ⟨b, hb, w, hw, hy⟩
          rcases List.mem_cons.1 hb with rfl | hb
          · rw [hf] at hw; cases hw; exact Or.inl hy
          · exact Or.inr ⟨b, hb, w, hw, hy⟩
      | terminate => rw [hg] at h; simp at h
      | ub => rw [hg] at h; simp at h
    | terminate => rw [hf] at h; simp at h
    | ub => rw [hf] at h; simp at h

theorem ok_of_forEach {α β : Type} {l : List α} {f : α → Outcome (List β)} {r : List β} (h : forEach l f = .ok r) :
    ∀ a ∈ l, ∃ x, f a = .ok x := by
  induction l generalizing r with
  | nil => simp
  | cons a as ih =>
    simp only [forEach] at h
    cases hf : f a with
    | ok x =>
      rw [hf] at h
      cases hg : forEach as f with
      | ok z =>
        intro b hb
        rcases List.mem_cons.1 hb with rfl | hb
        · exact ⟨x, hf⟩
        · exact ih hg b hb
      | terminate => rw [hg] at h; simp at h
      | ub => rw [hg] at h; simp at h
    | terminate => rw [hf] at h; simp at h
    | ub => rw [hf] at h; simp at h

/-- a loop whose results remember the loop variable produces no duplicates. -/
theorem nodup_forEach {α β κ : Type} {l : List α} {f : α → Outcome (List β)} {r : List β} (key : β → κ) (g : α → κ)
    (h : forEach l f = .ok r) (hl : (l.map g).Nodup)
    (hf : ∀ a ∈ l, ∀ x, f a = .ok x → x.Nodup ∧ ∀ d ∈ x, key d = g a) : r.Nodup := by
  induction l generalizing r with
  | nil => simp [forEach] at h; subst h; simp
  | cons a as ih =>
    simp only [forEach] at h
    cases hfa : f a with
    | ok x =>
      rw [hfa] at h
      cases hg : forEach as f with
      | ok z =>
        rw [hg] at h; simp at h; subst h
        rw [List.map_cons, List.nodup_cons] at hl
        have h1 := hf a List.mem_cons_self x hfa
        refine List.nodup_append.2 ⟨h1.1, ih hg hl.2 (fun b hb => hf b (List.mem_cons_of_mem _ hb)), ?_⟩
        intro d hd e he hde
        subst hde
        obtain ⟨b, hb, w, hw, hdw⟩ := (mem_forEach hg d).1 he
        have h2 := (hf b (List.mem_cons_of_mem _ hb) w hw).2 d hdw
        apply hl.1
        rw [← h1.2 d hd, h2]
        exact List.mem_map_of_mem hb
      | terminate => rw [hg] at h; simp at h
      | ub => rw [hg] at h; simp at h
    | terminate => rw [hfa] at h; simp at h
    | ub => rw [hfa] at h; simp at h

/-! ### ranges -/

theorem mem_spinRangeIn (a b lo hi J : ℤ) :
    J ∈ stepBy2 (getSpinRangeIn a b lo hi).lo (getSpinRangeIn a b lo hi).hi ↔ Triangle a b J ∧ In (lo, hi) J := by
  by_cases hneg : a < 0 ∨ b < 0
  · have e : getSpinRange a b = ⟨0, -1, false⟩ := by unfold getSpinRange; simp; omega
    have : getSpinRangeIn a b lo hi = ⟨0, -1, false⟩ := by unfold getSpinRangeIn; rw [e]; rfl
    rw [this, mem_stepBy2]
    unfold Triangle
    constructor
    · intro h; simp only at h; omega
    · rintro ⟨⟨h1, h2, h3, -⟩, -⟩; omega
  · rw [(getSpinRangeIn_exact a b lo hi (by omega) (by omega)).1]; rfl

theorem nodup_stepBy2 (lo hi : ℤ) : (stepBy2 lo hi).Nodup :=
  (stepBy2_sorted lo hi).imp fun h => ne_of_lt h

theorem powMinusOne_msgn (n : ℤ) : powMinusOne n = msgn n := by
  unfold powMinusOne msgn
  by_cases h : n % 2 = 1
  · have h2 : ¬ (2 ∣ n) := by omega
    rw [if_pos (by simpa using h), if_neg h2]
  · have h2 : 2 ∣ n := by omega
    rw [if_neg (by simpa using h), if_pos h2]

theorem signum_tri {z : ℤ} (h : z = -1 ∨ z = 0 ∨ z = 1) : signum z = z := by
  rcases h with rfl | rfl | rfl <;> decide

theorem tri_mul {a b : ℤ} (ha : a ∈ [-1, 0, 1]) (hb : b ∈ [-1, 0, 1]) : a * b = -1 ∨ a * b = 0 ∨ a * b = 1 := by
  simp only [List.mem_cons, List.not_mem_nil, or_false] at ha hb
  rcases ha with rfl | rfl | rfl <;> rcases hb with rfl | rfl | rfl <;> decide

theorem tri_mem {z : ℤ} (h : z = -1 ∨ z = 0 ∨ z = 1) : z ∈ [-1, 0, 1] := by
  simp only [List.mem_cons, List.not_mem_nil, or_false]; exact h

theorem tri_msgn {z : ℤ} (n : ℤ) (h : z = -1 ∨ z = 0 ∨ z = 1) : z * msgn n = -1 ∨ z * msgn n = 0 ∨ z * msgn n = 1 := by
  unfold msgn
  split_ifs <;> rcases h with rfl | rfl | rfl <;> decide

theorem propsEq_iff (a b : Props) : propsEq a b = true ↔ SameParticle a b := by
  simp only [propsEq, SameParticle, Bool.and_eq_true, decide_eq_true_eq, and_assoc]

theorem partEq_iff (a b : Part) :
    partEq a b = true ↔ SameParticle a.props b.props ∧ a.spinProj = b.spinProj ∧ a.index = b.index ∧ a.refl = b.refl := by
  simp only [partEq, Bool.and_eq_true, decide_eq_true_eq, propsEq_iff, and_assoc]

theorem exotic_iff (I G J P : ℤ) (hG : G = -1 ∨ G = 0 ∨ G = 1) (hP : P = -1 ∨ P = 0 ∨ P = 1) :
    igjpIsExotic I G J P = true ↔ SpinExotic I G J P := by
  by_cases hu : P = 0 ∨ G = 0 ∨ I < 0 ∨ I % 2 = 1 ∨ J < 0 ∨ J % 2 = 1
  · rw [igjpIsExotic_undefined I G J P hu]
    simp only [Bool.false_eq_true, false_iff]
    rintro ⟨h1, h2, h3, h4, h5, h6, -⟩
    omega
  · have hI : I = 2 * ((I / 2).toNat : ℤ) := by omega
    have hJ : J = 2 * (J / 2) := by omega
    have key := igjpIsExotic_iff (I / 2).toNat G (J / 2) P (by omega) (by omega) (by omega)
    rw [← hI, ← hJ] at key
    rw [key]
    constructor
    · intro h; exact ⟨by omega, by omega, by omega, by omega, by omega, by omega, h⟩
    · intro h; exact h.2.2.2.2.2.2

/-! ### the quantum number filter -/

/-- the isospin coupling test in exact arithmetic -/
noncomputable def exactCg : CgTest := fun j1 m1 j2 m2 J M => by classical exact decide (racah j1 m1 j2 m2 J M ≠ 0)

theorem exactCg_iff (j1 m1 j2 m2 J M : ℤ) : exactCg j1 m1 j2 m2 J M = true ↔ racah j1 m1 j2 m2 J M ≠ 0 := by
  unfold exactCg; simp

theorem iz_eq (p : Props) : p.isospinProj = iz p := by unfold Props.isospinProj iz; ring
theorem parentIz_eq (a b : Props) : parentIz a b = iz a + iz b := by unfold parentIz iz; ring

theorem parentC_spec (a b : Props) (I : ℤ) (hI : 2 ∣ I ∨ 0 ≤ I) :
    (FlavourNeutral a b → parentC a b I = parentG a b * msgn (I / 2)) ∧ (¬ FlavourNeutral a b → parentC a b I = 0) := by
  have hd : I.tdiv 2 = I / 2 := by
    rcases hI with h | h
    · rw [Int.tdiv_eq_ediv_of_dvd h]
    · rw [Int.tdiv_eq_ediv_of_nonneg h]
  have hiff : ((a.baryonNmb + b.baryonNmb == 0) && (parentIz a b == 0) && (a.strangeness + b.strangeness == 0)
      && (a.charm + b.charm == 0) && (a.beauty + b.beauty == 0)) = true ↔ FlavourNeutral a b := by
    simp only [Bool.and_eq_true, beq_iff_eq, parentIz_eq, FlavourNeutral]; tauto
  constructor
  · intro h; unfold parentC; rw [if_pos (hiff.2 h), powMinusOne_msgn, hd]
  · intro h; unfold parentC; rw [if_neg (fun hc => h (hiff.1 hc))]

/-- the filters l.288-342 in the words of the specification; in particular the two `assert`s never fire. -/
theorem qnFilter_spec (cfg : Cfg) (a b : Part) (S L J I : ℤ) (ha : Regular a.props) (hb : Regular b.props)
    (hL : 2 ∣ L ∧ 0 ≤ L) (hS : Triangle a.props.J b.props.J S) (hI : Triangle a.props.isospin b.props.isospin I) :
    ∃ r, qnFilter cfg exactCg a b S L J I = .ok r ∧ (r = true ↔
      (racah a.props.isospin (iz a.props) b.props.isospin (iz b.props) I (iz a.props + iz b.props) ≠ 0 ∧
      (cfg.allowSpinExotics = false → ¬ SpinExotic I (parentG a.props b.props) J (parentP a.props b.props L)) ∧
      (SameParticle (conjugate b.props) a.props → parentG a.props b.props = msgn ((I + L + S) / 2)) ∧
      (SameParticle a.props b.props → a.index = b.index → a.spinProj = b.spinProj → a.refl = b.refl →
        msgn ((I + L + S) / 2) = msgn a.props.isospin))) := by
  have hG : parentG a.props b.props = -1 ∨ parentG a.props b.props = 0 ∨ parentG a.props b.props = 1 :=
    tri_mul ha.g hb.g
  have hP : parentP a.props b.props L = -1 ∨ parentP a.props b.props L = 0 ∨ parentP a.props b.props L = 1 := by
    unfold parentP; rw [powMinusOne_msgn]; exact tri_msgn _ (tri_mul ha.par hb.par)
  have hI0 : 0 ≤ I := by have := hI.1; have := hI.2.1; have := ha.iso; have := hb.iso; omega
  have hS0 : 0 ≤ S := by have := hS.1; have := hS.2.1; omega
  have hd : (I + L + S).tdiv 2 = (I + L + S) / 2 := Int.tdiv_eq_ediv_of_nonneg (by omega)
  unfold qnFilter
  rw [antiPart_conjugate b.props hb]
  simp only [iz_eq, parentIz_eq, powMinusOne_msgn, hd]
  by_cases h1 : racah a.props.isospin (iz a.props) b.props.isospin (iz b.props) I (iz a.props + iz b.props) = 0
  · refine ⟨false, ?_, by simp [h1]⟩
    have : exactCg a.props.isospin (iz a.props) b.props.isospin (iz b.props) I (iz a.props + iz b.props) = false := by
      rw [Bool.eq_false_iff]; intro hc; exact ((exactCg_iff _ _ _ _ _ _).1 hc) h1
    simp [this]
  have e1 : exactCg a.props.isospin (iz a.props) b.props.isospin (iz b.props) I (iz a.props + iz b.props) = true :=
    (exactCg_iff _ _ _ _ _ _).2 h1
  rw [e1]
  simp only [Bool.not_true, Bool.false_eq_true, if_false]
  by_cases h2 : cfg.allowSpinExotics = false ∧ SpinExotic I (parentG a.props b.props) J (parentP a.props b.props L)
  · refine ⟨false, ?_, by simp; intro _ h; exact absurd h2.2 (h h2.1)⟩
    rw [if_pos (by simp [h2.1, (exotic_iff _ _ _ _ hG hP).2 h2.2])]
  have e2 : (!cfg.allowSpinExotics && igjpIsExotic I (parentG a.props b.props) J (parentP a.props b.props L)) = false := by
    rw [Bool.eq_false_iff]
    intro hc
    simp only [Bool.and_eq_true, Bool.not_eq_true'] at hc
    exact h2 ⟨hc.1, (exotic_iff _ _ _ _ hG hP).1 hc.2⟩
  rw [e2]
  simp only [Bool.false_eq_true, if_false]
  have h2' : cfg.allowSpinExotics = false → ¬ SpinExotic I (parentG a.props b.props) J (parentP a.props b.props L) :=
    fun h hc => h2 ⟨h, hc⟩
  by_cases h3 : SameParticle (conjugate b.props) a.props
  · have e3 : propsEq (conjugate b.props) a.props = true := (propsEq_iff _ _).2 h3
    rw [e3]
    simp only [Bool.true_and]
    by_cases h4 : parentG a.props b.props = msgn ((I + L + S) / 2)
    · have hq : b.props.charge = - a.props.charge := by have := h3.2.2.1; simp [conjugate] at this; omega
      have hbn : b.props.baryonNmb = - a.props.baryonNmb := by have := h3.2.2.2.2.2.1; simp [conjugate] at this; omega
      have hst : b.props.strangeness = - a.props.strangeness := by
        have := h3.2.2.2.2.2.2.2.1; simp [conjugate] at this; omega
      have hch : b.props.charm = - a.props.charm := by have := h3.2.2.2.2.2.2.2.2.1; simp [conjugate] at this; omega
      have hbe : b.props.beauty = - a.props.beauty := by
        have := h3.2.2.2.2.2.2.2.2.2.1; simp [conjugate] at this; omega
      have hii : b.props.isospin = a.props.isospin := h3.2.2.2.2.2.2.1
      have hjj : b.props.J = a.props.J := h3.2.2.2.2.2.2.2.2.2.2.2.1
      have hz : iz a.props + iz b.props = 0 := by unfold iz; rw [hq, hbn, hst, hch, hbe]; ring
      have hIe : 2 ∣ I := by obtain ⟨k, hk⟩ := hI.2.2.2; omega
      have hSe : 2 ∣ S := by obtain ⟨k, hk⟩ := hS.2.2.2; omega
      have hneut : FlavourNeutral a.props b.props := ⟨by omega, by omega, by omega, by omega, hz⟩
      have hC : parentC a.props b.props I = msgn ((L + S).tdiv 2) := by
        rw [(parentC_spec _ _ I (Or.inl hIe)).1 hneut, h4, Int.tdiv_eq_ediv_of_nonneg (by omega)]
        unfold msgn
        split_ifs <;> first | rfl | omega
      rw [hz, hC]
      simp only [h4, bne_self_eq_false, Bool.false_eq_true, if_false, beq_self_eq_true, Bool.and_self, Bool.not_true]
      by_cases h5 : partEq a b = true ∧ msgn ((I + L + S) / 2) ≠ msgn a.props.isospin
      · refine ⟨false, by simp [h5.1, h5.2], ?_⟩
        have h6 := (partEq_iff a b).1 h5.1
        simp only [Bool.false_eq_true, false_iff]
        rintro ⟨-, -, -, h⟩
        exact h5.2 (h h6.1 h6.2.2.1 h6.2.1 h6.2.2.2)
      · refine ⟨true, ?_, ?_⟩
        · rw [if_neg (by simpa using h5)]
        · simp only [true_iff]
          refine ⟨by rw [← hz]; exact h1, by rw [← h4]; exact h2', fun _ => trivial, ?_⟩
          intro s1 s2 s3 s4
          by_contra hc
          exact h5 ⟨(partEq_iff a b).2 ⟨s1, s3, s2, s4⟩, hc⟩
    · refine ⟨false, ?_, by simp [h3, h4]⟩
      rw [if_pos (by simpa using h4)]
  · have e3 : propsEq (conjugate b.props) a.props = false := by
      rw [Bool.eq_false_iff]; intro hc; exact h3 ((propsEq_iff _ _).1 hc)
    rw [e3]
    simp only [Bool.false_and, Bool.false_eq_true, if_false]
    by_cases h5 : partEq a b = true ∧ msgn ((I + L + S) / 2) ≠ msgn a.props.isospin
    · refine ⟨false, by simp [h5.1, h5.2], ?_⟩
      have h6 := (partEq_iff a b).1 h5.1
      simp only [Bool.false_eq_true, false_iff]
      rintro ⟨-, -, -, h⟩
      exact h5.2 (h h6.1 h6.2.2.1 h6.2.1 h6.2.2.2)
    · refine ⟨true, ?_, ?_⟩
      · rw [if_neg (by simpa using h5)]
      · simp only [true_iff]
        refine ⟨h1, h2', fun h => absurd h h3, ?_⟩
        intro s1 s2 s3 s4
        by_contra hc
        exact h5 ⟨(partEq_iff a b).2 ⟨s1, s3, s2, s4⟩, hc⟩

/-! ### X: spin projection and reflectivity -/

theorem mem_mReflList (cfg : Cfg) (J P M r : ℤ) (hJ : 0 ≤ J) (hP : P = -1 ∨ P = 0 ∨ P = 1) :
    (M, r) ∈ mReflList cfg J P ↔ MReflAllowed cfg J P M r := by
  have hm : M ∈ mRange cfg J ↔ (In cfg.MRange M ∧ M ≤ J ∧ 2 ∣ J - M ∧
      (if cfg.useReflectivity then (if 2 ∣ J then 0 else -1) else -J) ≤ M) := by
    unfold mRange In
    rw [mem_stepBy2]
    generalize hlow : (if cfg.useReflectivity = true then spinQnSmallerEqual J 0 else -J) = low
    have hlow' : low = (if cfg.useReflectivity then (if 2 ∣ J then 0 else -1) else -J) ∧ (low - J) % 2 = 0 := by
      subst hlow
      by_cases hu : cfg.useReflectivity = true
      · simp only [hu, if_true]
        obtain ⟨b1, b2, b3, b4⟩ := spinQnSmallerEqual_spec J 0
        split_ifs <;> omega
      · simp only [hu]; constructor
        · rfl
        · simp only [Bool.false_eq_true, if_false]; omega
    obtain ⟨a1, a2, a3, a4⟩ := spinQnLargerEqual_spec low cfg.MRange.1
    obtain ⟨b1, b2, b3, b4⟩ := spinQnSmallerEqual_spec J cfg.MRange.2
    rw [← hlow'.1]
    have hpar := hlow'.2
    constructor
    · rintro ⟨h1, h2, h3⟩; omega
    · rintro ⟨⟨h1, h2⟩, h3, h4, h5⟩; omega
  have hr : r ∈ reflRange cfg ↔ (cfg.useReflectivity = false → r = 0) ∧ (cfg.useReflectivity = true → (r = 1 ∨ r = -1) ∧
      (0 < cfg.reflectivity → r = 1) ∧ (cfg.reflectivity < 0 → r = -1)) := by
    unfold reflRange
    by_cases hu : cfg.useReflectivity = true
    · simp only [hu, if_true]
      by_cases h0 : cfg.reflectivity = 0
      · rw [if_pos (by simpa using h0), mem_stepBy2, h0]
        simp; omega
      · rw [if_neg (by simpa using h0), mem_stepBy2]
        unfold signum
        split_ifs <;> simp <;> omega
    · simp only [hu]
      simp only [Bool.false_eq_true, if_false]
      rw [mem_stepBy2]; simp; omega
  unfold mReflList
  simp only [List.mem_flatMap]
  have hfac : ∀ M' r', M' = 0 → (r' = 1 ∨ r' = -1) →
      reflectivityFactor J P M' r' = r' * P * msgn ((J - M') / 2) := by
    intro M' r' h0 hr'
    subst h0
    unfold reflectivityFactor
    have htd : (J - 0).tdiv 2 = (J - 0) / 2 := Int.tdiv_eq_ediv_of_nonneg (by omega)
    rcases hP with rfl | rfl | rfl <;> rcases hr' with rfl | rfl <;> simp [powMinusOne_msgn] <;>
      simp at htd <;> rw [htd]
  constructor
  · rintro ⟨M', hM', r', hr', hmem⟩
    split_ifs at hmem with hc
    · simp at hmem
    · simp only [List.mem_singleton, Prod.mk.injEq] at hmem
      obtain ⟨rfl, rfl⟩ := hmem
      obtain ⟨k1, k2, k3, k4⟩ := hm.1 hM'
      have k5 := hr.1 hr'
      refine ⟨k1, k2, k3, ?_, ?_⟩
      · intro hu; rw [hu] at k4; exact ⟨by simpa using k4, k5.1 hu⟩
      · intro hu; rw [hu] at k4
        have k6 := k5.2 hu
        refine ⟨by simpa using k4, k6.1, k6.2.1, k6.2.2, ?_⟩
        rintro ⟨h0, hf⟩
        apply hc
        simp only [hu, Bool.true_and, Bool.and_eq_true, beq_iff_eq]
        exact ⟨h0, by rw [hfac _ _ h0 k6.1]; exact hf⟩
  · rintro ⟨k1, k2, k3, k4, k5⟩
    refine ⟨M, hm.2 ⟨k1, k2, k3, ?_⟩, r, hr.2 ⟨fun hu => (k4 hu).2, fun hu => ⟨(k5 hu).2.1, (k5 hu).2.2.1, (k5 hu).2.2.2.1⟩⟩, ?_⟩
    · cases hu : cfg.useReflectivity
      · simpa using (k4 hu).1
      · simpa using (k5 hu).1
    · rw [if_neg]
      · simp
      · intro hc
        simp only [Bool.and_eq_true, beq_iff_eq] at hc
        obtain ⟨⟨hu, h0⟩, hf⟩ := hc
        rw [hfac _ _ h0 (k5 hu).2.1] at hf
        exact (k5 hu).2.2.2.2 ⟨h0, hf⟩

theorem nodup_mReflList (cfg : Cfg) (J P : ℤ) : (mReflList cfg J P).Nodup := by
  have hr : (reflRange cfg).Nodup := by
    unfold reflRange; split_ifs <;> exact nodup_stepBy2 _ _
  unfold mReflList
  rw [List.nodup_flatMap]
  refine ⟨fun M _ => ?_, ?_⟩
  · rw [List.nodup_flatMap]
    refine ⟨fun r _ => by split_ifs <;> simp, hr.imp fun {r1 r2} h => ?_⟩
    simp only [Function.onFun, List.disjoint_left]
    intro x h1 h2
    split_ifs at h1 h2 <;> simp at h1 h2
    exact h (by rw [h1] at h2; simpa using h2)
  · refine (nodup_stepBy2 _ _).imp fun {M1 M2} h => ?_
    simp only [Function.onFun, List.disjoint_left, List.mem_flatMap]
    rintro x ⟨r1, _, h1⟩ ⟨r2, _, h2⟩
    split_ifs at h1 h2 <;> simp at h1 h2
    exact h (by rw [h1] at h2; simp at h2; exact h2.1)

/-! ### mass dependences -/

theorem create_iff (n m : Name) : createMassDependence n = .ok m ↔ MassDepOf n m := by
  unfold createMassDependence
  constructor
  · intro h
    split_ifs at h with h1 h2 h3 h4
    · cases h; subst h1; exact .empty
    · cases h; subst h2; exact .old1
    · cases h; subst h3; exact .old2
    · cases h; exact .known h4
  · intro h
    cases h with
    | empty => rfl
    | old1 => rfl
    | old2 => rfl
    | known hk =>
      have h1 : n ≠ [] := by rintro rfl; revert hk; decide
      have h2 : n ≠ "f_0(980)".toList := by rintro rfl; revert hk; decide
      have h3 : n ≠ "f_0(980)Flatte".toList := by rintro rfl; revert hk; decide
      rw [if_neg h1, if_neg h2, if_neg h3, if_pos hk]

/-- names kept for backward compatibility -/
def deprecated (n : Name) : Prop := n = "f_0(980)".toList ∨ n = "f_0(980)Flatte".toList

/-- what has been used is in the result; and, if `nd`, the result has no duplicates and everything that would give one of the
results has been used. -/
def MdInv (nd : Prop) (st : List Name × List Name) : Prop :=
  (∀ n ∈ st.1, ∀ m, MassDepOf n m → m ∈ st.2) ∧
  (nd → st.2.Nodup ∧ ∀ m ∈ st.2, ∀ n, MassDepOf n m → ¬ deprecated n → n ∈ st.1)

theorem massDepOf_bw {n : Name} (h : MassDepOf n bwName) (hd : ¬ deprecated n) : n = [] ∨ n = bwName := by
  generalize hb : bwName = b at h ⊢
  cases h with
  | empty => exact Or.inl rfl
  | old1 => exact absurd (Or.inl rfl) hd
  | old2 => exact absurd (Or.inr rfl) hd
  | known hk => exact Or.inr rfl

theorem mem_markUsed (n : Name) (used : List Name) (k : Name) :
    k ∈ markUsed n used ↔ k = n ∨ (n = bwName ∧ k = []) ∨ (n = [] ∧ k = bwName) ∨ k ∈ used := by
  unfold markUsed
  generalize bwName = b
  dsimp only
  split_ifs with h1 h2 h2 <;> simp only [List.mem_cons] <;> (try simp only [h1, h2]) <;> tauto

theorem massDepOf_fun {n m m' : Name} (h : MassDepOf n m) (h' : MassDepOf n m') : m = m' := by
  have := ((create_iff n m).2 h).symm.trans ((create_iff n m').2 h')
  cases this; rfl

theorem md_of_bw : MassDepOf bwName bwName := .known (by decide)

theorem massDepOf_inj {n n' m : Name} (h : MassDepOf n m) (h' : MassDepOf n' m) (hd : ¬ deprecated n)
    (hd' : ¬ deprecated n') (hb : m ≠ bwName) : n = n' := by
  cases h with
  | empty => exact absurd rfl hb
  | old1 => exact absurd (Or.inl rfl) hd
  | old2 => exact absurd (Or.inr rfl) hd
  | known hk =>
    cases h' with
    | empty => exact absurd rfl hb
    | old1 => exact absurd (Or.inl rfl) hd'
    | old2 => exact absurd (Or.inr rfl) hd'
    | known hk' => rfl

theorem md_new (nd : Prop) (st : List Name × List Name) (hi : MdInv nd st) (n m : Name) (hm : MassDepOf n m)
    (hn : n ∉ st.1) (hnd : nd → ¬ deprecated n) (used : List Name)
    (hu : ∀ k, k ∈ used ↔ k = n ∨ (n = bwName ∧ k = []) ∨ (n = [] ∧ k = bwName) ∨ k ∈ st.1) :
    MdInv nd (used, st.2 ++ [m]) := by
  refine ⟨?_, ?_⟩
  · intro k hk m' hm'
    rw [List.mem_append, List.mem_singleton]
    rcases (hu k).1 hk with rfl | ⟨hb, hk⟩ | ⟨hb, hk⟩ | hk
    · exact Or.inr (massDepOf_fun hm' hm)
    · right; rw [hk] at hm'; rw [hb] at hm
      rw [massDepOf_fun hm' .empty, massDepOf_fun hm md_of_bw]; rfl
    · right; rw [hk] at hm'; rw [hb] at hm
      rw [massDepOf_fun hm' md_of_bw, massDepOf_fun hm .empty]; rfl
    · exact Or.inl (hi.1 k hk m' hm')
  · intro h
    obtain ⟨h1, h2⟩ := hi.2 h
    refine ⟨?_, ?_⟩
    · refine List.nodup_append.2 ⟨h1, by simp, ?_⟩
      intro x hx y hy hxy
      rw [List.mem_singleton] at hy; subst hy; subst hxy
      exact hn (h2 x hx n hm (hnd h))
    · intro m' hm' k hk hkd
      rw [List.mem_append, List.mem_singleton] at hm'
      rw [hu]
      rcases hm' with hm' | rfl
      · exact Or.inr (Or.inr (Or.inr (h2 m' hm' k hk hkd)))
      · by_cases hb : m' = bwName
        · rw [hb] at hk hm
          rcases massDepOf_bw hk hkd with e1 | e1 <;> rcases massDepOf_bw hm (hnd h) with e2 | e2
          · exact Or.inl (e1.trans e2.symm)
          · exact Or.inr (Or.inl ⟨e2, e1⟩)
          · exact Or.inr (Or.inr (Or.inl ⟨e2, e1⟩))
          · exact Or.inl (e1.trans e2.symm)
        · exact Or.inl (massDepOf_inj hk hm hkd (hnd h) hb)

theorem massDepLoop_spec (nd : Prop) (ns : List Name) (st st' : List Name × List Name) (hi : MdInv nd st)
    (hnd : nd → ∀ n ∈ ns, ¬ deprecated n) (h : massDepLoop ns st = .ok st') :
    MdInv nd st' ∧ (∀ m, m ∈ st'.2 ↔ m ∈ st.2 ∨ ∃ n ∈ ns, MassDepOf n m) := by
  induction ns generalizing st with
  | nil => simp [massDepLoop] at h; subst h; exact ⟨hi, by simp⟩
  | cons n ns ih =>
    obtain ⟨used, out⟩ := st
    unfold massDepLoop at h
    by_cases hmem : n ∈ used
    · rw [if_pos hmem] at h
      obtain ⟨k1, k2⟩ := ih (used, out) hi (fun hh k hk => hnd hh k (List.mem_cons_of_mem _ hk)) h
      refine ⟨k1, fun m => ?_⟩
      rw [k2]
      constructor
      · rintro (hm | ⟨k, hk, hkm⟩)
        · exact Or.inl hm
        · exact Or.inr ⟨k, List.mem_cons_of_mem _ hk, hkm⟩
      · rintro (hm | ⟨k, hk, hkm⟩)
        · exact Or.inl hm
        · rcases List.mem_cons.1 hk with rfl | hk
          · exact Or.inl (hi.1 k hmem m hkm)
          · exact Or.inr ⟨k, hk, hkm⟩
    · rw [if_neg hmem] at h
      cases hc : createMassDependence n with
      | terminate => rw [hc] at h; simp at h
      | ub => rw [hc] at h; simp at h
      | ok m0 =>
        rw [hc] at h
        simp only at h
        have hm0 := (create_iff n m0).1 hc
        have hinv := md_new nd (used, out) hi n m0 hm0 hmem (fun hh => hnd hh n List.mem_cons_self)
          (markUsed n used) (mem_markUsed n used)
        obtain ⟨k1, k2⟩ := ih _ hinv (fun hh k hk => hnd hh k (List.mem_cons_of_mem _ hk)) h
        refine ⟨k1, fun m => ?_⟩
        rw [k2, List.mem_append, List.mem_singleton]
        constructor
        · rintro ((hm | rfl) | ⟨k, hk, hkm⟩)
          · exact Or.inl hm
          · exact Or.inr ⟨n, List.mem_cons_self, hm0⟩
          · exact Or.inr ⟨k, List.mem_cons_of_mem _ hk, hkm⟩
        · rintro (hm | ⟨k, hk, hkm⟩)
          · exact Or.inl (Or.inl hm)
          · rcases List.mem_cons.1 hk with rfl | hk
            · exact Or.inl (Or.inr (massDepOf_fun hkm hm0))
            · exact Or.inr ⟨k, hk, hkm⟩

theorem eq_iff_matches (d : DecayMode) (a b : Props) (L S : ℤ) :
    d.eq (decayModeOf a b L S) = true ↔ ModeMatches d a b L S := by
  unfold DecayMode.eq decayModeOf ModeMatches
  by_cases h1 : d.daughters = {a.fullName, b.fullName} <;> by_cases h2 : d.L = -1 <;> by_cases h3 : d.S = -1 <;>
    by_cases h4 : L = -1 <;> by_cases h5 : S = -1 <;> by_cases h6 : d.L = L <;> by_cases h7 : d.S = S <;>
    simp_all

theorem modeLoop_spec (nd : Prop) (a b : Props) (L S : ℤ) (ms : List DecayMode) (st st' : List Name × List Name)
    (hi : MdInv nd st) (hnd : nd → ∀ d ∈ ms, ∀ n ∈ d.massDeps, ¬ deprecated n)
    (h : modeLoop bwName (decayModeOf a b L S) ms st = .ok st') :
    MdInv nd st' ∧ (∀ m, m ∈ st'.2 ↔ m ∈ st.2 ∨ ∃ d ∈ ms, ModeMatches d a b L S ∧
      ((d.massDeps = [] ∧ m = bwName) ∨ ∃ n ∈ d.massDeps, MassDepOf n m)) := by
  induction ms generalizing st with
  | nil => simp [modeLoop] at h; subst h; exact ⟨hi, by simp⟩
  | cons d ms ih =>
    have hnd' : nd → ∀ e ∈ ms, ∀ n ∈ e.massDeps, ¬ deprecated n := fun hh e he => hnd hh e (List.mem_cons_of_mem _ he)
    unfold modeLoop at h
    by_cases hm : ModeMatches d a b L S
    · rw [(eq_iff_matches d a b L S).2 hm] at h
      simp only [Bool.not_true, Bool.false_eq_true, if_false] at h
      by_cases he : d.massDeps = []
      · rw [if_neg (by simpa using he)] at h
        by_cases hb : bwName ∈ st.1
        · rw [if_pos hb] at h
          obtain ⟨k1, k2⟩ := ih st hi hnd' h
          refine ⟨k1, fun m => ?_⟩
          rw [k2]
          constructor
          · rintro (x | ⟨e, e1, e2⟩)
            · exact Or.inl x
            · exact Or.inr ⟨e, List.mem_cons_of_mem _ e1, e2⟩
          · rintro (x | ⟨e, e1, e2, e3⟩)
            · exact Or.inl x
            · rcases List.mem_cons.1 e1 with rfl | e1
              · rcases e3 with ⟨-, rfl⟩ | ⟨n, hn, -⟩
                · exact Or.inl (hi.1 _ hb _ md_of_bw)
                · rw [he] at hn; simp at hn
              · exact Or.inr ⟨e, e1, e2, e3⟩
        · rw [if_neg hb] at h
          have hinv := md_new nd st hi bwName bwName md_of_bw hb (fun _ => by unfold deprecated; decide)
            ([] :: bwName :: st.1) (by
              intro k
              have hne : bwName ≠ [] := by decide
              simp only [List.mem_cons, hne, true_and, false_and, false_or]
              constructor
              · rintro (h | h | h)
                · exact Or.inr (Or.inl h)
                · exact Or.inl h
                · exact Or.inr (Or.inr h)
              · rintro (h | h | h)
                · exact Or.inr (Or.inl h)
                · exact Or.inl h
                · exact Or.inr (Or.inr h))
          obtain ⟨k1, k2⟩ := ih _ hinv hnd' h
          refine ⟨k1, fun m => ?_⟩
          rw [k2, List.mem_append, List.mem_singleton]
          constructor
          · rintro ((x | rfl) | ⟨e, e1, e2⟩)
            · exact Or.inl x
            · exact Or.inr ⟨d, List.mem_cons_self, hm, Or.inl ⟨he, rfl⟩⟩
            · exact Or.inr ⟨e, List.mem_cons_of_mem _ e1, e2⟩
          · rintro (x | ⟨e, e1, e2, e3⟩)
            · exact Or.inl (Or.inl x)
            · rcases List.mem_cons.1 e1 with rfl | e1
              · rcases e3 with ⟨-, rfl⟩ | ⟨n, hn, -⟩
                · exact Or.inl (Or.inr rfl)
                · rw [he] at hn; simp at hn
              · exact Or.inr ⟨e, e1, e2, e3⟩
      · rw [if_pos (by simpa using he)] at h
        cases hl : massDepLoop d.massDeps st with
        | terminate => rw [hl] at h; simp at h
        | ub => rw [hl] at h; simp at h
        | ok st1 =>
          rw [hl] at h
          simp only at h
          obtain ⟨j1, j2⟩ := massDepLoop_spec nd d.massDeps st st1 hi (fun hh => hnd hh d List.mem_cons_self) hl
          obtain ⟨k1, k2⟩ := ih st1 j1 hnd' h
          refine ⟨k1, fun m => ?_⟩
          rw [k2, j2]
          constructor
          · rintro ((x | x) | ⟨e, e1, e2⟩)
            · exact Or.inl x
            · exact Or.inr ⟨d, List.mem_cons_self, hm, Or.inr x⟩
            · exact Or.inr ⟨e, List.mem_cons_of_mem _ e1, e2⟩
          · rintro (x | ⟨e, e1, e2, e3⟩)
            · exact Or.inl (Or.inl x)
            · rcases List.mem_cons.1 e1 with rfl | e1
              · rcases e3 with ⟨hc, -⟩ | x
                · exact absurd hc he
                · exact Or.inl (Or.inr x)
              · exact Or.inr ⟨e, e1, e2, e3⟩
    · have : d.eq (decayModeOf a b L S) = false := by
        rw [Bool.eq_false_iff]; intro hc; exact hm ((eq_iff_matches d a b L S).1 hc)
      rw [this] at h
      simp only [Bool.not_false, if_true] at h
      obtain ⟨k1, k2⟩ := ih st hi hnd' h
      refine ⟨k1, fun m => ?_⟩
      rw [k2]
      constructor
      · rintro (x | ⟨e, e1, e2⟩)
        · exact Or.inl x
        · exact Or.inr ⟨e, List.mem_cons_of_mem _ e1, e2⟩
      · rintro (x | ⟨e, e1, e2, e3⟩)
        · exact Or.inl x
        · rcases List.mem_cons.1 e1 with rfl | e1
          · exact absurd e2 hm
          · exact Or.inr ⟨e, e1, e2, e3⟩

theorem setMassDeps_spec (isobar a b : Props) (L S : ℤ) (out : List Name)
    (h : setMassDeps bwName isobar (decayModeOf a b L S) = .ok out) :
    (∀ m, m ∈ out ↔ MassDepAllowed isobar a b L S m) ∧
    ((∀ d ∈ isobar.decays, ∀ n ∈ d.massDeps, ¬ deprecated n) → out.Nodup) := by
  unfold setMassDeps at h
  cases hl : modeLoop bwName (decayModeOf a b L S) isobar.decays ([], []) with
  | terminate => rw [hl] at h; simp at h
  | ub => rw [hl] at h; simp at h
  | ok st =>
    obtain ⟨used, o⟩ := st
    obtain ⟨k1, k2⟩ := modeLoop_spec (∀ d ∈ isobar.decays, ∀ n ∈ d.massDeps, ¬ deprecated n) a b L S isobar.decays
      ([], []) (used, o) ⟨by simp, by simp⟩ (fun h => h) hl
    rw [hl] at h
    cases o with
    | nil =>
      simp at h; subst h
      refine ⟨fun m => ?_, by simp⟩
      rw [List.mem_singleton]
      simp only [List.not_mem_nil, false_or, false_iff] at k2
      constructor
      · rintro rfl
        refine Or.inr ⟨fun d hd hm => ?_, rfl⟩
        by_cases he : d.massDeps = []
        · exact k2 bwName ⟨d, hd, hm, Or.inl ⟨he, rfl⟩⟩
        · obtain ⟨n, hn⟩ := List.exists_mem_of_ne_nil _ he
          -- the loop did not stop, so every mass dependence of the mode is known
          exfalso
          have : ∀ (ms : List DecayMode) (st st' : List Name × List Name),
              modeLoop bwName (decayModeOf a b L S) ms st = .ok st' → d ∈ ms → (∀ n ∈ st.1, ∃ m, MassDepOf n m) →
              ∃ m, MassDepOf n m := by
            have loop : ∀ (ns : List Name) (st st' : List Name × List Name), massDepLoop ns st = .ok st' →
                (∀ n ∈ st.1, ∃ m, MassDepOf n m) → (∀ n ∈ ns, ∃ m, MassDepOf n m) ∧ (∀ n ∈ st'.1, ∃ m, MassDepOf n m) := by
              intro ns
              induction ns with
              | nil => intro st st' h hs; simp [massDepLoop] at h; subst h; exact ⟨by simp, hs⟩
              | cons k ks ih =>
                rintro ⟨u, o⟩ st' h hs
                unfold massDepLoop at h
                by_cases hk : k ∈ u
                · rw [if_pos hk] at h
                  obtain ⟨i1, i2⟩ := ih _ _ h hs
                  refine ⟨fun x hx => ?_, i2⟩
                  rcases List.mem_cons.1 hx with rfl | hx
                  · exact hs _ hk
                  · exact i1 x hx
                · rw [if_neg hk] at h
                  cases hc : createMassDependence k with
                  | terminate => rw [hc] at h; simp at h
                  | ub => rw [hc] at h; simp at h
                  | ok m0 =>
                    rw [hc] at h
                    have hk0 : ∃ m, MassDepOf k m := ⟨m0, (create_iff _ _).1 hc⟩
                    obtain ⟨i1, i2⟩ := ih _ _ h (by
                      intro x hx
                      rcases (mem_markUsed k u x).1 hx with rfl | ⟨-, rfl⟩ | ⟨-, rfl⟩ | hx
                      · exact hk0
                      · exact ⟨_, .empty⟩
                      · exact ⟨_, md_of_bw⟩
                      · exact hs x hx)
                    refine ⟨fun x hx => ?_, i2⟩
                    rcases List.mem_cons.1 hx with rfl | hx
                    · exact hk0
                    · exact i1 x hx
            intro ms
            induction ms with
            | nil => intro _ _ _ hm; simp at hm
            | cons e es ih =>
              intro st st' h hmem hs
              unfold modeLoop at h
              by_cases hem : ModeMatches e a b L S
              · rw [(eq_iff_matches e a b L S).2 hem] at h
                simp only [Bool.not_true, Bool.false_eq_true, if_false] at h
                by_cases hee : e.massDeps = []
                · have hne : d ≠ e := by rintro rfl; exact he hee
                  have hmem' : d ∈ es := (List.mem_cons.1 hmem).resolve_left hne
                  rw [if_neg (by simpa using hee)] at h
                  split_ifs at h with hb
                  · exact ih _ _ h hmem' hs
                  · refine ih _ _ h hmem' ?_
                    intro x hx
                    simp only [List.mem_cons] at hx
                    rcases hx with rfl | rfl | hx
                    · exact ⟨_, .empty⟩
                    · exact ⟨_, md_of_bw⟩
                    · exact hs x hx
                · rw [if_pos (by simpa using hee)] at h
                  cases hl : massDepLoop e.massDeps st with
                  | terminate => rw [hl] at h; simp at h
                  | ub => rw [hl] at h; simp at h
                  | ok st1 =>
                    rw [hl] at h
                    obtain ⟨l1, l2⟩ := loop _ _ _ hl hs
                    rcases List.mem_cons.1 hmem with rfl | hmem
                    · exact l1 n hn
                    · exact ih _ _ h hmem l2
              · have hne : d ≠ e := by rintro rfl; exact hem hm
                have hmem' : d ∈ es := (List.mem_cons.1 hmem).resolve_left hne
                have hf : e.eq (decayModeOf a b L S) = false := by
                  rw [Bool.eq_false_iff]; intro hc; exact hem ((eq_iff_matches e a b L S).1 hc)
                rw [hf] at h
                simp only [Bool.not_false, if_true] at h
                exact ih _ _ h hmem' hs
          obtain ⟨m, hmm⟩ := this _ _ _ hl hd (by simp)
          exact k2 m ⟨d, hd, hm, Or.inr ⟨n, hn, hmm⟩⟩
      · rintro (⟨d, hd, hm⟩ | ⟨-, rfl⟩)
        · exact absurd ⟨d, hd, hm⟩ (k2 m)
        · rfl
    | cons m0 o =>
      simp at h; subst h
      refine ⟨fun m => ?_, fun hn => (k1.2 hn).1⟩
      rw [k2]
      simp only [List.not_mem_nil, false_or]
      constructor
      · intro hm; exact Or.inl hm
      · rintro (hm | ⟨hno, rfl⟩)
        · exact hm
        · obtain ⟨d, hd, hm, -⟩ := (k2 m0).1 List.mem_cons_self |>.resolve_left (by simp)
          exact absurd hm (hno d hd)

end Rpwa.WaveSet
