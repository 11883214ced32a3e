import Verif.Lemmas.SpinContrib
/-!
# C83: helicity-coupling amplitudes of a decay channel

`calcAmpl c` are the LS amplitudes and the helicity-coupling amplitudes that `CalcAmpl` builds for the channel `c` (TJSS.cc, TFhh.cc,
TLSContrib.cc).
-/
namespace Rpwa.SpinTensor
open Fraction CgBox Spec

theorem mapM_filter {α β : Type} (F : α → Outcome (Option β)) (P : α → Prop) [DecidablePred P] (R : α → β → Prop) : ∀ l : List α,
    (∀ a ∈ l, (P a → ∃ x, F a = .ok (some x) ∧ R a x) ∧ (¬ P a → F a = .ok none)) →
    ∃ r, l.mapM F = .ok r ∧ List.Forall₂ R (l.filter (P ·)) (r.filterMap id)
  | [], _ => ⟨[], rfl, by simp⟩
  | a :: l, h => by
    obtain ⟨r, h1, h2⟩ := mapM_filter F P R l fun b hb => h b (by simp [hb])
    rw [List.mapM_cons, h1]
    by_cases hp : P a
    · obtain ⟨x, g1, g2⟩ := (h a (by simp)).1 hp
      refine ⟨some x :: r, by rw [g1]; rfl, ?_⟩
      rw [List.filter_cons_of_pos (by simpa using hp)]
      exact List.Forall₂.cons g2 h2
    · refine ⟨none :: r, by rw [(h a (by simp)).2 hp]; rfl, ?_⟩
      rw [List.filter_cons_of_neg (by simpa using hp)]
      exact h2

/-- the amplitudes of the channel have a common factor -/
theorem ampl_class {c : Channel} {as : List LsAmpl}
    (h : ∀ x ts, (∃ a ∈ as, a.con = x ∧ a.terms = ts) ↔ ts ≠ [] ∧
        ∃ L S δ i co ce po pe cp, Allowed c L S δ i co ce po pe cp ∧ x = contraction L S δ i co ce po pe cp ∧
          lsAmpl (scheme c.S1 c.S2 L c.J S δ i co ce po pe cp) = .ok ts) (a : LsAmpl) (ha : a ∈ as) :
    CgBox.Spec.Triangle a.con.S c.S1 c.S2 ∧ ∃ K : ℚ, 0 < K ∧ ∀ t ∈ a.terms, ∃ r, r ≠ 0 ∧ Ok t.pre (ssq r * K) := by
  obtain ⟨-, L, S, δ, i, co, ce, po, pe, cp, hA, he, hl⟩ := (h a.con a.terms).mp ⟨a, ha, rfl, rfl⟩
  rw [he]
  obtain ⟨out, h1, h2, -⟩ := lsAmpl_total (δ := δ) (complete_fits hA.complete) hA.spin
  obtain rfl : out = a.terms := Outcome.ok.inj (h1.symm.trans hl)
  exact ⟨hA.spin, _, Kf_pos hA.spin δ, fun t ht => (h2 t ht).1⟩

theorem rev_eq (c : Channel) (a : LsAmpl) (δ : ℤ) :
    ((revSign c a δ : ℚ) : ℝ) = if δ < 0 then (-1) ^ (a.con.L + a.con.S - c.J) else 1 := by
  unfold revSign
  by_cases hδ : δ < 0
  · rw [if_pos hδ]
    by_cases hm : (a.con.L + a.con.S - c.J).tmod 2 = 0
    · rw [if_neg (by tauto)]
      obtain ⟨k, hk⟩ := Int.dvd_of_tmod_eq_zero hm
      rw [hk, zpow_mul]; norm_num
    · rw [if_pos ⟨hδ, hm⟩]
      have : Odd (a.con.L + a.con.S - c.J) := by
        rw [← Int.not_even_iff_odd]
        rintro ⟨k, hk⟩
        exact hm (Int.tmod_eq_zero_of_dvd ⟨k, by omega⟩)
      rw [this.neg_one_zpow]; norm_num
  · rw [if_neg hδ, if_neg (by tauto)]; norm_num

/-- the contributions to one helicity-coupling amplitude -/
theorem fhh_ok {c : Channel} {as : List LsAmpl}
    (h : ∀ a ∈ as, CgBox.Spec.Triangle a.con.S c.S1 c.S2 ∧ ∃ K : ℚ, 0 < K ∧ ∀ t ∈ a.terms, ∃ r, r ≠ 0 ∧ Ok t.pre (ssq r * K))
    {lambda nu : ℤ} (hl : -(c.S1 : ℤ) ≤ lambda ∧ lambda ≤ c.S1) (hn : -(c.S2 : ℤ) ≤ nu ∧ nu ≤ c.S2) :
    ∃ xs, fhh c as lambda nu = .ok xs ∧
      List.Forall₂ (Contributes c lambda nu) (as.filter (open Classical in fun a => decide (Couples c lambda nu a))) xs := by
  classical
  obtain ⟨r, h1, h2⟩ := mapM_filter (fun a : LsAmpl => do
      let cg ← clebschGordan (2 * a.con.S) (2 * (c.S1 : Int)) (2 * (c.S2 : Int))
      let f ← rd cg (cgIndex c.S1 lambda c.S2 (-nu))
      if equal f zero then return none
      else do let x ← contrib c a (lambda - nu) f; return some x)
    (fun a => CgBox.Spec.coefficient a.con.S c.S1 lambda c.S2 (-nu) ≠ 0) (Contributes c lambda nu)
    (as.filter fun a => a.con.delta = lambda - nu ∨ a.con.delta = -(lambda - nu)) (by
      intro a ha
      obtain ⟨ht, K, hK, hterm⟩ := h a (List.mem_of_mem_filter ha)
      obtain ⟨cg, g1, g2⟩ := cg_rd ht
      obtain ⟨f, f1, f2⟩ := g2 lambda (-nu) hl (by omega)
      have hC : ssqrt (Cv (2 * c.S1) (2 * c.S2) (c.S1 + c.S2 - a.con.S).toNat (c.S1 + lambda).toNat (c.S2 + -nu).toNat : ℝ) =
          CgBox.Spec.coefficient a.con.S c.S1 lambda c.S2 (-nu) := by
        obtain ⟨ha, hb, hc⟩ := ht
        rw [Cv_racah (by omega) (by omega) _ _ (by omega) (by omega), ssqrt_abs]
        unfold CgBox.Spec.coefficient
        congr 1 <;> push_cast <;> omega
      generalize Cv (2 * c.S1) (2 * c.S2) (c.S1 + c.S2 - a.con.S).toNat (c.S1 + lambda).toNat (c.S2 + -nu).toNat = q at f2 hC
      rw [← hC]
      have hz : ssqrt (q : ℝ) ≠ 0 ↔ q ≠ 0 := by
        rw [not_iff_not]
        constructor
        · intro h0
          by_contra hq
          have hq' : (q : ℝ) ≠ 0 := by exact_mod_cast hq
          unfold ssqrt at h0
          rcases mul_eq_zero.mp h0 with h0 | h0
          · rcases lt_or_gt_of_ne hq' with h | h
            · rw [sign_neg h] at h0; simp at h0
            · rw [sign_pos h] at h0; simp at h0
          · exact (Real.sqrt_pos.mpr (abs_pos.mpr hq')).ne' h0
        · rintro rfl; simp [ssqrt]
      rw [hz]
      constructor
      · intro hq
        obtain ⟨x, x1, x2, x3, x4, x5, x6, x7, x8⟩ := contrib_ok c a (lambda - nu) f2 hq hK hterm
        refine ⟨x, ?_, x2, x3, x4, x5, ?_, x7, x8⟩
        · rw [g1, Outcome.ok_bind, f1, Outcome.ok_bind, if_neg (fun h => hq ((equal_zero f2).mp h)), x1]; rfl
        · intro γs γσ
          rw [x6, rev_eq, hC]
      · intro hq
        rw [g1, Outcome.ok_bind, f1, Outcome.ok_bind, if_pos ((equal_zero f2).mpr (not_not.mp hq))]; rfl)
  refine ⟨r.filterMap id, ?_, ?_⟩
  · unfold fhh
    exact congrArg (fun o => o >>= fun r => (pure (List.filterMap id r) : Outcome (List Contrib))) h1
  · rw [List.filter_filter] at h2
    have e : as.filter (fun a => decide (CgBox.Spec.coefficient a.con.S c.S1 lambda c.S2 (-nu) ≠ 0) &&
        decide (a.con.delta = lambda - nu ∨ a.con.delta = -(lambda - nu))) = as.filter fun a => decide (Couples c lambda nu a) := by
      refine List.filter_congr fun a _ => ?_
      unfold Couples
      rw [abs_eq_abs, ← Bool.decide_and]
      exact decide_eq_decide.mpr and_comm
    rw [← e]
    convert h2 using 3

theorem mem_hel {c : Channel} {l n : ℤ} :
    (l, n) ∈ ((upTo 0 c.S1).flatMap fun l => ((upTo (-(c.S2 : Int)) c.S2).filter fun n => ¬ (l = 0 ∧ n < 0)).map fun n => (l, n)) ↔ Helicities c l n := by
  simp only [List.mem_flatMap (b := (l, n)), List.mem_map, List.mem_filter, mem_upTo, Prod.mk.injEq, decide_eq_true_eq]
  unfold Helicities
  constructor
  · rintro ⟨a, h1, b, ⟨h2, h3⟩, rfl, rfl⟩; exact ⟨h1.1, h1.2, h2.1, h2.2, h3⟩
  · rintro ⟨h1, h2, h3, h4, h5⟩; exact ⟨l, ⟨h1, h2⟩, n, ⟨⟨h3, h4⟩, h5⟩, rfl, rfl⟩

/-- For all spins and parities the helicity-coupling amplitudes are calculated, each pair of helicities at most once. A pair is left
out if and only if no LS amplitude couples to it. The contributions are those of the LS amplitudes that couple to the helicities, each
once and in the order of the list. -/
theorem helicity_amplitudes {c : Channel} (h : Parities c) :
    ∃ as fs, calcAmpl c = .ok (as, fs) ∧ lsAmpls c = .ok as ∧ (fs.map fun f => (f.lambda, f.nu)).Nodup ∧
      (∀ l n, (l, n) ∈ (fs.map fun f => (f.lambda, f.nu)) ↔ Helicities c l n ∧ ∃ a ∈ as, Couples c l n a) ∧
      ∀ f ∈ fs, List.Forall₂ (Contributes c f.lambda f.nu) (as.filter (open Classical in fun a => decide (Couples c f.lambda f.nu a))) f.contribs := by
  classical
  obtain ⟨as, h1, h2, h3, h4⟩ := channel_amplitudes h
  have hcl := ampl_class h3
  let ps := ((upTo 0 c.S1).flatMap fun l => ((upTo (-(c.S2 : Int)) c.S2).filter fun n => ¬ (l = 0 ∧ n < 0)).map fun n => (l, n))
  have hps : ps.Nodup := by
    refine nodup_flatMap Prod.fst ?_ (upTo_nodup _ _) fun l => ?_
    · intro a _ b hb
      simp only [List.mem_map] at hb
      obtain ⟨n, -, rfl⟩ := hb; rfl
    · exact List.Nodup.map (fun a b h => by simpa using h) ((upTo_nodup _ _).filter _)
  have hrun : ∀ x : ℤ × ℤ, x ∈ ps → ∃ xs, fhh c as x.1 x.2 = .ok xs ∧
      List.Forall₂ (Contributes c x.1 x.2) (as.filter fun a => decide (Couples c x.1 x.2 a)) xs := by
    intro x hx
    obtain ⟨g1, g2, g3, g4, -⟩ := mem_hel.mp hx
    exact fhh_ok hcl ⟨by omega, g2⟩ ⟨g3, g4⟩
  choose! X hX using hrun
  have hmap : ∀ qs : List (ℤ × ℤ), (∀ x ∈ qs, x ∈ ps) → (qs.mapM fun x => do
      let cs ← fhh c as x.1 x.2
      return (⟨x.1, x.2, cs⟩ : Fhh)) = (.ok (qs.map fun x => ⟨x.1, x.2, X x⟩) : Outcome (List Fhh)) := by
    intro qs
    induction qs with
    | nil => intro _; rfl
    | cons x qs ih =>
      intro hq
      rw [List.mapM_cons, ih fun y hy => hq y (by simp [hy]), (hX x (hq x (by simp))).1]
      rfl
  have hfs : fhhs c as = .ok ((ps.map fun x => (⟨x.1, x.2, X x⟩ : Fhh)).filter fun f => f.contribs ≠ []) := by
    have := hmap ps (fun x hx => hx)
    unfold fhhs
    exact congrArg (fun o => o >>= fun r => (pure (List.filter (fun f : Fhh => decide (f.contribs ≠ [])) r) : Outcome (List Fhh))) this
  refine ⟨as, (ps.map fun x => (⟨x.1, x.2, X x⟩ : Fhh)).filter fun f => f.contribs ≠ [], ?_, h1, ?_, ?_, ?_⟩
  · unfold calcAmpl
    rw [h1, Outcome.ok_bind, hfs]; rfl
  · rw [List.filter_map, List.map_map]
    have e : ((fun f : Fhh => (f.lambda, f.nu)) ∘ fun x : ℤ × ℤ => (⟨x.1, x.2, X x⟩ : Fhh)) = id := rfl
    rw [e, List.map_id]
    exact hps.filter _
  · intro l n
    simp only [List.mem_map, List.mem_filter, decide_eq_true_eq]
    constructor
    · rintro ⟨f, ⟨⟨x, hx, rfl⟩, hne⟩, he⟩
      obtain ⟨rfl, rfl⟩ := Prod.mk.inj he
      refine ⟨mem_hel.mp hx, ?_⟩
      by_contra hc
      have h5 := (hX x hx).2
      have : as.filter (fun a => decide (Couples c x.1 x.2 a)) = [] := by
        rw [List.filter_eq_nil_iff]; intro a ha hp; exact hc ⟨a, ha, by simpa using hp⟩
      rw [this] at h5
      cases hxs : X x with
      | nil => exact hne hxs
      | cons y ys => rw [hxs] at h5; cases h5
    · rintro ⟨hh, a, ha, hc⟩
      have hx : (l, n) ∈ ps := mem_hel.mpr hh
      refine ⟨⟨l, n, X (l, n)⟩, ⟨⟨(l, n), hx, rfl⟩, ?_⟩, rfl⟩
      intro h0
      have h5 := (hX _ hx).2
      dsimp only at h0 h5
      rw [h0] at h5
      have hm : a ∈ as.filter (fun a => decide (Couples c l n a)) := List.mem_filter.mpr ⟨ha, by simpa using hc⟩
      cases hf : as.filter (fun a => decide (Couples c l n a)) with
      | nil => rw [hf] at hm; simp at hm
      | cons y ys => rw [hf] at h5; cases h5
  · intro f hf
    obtain ⟨hf, -⟩ := List.mem_filter.mp hf
    obtain ⟨x, hx, rfl⟩ := List.mem_map.mp hf
    exact (hX x hx).2

/-- Up to two contractions between the spins: a contribution is the Clebsch-Gordan coefficient of the helicities times the covariant
amplitude with the projection `lambda - nu`, for both signs of the projection and all Lorentz factors (up to `i` for triple
products). -/
theorem contribution_covariant {c : Channel} (h : Parities c) {as : List LsAmpl} (has : lsAmpls c = .ok as) {a : LsAmpl} (ha : a ∈ as)
    {L : ℕ} {S δ : ℤ} {i co ce po pe cp : ℕ} (hcon : a.con = contraction L S δ i co ce po pe cp) (hi : i ≤ 2)
    {lambda nu : ℤ} (hC : Couples c lambda nu a) {x : Contrib} (hx : Contributes c lambda nu a x) (γs γσ : ℝ) :
    phase c.S1 c.S2 L c.J * ((contribVal γs γσ x : ℝ) : ℂ) =
      ((CgBox.Spec.coefficient S c.S1 lambda c.S2 (-nu) : ℝ) : ℂ) * amplitude γs γσ c.S1 c.S2 L c.J S (lambda - nu) i co ce po pe cp := by
  obtain ⟨as', h1, -, h3, -⟩ := channel_amplitudes h
  obtain rfl : as' = as := Outcome.ok.inj (h1.symm.trans has)
  obtain ⟨-, L', S', δ', i', co', ce', po', pe', cp', hA, he, hl⟩ := (h3 a.con a.terms).mp ⟨a, ha, rfl, rfl⟩
  obtain ⟨rfl, rfl, rfl, rfl, rfl, rfl, rfl, rfl, rfl⟩ := contraction_inj (hcon.symm.trans he)
  obtain ⟨ts, g1, g2⟩ := ampl_covariant hA.complete hA.spin hA.proj.1 hi (δ := δ)
  obtain rfl : ts = a.terms := Outcome.ok.inj (g1.symm.trans hl)
  have hv := hx.value γs γσ
  have g := g2 γs γσ
  have hd : |δ| = |lambda - nu| := by have := hC.1; rw [hcon] at this; exact this
  rw [abs_of_nonneg hA.proj.1] at hd
  rw [hv, hcon]
  have e1 : (contraction L S δ i co ce po pe cp).S = S := rfl
  have e2 : (contraction L S δ i co ce po pe cp).L = L := rfl
  rw [e1, e2]
  by_cases hneg : lambda - nu < 0
  · rw [if_pos hneg]
    rw [abs_of_neg hneg] at hd
    rw [show lambda - nu = -δ by omega, amplitude_neg hA.complete, ← g]
    push_cast
    ring
  · rw [if_neg hneg]
    rw [abs_of_nonneg (by omega)] at hd
    rw [← hd, ← g]
    push_cast
    ring

/-- Parity: the amplitude with both helicities reversed differs by the sign `ηJ η1 η2 (-1)^(J - S1 - S2)`. Hence half of the
helicities is enough. -/
theorem parity_partner {c : Channel} {L : ℕ} {S δ : ℤ} {i co ce po pe cp : ℕ} (hA : Allowed c L S δ i co ce po pe cp) (lambda nu : ℤ) (γs γσ : ℝ) :
    ((CgBox.Spec.coefficient S c.S1 (-lambda) c.S2 nu : ℝ) : ℂ) * amplitude γs γσ c.S1 c.S2 L c.J S (-lambda + nu) i co ce po pe cp =
      (c.etaJ * c.eta1 * c.eta2 : ℤ) * (-1) ^ ((c.J : ℤ) - c.S1 - c.S2) *
        (((CgBox.Spec.coefficient S c.S1 lambda c.S2 (-nu) : ℝ) : ℂ) * amplitude γs γσ c.S1 c.S2 L c.J S (lambda - nu) i co ce po pe cp) := by
  have h1 := coefficient_neg (S := S) c.S1 c.S2 lambda (-nu)
  rw [neg_neg] at h1
  rw [h1, show -lambda + nu = -(lambda - nu) by ring, amplitude_neg hA.complete, ← hA.parity]
  have hs : ((-1 : ℂ) ^ ((c.S1 : ℤ) + c.S2 - S)) * (-1) ^ ((L : ℤ) + S - c.J) = (-1) ^ L * (-1) ^ ((c.J : ℤ) - c.S1 - c.S2) := by
    rw [← zpow_natCast, ← zpow_add₀ (by norm_num), ← zpow_add₀ (by norm_num),
      show (c.S1 : ℤ) + c.S2 - S + (L + S - c.J) = (L + (c.J - c.S1 - c.S2)) + 2 * (c.S1 + c.S2 - c.J) by ring, zpow_add₀ (by norm_num), zpow_mul]
    norm_num
  push_cast
  linear_combination ((CgBox.Spec.coefficient S c.S1 lambda c.S2 (-nu) : ℂ) * amplitude γs γσ c.S1 c.S2 L c.J S (lambda - nu) i co ce po pe cp) * hs

/-! ### examples -/

theorem rhoPi_coefficient : CgBox.Spec.coefficient 1 1 1 0 0 = 1 := by
  unfold CgBox.Spec.coefficient Clebsch.racah
  rw [if_pos]
  · simp [Clebsch.hfac, Clebsch.rfac, Nat.factorial]
    rw [← Real.sqrt_mul (by norm_num)]
    norm_num
  · refine ⟨⟨2, by decide⟩, ⟨0, by decide⟩, ⟨2, by decide⟩, by decide, by decide, by decide, by decide, 0, by decide⟩

/-- the S wave of the decay of a 1⁺ particle to 1⁻ and 0⁻, helicity 1 -/
theorem rhoPi_amplitude (γs γσ : ℝ) : amplitude γs γσ 1 0 0 1 1 1 0 0 0 1 0 0 = 1 := by
  have hw : wave 1 [1] = 1 := by simp [wave, Nat.factorial]
  have hw0 : wave 0 [] = 1 := by simp [wave]
  have hk : kernel γs γσ 0 0 0 1 0 0 [1] [] [] [1] = 1 := by
    simp [kernel, contract, leftOver, dot, vec, vecConj, Fin.sum_univ_three]
    have h2 : ((Real.sqrt 2 : ℝ) : ℂ) ^ 2 = 2 := by exact_mod_cast Real.sq_sqrt (by norm_num : (0 : ℝ) ≤ 2)
    have h0 : ((Real.sqrt 2 : ℝ) : ℂ) ≠ 0 := by simp
    field_simp
    rw [h2, Complex.I_sq]; norm_num
  simp [amplitude, hels, orbital, hw, hw0, hk, rhoPi_coefficient]

/-- this decay has LS amplitudes and a helicity-coupling amplitude -/
example : ∃ as a, lsAmpls rhoPi = .ok as ∧ a ∈ as ∧ Couples rhoPi 1 0 a := by
  obtain ⟨as, h1, h2⟩ := channel_nonvanishing (c := rhoPi) (L := 0) (S := 1) (δ := 1) (i := 0) (co := 0) (ce := 0) (po := 1) (pe := 0) (cp := 0)
    (by unfold Parities rhoPi; decide)
    ⟨by unfold CgBox.Spec.Triangle rhoPi; decide, by unfold CgBox.Spec.Triangle rhoPi; decide, by decide, by decide, ⟨0, 0, 0, 0, by decide⟩⟩ (by decide)
  obtain ⟨a, ha, he⟩ := h2.mpr ⟨1, 1, le_refl _, le_refl _, by rw [show rhoPi.S1 = 1 from rfl, show rhoPi.S2 = 0 from rfl, show rhoPi.J = 1 from rfl, rhoPi_amplitude]; norm_num⟩
  refine ⟨as, a, h1, ha, ?_⟩
  unfold Couples
  rw [he]
  refine ⟨by simp [contraction], ?_⟩
  have : CgBox.Spec.coefficient (contraction 0 1 1 0 0 0 1 0 0).S (rhoPi.S1 : ℕ) 1 (rhoPi.S2 : ℕ) (-0) = 1 := by
    rw [neg_zero]; exact rhoPi_coefficient
  rw [this]; norm_num

end Rpwa.SpinTensor
