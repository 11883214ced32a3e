import Verif.Lemmas.SpinHel
/-!
# Contributions to helicity-coupling amplitudes
-/
namespace Rpwa.SpinTensor
open Fraction CgBox Spec

theorem sum_fold {c : ℚ} (hc : 0 < c) (g : Term → Frac × ℤ × ℤ) (u : Term → ℚ) : ∀ (ts : List Term), (∀ t ∈ ts, Ok (g t).1 (ssq (u t) * c)) →
    ∀ n v, Ok n (ssq v * c) → ∃ n', (ts.map g).foldlM (fun n t => sumRoots n t.1) n = .ok n' ∧ Ok n' (ssq (v + (ts.map u).sum) * c)
  | [], _, n, v, hn => ⟨n, rfl, by simpa using hn⟩
  | t :: ts, h, n, v, hn => by
    obtain ⟨r, h1, h2⟩ := sum_ok hn (h t (by simp)) hc
    obtain ⟨n', h3, h4⟩ := sum_fold hc g u ts (fun x hx => h x (by simp [hx])) r _ h2
    refine ⟨n', ?_, ?_⟩
    · rw [List.map_cons, List.foldlM_cons]
      have : sumRoots n (g t).1 = .ok r := by unfold sumRoots; rw [h1]; rfl
      rw [this]; exact h3
    · rw [List.map_cons, List.sum_cons, ← add_assoc]; exact h4

theorem ssq_inv (a : ℚ) : ssq a⁻¹ = (ssq a)⁻¹ := by unfold ssq; rw [abs_inv, mul_inv]
theorem ssq_ne {a : ℚ} (h : a ≠ 0) : ssq a ≠ 0 := by unfold ssq; exact mul_ne_zero h (abs_ne_zero.mpr h)
theorem ssq_zero_iff {a : ℚ} : ssq a = 0 ↔ a = 0 := ⟨fun h => by_contra fun h' => ssq_ne h' h, fun h => by subst h; simp [ssq]⟩

/-- the sign of a rational -/
def sg (q : ℚ) : ℚ := if q < 0 then -1 else 1

theorem sg_abs (q : ℚ) : sg q * |q| = q := by
  unfold sg; split_ifs with h
  · rw [abs_of_neg h]; ring
  · rw [abs_of_nonneg (not_lt.mp h)]; ring

theorem ssq_sgq (q : ℚ) : ssq (sg q) = sg q := by unfold ssq sg; split_ifs <;> simp

/-- the sign of a contribution with negative projection -/
def revSign (c : Channel) (a : LsAmpl) (δ : ℤ) : ℚ := if δ < 0 ∧ (a.con.L + a.con.S - c.J).tmod 2 ≠ 0 then -1 else 1

theorem contrib_ok (c : Channel) (a : LsAmpl) (δ : ℤ) {f : Frac} {q K : ℚ} (hf : Ok f q) (hq : q ≠ 0) (hK : 0 < K)
    (ht : ∀ t ∈ a.terms, (∃ r, r ≠ 0 ∧ Ok t.pre (ssq r * K))) :
    ∃ x, contrib c a δ f = .ok x ∧ x.con = a.con ∧ x.num = a.num ∧ x.delta = δ ∧ x.terms.map (·.2) = a.terms.map (fun t => (t.gamS, t.gamSig)) ∧
      (∀ γs γσ : ℝ, contribVal γs γσ x = revSign c a δ * ssqrt (q : ℝ) * (a.terms.map (val γs γσ)).sum) ∧
      (x.pure = true ↔ (a.terms.map (val 1 1)).sum = 0) ∧
      (x.pure = false → (x.terms.map fun t => ssqrt (dval false t.1)).sum = 1) := by
  choose! r hr ho using ht
  have hcq : 0 < |q| * K := mul_pos (abs_pos.mpr hq) hK
  set s : ℚ := revSign c a δ * sg q with hs
  have hs2 : ssq (revSign c a δ) = revSign c a δ := by unfold revSign ssq; split_ifs <;> simp
  have hs0 : s ≠ 0 := by
    rw [hs]; unfold revSign sg; split_ifs <;> norm_num
  let u : Term → ℚ := fun t => s * r t
  let rev : Bool := decide (δ < 0 ∧ (a.con.L + a.con.S - c.J).tmod 2 ≠ 0)
  let g : Term → Frac × ℤ × ℤ := fun t => ((if rev then flipSign (mul f t.pre) else mul f t.pre), t.gamS, t.gamSig)
  have hg : ∀ t ∈ a.terms, Ok (g t).1 (ssq (u t) * (|q| * K)) := by
    intro t htm
    have h1 := mul_ok hf (ho t htm)
    have e : ssq (u t) * (|q| * K) = revSign c a δ * (q * (ssq (r t) * K)) := by
      simp only [u]
      rw [ssq_mul, hs, ssq_mul, hs2, ssq_sgq]
      linear_combination (revSign c a δ * ssq (r t) * K) * sg_abs q
    rw [e]
    simp only [g, rev]
    by_cases hrev : δ < 0 ∧ (a.con.L + a.con.S - c.J).tmod 2 ≠ 0
    · rw [if_pos (by simpa using hrev)]
      unfold revSign; rw [if_pos hrev, neg_one_mul]
      exact flipSign_ok h1
    · rw [if_neg (by simpa using hrev)]
      unfold revSign; rw [if_neg hrev, one_mul]
      exact h1
  obtain ⟨n, hn, on⟩ := sum_fold hcq g u a.terms hg zero 0 (by simpa [ssq] using ok_zero)
  rw [zero_add] at on
  have hsum : (a.terms.map u).sum = s * (a.terms.map r).sum := by
    simp only [u]; rw [List.sum_map_mul_left]
  have hval : ∀ γs γσ : ℝ, (a.terms.map (val γs γσ)).sum = Real.sqrt K * (a.terms.map fun t => (r t : ℝ) * γs ^ t.gamS.toNat * γσ ^ t.gamSig.toNat).sum := by
    intro γs γσ
    rw [← List.sum_map_mul_left]
    congr 1
    refine List.map_congr_left fun t htm => ?_
    unfold val
    rw [(ho t htm).dval_eq, ssqrt_ssq _ _ hK]
    ring
  have hKr : (0 : ℝ) < K := by exact_mod_cast hK
  have hpure : ((a.terms.map (val 1 1)).sum = 0) ↔ (a.terms.map r).sum = 0 := by
    rw [hval, mul_eq_zero, or_iff_right (Real.sqrt_pos.mpr hKr).ne']
    have e : (a.terms.map fun t => (r t : ℝ) * 1 ^ t.gamS.toNat * 1 ^ t.gamSig.toNat).sum = (((a.terms.map r).sum : ℚ) : ℝ) := by
      rw [Rat.cast_list_sum, List.map_map]
      congr 1
      refine List.map_congr_left fun t _ => ?_
      simp
    rw [e]
    exact_mod_cast Iff.rfl
  have hsq : ssqrt (q : ℝ) = (sg q : ℝ) * Real.sqrt (|q| : ℚ) := by
    have := ssqrt_ssq (sg q) |q| (abs_pos.mpr hq)
    rw [ssq_sgq, sg_abs] at this
    exact this
  have hfin : ∀ γs γσ : ℝ, revSign c a δ * ssqrt (q : ℝ) * (a.terms.map (val γs γσ)).sum =
      Real.sqrt ((|q| * K : ℚ) : ℝ) * (a.terms.map fun t => (u t : ℝ) * γs ^ t.gamS.toNat * γσ ^ t.gamSig.toNat).sum := by
    intro γs γσ
    rw [hval, hsq]
    have e : (a.terms.map fun t => (u t : ℝ) * γs ^ t.gamS.toNat * γσ ^ t.gamSig.toNat).sum =
        (s : ℝ) * (a.terms.map fun t => (r t : ℝ) * γs ^ t.gamS.toNat * γσ ^ t.gamSig.toNat).sum := by
      rw [← List.sum_map_mul_left]; congr 1
      refine List.map_congr_left fun t _ => ?_
      simp only [u]; push_cast; ring
    rw [e, hs, Rat.cast_mul, Real.sqrt_mul (by positivity)]
    push_cast
    ring
  have hdef : contrib c a δ f = ((a.terms.map g).foldlM (fun n t => sumRoots n t.1) zero >>= fun norm =>
      if equal norm zero then return ⟨a.con, a.num, δ, f, default1, a.terms.map g, true⟩
      else return ⟨a.con, a.num, δ, f, norm, (a.terms.map g).map fun t => (mul t.1 (invert norm).2, t.2.1, t.2.2), false⟩) := rfl
  rw [hdef, hn, Outcome.ok_bind]
  by_cases hz : (a.terms.map r).sum = 0
  · rw [if_pos ((equal_zero on).mpr (by rw [hsum, hz, mul_zero]; simp [ssq]))]
    refine ⟨_, rfl, rfl, rfl, rfl, ?_, ?_, ?_, by simp⟩
    · simp [g]
    · intro γs γσ
      rw [hfin]
      unfold contribVal
      dsimp only
      have h1 : ssqrt (dval false default1) = 1 := by
        rw [ok_default.dval_eq, ssqrt_nonneg (by norm_num)]; simp
      rw [h1, one_mul, List.map_map, ← List.sum_map_mul_left]
      congr 1
      refine List.map_congr_left fun t htm => ?_
      simp only [Function.comp]
      rw [(hg t htm).dval_eq, ssqrt_ssq _ _ hcq]
      simp only [g]
      ring
    · simp only [hpure, hz]
  · have hR : (a.terms.map u).sum ≠ 0 := by rw [hsum]; exact mul_ne_zero hs0 hz
    have hN : ssq (a.terms.map u).sum * (|q| * K) ≠ 0 := mul_ne_zero (ssq_ne hR) hcq.ne'
    rw [if_neg (fun h => hN ((equal_zero on).mp h))]
    have oinv := (invert_ok on hN).2
    have hterm : ∀ t ∈ a.terms, Ok (mul (g t).1 (invert n).2) (ssq (u t * ((a.terms.map u).sum)⁻¹) * 1) := by
      intro t htm
      have := mul_ok (hg t htm) oinv
      rw [show ssq (u t * ((a.terms.map u).sum)⁻¹) * 1 = ssq (u t) * (|q| * K) * (ssq (a.terms.map u).sum * (|q| * K))⁻¹ by
        rw [ssq_mul, ssq_inv, mul_inv]
        have := mul_inv_cancel₀ hcq.ne'
        linear_combination (-(ssq (u t) * (ssq (a.terms.map u).sum)⁻¹)) * this]
      exact this
    have hR' : (((a.terms.map u).sum : ℚ) : ℝ) ≠ 0 := by exact_mod_cast hR
    refine ⟨_, rfl, rfl, rfl, rfl, ?_, ?_, ?_, ?_⟩
    · simp [g]
    · intro γs γσ
      rw [hfin]
      unfold contribVal
      dsimp only
      rw [on.dval_eq, ssqrt_ssq _ _ hcq, List.map_map, List.map_map, ← List.sum_map_mul_left, ← List.sum_map_mul_left]
      congr 1
      refine List.map_congr_left fun t htm => ?_
      simp only [Function.comp]
      rw [(hterm t htm).dval_eq, ssqrt_ssq _ _ one_pos]
      simp only [g]
      push_cast
      rw [Real.sqrt_one]
      have := mul_inv_cancel₀ hR'
      push_cast at this
      linear_combination (Real.sqrt (|(q : ℝ)| * K) * u t * γs ^ t.gamS.toNat * γσ ^ t.gamSig.toNat) * this
    · simp only [hpure]
      constructor
      · intro h; cases h
      · intro h; exact absurd h hz
    · intro _
      dsimp only
      rw [List.map_map, List.map_map]
      have e : (a.terms.map fun t => (u t : ℝ) * (((a.terms.map u).sum : ℚ) : ℝ)⁻¹).sum = 1 := by
        rw [List.sum_map_mul_right]
        have : (a.terms.map fun t => (u t : ℝ)).sum = (((a.terms.map u).sum : ℚ) : ℝ) := by
          rw [Rat.cast_list_sum, List.map_map]; rfl
        rw [this]
        exact mul_inv_cancel₀ hR'
      rw [← e]
      congr 1
      refine List.map_congr_left fun t htm => ?_
      simp only [Function.comp]
      rw [(hterm t htm).dval_eq, ssqrt_ssq _ _ one_pos, Rat.cast_one, Real.sqrt_one, mul_one, Rat.cast_mul, Rat.cast_inv]

end Rpwa.SpinTensor
