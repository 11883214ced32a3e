import Verif.Model.DFunction
import Verif.Spec.DFunction
import Mathlib.Tactic.FieldSimp
import Mathlib.Tactic.Positivity
import Mathlib.Tactic.Linarith
/-! Helper lemmas for the d-function model. -/
namespace Rpwa.DFunction
open Finset

theorem fact_ok (n : ℕ) : fact (n : ℤ) = .ok (n.factorial : ℝ) := by
  unfold fact; simp
theorem tdiv_two (x : ℤ) : (2 * x).tdiv 2 = x := Int.mul_tdiv_cancel_left _ (by decide)

theorem powMinusOne_nat (n : ℕ) : ((powMinusOne (n : ℤ) : ℤ) : ℝ) = (-1) ^ n := by
  rcases Nat.even_or_odd n with h | h
  · rw [h.neg_one_pow]; unfold powMinusOne
    have : ((n : ℤ) % 2 == 1) = false := by obtain ⟨k, rfl⟩ := h; simp; omega
    rw [this]; simp
  · rw [h.neg_one_pow]; unfold powMinusOne
    have : ((n : ℤ) % 2 == 1) = true := by obtain ⟨k, rfl⟩ := h; simp
    rw [this]; simp

/-- summand list for `j = a + a'`, `m = a' - a`, `n = b' - b` with `a + a' = b + b'`. -/
noncomputable def goodTerm (a a' b' : ℕ) (k : ℕ) : Summand :=
  ⟨2 * k - (a' + b' - (a + a') : ℤ), (a' + b' : ℤ) - 2 * k,
    ((k.factorial : ℝ) * (a' - k).factorial * (b' - k).factorial * (k + (a + a') - (a' + b')).factorial) / (-1) ^ k⟩

theorem proj_coords {j m : ℤ} (h : Proj j m) : ∃ a a' : ℕ, j = a + a' ∧ m = a' - a := by
  obtain ⟨k, h1, h2⟩ := h
  exact ⟨(j - k).toNat, k, by omega, by omega⟩

theorem constTerm_eq (a a' b b' : ℕ) (h : a + a' = b + b') :
    constTerm (a + a') (a' - a) (b' - b) =
      .ok ((-1) ^ a' * Real.sqrt ((a'.factorial : ℝ) * a.factorial * b'.factorial * b.factorial)) := by
  unfold constTerm
  have e1 : ((a + a' : ℤ) + (a' - a)) = 2 * a' := by ring
  have e2 : ((a + a' : ℤ) - (a' - a)) = 2 * a := by ring
  have e3 : ((a + a' : ℤ) + (b' - b)) = 2 * b' := by omega
  have e4 : ((a + a' : ℤ) - (b' - b)) = 2 * b := by omega
  rw [e1, e2, e3, e4]
  simp only [tdiv_two, fact_ok, powMinusOne_nat]
  rfl

theorem summand_eq (a a' b b' : ℕ) (h : a + a' = b + b') (k : ℕ) (h1 : k ≤ a') (h2 : k ≤ b')
    (h3 : a' + b' ≤ k + (a + a')) :
    summand (a + a') (a' - a) (b' - b) k = .ok (goodTerm a a' b' k) := by
  unfold summand
  have e1 : ((a + a' : ℤ) + (a' - a)) = 2 * a' := by ring
  have e3 : ((a + a' : ℤ) + (b' - b)) = 2 * b' := by omega
  have e4 : ((a' - a : ℤ) + (b' - b)) = 2 * (a' + b' - (a + a')) := by omega
  rw [e1, e3, e4]
  simp only [tdiv_two]
  have f1 : (a' : ℤ) - k = ((a' - k : ℕ) : ℤ) := by omega
  have f2 : (b' : ℤ) - k = ((b' - k : ℕ) : ℤ) := by omega
  have f3 : (k : ℤ) - (a' + b' - (a + a')) = ((k + (a + a') - (a' + b') : ℕ) : ℤ) := by omega
  rw [f1, f2, f3]
  simp only [fact_ok, powMinusOne_nat]
  simp only [bind, Outcome.bind, pure, goodTerm, Outcome.ok.injEq, Summand.mk.injEq, true_and, and_true]
  ring

theorem summands_eq (a a' b b' : ℕ) (h : a + a' = b + b') (fuel k : ℕ) 
    (h3 : a' + b' ≤ k + (a + a')) (hf : k + fuel = min a' b' + 1) :
    summands (a + a') (a' - a) (b' - b) (min a' b' : ℕ) fuel k =
      .ok ((List.range' k fuel).map (goodTerm a a' b')) := by
  induction fuel generalizing k with
  | zero => simp [summands]
  | succ n ih =>
    unfold summands
    rw [if_pos (by omega), summand_eq a a' b b' h k (by omega) (by omega) h3]
    have e : (k : ℤ) + 1 = ((k + 1 : ℕ) : ℤ) := by push_cast; rfl
    rw [e, ih (k + 1) (by omega) (by omega)]
    simp [List.range'_succ, bind, Outcome.bind, pure]

/-- the list of summands the code builds (in coordinates). -/
noncomputable def goodTerms (a a' b' : ℕ) : List Summand :=
  (List.range' (b' - a) (min a' b' + 1 - (b' - a))).map (goodTerm a a' b')

noncomputable def goodEntry (a a' b b' : ℕ) : Entry :=
  ⟨(-1) ^ a' * Real.sqrt ((a'.factorial : ℝ) * a.factorial * b'.factorial * b.factorial), goodTerms a a' b'⟩

noncomputable def entryVal (e : Entry) (θ : ℝ) : ℝ :=
  e.constTerm * sumTerm e.terms (Real.cos θ) (Real.sin θ)

/-- the value from a correct entry is Wigner's sum. -/
theorem entryVal_eq (a a' b b' : ℕ) (h : a + a' = b + b') (θ : ℝ) :
    entryVal (goodEntry a a' b b') (θ / 2) = wignerD (a + a') (a' - a) (b' - b) θ := by
  unfold entryVal goodEntry wignerD sumTerm goodTerms
  have e1 : ((a + a' : ℤ) + (a' - a)) / 2 = a' := by omega
  have e2 : ((a + a' : ℤ) - (a' - a)) / 2 = a := by omega
  have e3 : ((a + a' : ℤ) + (b' - b)) / 2 = b' := by omega
  have e4 : ((a + a' : ℤ) - (b' - b)) / 2 = b := by omega
  have e5 : ((a' - a : ℤ) - (b' - b)) / 2 = a' - b' := by omega
  have e6 : ((b' - b : ℤ) - (a' - a)) / 2 = b' - a' := by omega
  simp only [e1, e2, e3, e4, e5, e6]
  simp only [fac, Int.toNat_natCast]
  rw [mul_comm ((-1 : ℝ) ^ a'), mul_assoc]
  congr 1
  rw [List.map_map, ← List.sum_toFinset _ (List.nodup_range'), mul_sum]
  have hset : (List.range' (b' - a) (min a' b' + 1 - (b' - a))).toFinset = Ico (b' - a) (min a' b' + 1) := by
    ext x; simp; omega
  rw [hset]
  refine sum_bij_ne_zero (fun k _ _ => b' - k) ?_ ?_ ?_ ?_
  · intro k hk _; simp only [mem_Ico, mem_range] at *; omega
  · intro k hk _ l hl _ hkl; simp only [mem_Ico] at *; omega
  · intro s hs hne
    simp only [mem_range] at hs
    have g1 : ¬ ((b' : ℤ) - s < 0) := by intro hh; apply hne; simp [rfac, hh]
    have g2 : ¬ ((a' : ℤ) - b' + s < 0) := by intro hh; apply hne; simp [rfac, hh]
    have g3 : ¬ ((a : ℤ) - s < 0) := by intro hh; apply hne; simp [rfac, hh]
    refine ⟨b' - s, by simp only [mem_Ico]; omega, ?_, by omega⟩
    revert hne
    contrapose!
    intro hz
    have hh : (-1 : ℝ) ^ a' * ((fun t : Summand => Real.cos (θ/2) ^ t.kmn1 * Real.sin (θ/2) ^ t.jmnk / t.factor) ∘
        goodTerm a a' b') (b' - s) = 
        (-1) ^ ((a' - b' : ℤ) + s) * Real.cos (θ / 2) ^ (((a + a' : ℤ)) + (b' - a') - 2 * s)
      * Real.sin (θ / 2) ^ ((a' - b' : ℤ) + 2 * s)
      * (rfac ((b' : ℤ) - s) * rfac s * rfac ((a' - b' : ℤ) + s) * rfac ((a : ℤ) - s)) := by
      simp only [Function.comp, goodTerm, rfac]
      rw [if_neg g1, if_neg g2, if_neg g3, if_neg (by omega)]
      simp only [fac]
      have x1 : ((b' : ℤ) - s).toNat = b' - s := by omega
      have x2 : ((s : ℤ)).toNat = s := by omega
      have x3 : ((a' : ℤ) - b' + s).toNat = a' - (b' - s) := by omega
      have x4 : ((a : ℤ) - s).toNat = (b' - s) + (a + a') - (a' + b') := by omega
      rw [x1, x2, x3, x4]
      have y1 : (2 * ((b' - s : ℕ) : ℤ) - (a' + b' - (a + a'))) = ((a : ℤ) + a') + (b' - a') - 2 * s := by omega
      have y2 : ((a' + b' : ℤ) - 2 * ((b' - s : ℕ) : ℤ)) = (a' - b' : ℤ) + 2 * s := by omega
      have y3 : b' - (b' - s) = s := by omega
      rw [y1, y2, y3]
      have sg : ((-1 : ℝ) ^ ((a' - b' : ℤ) + s)) * (-1) ^ (b' - s) = (-1) ^ a' := by
        have : ((a' - b' : ℤ) + s) = (a' : ℤ) - ((b' - s : ℕ) : ℤ) := by omega
        rw [this, zpow_sub₀ (by norm_num), zpow_natCast, zpow_natCast]
        field_simp
      rw [← sg]
      have hm1 : ((-1 : ℝ) ^ (b' - s)) * (-1) ^ (b' - s) = 1 := by
        rw [← pow_add, ← two_mul, pow_mul]; simp
      field_simp
      rw [sq, hm1, one_mul]
    rw [hh] at hz
    exact hz
  · intro k hk hne
    simp only [mem_Ico] at hk
    have hkb : ((b' - k : ℕ) : ℤ) = (b' : ℤ) - k := by omega
    simp only [Function.comp, goodTerm, rfac]
    rw [hkb]
    have g1 : ¬ ((b' : ℤ) - (b' - k) < 0) := by omega
    have g2 : ¬ ((b' : ℤ) - k < 0) := by omega
    have g3 : ¬ ((a' : ℤ) - b' + (b' - k) < 0) := by omega
    have g4 : ¬ ((a : ℤ) - (b' - k) < 0) := by omega
    rw [if_neg g1, if_neg g2, if_neg g3, if_neg g4]
    simp only [fac]
    have x1 : ((b' : ℤ) - (b' - k)).toNat = k := by omega
    have x2 : ((b' : ℤ) - k).toNat = b' - k := by omega
    have x3 : ((a' : ℤ) - b' + (b' - k)).toNat = a' - k := by omega
    have x4 : ((a : ℤ) - (b' - k)).toNat = k + (a + a') - (a' + b') := by omega
    rw [x1, x2, x3, x4]
    have y1 : (2 * (k : ℤ) - (a' + b' - (a + a'))) = ((a : ℤ) + a') + (b' - a') - 2 * (b' - k) := by ring
    have y2 : ((a' + b' : ℤ) - 2 * (k : ℤ)) = (a' - b' : ℤ) + 2 * (b' - k) := by ring
    rw [y1, y2]
    have sg : ((-1 : ℝ) ^ ((a' - b' : ℤ) + (b' - k))) * (-1) ^ k = (-1) ^ a' := by
      have : ((a' - b' : ℤ) + (b' - k)) = (a' : ℤ) - (k : ℤ) := by ring
      rw [this, zpow_sub₀ (by norm_num), zpow_natCast, zpow_natCast]
      field_simp
    rw [← sg]
    have hm1 : ((-1 : ℝ) ^ k) * (-1) ^ k = 1 := by
      rw [← pow_add, ← two_mul, pow_mul]; simp
    field_simp
    rw [sq, hm1, one_mul]

/-- reversing the angle is swapping the projections. -/
theorem entryVal_swap (a a' b b' : ℕ) (h : a + a' = b + b') (x : ℝ) :
    entryVal (goodEntry b b' a a') (-x) = entryVal (goodEntry a a' b b') x := by
  unfold entryVal goodEntry sumTerm goodTerms
  have e1 : a' - b = b' - a := by omega
  have e2 : min b' a' = min a' b' := Nat.min_comm _ _
  rw [e1, e2]
  simp only [List.map_map, Real.cos_neg, Real.sin_neg]
  have e3 : ((b'.factorial : ℝ) * b.factorial * a'.factorial * a.factorial) =
      (a'.factorial : ℝ) * a.factorial * b'.factorial * b.factorial := by ring
  rw [e3]
  have hm : ∀ k ∈ List.range' (b' - a) (min a' b' + 1 - (b' - a)),
      ((fun t : Summand => Real.cos x ^ t.kmn1 * (-Real.sin x) ^ t.jmnk / t.factor) ∘ goodTerm b b' a') k =
      (-1) ^ (a' + b') *
      ((fun t : Summand => Real.cos x ^ t.kmn1 * (Real.sin x) ^ t.jmnk / t.factor) ∘ goodTerm a a' b') k := by
    intro k hk
    have hk' : k ≤ min a' b' := by
      have := List.mem_range'_1.1 hk; omega
    simp only [Function.comp, goodTerm]
    have f1 : k + (b + b') - (b' + a') = k + (a + a') - (a' + b') := by omega
    have f2 : (2 * (k : ℤ) - (b' + a' - (b + b'))) = 2 * (k : ℤ) - (a' + b' - (a + a')) := by omega
    have f3 : (b' + a' : ℤ) - 2 * k = (a' + b') - 2 * k := by ring
    rw [f1, f2, f3]
    have f4 : (-Real.sin x) ^ ((a' + b' : ℤ) - 2 * k) = (-1) ^ (a' + b') * Real.sin x ^ ((a' + b' : ℤ) - 2 * k) := by
      have : ((a' + b' : ℤ) - 2 * k) = ((a' + b' - 2 * k : ℕ) : ℤ) := by omega
      rw [this, zpow_natCast, zpow_natCast, neg_pow]
      congr 1
      have : a' + b' = (a' + b' - 2 * k) + 2 * k := by omega
      conv_rhs => rw [this, pow_add, pow_mul]
      simp
    rw [f4]
    have f5 : ((k.factorial : ℝ) * (b' - k).factorial * (a' - k).factorial) =
      ((k.factorial : ℝ) * (a' - k).factorial * (b' - k).factorial) := by ring
    rw [f5]; ring
  rw [List.map_congr_left hm, List.sum_map_mul_left]
  have f6 : (-1 : ℝ) ^ b' * (-1) ^ (a' + b') = (-1) ^ a' := by
    rw [pow_add, mul_comm, mul_assoc, ← pow_add, ← two_mul, pow_mul]; simp
  rw [← f6]; ring

/-- cache invariant for histories of consistent requests with caching on. -/
def Inv (s : State) : Prop :=
  ∀ x e, s.mem x = some e → ∃ a a' b b' : ℕ, a + a' = b + b' ∧
    x = (((a + a' : ℕ) : ℤ), (a' : ℤ), (b' : ℤ)) ∧ e = goodEntry a a' b b'

theorem inv_init : Inv init := by intro x e h; simp [init] at h

/-- what the un-cached branch computes. -/
theorem fresh_eq (a a' b b' : ℕ) (h : a + a' = b + b') :
    constTerm (a + a') (a' - a) (b' - b) = .ok (goodEntry a a' b b').constTerm ∧
    summands (a + a') (a' - a) (b' - b) (min (a' : ℤ) b')
      (min (a' : ℤ) b' - max 0 (((a' - a : ℤ) + (b' - b)).tdiv 2) + 1).toNat
      (max 0 (((a' - a : ℤ) + (b' - b)).tdiv 2)) = .ok (goodEntry a a' b b').terms := by
  refine ⟨constTerm_eq a a' b b' h, ?_⟩
  have e4 : ((a' - a : ℤ) + (b' - b)) = 2 * (a' + b' - (a + a')) := by omega
  rw [e4, tdiv_two]
  have e1 : max 0 ((a' : ℤ) + b' - (a + a')) = ((b' - a : ℕ) : ℤ) := by omega
  have e2 : min (a' : ℤ) b' = ((min a' b' : ℕ) : ℤ) := by omega
  rw [e1, e2]
  have e3 : (((min a' b' : ℕ) : ℤ) - ((b' - a : ℕ) : ℤ) + 1).toNat = min a' b' + 1 - (b' - a) := by omega
  rw [e3, summands_eq a a' b b' h _ _ (by omega) (by omega)]
  rfl

/-- `call` on consistent arguments in the supported range. -/
theorem call_coords (s : State) (a a' b b' : ℕ) (h : a + a' = b + b') (hj : ((a : ℤ) + a') < maxJ)
    (h0 : 0 < a + a') (θ : ℝ) (a₁ a₁' b₁ b₁' : ℕ)
    (hsw : if θ < 0 then (a₁ = b ∧ a₁' = b' ∧ b₁ = a ∧ b₁' = a') else (a₁ = a ∧ a₁' = a' ∧ b₁ = b ∧ b₁' = b')) :
    (s.useCache = true → s.mem ((a + a' : ℤ), (a₁' : ℤ), (b₁' : ℤ)) = some (goodEntry a₁ a₁' b₁ b₁') →
      call s (a + a') (a' - a) (b' - b) θ = .ok (wignerD (a + a') (a' - a) (b' - b) θ, s)) ∧
    ((s.useCache = false ∨ s.mem ((a + a' : ℤ), (a₁' : ℤ), (b₁' : ℤ)) = none) →
      ∃ s', call s (a + a') (a' - a) (b' - b) θ = .ok (wignerD (a + a') (a' - a) (b' - b) θ, s') ∧
        s'.useCache = s.useCache ∧
        (s.useCache = true → ∀ x, s'.mem x = if x = ((a + a' : ℤ), (a₁' : ℤ), (b₁' : ℤ)) then
          some (goodEntry a₁ a₁' b₁ b₁') else s.mem x)) := by
  have hm : (if θ < 0 then ((b' : ℤ) - b) else (a' - a)) = (a₁' : ℤ) - a₁ := by
    split at hsw <;> rename_i hθ <;> simp [hθ] <;> omega
  have hn : (if θ < 0 then ((a' : ℤ) - a) else (b' - b)) = (b₁' : ℤ) - b₁ := by
    split at hsw <;> rename_i hθ <;> simp [hθ] <;> omega
  have hj1 : ((a : ℤ) + a') = (a₁ : ℤ) + a₁' := by split at hsw <;> omega
  have hab : a₁ + a₁' = b₁ + b₁' := by split at hsw <;> omega
  have hval : entryVal (goodEntry a₁ a₁' b₁ b₁') (if θ < 0 then |θ / 2| else θ / 2) =
      wignerD (a + a') (a' - a) (b' - b) θ := by
    rw [← entryVal_eq a a' b b' h θ]
    split at hsw <;> rename_i hθ
    · obtain ⟨rfl, rfl, rfl, rfl⟩ := hsw
      rw [if_pos hθ, abs_of_neg (by linarith)]
      exact entryVal_swap _ _ _ _ h _
    · obtain ⟨rfl, rfl, rfl, rfl⟩ := hsw
      rw [if_neg hθ]
  unfold entryVal at hval
  have i1 : ((a : ℤ) + a' + (a₁' - a₁)).tdiv 2 = a₁' := by
    have : ((a : ℤ) + a' + (a₁' - a₁)) = 2 * a₁' := by omega
    rw [this, tdiv_two]
  have i2 : ((a : ℤ) + a' + (b₁' - b₁)).tdiv 2 = b₁' := by
    have : ((a : ℤ) + a' + (b₁' - b₁)) = 2 * b₁' := by omega
    rw [this, tdiv_two]
  have hmax : maxJ = 41 := rfl
  have hcall : call s (a + a') (a' - a) (b' - b) θ =
      (match s.useCache, s.mem ((a + a' : ℤ), (a₁' : ℤ), (b₁' : ℤ)) with
      | true, some e => .ok (e.constTerm * sumTerm e.terms (Real.cos (if θ < 0 then |θ / 2| else θ / 2))
          (Real.sin (if θ < 0 then |θ / 2| else θ / 2)), s)
      | useCache, old => do
        let ct ← constTerm (a + a') (a₁' - a₁) (b₁' - b₁)
        let ts ← summands (a + a') (a₁' - a₁) (b₁' - b₁) (min (a₁' : ℤ) b₁')
          (min (a₁' : ℤ) b₁' - max 0 (((a₁' - a₁ : ℤ) + (b₁' - b₁)).tdiv 2) + 1).toNat
          (max 0 (((a₁' - a₁ : ℤ) + (b₁' - b₁)).tdiv 2))
        pure (ct * sumTerm ts (Real.cos (if θ < 0 then |θ / 2| else θ / 2))
            (Real.sin (if θ < 0 then |θ / 2| else θ / 2)),
          { s with mem := fun x => if x = ((a + a' : ℤ), (a₁' : ℤ), (b₁' : ℤ)) then 
              ((if useCache then some (⟨0, []⟩ : Entry) else old).map (fun e => ⟨ct, e.terms ++ ts⟩)) 
              else s.mem x })) := by
    unfold call
    rw [if_neg (by omega), if_neg (by simp only [Bool.or_eq_true, decide_eq_true_eq]; omega),
      if_neg (by simp; omega)]
    simp only [hm, hn, i1, i2]
    rw [if_neg (by simp only [Bool.or_eq_true, decide_eq_true_eq, hmax]; rw [hmax] at hj; omega)]
    cases hu : s.useCache <;> cases hmm : s.mem ((a + a' : ℤ), (a₁' : ℤ), (b₁' : ℤ)) <;> rfl
  have hfr := fresh_eq a₁ a₁' b₁ b₁' hab
  rw [← hj1] at hfr
  constructor
  · intro hu hmem
    rw [hcall, hu, hmem]
    simp only [hval]
  · intro hc
    rw [hcall]
    rcases hu : s.useCache with _ | _
    · simp only [hfr.1, hfr.2, bind, Outcome.bind, pure, hval]
      exact ⟨_, rfl, rfl, by simp⟩
    · rcases hc with hc | hc
      · rw [hu] at hc; cases hc
      · rw [hc]
        simp only [hfr.1, hfr.2, bind, Outcome.bind, pure, hval]
        refine ⟨_, rfl, rfl, fun _ x => ?_⟩
        by_cases hx : x = ((a + a' : ℤ), (a₁' : ℤ), (b₁' : ℤ)) <;> simp [hx]

theorem wignerD_zero_spin (θ : ℝ) : wignerD 0 0 0 θ = 1 := by
  simp [wignerD, fac, rfac]

theorem exists_swap (a a' b b' : ℕ) (θ : ℝ) : ∃ a₁ a₁' b₁ b₁' : ℕ,
    if θ < 0 then (a₁ = b ∧ a₁' = b' ∧ b₁ = a ∧ b₁' = a') else (a₁ = a ∧ a₁' = a' ∧ b₁ = b ∧ b₁' = b') := by
  by_cases h : θ < 0
  · exact ⟨b, b', a, a', by simp [h]⟩
  · exact ⟨a, a', b, b', by simp [h]⟩

/-- With caching off, a consistent request is right in *every* state. -/
theorem call_off (s : State) (hu : s.useCache = false) (j m n : ℤ) (hm : Proj j m) (hn : Proj j n)
    (hj : j < maxJ) (θ : ℝ) : ∃ s', call s j m n θ = .ok (wignerD j m n θ, s') := by
  obtain ⟨a, a', rfl, rfl⟩ := proj_coords hm
  obtain ⟨b, b', h, rfl⟩ := proj_coords hn
  have h' : a + a' = b + b' := by omega
  by_cases h0 : 0 < a + a'
  · obtain ⟨a₁, a₁', b₁, b₁', hsw⟩ := exists_swap a a' b b' θ
    obtain ⟨s', h1, _⟩ := (call_coords s a a' b b' h' hj h0 θ a₁ a₁' b₁ b₁' hsw).2 (Or.inl hu)
    exact ⟨s', h1⟩
  · have : a = 0 ∧ a' = 0 ∧ b = 0 ∧ b' = 0 := by omega
    obtain ⟨rfl, rfl, rfl, rfl⟩ := this
    refine ⟨s, ?_⟩
    simp [call, maxJ, wignerD_zero_spin]

/-- With caching on and a correct cache, a consistent request is right and keeps the cache correct. -/
theorem call_on (s : State) (hs : Inv s) (hu : s.useCache = true) (j m n : ℤ) (hm : Proj j m)
    (hn : Proj j n) (hj : j < maxJ) (θ : ℝ) :
    ∃ s', call s j m n θ = .ok (wignerD j m n θ, s') ∧ Inv s' ∧ s'.useCache = true := by
  obtain ⟨a, a', rfl, rfl⟩ := proj_coords hm
  obtain ⟨b, b', h, rfl⟩ := proj_coords hn
  have h' : a + a' = b + b' := by omega
  by_cases h0 : 0 < a + a'
  · obtain ⟨a₁, a₁', b₁, b₁', hsw⟩ := exists_swap a a' b b' θ
    have hc := call_coords s a a' b b' h' hj h0 θ a₁ a₁' b₁ b₁' hsw
    have hj1 : ((a : ℤ) + a') = (a₁ : ℤ) + a₁' := by split at hsw <;> omega
    have hab : a₁ + a₁' = b₁ + b₁' := by split at hsw <;> omega
    cases hmem : s.mem ((a + a' : ℤ), (a₁' : ℤ), (b₁' : ℤ)) with
    | some e =>
      obtain ⟨c, c', d, d', hcd, hx, he⟩ := hs _ _ hmem
      simp only [Prod.mk.injEq, Nat.cast_inj] at hx
      have : c = a₁ ∧ c' = a₁' ∧ d = b₁ ∧ d' = b₁' := by omega
      obtain ⟨rfl, rfl, rfl, rfl⟩ := this
      exact ⟨s, hc.1 hu (by rw [hmem, he]), hs, hu⟩
    | none =>
      obtain ⟨s', h1, h2, h3⟩ := hc.2 (Or.inr hmem)
      refine ⟨s', h1, ?_, by rw [h2, hu]⟩
      intro x e hxe
      rw [h3 hu] at hxe
      split at hxe
      · rename_i hx
        refine ⟨a₁, a₁', b₁, b₁', hab, ?_, (Option.some.inj hxe).symm⟩
        rw [hx, hj1]; push_cast; rfl
      · exact hs x e hxe
  · have : a = 0 ∧ a' = 0 ∧ b = 0 ∧ b' = 0 := by omega
    obtain ⟨rfl, rfl, rfl, rfl⟩ := this
    refine ⟨s, ?_, hs, hu⟩
    simp [call, maxJ, wignerD_zero_spin]

end Rpwa.DFunction
