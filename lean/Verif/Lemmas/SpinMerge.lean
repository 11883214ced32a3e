import Verif.Lemmas.SpinSteps
import Verif.Lemmas.Outcome
/-!
# Sums of terms with the same exponents
-/
namespace Rpwa.SpinTensor
open Fraction CgBox Spec

theorem ssqrt_ssq (r K : ℚ) (hK : 0 < K) : ssqrt ((ssq r * K : ℚ) : ℝ) = r * Real.sqrt K := by
  have hK' : (0 : ℝ) < K := by exact_mod_cast hK
  unfold ssqrt ssq
  rw [Rat.cast_mul, Rat.cast_mul, Rat.cast_abs]
  rcases lt_trichotomy r 0 with h | h | h
  · have h' : (r : ℝ) < 0 := by exact_mod_cast h
    rw [abs_of_neg h', sign_neg (by nlinarith [mul_pos (mul_pos (neg_pos.mpr h') (neg_pos.mpr h')) hK']), abs_of_neg (by nlinarith [mul_pos (mul_pos (neg_pos.mpr h') (neg_pos.mpr h')) hK'])]
    rw [show -((r : ℝ) * -r * K) = (-r) ^ 2 * K by ring, Real.sqrt_mul (by positivity), Real.sqrt_sq (by linarith)]
    simp
  · subst h; simp
  · have h' : (0 : ℝ) < r := by exact_mod_cast h
    rw [abs_of_pos h', sign_pos (by positivity), abs_of_pos (by positivity), show (r : ℝ) * r * K = r ^ 2 * K by ring, Real.sqrt_mul (by positivity), Real.sqrt_sq h'.le]
    simp

theorem sum_ok {x y : Frac} {u v c : ℚ} (hx : Ok x (ssq u * c)) (hy : Ok y (ssq v * c)) (hc : 0 < c) :
    ∃ r, sumSignedRoots x y = .ok (some r) ∧ Ok r (ssq (u + v) * c) := by
  obtain ⟨h1, h2⟩ := sqrt_mixed hx hy hc
  obtain ⟨s, hs, os, _⟩ := add_ok (abs_ok hx.getDval) (abs_ok hy.getDval)
  obtain ⟨t, ht, ot, _⟩ := ofInts_ok 2 1 (by decide)
  obtain ⟨r, hr, or, _⟩ := add_ok os (mul_ok ot h2)
  have hflip : (dval false x + dval false y < 0) ↔ u + v < 0 := by
    rw [hx.dval_eq, hy.dval_eq, ← Rat.cast_add, ← Rat.cast_zero, Rat.cast_lt, ← add_mul,
      show (0 : ℚ) = 0 * c by ring, mul_lt_mul_iff_left₀ hc, ← sub_neg_eq_add (ssq u), ← ssq_neg, sub_neg, ssq_lt]
    constructor <;> intro h <;> linarith
  have hval : |ssq u * c| + |ssq v * c| + ((2 : ℤ) : ℚ) / ((1 : ℤ) : ℚ) * (u * v * c) = (u + v) ^ 2 * c := by
    rw [abs_mul, abs_mul, abs_ssq, abs_ssq, abs_of_pos hc]; push_cast; ring
  rw [hval] at or
  unfold sumSignedRoots
  dsimp only
  rw [if_pos h1]
  simp only [hs, ht, hr, Option.bind_some]
  refine ⟨_, rfl, ?_⟩
  by_cases hf : u + v < 0
  · rw [if_pos (hflip.mpr hf)]
    have e : ssq (u + v) * c = -((u + v) ^ 2 * c) := by
      rw [show u + v = -(-(u + v)) by ring, ssq_neg, ssq_nonneg (by linarith)]; ring
    rw [e]
    exact flipSign_ok or
  · rw [if_neg (fun h => hf (hflip.mp h)), ssq_nonneg (by linarith)]
    exact or

/-- no indices, exponents that are not negative -/
def Bare (t : Term) : Prop := t.ome = [] ∧ t.eps = [] ∧ t.chi = [] ∧ t.phi = [] ∧ 0 ≤ t.gamS ∧ 0 ≤ t.gamSig

/-- a term that can be added to the others -/
def Cls (K : ℚ) (t : Term) : Prop := ∃ r, Ok t.pre (ssq r * K) ∧ (r = 0 ∨ Bare t)

theorem same_iff {a b : Term} : sameStructure a b = true ↔ a.ome.length = b.ome.length ∧ a.eps.length = b.eps.length ∧ a.chi.length = b.chi.length ∧
    a.phi.length = b.phi.length ∧ a.gamS = b.gamS ∧ a.gamSig = b.gamSig := by
  simp [sameStructure, and_assoc]

def Diff (a b : Term) : Prop := ¬ sameStructure a b = true

theorem addTerm_ok (K : ℚ) (hK : 0 < K) (t : Term) (ht : Cls K t) : ∀ tls : List Term, (∀ x ∈ tls, Cls K x) → tls.Pairwise Diff →
    ∃ out, addTerm tls t = .ok out ∧ (∀ x ∈ out, Cls K x) ∧ out.Pairwise Diff ∧
      (∀ x ∈ out, sameStructure t x = true ∨ ∃ y ∈ tls, sameStructure y x = true) ∧
      ∀ γs γσ : ℝ, (out.map (val γs γσ)).sum = (tls.map (val γs γσ)).sum + val γs γσ t := by
  intro tls
  induction tls with
  | nil =>
    intro _ _
    exact ⟨[t], rfl, by simpa using ht, by simp, fun x hx => Or.inl (by rw [List.mem_singleton.mp hx]; simp [same_iff]), by simp⟩
  | cons x xs ih =>
    intro hall hpw
    obtain ⟨rx, ox, bx⟩ := hall x (by simp)
    obtain ⟨rt, ot, bt⟩ := ht
    by_cases hs : sameStructure t x = true
    · obtain ⟨f, hf, of⟩ := sum_ok ox ot hK
      have hs' : sameStructure x t = true := by
        rw [same_iff] at hs ⊢; exact ⟨hs.1.symm, hs.2.1.symm, hs.2.2.1.symm, hs.2.2.2.1.symm, hs.2.2.2.2.1.symm, hs.2.2.2.2.2.symm⟩
      refine ⟨{ x with pre := f } :: xs, ?_, ?_, ?_, ?_, ?_⟩
      · simp only [addTerm, if_pos hs, addTwo, if_pos hs', hf, Outcome.ok_bind]
        rfl
      · intro z hz
        rcases List.mem_cons.mp hz with rfl | hz
        · refine ⟨rx + rt, of, ?_⟩
          rcases bx with bx | bx
          · rcases bt with bt | bt
            · left; rw [bx, bt, add_zero]
            · right
              rw [same_iff] at hs
              obtain ⟨e1, e2, e3, e4, e5, e6⟩ := hs
              rw [bt.1] at e1; rw [bt.2.1] at e2; rw [bt.2.2.1] at e3; rw [bt.2.2.2.1] at e4
              exact ⟨List.length_eq_zero_iff.mp e1.symm, List.length_eq_zero_iff.mp e2.symm, List.length_eq_zero_iff.mp e3.symm,
                List.length_eq_zero_iff.mp e4.symm, e5 ▸ bt.2.2.2.2.1, e6 ▸ bt.2.2.2.2.2⟩
          · exact Or.inr bx
        · exact hall z (by simp [hz])
      · rw [List.pairwise_cons] at hpw ⊢
        exact ⟨fun z hz => hpw.1 z hz, hpw.2⟩
      · intro z hz
        rcases List.mem_cons.mp hz with rfl | hz
        · exact Or.inl hs
        · exact Or.inr ⟨z, by simp [hz], by simp [same_iff]⟩
      · intro γs γσ
        rw [List.map_cons, List.sum_cons, List.map_cons, List.sum_cons]
        have : val γs γσ { x with pre := f } = val γs γσ x + val γs γσ t := by
          rw [same_iff] at hs
          unfold val
          rw [of.dval_eq, ox.dval_eq, ot.dval_eq, ssqrt_ssq _ _ hK, ssqrt_ssq _ _ hK, ssqrt_ssq _ _ hK, hs.2.2.2.2.1, hs.2.2.2.2.2, Rat.cast_add]
          ring
        rw [this]; ring
    · rw [List.pairwise_cons] at hpw
      obtain ⟨out, h1, h2, h3, h4, h5⟩ := ih (fun z hz => hall z (by simp [hz])) hpw.2
      refine ⟨x :: out, ?_, ?_, ?_, ?_, ?_⟩
      · simp only [addTerm, if_neg hs, h1, Outcome.ok_bind]; rfl
      · intro z hz
        rcases List.mem_cons.mp hz with rfl | hz
        · exact ⟨rx, ox, bx⟩
        · exact h2 z hz
      · rw [List.pairwise_cons]
        refine ⟨fun z hz hc => ?_, h3⟩
        rcases h4 z hz with h | ⟨y, hy, h⟩
        · apply hs
          rw [same_iff] at h hc ⊢
          refine ⟨h.1.trans hc.1.symm, h.2.1.trans hc.2.1.symm, h.2.2.1.trans hc.2.2.1.symm, h.2.2.2.1.trans hc.2.2.2.1.symm,
            h.2.2.2.2.1.trans hc.2.2.2.2.1.symm, h.2.2.2.2.2.trans hc.2.2.2.2.2.symm⟩
        · apply hpw.1 y hy
          rw [same_iff] at h hc ⊢
          exact ⟨hc.1.trans h.1.symm, hc.2.1.trans h.2.1.symm, hc.2.2.1.trans h.2.2.1.symm, hc.2.2.2.1.trans h.2.2.2.1.symm,
            hc.2.2.2.2.1.trans h.2.2.2.2.1.symm, hc.2.2.2.2.2.trans h.2.2.2.2.2.symm⟩
      · intro z hz
        rcases List.mem_cons.mp hz with rfl | hz
        · exact Or.inr ⟨z, by simp, by simp [same_iff]⟩
        · rcases h4 z hz with h | ⟨y, hy, h⟩
          · exact Or.inl h
          · exact Or.inr ⟨y, by simp [hy], h⟩
      · intro γs γσ
        rw [List.map_cons, List.sum_cons, List.map_cons, List.sum_cons, h5]; ring

theorem merge_ok (K : ℚ) (hK : 0 < K) : ∀ (ts tls : List Term), (∀ x ∈ ts, Cls K x) → (∀ x ∈ tls, Cls K x) → tls.Pairwise Diff →
    ∃ out, ts.foldlM addTerm tls = .ok out ∧ (∀ x ∈ out, Cls K x) ∧ out.Pairwise Diff ∧
      ∀ γs γσ : ℝ, (out.map (val γs γσ)).sum = (tls.map (val γs γσ)).sum + (ts.map (val γs γσ)).sum := by
  intro ts
  induction ts with
  | nil => intro tls _ h2 h3; exact ⟨tls, rfl, h2, h3, by simp⟩
  | cons t ts ih =>
    intro tls h1 h2 h3
    obtain ⟨o1, g1, g2, g3, -, g4⟩ := addTerm_ok K hK t (h1 t (by simp)) tls h2 h3
    obtain ⟨o2, f1, f2, f3, f4⟩ := ih o1 (fun x hx => h1 x (by simp [hx])) g2 g3
    refine ⟨o2, by rw [List.foldlM_cons, g1, Outcome.ok_bind, f1], f2, f3, fun γs γσ => ?_⟩
    rw [f4, g4, List.map_cons, List.sum_cons]; ring

/-- terms with value zero do not count -/
theorem filter_val (K : ℚ) (hK : 0 < K) (γs γσ : ℝ) : ∀ ts : List Term, (∀ x ∈ ts, Cls K x) →
    ((ts.filter isNonZero).map (val γs γσ)).sum = (ts.map (val γs γσ)).sum := by
  intro ts
  induction ts with
  | nil => intro _; rfl
  | cons t ts ih =>
    intro h
    obtain ⟨r, o, _⟩ := h t (by simp)
    rw [List.map_cons, List.sum_cons, ← ih fun x hx => h x (by simp [hx]), List.filter_cons]
    by_cases hz : isNonZero t = true
    · rw [if_pos hz, List.map_cons, List.sum_cons]
    · rw [if_neg hz]
      rw [nonzero_iff o, not_not] at hz
      have : val γs γσ t = 0 := by
        unfold val; rw [o.dval_eq, hz]; simp [ssqrt]
      rw [this, zero_add]

end Rpwa.SpinTensor
