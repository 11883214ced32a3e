import Verif.Props.SpinChannel
import Verif.Lemmas.SpinSymm
/-!
# Contributions to helicity-coupling amplitudes
-/
namespace Rpwa.SpinTensor
open Fraction CgBox Spec

/-! ### reflection -/

def neg (l : List ℤ) : List ℤ := l.map fun m => -m

theorem neg_sum (l : List ℤ) : (neg l).sum = -l.sum := by
  unfold neg
  induction l with
  | nil => rfl
  | cons a l ih => rw [List.map_cons, List.sum_cons, List.sum_cons, ih]; ring

theorem neg_count (l : List ℤ) : (neg l).count 0 = l.count 0 := by
  unfold neg
  induction l with
  | nil => rfl
  | cons a l ih => rw [List.map_cons, List.count_cons, List.count_cons, ih]; congr 1; simp

theorem hels_perm : ∀ n : ℕ, ((hels n).map neg).Perm (hels n)
  | 0 => by simp [hels, neg]
  | n + 1 => by
    have ih := hels_perm n
    have e : ∀ m : ℤ, ((hels n).map (· ++ [m])).map neg = ((hels n).map neg).map (· ++ [-m]) := by
      intro m; rw [List.map_map, List.map_map]; refine List.map_congr_left fun l _ => ?_
      simp [neg]
    simp only [hels, List.flatMap_cons, List.flatMap_nil, List.append_nil, List.map_append, e, neg_neg, neg_zero]
    have h1 := ih.map (· ++ [(1 : ℤ)])
    have h0 := ih.map (· ++ [(0 : ℤ)])
    have hm := ih.map (· ++ [(-1 : ℤ)])
    refine (h1.append (h0.append hm)).trans ?_
    refine (List.perm_append_comm_assoc _ _ _).trans ?_
    refine (List.perm_append_comm.append_left _).trans ?_
    exact List.perm_append_comm_assoc _ _ _

theorem sum_neg {M : Type} [AddCommMonoid M] (n : ℕ) (g : List ℤ → M) : ((hels n).map fun l => g (neg l)).sum = ((hels n).map g).sum := by
  have := ((hels_perm n).map g).sum_eq
  rw [List.map_map] at this
  exact this

theorem wave_neg (J : ℕ) (m : List ℤ) : wave J (neg m) = wave J m := by
  unfold wave
  rw [neg_sum, neg_count, show (J : ℤ) + -m.sum = J - m.sum by ring, show (J : ℤ) - -m.sum = J + m.sum by ring]
  congr 1; ring

theorem orbital_neg (L : ℕ) (m : List ℤ) : orbital L (neg m) = orbital L m := by
  unfold orbital
  rw [neg_sum, wave_neg]
  simp

/-- reflection of the first axis -/
def refl (u : Fin 3 → ℂ) : Fin 3 → ℂ := ![-u 0, u 1, u 2]

theorem vec_refl (γ : ℝ) (m : ℤ) : vec γ (-m) = refl (vec γ m) := by
  unfold vec refl
  by_cases h1 : m = 1
  · subst h1; ext i; fin_cases i <;> simp <;> ring
  by_cases h2 : m = -1
  · subst h2; ext i; fin_cases i <;> simp <;> ring
  by_cases h3 : m = 0
  · subst h3; ext i; fin_cases i <;> simp
  rw [if_neg (by omega), if_neg (by omega), if_neg (by omega), if_neg (by omega), if_neg (by omega), if_neg (by omega)]
  ext i; fin_cases i <;> simp

theorem vecConj_refl (m : ℤ) : vecConj (-m) = refl (vecConj m) := by
  unfold vecConj
  rw [vec_refl]
  ext i; fin_cases i <;> simp [refl]

theorem dot_refl (u v : Fin 3 → ℂ) : dot (refl u) (refl v) = dot u v := by
  simp [dot, refl, Fin.sum_univ_three]

theorem triple_refl (u v w : Fin 3 → ℂ) : triple (refl u) (refl v) (refl w) = -triple u v w := by
  simp [triple, refl, Matrix.det_fin_three]; ring

theorem contract_neg {f g : ℤ → Fin 3 → ℂ} (hf : ∀ m, f (-m) = refl (f m)) (hg : ∀ m, g (-m) = refl (g m)) :
    ∀ a b : List ℤ, contract f g (neg a) (neg b) = contract f g a b := by
  intro a b
  unfold contract neg
  rw [List.zipWith_map]
  congr 2
  funext x y
  rw [hf, hg, dot_refl]

theorem leftOver_refl (vs : List (Fin 3 → ℂ)) : leftOver (vs.map refl) = (if vs.length = 3 then -1 else 1) * leftOver vs := by
  match vs with
  | [] => simp [leftOver]
  | [a] => simp [leftOver]
  | [a, b] => simp [leftOver]
  | [a, b, d] => simp [leftOver, triple_refl]
  | a :: b :: d :: e :: l => simp [leftOver]

theorem neg_reverse (l : List ℤ) : (neg l).reverse = neg l.reverse := by unfold neg; rw [List.map_reverse]
theorem neg_take (n : ℕ) (l : List ℤ) : (neg l).take n = neg (l.take n) := by unfold neg; rw [List.map_take]
theorem neg_drop (n : ℕ) (l : List ℤ) : (neg l).drop n = neg (l.drop n) := by unfold neg; rw [List.map_drop]
theorem map_neg' {f : ℤ → Fin 3 → ℂ} (hf : ∀ m, f (-m) = refl (f m)) (l : List ℤ) : (neg l).map f = (l.map f).map refl := by
  unfold neg; rw [List.map_map, List.map_map]; exact List.map_congr_left fun m _ => hf m

theorem kernel_neg (γs γσ : ℝ) (i co ce po pe cp : ℕ) (o e c p : List ℤ) :
    kernel γs γσ i co ce po pe cp (neg o) (neg e) (neg c) (neg p) =
      (if (o.length - (i + co + po)) + (e.length - (i + ce + pe)) + (c.length - (co + ce + cp)) + (p.length - (po + pe + cp)) = 3 then -1 else 1) *
        kernel γs γσ i co ce po pe cp o e c p := by
  unfold kernel
  simp only [neg_reverse, neg_take, neg_drop, contract_neg (vec_refl _) (vec_refl _), contract_neg vecConj_refl (vec_refl _), contract_neg (vec_refl _) vecConj_refl,
    map_neg' (vec_refl _), map_neg' vecConj_refl, ← List.map_append, leftOver_refl]
  simp only [List.length_append, List.length_map, List.length_drop, List.length_reverse]
  ring

theorem coefficient_neg {S : ℤ} (S1 S2 m1 m2 : ℤ) :
    CgBox.Spec.coefficient S S1 (-m1) S2 (-m2) = (-1) ^ (S1 + S2 - S) * CgBox.Spec.coefficient S S1 m1 S2 m2 := by
  unfold CgBox.Spec.coefficient
  have := Clebsch.racah_neg (2 * S1) (2 * m1) (2 * S2) (2 * m2) (2 * S) (2 * (m1 + m2))
  rw [show (2 * S1 + 2 * S2 - 2 * S) / 2 = S1 + S2 - S by omega] at this
  rw [← this]
  congr 1 <;> ring

theorem amplitude_neg {S1 S2 L J : ℕ} {S : ℤ} {i co ce po pe cp : ℕ} (hc : Complete S1 S2 L J i co ce po pe cp) (γs γσ : ℝ) (δ : ℤ) :
    amplitude γs γσ S1 S2 L J S (-δ) i co ce po pe cp = (-1) ^ ((L : ℤ) + S - J) * amplitude γs γσ S1 S2 L J S δ i co ce po pe cp := by
  unfold amplitude
  rw [← sum_neg S1, ← List.sum_map_mul_left]
  congr 1
  refine List.map_congr_left fun o ho => ?_
  rw [← sum_neg S2, ← List.sum_map_mul_left]
  congr 1
  refine List.map_congr_left fun e he => ?_
  rw [← sum_neg L, ← List.sum_map_mul_left]
  congr 1
  refine List.map_congr_left fun c hc' => ?_
  rw [← sum_neg J, ← List.sum_map_mul_left]
  congr 1
  refine List.map_congr_left fun p hp => ?_
  rw [kernel_neg, neg_sum, neg_sum, neg_sum, coefficient_neg, wave_neg, wave_neg, wave_neg, orbital_neg]
  have lo := (mem_hels.mp ho).1
  have le := (mem_hels.mp he).1
  have lc := (mem_hels.mp hc').1
  have lp := (mem_hels.mp hp).1
  have i1 : (-o.sum + -e.sum = -δ) ↔ (o.sum + e.sum = δ) := by constructor <;> intro h <;> linarith
  have i2 : (-p.sum = -δ) ↔ (p.sum = δ) := by constructor <;> intro h <;> linarith
  simp only [i1, i2]
  have hsign : ((-1 : ℝ) ^ ((S1 : ℤ) + S2 - S) : ℝ) * (if (o.length - (i + co + po)) + (e.length - (i + ce + pe)) + (c.length - (co + ce + cp)) + (p.length - (po + pe + cp)) = 3 then -1 else 1)
      = (-1) ^ ((L : ℤ) + S - J) := by
    obtain ⟨a, b, d, f, h1, h2, h3, h4, h5⟩ := hc
    rcases h5 with h5 | h5
    · rw [if_neg (by omega), mul_one]
      rw [show (L : ℤ) + S - J = ((S1 : ℤ) + S2 - S) + 2 * (S - po - pe - i) by push_cast [h1, h2, h3, h4]; omega,
        zpow_add₀ (by norm_num), zpow_mul]; norm_num
    · rw [if_pos (by omega)]
      rw [show (L : ℤ) + S - J = ((S1 : ℤ) + S2 - S) + 1 + 2 * (S - po - pe - i - a - b + 1 - f) by push_cast [h1, h2, h3, h4]; omega,
        zpow_add₀ (by norm_num), zpow_add₀ (by norm_num), zpow_mul]; norm_num
  have hsign' := congrArg (fun x : ℝ => (x : ℂ)) hsign
  push_cast at hsign'
  rw [← hsign']
  split_ifs <;> push_cast <;> ring

end Rpwa.SpinTensor
