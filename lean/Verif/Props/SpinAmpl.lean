import Verif.Lemmas.SpinTotal
/-!
# C81: covariant amplitudes are calculated completely and exactly

`lsAmpl` is the constructor of an LS amplitude (TLSAmpl.cc). A scheme of contractions is given by the number of pairs of
each kind; `Spec.Complete` says that these numbers fit the ranks of the tensors. `Spec.amplitude` is the contraction of the
tensors, a sum over all helicities.
-/
namespace Rpwa.SpinTensor
open Fraction CgBox Spec

/-- arguments of the constructor for a scheme with `i`, `co`, `ce`, `po`, `pe`, `cp` pairs -/
def scheme (S1 S2 L J : ℕ) (S δ : ℤ) (i co ce po pe cp : ℕ) : Scheme :=
  ⟨S1, S2, L, J, δ, S, i, (co + ce : ℕ), cp, (po + pe : ℕ), po, co⟩

theorem complete_fits {S1 S2 L J i co ce po pe cp : ℕ} (h : Complete S1 S2 L J i co ce po pe cp) :
    Fits ⟨i, co, ce, po, pe, cp⟩ (decide (Even (S1 + S2 + L + J))) S1 S2 L J := by
  obtain ⟨a, b, c, d, h1, h2, h3, h4, h5⟩ := h
  refine ⟨by dsimp only; omega, by dsimp only; omega, by dsimp only; omega, by dsimp only; omega, ?_⟩
  have e1 : S1 - (i + co + po) = a := by omega
  have e2 : S2 - (i + ce + pe) = b := by omega
  have e3 : L - (co + ce + cp) = c := by omega
  have e4 : J - (po + pe + cp) = d := by omega
  dsimp only
  rw [e1, e2, e3, e4]
  unfold Shape
  rcases h5 with h5 | h5
  · refine Or.inl ⟨?_, h5⟩
    rw [decide_eq_true_eq, Nat.even_iff]; omega
  · refine Or.inr ⟨?_, h5.2.2.2.2, h5.1, h5.2.1, h5.2.2.1, h5.2.2.2.1⟩
    rw [decide_eq_false_iff_not, Nat.even_iff]; omega

theorem phase_unit (S1 S2 L J : ℕ) : phase S1 S2 L J = unit (decide (Even (S1 + S2 + L + J))) := by
  unfold phase unit
  by_cases h : Even (S1 + S2 + L + J)
  · rw [if_pos h, if_pos (by simpa using h)]
  · rw [if_neg h, if_neg (by simpa using h)]

/-- two terms have the same powers of the Lorentz factors -/
def SamePowers (a b : Term) : Prop := a.gamS = b.gamS ∧ a.gamSig = b.gamSig

theorem out_ok {S1 S2 L J : ℕ} {S δ : ℤ} {even : Bool} (ht : CgBox.Spec.Triangle S S1 S2) {t : Term}
    (h : (∃ r, r ≠ 0 ∧ Ok t.pre (ssq r * Kf S1 S2 L J S δ even)) ∧ Bare t) :
    t.ome = [] ∧ t.eps = [] ∧ t.chi = [] ∧ t.phi = [] ∧ 0 ≤ t.gamS ∧ 0 ≤ t.gamSig ∧ dval false t.pre ≠ 0 := by
  obtain ⟨⟨r, hr, o⟩, b1, b2, b3, b4, b5, b6⟩ := h
  refine ⟨b1, b2, b3, b4, b5, b6, ?_⟩
  rw [o.dval_eq]
  have : ssq r * Kf S1 S2 L J S δ even ≠ 0 := mul_ne_zero (by unfold ssq; exact mul_ne_zero hr (abs_ne_zero.mpr hr)) (Kf_pos ht δ).ne'
  exact_mod_cast this

theorem out_diff {P : Term → Prop} {ts : List Term} (h : ∀ t ∈ ts, P t ∧ Bare t) (hd : ts.Pairwise Diff) :
    ts.Pairwise fun a b => ¬ SamePowers a b := by
  refine hd.imp_of_mem fun ha hb hab hs => hab ?_
  obtain ⟨-, a1, a2, a3, a4, -⟩ := h _ ha
  obtain ⟨-, b1, b2, b3, b4, -⟩ := h _ hb
  rw [same_iff, a1, a2, a3, a4, b1, b2, b3, b4]
  exact ⟨rfl, rfl, rfl, rfl, hs.1, hs.2⟩

/-- For a scheme that fits, the constructor ends regularly. The terms have no indices left, prefactors that are not zero, powers that
are not negative, and no two terms have the same powers. -/
theorem ampl_runs {S1 S2 L J : ℕ} {S : ℤ} (δ : ℤ) {i co ce po pe cp : ℕ} (hc : Complete S1 S2 L J i co ce po pe cp)
    (ht : CgBox.Spec.Triangle S S1 S2) :
    ∃ ts, lsAmpl (scheme S1 S2 L J S δ i co ce po pe cp) = .ok ts ∧
      (∀ t ∈ ts, t.ome = [] ∧ t.eps = [] ∧ t.chi = [] ∧ t.phi = [] ∧ 0 ≤ t.gamS ∧ 0 ≤ t.gamSig ∧ dval false t.pre ≠ 0) ∧
      ts.Pairwise fun a b => ¬ SamePowers a b := by
  obtain ⟨out, h1, h2, h3, -⟩ := lsAmpl_total (δ := δ) (complete_fits hc) ht
  exact ⟨out, h1, fun t ht' => out_ok ht (h2 t ht'), out_diff h2 h3⟩

/-- Up to two contractions between the spins and a projection that is not negative: the sum of the terms is the covariant amplitude,
for all Lorentz factors (up to `i` for triple products). -/
theorem ampl_covariant {S1 S2 L J : ℕ} {S δ : ℤ} {i co ce po pe cp : ℕ} (hc : Complete S1 S2 L J i co ce po pe cp)
    (ht : CgBox.Spec.Triangle S S1 S2) (hδ : 0 ≤ δ) (hi : i ≤ 2) :
    ∃ ts, lsAmpl (scheme S1 S2 L J S δ i co ce po pe cp) = .ok ts ∧
      ∀ γs γσ : ℝ, phase S1 S2 L J * (((ts.map (val γs γσ)).sum : ℝ) : ℂ) = amplitude γs γσ S1 S2 L J S δ i co ce po pe cp := by
  obtain ⟨out, h1, -, -, h4⟩ := lsAmpl_total (δ := δ) (complete_fits hc) ht
  refine ⟨out, h1, fun γs γσ => ?_⟩
  rw [phase_unit, h4]
  exact total (complete_fits hc) hi ht hδ γs γσ

/-- A scheme whose number of contractions does not fit the ranks ends the program. -/
theorem ampl_bad_scheme (a : Scheme)
    (h : 2 * (a.cPsiInt + a.cPsiChi + a.cChiPhi + a.cPsiPhi) ≠
      (a.S1 + a.S2 + a.L + a.J : ℕ) - (if Even (a.S1 + a.S2 + a.L + a.J) then 0 else 3 : ℤ)) : lsAmpl a = .terminate := by
  have hm : ((a.S1 : ℤ) + a.S2 + a.L + a.J).tmod 2 = ((a.S1 : ℤ) + a.S2 + a.L + a.J) % 2 := Int.tmod_eq_emod_of_nonneg (by positivity)
  unfold lsAmpl
  dsimp only
  rw [if_pos]
  rw [hm]
  by_cases he : Even (a.S1 + a.S2 + a.L + a.J)
  · rw [if_pos he] at h
    rw [Nat.even_iff] at he
    left
    refine ⟨by rw [decide_eq_true_eq]; omega, ?_⟩
    push_cast at h
    omega
  · rw [if_neg he] at h
    rw [Nat.even_iff] at he
    right
    refine ⟨by rw [decide_eq_false_iff_not]; omega, ?_⟩
    push_cast at h
    omega

theorem lastOk_snoc (x y : ℤ) (hxy : x + y = 0) : ∀ (u v : List ℤ) (r : ℤ), u.length = v.length → lastOk (u.length + 1) (u ++ [x]) (v ++ [y]) r = 1
  | [], [], r, _ => by simp [lastOk, hxy]
  | [], _ :: _, _, h => by simp at h
  | _ :: _, [], _, h => by simp at h
  | a :: u, b :: v, r, h => by
    have ih := lastOk_snoc x y hxy u v (if a + b = 0 then 1 else 0) (by simpa using h)
    exact ih

theorem mem_zipWith {α : Type} (f : ℤ → ℤ → α) (u v : List ℤ) (z : α) : z ∈ List.zipWith f u v ↔ ∃ p ∈ u.zip v, f p.1 p.2 = z := by
  rw [show List.zipWith f u v = (u.zip v).map fun p => f p.1 p.2 by rw [List.zip_eq_zipWith, List.map_zipWith], List.mem_map]

theorem contract_zero (γs γσ : ℝ) : ∀ (u v : List ℤ), (∀ m ∈ u, Hel m) → (∀ m ∈ v, Hel m) → (∃ x ∈ u.zip v, x.1 + x.2 ≠ 0) →
    contract (vec γs) (vec γσ) u v = 0 := by
  intro u v hu hv ⟨x, hx, hne⟩
  unfold contract
  apply List.prod_eq_zero
  rw [mem_zipWith]
  refine ⟨x, hx, ?_⟩
  have h1 := hu _ (List.of_mem_zip hx).1
  have h2 := hv _ (List.of_mem_zip hx).2
  rw [dot_vec _ _ h1 h2]
  unfold kc
  rw [if_pos hne]; simp

/-- Three or more contractions between the spins: only the pair that is taken last decides whether the term is kept. A pair of
helicities before it may vanish: the product of the polarization vectors is zero, and the term is kept, with a prefactor that is not
zero. Hence `i ≤ 2` in `ampl_covariant`. -/
theorem inner_last_pair (x y : ℤ) (u v : List ℤ) (hl : u.length = v.length)
    (hx : Hel x) (hy : Hel y) (hxy : x + y = 0) (h1 : ∀ m ∈ u, Hel m) (h2 : ∀ m ∈ v, Hel m) (hz : ∃ p ∈ u.zip v, p.1 + p.2 ≠ 0) :
    (∀ γs γσ : ℝ, contract (vec γs) (vec γσ) (x :: u) (y :: v) = 0) ∧
    ∃ t, innerSum [⟨x :: u, y :: v, [], [], 0, 0, default1⟩] (u.length + 1 : ℕ) = .ok [t] ∧ dval false t.pre ≠ 0 := by
  constructor
  · intro γs γσ
    obtain ⟨p, hp, hne⟩ := hz
    exact contract_zero γs γσ _ _ (by simpa using ⟨hx, h1⟩) (by simpa using ⟨hy, h2⟩) ⟨p, by simp [hp], hne⟩
  · obtain ⟨t', g1, -, -, -, -, -, -, g8⟩ := inner_ok (u.length + 1) (u.reverse ++ [x]) (v.reverse ++ [y]) ⟨x :: u, y :: v, [], [], 0, 0, default1⟩ 0 1
      (by simp) (by simp [hl]) (by simpa [or_imp, forall_and, hx] using h1) (by simpa [or_imp, forall_and, hy] using h2) (by simp) (by simp) ok_default
    refine ⟨t', ?_, ?_⟩
    · unfold innerSum innerTerm
      rw [Int.toNat_natCast, List.mapM_cons, g1]
      have hlast := lastOk_snoc x y hxy u.reverse v.reverse 0 (by simpa using hl)
      rw [List.length_reverse] at hlast
      rw [hlast]
      rfl
    · rw [g8.dval_eq]
      have hs : pins ((u.reverse ++ [x]).take (u.length + 1)) ((v.reverse ++ [y]).take (u.length + 1)) ≠ 0 := by
        unfold pins
        intro h0
        rw [List.prod_eq_zero_iff] at h0
        rw [mem_zipWith] at h0
        obtain ⟨p, -, hp⟩ := h0
        unfold pin at hp
        split_ifs at hp <;> omega
      have : ((pins ((u.reverse ++ [x]).take (u.length + 1)) ((v.reverse ++ [y]).take (u.length + 1)) : ℤ) : ℚ) * 1 ≠ 0 :=
        mul_ne_zero (by exact_mod_cast hs) one_ne_zero
      exact_mod_cast this

/-! ### examples -/

/-- two particles with spin 1 in a P wave, total spin 1: one pair of the spins, one of orbital and total angular momentum -/
example : Complete 1 1 1 1 1 0 0 0 0 1 ∧ CgBox.Spec.Triangle 2 (1 : ℕ) (1 : ℕ) :=
  ⟨⟨0, 0, 0, 0, by decide⟩, by unfold CgBox.Spec.Triangle; decide⟩

/-- a triple product: spin 2 and 1, D wave, total spin 2, `L` and the spins -/
example : Complete 2 1 2 2 0 0 0 1 0 1 := ⟨1, 1, 1, 0, by decide⟩

/-- a scheme that does not fit: two vectors of different particles left over -/
example : lsAmpl (scheme 1 1 1 1 2 0 1 0 0 0 0 0) = .terminate := ampl_bad_scheme _ (by decide)

/-- a P wave of a scalar and a vector, total spin 0: the Lorentz factor of the vector -/
example : ∃ ts, lsAmpl (scheme 0 1 1 0 1 0 0 0 1 0 0 0) = .ok ts ∧ ∀ γs γσ : ℝ, (ts.map (val γs γσ)).sum = γσ := by
  obtain ⟨ts, h1, h2⟩ := ampl_covariant (S1 := 0) (S2 := 1) (L := 1) (J := 0) (S := 1) (δ := 0) (i := 0) (co := 0) (ce := 1) (po := 0) (pe := 0) (cp := 0)
    ⟨0, 0, 0, 0, by decide⟩ (by unfold CgBox.Spec.Triangle; decide) (by decide) (by decide)
  refine ⟨ts, h1, fun γs γσ => ?_⟩
  have h := h2 γs γσ
  have hw : wave 1 [0] = 1 := by simp [wave]
  have hw0 : wave 0 [] = 1 := by simp [wave]
  have hc : CgBox.Spec.coefficient 1 0 0 1 0 = 1 := by
    unfold CgBox.Spec.coefficient Clebsch.racah
    rw [if_pos]
    · simp [Clebsch.hfac, Clebsch.rfac, Nat.factorial]
      rw [← Real.sqrt_mul (by norm_num), ← Real.sqrt_div (by norm_num)]
      norm_num
    · refine ⟨⟨0, by decide⟩, ⟨1, by decide⟩, ⟨1, by decide⟩, by decide, by decide, by decide, by decide, 0, by decide⟩
  have hk : kernel γs γσ 0 0 1 0 0 0 [] [0] [0] [] = γσ := by
    simp [kernel, contract, leftOver, dot_eq, vec]
  have ha : amplitude γs γσ 0 1 1 0 1 0 0 0 1 0 0 0 = γσ := by
    simp [amplitude, hels, orbital, hw, hw0, hk, hc]
  rw [ha] at h
  have hp : phase 0 1 1 0 = 1 := by unfold phase; rw [if_pos (by decide)]
  rw [hp, one_mul] at h
  exact_mod_cast h

/-- the middle pair vanishes -/
example : ∃ t, innerSum [⟨[1, 0, 1], [-1, 1, -1], [], [], 0, 0, default1⟩] (3 : ℕ) = .ok [t] ∧ dval false t.pre ≠ 0 :=
  (inner_last_pair 1 (-1) [0, 1] [1, -1] rfl (by simp [Hel]) (by simp [Hel]) rfl (by simp [Hel]) (by simp [Hel]) ⟨(0, 1), by simp, by simp⟩).2

end Rpwa.SpinTensor
