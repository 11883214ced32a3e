import Verif.Lemmas.SpinChannelFold
import Mathlib.Algebra.MvPolynomial.Funext
import Mathlib.Order.Interval.Set.Infinite
/-!
# C82: the amplitudes of a decay channel are complete

`lsAmpls c` is the list of LS amplitudes that `CalcAmpl` builds for the channel `c` (TJSS.cc). `Spec.Allowed` are the conservation
laws, `Spec.amplitude` is the covariant amplitude.
-/
namespace Rpwa.SpinTensor
open Fraction CgBox Spec

theorem parity_iff {c : Channel} (h : Parities c) (L : ℕ) : ((L : ℤ) % 2 = c.lStart) ↔ (-1 : ℤ) ^ L = c.etaJ * c.eta1 * c.eta2 := by
  have hL : (-1 : ℤ) ^ L = if (L : ℤ) % 2 = 0 then 1 else -1 := by
    rcases Nat.even_or_odd L with h | h
    · rw [h.neg_one_pow, if_pos (by rw [Nat.even_iff] at h; omega)]
    · rw [h.neg_one_pow, if_neg (by rw [Nat.odd_iff] at h; omega)]
  rw [hL]
  unfold Channel.lStart
  obtain ⟨h1 | h1, h2 | h2, h3 | h3⟩ := h <;> rw [h1, h2, h3] <;> simp <;> omega

theorem args_contraction (c : Channel) (L : ℕ) (S δ : ℤ) (i co ce po pe cp : ℕ) :
    c.args (contraction L S δ i co ce po pe cp) = scheme c.S1 c.S2 L c.J S δ i co ce po pe cp := rfl

/-- values of `L` and `S` -/
theorem mem_pairs {c : Channel} (h : Parities c) (L S : ℤ) :
    (L, S) ∈ (c.ls.flatMap fun L => (c.spins L).map fun S => (L, S)) ↔
      0 ≤ L ∧ (-1 : ℤ) ^ L.toNat = c.etaJ * c.eta1 * c.eta2 ∧ CgBox.Spec.Triangle S c.S1 c.S2 ∧ CgBox.Spec.Triangle c.J L S := by
  simp only [List.mem_flatMap, List.mem_map, Prod.mk.injEq]
  constructor
  · rintro ⟨l, hl, s, hs, rfl, rfl⟩
    obtain ⟨-, h2, -, h4⟩ := mem_ls.mp hl
    refine ⟨h2, ?_, (mem_spins h2).mp hs⟩
    rw [← parity_iff h, Int.toNat_of_nonneg h2]; exact h4
  · rintro ⟨h2, h4, h5, h6⟩
    rw [← parity_iff h, Int.toNat_of_nonneg h2] at h4
    refine ⟨L, mem_ls.mpr ⟨?_, h2, ?_, h4⟩, S, (mem_spins h2).mpr ⟨h5, h6⟩, rfl, rfl⟩
    · have hs : c.sMin ≤ S ∧ S ≤ c.sMax := by
        unfold Channel.sMin Channel.sMax
        obtain ⟨a, b, d⟩ := h5
        exact ⟨abs_le.mpr ⟨by omega, by omega⟩, d⟩
      refine ((lMin_le c).2 S hs.1 hs.2).trans (abs_le.mpr ?_)
      obtain ⟨a, b, d⟩ := h6
      constructor <;> omega
    · unfold Channel.lMax Channel.sMax
      obtain ⟨a, b, d⟩ := h6
      obtain ⟨a', b', d'⟩ := h5
      omega

/-- the contractions of a channel are the allowed ones -/
theorem mem_channel {c : Channel} (h : Parities c) (x : Contraction) :
    (∃ p ∈ (c.ls.flatMap fun L => (c.spins L).map fun S => (L, S)), x ∈ c.contractions p.1 p.2) ↔
      ∃ L S δ i co ce po pe cp, Allowed c L S δ i co ce po pe cp ∧ x = contraction L S δ i co ce po pe cp := by
  constructor
  · rintro ⟨⟨L, S⟩, hp, hx⟩
    obtain ⟨h1, h2, h3, h4⟩ := (mem_pairs h L S).mp hp
    obtain ⟨i, co, ce, po, pe, cp, δ, rfl, h5, h6⟩ := contractions_sound h1 (by rw [← Int.toNat_of_nonneg h1, parity_iff h]; exact h2) hx
    exact ⟨L.toNat, S, δ, i, co, ce, po, pe, cp, ⟨h3, by rw [Int.toNat_of_nonneg h1]; exact h4, h2, h5, h6⟩, rfl⟩
  · rintro ⟨L, S, δ, i, co, ce, po, pe, cp, ⟨h3, h4, h2, h5, h6⟩, rfl⟩
    refine ⟨(L, S), (mem_pairs h L S).mpr ⟨by positivity, by simpa using h2, h3, h4⟩, ?_⟩
    have := contractions_complete (c := c) (L := L) (S := S) (by positivity) ((parity_iff h L).mpr h2) h5 (by simpa using h6)
    simpa using this

/-- For all spins and parities the LS amplitudes are calculated. They are the amplitudes that the conservation laws allow and that do not
vanish, each once, with the terms of the amplitude. Amplitudes with the same `L` and `S` have the same number if and only if they have
the same contraction, and the numbers of each `L` and `S` count from 1. -/
theorem channel_amplitudes {c : Channel} (h : Parities c) :
    ∃ as, lsAmpls c = .ok as ∧ (as.map (·.con)).Nodup ∧
      (∀ x ts, (∃ a ∈ as, a.con = x ∧ a.terms = ts) ↔ ts ≠ [] ∧
        ∃ L S δ i co ce po pe cp, Allowed c L S δ i co ce po pe cp ∧ x = contraction L S δ i co ce po pe cp ∧
          lsAmpl (scheme c.S1 c.S2 L c.J S δ i co ce po pe cp) = .ok ts) ∧
      (∀ a ∈ as, ∀ b ∈ as, a.con.L = b.con.L → a.con.S = b.con.S → (a.num = b.num ↔ Same a.con b.con)) ∧
      (∀ a ∈ as, 1 ≤ a.num ∧ ∀ k : ℤ, 1 ≤ k → k ≤ a.num → ∃ b ∈ as, b.con.L = a.con.L ∧ b.con.S = a.con.S ∧ b.num = k) := by
  have hrun : ∀ p ∈ (c.ls.flatMap fun L => (c.spins L).map fun S => (L, S)), ∀ x ∈ c.contractions p.1 p.2, ∃ ts, lsAmpl (c.args x) = .ok ts := by
    intro p hp x hx
    obtain ⟨L, S, δ, i, co, ce, po, pe, cp, ha, rfl⟩ := (mem_channel h x).mp ⟨p, hp, hx⟩
    obtain ⟨ts, h1, -⟩ := ampl_runs δ ha.complete ha.spin
    exact ⟨ts, h1⟩
  have hnd : (c.ls.flatMap fun L => (c.spins L).map fun S => (L, S)).Nodup := by
    refine nodup_flatMap Prod.fst ?_ (ls_nodup c) fun L => ?_
    · intro a _ b hb
      simp only [List.mem_map] at hb
      obtain ⟨S, -, rfl⟩ := hb; rfl
    · exact List.Nodup.map (fun a b h => by simpa using h) (upTo_nodup _ _)
  obtain ⟨as, h1, h2, h3⟩ := lsAmpls_fold c _ [] hnd (by simp) hrun ⟨by simp, by simp⟩
  rw [List.map_nil, List.nil_append] at h2
  refine ⟨as, h1, ?_, ?_, h3.1, h3.2⟩
  · have e : as.map (·.con) = (as.map conTerms).map Prod.fst := by simp [conTerms]
    rw [e, h2, List.map_flatMap]
    refine nodup_flatMap (fun x => (x.L, x.S)) ?_ hnd fun p => ?_
    · intro p _ x hx
      simp only [List.mem_map, List.mem_filterMap] at hx
      obtain ⟨y, ⟨z, hz, hk⟩, rfl⟩ := hx
      unfold keep at hk
      split_ifs at hk
      obtain rfl := Option.some.inj hk
      obtain ⟨e1, e2⟩ := mem_contractions_fields hz
      exact Prod.ext e1 e2
    · have e2 : ((c.contractions p.1 p.2).filterMap (keep c)).map Prod.fst = (c.contractions p.1 p.2).filter (fun x => termsOf c x ≠ []) := by
        rw [List.map_filterMap, ← List.filterMap_eq_filter]
        refine List.filterMap_congr fun x _ => ?_
        unfold keep Option.guard
        by_cases hx : termsOf c x = [] <;> simp [hx]
      rw [e2]
      exact (contractions_nodup c _ _).filter _
  · intro x ts
    have e : (∃ a ∈ as, a.con = x ∧ a.terms = ts) ↔ (x, ts) ∈ as.map conTerms := by
      simp [conTerms]
    rw [e, h2]
    simp only [List.mem_flatMap (b := (x, ts)), List.mem_filterMap]
    constructor
    · rintro ⟨p, hp, y, hy, hk⟩
      unfold keep at hk
      split_ifs at hk with hne
      obtain ⟨rfl, rfl⟩ := Prod.mk.inj (Option.some.inj hk)
      refine ⟨hne, ?_⟩
      obtain ⟨L, S, δ, i, co, ce, po, pe, cp, ha, rfl⟩ := (mem_channel h y).mp ⟨p, hp, hy⟩
      refine ⟨L, S, δ, i, co, ce, po, pe, cp, ha, rfl, ?_⟩
      obtain ⟨ts, h1⟩ := hrun p hp _ hy
      unfold termsOf
      rw [h1]
      exact h1
    · rintro ⟨hne, L, S, δ, i, co, ce, po, pe, cp, ha, rfl, hl⟩
      obtain ⟨p, hp, hy⟩ := (mem_channel h _).mpr ⟨L, S, δ, i, co, ce, po, pe, cp, ha, rfl⟩
      refine ⟨p, hp, _, hy, ?_⟩
      have ht : termsOf c (contraction L S δ i co ce po pe cp) = ts := by
        unfold termsOf; rw [args_contraction, hl]
      unfold keep
      rw [ht, if_pos hne]

/-- a sum of different monomials vanishes only if it is empty -/
theorem monomials : ∀ (l : List (ℝ × ℕ × ℕ)), (∀ x ∈ l, x.1 ≠ 0) → l.Pairwise (fun x y => ¬ (x.2 = y.2)) →
    (∀ γs γσ : ℝ, 1 ≤ γs → 1 ≤ γσ → (l.map fun x => x.1 * γs ^ x.2.1 * γσ ^ x.2.2).sum = 0) → l = [] := by
  intro l h1 h2 h3
  classical
  let e : ℕ × ℕ → (Fin 2 →₀ ℕ) := fun x => Finsupp.single 0 x.1 + Finsupp.single 1 x.2
  have he : ∀ x y, e x = e y → x = y := by
    intro x y hxy
    have a := DFunLike.congr_fun hxy 0
    have b := DFunLike.congr_fun hxy 1
    simp [e] at a b
    exact Prod.ext a b
  let P : MvPolynomial (Fin 2) ℝ := (l.map fun x => MvPolynomial.monomial (e x.2) x.1).sum
  have hP : P = 0 := by
    refine MvPolynomial.funext_set (fun _ => Set.Ici (1 : ℝ)) (fun _ => Set.Ici_infinite 1) fun x hx => ?_
    have := h3 (x 0) (x 1) (hx 0 trivial) (hx 1 trivial)
    rw [map_zero, ← this]
    simp only [P]
    rw [map_list_sum, List.map_map]
    congr 1
    refine List.map_congr_left fun y _ => ?_
    simp only [Function.comp, MvPolynomial.eval_monomial, e]
    rw [Finsupp.prod_add_index' (by simp) (by intro a b c; exact pow_add _ _ _), Finsupp.prod_single_index (by simp), Finsupp.prod_single_index (by simp)]
    ring
  cases l with
  | nil => rfl
  | cons a l =>
    exfalso
    have h4 : MvPolynomial.coeff (e a.2) P = a.1 := by
      simp only [P, List.map_cons, List.sum_cons, MvPolynomial.coeff_add, MvPolynomial.coeff_monomial, if_true]
      have : MvPolynomial.coeff (e a.2) (l.map fun x => MvPolynomial.monomial (e x.2) x.1).sum = 0 := by
        rw [List.pairwise_cons] at h2
        have h5 := h2.1
        clear h1 h2 h3 hP P
        induction l with
        | nil => simp
        | cons b l ih =>
          rw [List.map_cons, List.sum_cons, MvPolynomial.coeff_add, ih (fun x hx => h5 x (by simp [hx])), MvPolynomial.coeff_monomial,
            if_neg (fun h => h5 b (by simp) (he _ _ h).symm), add_zero]
      rw [this, add_zero]
    rw [hP, MvPolynomial.coeff_zero] at h4
    exact h1 a (by simp) h4.symm

/-- Up to two contractions between the spins: an amplitude is left out if and only if the covariant amplitude vanishes for all Lorentz
factors. -/
theorem left_out_iff {S1 S2 L J : ℕ} {S δ : ℤ} {i co ce po pe cp : ℕ} (hc : Complete S1 S2 L J i co ce po pe cp)
    (ht : CgBox.Spec.Triangle S S1 S2) (hδ : 0 ≤ δ) (hi : i ≤ 2) :
    lsAmpl (scheme S1 S2 L J S δ i co ce po pe cp) = .ok [] ↔
      ∀ γs γσ : ℝ, 1 ≤ γs → 1 ≤ γσ → amplitude γs γσ S1 S2 L J S δ i co ce po pe cp = 0 := by
  obtain ⟨ts, h1, h2, h3⟩ := ampl_runs δ hc ht
  obtain ⟨ts', h1', h4⟩ := ampl_covariant hc ht hδ hi
  obtain rfl : ts = ts' := by rw [h1] at h1'; exact Outcome.ok.inj h1'
  rw [h1]
  have hph : phase S1 S2 L J ≠ 0 := by unfold phase; split_ifs <;> simp
  constructor
  · intro h γs γσ _ _
    obtain rfl : ts = [] := Outcome.ok.inj h
    rw [← h4]; simp
  · intro h
    congr 1
    have key := monomials (ts.map fun t => (ssqrt (dval false t.pre), t.gamS.toNat, t.gamSig.toNat)) ?_ ?_ ?_
    · simpa using key
    · intro x hx
      obtain ⟨t, ht', rfl⟩ := List.mem_map.mp hx
      have := (h2 t ht').2.2.2.2.2.2
      dsimp only
      unfold ssqrt
      have h5 : 0 < |dval false t.pre| := abs_pos.mpr this
      refine mul_ne_zero ?_ (Real.sqrt_pos.mpr h5).ne'
      rcases lt_or_gt_of_ne this with h | h
      · rw [sign_neg h]; simp
      · rw [sign_pos h]; simp
    · rw [List.pairwise_map]
      refine h3.imp_of_mem fun {a b} ha hb hab he => hab ?_
      have ga := h2 a ha
      have gb := h2 b hb
      simp only [Prod.mk.injEq] at he
      exact ⟨by omega, by omega⟩
    · intro γs γσ g1 g2
      have := h4 γs γσ
      rw [h γs γσ g1 g2, mul_eq_zero, or_iff_right hph] at this
      rw [List.map_map]
      have h6 : (ts.map (val γs γσ)).sum = 0 := by exact_mod_cast this
      exact h6

theorem contraction_inj {L L' : ℕ} {S S' δ δ' : ℤ} {i co ce po pe cp i' co' ce' po' pe' cp' : ℕ}
    (h : contraction L S δ i co ce po pe cp = contraction L' S' δ' i' co' ce' po' pe' cp') :
    L = L' ∧ S = S' ∧ δ = δ' ∧ i = i' ∧ co = co' ∧ ce = ce' ∧ po = po' ∧ pe = pe' ∧ cp = cp' := by
  unfold contraction at h
  rw [Contraction.mk.injEq] at h
  omega

/-- An allowed amplitude with up to two contractions between the spins is in the list if and only if the covariant amplitude does not
vanish for some Lorentz factors. -/
theorem channel_nonvanishing {c : Channel} (h : Parities c) {L : ℕ} {S δ : ℤ} {i co ce po pe cp : ℕ} (ha : Allowed c L S δ i co ce po pe cp)
    (hi : i ≤ 2) : ∃ as, lsAmpls c = .ok as ∧ ((∃ a ∈ as, a.con = contraction L S δ i co ce po pe cp) ↔
      ∃ γs γσ : ℝ, 1 ≤ γs ∧ 1 ≤ γσ ∧ amplitude γs γσ c.S1 c.S2 L c.J S δ i co ce po pe cp ≠ 0) := by
  obtain ⟨as, h1, -, h3, -⟩ := channel_amplitudes h
  refine ⟨as, h1, ?_⟩
  have key := left_out_iff ha.complete ha.spin ha.proj.1 hi (L := L) (J := c.J) (S := S)
  obtain ⟨ts, g1, -⟩ := ampl_runs δ ha.complete ha.spin
  rw [g1] at key
  constructor
  · rintro ⟨a, ha', he⟩
    obtain ⟨hne, L', S', δ', i', co', ce', po', pe', cp', -, h5, h6⟩ := (h3 _ _).mp ⟨a, ha', he, rfl⟩
    obtain ⟨rfl, rfl, rfl, rfl, rfl, rfl, rfl, rfl, rfl⟩ := contraction_inj h5
    rw [g1] at h6
    by_contra hc
    push Not at hc
    have := key.mpr hc
    exact hne ((Outcome.ok.inj h6).symm.trans (Outcome.ok.inj this))
  · rintro ⟨γs, γσ, k1, k2, k3⟩
    have hne : ts ≠ [] := fun hts => k3 (key.mp (by rw [hts]) γs γσ k1 k2)
    obtain ⟨a, h5, h6, -⟩ := (h3 (contraction L S δ i co ce po pe cp) ts).mpr ⟨hne, L, S, δ, i, co, ce, po, pe, cp, ha, rfl, g1⟩
    exact ⟨a, h5, h6⟩

/-! ### examples -/

/-- decay of a 1⁺ particle to 1⁻ and 0⁻ -/
def rhoPi : Channel := ⟨1, 1, 1, -1, 0, -1⟩

example : Parities rhoPi := by unfold Parities rhoPi; decide

/-- the S wave: spins 1 and 0, contraction of the spin with the total angular momentum -/
example : Allowed rhoPi 0 1 1 0 0 0 1 0 0 :=
  ⟨by unfold CgBox.Spec.Triangle rhoPi; decide, by unfold CgBox.Spec.Triangle rhoPi; decide, by decide, by decide, ⟨0, 0, 0, 0, by decide⟩⟩

/-- the D wave: spin with orbital angular momentum, orbital with total angular momentum -/
example : Allowed rhoPi 2 1 0 0 1 0 0 0 1 :=
  ⟨by unfold CgBox.Spec.Triangle rhoPi; decide, by unfold CgBox.Spec.Triangle rhoPi; decide, by decide, by decide, ⟨0, 0, 0, 0, by decide⟩⟩

/-- P waves violate parity -/
example (S δ : ℤ) (i co ce po pe cp : ℕ) : ¬ Allowed rhoPi 1 S δ i co ce po pe cp := fun h => absurd h.parity (by decide)

end Rpwa.SpinTensor
