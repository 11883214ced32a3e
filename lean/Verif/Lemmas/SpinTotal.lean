import Verif.Lemmas.SpinValue
/-!
# The sum of the terms is the amplitude
-/
namespace Rpwa.SpinTensor
open Fraction CgBox Spec

variable {N : Nums} {even : Bool} {S1 S2 L J : ℕ}

/-- the four sequences belong to the sums -/
structure Mem (S1 S2 L J : ℕ) (δ : ℤ) (o e c p : List ℤ) : Prop where
  mo : o ∈ hels S1
  me : e ∈ hels S2
  mc : c ∈ hels L
  mp : p ∈ hels J
  oe : o.sum + e.sum = δ
  c0 : c.sum = 0
  pd : p.sum = δ

theorem Mem.inner (hf : Fits N even S1 S2 L J) {δ : ℤ} {o e c p : List ℤ} (h : Mem S1 S2 L J δ o e c p)
    (h3 : N.s3 o e c ≠ 0) (h4 : N.s4 o e p ≠ 0) (h5 : N.s5 o e c p ≠ 0) :
    (o.reverse.take N.i).sum + (e.reverse.take N.i).sum = 0 ∧
    ∃ k, o.count 0 + e.count 0 + c.count 0 + p.count 0 = (o.reverse.take N.i).count 0 + (e.reverse.take N.i).count 0 + 2 * k + odd even := by
  obtain ⟨h1, h2⟩ := conserved hf (mem_hels.mp h.mo).1 (mem_hels.mp h.me).1 (mem_hels.mp h.mc).1 (mem_hels.mp h.mp).1 h3 h4 h5
  refine ⟨?_, h2⟩
  have := h.oe; have := h.c0; have := h.pd
  omega

theorem inner_sgn (hf : Fits N even S1 S2 L J) (hi : N.i ≤ 2) {δ : ℤ} {o e c p : List ℤ} (h : Mem S1 S2 L J δ o e c p) :
    (if N.kept o e = true then N.s2 o e else 0) * N.s3 o e c * N.s4 o e p * N.s5 o e c p = N.sgn o e c p := by
  unfold Nums.sgn
  by_cases h3 : N.s3 o e c = 0
  · rw [h3]; ring
  by_cases h4 : N.s4 o e p = 0
  · rw [h4]; ring
  by_cases h5 : N.s5 o e c p = 0
  · rw [h5]; ring
  rw [inner_masked hi (by rw [(mem_hels.mp h.mo).1]; have := hf.o; omega) (by rw [(mem_hels.mp h.me).1]; have := hf.e; omega) (h.inner hf h3 h4 h5).1]

theorem parity : ∀ l : List ℤ, (∀ m ∈ l, Hel m) → ((l.count 0 : ℕ) : ℤ) % 2 = (l.length + l.sum) % 2
  | [], _ => by simp
  | m :: l, h => by
    have ih := parity l fun x hx => h x (by simp [hx])
    have hm := h m (by simp)
    rw [List.count_cons, List.length_cons, List.sum_cons]
    rcases hm with rfl | rfl | rfl <;> simp <;> omega

/-- the prefactors have a common factor -/
theorem q5_class (hf : Fits N even S1 S2 L J) {S δ : ℤ} (ht : CgBox.Spec.Triangle S S1 S2) {o e c p : List ℤ}
    (h : Mem S1 S2 L J δ o e c p) :
    ∃ r, N.q5 S1 S2 L J S o e c p = ssq r * Kf S1 S2 L J S δ even := by
  rw [q5_eq]
  by_cases hz : N.s2 o e * N.s3 o e c * N.s4 o e p * N.s5 o e c p = 0
  · exact ⟨0, by rw [hz]; simp [ssq]⟩
  · have h5 := right_ne_zero_of_mul hz
    have hz' := left_ne_zero_of_mul hz
    have h4 := right_ne_zero_of_mul hz'
    have hz'' := left_ne_zero_of_mul hz'
    have h3 := right_ne_zero_of_mul hz''
    obtain ⟨g1, k, g2⟩ := h.inner hf h3 h4 h5
    have lo := mem_hels.mp h.mo
    have le := mem_hels.mp h.me
    have p1 := parity (o.reverse.take N.i) fun m hm => lo.2 m (by simpa using List.mem_of_mem_take hm)
    have p2 := parity (e.reverse.take N.i) fun m hm => le.2 m (by simpa using List.mem_of_mem_take hm)
    have l1 : (o.reverse.take N.i).length = N.i := by rw [List.length_take, List.length_reverse, lo.1]; have := hf.o; omega
    have l2 : (e.reverse.take N.i).length = N.i := by rw [List.length_take, List.length_reverse, le.1]; have := hf.e; omega
    rw [l1] at p1
    rw [l2] at p2
    obtain ⟨k', hk'⟩ : ∃ k', (o.reverse.take N.i).count 0 + (e.reverse.take N.i).count 0 = 2 * k' :=
      ⟨((o.reverse.take N.i).count 0 + (e.reverse.take N.i).count 0) / 2, by omega⟩
    obtain ⟨r, hr⟩ := Qf_root (L := L) (J := J) (even := even) ht h.mo h.me h.oe h.c0 h.pd (k' + k) (by omega)
    exact ⟨((N.s2 o e * N.s3 o e c * N.s4 o e p * N.s5 o e c p : ℤ) : ℚ) * r, by rw [ssq_mul, ssq_sg (sg_total N o e c p), hr]; ring⟩

/-- value of a term -/
noncomputable def tv (N : Nums) (S1 S2 L J : ℕ) (S : ℤ) (γs γσ : ℝ) (o e c p : List ℤ) : ℝ :=
  ssqrt (N.q5 S1 S2 L J S o e c p : ℝ) * γs ^ N.ea o e c p * γσ ^ N.eb o e c p

theorem ssqrt_zero : ssqrt 0 = 0 := by simp [ssqrt]

theorem val_R5 {S : ℤ} {x : ((List ℤ × List ℤ) × List ℤ) × List ℤ} {t : Term} (h : R5 N S1 S2 L J S x t) (γs γσ : ℝ) :
    val γs γσ t = tv N S1 S2 L J S γs γσ x.1.1.1 x.1.1.2 x.1.2 x.2 := by
  obtain ⟨h1, h2⟩ := h
  unfold val tv
  rw [h1.dval_eq]
  by_cases hz : N.q5 S1 S2 L J S x.1.1.1 x.1.1.2 x.1.2 x.2 = 0
  · rw [hz, Rat.cast_zero, ssqrt_zero]; ring
  · obtain ⟨-, e1, e2⟩ := h2 hz
    rw [e1, e2, Int.toNat_natCast, Int.toNat_natCast]

theorem tv_value (hf : Fits N even S1 S2 L J) (hi : N.i ≤ 2) {S δ : ℤ} (ht : CgBox.Spec.Triangle S S1 S2) {o e c p : List ℤ}
    (h : Mem S1 S2 L J δ o e c p) (γs γσ : ℝ) :
    unit even * (((if N.kept o e = true then tv N S1 S2 L J S γs γσ o e c p else 0 : ℝ)) : ℂ) =
      ((wave S1 o * wave S2 e * CgBox.Spec.coefficient S S1 o.sum S2 e.sum : ℝ) : ℂ) * ((orbital L c : ℝ) : ℂ) * ((wave J p : ℝ) : ℂ) *
        kernel γs γσ N.i N.co N.ce N.po N.pe N.cp o e c p := by
  rw [kernel_eq hf h.mo h.me h.mc h.mp, ← inner_sgn hf hi h]
  have hq : (if N.kept o e = true then tv N S1 S2 L J S γs γσ o e c p else 0 : ℝ) =
      ((if N.kept o e = true then N.s2 o e else 0 : ℤ) * N.s3 o e c * N.s4 o e p * N.s5 o e c p : ℝ) *
        (wave S1 o * wave S2 e * CgBox.Spec.coefficient S S1 o.sum S2 e.sum * orbital L c * wave J p) * γs ^ N.ea o e c p * γσ ^ N.eb o e c p := by
    by_cases hk : N.kept o e = true
    · rw [if_pos hk, if_pos hk]
      unfold tv
      rw [q5_eq, Rat.cast_mul, ssqrt_mul', Qf_value ht h.mo h.me, Rat.cast_intCast, ssqrt_sg (sg_total N o e c p)]
      push_cast; ring
    · rw [if_neg hk, if_neg hk]; simp
  rw [hq]
  push_cast
  ring

theorem mem_idx4 {S δ : ℤ} {x : ((List ℤ × List ℤ) × List ℤ) × List ℤ} (h : x ∈ idx4 N S1 S2 L J S δ) :
    Mem S1 S2 L J δ x.1.1.1 x.1.1.2 x.1.2 x.2 ∧ N.kept x.1.1.1 x.1.1.2 = true := by
  unfold idx4 at h
  rw [List.mem_filter] at h
  obtain ⟨m1, m2, m3, -, m4, m5, m6⟩ := mem_idx3 h.1
  obtain ⟨n1, n2, n3⟩ := mem_pairIdx m1
  exact ⟨⟨n1, n2, m2, m5, n3, m3, m6⟩, m4⟩

theorem tv_q4 {S : ℤ} {γs γσ : ℝ} {o e c p : List ℤ} (h : N.q4 S1 S2 L J S o e c p = 0) : tv N S1 S2 L J S γs γσ o e c p = 0 := by
  unfold tv Nums.q5; rw [h, mul_zero, Rat.cast_zero, ssqrt_zero]; ring

theorem tv_q3 {S : ℤ} {γs γσ : ℝ} {o e c p : List ℤ} (h : N.q3 S1 S2 L S o e c = 0) : tv N S1 S2 L J S γs γσ o e c p = 0 := by
  apply tv_q4; unfold Nums.q4; rw [h]; ring

theorem sum_idx4 (N : Nums) (S1 S2 L J : ℕ) (S δ : ℤ) (hδ : 0 ≤ δ) (γs γσ : ℝ) :
    ((idx4 N S1 S2 L J S δ).map fun x => tv N S1 S2 L J S γs γσ x.1.1.1 x.1.1.2 x.1.2 x.2).sum =
      ((hels S1).map fun o => ((hels S2).map fun e => ((hels L).map fun c => ((hels J).map fun p =>
        if o.sum + e.sum = δ ∧ c.sum = 0 ∧ p.sum = δ then (if N.kept o e = true then tv N S1 S2 L J S γs γσ o e c p else 0) else 0).sum).sum).sum).sum := by
  unfold idx4
  rw [sum_filter]
  have e1 : ∀ x : ((List ℤ × List ℤ) × List ℤ) × List ℤ,
      (if decide (N.q4 S1 S2 L J S x.1.1.1 x.1.1.2 x.1.2 x.2 ≠ 0) = true then tv N S1 S2 L J S γs γσ x.1.1.1 x.1.1.2 x.1.2 x.2 else 0) =
        tv N S1 S2 L J S γs γσ x.1.1.1 x.1.1.2 x.1.2 x.2 := by
    intro x
    by_cases h : N.q4 S1 S2 L J S x.1.1.1 x.1.1.2 x.1.2 x.2 = 0
    · rw [if_neg (by simpa using h), tv_q4 h]
    · rw [if_pos (by simpa using h)]
  simp only [e1]
  rw [sum_flatMap]
  have e2 : ∀ x : (List ℤ × List ℤ) × List ℤ,
      ((((hels J).reverse.filter fun m => m.sum = δ).map fun p => (x, p)).map fun x => tv N S1 S2 L J S γs γσ x.1.1.1 x.1.1.2 x.1.2 x.2).sum =
        ((hels J).map fun p => if p.sum = δ then tv N S1 S2 L J S γs γσ x.1.1 x.1.2 x.2 p else 0).sum := by
    intro x
    rw [List.map_map, sum_filter, sum_reverse]
    simp [Function.comp_def]
  simp only [e2]
  unfold idx3
  rw [sum_filter]
  have e3 : ∀ x : (List ℤ × List ℤ) × List ℤ,
      (if decide (N.q3 S1 S2 L S x.1.1 x.1.2 x.2 ≠ 0) = true then ((hels J).map fun p => if p.sum = δ then tv N S1 S2 L J S γs γσ x.1.1 x.1.2 x.2 p else 0).sum else 0) =
        ((hels J).map fun p => if p.sum = δ then tv N S1 S2 L J S γs γσ x.1.1 x.1.2 x.2 p else 0).sum := by
    intro x
    by_cases h : N.q3 S1 S2 L S x.1.1 x.1.2 x.2 = 0
    · rw [if_neg (by simpa using h), sum_zero]
      intro p _
      rw [tv_q3 h]; simp
    · rw [if_pos (by simpa using h)]
  simp only [e3]
  rw [sum_flatMap]
  have e4 : ∀ x : List ℤ × List ℤ, ((((hels L).reverse.filter fun m => m.sum = 0).map fun c => (x, c)).map fun x =>
      ((hels J).map fun p => if p.sum = δ then tv N S1 S2 L J S γs γσ x.1.1 x.1.2 x.2 p else 0).sum).sum =
      ((hels L).map fun c => if c.sum = 0 then ((hels J).map fun p => if p.sum = δ then tv N S1 S2 L J S γs γσ x.1 x.2 c p else 0).sum else 0).sum := by
    intro x
    rw [List.map_map, sum_filter, sum_reverse]
    simp [Function.comp_def]
  simp only [e4]
  rw [sum_filter, sum_pairIdx _ _ _ hδ]
  congr 1
  refine List.map_congr_left fun o _ => ?_
  congr 1
  refine List.map_congr_left fun e _ => ?_
  by_cases h1 : o.sum + e.sum = δ
  · rw [if_pos h1]
    by_cases h2 : N.kept o e = true
    · rw [if_pos h2]
      congr 1
      refine List.map_congr_left fun c _ => ?_
      by_cases h3 : c.sum = 0
      · rw [if_pos h3]
        congr 1
        refine List.map_congr_left fun p _ => ?_
        simp [h1, h2, h3]
      · rw [if_neg h3]
        symm
        apply sum_zero
        intro p _
        rw [if_neg (fun h => h3 h.2.1)]
    · rw [if_neg h2]
      symm
      apply sum_zero
      intro c _
      apply sum_zero
      intro p _
      simp [h2]
  · rw [if_neg h1]
    symm
    apply sum_zero
    intro c _
    apply sum_zero
    intro p _
    rw [if_neg (fun h => h1 h.1)]

theorem cast_sum (l : List (List ℤ)) (f : List ℤ → ℝ) (z : ℂ) : z * (((l.map f).sum : ℝ) : ℂ) = (l.map fun x => z * ((f x : ℝ) : ℂ)).sum := by
  induction l with
  | nil => simp
  | cons a l ih => rw [List.map_cons, List.map_cons, List.sum_cons, List.sum_cons, ← ih]; push_cast; ring

/-- the sum of the values of all terms is the amplitude -/
theorem total (hf : Fits N even S1 S2 L J) (hi : N.i ≤ 2) {S δ : ℤ} (ht : CgBox.Spec.Triangle S S1 S2) (hδ : 0 ≤ δ) (γs γσ : ℝ) :
    unit even * ((((idx4 N S1 S2 L J S δ).map fun x => tv N S1 S2 L J S γs γσ x.1.1.1 x.1.1.2 x.1.2 x.2).sum : ℝ) : ℂ) =
      amplitude γs γσ S1 S2 L J S δ N.i N.co N.ce N.po N.pe N.cp := by
  rw [sum_idx4 N S1 S2 L J S δ hδ]
  unfold amplitude
  rw [cast_sum]
  congr 1
  refine List.map_congr_left fun o ho => ?_
  rw [cast_sum]
  congr 1
  refine List.map_congr_left fun e he => ?_
  rw [cast_sum]
  congr 1
  refine List.map_congr_left fun c hc => ?_
  rw [cast_sum]
  congr 1
  refine List.map_congr_left fun p hp => ?_
  by_cases h1 : o.sum + e.sum = δ
  · by_cases h2 : c.sum = 0
    · by_cases h3 : p.sum = δ
      · rw [if_pos ⟨h1, h2, h3⟩, if_pos h1, if_pos h3]
        exact tv_value hf hi ht ⟨ho, he, hc, hp, h1, h2, h3⟩ γs γσ
      · rw [if_neg (fun h => h3 h.2.2), if_neg h3]; simp
    · rw [if_neg (fun h => h2 h.2.1)]; simp [orbital, h2]
  · rw [if_neg (fun h => h1 h.1), if_neg h1]; simp

/-- the calculation with every stage executed -/
theorem lj_total (hf : Fits N even S1 S2 L J) {S δ : ℤ} (ht : CgBox.Spec.Triangle S S1 S2) {ts : List Term}
    (h : List.Forall₂ (R4 N S1 S2 L J S) (idx4 N S1 S2 L J S δ) ts) :
    ∃ out, ljSum ts (N.cp : ℕ) even = .ok out ∧ (∀ t ∈ out, (∃ r, r ≠ 0 ∧ Ok t.pre (ssq r * Kf S1 S2 L J S δ even)) ∧ Bare t) ∧ out.Pairwise Diff ∧
      ∀ γs γσ : ℝ, (out.map (val γs γσ)).sum = ((idx4 N S1 S2 L J S δ).map fun x => tv N S1 S2 L J S γs γσ x.1.1.1 x.1.1.2 x.1.2 x.2).sum := by
  obtain ⟨ts5, g1, g2⟩ := lj_stage N (even := even) h hf.c hf.p hf.left
  have hcls : ∀ t ∈ ts5, Cls (Kf S1 S2 L J S δ even) t := by
    intro t ht'
    obtain ⟨i, hi', hget⟩ := List.getElem_of_mem ht'
    have hl := g2.length_eq
    have hR := List.Forall₂.get g2 (by omega : i < (idx4 N S1 S2 L J S δ).length) hi'
    rw [List.get_eq_getElem, List.get_eq_getElem, hget] at hR
    obtain ⟨m1, -⟩ := mem_idx4 (List.getElem_mem (l := idx4 N S1 S2 L J S δ) (n := i) (by omega))
    obtain ⟨r, hr⟩ := q5_class hf ht m1
    refine ⟨r, hr ▸ hR.1, ?_⟩
    by_cases hr0 : r = 0
    · exact Or.inl hr0
    · refine Or.inr (hR.2 ?_).1
      rw [hr]
      refine mul_ne_zero ?_ (Kf_pos ht δ).ne'
      unfold ssq; exact mul_ne_zero hr0 (abs_ne_zero.mpr hr0)
  obtain ⟨out, k1, k2, k3, k4⟩ := merge_ok _ (Kf_pos (L := L) (J := J) (even := even) ht δ) ts5 [] hcls (by simp) List.Pairwise.nil
  unfold ljSum
  rw [g1, Outcome.ok_bind, k1, Outcome.ok_bind]
  refine ⟨_, rfl, ?_, k3.filter _, fun γs γσ => ?_⟩
  · intro t htm
    rw [List.mem_filter] at htm
    obtain ⟨r, o, b⟩ := k2 t htm.1
    have hr : r ≠ 0 := by
      rintro rfl
      exact (nonzero_iff o).mp htm.2 (by simp [ssq])
    exact ⟨⟨r, hr, o⟩, b.resolve_left hr⟩
  · rw [filter_val _ (Kf_pos (L := L) (J := J) (even := even) ht δ) γs γσ out k2, k4, List.map_nil, List.sum_nil, zero_add]
    congr 1
    clear * - g2
    generalize idx4 N S1 S2 L J S δ = I at g2
    induction g2 with
    | nil => rfl
    | cons hx _ ih => rw [List.map_cons, List.map_cons, ih, val_R5 hx]

theorem ljSum_nil (c : ℤ) (even : Bool) : ljSum [] c even = .ok [] := rfl
theorem lsSum_nil (Ls : List Term) (a b : ℤ) (c : Char) : lsSum [] Ls a b c = .ok [] := rfl

/-- the whole calculation -/
theorem lsAmpl_total (hf : Fits N even S1 S2 L J) {S δ : ℤ} (ht : CgBox.Spec.Triangle S S1 S2) :
    ∃ out, lsAmpl ⟨S1, S2, L, J, δ, S, N.i, (N.co + N.ce : ℕ), N.cp, (N.po + N.pe : ℕ), N.po, N.co⟩ = .ok out ∧
      (∀ t ∈ out, (∃ r, r ≠ 0 ∧ Ok t.pre (ssq r * Kf S1 S2 L J S δ even)) ∧ Bare t) ∧ out.Pairwise Diff ∧
      ∀ γs γσ : ℝ, (out.map (val γs γσ)).sum = ((idx4 N S1 S2 L J S δ).map fun x => tv N S1 S2 L J S γs γσ x.1.1.1 x.1.1.2 x.1.2 x.2).sum := by
  obtain ⟨w1, a1, a2⟩ := mkWave_spin S1 's' (Or.inl rfl)
  obtain ⟨w2, b1, b2⟩ := mkWave_spin S2 's' (Or.inl rfl)
  obtain ⟨wl, c1, c2⟩ := mkWave_orb L
  obtain ⟨wj, d1, d2⟩ := mkWave_spin J 'c' (Or.inr rfl)
  obtain ⟨ts1, f1, f2⟩ := coupled_ok (δ := δ) ht a2 b2
  have ho := hf.o; have he := hf.e; have hc := hf.c; have hp := hf.p
  obtain ⟨ts2, g1, g2⟩ := inner_stage N f2 (by omega) (by omega)
  obtain ⟨ts3, h1, h2⟩ := chi_stage N g2 c2 (by omega) (by omega) (by omega)
  obtain ⟨ts4, i1, i2⟩ := phi_stage N h2 d2 hf.o hf.e (by omega)
  obtain ⟨out, j1, j2⟩ := lj_total hf ht i2
  refine ⟨out, ?_, j2⟩
  have hpar : decide (((S1 : ℤ) + S2 + L + J).tmod 2 = 0) = even ∧
      ¬ ((even = true ∧ 2 * ((N.i : ℤ) + (N.co + N.ce : ℕ) + N.cp + (N.po + N.pe : ℕ)) ≠ (S1 : ℤ) + S2 + L + J) ∨
        (even = false ∧ 2 * ((N.i : ℤ) + (N.co + N.ce : ℕ) + N.cp + (N.po + N.pe : ℕ)) ≠ (S1 : ℤ) + S2 + L + J - 3)) := by
    have hm : ((S1 : ℤ) + S2 + L + J).tmod 2 = ((S1 : ℤ) + S2 + L + J) % 2 := Int.tmod_eq_emod_of_nonneg (by positivity)
    rcases hf.left with ⟨rfl, q1, q2, q3, q4⟩ | ⟨rfl, q0, q1, q2, q3, q4⟩
    · refine ⟨by rw [hm, decide_eq_true_eq]; omega, ?_⟩
      rintro (⟨-, h⟩ | ⟨h, -⟩)
      · apply h; push_cast; omega
      · cases h
    · refine ⟨by rw [hm, decide_eq_false_iff_not]; omega, ?_⟩
      rintro (⟨h, -⟩ | ⟨-, h⟩)
      · cases h
      · apply h; push_cast; omega
  unfold lsAmpl
  dsimp only
  rw [hpar.1, if_neg hpar.2, a1, Outcome.ok_bind, b1, Outcome.ok_bind, f1, Outcome.ok_bind]
  have r4 : ts4 = [] → out = [] := by
    rintro rfl; rw [ljSum_nil] at j1; exact (Outcome.ok.inj j1).symm
  have r3 : ts3 = [] → ts4 = [] := by
    rintro rfl; rw [lsSum_nil] at i1; exact (Outcome.ok.inj i1).symm
  have r2 : ts2 = [] → ts3 = [] := by
    rintro rfl; rw [lsSum_nil] at h1; exact (Outcome.ok.inj h1).symm
  by_cases hN : (N.i : ℤ) ≠ 0
  · rw [if_pos hN] at g1 ⊢
    rw [g1, Outcome.ok_bind]
    by_cases z2 : (N.i : ℤ) ≠ 0 ∧ ts2 = []
    · rw [if_pos z2, r4 (r3 (r2 z2.2))]
    rw [if_neg z2, c1, Outcome.ok_bind, h1, Outcome.ok_bind]
    by_cases z3 : ts3 = []
    · rw [if_pos z3, r4 (r3 z3)]
    rw [if_neg z3, d1, Outcome.ok_bind, i1, Outcome.ok_bind]
    by_cases z4 : ts4 = []
    · rw [if_pos z4, r4 z4]
    rw [if_neg z4, j1]
  · rw [if_neg hN] at g1 ⊢
    rw [g1, Outcome.ok_bind]
    by_cases z2 : (N.i : ℤ) ≠ 0 ∧ ts2 = []
    · rw [if_pos z2, r4 (r3 (r2 z2.2))]
    rw [if_neg z2, c1, Outcome.ok_bind, h1, Outcome.ok_bind]
    by_cases z3 : ts3 = []
    · rw [if_pos z3, r4 (r3 z3)]
    rw [if_neg z3, d1, Outcome.ok_bind, i1, Outcome.ok_bind]
    by_cases z4 : ts4 = []
    · rw [if_pos z4, r4 z4]
    rw [if_neg z4, j1]

end Rpwa.SpinTensor
