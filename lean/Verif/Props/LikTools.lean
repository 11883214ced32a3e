import Verif.Lemmas.LikTools
import Verif.Props.Likelihood
/-!
# C26 derivative cache, C27 sign convention -/
namespace Rpwa.Lik

open Finset Complex

/-! ## C26 -/

theorem step_lik_of_not_setter (d : ParData) (s : DerivState) (op : DerivState.Op) (h : ¬ op.isSetter) : (s.step d op).lik = s.lik := by
  cases op with
  | doEval => rfl
  | doDerivative par k junk =>
    simp only [DerivState.step, DerivState.doDerivative]
    split <;> rfl
  | gradient => rfl
  | fdf => rfl
  | setPriorType p => exact absurd trivial h
  | setCauchyWidth w => exact absurd trivial h

theorem step_rank_nW (d : ParData) (s : DerivState) (op : DerivState.Op) :
    (s.step d op).lik.rank = s.lik.rank ∧ (s.step d op).lik.nW = s.lik.nW ∧ (s.step d op).lik.nmbEvents = s.lik.nmbEvents := by
  by_cases h : op.isSetter
  · cases op <;> simp_all [DerivState.Op.isSetter, DerivState.step]
  · rw [step_lik_of_not_setter d s op h]; exact ⟨rfl, rfl, rfl⟩

theorem cacheOk_step (d : ParData) (comp : List Comp) (s : DerivState) (hl : Layout s.lik d comp) (hc : CacheOk d s) (op : DerivState.Op)
    (h : ¬ op.isSetter) : CacheOk d (s.step d op) := by
  cases op with
  | doEval => exact hc
  | doDerivative par k junk =>
    simp only [DerivState.step, DerivState.doDerivative]
    split
    · exact hc
    · simp only [DerivState.fdf, fdf_eq]
      exact cacheOk_fill s hl par
  | gradient par out => exact cacheOk_fill s hl par
  | fdf par out =>
    simp only [DerivState.step, DerivState.fdf, fdf_eq]
    exact cacheOk_fill s hl par
  | setPriorType p => exact absurd trivial h
  | setCauchyWidth w => exact absurd trivial h

/-- **C26 (partial).** If prior type and width are only set before the first evaluation, then after every history of evaluations a
single partial derivative is the component of the gradient at the requested parameters (hence by C24 the derivative), wherever the
likelihood is defined. Missing: histories in which the prior is changed between evaluations, see `stale_after_setPriorType`. -/
theorem doDerivative_fresh_partial (L : LikData) (wl : WaveList) (d : ParData) (m : ℝ) (hm : L.Matches wl d m) (hev : 0 < L.nmbEvents)
    (setters evals : List DerivState.Op) (hset : ∀ op ∈ setters, op.isSetter) (heval : ∀ op ∈ evals, ¬ op.isSetter)
    (s : DerivState) (hs : s = (setters ++ evals).foldl (DerivState.step d) (DerivState.start L))
    (par junk out : ℕ → ℝ) (hdef : s.lik.DefinedAt par) (k : ℕ) (hk : k < d.nmbPars) :
    (s.doDerivative d par k junk).2 = s.lik.gradient d par out k := by
  obtain ⟨comp, hl⟩ := layout_of_matches L hm
  have h0 : ∀ ops : List DerivState.Op, ∀ s0 : DerivState, s0.lik.rank = L.rank ∧ s0.lik.nW = L.nW ∧ s0.lik.nmbEvents = L.nmbEvents →
      (ops.foldl (DerivState.step d) s0).lik.rank = L.rank ∧ (ops.foldl (DerivState.step d) s0).lik.nW = L.nW ∧
        (ops.foldl (DerivState.step d) s0).lik.nmbEvents = L.nmbEvents := by
    intro ops
    induction ops with
    | nil => intro s0 h; exact h
    | cons op ops ih =>
      intro s0 h
      obtain ⟨a, b, c⟩ := step_rank_nW d s0 op
      exact ih _ ⟨a.trans h.1, b.trans h.2.1, c.trans h.2.2⟩
  have h1 : ∀ ops : List DerivState.Op, (∀ op ∈ ops, op.isSetter) → ∀ s0 : DerivState, (∀ i, s0.parCache i = 0) →
      ∀ i, (ops.foldl (DerivState.step d) s0).parCache i = 0 := by
    intro ops
    induction ops with
    | nil => intro _ s0 h; exact h
    | cons op ops ih =>
      intro ho s0 h
      have hop := ho op (by simp)
      refine ih (fun o h' => ho o (by simp [h'])) _ ?_
      cases op with
      | setPriorType p => exact h
      | setCauchyWidth w => exact h
      | _ => exact absurd hop (by simp [DerivState.Op.isSetter])
  have h2 : ∀ ops : List DerivState.Op, (∀ op ∈ ops, ¬ op.isSetter) → ∀ s0 : DerivState, s0.lik.rank = L.rank ∧ s0.lik.nW = L.nW ∧
      s0.lik.nmbEvents = L.nmbEvents → CacheOk d s0 → CacheOk d (ops.foldl (DerivState.step d) s0) := by
    intro ops
    induction ops with
    | nil => intro _ s0 _ h; exact h
    | cons op ops ih =>
      intro ho s0 hr h
      obtain ⟨a, b, c⟩ := step_rank_nW d s0 op
      exact ih (fun o h' => ho o (by simp [h'])) _ ⟨a.trans hr.1, b.trans hr.2.1, c.trans hr.2.2⟩
        (cacheOk_step d comp s0 (layout_transfer hl s0.lik hr.1 hr.2.1) h op (ho op (by simp)))
  have hr := h0 (setters ++ evals) (DerivState.start L) ⟨rfl, rfl, rfl⟩
  rw [← hs] at hr
  have hcache : CacheOk d s := by
    rw [hs, List.foldl_append]
    exact h2 evals heval _ (h0 setters (DerivState.start L) ⟨rfl, rfl, rfl⟩) (Or.inl fun i _ => h1 setters hset _ (fun _ => rfl) i)
  have hls := layout_transfer hl s.lik hr.1 hr.2.1
  unfold DerivState.doDerivative
  split
  · rename_i hsame
    have hsame' : ∀ i < d.nmbPars, s.parCache i = par i := by
      intro i hi
      simpa using List.all_eq_true.1 hsame i (List.mem_range.2 hi)
    simp only
    rcases hcache with hz | hg
    · exfalso
      have hz' : ∀ i < d.nmbPars, par i = (fun _ => (0 : ℝ)) i := fun i hi => by rw [← hsame' i hi]; exact hz i hi
      have hcopy := copyFrom_congr hls par (fun _ => 0) hz'
      have hi := hdef.intensity 0 (by rw [hr.2.2]; exact hev)
      apply hi
      unfold LikData.amps LikData.flat
      rw [hcopy]
      have hV : (copyFromParArray s.lik.rank s.lik.nW fun _ => 0).1 = fun _ => 0 := by
        funext t
        refine complex_ext_part fun b => ?_
        by_cases hf : Free s.lik.rank s.lik.nW (t, b)
        · obtain ⟨k, hk⟩ := List.getElem?_of_mem ((hls.free _).2 hf)
          rw [hls.fromPar _ k _ hk]; cases b <;> rfl
        · rw [hls.fromZero _ t b hf]; cases b <;> rfl
      rw [hV, hls.fromFlat]
      simp [LikData.sigma, LikData.ampSum]
    · rw [hg k hk out]
      exact gradient_congr hls _ _ _ _ hsame' k hk
  · simp only [DerivState.fdf, fdf_eq]
    exact gradient_congr hls _ _ _ _ (fun _ _ => rfl) k hk

theorem doDerivative_hit (d : ParData) (s : DerivState) (par : ℕ → ℝ) (k : ℕ) (junk : ℕ → ℝ) (h : ∀ i < d.nmbPars, s.parCache i = par i) :
    (s.doDerivative d par k junk).2 = s.derivCache k := by
  unfold DerivState.doDerivative
  rw [if_pos]
  rw [List.all_eq_true]
  intro i hi
  simpa using h i (List.mem_range.1 hi)

/-- **C26 is false of the code in general.** Evaluate the gradient with the flat prior, select the half-Cauchy prior, ask for a single
derivative at the same parameters: the answer still belongs to the flat prior, for every parameter whose value is not zero. -/
theorem stale_after_setPriorType (L : LikData) (wl : WaveList) (d : ParData) (m : ℝ) (hm : L.Matches wl d m) (hL : L.prior = .flat)
    (hg : L.cauchyWidth ≠ 0) (par out junk : ℕ → ℝ) (s : Slot) (hs : s.1 < L.rank ∧ s.2.1 < 2 ∧ s.2.2 < L.nW s.2.1) (k : ℕ)
    (hk : (d.map s).1 = some k) (hpar : par k ≠ 0) :
    let s1 := [DerivState.Op.gradient par out, .setPriorType .halfCauchy].foldl (DerivState.step d) (DerivState.start L)
    s1.lik.prior = .halfCauchy ∧ (s1.doDerivative d par k junk).2 ≠ s1.lik.gradient d par junk k := by
  obtain ⟨comp, hl⟩ := layout_of_matches L hm
  have hkc := ((hl.map s hs.1 hs.2.1 hs.2.2).1 k).1 hk
  have hkl : k < comp.length := (List.getElem?_eq_some_iff.1 hkc).1
  refine ⟨rfl, ?_⟩
  have hl2 : Layout { L with prior := Prior.halfCauchy } d comp := layout_transfer hl _ rfl rfl
  have e1 : (([DerivState.Op.gradient par out, .setPriorType .halfCauchy].foldl (DerivState.step d) (DerivState.start L)).doDerivative d par k junk).2
      = L.gradient d par (fun _ => 0) k := by
    rw [doDerivative_hit]
    · rfl
    · intro i hi
      change DerivState.storePar d par _ i = par i
      simp [DerivState.storePar, hi]
  rw [e1]
  have e2 : ([DerivState.Op.gradient par out, .setPriorType .halfCauchy].foldl (DerivState.step d) (DerivState.start L)).lik
      = { L with prior := Prior.halfCauchy } := rfl
  rw [e2]
  unfold LikData.gradient
  rw [hl.toPar _ _ _ k _ hkc, hl2.toPar _ _ _ k _ hkc]
  have hre : ((copyFromParArray L.rank L.nW par).1 s).re = par k := hl.fromPar par k _ hkc
  set V := (copyFromParArray L.rank L.nW par).1 with hV
  have hVs : V s ≠ 0 := by
    intro h; rw [h] at hre; exact hpar (by simpa using hre.symm)
  have ed : LikData.derivatives { L with prior := Prior.halfCauchy } V (copyFromParArray L.rank L.nW par).2 s =
      L.derivatives V (copyFromParArray L.rank L.nW par).2 s - LikData.priorDeriv { L with prior := Prior.halfCauchy } V s := by
    have : L.priorDeriv V s = 0 := by simp [LikData.priorDeriv, hL]
    unfold LikData.derivatives
    rw [this, sub_zero]
    rfl
  change _ ≠ part (LikData.derivatives { L with prior := Prior.halfCauchy } V (copyFromParArray L.rank L.nW par).2 s) true
  rw [ed, priorDeriv_eq { L with prior := Prior.halfCauchy } V s rfl hg hVs]
  simp only [part, if_true, sub_re, re_ofReal_mul, hre]
  intro h
  have hz : -2 / (L.cauchyWidth * L.cauchyWidth + normSq (V s)) * par k = 0 := by linarith
  have hgg : 0 < L.cauchyWidth * L.cauchyWidth := mul_self_pos.2 hg
  have hn : 0 ≤ normSq (V s) := normSq_nonneg _
  rcases mul_eq_zero.1 hz with h' | h'
  · rw [div_eq_zero_iff] at h'
    rcases h' with h' | h'
    · norm_num at h'
    · linarith
  · exact hpar h'

/-! ## C27 -/

/-- the call returns normally exactly if no rank index exceeds the number of waves; otherwise it reads outside the array. -/
theorem correctParamSigns_returns (L : LikData) (d : ParData) (par : ℕ → ℝ) (h : L.rank ≤ max (L.nW 0) (L.nW 1)) :
    ∃ out, correctParamSigns L.rank L.nW d par = .ok out := by
  unfold correctParamSigns
  have := correct_fold L.nW (blocks L.rank) (nodup_blocks _) (fun p hp => lt_of_lt_of_le ((mem_blocks _ _).1 hp).1 h) (copyFromParArray L.rank L.nW par).1
  unfold blocks at this
  simp only [this, Outcome.ok_bind]
  exact ⟨_, rfl⟩

/-- Finding: with a rank larger than the number of waves of both reflectivities the function reads outside the array (such a rank is
accepted by `init`, C23). -/
theorem correctParamSigns_out_of_range (wl : WaveList) (d : ParData) (par : ℕ → ℝ) (rank : ℕ) (h : max (wl.nW 0) (wl.nW 1) < rank) :
    correctParamSigns rank wl.nW d par = .ub := by
  unfold correctParamSigns
  have hsplit : (List.range rank).flatMap (fun r => (List.range 2).map fun e => (r, e)) = blocks (max (wl.nW 0) (wl.nW 1)) ++
      (max (wl.nW 0) (wl.nW 1), 0) :: (max (wl.nW 0) (wl.nW 1), 1) :: (List.range' (max (wl.nW 0) (wl.nW 1) + 1) (rank - max (wl.nW 0) (wl.nW 1) - 1)).flatMap
        (fun r => (List.range 2).map fun e => (r, e)) := by
    have e : List.range rank = List.range (max (wl.nW 0) (wl.nW 1)) ++ (max (wl.nW 0) (wl.nW 1) ::
        List.range' (max (wl.nW 0) (wl.nW 1) + 1) (rank - max (wl.nW 0) (wl.nW 1) - 1)) := by
      generalize max (wl.nW 0) (wl.nW 1) = k at h ⊢
      rw [List.range_eq_range', List.range_eq_range']
      have h2 : k :: List.range' (k + 1) (rank - k - 1) = List.range' k (rank - k) := by
        conv_rhs => rw [show rank - k = (rank - k - 1) + 1 by omega]
        rw [List.range'_succ]
      rw [h2]
      have := List.range'_append (s := 0) (m := k) (n := rank - k) (step := 1)
      simp only [Nat.zero_add, Nat.one_mul] at this
      rw [this]
      congr 1; omega
    rw [e, List.flatMap_append]
    rfl
  have hf := correct_fold wl.nW (blocks (max (wl.nW 0) (wl.nW 1))) (nodup_blocks _) (fun p hp => ((mem_blocks _ _).1 hp).1)
    (copyFromParArray rank wl.nW par).1
  simp only [hsplit, List.foldlM_append, hf, Outcome.ok_bind, List.foldlM_cons]
  have : ∀ a, correctStep wl.nW a (max (wl.nW 0) (wl.nW 1), 0) = .ub := by
    intro a; unfold correctStep; rw [if_neg (by simp)]
  rw [this]; rfl

theorem correct_amps (L : LikData) (d : ParData) (comp : List Comp) (hl : Layout L d comp) (par out : ℕ → ℝ)
    (h : correctParamSigns L.rank L.nW d par = .ok out) :
    L.rank ≤ max (L.nW 0) (L.nW 1) ∧
    copyFromParArray L.rank L.nW out =
      (flipped L.nW (blocks L.rank) (copyFromParArray L.rank L.nW par).1, |(copyFromParArray L.rank L.nW par).2|) ∧
    out = copyToParArray L.rank L.nW d (flipped L.nW (blocks L.rank) (copyFromParArray L.rank L.nW par).1) |(copyFromParArray L.rank L.nW par).2|
      (fun _ => 0) := by
  have hr : L.rank ≤ max (L.nW 0) (L.nW 1) := by
    by_contra hc
    have := correctParamSigns_out_of_range ⟨L.nW, fun _ _ => "", fun _ _ => 0⟩ d par L.rank (by simpa using hc)
    simp only at this
    rw [this] at h; cases h
  have hf := correct_fold L.nW (blocks L.rank) (nodup_blocks _) (fun p hp => lt_of_lt_of_le ((mem_blocks _ _).1 hp).1 hr) (copyFromParArray L.rank L.nW par).1
  unfold correctParamSigns at h
  unfold blocks at hf
  simp only [hf, Outcome.ok_bind] at h
  have habs : (if (copyFromParArray L.rank L.nW par).2 < 0 then (copyFromParArray L.rank L.nW par).2 * (-1) else (copyFromParArray L.rank L.nW par).2)
      = |(copyFromParArray L.rank L.nW par).2| := by
    split
    · rename_i hneg; rw [abs_of_neg hneg]; ring
    · rename_i hneg; rw [abs_of_nonneg (not_lt.1 hneg)]
  rw [habs] at h
  simp only [Outcome.ok.injEq] at h
  refine ⟨hr, ?_, h.symm⟩
  rw [← h]
  refine layout_copyFrom_copyTo hl _ ?_ _ _
  intro s b hnf
  have := hl.fromZero par s b hnf
  unfold flipped
  split
  · cases b <;> simp_all [part]
  · exact this

/-- **C27.** The corrected parameters have the same likelihood, for every parameter array and every prior. -/
theorem correctParamSigns_same_likelihood (L : LikData) (wl : WaveList) (d : ParData) (m : ℝ) (hm : L.Matches wl d m) (par out : ℕ → ℝ)
    (h : correctParamSigns L.rank L.nW d par = .ok out) : L.doEval out = L.doEval par := by
  classical
  obtain ⟨comp, hl⟩ := layout_of_matches L hm
  obtain ⟨hr, hc, _⟩ := correct_amps L d comp hl par out h
  unfold LikData.doEval
  rw [hc]
  simp only
  refine eval_signs L _ _ _ _ (fun r e => if Flip (copyFromParArray L.rank L.nW par).1 r e then -1 else 1) ?_ ?_ (abs_mul_abs_self _)
  · intro r e; split <;> norm_num
  · intro r e w h1 h2 h3
    unfold flipped
    have hb : ((r, e) : ℕ × ℕ) ∈ blocks L.rank := (mem_blocks _ _).2 ⟨h1, h2⟩
    by_cases hf : Flip (copyFromParArray L.rank L.nW par).1 r e
    · rw [if_pos ⟨hb, h3, hf⟩, if_pos hf]; simp
    · rw [if_neg (fun h => hf h.2.2), if_neg hf]; simp

/-- **C27.** After the correction the flat amplitude and all anchor amplitudes are real and not negative. -/
theorem correctParamSigns_convention (L : LikData) (wl : WaveList) (d : ParData) (m : ℝ) (hm : L.Matches wl d m) (par out : ℕ → ℝ)
    (h : correctParamSigns L.rank L.nW d par = .ok out) :
    0 ≤ L.flat out ∧ ∀ r e, r < L.rank → e < 2 → r < L.nW e → 0 ≤ (L.amps out (r, e, r)).re ∧ (L.amps out (r, e, r)).im = 0 := by
  obtain ⟨comp, hl⟩ := layout_of_matches L hm
  obtain ⟨hr, hc, _⟩ := correct_amps L d comp hl par out h
  unfold LikData.flat LikData.amps
  rw [hc]
  refine ⟨abs_nonneg _, ?_⟩
  intro r e h1 h2 h3
  have him : ((copyFromParArray L.rank L.nW par).1 (r, e, r)).im = 0 := by
    refine hl.fromZero par (r, e, r) false ?_
    unfold Free; simp
  have hb : ((r, e) : ℕ × ℕ) ∈ blocks L.rank := (mem_blocks _ _).2 ⟨h1, h2⟩
  unfold flipped
  simp only
  by_cases hf : Flip (copyFromParArray L.rank L.nW par).1 r e
  · rw [if_pos ⟨hb, h3, hf⟩]
    have := hf.1
    simp only [neg_re, neg_im, him, neg_zero, and_true]
    linarith
  · rw [if_neg (fun h => hf h.2.2)]
    refine ⟨?_, him⟩
    by_contra hneg
    exact hf ⟨not_le.1 hneg, him⟩

/-- **C27.** Correcting twice is correcting once. -/
theorem correctParamSigns_idempotent (L : LikData) (wl : WaveList) (d : ParData) (m : ℝ) (hm : L.Matches wl d m) (par out : ℕ → ℝ)
    (h : correctParamSigns L.rank L.nW d par = .ok out) : correctParamSigns L.rank L.nW d out = .ok out := by
  obtain ⟨comp, hl⟩ := layout_of_matches L hm
  obtain ⟨hr, hc, ho⟩ := correct_amps L d comp hl par out h
  obtain ⟨out2, h2⟩ := correctParamSigns_returns L d out hr
  obtain ⟨_, _, ho2⟩ := correct_amps L d comp hl out out2 h2
  have hconv := correctParamSigns_convention L wl d m hm par out h
  rw [h2, ho2]
  refine congrArg Outcome.ok ?_
  rw [hc, abs_abs]
  conv_rhs => rw [ho]
  refine congrArg (fun a => copyToParArray L.rank L.nW d a _ _) ?_
  have hV : (copyFromParArray L.rank L.nW out).1 = flipped L.nW (blocks L.rank) (copyFromParArray L.rank L.nW par).1 := by rw [hc]
  simp only
  rw [← hV]
  funext s
  unfold flipped
  rw [if_neg]
  rintro ⟨hb, hw, hf⟩
  obtain ⟨hb1, hb2⟩ := (mem_blocks _ _).1 hb
  by_cases hrw : s.1 < L.nW s.2.1
  · have := (hconv.2 s.1 s.2.1 hb1 hb2 hrw).1
    unfold LikData.amps at this
    have h1 := hf.1
    linarith
  · have hz : ∀ b, part ((copyFromParArray L.rank L.nW out).1 (s.1, s.2.1, s.1)) b = 0 :=
      fun b => hl.fromZero out _ b (by unfold Free; simp; omega)
    have h1 := hf.1
    have h0 := hz true
    simp only [part, if_true] at h0
    linarith

/-- **C27.** Relative phases are untouched: the spin-density products of two amplitudes of the same rank and reflectivity keep their
value. -/
theorem correctParamSigns_keeps_phases (L : LikData) (wl : WaveList) (d : ParData) (m : ℝ) (hm : L.Matches wl d m) (par out : ℕ → ℝ)
    (h : correctParamSigns L.rank L.nW d par = .ok out) (r e i j : ℕ) (hi : i < L.nW e) (hj : j < L.nW e) :
    L.amps out (r, e, i) * (starRingEnd ℂ) (L.amps out (r, e, j)) = L.amps par (r, e, i) * (starRingEnd ℂ) (L.amps par (r, e, j)) := by
  obtain ⟨comp, hl⟩ := layout_of_matches L hm
  obtain ⟨_, hc, _⟩ := correct_amps L d comp hl par out h
  unfold LikData.amps
  rw [hc]
  unfold flipped
  simp only
  by_cases hf : ((r, e) : ℕ × ℕ) ∈ blocks L.rank ∧ Flip (copyFromParArray L.rank L.nW par).1 r e
  · rw [if_pos ⟨hf.1, hi, hf.2⟩, if_pos ⟨hf.1, hj, hf.2⟩]; simp
  · rw [if_neg (fun h => hf ⟨h.1, h.2.2⟩), if_neg (fun h => hf ⟨h.1, h.2.2⟩)]

/-- Non-vacuity of C26 and C27. -/
example : ∃ (L : LikData) (wl : WaveList) (d : ParData) (par : ℕ → ℝ), L.Matches wl d 1 ∧ L.DefinedAt par ∧ 0 < L.nmbEvents ∧ 0 < d.nmbPars ∧
    (∃ out, correctParamSigns L.rank L.nW d par = .ok out) := by
  obtain ⟨L, wl, d, par, h1, h2, h3, h4, h5, _, h7⟩ := lik_example
  exact ⟨L, wl, d, par, h1, h3, by omega, by omega, correctParamSigns_returns L d par h4.2⟩

end Rpwa.Lik
