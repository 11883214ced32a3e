import Verif.Model.Slices
import Verif.Props.SlicesLine
import Verif.Props.RefitMain
/-! # C106: the slices that are drawn for a stored fit -/
namespace Rpwa.Refit

open Finset Rpwa.Lik Rpwa.Fit Rpwa.PwaFit

open Classical in
theorem eigenvectors_free (eig : ℕ → (ℕ → ℕ → ℝ) → ℕ → (ℕ → ℝ) × ℝ) (hE : EigenOk eig) (d : ParData) (hlen : d.params.length = d.nmbPars)
    (hfix : d.nmbParsFixed = (d.params.filter (·.fixed)).length) (H : ℕ → ℕ → ℝ)
    (hH : ∀ i j, i < d.nmbPars → j < d.nmbPars → LikData.fixedAt d i = true ∨ LikData.fixedAt d j = true → H i j = 0)
    (hsym : ∀ i j, i < d.nmbPars → j < d.nmbPars → H i j = H j i) :
    ∃ E, hessianEigenVectors eig d H = .ok E ∧ FreeEigen d H E := by
  obtain ⟨M, hM, hM1, hM2⟩ := reduceMatrix_eq d hlen (le_of_eq hfix) H
  have hMs : ∀ a b, M a b = M b a := by
    intro a b
    by_cases h : a < (freeList d).length ∧ b < (freeList d).length
    · obtain ⟨ha, hb⟩ := h
      rw [hM1 a b _ _ (List.getElem?_eq_getElem ha) (List.getElem?_eq_getElem hb),
        hM1 b a _ _ (List.getElem?_eq_getElem hb) (List.getElem?_eq_getElem ha)]
      exact hsym _ _ ((mem_freeList d _).1 (List.getElem_mem ha)).1 ((mem_freeList d _).1 (List.getElem_mem hb)).1
    · rw [hM2 a b (by omega), hM2 b a (by omega)]
  obtain ⟨E, e1, e2, e3⟩ := eigenvectors_partial (fun n M i => if (∀ a b, M a b = M b a) then eig n M i else (fun _ => 0, 0)) d hlen hfix H hH (by
    intro n M i hi
    by_cases hs : ∀ a b, M a b = M b a
    · rw [if_pos hs]; exact (hE n M hs i hi).1
    · rw [if_neg hs]; intro k _; simp)
  have hsame : hessianEigenVectors eig d H = .ok E := by
    rw [← e1]
    unfold hessianEigenVectors
    rw [hM, Outcome.ok_bind, Outcome.ok_bind]
    simp only [if_pos hMs]
  refine ⟨E, hsame, ?_, ?_⟩
  · rw [e2]
    rfl
  · intro ev hev
    obtain ⟨k1, k2⟩ := e3 ev hev
    refine ⟨k1, k2, ?_⟩
    have hsum := free_add_fixed d hlen
    have hn : d.nmbPars - d.nmbParsFixed = (freeList d).length := by omega
    unfold hessianEigenVectors at hsame
    rw [hM, Outcome.ok_bind, hn] at hsame
    have hEE := (Outcome.ok.inj hsame).symm
    rw [hEE] at hev
    simp only [List.mem_map, List.mem_range] at hev
    obtain ⟨i, hi, rfl⟩ := hev
    have hX := expandVector_eq d (eig (freeList d).length M i).1
    rw [← (hE _ M hMs i hi).2]
    unfold norm2
    have hred : (∑ j ∈ range d.nmbPars, expandVector d (eig (freeList d).length M i).1 j * expandVector d (eig (freeList d).length M i).1 j) =
        ∑ j ∈ (range d.nmbPars).filter (fun j => LikData.fixedAt d j = false),
          expandVector d (eig (freeList d).length M i).1 j * expandVector d (eig (freeList d).length M i).1 j := by
      rw [sum_filter]
      refine sum_congr rfl fun j hj => ?_
      split
      · rfl
      · rename_i hf
        rw [hX.2 j (by rw [mem_freeList]; rintro ⟨_, h⟩; exact hf h), mul_zero]
    rw [hred, sum_free]
    refine sum_congr rfl fun b hb => ?_
    have hb := mem_range.1 hb
    rw [hX.1 b _ (by rw [getD_lt hb]; exact List.getElem?_eq_getElem hb)]

/-- the inverse of a symmetric matrix is symmetric. -/
theorem inverse_symmetric (d : ParData) (H C : ℕ → ℕ → ℝ) (hC : InverseOnFree d H C)
    (hsym : ∀ i j, i < d.nmbPars → j < d.nmbPars → H i j = H j i) (i k : ℕ) (hi : i < d.nmbPars) (hk : k < d.nmbPars)
    (hfi : LikData.fixedAt d i = false) (hfk : LikData.fixedAt d k = false) : C i k = C k i := by
  set S := (range d.nmbPars).filter (fun j => LikData.fixedAt d j = false) with hS
  have hmem : ∀ j, j ∈ S ↔ j < d.nmbPars ∧ LikData.fixedAt d j = false := by intro j; simp [hS]
  have h1 : ∑ a ∈ S, ∑ j ∈ S, C a i * (H a j * C j k) = C k i := by
    have : ∀ a ∈ S, ∑ j ∈ S, C a i * (H a j * C j k) = if a = k then C a i else 0 := by
      intro a ha
      have ha := (hmem a).1 ha
      rw [← mul_sum, hC a k ha.1 hk ha.2 hfk]
      split <;> simp
    rw [sum_congr rfl this, sum_ite_eq', if_pos ((hmem k).2 ⟨hk, hfk⟩)]
  have h2 : ∑ a ∈ S, ∑ j ∈ S, C a i * (H a j * C j k) = C i k := by
    rw [sum_comm]
    have : ∀ j ∈ S, ∑ a ∈ S, C a i * (H a j * C j k) = if j = i then C j k else 0 := by
      intro j hj
      have hj := (hmem j).1 hj
      have : ∀ a ∈ S, C a i * (H a j * C j k) = (H j a * C a i) * C j k := by
        intro a ha
        rw [hsym a j ((hmem a).1 ha).1 hj.1]; ring
      rw [sum_congr rfl this, ← sum_mul, hC j i hj.1 hi hj.2 hfi]
      split <;> simp
    rw [sum_congr rfl this, sum_ite_eq', if_pos ((hmem i).2 ⟨hi, hfi⟩)]
  exact h2.symm.trans h1

/-! ### the loops -/

theorem pySqrt_ok {x : ℝ} (h : 0 ≤ x) : pySqrt x = .ok (Real.sqrt x) := if_neg (not_lt.2 h)
theorem pySqrt_neg {x : ℝ} (h : x < 0) : pySqrt x = .terminate := if_pos h

theorem graph_ok (s : LikObj) (hfin : s.initFinished = true) (minimum : List ℝ) (v0 : ℝ) (ev : (ℕ → ℝ) × ℝ) (h : 0 ≤ ev.2) (ps : List ℤ) :
    graphLikeli s minimum v0 ev ps = .ok (ps.map fun (p : ℤ) => (((p : ℝ) / 50) * Real.sqrt ev.2,
      s.data.doEval (fun i => minimum.getD i 0 + ev.1 i * (((p : ℝ) / 50) * Real.sqrt ev.2)) - v0)) := by
  induction ps with
  | nil => rfl
  | cons p ps ih =>
    unfold graphLikeli
    rw [pySqrt_ok h, Outcome.ok_bind]
    unfold LikObj.doEval
    rw [hfin]
    simp only [Bool.not_true, Bool.false_eq_true, if_false, Outcome.ok_bind, ih, List.map_cons]

theorem graph_neg (s : LikObj) (minimum : List ℝ) (v0 : ℝ) (ev : (ℕ → ℝ) × ℝ) (h : ev.2 < 0) : graphLikeli s minimum v0 ev steps = .terminate := by
  have : steps = (((0 : ℕ) : ℤ) - 50) :: ((List.range 101).map fun n : ℕ => (n : ℤ) - 50).tail := rfl
  rw [this]
  unfold graphLikeli
  rw [pySqrt_neg h]
  rfl

/-- one drawn canvas. -/
noncomputable def drawn (s : LikObj) (par : ℕ → ℝ) (ev : (ℕ → ℝ) × ℝ) (a : Option ℝ) : Drawn :=
  ⟨sliceGraph s.data.doEval par ev.1 ev.2, ev.2, a⟩

theorem graph_eq (s : LikObj) (hfin : s.initFinished = true) (minimum : List ℝ) (par : ℕ → ℝ)
    (hcong : ∀ e : ℕ → ℝ, s.data.doEval (fun i => minimum.getD i 0 + e i) = s.data.doEval fun i => par i + e i)
    (ev : (ℕ → ℝ) × ℝ) (h : 0 ≤ ev.2) :
    graphLikeli s minimum (s.data.doEval par) ev steps = .ok (sliceGraph s.data.doEval par ev.1 ev.2) := by
  rw [graph_ok s hfin minimum _ ev h]
  unfold steps sliceGraph slice
  rw [List.map_map]
  congr 1
  apply List.map_congr_left
  intro n _
  simp only [Function.comp_apply, Int.cast_sub, Int.cast_natCast, Int.cast_ofNat]
  rw [hcong]
  congr 3
  funext i
  ring

theorem sliceLoop_none (s : LikObj) (hfin : s.initFinished = true) (minimum : List ℝ) (par : ℕ → ℝ)
    (hcong : ∀ e : ℕ → ℝ, s.data.doEval (fun i => minimum.getD i 0 + e i) = s.data.doEval fun i => par i + e i) :
    ∀ (E : List ((ℕ → ℝ) × ℝ)), (∀ ev ∈ E, 0 ≤ ev.2) →
      sliceLoop s minimum (s.data.doEval par) E none = .ok (E.map fun ev => drawn s par ev none) := by
  intro E
  induction E with
  | nil => intro _; rfl
  | cons ev E ih =>
    intro h
    have h0 := h ev (List.mem_cons_self ..)
    unfold sliceLoop
    rw [graph_eq s hfin minimum par hcong ev h0, Outcome.ok_bind, pySqrt_ok h0, Outcome.ok_bind]
    dsimp only
    rw [ih fun x hx => h x (List.mem_cons_of_mem _ hx), Outcome.ok_bind]
    rfl

theorem sliceLoop_some (s : LikObj) (hfin : s.initFinished = true) (minimum : List ℝ) (par : ℕ → ℝ)
    (hcong : ∀ e : ℕ → ℝ, s.data.doEval (fun i => minimum.getD i 0 + e i) = s.data.doEval fun i => par i + e i) :
    ∀ (E A : List ((ℕ → ℝ) × ℝ)), E.length = A.length → (∀ ev ∈ E, 0 ≤ ev.2) →
      sliceLoop s minimum (s.data.doEval par) E (some A) = .ok ((E.zip A).map fun p => drawn s par p.1 (some p.2.2)) := by
  intro E
  induction E with
  | nil => intro A _ _; cases A <;> rfl
  | cons ev E ih =>
    intro A hl h
    cases A with
    | nil => cases hl
    | cons a A =>
      have h0 := h ev (List.mem_cons_self ..)
      unfold sliceLoop
      rw [graph_eq s hfin minimum par hcong ev h0, Outcome.ok_bind, pySqrt_ok h0, Outcome.ok_bind]
      dsimp only
      rw [ih A (Nat.succ.inj hl) fun x hx => h x (List.mem_cons_of_mem _ hx), Outcome.ok_bind]
      rfl

theorem sliceLoop_neg (s : LikObj) (hfin : s.initFinished = true) (minimum : List ℝ) (v0 : ℝ) :
    ∀ (E : List ((ℕ → ℝ) × ℝ)) (A : Option (List ((ℕ → ℝ) × ℝ))), (∃ ev ∈ E, ev.2 < 0) → sliceLoop s minimum v0 E A = .terminate := by
  intro E
  induction E with
  | nil => rintro A ⟨_, h, _⟩; cases h
  | cons ev E ih =>
    intro A h
    unfold sliceLoop
    by_cases h0 : ev.2 < 0
    · rw [graph_neg s minimum v0 ev h0]; rfl
    · have h' : ∃ ev ∈ E, ev.2 < 0 := by
        obtain ⟨x, hx, hn⟩ := h
        rcases List.mem_cons.1 hx with rfl | hx
        · exact absurd hn h0
        · exact ⟨x, hx, hn⟩
      rw [graph_ok s hfin minimum v0 ev (not_lt.1 h0), Outcome.ok_bind, pySqrt_ok (not_lt.1 h0), Outcome.ok_bind]
      cases A with
      | none => dsimp only; rw [ih none h']; rfl
      | some A =>
        cases A with
        | nil => rfl
        | cons a A => dsimp only; rw [ih (some A) h']; rfl

/-- a likelihood that has been set up with a Hermitian acceptance integral matrix. -/
theorem setup_accHermitian (inp : SetupInput) (hdiag : inp.DiagOk) (order : List String) (s : LikObj) (hs : Succeeds LikObj.new (inp.protocol order) s)
    (hacc : ∀ i j, inp.IsWave i → inp.IsWave j → i.1 = j.1 →
      inp.acc.entry (inp.waveName j) (inp.waveName i) = (starRingEnd ℂ) (inp.acc.entry (inp.waveName i) (inp.waveName j))) :
    s.data.AccHermitian := by
  obtain ⟨d, N, _, _, _, _, rfl⟩ := inp.protocol_spec hdiag order s hs
  have h0 : ∀ a b, inp.ints.acc b a = (starRingEnd ℂ) (inp.ints.acc a b) := by
    intro a b
    unfold SetupInput.ints
    dsimp only
    by_cases h : a.1 = b.1 ∧ inp.IsWave a ∧ inp.IsWave b
    · rw [if_pos h, if_pos ⟨h.1.symm, h.2.2, h.2.1⟩, hacc a b h.2.1 h.2.2 h.1, map_div₀, Complex.conj_natCast]
    · rw [if_neg h, if_neg fun h' => h ⟨h'.1.symm, h'.2.2, h'.2.1⟩, map_zero]
  intro e i j
  show (if inp.useNorm then rescaleIntegrals inp.waves.nW inp.ints else inp.ints).acc (e, j) (e, i) =
    (starRingEnd ℂ) ((if inp.useNorm then rescaleIntegrals inp.waves.nW inp.ints else inp.ints).acc (e, i) (e, j))
  cases inp.useNorm with
  | false => exact h0 _ _
  | true =>
    simp only [if_true]
    unfold rescaleIntegrals
    dsimp only
    rw [rescale_all _ _ (nodup_waveIxs _)]
    dsimp only
    by_cases h : (e, i) ∈ waveIxs inp.waves.nW ∧ (e, j) ∈ waveIxs inp.waves.nW
    · rw [if_pos h, if_pos h.symm, h0, map_div₀, Complex.conj_ofReal, mul_comm (waveNorm _ (e, j))]
    · rw [if_neg h, if_neg fun h' => h h'.symm, h0]

section
variable {inp : SetupInput} {N : ℕ} {desc : Name → Option ℤ} {s : LikObj} (hF : FitOf inp N desc s)
  (o : Options) (bin : List (Name × ℝ × ℝ)) (par : ℕ → ℝ) (v : ℝ) (cov : ℕ → ℕ → ℝ) (h : Bool)
include hF

/-- **C106, what is drawn.** For a stored, converged fit of which the fixed parameters are zero and which has a symmetric covariance matrix without
fixed parameters, one slice of the fitted likelihood through the parameters of the fit is drawn along each eigenvector of the covariance matrix, with
101 points up to the distance of one standard deviation, and the parabola of its eigenvalue; without option `-s` also that of an eigenvalue of
the analytic covariance matrix, which is the inverse of the Hessian.  A negative eigenvalue ends the script. -/
theorem slices_of_fit (inv : ℕ → (ℕ → ℕ → ℝ) → (ℕ → ℕ → ℝ)) (hinv : Inverts inv) (eig : ℕ → (ℕ → ℕ → ℝ) → ℕ → (ℕ → ℝ) × ℝ) (hE : EigenOk eig)
    (hacc : ∀ i j, inp.IsWave i → inp.IsWave j → i.1 = j.1 →
      inp.acc.entry (inp.waveName j) (inp.waveName i) = (starRingEnd ℂ) (inp.acc.entry (inp.waveName i) (inp.waveName j)))
    (hm : 0 < centre bin) (hfix : ∀ k < s.pars.nmbPars, LikData.fixedAt s.pars k = true → par k = 0)
    (hspace : o.saveSpace = false) :
    ∃ s' wl m', rebuild (filesOf inp) desc (storedFit inp s o bin par v cov true h) = .ok (some s') ∧ s'.data = s.data ∧
      s'.pars.nmbPars = s.pars.nmbPars ∧ s.data.Matches wl s'.pars m' ∧
      ((∀ i j, i < s.pars.nmbPars → j < s.pars.nmbPars → LikData.fixedAt s'.pars i = true ∨ LikData.fixedAt s'.pars j = true → cov i j = 0) →
       (∀ i j, i < s.pars.nmbPars → j < s.pars.nmbPars → cov i j = cov j i) →
       ∃ E, FreeEigen s'.pars cov E ∧
        ((∀ ev ∈ E, 0 ≤ ev.2) → likelihoodSlices inv eig (filesOf inp) desc true [storedFit inp s o bin par v cov true h] =
          .ok (some (E.map fun ev => ⟨sliceGraph s.data.doEval par ev.1 ev.2, ev.2, none⟩))) ∧
        ((∃ ev ∈ E, ev.2 < 0) → likelihoodSlices inv eig (filesOf inp) desc true [storedFit inp s o bin par v cov true h] = .terminate) ∧
        ∀ B, InverseOnFree s'.pars (s.data.hessian s'.pars par) B →
          ∃ C A, InverseOnFree s'.pars (s.data.hessian s'.pars par) C ∧ FreeEigen s'.pars C A ∧
            ((∀ ev ∈ E, 0 ≤ ev.2) → likelihoodSlices inv eig (filesOf inp) desc false [storedFit inp s o bin par v cov true h] =
              .ok (some ((E.zip A).map fun p => ⟨sliceGraph s.data.doEval par p.1.1 p.1.2, p.1.2, some p.2.2⟩))) ∧
            ((∃ ev ∈ E, ev.2 < 0) →
              likelihoodSlices inv eig (filesOf inp) desc false [storedFit inp s o bin par v cov true h] = .terminate)) := by
  obtain ⟨s', e1, ⟨order, hs'⟩, e2, _, _, _, _, _, e7⟩ := rebuild_ok hF o bin par v cov true h
  obtain ⟨comp, c1, c2, c3, c4, c5, c6, c7, _, c8, c9, c10⟩ := params_names hF (storedFit inp s o bin par v cov true h) order s' hs'
  obtain ⟨_, q2⟩ := parsFor_eq hF o bin par v cov true h order s' hs'
  have hI : s.data.AccHermitian := by
    obtain ⟨order0, hs0⟩ := hF.hset
    exact setup_accHermitian inp hF.hdiag order0 s hs0 hacc
  set r := storedFit inp s o bin par v cov true h with hr
  have hS := backInput_same inp r
  have hmatch := (backInput inp r).setup_matches (hS.diag.2 hF.hdiag) order s' hs' fun i hi hc =>
    absurd (by rw [← hS.waveName]; exact hc) (hF.noFlat i ((hS.isWave i).1 hi))
  rw [e2] at hmatch
  have hcount : s'.pars.nmbParsFixed = (s'.pars.params.filter (·.fixed)).length := by
    apply c10
    intro x hx he
    have hxf := (c2 x).1 hx
    have hxw : inp.IsWave x.1.2 := ⟨hxf.2.1, hxf.2.2.1⟩
    rw [thr_iff _ (by rw [stored_centre]; exact hm), vanishes_iff hF o bin par v cov true h _ hxw]
    exact fixed_vanishes hF par hfix _ hxw (.inr he)
  have hlen : s'.pars.params.length = s'.pars.nmbPars := by rw [c6, c4]
  refine ⟨s', _, _, e1, e2, c4, hmatch, ?_⟩
  intro hcz hcs
  obtain ⟨comp', hl⟩ := layout_of_matches (likOf s inp.waves.threshold).fn hF.is_matched
  have hcopy : ∀ e : ℕ → ℝ, copyFromParArray s.data.rank s.data.nW (fun i => (parsFor s' r).getD i 0 + e i) =
      copyFromParArray s.data.rank s.data.nW fun i => par i + e i := fun e =>
    copyFrom_congr hl _ _ fun i hi => by
      have := q2 i hi
      simp only [this]
  have hcong : ∀ e : ℕ → ℝ, s'.data.doEval (fun i => (parsFor s' r).getD i 0 + e i) = s'.data.doEval fun i => par i + e i := by
    intro e
    rw [e2]
    unfold LikData.doEval
    rw [hcopy e]
  have h00 := hcopy fun _ => 0
  simp only [add_zero] at h00
  have h0 : s'.doEval (fun i => (parsFor s' r).getD i 0) = .ok (s'.data.doEval par) := by
    have := hcong fun _ => 0
    simp only [add_zero] at this
    unfold LikObj.doEval
    rw [e7, this]; rfl
  obtain ⟨E, hE1, hE2⟩ := eigenvectors_free eig hE s'.pars hlen hcount cov (by rw [c4]; exact hcz) (by rw [c4]; exact hcs)
  have hev : eigenVectorsOf eig s' r.cov = .ok E := by
    have : r.cov = ⟨s.pars.nmbPars, s.pars.nmbPars, cov⟩ := by
      rw [hr]
      unfold storedFit FitResult.fillA FitResult.fill fillFitResult
      simp only [hspace]
      rfl
    unfold eigenVectorsOf
    rw [this, c4]
    rw [if_pos ⟨le_refl _, le_refl _⟩]
    exact hE1
  have hg : getFitResultFromFile [r] = some r := rfl
  have hd : ∀ ev a, drawn s' par ev a = ⟨sliceGraph s.data.doEval par ev.1 ev.2, ev.2, a⟩ := by
    intro ev a; unfold drawn; rw [e2]
  refine ⟨E, hE2, ?_, ?_, ?_⟩
  · intro hpos
    unfold likelihoodSlices
    simp only [hg, e1, Outcome.ok_bind, h0, hev, if_true]
    rw [sliceLoop_none s' e7 _ par hcong E hpos, Outcome.ok_bind]
    simp only [hd]
  · intro hneg
    unfold likelihoodSlices
    simp only [hg, e1, Outcome.ok_bind, h0, hev, if_true]
    rw [sliceLoop_neg s' e7 _ _ E _ hneg]
    rfl
  · intro B hB
    obtain ⟨C, k1, k2, k3⟩ := covariance_partial inv hinv s'.pars hlen hcount _ B hB
    have hHs : ∀ i j, i < s'.pars.nmbPars → j < s'.pars.nmbPars → s.data.hessian s'.pars par i j = s.data.hessian s'.pars par j i :=
      fun i j _ _ => hessian_symmetric s.data _ s'.pars _ hmatch hI par i j
    have hCs : ∀ i j, i < s'.pars.nmbPars → j < s'.pars.nmbPars → C i j = C j i := by
      intro i j hi hj
      by_cases hf : LikData.fixedAt s'.pars i = true ∨ LikData.fixedAt s'.pars j = true
      · rw [k3 i j hi hj hf, k3 j i hj hi hf.symm]
      · push Not at hf
        simp only [Bool.not_eq_true] at hf
        exact inverse_symmetric s'.pars _ C k2 hHs i j hi hj hf.1 hf.2
    obtain ⟨A, hA1, hA2⟩ := eigenvectors_free eig hE s'.pars hlen hcount C k3 hCs
    have hH : s'.data.hessian s'.pars (fun i => (parsFor s' r).getD i 0) = s.data.hessian s'.pars par := by
      rw [e2]
      unfold LikData.hessian
      rw [h00]
    have hana : analyticVectors inv eig s' (parsFor s' r) = .ok A := by
      unfold analyticVectors
      rw [hH, k1, Outcome.ok_bind]
      exact hA1
    have hlenEA : E.length = A.length := hE2.1.trans hA2.1.symm
    refine ⟨C, A, k2, hA2, ?_, ?_⟩
    · intro hpos
      unfold likelihoodSlices
      simp only [hg, e1, Outcome.ok_bind, h0, hev, hana, Bool.false_eq_true, if_false]
      rw [if_neg (not_not.2 hlenEA), sliceLoop_some s' e7 _ par hcong E A hlenEA hpos, Outcome.ok_bind]
      simp only [hd]
    · intro hneg
      unfold likelihoodSlices
      simp only [hg, e1, Outcome.ok_bind, h0, hev, hana, Bool.false_eq_true, if_false]
      rw [if_neg (not_not.2 hlenEA), sliceLoop_neg s' e7 _ _ E _ hneg]
      rfl

end

end Rpwa.Refit
