import Verif.Props.RefitMain
/-! # C90: the fit functions, limits and an example -/
namespace Rpwa.Refit

open Rpwa.Lik Rpwa.Fit Rpwa.PwaFit Rpwa.Attempts

/-- **C90, Minuit fits.** What `pwaFit` returns, if it has converged, is evaluated again to the value that it has reported. -/
theorem pwaFit_point {inp : SetupInput} {N : ℕ} {desc : Name → Option ℤ} {s : LikObj} (hF : FitOf inp N desc s)
    (minimize : List Var → MinResult) (eig : ℕ → (ℕ → ℕ → ℝ) → ℕ → (ℕ → ℝ) × ℝ) (rnd : ℕ → ℝ) (o : Options)
    (bin : List (Name × ℝ × ℝ)) (file : Option StartFile) (a : FillArgs)
    (h : pwaFit minimize eig rnd (likOf s inp.waves.threshold) o bin file = .ok a) (hc : a.converged = true) :
    likelihoodPoint (filesOf inp) desc [FitResult.new.fillA a] = .ok (some (FitResult.new.fillA a).logLikelihood) := by
  obtain ⟨par, v, cov, c, hs, rfl, hv⟩ := pwaFit_is_fill minimize eig rnd _ o bin file a h
  have hc' : c = true := hc
  subst hc'
  exact (likelihood_point hF o bin par v cov hs hv).1

/-- **C90, NLopt fits.** -/
theorem pwaNloptFit_point {inp : SetupInput} {N : ℕ} {desc : Name → Option ℤ} {s : LikObj} (hF : FitOf inp N desc s)
    (optimize : List ℝ → Option NloptResult) (eig : ℕ → (ℕ → ℕ → ℝ) → ℕ → (ℕ → ℝ) × ℝ) (inv : ℕ → (ℕ → ℕ → ℝ) → (ℕ → ℕ → ℝ)) (rnd : ℕ → ℝ)
    (o : Options) (bin : List (Name × ℝ × ℝ)) (file : Option StartFile) (a : FillArgs)
    (h : pwaNloptFit optimize eig inv rnd (likOf s inp.waves.threshold) o bin file = .ok a) (hc : a.converged = true) :
    likelihoodPoint (filesOf inp) desc [FitResult.new.fillA a] = .ok (some (FitResult.new.fillA a).logLikelihood) := by
  obtain ⟨par, v, cov, c, hs, rfl, hv⟩ := pwaNloptFit_is_fill optimize eig inv rnd _ o bin file a h
  have hc' : c = true := hc
  subst hc'
  exact (likelihood_point hF o bin par v cov hs hv).1

/-- **C90, which files are accepted.** Only a file with exactly one result, which has converged. -/
theorem getFitResult_iff (entries : List FitResult) (r : FitResult) :
    getFitResultFromFile entries = some r ↔ entries = [r] ∧ r.converged = true := by
  unfold getFitResultFromFile
  match entries with
  | [] => simp
  | [x] =>
    dsimp only
    by_cases h : x.converged = true
    · rw [if_pos h]
      constructor
      · intro e; cases Option.some.inj e; exact ⟨rfl, h⟩
      · rintro ⟨e, _⟩; cases e; rfl
    · rw [if_neg h]
      constructor
      · intro e; cases e
      · rintro ⟨e, h'⟩; cases e; exact absurd h' h
  | x :: y :: l => simp

/-- **C90, finding.** A file that holds several attempts of a fit is refused, whatever they are. -/
theorem several_attempts_refused (f : Files) (desc : Name → Option ℤ) (entries : List FitResult) (h : 1 < entries.length) :
    likelihoodPoint f desc entries = .ok none := by
  have : getFitResultFromFile entries = none := by
    match entries with
    | [] => simp at h
    | [x] => simp at h
    | x :: y :: l => rfl
  unfold likelihoodPoint
  rw [this]

theorem step_useNorm (s t : LikObj) (b : Bool) (c : SetupCall) (h : s.step c = .ok (b, t)) (hc : ∀ x, c ≠ .useNormalizedAmps x) :
    t.useNorm = s.useNorm := by
  cases c with
  | useNormalizedAmps v => exact absurd rfl (hc v)
  | setPriorType v => cases h; rfl
  | setCauchyWidth v => cases h; rfl
  | init ws r m =>
    simp only [LikObj.step] at h
    unfold LikObj.init at h
    split at h
    · cases h
    split at h
    · cases h
    obtain ⟨od, _, h⟩ := Outcome.bind_eq_ok.1 h
    cases od <;> cases h <;> rfl
  | addNormIntegral m =>
    simp only [LikObj.step] at h
    unfold LikObj.addNormIntegral at h
    split at h
    · cases h; rfl
    obtain ⟨od, _, h⟩ := Outcome.bind_eq_ok.1 h
    cases h; rfl
  | addAccIntegral m n =>
    simp only [LikObj.step] at h
    obtain ⟨r, h2, h3⟩ := SetupInput.map_eq_ok h
    unfold LikObj.addAccIntegral at h2
    split at h2
    · cases h2; cases h3; rfl
    obtain ⟨od, _, h2⟩ := Outcome.bind_eq_ok.1 h2
    cases h2; cases h3; rfl
  | addAmplitude w a =>
    simp only [LikObj.step, Outcome.ok.injEq] at h
    have hkeep : (s.addAmplitude w a).2.useNorm = s.useNorm := by
      unfold LikObj.addAmplitude LikObj.setEvents
      split
      · rfl
      · split
        · rfl
        · dsimp only
          split_ifs <;> rfl
    rw [h] at hkeep
    exact hkeep
  | finishInit =>
    simp only [LikObj.step, Outcome.ok.injEq] at h
    have hkeep : s.finishInit.2.useNorm = s.useNorm := by
      unfold LikObj.finishInit
      split <;> rfl
    rw [h] at hkeep
    exact hkeep

theorem run_useNorm (s t : LikObj) (cs : List SetupCall) (h : runCalls s cs = .ok (some t)) (hc : ∀ c ∈ cs, ∀ x, c ≠ .useNormalizedAmps x) :
    t.useNorm = s.useNorm := by
  have h' := (runCalls_iff s t cs).1 h
  clear h
  induction h' with
  | nil => rfl
  | cons h1 _ ih =>
    rw [ih fun c hm => hc c (List.mem_cons_of_mem _ hm)]
    exact step_useNorm _ _ _ _ h1 (hc _ (by simp))

/-- **C90, finding.** A fit of a single event with amplitudes that are not normalised cannot be told from a fit with normalised amplitudes: its
result has `normNmbEvents() == 1`, so the likelihood that is set up again uses normalised amplitudes. -/
theorem single_event_normalised (l : Lik) (o : Options) (bin : List (Name × ℝ × ℝ)) (par : ℕ → ℝ) (v : ℝ) (cov : ℕ → ℕ → ℝ) (c h : Bool)
    (h1 : l.fn.useNormalizedAmps = false) (h2 : l.fn.nmbEvents = 1) (f : Files) (desc : Name → Option ℤ) (s : LikObj)
    (hs : rebuild f desc (FitResult.new.fillA (fillFitResult l o bin par v cov c h)) = .ok (some s)) : s.data.useNormalizedAmps = true := by
  set r := FitResult.new.fillA (fillFitResult l o bin par v cov c h) with hr
  have hn : r.normNmbEvents = 1 := by
    show (if l.fn.useNormalizedAmps then 1 else l.fn.nmbEvents) = 1
    rw [h1, h2]; rfl
  unfold rebuild at hs
  obtain ⟨ws, _, hs⟩ := Outcome.bind_eq_ok.1 hs
  split at hs
  · cases hs
  rw [hn] at hs
  unfold initLikelihood at hs
  rw [List.cons_append, List.cons_append] at hs
  unfold runCalls at hs
  obtain ⟨⟨b, t⟩, k1, k2⟩ := Outcome.bind_eq_ok.1 hs
  have k1' : (Outcome.ok (true, { LikObj.new with useNorm := true }) : Outcome (Bool × LikObj)) = .ok (b, t) := k1
  cases k1'
  have := run_useNorm _ _ _ k2 (by
    intro c hc x hx
    subst hx
    simp at hc)
  exact this

/-- **C90, finding.** Without a mass, or for a mass bin whose centre is not positive, waves that were fixed at their threshold are free in the
likelihood that is set up again. -/
theorem refit_without_mass {inp : SetupInput} {N : ℕ} {desc : Name → Option ℤ} {s : LikObj} (hF : FitOf inp N desc s) (o : Options)
    (bin : List (Name × ℝ × ℝ)) (par : ℕ → ℝ) (v : ℝ) (cov : ℕ → ℕ → ℝ) (c h : Bool) (hm : centre bin ≤ 0) :
    ∃ s', rebuild (filesOf inp) desc (storedFit inp s o bin par v cov c h) = .ok (some s') ∧
      ∀ (k : ℕ) (p : FitPar), s'.pars.params[k]? = some p → (∀ i, inp.IsWave i → p.waveName = inp.waveName i → ¬ inp.Empty i) → p.fixed = false := by
  obtain ⟨s', e1, ⟨order, hs'⟩, e2, _⟩ := rebuild_ok hF o bin par v cov c h
  obtain ⟨comp, c1, c2, c3, c4, c5, c6, c7, _, c8, c9, _⟩ := params_names hF (storedFit inp s o bin par v cov c h) order s' hs'
  refine ⟨s', e1, ?_⟩
  intro k q hq hne
  have hk := (List.getElem?_eq_some_iff.1 hq).1
  rw [c6, c3] at hk
  rcases Nat.lt_succ_iff_lt_or_eq.1 hk with hk | hk
  · obtain ⟨x, hx⟩ : ∃ x, comp[k]? = some x := ⟨_, List.getElem?_eq_getElem hk⟩
    obtain ⟨p, p', p1, p2, p3, p4, _, _, p6⟩ := c8 k x hx
    rw [hq] at p2; cases p2
    have hxf := (c2 x).1 (List.mem_of_getElem? hx)
    by_contra hc
    rw [Bool.not_eq_false] at hc
    rcases p6.1 hc with ⟨h1, h2⟩ | h'
    · rw [stored_centre] at h2
      unfold threshold at h1 h2
      rw [stored_centre] at h1 h2
      split_ifs at h1 h2
      · apply h1
        have : centre bin = 0 := by linarith only [hm, h2]
        rw [this]; ring
      · exact h1 rfl
    · exact hne x.1.2 ⟨hxf.2.1, hxf.2.2.1⟩ (p4.trans p3) h'
  · subst hk
    obtain ⟨p, p', p1, p2, p3, p4, _, _, p6⟩ := c9
    rw [hq] at p2; cases p2
    exact p6

/-! ### example -/

/-- wave descriptions of the example of C63: wave `a` has positive, wave `b` negative reflectivity. -/
def exDesc (n : Name) : Option ℤ := if n = "a".toList then some 1 else if n = "b".toList then some (-1) else none

theorem ex_fitOf : ∃ s, FitOf exSetup 1 exDesc s := by
  obtain ⟨s, hs⟩ := exSetup.setup_returns exSetup_diag 1 exSetup_usable ["b", "a"] (by
    intro w
    simp only [exSetup, List.mem_cons, List.not_mem_nil, or_false, List.map_cons, List.map_nil]
    exact or_comm)
  refine ⟨s, ⟨exSetup_diag, exSetup_usable, ⟨_, hs⟩, by show 0 < 1; norm_num, ?_, .inl rfl, ?_⟩⟩
  · obtain ⟨d, N, _, _, _, _, rfl⟩ := exSetup.protocol_spec exSetup_diag _ s hs
    intro r e w hr he hw
    have hr0 : r < 1 := hr
    have : r = 0 := by omega
    subst this
    have hw' : w < 1 := by
      rcases (by omega : e = 0 ∨ e = 1) with rfl | rfl
      · exact hw
      · exact hw
    have : w = 0 := by omega
    subst this
    have key : ∀ t : List Char, t = "V0_a".toList ∨ t = "V0_b".toList →
        ¬ "RE".toList <:+: t ∧ ¬ "_IM".toList <:+: t ∧ ¬ "flat".toList <:+: t := by
      rintro t (rfl | rfl) <;> decide +kernel
    apply key
    rcases (by omega : e = 0 ∨ e = 1) with rfl | rfl
    · right; rfl
    · left; rfl
  · intro w hw
    simp only [exSetup, List.mem_cons, List.not_mem_nil, or_false] at hw
    rcases hw with rfl | rfl
    · exact if_pos rfl
    · exact (if_neg (by decide)).trans (if_pos rfl)

/-- the hypotheses are met: for a fit of the example that ended with amplitude 2 for wave `a` the script prints the stored value; wave `b`, which is
empty, is fixed again. -/
theorem ex_point : ∃ s v, FitOf exSetup 1 exDesc s ∧ (let par : ℕ → ℝ := fun k => if k = 1 then 2 else 0
    v = s.data.doEval par ∧
    likelihoodPoint (filesOf exSetup) exDesc [storedFit exSetup s ⟨false, true⟩ [("mass".toList, 1, 2)] par v (fun _ _ => 0) true false] = .ok (some v)) ∧
    0 < centre [("mass".toList, 1, 2)] := by
  obtain ⟨s, hs⟩ := ex_fitOf
  refine ⟨s, _, hs, ⟨rfl, (likelihood_point hs _ _ _ _ _ _ rfl).1⟩, ?_⟩
  unfold centre
  have : (([("mass".toList, (1 : ℝ), (2 : ℝ))] : List (Name × ℝ × ℝ)).lookup "mass".toList) = some (1, 2) := by simp
  rw [this]
  norm_num

end Rpwa.Refit
