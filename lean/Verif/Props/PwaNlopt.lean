import Verif.Props.PwaFitEx
/-! # C62: the fit with NLopt -/
namespace Rpwa.PwaFit

open Rpwa.Lik Rpwa.Fit

/-! ### free parameters -/

/-- the number of free parameters before `k`. -/
def freeIdx (d : ParData) (k : ℕ) : ℕ := ((List.range k).filter fun j => !LikData.fixedAt d j).length

theorem freeIdx_succ (d : ParData) (k : ℕ) : freeIdx d (k + 1) = freeIdx d k + (if LikData.fixedAt d k then 0 else 1) := by
  unfold freeIdx
  rw [List.range_succ, List.filter_append, List.length_append]
  cases hf : LikData.fixedAt d k <;> simp [List.filter_cons, hf]

theorem freeIdx_mono (d : ParData) {a b : ℕ} (h : a ≤ b) : freeIdx d a ≤ freeIdx d b := by
  induction b, h using Nat.le_induction with
  | base => exact le_rfl
  | succ b _ ih => rw [freeIdx_succ]; omega

theorem freeAt_iff (d : ParData) (i k : ℕ) : FreeAt d i k ↔ k < d.nmbPars ∧ LikData.fixedAt d k = false ∧ freeIdx d k = i := by
  unfold FreeAt
  generalize d.nmbPars = n
  induction n with
  | zero => simp
  | succ n ih =>
    rw [List.range_succ, List.filter_append]
    have hlen : ((List.range n).filter fun j => !LikData.fixedAt d j).length = freeIdx d n := rfl
    by_cases hi : i < freeIdx d n
    · rw [List.getElem?_append_left (by rw [hlen]; exact hi), ih]
      constructor
      · rintro ⟨h1, h2, h3⟩; exact ⟨by omega, h2, h3⟩
      · rintro ⟨h1, h2, h3⟩
        refine ⟨?_, h2, h3⟩
        rcases Nat.lt_succ_iff_lt_or_eq.1 h1 with h | h
        · exact h
        · subst h; omega
    · rw [List.getElem?_append_right (by rw [hlen]; omega), hlen]
      have hnot : ∀ k < n, LikData.fixedAt d k = false → freeIdx d k ≠ i := by
        intro k hk hf h
        have h1 := freeIdx_mono d (show k + 1 ≤ n by omega)
        rw [freeIdx_succ, hf] at h1
        simp at h1
        omega
      cases hf : LikData.fixedAt d n
      · have : [n].filter (fun j => !LikData.fixedAt d j) = [n] := by simp [hf]
        rw [this]
        constructor
        · intro h
          have h0 : i - freeIdx d n = 0 := by
            by_contra hc
            rw [List.getElem?_eq_none (by simp; omega)] at h; cases h
          rw [h0] at h
          simp at h
          subst h
          exact ⟨by omega, hf, by omega⟩
        · rintro ⟨h1, h2, h3⟩
          rcases Nat.lt_succ_iff_lt_or_eq.1 h1 with h | h
          · exact absurd h3 (hnot k h h2)
          · subst h; rw [h3]; simp
      · have : [n].filter (fun j => !LikData.fixedAt d j) = [] := by simp [hf]
        rw [this]
        simp only [List.getElem?_nil, reduceCtorEq, false_iff]
        rintro ⟨h1, h2, h3⟩
        rcases Nat.lt_succ_iff_lt_or_eq.1 h1 with h | h
        · exact hnot k h h2 h3
        · subst h; rw [hf] at h2; cases h2

/-! ### `addFixedParams` and the copy of the gradient -/

theorem addFixed_eq (d : ParData) (p out : ℕ → ℝ) (k : ℕ) :
    addFixed d p out k = if k < d.nmbPars then (if LikData.fixedAt d k then 0 else p (freeIdx d k)) else out k := by
  unfold addFixed
  have key : ∀ n, (List.range n).foldl (addFixedStep d p) (0, out) =
      (freeIdx d n, fun k => if k < n then (if LikData.fixedAt d k then 0 else p (freeIdx d k)) else out k) := by
    intro n
    induction n with
    | zero => simp [freeIdx]
    | succ n ih =>
      rw [List.range_succ, List.foldl_append, ih]
      simp only [List.foldl_cons, List.foldl_nil, addFixedStep]
      rw [freeIdx_succ]
      cases hf : LikData.fixedAt d n
      · simp only [Bool.false_eq_true, if_false]
        refine Prod.ext rfl (funext fun k => ?_)
        simp only [Function.update_apply]
        by_cases hk : k = n
        · subst hk; simp [hf]
        · have : k < n + 1 ↔ k < n := by omega
          simp [hk, this]
      · simp only [if_true]
        refine Prod.ext rfl (funext fun k => ?_)
        simp only [Function.update_apply]
        by_cases hk : k = n
        · subst hk; simp [hf]
        · have : k < n + 1 ↔ k < n := by omega
          simp [hk, this]
  rw [key]

theorem copyGrad_eq (d : ParData) (g out : ℕ → ℝ) (k : ℕ) (hk : k < d.nmbPars) (hf : LikData.fixedAt d k = false) :
    ((List.range d.nmbPars).foldl (copyGradStep d g) (0, out)).2 (freeIdx d k) = g k := by
  have key : ∀ n, ((List.range n).foldl (copyGradStep d g) (0, out)).1 = freeIdx d n ∧
      ∀ k < n, LikData.fixedAt d k = false → ((List.range n).foldl (copyGradStep d g) (0, out)).2 (freeIdx d k) = g k := by
    intro n
    induction n with
    | zero => simp [freeIdx]
    | succ n ih =>
      obtain ⟨i1, i2⟩ := ih
      rw [List.range_succ, List.foldl_append]
      simp only [List.foldl_cons, List.foldl_nil]
      unfold copyGradStep at *
      cases hn : LikData.fixedAt d n
      · simp only [Bool.false_eq_true, if_false]
        rw [freeIdx_succ, hn, i1]
        refine ⟨rfl, ?_⟩
        intro k hk hfk
        by_cases hkn : k = n
        · subst hkn; simp
        · have h1 := freeIdx_mono d (show k + 1 ≤ n by omega)
          rw [freeIdx_succ, hfk] at h1
          simp at h1
          rw [Function.update_of_ne (by omega)]
          exact i2 k (by omega) hfk
      · simp only [if_true]
        rw [freeIdx_succ, hn, i1]
        refine ⟨rfl, ?_⟩
        intro k hk hfk
        have hkn : k ≠ n := by rintro rfl; rw [hn] at hfk; cases hfk
        exact i2 k (by omega) hfk
  exact (key d.nmbPars).2 k hk hf

theorem addFixed_expands (d : ParData) (p out : ℕ → ℝ) : Expands d p (addFixed d p out) := by
  constructor
  · intro i k h
    obtain ⟨h1, h2, h3⟩ := (freeAt_iff d i k).1 h
    rw [addFixed_eq, if_pos h1, h2, ← h3]
    simp
  · intro k hk hf
    rw [addFixed_eq, if_pos hk, if_pos hf]

theorem expands_unique (d : ParData) (p par par' : ℕ → ℝ) (h : Expands d p par) (h' : Expands d p par') : ∀ k < d.nmbPars, par k = par' k := by
  intro k hk
  cases hf : LikData.fixedAt d k
  · have hfr := (freeAt_iff d (freeIdx d k) k).2 ⟨hk, hf, rfl⟩
    rw [h.1 _ _ hfr, h'.1 _ _ hfr]
  · rw [h.2 k hk hf, h'.2 k hk hf]

theorem doEval_congr (L : LikData) {d : ParData} {comp : List Comp} (hl : Layout L d comp) (par par' : ℕ → ℝ) (h : ∀ k < d.nmbPars, par k = par' k) :
    L.doEval par = L.doEval par' := by
  unfold LikData.doEval
  rw [copyFrom_congr hl par par' h]

theorem gradient_congr' (L : LikData) {d : ParData} {comp : List Comp} (hl : Layout L d comp) (par par' out out' : ℕ → ℝ)
    (h : ∀ k < d.nmbPars, par k = par' k) (k : ℕ) (hk : k < d.nmbPars) : L.gradient d par out k = L.gradient d par' out' k := by
  unfold LikData.gradient
  rw [copyFrom_congr hl par par' h]
  rw [hl.nmb] at hk
  by_cases hkf : k = comp.length
  · subst hkf; rw [hl.toFlat, hl.toFlat]
  · have hk2 : comp[k]? = some comp[k] := List.getElem?_eq_getElem (by omega)
    rw [hl.toPar _ _ _ k _ hk2, hl.toPar _ _ _ k _ hk2]

theorem noFixed (d : ParData) (hfix : 0 = (d.params.filter (·.fixed)).length) (k : ℕ) :
    LikData.fixedAt d k = false := by
  unfold LikData.fixedAt
  cases hk : d.params[k]? with
  | none => rfl
  | some q =>
    have hq : q ∈ d.params := List.mem_of_getElem? hk
    cases hf : q.fixed
    · simp [hf]
    · have : q ∈ d.params.filter (·.fixed) := List.mem_filter.2 ⟨hq, hf⟩
      rw [List.length_eq_zero_iff.1 hfix.symm] at this
      simp at this

theorem freeIdx_noFixed (d : ParData) (h : ∀ k, LikData.fixedAt d k = false) (k : ℕ) : freeIdx d k = k := by
  induction k with
  | zero => rfl
  | succ k ih => rw [freeIdx_succ, ih, h]; simp

/-- **C62, objective function.** For NLopt the likelihood is a function of the free parameters only: the value is that of the likelihood with
all fixed parameters at zero, and the gradient consists of the derivatives with respect to the free parameters, in their order. -/
theorem nloptFunc_value (L : LikData) (wl : WaveList) (d : ParData) (m : ℝ) (hm : L.Matches wl d m) (junk : ℕ → ℝ) (b : Buffers) (hb : b.Fit d)
    (hfix : d.nmbParsFixed = (d.params.filter (·.fixed)).length) (p : ℕ → ℝ) (gradient : Option (ℕ → ℝ)) (par out : ℕ → ℝ) (hpar : Expands d p par) :
    ∃ b' g', nloptFunc L d junk b (d.nmbPars - d.nmbParsFixed) p gradient = .ok (b', L.doEval par, g') ∧ b'.Fit d ∧
      (gradient = none → g' = none) ∧
      ∀ g, gradient = some g → ∃ h, g' = some h ∧ ∀ i k, FreeAt d i k → h i = L.gradient d par out k := by
  obtain ⟨comp, hl⟩ := layout_of_matches L hm
  have hsize : ∀ (x : Option Buffer), (∀ y, x = some y → d.nmbPars ≤ y.size) → d.nmbPars ≤ (Buffer.alloc x d.nmbPars junk).size := by
    intro x hx
    unfold Buffer.alloc
    cases x with
    | none => exact le_rfl
    | some y => exact hx y rfl
  unfold nloptFunc
  rw [if_neg (by simp)]
  by_cases h0 : d.nmbParsFixed = 0
  · have hno := noFixed d (by rw [← hfix, h0])
    have hpp : ∀ k < d.nmbPars, par k = p k := by
      intro k hk
      exact hpar.1 k k ((freeAt_iff d k k).2 ⟨hk, hno k, freeIdx_noFixed d hno k⟩)
    rw [if_neg (by simpa using h0)]
    simp only [Outcome.ok_bind]
    cases gradient with
    | none =>
      refine ⟨b, none, ?_, hb, fun _ => rfl, fun g h => by cases h⟩
      rw [doEval_congr L hl par p hpp]
    | some g =>
      simp only [if_pos h0, fdf_eq]
      refine ⟨{ b with grad := some (Buffer.alloc b.grad d.nmbPars junk) }, some (L.gradient d p g), ?_, ?_, fun h => (by cases h), ?_⟩
      · rw [doEval_congr L hl par p hpp]
      · refine ⟨hb.1, ?_⟩
        intro x hx
        cases hx
        exact hsize _ hb.2
      · intro g' hg
        refine ⟨_, rfl, ?_⟩
        intro i k hik
        obtain ⟨h1, h2, h3⟩ := (freeAt_iff d i k).1 hik
        rw [freeIdx_noFixed d hno] at h3
        subst h3
        exact (gradient_congr' L hl par p out g hpp k h1).symm
  · rw [if_pos h0]
    simp only
    rw [if_neg (not_lt.2 (hsize _ hb.1))]
    simp only [Outcome.ok_bind]
    have hpp : ∀ k < d.nmbPars, par k = addFixed d p (Buffer.alloc b.pars d.nmbPars junk).val k :=
      expands_unique d p _ _ hpar (addFixed_expands d p _)
    have hpars : ∀ x, some (⟨(Buffer.alloc b.pars d.nmbPars junk).size, addFixed d p (Buffer.alloc b.pars d.nmbPars junk).val⟩ : Buffer) = some x →
        d.nmbPars ≤ x.size := by
      intro x hx
      cases hx
      exact hsize _ hb.1
    cases gradient with
    | none =>
      refine ⟨⟨some ⟨(Buffer.alloc b.pars d.nmbPars junk).size, addFixed d p (Buffer.alloc b.pars d.nmbPars junk).val⟩, b.grad⟩,
        none, ?_, ⟨hpars, hb.2⟩, fun _ => rfl, fun g h => by cases h⟩
      rw [doEval_congr L hl par _ hpp]
    | some g =>
      simp only
      rw [if_neg h0, if_neg (not_lt.2 (hsize _ hb.2))]
      simp only [fdf_eq]
      refine ⟨⟨some ⟨(Buffer.alloc b.pars d.nmbPars junk).size, addFixed d p (Buffer.alloc b.pars d.nmbPars junk).val⟩,
          some ⟨(Buffer.alloc b.grad d.nmbPars junk).size, L.gradient d (addFixed d p (Buffer.alloc b.pars d.nmbPars junk).val)
            (Buffer.alloc b.grad d.nmbPars junk).val⟩⟩,
        some ((List.range d.nmbPars).foldl (copyGradStep d (L.gradient d (addFixed d p (Buffer.alloc b.pars d.nmbPars junk).val)
            (Buffer.alloc b.grad d.nmbPars junk).val)) (0, g)).2, ?_, ?_, fun h => (by cases h), ?_⟩
      · rw [doEval_congr L hl par _ hpp]
      · refine ⟨hpars, ?_⟩
        intro x hx
        cases hx
        exact hsize _ hb.2
      · intro g' hg
        refine ⟨_, rfl, ?_⟩
        intro i k hik
        obtain ⟨h1, h2, h3⟩ := (freeAt_iff d i k).1 hik
        subst h3
        rw [copyGrad_eq d _ g k h1 h2]
        exact (gradient_congr' L hl par _ out _ hpp k h1).symm

/-- **C62, gradient.** The gradient that NLopt gets is the derivative of the value that NLopt gets. -/
theorem nloptFunc_gradient (L : LikData) (wl : WaveList) (d : ParData) (m : ℝ) (hm : L.Matches wl d m) (hI : L.AccHermitian) (junk : ℕ → ℝ)
    (b : Buffers) (hb : b.Fit d) (hfix : d.nmbParsFixed = (d.params.filter (·.fixed)).length) (p g par : ℕ → ℝ) (hpar : Expands d p par)
    (hdef : L.DefinedAt par) (i k : ℕ) (hik : FreeAt d i k) (hprior : L.PriorDefinedAt d par k) (val : ℝ → ℝ)
    (hval : ∀ x, ∃ b', nloptFunc L d junk b (d.nmbPars - d.nmbParsFixed) (Function.update p i x) none = .ok (b', val x, none)) :
    ∃ b' v h, nloptFunc L d junk b (d.nmbPars - d.nmbParsFixed) p (some g) = .ok (b', v, some h) ∧ v = val (p i) ∧ HasDerivAt val (h i) (p i) := by
  obtain ⟨b', g', h1, _, _, h3⟩ := nloptFunc_value L wl d m hm junk b hb hfix p (some g) par (fun _ => 0) hpar
  obtain ⟨h, rfl, h4⟩ := h3 g rfl
  obtain ⟨k1, k2, k3⟩ := (freeAt_iff d i k).1 hik
  have hv : ∀ x, val x = L.doEval (Function.update par k x) := by
    intro x
    have hexp : Expands d (Function.update p i x) (Function.update par k x) := by
      constructor
      · intro i' k' hik'
        obtain ⟨m1, m2, m3⟩ := (freeAt_iff d i' k').1 hik'
        by_cases hk : k' = k
        · subst hk
          have : i' = i := by omega
          subst this
          simp
        · have hi : i' ≠ i := by
            intro hi
            subst hi
            unfold FreeAt at hik hik'
            rw [hik] at hik'
            exact hk (Option.some.inj hik').symm
          rw [Function.update_of_ne hk, Function.update_of_ne hi]
          exact hpar.1 i' k' hik'
      · intro k' hk' hf
        have : k' ≠ k := by rintro rfl; rw [k2] at hf; cases hf
        rw [Function.update_of_ne this]
        exact hpar.2 k' hk' hf
    obtain ⟨b1, g1, e1, _, _, _⟩ := nloptFunc_value L wl d m hm junk b hb hfix (Function.update p i x) none _ (fun _ => 0) hexp
    obtain ⟨b2, e2⟩ := hval x
    rw [e1] at e2
    have e3 := congrArg (fun z => z.2.1) (Outcome.ok.inj e2)
    exact e3.symm
  have hpk : par k = p i := hpar.1 i k hik
  refine ⟨b', _, h, h1, ?_, ?_⟩
  · rw [hv, ← hpk, Function.update_eq_self]
  · rw [h4 i k hik, ← hpk]
    have := gradient_is_derivative L wl d m hm hI par (fun _ => 0) hdef k k1 hprior
    exact this.congr_of_eventuallyEq (Filter.Eventually.of_forall hv)

/-- Finding: the buffers have static storage and keep the size of the first likelihood that is fitted in the process.  A later fit with
fixed parameters and more parameters (another bin, another wave set) writes behind the end of the buffer. -/
theorem nlopt_buffer_overflow (L L' : LikData) (d d' : ParData) (junk : ℕ → ℝ) (p p' : ℕ → ℝ) (g g' : Option (ℕ → ℝ))
    (h0 : d.nmbParsFixed ≠ 0) (h0' : d'.nmbParsFixed ≠ 0) (hlt : d.nmbPars < d'.nmbPars) (b : Buffers) (v : ℝ) (r : Option (ℕ → ℝ))
    (hfirst : nloptFunc L d junk ⟨none, none⟩ (d.nmbPars - d.nmbParsFixed) p g = .ok (b, v, r)) :
    nloptFunc L' d' junk b (d'.nmbPars - d'.nmbParsFixed) p' g' = .ub := by
  have hb : ∃ x, b.pars = some ⟨d.nmbPars, x⟩ := by
    unfold nloptFunc at hfirst
    rw [if_neg (by simp), if_pos h0] at hfirst
    simp only [Buffer.alloc, Option.getD_none, lt_self_iff_false, if_false, Outcome.ok_bind] at hfirst
    cases g with
    | none => cases hfirst; exact ⟨_, rfl⟩
    | some g =>
      simp only [if_neg h0] at hfirst
      cases hfirst
      exact ⟨_, rfl⟩
  obtain ⟨x, hb⟩ := hb
  unfold nloptFunc
  rw [if_neg (by simp), if_pos h0']
  simp only [hb, Buffer.alloc, Option.getD_some]
  rw [if_pos hlt]
  rfl


/-! ### the fit -/

theorem nloptStart_length (rnd : ℕ → ℝ) (n : ℕ) (params : List FitPar) :
    (nloptStart rnd n params).length + (params.filter (·.fixed)).length = params.length := by
  unfold nloptStart
  induction params using List.reverseRecOn with
  | nil => rfl
  | append_singleton ps q ih =>
    rw [List.foldl_append]
    simp only [List.foldl_cons, List.foldl_nil, nloptStartStep, List.filter_append, List.length_append, List.filter_cons, List.filter_nil, List.length_singleton]
    cases q.fixed <;> simp <;> omega

/-- **C62, start values** of NLopt: one random value for every free parameter. -/
theorem nloptStart_spec (rnd : ℕ → ℝ) (hr : ∀ k, 0 ≤ rnd k ∧ rnd k < 1) (n : ℕ) (hn : 0 < n) (params : List FitPar) :
    ∀ v ∈ nloptStart rnd n params, 0.01 ≤ |v| ∧ |v| ≤ Real.sqrt n := by
  unfold nloptStart
  induction params using List.reverseRecOn with
  | nil => simp
  | append_singleton ps q ih =>
    rw [List.foldl_append]
    simp only [List.foldl_cons, List.foldl_nil, nloptStartStep]
    intro v hv
    split_ifs at hv
    · exact ih v hv
    · rcases List.mem_append.1 hv with h | h
      · exact ih v h
      · rw [List.mem_singleton.1 h]
        exact randomStart_bounds rnd hr n hn _

/-- Finding: when the amplitudes of a wave are zero, its parameters are fixed without counting them; the optimizer then has too many
dimensions and every fit ends with an exception. -/
theorem nlopt_empty_wave (l : Lik) (m : ℝ) (hm : l.fn.Matches l.waves l.pars m)
    (hfix : l.pars.nmbParsFixed < (l.pars.params.filter (·.fixed)).length)
    (optimize : List ℝ → Option NloptResult) (eig : ℕ → (ℕ → ℕ → ℝ) → ℕ → (ℕ → ℝ) × ℝ) (inv : ℕ → (ℕ → ℕ → ℝ) → (ℕ → ℕ → ℝ)) (rnd : ℕ → ℝ)
    (o : Options) (bin : List (Name × ℝ × ℝ)) (file : Option StartFile) : pwaNloptFit optimize eig inv rnd l o bin file = .terminate := by
  obtain ⟨comp, hl⟩ := layout_of_matches l.fn hm
  have h := nloptStart_length rnd l.fn.nmbEvents l.pars.params
  rw [hl.len] at h
  unfold pwaNloptFit
  by_cases h1 : file.isSome = true
  · rw [if_pos h1]
  rw [if_neg h1]
  by_cases h2 : (nloptStart rnd l.fn.nmbEvents l.pars.params).length ≠ l.pars.nmbPars - l.pars.nmbParsFixed
  · rw [if_pos h2]
  · rw [not_not] at h2
    have : (l.pars.params.filter (·.fixed)).length ≤ l.pars.params.length := List.length_filter_le _ _
    rw [hl.len] at this
    omega

/-- a start file is refused. -/
theorem nlopt_no_start (optimize : List ℝ → Option NloptResult) (eig : ℕ → (ℕ → ℕ → ℝ) → ℕ → (ℕ → ℝ) × ℝ) (inv : ℕ → (ℕ → ℕ → ℝ) → (ℕ → ℕ → ℝ))
    (rnd : ℕ → ℝ) (l : Lik) (o : Options) (bin : List (Name × ℝ × ℝ)) (f : StartFile) :
    pwaNloptFit optimize eig inv rnd l o bin (some f) = .terminate := rfl

theorem fixWaves_fixed (empty : List String) (d : ParData) (h : d.nmbParsFixed ≤ (d.params.filter (·.fixed)).length) :
    (empty.foldl fixWave d).nmbParsFixed ≤ ((empty.foldl fixWave d).params.filter (·.fixed)).length := by
  induction empty generalizing d with
  | nil => exact h
  | cons a l ih =>
    apply ih
    have hcount : ∀ l : List FitPar, (l.filter (·.fixed)).length ≤
        ((l.map fun p => if p.waveName ≠ a then p else { p with fixed := true }).filter (·.fixed)).length := by
      intro l
      induction l with
      | nil => simp
      | cons q l ih =>
        simp only [List.map_cons, List.filter_cons]
        by_cases hq : q.waveName = a
        · cases hqf : q.fixed <;> simp_all <;> omega
        · cases hqf : q.fixed <;> simp_all
    exact le_trans h (hcount d.params)

/-- the counter of fixed parameters is never too large. -/
theorem fixed_le (l : Lik) (m : ℝ) (hm : l.fn.Matches l.waves l.pars m) : l.pars.nmbParsFixed ≤ (l.pars.params.filter (·.fixed)).length := by
  obtain ⟨d0, empty, hb, hflat, hd⟩ := hm.built
  rw [hd]
  apply fixWaves_fixed
  have h : l.waves.nW 0 + l.waves.nW 1 ≠ 0 := by
    obtain ⟨r, h1, h2⟩ := buildParDataStruct_returns l.waves l.fn.rank m
    rw [hb] at h1; cases h1
    intro h0; simpa using h2.2 h0
  obtain ⟨comp, _, _, d', hd', _, c4, _, _, c7, _⟩ := parameters_enumerate_components l.waves l.fn.rank m h
  rw [hb] at hd'; cases hd'
  exact le_of_eq c7

theorem pwaNloptFit_ok (optimize : List ℝ → Option NloptResult) (eig : ℕ → (ℕ → ℕ → ℝ) → ℕ → (ℕ → ℝ) × ℝ) (inv : ℕ → (ℕ → ℕ → ℝ) → (ℕ → ℕ → ℝ))
    (rnd : ℕ → ℝ) (l : Lik) (o : Options) (bin : List (Name × ℝ × ℝ)) (file : Option StartFile) (a : FillArgs)
    (h : pwaNloptFit optimize eig inv rnd l o bin file = .ok a) :
    ∃ r par, optimize (nloptStart rnd l.fn.nmbEvents l.pars.params) = some r ∧
      correctParamSigns l.fn.rank l.fn.nW l.pars (addFixed l.pars r.x fun _ => 0) = .ok par ∧ r.minValue = l.fn.doEval par ∧
      ∃ bad cov, (if o.checkHessian = true ∨ o.saveSpace = false then badEigenvalue eig l par = .ok bad else bad = false) ∧
        (o.saveSpace = false → covarianceMatrix inv l.pars (l.fn.hessian l.pars par) = .ok cov) ∧
        a = fillFitResult l o bin par r.minValue cov (!bad) (!bad && !o.saveSpace) := by
  unfold pwaNloptFit at h
  by_cases h1 : file.isSome = true
  · rw [if_pos h1] at h; cases h
  rw [if_neg h1] at h
  by_cases h2 : (nloptStart rnd l.fn.nmbEvents l.pars.params).length ≠ l.pars.nmbPars - l.pars.nmbParsFixed
  · rw [if_pos h2] at h; cases h
  rw [if_neg h2] at h
  split at h
  · cases h
  · rename_i r hr
    obtain ⟨par, hp, h⟩ := Outcome.bind_eq_ok.1 h
    have hpos : decide (0 < r.code.value) = true := by cases r.code <;> rfl
    rw [hpos] at h
    by_cases h3 : r.minValue ≠ l.fn.doEval par
    · rw [if_pos h3] at h; cases h
    rw [if_neg h3] at h
    by_cases h4 : (o.checkHessian || !o.saveSpace) = true
    · rw [if_pos h4] at h
      rw [not_not] at h3
      obtain ⟨bad, hb, h⟩ := Outcome.bind_eq_ok.1 h
      have hc : o.checkHessian = true ∨ o.saveSpace = false := by
        cases hx : o.checkHessian <;> cases hy : o.saveSpace <;> simp_all
      by_cases h5 : o.saveSpace = true
      · rw [if_pos h5] at h
        cases h
        refine ⟨r, par, hr, hp, h3, bad, fun _ _ => 0, by rw [if_pos hc]; exact hb, fun h => (by rw [h5] at h; cases h), ?_⟩
        rw [h5]; simp
      · rw [if_neg h5] at h
        obtain ⟨cov, hcov, h⟩ := Outcome.bind_eq_ok.1 h
        cases h
        refine ⟨r, par, hr, hp, h3, bad, cov, by rw [if_pos hc]; exact hb, fun _ => hcov, ?_⟩
        rw [Bool.not_eq_true] at h5
        rw [h5]; simp
    · rw [if_neg h4] at h
      rw [not_not] at h3
      cases h
      have hc : ¬ (o.checkHessian = true ∨ o.saveSpace = false) := by
        cases hx : o.checkHessian <;> cases hy : o.saveSpace <;> simp_all
      have hs : o.saveSpace = true := by
        cases hy : o.saveSpace
        · exact absurd (Or.inr hy) hc
        · rfl
      refine ⟨r, par, hr, hp, h3, false, fun _ _ => 0, by rw [if_neg hc], fun h => (by rw [hs] at h; cases h), ?_⟩
      rw [hs]; rfl

/-- **C62, what is stored.** As for Minuit (C60): everything that is stored belongs to one set of parameters that obeys the sign convention
and is zero for switched-off waves. -/
theorem pwaNloptFit_result (l : Lik) (m : ℝ) (hm : l.fn.Matches l.waves l.pars m) (optimize : List ℝ → Option NloptResult)
    (eig : ℕ → (ℕ → ℕ → ℝ) → ℕ → (ℕ → ℝ) × ℝ) (inv : ℕ → (ℕ → ℕ → ℝ) → (ℕ → ℕ → ℝ)) (rnd : ℕ → ℝ) (o : Options) (bin : List (Name × ℝ × ℝ))
    (file : Option StartFile) (a : FillArgs) (h : pwaNloptFit optimize eig inv rnd l o bin file = .ok a) :
    ∃ r full par slots, optimize (nloptStart rnd l.fn.nmbEvents l.pars.params) = some r ∧ Expands l.pars r.x full ∧
      Stored l par slots a ∧ Convention l par ∧ a.multibin = bin ∧ a.logLikelihood = l.fn.doEval par ∧
      (∀ i < l.pars.nmbPars, LikData.fixedAt l.pars i = true → par i = 0) ∧ (∀ i < l.pars.nmbPars, |par i| = |full i|) ∧
      ∀ r e i j, i < l.fn.nW e → j < l.fn.nW e →
        l.fn.amps par (r, e, i) * (starRingEnd ℂ) (l.fn.amps par (r, e, j)) =
          l.fn.amps full (r, e, i) * (starRingEnd ℂ) (l.fn.amps full (r, e, j)) := by
  obtain ⟨r, par, h1, h2, h3, bad, cov, h4, h5, ha⟩ := pwaNloptFit_ok optimize eig inv rnd l o bin file a h
  obtain ⟨slots, hs⟩ := stored_of_fill l m hm o bin par r.minValue cov (!bad) (!bad && !o.saveSpace)
  rw [← ha] at hs
  obtain ⟨comp, hl⟩ := layout_of_matches l.fn hm
  obtain ⟨eps, eta, g1, g2, g3, g4, g5⟩ := correct_signs l.fn hl _ _ h2
  have hsq : ∀ i, parSign comp eps eta i * parSign comp eps eta i = 1 := by
    intro i; unfold parSign; split
    · exact g1 _ _
    · exact g2
  have hexp := addFixed_expands l.pars r.x fun _ => 0
  refine ⟨r, _, par, slots, h1, hexp, hs, correctParamSigns_convention l.fn l.waves l.pars m hm _ _ h2, ?_, ?_, ?_, ?_, ?_⟩
  · rw [ha]; rfl
  · rw [ha]; exact h3
  · intro i hi hf
    rw [g5 i hi, hexp.2 i hi hf, mul_zero]
  · intro i hi
    rw [g5 i hi, abs_mul]
    have : |parSign comp eps eta i| = 1 := by
      have h5 := abs_mul_abs_self (parSign comp eps eta i)
      rw [hsq] at h5
      nlinarith only [abs_nonneg (parSign comp eps eta i), h5]
    rw [this, one_mul]
  · intro r e i j hi hj
    exact correctParamSigns_keeps_phases l.fn l.waves l.pars m hm _ _ h2 r e i j hi hj

/-- **C62, a fit returns.** -/
theorem pwaNloptFit_returns (l : Lik) (m : ℝ) (hm : l.fn.Matches l.waves l.pars m) (optimize : List ℝ → Option NloptResult)
    (hopt : NloptOk l optimize) (eig : ℕ → (ℕ → ℕ → ℝ) → ℕ → (ℕ → ℝ) × ℝ) (inv : ℕ → (ℕ → ℕ → ℝ) → (ℕ → ℕ → ℝ)) (rnd : ℕ → ℝ) (o : Options)
    (bin : List (Name × ℝ × ℝ)) (hrank : l.fn.rank ≤ max (l.fn.nW 0) (l.fn.nW 1))
    (hfix : l.pars.nmbParsFixed = (l.pars.params.filter (·.fixed)).length)
    (hret : (optimize (nloptStart rnd l.fn.nmbEvents l.pars.params)).isSome = true) :
    ∃ a, pwaNloptFit optimize eig inv rnd l o bin none = .ok a := by
  obtain ⟨r, hr⟩ := Option.isSome_iff_exists.1 hret
  obtain ⟨comp, hl⟩ := layout_of_matches l.fn hm
  obtain ⟨par, h2⟩ := correctParamSigns_returns l.fn l.pars (addFixed l.pars r.x fun _ => 0) hrank
  have h3 : r.minValue = l.fn.doEval par := by
    rw [hopt _ r _ hr (addFixed_expands l.pars r.x fun _ => 0), correctParamSigns_same_likelihood l.fn l.waves l.pars m hm _ _ h2]
  obtain ⟨M, hM, _⟩ := reduceMatrix_eq l.pars hl.len (le_of_eq hfix) (l.fn.hessian l.pars par)
  have h4 : ∃ bad, badEigenvalue eig l par = .ok bad := by
    unfold badEigenvalue hessianEigenVectors
    rw [hM]
    exact ⟨_, rfl⟩
  have h5 : ∃ cov, covarianceMatrix inv l.pars (l.fn.hessian l.pars par) = .ok cov := by
    unfold covarianceMatrix
    rw [hM]
    exact ⟨_, rfl⟩
  obtain ⟨bad, h4⟩ := h4
  obtain ⟨cov, h5⟩ := h5
  have hlen := nloptStart_length rnd l.fn.nmbEvents l.pars.params
  rw [hl.len] at hlen
  unfold pwaNloptFit
  rw [if_neg (by simp), if_neg (by omega), hr]
  simp only [h2, Outcome.ok_bind]
  rw [if_neg (not_not.2 h3), h4, h5]
  simp only [Outcome.ok_bind]
  split_ifs <;> exact ⟨_, rfl⟩

/-- **C62, converged.** A result is marked as converged exactly if no eigenvalue of the Hessian at the stored parameters is zero or negative; if
the Hessian is neither to be checked nor to be stored, every result is.  The reason why the optimizer stopped does not matter: running
out of evaluations counts as convergence. -/
theorem pwaNloptFit_converged (optimize : List ℝ → Option NloptResult) (eig : ℕ → (ℕ → ℕ → ℝ) → ℕ → (ℕ → ℝ) × ℝ)
    (inv : ℕ → (ℕ → ℕ → ℝ) → (ℕ → ℕ → ℝ)) (rnd : ℕ → ℝ) (l : Lik) (o : Options) (bin : List (Name × ℝ × ℝ)) (file : Option StartFile) (a : FillArgs)
    (h : pwaNloptFit optimize eig inv rnd l o bin file = .ok a) :
    ∃ r par, optimize (nloptStart rnd l.fn.nmbEvents l.pars.params) = some r ∧
      correctParamSigns l.fn.rank l.fn.nW l.pars (addFixed l.pars r.x fun _ => 0) = .ok par ∧
      (a.converged = true ↔ (o.checkHessian = true ∨ o.saveSpace = false →
        ∃ E, hessianEigenVectors eig l.pars (l.fn.hessian l.pars par) = .ok E ∧ ∀ e ∈ E, 0 < e.2)) := by
  obtain ⟨r, par, h1, h2, h3, bad, cov, h4, h5, ha⟩ := pwaNloptFit_ok optimize eig inv rnd l o bin file a h
  refine ⟨r, par, h1, h2, ?_⟩
  rw [ha]
  show (!bad) = true ↔ _
  split_ifs at h4 with hc
  · unfold badEigenvalue at h4
    obtain ⟨E, hE, h6⟩ := Outcome.bind_eq_ok.1 h4
    cases h6
    rw [Bool.not_eq_true', List.any_eq_false]
    constructor
    · intro h6 _
      exact ⟨E, hE, fun e he => by simpa using h6 e he⟩
    · intro h6 e he
      obtain ⟨E', hE', h7⟩ := h6 hc
      rw [hE] at hE'; cases hE'
      simpa using h7 e he
  · subst h4
    simp [hc]

/-- the reason why NLopt stopped leaves no trace in the result. -/
theorem nlopt_stop_reason_ignored (optimize : List ℝ → Option NloptResult) (eig : ℕ → (ℕ → ℕ → ℝ) → ℕ → (ℕ → ℝ) × ℝ)
    (inv : ℕ → (ℕ → ℕ → ℝ) → (ℕ → ℕ → ℝ)) (rnd : ℕ → ℝ) (l : Lik) (o : Options) (bin : List (Name × ℝ × ℝ)) (file : Option StartFile)
    (code : NloptCode) :
    pwaNloptFit (fun s => (optimize s).map fun r => { r with code := code }) eig inv rnd l o bin file = pwaNloptFit optimize eig inv rnd l o bin file := by
  have hpos : ∀ c : NloptCode, decide (0 < c.value) = true := by intro c; cases c <;> rfl
  unfold pwaNloptFit
  cases h : optimize (nloptStart rnd l.fn.nmbEvents l.pars.params) with
  | none => simp only [h, Option.map_none]
  | some r => simp only [h, Option.map_some, hpos]

/-- **C62, covariance matrix.** Unlike Minuit's (C60), it is the inverse of the Hessian at the parameters that are stored, whenever there is one,
and zero for fixed parameters. -/
theorem pwaNloptFit_covariance (l : Lik) (m : ℝ) (hm : l.fn.Matches l.waves l.pars m) (optimize : List ℝ → Option NloptResult)
    (eig : ℕ → (ℕ → ℕ → ℝ) → ℕ → (ℕ → ℝ) × ℝ) (inv : ℕ → (ℕ → ℕ → ℝ) → (ℕ → ℕ → ℝ)) (hinv : Inverts inv) (rnd : ℕ → ℝ) (o : Options)
    (bin : List (Name × ℝ × ℝ)) (file : Option StartFile) (a : FillArgs) (h : pwaNloptFit optimize eig inv rnd l o bin file = .ok a)
    (hs : o.saveSpace = false) :
    ∃ par slots c, Stored l par slots a ∧ a.logLikelihood = l.fn.doEval par ∧ a.cov = some c ∧ c.nRows = l.pars.nmbPars ∧ c.nCols = l.pars.nmbPars ∧
      ((∃ B, InverseOnFree l.pars (l.fn.hessian l.pars par) B) → InverseOnFree l.pars (l.fn.hessian l.pars par) c.entry ∧
        ∀ i j, i < l.pars.nmbPars → j < l.pars.nmbPars → LikData.fixedAt l.pars i = true ∨ LikData.fixedAt l.pars j = true → c.entry i j = 0) := by
  obtain ⟨comp, hl⟩ := layout_of_matches l.fn hm
  have hfix : l.pars.nmbParsFixed = (l.pars.params.filter (·.fixed)).length := by
    have hlen := nloptStart_length rnd l.fn.nmbEvents l.pars.params
    rw [hl.len] at hlen
    have hle := fixed_le l m hm
    have h0 := h
    unfold pwaNloptFit at h0
    by_cases k1 : file.isSome = true
    · rw [if_pos k1] at h0; cases h0
    rw [if_neg k1] at h0
    by_cases k2 : (nloptStart rnd l.fn.nmbEvents l.pars.params).length ≠ l.pars.nmbPars - l.pars.nmbParsFixed
    · rw [if_pos k2] at h0; cases h0
    have hle2 : (l.pars.params.filter (·.fixed)).length ≤ l.pars.params.length := List.length_filter_le _ _
    rw [hl.len] at hle2
    omega
  obtain ⟨r, par, h1, h2, h3, bad, cov, h4, h5, ha⟩ := pwaNloptFit_ok optimize eig inv rnd l o bin file a h
  obtain ⟨slots, hst⟩ := stored_of_fill l m hm o bin par r.minValue cov (!bad) (!bad && !o.saveSpace)
  rw [← ha] at hst
  refine ⟨par, slots, ⟨l.pars.nmbPars, l.pars.nmbPars, cov⟩, hst, by rw [ha]; exact h3, ?_, rfl, rfl, ?_⟩
  · rw [ha]; unfold fillFitResult; simp [hs]
  · rintro ⟨B, hB⟩
    obtain ⟨C, e1, e2, e3⟩ := covariance_partial inv hinv l.pars hl.len hfix _ B hB
    rw [h5 hs] at e1
    cases e1
    exact ⟨e2, e3⟩


/-! ### examples -/

/-- `n` waves with positive reflectivity and a threshold of 2. -/
def thrWaves (n : ℕ) : WaveList := ⟨fun e => if e = 1 then n else 0, fun _ i => "w" ++ toString i, fun _ _ => 2⟩

noncomputable def thrFn (n : ℕ) : LikData := ⟨1, (thrWaves n).nW, 2, fun _ _ _ => 1, fun _ _ _ => 1, 1, false, .flat, 1⟩

theorem thrLayout (n : ℕ) (hn : 0 < n) (comp0 : List Comp) (hnd : comp0.Nodup) (hmem : ∀ c, c ∈ comp0 ↔ Free 1 (thrWaves n).nW c) :
    ∃ d : ParData, (thrFn n).Matches (thrWaves n) d 1 ∧ d.nmbPars = comp0.length + 1 ∧ d.nmbParsFixed ≠ 0 ∧
      d.nmbParsFixed = (d.params.filter (·.fixed)).length := by
  have hw : (thrWaves n).nW 0 + (thrWaves n).nW 1 ≠ 0 := by simp [thrWaves]; omega
  obtain ⟨comp, c1, c2, d, hd, c3, c4, cp, cf, c7, _⟩ := parameters_enumerate_components (thrWaves n) 1 1 hw
  have hp : comp.Perm comp0 := by
    rw [List.perm_ext_iff_of_nodup c1 hnd]
    intro c; rw [c2, hmem]
  refine ⟨d, ⟨⟨d, [], hd, by simp, rfl⟩, rfl⟩, by rw [c3, hp.length_eq], ?_, c7⟩
  have h0 : (((0, 1, 0) : Slot), true) ∈ comp := by
    rw [c2]; unfold Free; simp [thrWaves]; exact hn
  obtain ⟨k, hk⟩ := List.mem_iff_getElem?.1 h0
  obtain ⟨p, hp, _, _, _, _, hf⟩ := cp k _ hk
  have hfix : p.fixed = true := hf.2 ⟨by simp [thrWaves], by simp [thrWaves]⟩
  have : p ∈ d.params.filter (·.fixed) := List.mem_filter.2 ⟨List.mem_of_getElem? hp, hfix⟩
  rw [c7]
  intro h
  rw [List.length_eq_zero_iff.1 h] at this
  simp at this

/-- A fit with one wave and then a fit with two waves in the same process, both below their thresholds: the second one writes behind the
end of the buffer. -/
theorem nlopt_buffer_overflow_example : ∃ (L L' : LikData) (wl wl' : WaveList) (d d' : ParData) (b : Buffers) (v : ℝ),
    L.Matches wl d 1 ∧ L'.Matches wl' d' 1 ∧ d.nmbParsFixed = (d.params.filter (·.fixed)).length ∧
    d'.nmbParsFixed = (d'.params.filter (·.fixed)).length ∧
    nloptFunc L d (fun _ => 0) ⟨none, none⟩ (d.nmbPars - d.nmbParsFixed) (fun _ => 1) none = .ok (b, v, none) ∧
    (∃ r, nloptFunc L' d' (fun _ => 0) ⟨none, none⟩ (d'.nmbPars - d'.nmbParsFixed) (fun _ => 1) none = .ok r) ∧
    nloptFunc L' d' (fun _ => 0) b (d'.nmbPars - d'.nmbParsFixed) (fun _ => 1) none = .ub := by
  obtain ⟨d, m1, n1, f1, g1⟩ := thrLayout 1 (by omega) [(((0, 1, 0) : Slot), true)] (by simp) (by
    rintro ⟨⟨r, e, w⟩, b⟩
    unfold Free
    simp only [thrWaves, List.mem_singleton, Prod.mk.injEq]
    constructor
    · rintro ⟨⟨rfl, rfl, rfl⟩, rfl⟩; simp
    · rintro ⟨h1, h2, h3, h4, h5⟩
      split_ifs at h3 with he
      · cases b
        · have := h5 rfl; omega
        · exact ⟨⟨by omega, he, by omega⟩, rfl⟩
      · omega)
  obtain ⟨d', m2, n2, f2, g2⟩ := thrLayout 2 (by omega) [(((0, 1, 0) : Slot), true), (((0, 1, 1) : Slot), true), (((0, 1, 1) : Slot), false)] (by simp) (by
    rintro ⟨⟨r, e, w⟩, b⟩
    unfold Free
    simp only [thrWaves, List.mem_cons, List.not_mem_nil, or_false, Prod.mk.injEq]
    constructor
    · rintro (⟨⟨rfl, rfl, rfl⟩, rfl⟩ | ⟨⟨rfl, rfl, rfl⟩, rfl⟩ | ⟨⟨rfl, rfl, rfl⟩, rfl⟩) <;> simp
    · rintro ⟨h1, h2, h3, h4, h5⟩
      split_ifs at h3 with he
      · have hr : r = 0 := by omega
        have hw : w = 0 ∨ w = 1 := by omega
        cases b
        · have := h5 rfl
          have hw1 : w = 1 := by omega
          exact Or.inr (Or.inr ⟨⟨hr, he, hw1⟩, rfl⟩)
        · rcases hw with hw | hw
          · exact Or.inl ⟨⟨hr, he, hw⟩, rfl⟩
          · exact Or.inr (Or.inl ⟨⟨hr, he, hw⟩, rfl⟩)
      · omega)
  obtain ⟨b, r, e1, _, e3, _⟩ := nloptFunc_value (thrFn 1) (thrWaves 1) d 1 m1 (fun _ => 0) ⟨none, none⟩ ⟨by simp, by simp⟩ g1 (fun _ => 1) none _ (fun _ => 0)
    (addFixed_expands d (fun _ => 1) fun _ => 0)
  obtain ⟨b', r', e1', _⟩ := nloptFunc_value (thrFn 2) (thrWaves 2) d' 1 m2 (fun _ => 0) ⟨none, none⟩ ⟨by simp, by simp⟩ g2 (fun _ => 1) none _ (fun _ => 0)
    (addFixed_expands d' (fun _ => 1) fun _ => 0)
  rw [e3 rfl] at e1
  refine ⟨thrFn 1, thrFn 2, thrWaves 1, thrWaves 2, d, d', b, _, m1, m2, g1, g2, e1, ⟨_, e1'⟩, ?_⟩
  exact nlopt_buffer_overflow (thrFn 1) (thrFn 2) d d' _ _ _ none none f1 f2 (by rw [n1, n2]; simp) b _ none e1

/-- the derivative of the example of `PwaFitEx` at (1, 1). -/
theorem exGradient {d : ParData} (hl : Layout exFn d [(((0, 1, 0) : Slot), true)]) (par : ℕ → ℝ) (p0 : par 0 = 1) (p1 : par 1 = 1) :
    exFn.gradient d par (fun _ => 0) 0 = 12 / 5 := by
  obtain ⟨a1, a2⟩ := exAmp hl par
  obtain ⟨s0, s1⟩ := exSigma (exFn.amps par) (par 0) (exFn.flat par) a1
  obtain ⟨d0, d1⟩ := exDeriv (exFn.amps par) (par 0) a1
  rw [a2, p0, p1] at s1
  rw [a2, p1] at s0
  have hev : exFn.nmbEvents = 2 := rfl
  have hne : exFn.nmbEvt = 2 := by simp [LikData.nmbEvt, exFn]
  have h3 := hl.toPar (exFn.derivatives (exFn.amps par) (exFn.flat par)) (exFn.derivativeFlat (exFn.amps par) (exFn.flat par)) (fun _ => 0) 0
    (((0, 1, 0) : Slot), true) rfl
  refine h3.trans ?_
  unfold LikData.derivatives
  simp only [part, if_true]
  rw [hev, Finset.sum_range_succ, Finset.sum_range_one, a2, p1, s0, s1, d0, d1, hne, p0]
  have h4 : exFn.priorDeriv (exFn.amps par) (0, 1, 0) = 0 := rfl
  rw [h4]
  have h5 : exFn.amps par (0, 1, 0) = ((1 : ℝ) : ℂ) := by rw [a1, p0]
  simp [exFn, exWaves]
  have h6 : (exFn.amps par (0, 1, 0)).re = 1 := by rw [h5, Complex.ofReal_re]
  unfold exFn exWaves at h6
  simp at h6
  rw [h6]
  norm_num

/-- Finding: an optimizer that gives up after its 50000 evaluations leaves a result that is marked as converged, although the likelihood is
not stationary there. -/
theorem nlopt_maxeval_converged : ∃ (l : Lik) (optimize : List ℝ → Option NloptResult) (a : FillArgs) (par : ℕ → ℝ) (slots : List Slot),
    l.fn.Matches l.waves l.pars 1 ∧ NloptOk l optimize ∧ (∀ s r, optimize s = some r → r.code = .maxevalReached) ∧
    (∀ eig inv rnd, pwaNloptFit optimize eig inv rnd l ⟨false, true⟩ [] none = .ok a) ∧ Stored l par slots a ∧
    a.converged = true ∧ l.fn.gradient l.pars par (fun _ => 0) 0 ≠ 0 := by
  obtain ⟨d, hm, hl, hn, f0, f1, hfix⟩ := exLayout
  let l : Lik := ⟨exFn, exWaves, d, ⟨⟨fun _ _ => 1, fun _ _ => 1⟩, fun _ => 1, 3 / 4⟩⟩
  let res : NloptResult := ⟨.maxevalReached, fun _ => 1, exFn.doEval (addFixed d (fun _ => 1) fun _ => 0)⟩
  have hopt : NloptOk l (fun _ => some res) := by
    intro s r par hr hexp
    cases hr
    exact doEval_congr exFn hl _ _ (expands_unique d _ _ _ (addFixed_expands d _ _) hexp)
  obtain ⟨par, h2⟩ := correctParamSigns_returns exFn d (addFixed d (fun _ => 1) fun _ => 0) (by simp [exFn, exWaves])
  obtain ⟨slots, hs⟩ := stored_of_fill l 1 hm ⟨false, true⟩ [] par res.minValue (fun _ _ => 0) true false
  have hlen : ∀ rnd, (nloptStart rnd l.fn.nmbEvents l.pars.params).length = l.pars.nmbPars - l.pars.nmbParsFixed := by
    intro rnd
    have h := nloptStart_length rnd l.fn.nmbEvents l.pars.params
    have h1 : l.pars.params.length = l.pars.nmbPars := hl.len
    have h2 : l.pars.nmbParsFixed = (l.pars.params.filter (·.fixed)).length := hfix
    omega
  have hfit : ∀ eig inv rnd, pwaNloptFit (fun _ => some res) eig inv rnd l ⟨false, true⟩ [] none =
      .ok (fillFitResult l ⟨false, true⟩ [] par res.minValue (fun _ _ => 0) true false) := by
    intro eig inv rnd
    have h3 : res.minValue = l.fn.doEval par := (correctParamSigns_same_likelihood exFn exWaves d 1 hm _ _ h2).symm
    unfold pwaNloptFit
    rw [if_neg (by simp), if_neg (not_not.2 (hlen rnd))]
    have h2' : correctParamSigns l.fn.rank l.fn.nW l.pars (addFixed l.pars res.x fun _ => 0) = .ok par := h2
    simp only [h2', Outcome.ok_bind]
    rw [if_neg (not_not.2 h3)]
    rfl
  obtain ⟨eps, eta, g1, g2, g3, g4, g5⟩ := correct_signs exFn hl _ _ h2
  obtain ⟨v1, v2⟩ := correctParamSigns_convention exFn exWaves d 1 hm _ _ h2
  obtain ⟨a1, a2⟩ := exAmp hl par
  have hsq : ∀ i, parSign [(((0, 1, 0) : Slot), true)] eps eta i * parSign [(((0, 1, 0) : Slot), true)] eps eta i = 1 := by
    intro i; unfold parSign; split
    · exact g1 _ _
    · exact g2
  have hone : ∀ k < 2, addFixed d (fun _ => 1) (fun _ => 0) k = 1 := by
    intro k hk
    rw [addFixed_eq, if_pos (by omega)]
    have hk' : k = 0 ∨ k = 1 := by omega
    rcases hk' with rfl | rfl
    · rw [f0]; simp
    · rw [f1]; simp
  have key : ∀ k < 2, 0 ≤ par k → par k = 1 := by
    intro k hk h3
    have h4 := g5 k (by omega)
    have h5 := hsq k
    rw [hone k hk] at h4
    have h6 : par k * par k = 1 := by rw [h4]; linear_combination h5
    nlinarith only [h6, h3]
  have p0 : par 0 = 1 := by
    have h3 := (v2 0 1 (by simp [exFn]) (by omega) (by simp [exFn, exWaves])).1
    rw [a1] at h3
    exact key 0 (by omega) (by simpa using h3)
  have p1 : par 1 = 1 := by
    rw [a2] at v1
    exact key 1 (by omega) v1
  refine ⟨l, fun _ => some res, _, par, slots, hm, hopt, ?_, hfit, hs, rfl, ?_⟩
  · intro s r hr; cases hr; rfl
  · have : l.fn.gradient l.pars par (fun _ => 0) 0 = 12 / 5 := exGradient hl par p0 p1
    rw [this]
    norm_num

end Rpwa.PwaFit
