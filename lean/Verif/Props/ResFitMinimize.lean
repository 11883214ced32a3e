import Verif.Lemmas.ResFitMinimizeLoop

/-!
# C78: the steps of a resonance-model fit
-/

namespace Rpwa.ResMin

open ResFit (Name Params St Component Channel Fsmd Model Input)
open ResFit.Spec (Entry layout entry startOf IsAnchor)
open ResCfg (Config Par Num Comp FsmdC FsmdBin Setup Codec V BinC CfgOk inputOf Store readConfig writeConfig
  load normBin Restored)
open Spec (IsVar Released limitsOf parOf Within Respects Sound callsOf Current callFor Done lastMin)

/-- **C78.** Position `i` of the variables declared for a step is number `i` of the layout: it starts at
the current value, is free exactly if the step releases it, and has the step size and limits of the
configuration. -/
theorem declared {S : Setup} {C : Codec} {dat : List BinC → Input} {root : V} {cfg : Config}
    (hcfg : readConfig S C dat root = .ok cfg) (P : Params) (step : Name) :
    (initVars cfg P step).length = cfg.model.nrParameters ∧
    ∀ (i : ℕ) (e : Entry), (layout cfg.model)[i]? = some e →
      ∃ v, (initVars cfg P step)[i]? = some v ∧ IsVar cfg P (words step) e v := by
  have hk := ResCfg.readConfig_ok hcfg
  have h := initVars_spec hk P step
  refine ⟨by rw [ResFit.nrParameters_eq, h.length_eq], fun i e he => ?_⟩
  obtain ⟨hi, rfl⟩ := List.getElem?_eq_some_iff.mp he
  have hi' : i < (initVars cfg P step).length := by rw [← h.length_eq]; exact hi
  exact ⟨_, List.getElem?_eq_getElem hi', (List.forall₂_iff_get.mp h).2 i hi hi'⟩

theorem orderOf_pos (free : List Name) : 0 < (orderOf free).length := by
  unfold orderOf
  split
  · decide
  · rename_i h
    exact Nat.pos_of_ne_zero h

theorem loop_start {S : Setup} {dat : List BinC → Input} {cfg : Config} (h : CfgOk S dat cfg) (mz : Minimizer)
    (L : List Name) (b0 : ℕ) (st : St) (err : Params) (hL : 0 < L.length) (h0 : L[0]? ≠ some kHesse) :
    ∃ r, loop cfg mz L.length 0 ⟨L, 0, b0, st, err, [], none⟩ = .ok r ∧ Done cfg mz L st.P b0 r := by
  obtain ⟨rc, hrc⟩ := read_bridge h
  refine loop_done hrc h0 L.length ⟨L, 0, b0, st, err, [], none⟩ ?_ (fun e => absurd rfl e)
    (by simp) hL
  refine ⟨Nat.zero_le _, fun i c a hi => (by cases hi), fun i _ hi => (by simp at hi), rfl, ?_,
    fun x hx => (by cases hx), fun x hx => (by cases hx), rfl, rfl⟩
  exact rfl

/-- **C78.** A fit whose release order does not begin with the Hessian matrix ends, and has done what
`Done` says; one that begins with it ends the program. -/
theorem fit_done {S : Setup} {C : Codec} {dat : List BinC → Input} {root : V} {cfg : Config}
    (hcfg : readConfig S C dat root = .ok cfg) (mz : Minimizer) (chi2 : (ℕ → ℝ) → ℝ) (points maxCalls : ℕ)
    (free : List Name) (st : St) (err : Params) :
    (free.head? ≠ some "hesse".toList → ∃ q r,
      minimize cfg mz chi2 points maxCalls free st err = .ok (q, r) ∧
      Done cfg mz (orderOf free) st.P (budgetOf maxCalls cfg.model.nrParameters) r) ∧
    (free.head? = some "hesse".toList →
      minimize cfg mz chi2 points maxCalls free st err = .terminate) := by
  refine ⟨fun h => ?_, fun h => ?_⟩
  · have h0 : (orderOf free)[0]? ≠ some kHesse := by
      unfold orderOf
      split
      · decide
      · rw [← List.head?_eq_getElem?]
        exact h
    obtain ⟨r, hr, hd⟩ := loop_start (ResCfg.readConfig_ok hcfg) mz (orderOf free)
      (budgetOf maxCalls cfg.model.nrParameters) st err (orderOf_pos free) h0
    unfold minimize
    dsimp only
    rw [hr, Outcome.ok_bind]
    cases hl : r.hist.getLast? with
    | none =>
      rw [List.getLast?_eq_none_iff] at hl
      have := hd.started
      rw [hl] at this
      exact absurd this (lt_irrefl _)
    | some x => exact ⟨_, r, rfl, hd⟩
  · cases free with
    | nil => cases h
    | cons s free =>
      rw [List.head?_cons] at h
      have h := Option.some.inj h
      subst h
      rfl

theorem done_of {S : Setup} {C : Codec} {dat : List BinC → Input} {root : V} {cfg : Config}
    (hcfg : readConfig S C dat root = .ok cfg) {mz : Minimizer} {chi2 : (ℕ → ℝ) → ℝ} {points maxCalls : ℕ}
    {free : List Name} {st : St} {err : Params} {q : List (Name × Num)} {r : Run}
    (h : minimize cfg mz chi2 points maxCalls free st err = .ok (q, r)) :
    free.head? ≠ some "hesse".toList ∧
    Done cfg mz (orderOf free) st.P (budgetOf maxCalls cfg.model.nrParameters) r := by
  obtain ⟨h1, h2⟩ := fit_done hcfg mz chi2 points maxCalls free st err
  by_cases hh : free.head? = some "hesse".toList
  · rw [h2 hh] at h
    cases h
  · obtain ⟨q', r', e, hd⟩ := h1 hh
    rw [e] at h
    cases h
    exact ⟨hh, hd⟩

/-! ### what a fit does not change -/

theorem lastVars_snoc_min (h : List (Call × Res)) (vars : List Var) (n : ℕ) (a : Res) :
    lastVars (h ++ [(.minimize vars n, a)]) = vars := by
  unfold lastVars
  rw [List.reverse_append]
  rfl

theorem lastVars_snoc_hesse (h : List (Call × Res)) (n : ℕ) (a : Res) :
    lastVars (h ++ [(.hesse n, a)]) = lastVars h := by
  unfold lastVars
  rw [List.reverse_append]
  rfl

/-- A property `A` of one number that holds at the start and that no released or kept variable can lose
holds after the fit. -/
theorem value_inv {S : Setup} {dat : List BinC → Input} {cfg : Config} (hk : CfgOk S dat cfg) {mz : Minimizer}
    (hz : Sound mz) {L : List Name} (h0 : L[0]? ≠ some kHesse) {P0 : Params} {b0 : ℕ} {r : Run}
    (hd : Done cfg mz L P0 b0 r) {j : ℕ} {e : Entry} (he : (layout cfg.model)[j]? = some e) (A : ℝ → Prop)
    (hst : A (startOf cfg.model P0 e)) (hA : ∀ P, A (entry P e) → A (startOf cfg.model P e))
    (hstep : ∀ (i : ℕ) (s : Name) (P : Params) (v : Var) (vars : List Var) (a : Res), i < r.hist.length →
      L[i]? = some s → s ≠ kHesse → A (startOf cfg.model P e) → IsVar cfg P (words s) e v →
      vars[j]? = some v → Respects vars a → A (a.X j)) :
    A (entry r.fit.P e) := by
  have key : ∀ i, i < r.hist.length → ∃ x, r.hist[i]? = some x ∧ A (x.2.X j) ∧
      ∃ (i' : ℕ) (s : Name) (P : Params) (v : Var), i' < r.hist.length ∧ L[i']? = some s ∧ s ≠ kHesse ∧
        A (startOf cfg.model P e) ∧ IsVar cfg P (words s) e v ∧ (lastVars (r.hist.take (i + 1)))[j]? = some v := by
    intro i
    induction i with
    | zero =>
      intro hi
      obtain ⟨⟨c, a⟩, hx⟩ : ∃ x, r.hist[0]? = some x := ⟨_, List.getElem?_eq_getElem hi⟩
      obtain ⟨h1, s, P, hs, hP, hc⟩ := hd.steps 0 c a hx
      have hsk : s ≠ kHesse := fun e => h0 (by rw [hs, e])
      have hP : P = P0 := hP
      subst hP
      have hvars := initVars_spec hk P s
      obtain ⟨hj, hje⟩ := List.getElem?_eq_some_iff.mp he
      have hj' : j < (initVars cfg P s).length := by rw [← hvars.length_eq]; exact hj
      have hv := (List.forall₂_iff_get.mp hvars).2 j hj hj'
      rw [List.get_eq_getElem, List.get_eq_getElem, hje] at hv
      have hcm : c = .minimize (initVars cfg P s) (b0 - callsOf (r.hist.take 0)) := by
        rw [hc]
        unfold callFor
        exact if_neg hsk
      have hresp := hz (r.hist.take 0) c
      rw [← h1, hcm] at hresp
      refine ⟨(c, a), hx, hstep 0 s P _ (initVars cfg P s) a hi hs hsk hst hv
        (List.getElem?_eq_getElem hj') hresp, 0, s, P, _, hi, hs, hsk, hst, hv, ?_⟩
      rw [List.take_add_one, hx, hcm]
      show (lastVars ([] ++ [(.minimize (initVars cfg P s) _, a)]))[j]? = _
      rw [lastVars_snoc_min]
      exact List.getElem?_eq_getElem hj'
    | succ i ih =>
      intro hi
      obtain ⟨x0, hx0, hA0, i', s', P', v', hi', hs', hsk', hst', hv', hl'⟩ := ih (by omega)
      obtain ⟨⟨c, a⟩, hx⟩ : ∃ x, r.hist[i + 1]? = some x := ⟨_, List.getElem?_eq_getElem hi⟩
      obtain ⟨h1, s, P, hs, hP, hc⟩ := hd.steps (i + 1) c a hx
      have htake : r.hist.take (i + 1 + 1) = r.hist.take (i + 1) ++ [(c, a)] := by
        rw [List.take_add_one, hx]
        rfl
      have hresp := hz (r.hist.take (i + 1)) c
      rw [← h1] at hresp
      by_cases hsk : s = kHesse
      · have hcm : c = .hesse (b0 - callsOf (r.hist.take (i + 1))) := by
          rw [hc]
          unfold callFor
          exact if_pos hsk
        rw [hcm] at hresp
        refine ⟨(c, a), hx, hstep i' s' P' v' _ a hi' hs' hsk' hst' hv' hl' hresp,
          i', s', P', v', hi', hs', hsk', hst', hv', ?_⟩
        rw [htake, hcm, lastVars_snoc_hesse]
        exact hl'
      · have hPst : A (startOf cfg.model P e) := by
          refine hA P ?_
          unfold Current at hP
          have hgl : (r.hist.take (i + 1)).getLast? = some x0 := by
            rw [List.take_add_one, hx0, List.getLast?_append]
            rfl
          rw [hgl] at hP
          rw [hP j e he]
          exact hA0
        have hvars := initVars_spec hk P s
        obtain ⟨hj, hje⟩ := List.getElem?_eq_some_iff.mp he
        have hj' : j < (initVars cfg P s).length := by rw [← hvars.length_eq]; exact hj
        have hv := (List.forall₂_iff_get.mp hvars).2 j hj hj'
        rw [List.get_eq_getElem, List.get_eq_getElem, hje] at hv
        have hcm : c = .minimize (initVars cfg P s) (b0 - callsOf (r.hist.take (i + 1))) := by
          rw [hc]
          unfold callFor
          exact if_neg hsk
        rw [hcm] at hresp
        refine ⟨(c, a), hx, hstep (i + 1) s P _ (initVars cfg P s) a hi hs hsk hPst hv
          (List.getElem?_eq_getElem hj') hresp, i + 1, s, P, _, hi, hs, hsk, hPst, hv, ?_⟩
        rw [htake, hcm, lastVars_snoc_min]
        exact List.getElem?_eq_getElem hj'
  have hpos := hd.started
  obtain ⟨x, hx, hAx, _⟩ := key (r.hist.length - 1) (by omega)
  have hv := hd.values
  unfold Current at hv
  rw [List.getLast?_eq_getElem?, hx] at hv
  rw [hv j e he]
  exact hAx

theorem fixed_of_not_free {v : Var} (h : ¬ v.isFree = true) : v.kind = .fixed := by
  unfold Var.isFree at h
  cases hk : v.kind with
  | fixed => rfl
  | free s lo up => rw [hk] at h; exact absurd rfl h

/-- **C78.** A number that none of the steps that were done releases has its start value after the fit. -/
theorem kept {S : Setup} {C : Codec} {dat : List BinC → Input} {root : V} {cfg : Config}
    (hcfg : readConfig S C dat root = .ok cfg) {mz : Minimizer} (hz : Sound mz) {chi2 : (ℕ → ℝ) → ℝ}
    {points maxCalls : ℕ} {free : List Name} {st : St} {err : Params} {q : List (Name × Num)} {r : Run}
    (h : minimize cfg mz chi2 points maxCalls free st err = .ok (q, r)) {e : Entry} (he : e ∈ layout cfg.model)
    (hn : ∀ i s, i < r.hist.length → (orderOf free)[i]? = some s → s ≠ "hesse".toList →
      ¬ Released cfg (words s) e) :
    entry r.fit.P e = startOf cfg.model st.P e := by
  obtain ⟨hh, hd⟩ := done_of hcfg h
  have h0 : (orderOf free)[0]? ≠ some kHesse := by
    unfold orderOf
    split
    · decide
    · rw [← List.head?_eq_getElem?]
      exact hh
  obtain ⟨j, hj, hje⟩ := List.getElem_of_mem he
  refine value_inv (ResCfg.readConfig_ok hcfg) hz h0 hd (List.getElem?_eq_some_iff.mpr ⟨hj, hje⟩)
    (fun x => x = startOf cfg.model st.P e) rfl ?_ ?_
  · intro P hP
    unfold startOf at hP ⊢
    by_cases ha : ∃ id k b, e = .coupIm id k b ∧ IsAnchor cfg.model id k b
    · rw [if_pos ha, if_pos ha]
    · rw [if_neg ha] at hP
      rw [if_neg ha, if_neg ha]
      exact hP
  · intro i s P v vars a hi hs hsk hst hv hvj hresp
    have hfx := fixed_of_not_free fun hf => hn i s hi hs hsk (hv.free.mp hf)
    rw [hresp.fixed j v hvj hfx, hv.start]
    exact hst

/-- **C78.** A parameter that is fixed in the configuration has the same value after the fit. -/
theorem fixed_kept {S : Setup} {C : Codec} {dat : List BinC → Input} {root : V} {cfg : Config}
    (hcfg : readConfig S C dat root = .ok cfg) {mz : Minimizer} (hz : Sound mz) {chi2 : (ℕ → ℝ) → ℝ}
    {points maxCalls : ℕ} {free : List Name} {st : St} {err : Params} {q : List (Name × Num)} {r : Run}
    (h : minimize cfg mz chi2 points maxCalls free st err = .ok (q, r)) {id k : ℕ}
    (he : Entry.par id k ∈ layout cfg.model) {p : Par} (hp : parOf cfg id k = some p) (hf : p.fixed = true) :
    r.fit.P.par id k = st.P.par id k := by
  have := kept hcfg hz h he fun i s _ _ _ hr => by
    obtain ⟨p', hp', hf', _⟩ := hr
    rw [hp] at hp'
    cases hp'
    rw [hf] at hf'
    cases hf'
  rw [startOf_par] at this
  exact this

/-- **C78.** The coupling of an anchor wave is real after the fit. -/
theorem anchor_real {S : Setup} {C : Codec} {dat : List BinC → Input} {root : V} {cfg : Config}
    (hcfg : readConfig S C dat root = .ok cfg) {mz : Minimizer} (hz : Sound mz) {chi2 : (ℕ → ℝ) → ℝ}
    {points maxCalls : ℕ} {free : List Name} {st : St} {err : Params} {q : List (Name × Num)} {r : Run}
    (h : minimize cfg mz chi2 points maxCalls free st err = .ok (q, r)) {id k b : ℕ}
    (he : Entry.coupIm id k b ∈ layout cfg.model) (ha : IsAnchor cfg.model id k b) :
    (r.fit.P.coup id k b).im = 0 := by
  have := kept hcfg hz h he fun i s _ _ _ hr => hr.1 ha
  unfold startOf at this
  rw [if_pos ⟨id, k, b, rfl, ha⟩] at this
  exact this

/-- **C78.** A parameter that starts within its limits ends within them. -/
theorem limits_kept {S : Setup} {C : Codec} {dat : List BinC → Input} {root : V} {cfg : Config}
    (hcfg : readConfig S C dat root = .ok cfg) {mz : Minimizer} (hz : Sound mz) {chi2 : (ℕ → ℝ) → ℝ}
    {points maxCalls : ℕ} {free : List Name} {st : St} {err : Params} {q : List (Name × Num)} {r : Run}
    (h : minimize cfg mz chi2 points maxCalls free st err = .ok (q, r)) {id k : ℕ}
    (he : Entry.par id k ∈ layout cfg.model) {p : Par} (hp : parOf cfg id k = some p)
    (hw : Within p.lower p.upper (st.P.par id k)) : Within p.lower p.upper (r.fit.P.par id k) := by
  obtain ⟨hh, hd⟩ := done_of hcfg h
  have h0 : (orderOf free)[0]? ≠ some kHesse := by
    unfold orderOf
    split
    · decide
    · rw [← List.head?_eq_getElem?]
      exact hh
  obtain ⟨j, hj, hje⟩ := List.getElem_of_mem he
  refine value_inv (e := .par id k) (ResCfg.readConfig_ok hcfg) hz h0 hd
    (List.getElem?_eq_some_iff.mpr ⟨hj, hje⟩) (Within p.lower p.upper) ?_ ?_ ?_
  · rw [startOf_par]
    exact hw
  · intro P hP
    rw [startOf_par]
    exact hP
  · intro i s P v vars a hi hs hsk hst hv hvj hresp
    rw [← hv.start] at hst
    by_cases hf : v.isFree = true
    · have hkind := hv.limits hf
      rw [limitsOf_par hp] at hkind
      exact hresp.limits j v _ _ _ hvj hkind hst
    · rw [hresp.fixed j v hvj (fixed_of_not_free hf)]
      exact hst

/-! ### what is left of the release order -/

theorem lastMin_spec {L : List Name} (h0 : L[0]? ≠ some kHesse) : ∀ n, 0 < n → n ≤ L.length →
    lastMin L n < n ∧ L[lastMin L n]? ≠ some kHesse ∧
      ∀ i, lastMin L n < i → i < n → L[i]? = some kHesse
  | 0, h, _ => absurd h (lt_irrefl _)
  | n + 1, _, hn => by
    unfold lastMin
    by_cases hs : L[n]? = some kHesse
    · rw [if_pos hs]
      have hn0 : 0 < n := Nat.pos_of_ne_zero fun e => h0 (by rw [← e]; exact hs)
      obtain ⟨a, b, c⟩ := lastMin_spec h0 n hn0 (by omega)
      refine ⟨by omega, b, fun i h1 h2 => ?_⟩
      rcases Nat.lt_or_ge i n with hi | hi
      · exact c i h1 hi
      · have : i = n := by omega
        rw [this]
        exact hs
    · rw [if_neg hs]
      exact ⟨Nat.lt_succ_self n, hs, fun i h1 h2 => by omega⟩

/-- **C78.** What is left of the release order is the order from the last minimization that was done; it
is a release order again: not empty, and it does not begin with the Hessian matrix. -/
theorem order_left {S : Setup} {C : Codec} {dat : List BinC → Input} {root : V} {cfg : Config}
    (hcfg : readConfig S C dat root = .ok cfg) {mz : Minimizer} {chi2 : (ℕ → ℝ) → ℝ} {points maxCalls : ℕ}
    {free : List Name} {st : St} {err : Params} {q : List (Name × Num)} {r : Run}
    (h : minimize cfg mz chi2 points maxCalls free st err = .ok (q, r)) :
    ∃ k, k < r.hist.length ∧ r.order = (orderOf free).drop k ∧ r.order ≠ [] ∧
      r.order.head? ≠ some "hesse".toList ∧
      ∀ i, k < i → i < r.hist.length → (orderOf free)[i]? = some "hesse".toList := by
  obtain ⟨hh, hd⟩ := done_of hcfg h
  have h0 : (orderOf free)[0]? ≠ some kHesse := by
    unfold orderOf
    split
    · decide
    · rw [← List.head?_eq_getElem?]
      exact hh
  obtain ⟨a, b, c⟩ := lastMin_spec h0 r.hist.length hd.started hd.most
  have hm := hd.most
  refine ⟨lastMin (orderOf free) r.hist.length, a, hd.rest, ?_, ?_, c⟩
  · rw [hd.rest]
    intro e
    have := congrArg List.length e
    rw [List.length_drop, List.length_nil] at this
    omega
  · rw [hd.rest, List.head?_drop]
    exact b

end Rpwa.ResMin
