import Verif.Lemmas.CudaEval
/-! `logLikelihoodDeriv` on the device. -/
namespace Rpwa.Cuda
open Rpwa.Lik

theorem update_fresh {d : Dev} (hW : WF d) {q : ℕ} (hq : d.next ≤ q) : Function.update d.heap q none = d.heap := by
  refine Function.update_eq_iff.mpr ⟨(hW.fresh q hq).symm, fun _ _ => rfl⟩

theorem wf_alloc {d : Dev} (hW : WF d) (b : Block) (l : ℕ) : WF { d with heap := Function.update d.heap d.next (some b), next := d.next + 1, launches := l } := by
  have := hW.pos
  refine ⟨?_, ?_, Nat.succ_pos _⟩
  · intro q hq
    dsimp only at hq ⊢
    rw [Function.update_of_ne (by omega), hW.fresh q (by omega)]
  · dsimp only
    rw [Function.update_of_ne (by omega), hW.null]

/-- cascaded sum of a newly allocated array of real partial sums, then release. -/
theorem tail_real {env : Env} {d : Dev} {S : ℝ} {T l : ℕ} {b : Block} (hG : GoodProp env d.prop) (hW : WF d) (hC : SumsTo S T b) (hT : T < 2 ^ 31) :
    ∃ q d5 n' l', cascadedKernelSum (sumKernelCaller env) 6 d.next T 1
        { d with heap := Function.update d.heap d.next (some b), next := d.next + 1, launches := l } = .ok (q, d5) ∧
      fetch q d5 = .ok (S, d5) ∧ free q d5 = .ok ((), { d with next := n', launches := l' }) ∧ d.next ≤ n' := by
  obtain ⟨q, d5, b5, e5, e6, h5, hq1, hq2, S5⟩ := total_spec (env := env) (d := { d with heap := Function.update d.heap d.next (some b), next := d.next + 1, launches := l })
    (p := d.next) (n := T) hG (wf_alloc hW b l) (Function.update_self ..) hC hT
  dsimp only at h5 hq1
  obtain ⟨h', n', l', S5⟩ := S5
  refine ⟨q, d5, d5.next, d5.launches, e5, e6, ?_, by omega⟩
  rw [free_ok (by omega) (show d5.heap q = some b5 by rw [h5, Function.update_self]), h5, Function.update_idem, Function.update_idem,
    update_fresh hW (le_refl _), update_fresh hW (by omega), S5]

/-- values on the host: element of slot `s`. -/
def HostDerivs (L : LikData) (S : Slot → ℂ) (xs : List (Option Val)) : Prop :=
  xs.length = L.rank * 2 * wMax L ∧ ∀ s ∈ slots L.rank L.nW, xs[(s.1 * 2 + s.2.1) * wMax L + s.2.2]? = some (some (.cx (S s)))

theorem tail_deriv {env : Env} {d : Dev} {L : LikData} {S : Slot → ℂ} {T l : ℕ} {b : Block} (hG : GoodProp env d.prop) (hW : WF d)
    (dr : d.rank = L.rank) (d0 : d.nW0 = L.nW 0) (d1 : d.nW1 = L.nW 1) (dm : d.nWMax = wMax L) (hC : DerivsTo L S T b) (hT : T < 2 ^ 31)
    (hs : L.rank * 2 * wMax L * T ≤ 2 ^ 32) (hs1 : L.rank * 2 * wMax L ≤ 2 ^ 32) :
    ∃ q d5 xs n' l', cascadedKernelSum (sumDerivativesKernelCaller env) 6 d.next T (L.rank * 2 * wMax L)
        { d with heap := Function.update d.heap d.next (some b), next := d.next + 1, launches := l } = .ok (q, d5) ∧
      copyToHost q (L.rank * 2 * wMax L) d5 = .ok (xs, d5) ∧ HostDerivs L S xs ∧
      free q d5 = .ok ((), { d with next := n', launches := l' }) ∧ d.next ≤ n' := by
  obtain ⟨q, h', next', l', b', e, h1, h2, h3, h4⟩ := cascade_spec (caller := sumDerivativesKernelCaller env) (size := L.rank * 2 * wMax L)
    (DerivsTo L S) d T
    (fun d' p q n' m b hS hp hC hn' hm hmn hpq hq => by
      obtain ⟨_, _, _, hS⟩ := hS
      exact derivCaller_spec (by rw [hS]; exact hG) (by rw [hS]; exact dr) (by rw [hS]; exact d0) (by rw [hS]; exact d1) (by rw [hS]; exact dm)
        hp hC (by omega) (le_trans (Nat.mul_le_mul_left _ hn') hs) hs1 hm hmn hpq hq)
    T T { d with heap := Function.update d.heap d.next (some b), next := d.next + 1, launches := l } d.next b (le_refl _) (le_refl _) ⟨_, _, _, rfl⟩
    (wf_alloc hW b l) (Function.update_self ..) hC
  dsimp only at h1 h3
  obtain ⟨hl, f, hf⟩ := h4
  rw [Nat.mul_one] at hl
  refine ⟨q, { d with heap := h', next := next', launches := l' }, (List.range (L.rank * 2 * wMax L)).map b'.cell, next', l', e, ?_, ⟨by simp, ?_⟩, ?_, by omega⟩
  · unfold copyToHost
    dsimp only
    rw [h3, Function.update_self]
    dsimp only
    rw [if_neg (by omega)]
  · intro s hs'
    obtain ⟨hr, he, hw⟩ := mem_slots hs'
    obtain ⟨g1, g2⟩ := hf s hs'
    have g1 := g1 0 (by omega)
    rw [Finset.sum_range_one] at g2
    rw [g2] at g1
    rw [List.getElem?_map, List.getElem?_range (slot_lt hr he hw)]
    show some (b'.cell ((s.1 * 2 + s.2.1) * wMax L + s.2.2)) = _
    rw [← g1]
    congr 2
    show _ = ((s.1 * 2 + s.2.1) * wMax L + s.2.2) * 1 + 0
    omega
  · rw [free_ok (by omega) (show ({ d with heap := h', next := next', launches := l' } : Dev).heap q = some b' by dsimp only; rw [h3, Function.update_self])]
    dsimp only
    rw [h3, Function.update_idem, Function.update_idem, update_fresh hW (le_refl _), update_fresh hW (by omega)]

/-- the sum over the events of the derivative with respect to a production amplitude. -/
noncomputable def dataDeriv (L : LikData) (V : Amps) (flat : ℝ) (s : Slot) : ℂ :=
  ∑ n ∈ Finset.range L.nmbEvents, -((2 / L.sigma V flat n : ℝ) : ℂ) * L.evtDeriv V n s

/-- the sum over the events of the derivative with respect to the flat amplitude. -/
noncomputable def dataDerivFlat (L : LikData) (V : Amps) (flat : ℝ) : ℝ :=
  ∑ n ∈ Finset.range L.nmbEvents, -(2 / L.sigma V flat n) * flat

theorem termPos_inj {L : LikData} {re re' : ℕ × ℕ} (h : re ∈ rankRefl L.rank) (h' : re' ∈ rankRefl L.rank) {n n' : ℕ} (hn : n < L.nmbEvents)
    (hn' : n' < L.nmbEvents) (e : termPos L re n = termPos L re' n') : re = re' ∧ n = n' := by
  obtain ⟨r, _, h⟩ := List.mem_flatMap.mp h
  obtain ⟨f, hf, rfl⟩ := List.mem_map.mp h
  obtain ⟨r', _, h'⟩ := List.mem_flatMap.mp h'
  obtain ⟨f', hf', rfl⟩ := List.mem_map.mp h'
  obtain ⟨h1, h2⟩ := mixed_inj hn hn' e
  obtain ⟨h3, h4⟩ := mixed_inj (List.mem_range.mp hf) (List.mem_range.mp hf') h1
  exact ⟨Prod.ext h3 h4, h2⟩

theorem rankRefl_nodup (rank : ℕ) : (rankRefl rank).Nodup := by
  unfold rankRefl
  rw [List.nodup_flatMap]
  refine ⟨fun r _ => List.nodup_range.map fun a b h => by simpa using h, ?_⟩
  refine List.Nodup.pairwise_of_forall_ne List.nodup_range ?_
  intro r _ r' _ hne
  rw [Function.onFun, List.disjoint_left]
  intro s hs hs'
  obtain ⟨w, _, rfl⟩ := List.mem_map.mp hs
  obtain ⟨w', _, h⟩ := List.mem_map.mp hs'
  simp only [Prod.mk.injEq] at h
  exact hne h.1.symm

/-- first stage: amplitude sums and likelihoods of all events. -/
theorem firstStage {env : Env} {d : Dev} {L : LikData} {V : Amps} {flat : ℝ} {pP pD pT pL : ℕ} (hG : GoodProp env d.prop)
    (hP : HasProd d.heap pP L V) (hD : HasDecay d.heap pD L) (wP : pP ≠ pT ∧ pP ≠ pL) (wD : pD ≠ pT ∧ pD ≠ pL) (wTL : pT ≠ pL)
    (hF : Fits env L d.prop) (hT : d.heap pT = some ⟨L.rank * 2 * L.nmbEvents, fun _ => none⟩) (hL : d.heap pL = some ⟨L.nmbEvents, fun _ => none⟩) :
    ∃ g bT bL, estimateOptimumKernelGrid env .derivFirstTerm L.nmbEvents d = .ok (g, d) ∧
      run env .derivFirstTerm g.1 g.2 (logLikelihoodDerivFirstTermKernel pP (flat * flat) pD L.nmbEvents L.rank (L.nW 0) (L.nW 1) (wMax L) pT pL) d =
        .ok ((), { d with heap := Function.update (Function.update d.heap pT (some bT)) pL (some bL), launches := d.launches + 1 }) ∧
      bT.len = L.rank * 2 * L.nmbEvents ∧ bL.len = L.nmbEvents ∧
      (∀ re ∈ rankRefl L.rank, ∀ n < L.nmbEvents, bT.cell (termPos L re n) = some (.cx (L.ampSum V n re.1 re.2))) ∧
      (∀ n < L.nmbEvents, bL.cell n = some (.re (L.sigma V flat n))) := by
  obtain ⟨nb, nt, eg, h1, h2, h3, h4, h5, h6⟩ := estimate_spec env .derivFirstTerm L.nmbEvents d hG.warp hG.mp (hG.block _)
  have hmax := hG.max_lt .derivFirstTerm
  have hmp := hG.size .derivFirstTerm
  have hev := hF.events
  have h32 : nb * nt ≤ 2 ^ 32 := by
    rcases Nat.eq_zero_or_pos L.nmbEvents with h | h
    · have := h5 h; omega
    · have := h6 h; omega
  obtain ⟨h', r1, r2, r3⟩ := run_spec (env := env) (k := .derivFirstTerm) (d := d) (W := fun p => p = pT ∨ p = pL)
    (kernel := logLikelihoodDerivFirstTermKernel pP (flat * flat) pD L.nmbEvents L.rank (L.nW 0) (L.nW 1) (wMax L) pT pL)
    (fun n => if n < L.nmbEvents then (rankRefl L.rank).map (fun re => (pT, termPos L re n, Val.cx (L.ampSum V n re.1 re.2))) ++
      [(pL, n, .re (L.sigma V flat n))] else []) h1 h2 h3 h32
    (by
      intro n _
      by_cases hn : n < L.nmbEvents
      · rw [if_pos hn]
        exact firstTerm_runs hP hD wP wD (by have := hF.prod; omega) hF.decay hF.terms hn hT rfl hL rfl
      · rw [if_neg hn]
        unfold logLikelihoodDerivFirstTermKernel
        rw [if_neg hn]
        exact .ret ())
    (by
      refine nodup_keys List.nodup_range _ ?_ ?_
      · intro n _
        split
        · rename_i hn
          rw [List.map_append, List.map_map, List.nodup_append]
          refine ⟨?_, by simp, ?_⟩
          · refine List.Nodup.map_on ?_ (rankRefl_nodup _)
            intro re hre re' hre' e
            exact (termPos_inj hre hre' hn hn (congrArg Prod.snd e)).1
          · intro a ha c hc e
            obtain ⟨re, _, rfl⟩ := List.mem_map.mp ha
            simp only [List.map_cons, List.map_nil, List.mem_singleton] at hc
            subst hc
            exact wTL (congrArg Prod.fst e)
        · simp
      · intro n _ n' _ hne w hw w' hw' ek
        split at hw
        · split at hw'
          · rename_i hn hn'
            rcases List.mem_append.mp hw with hw | hw <;> rcases List.mem_append.mp hw' with hw' | hw'
            · obtain ⟨re, hre, rfl⟩ := List.mem_map.mp hw
              obtain ⟨re', hre', rfl⟩ := List.mem_map.mp hw'
              exact hne (termPos_inj hre hre' hn hn' (congrArg Prod.snd ek)).2
            · obtain ⟨re, hre, rfl⟩ := List.mem_map.mp hw
              rw [List.mem_singleton] at hw'
              subst hw'
              exact wTL (congrArg Prod.fst ek)
            · obtain ⟨re, hre, rfl⟩ := List.mem_map.mp hw'
              rw [List.mem_singleton] at hw
              subst hw
              exact wTL (congrArg Prod.fst ek).symm
            · rw [List.mem_singleton] at hw hw'
              subst hw hw'
              exact hne (congrArg Prod.snd ek)
          · simp at hw'
        · simp at hw)
  obtain ⟨bT, t1, t2, t3⟩ := r3 pT _ hT
  obtain ⟨bL, l1, l2, l3⟩ := r3 pL _ hL
  refine ⟨(nb, nt), bT, bL, eg, ?_, t2, l2, ?_, ?_⟩
  · dsimp only
    rw [r1]
    have : h' = Function.update (Function.update d.heap pT (some bT)) pL (some bL) := by
      funext p
      by_cases hpL : p = pL
      · rw [hpL, Function.update_self, l1]
      · rw [Function.update_of_ne hpL]
        by_cases hpT : p = pT
        · rw [hpT, Function.update_self, t1]
        · rw [Function.update_of_ne hpT, r2 p (by tauto)]
    rw [this]
  · intro re hre n hn
    refine t3 n (by omega) _ _ ?_
    rw [if_pos hn]
    exact List.mem_append_left _ (List.mem_map.mpr ⟨re, hre, rfl⟩)
  · intro n hn
    refine l3 n (by omega) _ _ ?_
    rw [if_pos hn]
    exact List.mem_append_right _ (List.mem_singleton.mpr rfl)

/-- second stage: partial sums of the derivatives in a new array. -/
theorem derivStage {env : Env} {d : Dev} {L : LikData} {V : Amps} {flat : ℝ} {pD pT pL : ℕ} {bT bL : Block} (hG : GoodProp env d.prop)
    (hD : HasDecay d.heap pD L) (hF : Fits env L d.prop) (wD : pD < d.next) (wT : pT < d.next) (wL : pL < d.next)
    (hT : d.heap pT = some bT) (hTl : bT.len = L.rank * 2 * L.nmbEvents) (hL : d.heap pL = some bL) (hLl : bL.len = L.nmbEvents)
    (hTc : ∀ re ∈ rankRefl L.rank, ∀ n < L.nmbEvents, bT.cell (termPos L re n) = some (.cx (L.ampSum V n re.1 re.2)))
    (hLc : ∀ n < L.nmbEvents, bL.cell n = some (.re (L.sigma V flat n))) :
    ∃ g T b, estimateOptimumKernelGrid env .deriv 0 d = .ok (g, d) ∧ u32 (g.1 * g.2) = T ∧ T < 2 ^ 31 ∧ L.rank * 2 * wMax L * T ≤ 2 ^ 32 ∧
      run env .deriv g.1 g.2 (logLikelihoodDerivKernel pD pT pL L.nmbEvents L.rank (L.nW 0) (L.nW 1) (wMax L) d.next T)
        { d with heap := Function.update d.heap d.next (some ⟨L.rank * 2 * wMax L * T, fun _ => none⟩), next := d.next + 1 } =
        .ok ((), { d with heap := Function.update d.heap d.next (some b), next := d.next + 1, launches := d.launches + 1 }) ∧
      DerivsTo L (dataDeriv L V flat) T b := by
  obtain ⟨nb, nt, eg, h1, h2, h3, _, h5, _⟩ := estimate_spec env .deriv 0 d hG.warp hG.mp (hG.block _)
  have hT31 : nb * nt < 2 ^ 31 := lt_of_le_of_lt (h5 rfl) (hG.size _)
  have hu : u32 (nb * nt) = nb * nt := u32_of_lt (by omega)
  have hsz : L.rank * 2 * wMax L * (nb * nt) ≤ 2 ^ 32 := le_trans (Nat.mul_le_mul_left _ (h5 rfl)) (hF.sums .deriv)
  have hev := hF.events
  refine ⟨(nb, nt), nb * nt, ?_⟩
  obtain ⟨T, eT⟩ : ∃ T, nb * nt = T := ⟨_, rfl⟩
  have hT0 : 0 < T := eT ▸ Nat.mul_pos h1 h2
  have hne : ∀ p, p < d.next → Function.update d.heap d.next (some ⟨L.rank * 2 * wMax L * T, fun _ => none⟩ : Option Block) p = d.heap p :=
    fun p hp => Function.update_of_ne (by omega) _ _
  obtain ⟨b, r1, r2, r3⟩ := run_single (env := env) (k := .deriv)
    (d := { d with heap := Function.update d.heap d.next (some ⟨L.rank * 2 * wMax L * T, fun _ => none⟩), next := d.next + 1 })
    (kernel := logLikelihoodDerivKernel pD pT pL L.nmbEvents L.rank (L.nW 0) (L.nW 1) (wMax L) d.next T)
    (fun t => (slots L.rank L.nW).flatMap fun s =>
        [(d.next, derivPos L T s t, Val.cx (∑ n ∈ evts L.nmbEvents T t, -((2 / L.sigma V flat n : ℝ) : ℂ) * L.evtDeriv V n s))])
    h1 h2 h3 (by omega) (Function.update_self ..)
    (fun t ht => deriv_runs (hD.mono (hne pD wD))
      (fun re hre n hn => by
        have hlt : termPos L re n < L.rank * 2 * L.nmbEvents := by
          obtain ⟨r, hr, h⟩ := List.mem_flatMap.mp hre
          obtain ⟨f, hf, rfl⟩ := List.mem_map.mp h
          exact mixed_lt (mixed_lt (List.mem_range.mp hr) (List.mem_range.mp hf)) hn
        rw [get_of_block ((hne pT wT).trans hT) (hTl ▸ hlt)]
        exact hTc re hre n hn)
      (fun n hn => by
        rw [get_of_block ((hne pL wL).trans hL) (hLl ▸ hn)]
        exact hLc n hn)
      (by omega) (by omega) (by omega) hF.decay hF.terms (by rw [← eT]; exact hsz) (by omega) (by omega) (Function.update_self ..) rfl)
    (by
      rw [eT]
      refine nodup_keys List.nodup_range _ ?_ ?_
      · intro t ht
        have ht := List.mem_range.mp ht
        refine nodup_keys (slots_nodup _ _) _ (fun _ _ => by simp) ?_
        intro s hs s' hs' hne w hw w' hw' ek
        rw [List.mem_singleton] at hw hw'
        subst hw hw'
        exact hne (derivPos_inj hs hs' ht ht (congrArg Prod.snd ek)).1
      · intro t ht t' ht' hne w hw w' hw' ek
        have ht := List.mem_range.mp ht
        have ht' := List.mem_range.mp ht'
        obtain ⟨s, hs, hw⟩ := List.mem_flatMap.mp hw
        obtain ⟨s', hs', hw'⟩ := List.mem_flatMap.mp hw'
        rw [List.mem_singleton] at hw hw'
        subst hw hw'
        exact hne (derivPos_inj hs hs' ht ht' (congrArg Prod.snd ek)).2)
  rw [eT]
  dsimp only at r1
  rw [Function.update_idem] at r1
  refine ⟨b, eg, by rw [← eT]; exact hu, by omega, by rw [← eT]; exact hsz, r1, r2, ?_⟩
  refine ⟨fun s t => ∑ n ∈ evts L.nmbEvents T t, -((2 / L.sigma V flat n : ℝ) : ℂ) * L.evtDeriv V n s, ?_⟩
  intro s hs
  refine ⟨fun t ht => r3 t (by omega) _ _ (List.mem_flatMap.mpr ⟨s, hs, List.mem_singleton.mpr rfl⟩), ?_⟩
  exact sum_threads L.nmbEvents T hT0 _

/-- partial sums of the derivative with respect to the flat amplitude in a new array. -/
theorem flatStage {env : Env} {d : Dev} {L : LikData} {V : Amps} {flat : ℝ} {pL : ℕ} {bL : Block} (hG : GoodProp env d.prop)
    (hF : Fits env L d.prop) (wL : pL < d.next) (hL : d.heap pL = some bL) (hLl : bL.len = L.nmbEvents)
    (hLc : ∀ n < L.nmbEvents, bL.cell n = some (.re (L.sigma V flat n))) :
    ∃ g T b, estimateOptimumKernelGrid env .derivFlat 0 d = .ok (g, d) ∧ u32 (g.1 * g.2) = T ∧ T < 2 ^ 31 ∧
      run env .derivFlat g.1 g.2 (logLikelihoodDerivFlatKernel flat pL L.nmbEvents d.next T)
        { d with heap := Function.update d.heap d.next (some ⟨T, fun _ => none⟩), next := d.next + 1 } =
        .ok ((), { d with heap := Function.update d.heap d.next (some b), next := d.next + 1, launches := d.launches + 1 }) ∧
      SumsTo (dataDerivFlat L V flat) T b := by
  obtain ⟨nb, nt, eg, h1, h2, h3, _, h5, _⟩ := estimate_spec env .derivFlat 0 d hG.warp hG.mp (hG.block _)
  have hT31 : nb * nt < 2 ^ 31 := lt_of_le_of_lt (h5 rfl) (hG.size _)
  have hu : u32 (nb * nt) = nb * nt := u32_of_lt (by omega)
  have hev := hF.events
  refine ⟨(nb, nt), nb * nt, ?_⟩
  obtain ⟨T, eT⟩ : ∃ T, nb * nt = T := ⟨_, rfl⟩
  have hT0 : 0 < T := eT ▸ Nat.mul_pos h1 h2
  obtain ⟨b, r1, r2, r3⟩ := run_single (env := env) (k := .derivFlat)
    (d := { d with heap := Function.update d.heap d.next (some ⟨T, fun _ => none⟩), next := d.next + 1 })
    (kernel := logLikelihoodDerivFlatKernel flat pL L.nmbEvents d.next T)
    (fun t => [(d.next, t, Val.re (∑ n ∈ evts L.nmbEvents T t, -(2 / L.sigma V flat n) * flat))])
    h1 h2 h3 (by omega) (Function.update_self ..)
    (fun t ht => derivFlat_runs
      (fun n hn => by
        rw [get_of_block (b := bL) ((Function.update_of_ne (by omega) _ _).trans hL) (hLl ▸ hn)]
        exact hLc n hn)
      (by omega) (by omega) (by omega) (Function.update_self ..) rfl)
    (by
      refine nodup_keys List.nodup_range _ (fun _ _ => by simp) ?_
      intro t ht t' ht' hne w hw w' hw' ek
      rw [List.mem_singleton] at hw hw'
      subst hw hw'
      exact hne (congrArg Prod.snd ek))
  rw [eT]
  dsimp only at r1
  rw [Function.update_idem] at r1
  refine ⟨b, eg, by rw [← eT]; exact hu, by omega, r1, r2, ?_⟩
  exact ⟨_, fun t ht => r3 t (by omega) _ _ (List.mem_singleton.mpr rfl), sum_threads L.nmbEvents T hT0 _⟩

/-- likelihoodInterface::logLikelihoodDeriv: the derivatives, and the device memory is as before. -/
theorem logLikelihoodDeriv_spec {env : Env} {L : LikData} {d : Dev} (hL : Loaded env L d) (hF : Fits env L d.prop) (V : Amps) (flat : ℝ) :
    ∃ xs next' l', HostDerivs L (dataDeriv L V flat) xs ∧ d.next ≤ next' ∧
      logLikelihoodDeriv env 16 (flatten L.rank (wMax L) V) (flatten L.rank (wMax L) V).length flat L.rank d =
        .ok ((xs, dataDerivFlat L V flat), { d with rank := L.rank, next := next', launches := l' }) := by
  obtain ⟨bP, eP, hP⟩ := copyProd_spec (V := V) d hF.prod
  have hpos := hL.wf.pos
  have hold := hL.old
  have hfresh := hL.wf.fresh
  let bT0 : Block := ⟨L.rank * 2 * L.nmbEvents, fun _ => none⟩
  let bL0 : Block := ⟨L.nmbEvents, fun _ => none⟩
  let d1 : Dev := { d with heap := Function.update d.heap d.next (some bP), next := d.next + 1 }
  let d2 : Dev := { d1 with heap := Function.update d1.heap (d.next + 1) (some bT0), next := d.next + 2 }
  let d3 : Dev := { d2 with heap := Function.update d2.heap (d.next + 2) (some bL0), next := d.next + 3 }
  have a3 : ∀ p, p < d.next → d3.heap p = d.heap p := by
    intro p hp
    show Function.update (Function.update (Function.update d.heap d.next (some bP)) (d.next + 1) (some bT0)) (d.next + 2) (some bL0) p = _
    rw [Function.update_of_ne (by omega), Function.update_of_ne (by omega), Function.update_of_ne (by omega)]
  have aP : d3.heap d.next = some bP := by
    show Function.update (Function.update (Function.update d.heap d.next (some bP)) (d.next + 1) (some bT0)) (d.next + 2) (some bL0) d.next = _
    rw [Function.update_of_ne (by omega), Function.update_of_ne (by omega), Function.update_self]
  obtain ⟨g, bT, bL, eg, er, hTl, hLl, hTc, hLc⟩ := firstStage (env := env) (d := d3) (V := V) (flat := flat) (pP := d.next) (pD := d.decayAmps) (pT := d.next + 1)
    (pL := d.next + 2) hL.prop (hP.mono (by rw [aP, Function.update_self])) (hL.decay.mono (a3 _ hold)) ⟨by omega, by omega⟩ ⟨by omega, by omega⟩
    (by omega) hF
    (by
      show Function.update (Function.update d1.heap (d.next + 1) (some bT0)) (d.next + 2) (some bL0) (d.next + 1) = _
      rw [Function.update_of_ne (by omega), Function.update_self])
    (Function.update_self ..)
  -- after the first stage and the release of the production amplitudes
  let d4 : Dev := { d3 with heap := Function.update (Function.update d3.heap (d.next + 1) (some bT)) (d.next + 2) (some bL), launches := d3.launches + 1 }
  let d5 : Dev := { d4 with heap := Function.update d4.heap d.next none }
  have ef : free d.next d4 = .ok ((), d5) := free_ok (b := bP) (by omega) (by
    show Function.update (Function.update d3.heap (d.next + 1) (some bT)) (d.next + 2) (some bL) d.next = _
    rw [Function.update_of_ne (by omega), Function.update_of_ne (by omega), aP])
  have h5 : d5.heap = Function.update (Function.update d.heap (d.next + 1) (some bT)) (d.next + 2) (some bL) := by
    show Function.update (Function.update (Function.update d3.heap (d.next + 1) (some bT)) (d.next + 2) (some bL)) d.next none = _
    funext x
    by_cases x0 : x = d.next
    · rw [x0, Function.update_self, Function.update_of_ne (by omega), Function.update_of_ne (by omega), hfresh _ (le_refl _)]
    · rw [Function.update_of_ne x0]
      by_cases x2 : x = d.next + 2
      · rw [x2, Function.update_self, Function.update_self]
      · rw [Function.update_of_ne x2, Function.update_of_ne x2]
        by_cases x1 : x = d.next + 1
        · rw [x1, Function.update_self, Function.update_self]
        · rw [Function.update_of_ne x1, Function.update_of_ne x1]
          show Function.update (Function.update (Function.update d.heap d.next (some bP)) (d.next + 1) (some bT0)) (d.next + 2) (some bL0) x = _
          rw [Function.update_of_ne x2, Function.update_of_ne x1, Function.update_of_ne x0]
  have n5 : d5.next = d.next + 3 := rfl
  have h5T : d5.heap (d.next + 1) = some bT := by rw [h5, Function.update_of_ne (by omega), Function.update_self]
  have h5L : d5.heap (d.next + 2) = some bL := by rw [h5, Function.update_self]
  have h5D : ∀ p, p < d.next → d5.heap p = d.heap p := by
    intro p hp
    rw [h5, Function.update_of_ne (by omega), Function.update_of_ne (by omega)]
  have wf5 : WF d5 := by
    refine ⟨?_, ?_, by omega⟩
    · intro q hq
      rw [h5, Function.update_of_ne (by omega), Function.update_of_ne (by omega), hfresh q (by omega)]
    · rw [h5D 0 (by omega), hL.wf.null]
  -- derivatives
  obtain ⟨g', T, b, eg', eT, hT31, hTs, er', hC⟩ := derivStage (env := env) (d := d5) (V := V) (flat := flat) (pD := d.decayAmps) (pT := d.next + 1)
    (pL := d.next + 2) hL.prop (hL.decay.mono (h5D _ hold)) hF (by omega) (by omega) (by omega) h5T hTl h5L hLl hTc hLc
  let d6 : Dev := { d5 with rank := L.rank }
  have wf6 : WF d6 := ⟨wf5.fresh, wf5.null, wf5.pos⟩
  obtain ⟨q, d7, xs, n8, l8, e7, ec7, hx, ef7, hn8⟩ := tail_deriv (env := env) (d := d6) (L := L) (l := d5.launches + 1) hL.prop wf6 rfl hL.nW0 hL.nW1 hL.nWMax hC hT31
    hTs (by have := hF.prod; omega)
  -- flat wave
  let d8 : Dev := { d6 with next := n8, launches := l8 }
  have n6 : d6.next = d.next + 3 := rfl
  have wf8 : WF d8 := ⟨fun q hq => wf5.fresh q (by have e8 : d8.next = n8 := rfl; omega), wf5.null, by show 0 < n8; omega⟩
  obtain ⟨g9, T9, b9, eg9, eT9, hT9, er9, hC9⟩ := flatStage (env := env) (d := d8) (V := V) (flat := flat) (pL := d.next + 2) hL.prop hF
    (by show d.next + 2 < n8; omega) h5L hLl hLc
  obtain ⟨q9, d9, n10, l10, e9, ef9, eff9, hn10⟩ := tail_real (env := env) (d := d8) (l := d8.launches + 1) hL.prop wf8 hC9 hT9
  have n8' : d8.next = n8 := rfl
  let d10 : Dev := { d8 with next := n10, launches := l10 }
  let d11 : Dev := { d10 with heap := Function.update d10.heap (d.next + 1) none }
  have ef10 : free (d.next + 1) d10 = .ok ((), d11) := free_ok (b := bT) (by omega) h5T
  have ef11 : free (d.next + 2) d11 = .ok ((), { d11 with heap := Function.update d11.heap (d.next + 2) none }) := free_ok (b := bL) (by omega) (by
    show Function.update d5.heap (d.next + 1) none (d.next + 2) = _
    rw [Function.update_of_ne (by omega), h5L])
  have hfin : Function.update d11.heap (d.next + 2) none = d.heap := by
    show Function.update (Function.update d5.heap (d.next + 1) none) (d.next + 2) none = _
    rw [h5]
    funext x
    by_cases x2 : x = d.next + 2
    · rw [x2, Function.update_self, hfresh _ (by omega)]
    · rw [Function.update_of_ne x2]
      by_cases x1 : x = d.next + 1
      · rw [x1, Function.update_self, hfresh _ (by omega)]
      · rw [Function.update_of_ne x1, Function.update_of_ne x2, Function.update_of_ne x1]
  refine ⟨xs, n10, l10, hx, by omega, ?_⟩
  unfold logLikelihoodDeriv
  refine (bind_ok (a := d.next) rfl).trans ?_
  refine (bind_ok eP).trans ?_
  refine (bind_ok (a := d1) (d' := d1) rfl).trans ?_
  have s1 : d1.decayAmps = d.decayAmps := rfl
  have s2 : d1.nmbEvents = L.nmbEvents := hL.nmbEvents
  have s3 : d1.nW0 = L.nW 0 := hL.nW0
  have s4 : d1.nW1 = L.nW 1 := hL.nW1
  have s5 : d1.nWMax = wMax L := hL.nWMax
  dsimp only
  conv_lhs => rw [s1, s2, s3, s4, s5, u32_of_lt (n := L.rank * 2 * wMax L) (by have := hF.prod; omega)]
  refine (bind_ok (a := d.next + 1) (d' := d2) rfl).trans ?_
  refine (bind_ok (a := d.next + 2) (d' := d3) rfl).trans ?_
  refine (bind_ok eg).trans ?_
  refine (bind_ok er).trans ?_
  refine (bind_ok ef).trans ?_
  refine (bind_ok eg').trans ?_
  rw [eT]
  refine (bind_ok (a := d5.next) rfl).trans ?_
  refine (bind_ok er').trans ?_
  refine (bind_ok (a := ()) (d' := { d6 with heap := Function.update d6.heap d6.next (some b), next := d6.next + 1, launches := d5.launches + 1 }) rfl).trans ?_
  refine (bind_ok e7).trans ?_
  refine (bind_ok ec7).trans ?_
  refine (bind_ok ef7).trans ?_
  refine (bind_ok eg9).trans ?_
  rw [eT9]
  refine (bind_ok (a := d8.next) rfl).trans ?_
  refine (bind_ok er9).trans ?_
  refine (bind_ok e9).trans ?_
  refine (bind_ok ef9).trans ?_
  refine (bind_ok eff9).trans ?_
  refine (bind_ok ef10).trans ?_
  refine (bind_ok ef11).trans ?_
  rw [hfin]
  rfl

end Rpwa.Cuda
