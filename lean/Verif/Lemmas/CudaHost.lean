import Verif.Lemmas.CudaKernels
/-! Host functions: partial sums, `logLikelihood`, `logLikelihoodDeriv`. -/
namespace Rpwa.Cuda
open Rpwa.Lik

theorem get_of_block {h : Heap} {p i : ℕ} {b : Block} (hb : h p = some b) (hi : i < b.len) : h.get p i = b.cell i := by
  unfold Heap.get
  rw [hb]
  exact if_pos hi

theorem nodup_keys {ι : Type} {l : List ι} (hl : l.Nodup) (ws : ι → List Wr) (h1 : ∀ t ∈ l, ((ws t).map key).Nodup)
    (h2 : ∀ t ∈ l, ∀ t' ∈ l, t ≠ t' → ∀ w ∈ ws t, ∀ w' ∈ ws t', key w ≠ key w') : ((l.flatMap ws).map key).Nodup := by
  rw [List.map_flatMap, List.nodup_flatMap]
  refine ⟨h1, ?_⟩
  refine List.Nodup.pairwise_of_forall_ne hl ?_
  intro t ht t' ht' hne
  rw [Function.onFun, List.disjoint_left]
  intro k hk hk'
  obtain ⟨w, hw, rfl⟩ := List.mem_map.mp hk
  obtain ⟨w', hw', e⟩ := List.mem_map.mp hk'
  exact h2 t ht t' ht' hne w hw w' hw' e.symm

theorem slots_nodup (rank : ℕ) (nW : ℕ → ℕ) : (slots rank nW).Nodup := by
  unfold slots
  rw [List.nodup_flatMap]
  refine ⟨fun r _ => ?_, ?_⟩
  · rw [List.nodup_flatMap]
    refine ⟨fun e _ => List.nodup_range.map fun a b h => by simpa using h, ?_⟩
    refine List.Nodup.pairwise_of_forall_ne List.nodup_range ?_
    intro e _ e' _ hne
    rw [Function.onFun, List.disjoint_left]
    intro s hs hs'
    obtain ⟨w, _, rfl⟩ := List.mem_map.mp hs
    obtain ⟨w', _, h⟩ := List.mem_map.mp hs'
    simp only [Prod.mk.injEq] at h
    exact hne h.2.1.symm
  · refine List.Nodup.pairwise_of_forall_ne List.nodup_range ?_
    intro r _ r' _ hne
    rw [Function.onFun, List.disjoint_left]
    intro s hs hs'
    obtain ⟨e, _, hs⟩ := List.mem_flatMap.mp hs
    obtain ⟨e', _, hs'⟩ := List.mem_flatMap.mp hs'
    obtain ⟨w, _, rfl⟩ := List.mem_map.mp hs
    obtain ⟨w', _, h⟩ := List.mem_map.mp hs'
    simp only [Prod.mk.injEq] at h
    exact hne h.1.symm

theorem derivPos_inj {L : LikData} {n : ℕ} {s s' : Slot} (hs : s ∈ slots L.rank L.nW) (hs' : s' ∈ slots L.rank L.nW) {i i' : ℕ} (hi : i < n)
    (hi' : i' < n) (h : derivPos L n s i = derivPos L n s' i') : s = s' ∧ i = i' := by
  obtain ⟨hr, he, hw⟩ := mem_slots hs
  obtain ⟨hr', he', hw'⟩ := mem_slots hs'
  obtain ⟨h1, h2⟩ := mixed_inj hi hi' h
  obtain ⟨h3, h4⟩ := mixed_inj (lt_of_lt_of_le hw (nW_le L he)) (lt_of_lt_of_le hw' (nW_le L he')) h1
  obtain ⟨h5, h6⟩ := mixed_inj he he' h3
  exact ⟨Prod.ext h5 (Prod.ext h6 h4), h2⟩

/-- a launch that writes only one array. -/
theorem run_single {env : Env} {k : Kernel} {nb nt : ℕ} {kernel : ℕ → Prog Unit} {d : Dev} {q : ℕ} {b : Block} (wsf : ℕ → List Wr)
    (hb : 0 < nb) (ht : 0 < nt) (hm : nt ≤ env.maxThreadsPerBlock k) (h32 : nb * nt ≤ 2 ^ 32) (hq : d.heap q = some b)
    (hr : ∀ t < nb * nt, Runs d.heap (· = q) (kernel t) (wsf t) ())
    (hn : (((List.range (nb * nt)).flatMap wsf).map key).Nodup) :
    ∃ b', run env k nb nt kernel d = .ok ((), { d with heap := Function.update d.heap q (some b'), launches := d.launches + 1 }) ∧
      b'.len = b.len ∧ ∀ t < nb * nt, ∀ o v, (q, o, v) ∈ wsf t → b'.cell o = some v := by
  obtain ⟨h', h1, h2, h3⟩ := run_spec wsf hb ht hm h32 hr hn
  obtain ⟨b', g1, g2, g3⟩ := h3 q b hq
  refine ⟨b', ?_, g2, g3⟩
  rw [h1]
  have : h' = Function.update d.heap q (some b') := by
    funext p
    by_cases hp : p = q
    · rw [hp, Function.update_self, g1]
    · rw [Function.update_of_ne hp, h2 p hp]
  rw [this]

/-- the array holds `n` real partial sums of the total `S`. -/
def SumsTo (S : ℝ) (n : ℕ) (b : Block) : Prop := b.len = n ∧ ∃ f : ℕ → ℝ, (∀ i < n, b.cell i = some (.re (f i))) ∧ ∑ i ∈ Finset.range n, f i = S

/-- the array holds, for every slot, `n` complex partial sums of the total `S s`. -/
def DerivsTo (L : LikData) (S : Slot → ℂ) (n : ℕ) (b : Block) : Prop :=
  b.len = L.rank * 2 * wMax L * n ∧ ∃ f : Slot → ℕ → ℂ, ∀ s ∈ slots L.rank L.nW,
    (∀ i < n, b.cell (derivPos L n s i) = some (.cx (f s i))) ∧ ∑ i ∈ Finset.range n, f s i = S s

/-- the hardware: at least one multiprocessor; blocks of one warp can be launched; the largest grids have fewer than 2^31 threads. -/
structure GoodProp (env : Env) (pr : DeviceProp) : Prop where
  warp : 0 < pr.warpSize
  mp : 0 < pr.multiProcessorCount
  block : ∀ k, pr.warpSize ≤ env.maxThreadsPerBlock k
  size : ∀ k, pr.multiProcessorCount * env.maxThreadsPerBlock k < 2 ^ 31

theorem GoodProp.max_lt {env : Env} {pr : DeviceProp} (h : GoodProp env pr) (k : Kernel) : env.maxThreadsPerBlock k < 2 ^ 31 :=
  lt_of_le_of_lt (Nat.le_mul_of_pos_left _ h.mp) (h.size k)

theorem sumCaller_spec {env : Env} {d : Dev} (hG : GoodProp env d.prop) {S : ℝ} {p q n m : ℕ} {b : Block} (hp : d.heap p = some b)
    (hC : SumsTo S n b) (hn : n < 2 ^ 31) (hm : 0 < m) (hmn : m ≤ n ∨ m = 1) (hpq : p ≠ q)
    (hq : d.heap q = some ⟨1 * m, fun _ => none⟩) :
    ∃ b', sumKernelCaller env p n q m d = .ok ((), { d with heap := Function.update d.heap q (some b'), launches := d.launches + 1 }) ∧
      SumsTo S m b' := by
  obtain ⟨hlen, f, hf, hS⟩ := hC
  obtain ⟨nb, nt, e, h1, h2, h3, h4, _, h6⟩ := estimate_spec env .sum m d hG.warp hG.mp (hG.block _)
  have hmax := hG.max_lt .sum
  have h6 := h6 hm
  have hr : ∀ t < nb * nt, Runs d.heap (· = q) (sumKernel ℝ p n q m t) (if t < m then [(q, t, .re (∑ i ∈ evts n m t, f i))] else []) () := by
    intro t _
    by_cases ht : t < m
    · rw [if_pos ht]
      exact sum_runs (fun i hi => (get_of_block hp (hlen ▸ hi)).trans (hf i hi)) hpq (by omega) ht hq (by simp)
    · rw [if_neg ht]
      unfold sumKernel
      rw [if_neg ht]
      exact .ret ()
  obtain ⟨b', r1, r2, r3⟩ := run_single (env := env) (k := .sum) _ h1 h2 h3 (by omega) hq hr (by
    refine nodup_keys List.nodup_range _ ?_ ?_
    · intro t _
      split <;> simp
    · intro t _ t' _ hne w hw w' hw' ek
      split at hw
      · split at hw'
        · rw [List.mem_singleton] at hw hw'
          subst hw hw'
          exact hne (congrArg Prod.snd ek)
        · simp at hw'
      · simp at hw)
  refine ⟨b', (bind_ok e).trans r1, ?_, fun t => ∑ i ∈ evts n m t, f i, ?_, ?_⟩
  · rw [r2]; exact Nat.one_mul m
  · intro t ht
    refine r3 t (by omega) t _ ?_
    rw [if_pos ht]
    exact List.mem_singleton.mpr rfl
  · rw [sum_threads n m hm f, hS]

theorem derivCaller_spec {env : Env} {d : Dev} (hG : GoodProp env d.prop) {L : LikData} (dr : d.rank = L.rank) (d0 : d.nW0 = L.nW 0)
    (d1 : d.nW1 = L.nW 1) (dm : d.nWMax = wMax L) {S : Slot → ℂ} {p q n m : ℕ} {b : Block} (hp : d.heap p = some b) (hC : DerivsTo L S n b)
    (hn : n < 2 ^ 31) (hs : L.rank * 2 * wMax L * n ≤ 2 ^ 32) (hs1 : L.rank * 2 * wMax L ≤ 2 ^ 32) (hm : 0 < m) (hmn : m ≤ n ∨ m = 1) (hpq : p ≠ q)
    (hq : d.heap q = some ⟨L.rank * 2 * wMax L * m, fun _ => none⟩) :
    ∃ b', sumDerivativesKernelCaller env p n q m d =
        .ok ((), { d with heap := Function.update d.heap q (some b'), launches := d.launches + 1 }) ∧ DerivsTo L S m b' := by
  obtain ⟨hlen, f, hf⟩ := hC
  obtain ⟨nb, nt, e, h1, h2, h3, h4, _, h6⟩ := estimate_spec env .sumDerivatives m d hG.warp hG.mp (hG.block _)
  have hmax := hG.max_lt .sumDerivatives
  have h6 := h6 hm
  have hs2 : L.rank * 2 * wMax L * m ≤ 2 ^ 32 := by
    rcases hmn with h | h
    · exact le_trans (Nat.mul_le_mul_left _ h) hs
    · rw [h, Nat.mul_one]; exact hs1
  have hpos : ∀ s ∈ slots L.rank L.nW, ∀ i < n, derivPos L n s i < L.rank * 2 * wMax L * n := by
    intro s hs i hi
    obtain ⟨hr, he, hw⟩ := mem_slots hs
    exact mixed_lt (mixed_lt (mixed_lt hr he) (lt_of_lt_of_le hw (nW_le L he))) hi
  have hr : ∀ t < nb * nt, Runs d.heap (· = q) (sumDerivativesKernel p n L.rank (L.nW 0) (L.nW 1) (wMax L) q m t)
      (if t < m then (slots L.rank L.nW).flatMap fun s => [(q, derivPos L m s t, Val.cx (∑ i ∈ evts n m t, f s i))] else []) () := by
    intro t _
    by_cases ht : t < m
    · rw [if_pos ht]
      exact sumDeriv_runs (fun s hs' i hi => (get_of_block hp (hlen ▸ hpos s hs' i hi)).trans ((hf s hs').1 i hi)) hpq hs hs2 (by omega) ht hq rfl
    · rw [if_neg ht]
      unfold sumDerivativesKernel
      rw [if_neg ht]
      exact .ret ()
  obtain ⟨b', r1, r2, r3⟩ := run_single (env := env) (k := .sumDerivatives) _ h1 h2 h3 (by omega) hq hr (by
    refine nodup_keys List.nodup_range _ ?_ ?_
    · intro t _
      split
      · rename_i ht
        refine nodup_keys (slots_nodup _ _) _ (fun _ _ => by simp) ?_
        intro s hs s' hs' hne w hw w' hw' ek
        rw [List.mem_singleton] at hw hw'
        subst hw hw'
        exact hne (derivPos_inj hs hs' ht ht (congrArg Prod.snd ek)).1
      · simp
    · intro t _ t' _ hne w hw w' hw' ek
      split at hw
      · split at hw'
        · rename_i ht ht'
          obtain ⟨s, hs, hw⟩ := List.mem_flatMap.mp hw
          obtain ⟨s', hs', hw'⟩ := List.mem_flatMap.mp hw'
          rw [List.mem_singleton] at hw hw'
          subst hw hw'
          exact hne (derivPos_inj hs hs' ht ht' (congrArg Prod.snd ek)).2
        · simp at hw'
      · simp at hw)
  refine ⟨b', ?_, ?_, fun s t => ∑ i ∈ evts n m t, f s i, ?_⟩
  · refine (bind_ok e).trans ?_
    refine (bind_ok (a := d) (d' := d) rfl).trans ?_
    rw [← dr, ← d0, ← d1, ← dm] at r1
    exact r1
  · rw [r2]
  · intro s hs'
    refine ⟨?_, ?_⟩
    · intro t ht
      refine r3 t (by omega) _ _ ?_
      rw [if_pos ht]
      exact List.mem_flatMap.mpr ⟨s, hs', List.mem_singleton.mpr rfl⟩
    · rw [sum_threads n m hm, (hf s hs').2]

end Rpwa.Cuda
