import Verif.Lemmas.Gpu
/-! Grids, offsets, launches from host code, cascaded sums. -/
namespace Rpwa.Cuda
open Rpwa.Lik

theorem u32_of_lt {n : ℕ} (h : n < 2 ^ 32) : u32 n = n := Nat.mod_eq_of_lt h

/-! ### offsets -/

theorem mixed_inj {a b a' b' d : ℕ} (hb : b < d) (hb' : b' < d) (h : a * d + b = a' * d + b') : a = a' ∧ b = b' := by
  have h1 : (a * d + b) / d = a := by
    rw [Nat.mul_comm, Nat.mul_add_div (by omega), Nat.div_eq_of_lt hb, Nat.add_zero]
  have h2 : (a' * d + b') / d = a' := by
    rw [Nat.mul_comm, Nat.mul_add_div (by omega), Nat.div_eq_of_lt hb', Nat.add_zero]
  have : a = a' := by rw [← h1, ← h2, h]
  subst this
  exact ⟨rfl, by omega⟩

theorem mixed_lt {a b A d : ℕ} (ha : a < A) (hb : b < d) : a * d + b < A * d := by
  have : (a + 1) * d ≤ A * d := Nat.mul_le_mul_right d ha
  rw [Nat.add_mul, Nat.one_mul] at this
  omega

theorem offset3 {a b c d0 d1 d2 : ℕ} (ha : a < d0) (hb : b < d1) (hc : c < d2) (hs : d0 * d1 * d2 ≤ 2 ^ 32) :
    indicesToOffset [a, b, c] [d0, d1, d2] = (a * d1 + b) * d2 + c ∧ (a * d1 + b) * d2 + c < d0 * d1 * d2 := by
  have h1 : a * d1 + b < d0 * d1 := mixed_lt ha hb
  have h2 : (a * d1 + b) * d2 + c < d0 * d1 * d2 := mixed_lt h1 hc
  have h3 : d0 * d1 ≤ d0 * d1 * d2 := Nat.le_mul_of_pos_right _ (by omega)
  refine ⟨?_, h2⟩
  show u32 (u32 (a * d1 + b) * d2 + c) = _
  rw [u32_of_lt (n := a * d1 + b) (by omega), u32_of_lt (by omega)]

theorem offset4 {a b c e d0 d1 d2 d3 : ℕ} (ha : a < d0) (hb : b < d1) (hc : c < d2) (he : e < d3) (hs : d0 * d1 * d2 * d3 ≤ 2 ^ 32) :
    indicesToOffset [a, b, c, e] [d0, d1, d2, d3] = ((a * d1 + b) * d2 + c) * d3 + e ∧
      ((a * d1 + b) * d2 + c) * d3 + e < d0 * d1 * d2 * d3 := by
  have h1 : a * d1 + b < d0 * d1 := mixed_lt ha hb
  have h2 : (a * d1 + b) * d2 + c < d0 * d1 * d2 := mixed_lt h1 hc
  have h3 : ((a * d1 + b) * d2 + c) * d3 + e < d0 * d1 * d2 * d3 := mixed_lt h2 he
  have h4 : d0 * d1 ≤ d0 * d1 * d2 := Nat.le_mul_of_pos_right _ (by omega)
  have h5 : d0 * d1 * d2 ≤ d0 * d1 * d2 * d3 := Nat.le_mul_of_pos_right _ (by omega)
  refine ⟨?_, h3⟩
  show u32 (u32 (u32 (a * d1 + b) * d2 + c) * d3 + e) = _
  rw [u32_of_lt (n := a * d1 + b) (by omega), u32_of_lt (n := (a * d1 + b) * d2 + c) (by omega), u32_of_lt (by omega)]

/-! ### grids -/

theorem ceil_mul {n t q : ℕ} (ht : 0 < t) (hq : q = if n % t > 0 then n / t + 1 else n / t) : n ≤ q * t ∧ q * t < n + t := by
  have h1 := Nat.div_add_mod n t
  have h2 := Nat.mod_lt n ht
  have h3 : n / t * t = t * (n / t) := Nat.mul_comm ..
  subst hq
  split
  · rw [Nat.add_mul, Nat.one_mul]; omega
  · omega

theorem round_down {m w : ℕ} (hw : 0 < w) (hm : w ≤ m) : 0 < m / w * w ∧ m / w * w ≤ m :=
  ⟨Nat.mul_pos (Nat.div_pos hm hw) hw, Nat.div_mul_le_self m w⟩

/-- the grid has at least the requested number of threads, can be launched and is not much larger than requested. -/
theorem estimate_spec (env : Env) (k : Kernel) (n : ℕ) (d : Dev) (hw : 0 < d.prop.warpSize) (hm : 0 < d.prop.multiProcessorCount)
    (hk : d.prop.warpSize ≤ env.maxThreadsPerBlock k) :
    ∃ nb nt, estimateOptimumKernelGrid env k n d = .ok ((nb, nt), d) ∧ 0 < nb ∧ 0 < nt ∧ nt ≤ env.maxThreadsPerBlock k ∧ n ≤ nb * nt ∧
      (n = 0 → nb * nt ≤ d.prop.multiProcessorCount * env.maxThreadsPerBlock k) ∧ (0 < n → nb * nt < n + env.maxThreadsPerBlock k) := by
  unfold estimateOptimumKernelGrid
  dsimp only
  rw [if_neg (by omega)]
  generalize d.prop.warpSize = w at *
  generalize d.prop.multiProcessorCount = B at *
  generalize env.maxThreadsPerBlock k = m at *
  have hM : ∃ M, (if m > w then m / w * w else m) = M ∧ 0 < M ∧ M ≤ m ∧ w ≤ M := by
    refine ⟨_, rfl, ?_⟩
    split
    · have := round_down hw hk
      have h2 : 1 * w ≤ m / w * w := Nat.mul_le_mul_right w (Nat.div_pos hk hw)
      exact ⟨this.1, this.2, by omega⟩
    · exact ⟨by omega, le_refl _, hk⟩
  obtain ⟨M, eM, h0, h1, h2⟩ := hM
  rw [eM]
  by_cases hn : n = 0
  · subst hn
    rw [if_pos rfl]
    refine ⟨B, M, rfl, hm, h0, h1, Nat.zero_le _, fun _ => Nat.mul_le_mul_left B h1, fun h => absurd h (by omega)⟩
  · rw [if_neg hn, if_neg (by omega)]
    by_cases hB : n / M ≥ B
    · rw [if_pos hB]
      refine ⟨_, _, rfl, ?_, h0, h1, ?_⟩
      · split <;> omega
      · have := ceil_mul (n := n) h0 rfl
        exact ⟨this.1, fun h => absurd h hn, fun _ => by omega⟩
    · rw [if_neg hB]
      have ht : ∃ t, (if (if n % B > 0 then n / B + 1 else n / B) > w then (if n % B > 0 then n / B + 1 else n / B) / w * w else w) = t ∧
          0 < t ∧ t ≤ m := by
        refine ⟨_, rfl, ?_⟩
        generalize hc : (if n % B > 0 then n / B + 1 else n / B) = c
        have hcm : c ≤ M := by
          have h3 := (ceil_mul (n := n) hm hc.symm).2
          have h4 : n < B * M := by
            by_contra hge
            exact hB ((Nat.le_div_iff_mul_le h0).mpr (by omega))
          by_contra hgt
          have h5 : (M + 1) * B ≤ c * B := Nat.mul_le_mul_right B (by omega)
          rw [Nat.add_mul, Nat.one_mul, Nat.mul_comm M B] at h5
          omega
        by_cases hcw : c > w
        · rw [if_pos hcw]
          have := round_down hw (le_of_lt hcw)
          exact ⟨this.1, by omega⟩
        · rw [if_neg hcw]
          exact ⟨hw, hk⟩
      obtain ⟨t, et, ht0, htm⟩ := ht
      rw [et, if_neg (by omega)]
      have := ceil_mul (n := n) ht0 rfl
      refine ⟨_, _, rfl, ?_, ht0, htm, this.1, fun h => absurd h hn, fun _ => by omega⟩
      by_contra hz
      have hz' : (if n % t > 0 then n / t + 1 else n / t) = 0 := by omega
      rw [hz', Nat.zero_mul] at this
      omega

theorem grid_eq (nb nt : ℕ) (kernel : ℕ → Prog Unit) (h : nb * nt ≤ 2 ^ 32) : grid nb nt kernel = (List.range (nb * nt)).map kernel := by
  unfold grid
  induction nb with
  | zero => simp
  | succ nb ih =>
    rw [Nat.add_mul, Nat.one_mul] at h ⊢
    rw [List.range_succ, List.flatMap_append, ih (by omega), List.range_add, List.map_append, List.flatMap_singleton, List.map_map]
    congr 1
    refine List.map_congr_left fun t ht => ?_
    have := List.mem_range.mp ht
    rw [Function.comp_apply, u32_of_lt (by omega)]

/-- what a launch leaves in memory. -/
theorem run_spec {env : Env} {k : Kernel} {nb nt : ℕ} {kernel : ℕ → Prog Unit} {d : Dev} {W : ℕ → Prop} (wsf : ℕ → List Wr)
    (hb : 0 < nb) (ht : 0 < nt) (hm : nt ≤ env.maxThreadsPerBlock k) (h32 : nb * nt ≤ 2 ^ 32)
    (hr : ∀ t < nb * nt, Runs d.heap W (kernel t) (wsf t) ())
    (hn : (((List.range (nb * nt)).flatMap wsf).map key).Nodup) :
    ∃ h', run env k nb nt kernel d = .ok ((), { d with heap := h', launches := d.launches + 1 }) ∧ (∀ p, ¬ W p → h' p = d.heap p) ∧
      (∀ p b, d.heap p = some b → ∃ b', h' p = some b' ∧ b'.len = b.len ∧ ∀ t < nb * nt, ∀ o v, (p, o, v) ∈ wsf t → b'.cell o = some v) := by
  have hF : List.Forall₂ (fun t ws => Runs d.heap W t ws ()) ((List.range (nb * nt)).map kernel) ((List.range (nb * nt)).map wsf) := by
    rw [List.forall₂_map_left_iff, List.forall₂_map_right_iff, List.forall₂_same]
    exact fun t ht' => hr t (List.mem_range.mp ht')
  have hl := launch_runs hF (by rwa [← List.flatMap_def]) (env.sched d.launches)
  refine ⟨applyAll d.heap ((List.range (nb * nt)).map wsf).flatten, ?_, ?_, ?_⟩
  · unfold run
    rw [if_neg (by omega), grid_eq _ _ _ h32, hl]
  · intro p hp
    refine applyAll_other ?_ _
    intro w hw e
    rw [← List.flatMap_def, List.mem_flatMap] at hw
    obtain ⟨t, ht', hw⟩ := hw
    exact hp (e ▸ (hr t (List.mem_range.mp ht')).writes w hw)
  · intro p b hpb
    obtain ⟨b', h1, h2, _, h4⟩ := applyAll_block (ws := ((List.range (nb * nt)).map wsf).flatten) d.heap b hpb
    refine ⟨b', h1, h2, fun t ht' o v hv => h4 (by rwa [← List.flatMap_def]) o v ?_⟩
    rw [← List.flatMap_def]
    exact List.mem_flatMap.mpr ⟨t, List.mem_range.mpr ht', hv⟩

/-! ### host code -/

theorem bind_ok {α β : Type} {x : Host α} {f : α → Host β} {d d' : Dev} {a : α} (h : x d = .ok (a, d')) : (x >>= f) d = f a d' := by
  show (x d >>= fun p => f p.1 p.2) = _
  rw [h]
  rfl

/-- `d'` differs from `d` only in memory and counters. -/
def Same (d d' : Dev) : Prop := ∃ h n l, d' = { d with heap := h, next := n, launches := l }

/-- pointers from `next` on are free, 0 is no array. -/
structure WF (d : Dev) : Prop where
  fresh : ∀ q, d.next ≤ q → d.heap q = none
  null : d.heap 0 = none
  pos : 0 < d.next

/-- cascaded sum: `C n b` says that the array `b` of `n` groups of partial sums represents the wanted total. -/
theorem cascade_spec {caller : ℕ → ℕ → ℕ → ℕ → Host Unit} {size : ℕ} (C : ℕ → Block → Prop) (d0 : Dev)
    (N : ℕ)
    (hc : ∀ (d : Dev) (p q n m : ℕ) (b : Block), Same d0 d → d.heap p = some b → C n b → n ≤ N → 0 < m → (m ≤ n ∨ m = 1) → p ≠ q →
      d.heap q = some ⟨size * m, fun _ => none⟩ →
      ∃ b', caller p n q m d = .ok ((), { d with heap := Function.update d.heap q (some b'), launches := d.launches + 1 }) ∧ C m b') :
    ∀ (fuel n : ℕ) (d : Dev) (p : ℕ) (b : Block), n ≤ fuel → n ≤ N → Same d0 d → WF d → d.heap p = some b → C n b →
      ∃ q h' next' l' b', cascadeLoop caller 6 size (fuel + 1) p n d = .ok (q, { d with heap := h', next := next', launches := l' }) ∧
        d.next ≤ q ∧ q < next' ∧ h' = Function.update (Function.update d.heap p none) q (some b') ∧ C 1 b' := by
  have stage : ∀ (fuel n : ℕ) (d : Dev) (p : ℕ) (b : Block), n ≤ N → Same d0 d → WF d → d.heap p = some b → C n b →
      ∃ m b', (m = 1 ∨ 6 < m ∧ m < n) ∧ C m b' ∧ cascadeLoop caller 6 size (fuel + 1) p n d =
        (if m > 6 then cascadeLoop caller 6 size fuel d.next m else pure d.next : Host ℕ)
          { d with heap := Function.update (Function.update d.heap p none) d.next (some b'), next := d.next + 1, launches := d.launches + 1 } := by
    intro fuel n d p b hN hS hW hp hC
    have hpn : p ≠ d.next := fun e => by rw [e, hW.fresh _ (le_refl _)] at hp; exact absurd hp (by simp)
    have hp0 : p ≠ 0 := fun e => by rw [e, hW.null] at hp; exact absurd hp (by simp)
    obtain ⟨m, em⟩ : ∃ m, (if n / 6 ≤ 6 then 1 else n / 6) = m := ⟨_, rfl⟩
    have hm : 0 < m ∧ (m ≤ n ∨ m = 1) ∧ (m = 1 ∨ 6 < m ∧ m < n) := by
      rw [← em]
      split <;> omega
    obtain ⟨h0, n0, l0, hS'⟩ := hS
    obtain ⟨b', e, hC'⟩ := hc { d with heap := Function.update d.heap d.next (some ⟨size * m, fun _ => none⟩), next := d.next + 1 } p d.next n m b
      ⟨_, _, _, by rw [hS']⟩ ((Function.update_of_ne hpn _ _).trans hp) hC hN hm.1 hm.2.1 hpn (Function.update_self ..)
    have hfree : free p { d with heap := Function.update d.heap d.next (some b'), next := d.next + 1, launches := d.launches + 1 } =
        .ok ((), { d with heap := Function.update (Function.update d.heap p none) d.next (some b'), next := d.next + 1, launches := d.launches + 1 }) := by
      unfold free
      rw [if_neg hp0]
      dsimp only
      rw [Function.update_of_ne hpn, hp]
      dsimp only
      rw [Function.update_comm hpn]
    have hgo : cascadeLoop caller 6 size (fuel + 1) p n d =
        (if m > 6 then cascadeLoop caller 6 size fuel d.next m else pure d.next : Host ℕ)
          { d with heap := Function.update (Function.update d.heap p none) d.next (some b'), next := d.next + 1, launches := d.launches + 1 } := by
      conv_lhs => unfold cascadeLoop
      dsimp only
      rw [em]
      refine (bind_ok (a := d.next) (by rfl)).trans ?_
      refine (bind_ok e).trans ?_
      dsimp only
      rw [Function.update_idem]
      exact bind_ok hfree
    exact ⟨m, b', hm.2.2, hC', hgo⟩
  have last : ∀ (fuel : ℕ) (d : Dev) (p : ℕ) (b' : Block), C 1 b' → ∃ q h' next' l' b'',
      (if 1 > 6 then cascadeLoop caller 6 size fuel d.next 1 else pure d.next : Host ℕ)
          { d with heap := Function.update (Function.update d.heap p none) d.next (some b'), next := d.next + 1, launches := d.launches + 1 } =
        .ok (q, { d with heap := h', next := next', launches := l' }) ∧
        d.next ≤ q ∧ q < next' ∧ h' = Function.update (Function.update d.heap p none) q (some b'') ∧ C 1 b'' := by
    intro fuel d p b' hC'
    exact ⟨d.next, _, _, _, b', rfl, le_refl _, Nat.lt_succ_self _, rfl, hC'⟩
  intro fuel
  induction fuel with
  | zero =>
    intro n d p b hf hN hS hW hp hC
    obtain ⟨m, b', hm, hC', hgo⟩ := stage 0 n d p b hN hS hW hp hC
    have hm1 : m = 1 := by omega
    subst hm1
    rw [hgo]
    exact last 0 d p b' hC'
  | succ fuel ih =>
    intro n d p b hf hN hS hW hp hC
    have hpn : p ≠ d.next := fun e => by rw [e, hW.fresh _ (le_refl _)] at hp; exact absurd hp (by simp)
    have hp0 : p ≠ 0 := fun e => by rw [e, hW.null] at hp; exact absurd hp (by simp)
    obtain ⟨m, b', hm, hC', hgo⟩ := stage (fuel + 1) n d p b hN hS hW hp hC
    obtain ⟨h0, n0, l0, hS'⟩ := hS
    rw [hgo]
    by_cases h6 : m > 6
    · rw [if_pos h6]
      have hwf : WF { d with heap := Function.update (Function.update d.heap p none) d.next (some b'), next := d.next + 1, launches := d.launches + 1 } := by
        refine ⟨?_, ?_, Nat.succ_pos _⟩
        · intro q hq
          dsimp only at hq ⊢
          have : q ≠ d.next := by omega
          rw [Function.update_of_ne this]
          by_cases hqp : q = p
          · rw [hqp, Function.update_self]
          · rw [Function.update_of_ne hqp]; exact hW.fresh q (by omega)
        · dsimp only
          rw [Function.update_of_ne (by have := hW.pos; omega), Function.update_of_ne (Ne.symm hp0)]
          exact hW.null
      obtain ⟨q, h', next', l', b'', r1, r2, r3, r4, r5⟩ := ih m _ d.next b' (by omega) (by omega) ⟨_, _, _, by rw [hS']⟩ hwf
        (Function.update_self ..) hC'
      refine ⟨q, h', next', l', b'', r1, ?_, r3, ?_, r5⟩
      · dsimp only at r2; omega
      · rw [r4]
        dsimp only
        rw [Function.update_idem]
        congr 1
        refine Function.update_eq_iff.mpr ⟨?_, fun _ _ => rfl⟩
        rw [Function.update_of_ne (Ne.symm hpn), hW.fresh _ (le_refl _)]
    · rw [if_neg h6]
      have hm1 : m = 1 := by omega
      subst hm1
      exact ⟨d.next, _, _, _, b', rfl, le_refl _, Nat.lt_succ_self _, rfl, hC'⟩

end Rpwa.Cuda
