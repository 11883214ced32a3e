import Verif.Lemmas.CudaHost
/-! `logLikelihood` on the device. -/
namespace Rpwa.Cuda
open Rpwa.Lik

theorem length_flatMap_range {α : Type} (g : ℕ → List α) (D : ℕ) : ∀ A, (∀ i < A, (g i).length = D) → ((List.range A).flatMap g).length = A * D := by
  intro A
  induction A with
  | zero => intro _; simp
  | succ A ih =>
    intro h
    rw [List.range_succ, List.flatMap_append, List.length_append, ih (fun i hi => h i (by omega)), List.flatMap_singleton, h A (by omega),
      Nat.add_mul, Nat.one_mul]

theorem getElem_flatMap_range {α : Type} (g : ℕ → List α) (D : ℕ) : ∀ A, (∀ i < A, (g i).length = D) → ∀ a b, a < A → b < D →
    ((List.range A).flatMap g)[a * D + b]? = (g a)[b]? := by
  intro A
  induction A with
  | zero => intro _ a b ha; omega
  | succ A ih =>
    intro h a b ha hb
    have hl := length_flatMap_range g D A (fun i hi => h i (by omega))
    rw [List.range_succ, List.flatMap_append, List.flatMap_singleton]
    by_cases haA : a < A
    · rw [List.getElem?_append_left (by rw [hl]; exact mixed_lt haA hb)]
      exact ih (fun i hi => h i (by omega)) a b haA hb
    · have : a = A := by omega
      subst this
      rw [List.getElem?_append_right (by rw [hl]; omega), hl, Nat.add_sub_cancel_left]

theorem flatten_length (rank m : ℕ) (V : Amps) : (flatten rank m V).length = rank * 2 * m := by
  unfold flatten
  rw [length_flatMap_range _ (2 * m) rank, Nat.mul_assoc]
  intro r _
  rw [length_flatMap_range _ m 2]
  intro e _
  simp

theorem flatten_get {rank m : ℕ} {V : Amps} {r e w : ℕ} (hr : r < rank) (he : e < 2) (hw : w < m) :
    (flatten rank m V)[(r * 2 + e) * m + w]? = some (V (r, e, w)) := by
  have h1 : ∀ r, ((List.range 2).flatMap fun e => (List.range m).map fun w => V (r, e, w)).length = 2 * m := by
    intro r
    rw [length_flatMap_range _ m 2]
    intro e _
    simp
  have e1 : (r * 2 + e) * m + w = r * (2 * m) + (e * m + w) := by ring
  unfold flatten
  rw [e1, getElem_flatMap_range _ (2 * m) rank (fun r _ => h1 r) r (e * m + w) hr (mixed_lt he hw),
    getElem_flatMap_range _ m 2 (fun e _ => by simp) e w he hw, List.getElem?_map, List.getElem?_range hw]
  rfl

/-- the statics and the device array belong to the data set `L`. -/
structure Loaded (env : Env) (L : LikData) (d : Dev) : Prop where
  wf : WF d
  prop : GoodProp env d.prop
  nmbEvents : d.nmbEvents = L.nmbEvents
  nW0 : d.nW0 = L.nW 0
  nW1 : d.nW1 = L.nW 1
  nWMax : d.nWMax = wMax L
  old : d.decayAmps < d.next
  decay : HasDecay d.heap d.decayAmps L

/-- sizes within the range of `unsigned int`. -/
structure Fits (env : Env) (L : LikData) (pr : DeviceProp) : Prop where
  prod : L.rank * 2 * wMax L * 16 < 2 ^ 32
  decay : 2 * wMax L * L.nmbEvents ≤ 2 ^ 32
  events : L.nmbEvents ≤ 2 ^ 31
  terms : L.rank * 2 * L.nmbEvents ≤ 2 ^ 32
  sums : ∀ k, L.rank * 2 * wMax L * (pr.multiProcessorCount * env.maxThreadsPerBlock k) ≤ 2 ^ 32

theorem allocElems_eq {n : ℕ} (h : n * 16 < 2 ^ 32) : allocElems n = n := by
  unfold allocElems
  rw [u32_of_lt h, Nat.mul_div_cancel _ (by decide)]

theorem HasDecay.mono {h h' : Heap} {p : ℕ} {L : LikData} (hD : HasDecay h p L) (e : h' p = h p) : HasDecay h' p L := by
  intro r w n h1 h2 h3
  rw [← hD r w n h1 h2 h3]
  unfold Heap.get
  rw [e]

theorem HasProd.mono {h h' : Heap} {p : ℕ} {L : LikData} {V : Amps} (hP : HasProd h p L V) (e : h' p = h p) : HasProd h' p L V := by
  intro r w n h1 h2 h3
  rw [← hP r w n h1 h2 h3]
  unfold Heap.get
  rw [e]

theorem slot_lt {L : LikData} {r e w : ℕ} (hr : r < L.rank) (he : e < 2) (hw : w < L.nW e) : (r * 2 + e) * wMax L + w < L.rank * 2 * wMax L :=
  mixed_lt (mixed_lt hr he) (lt_of_lt_of_le hw (nW_le L he))

/-- copy of the production amplitudes to a new device array. -/
theorem copyProd_spec {L : LikData} {V : Amps} (d : Dev) (hs : L.rank * 2 * wMax L * 16 < 2 ^ 32) :
    ∃ b, copyToDevice 16 d.next (flatten L.rank (wMax L) V) (allocElems (flatten L.rank (wMax L) V).length)
        { d with heap := Function.update d.heap d.next (some ⟨allocElems (flatten L.rank (wMax L) V).length, fun _ => none⟩), next := d.next + 1 } =
          .ok ((), { d with heap := Function.update d.heap d.next (some b), next := d.next + 1 }) ∧
      HasProd (Function.update d.heap d.next (some b)) d.next L V := by
  have hl : allocElems (flatten L.rank (wMax L) V).length = L.rank * 2 * wMax L := by rw [flatten_length, allocElems_eq hs]
  refine ⟨⟨L.rank * 2 * wMax L, fun o => if o < L.rank * 2 * wMax L then (flatten L.rank (wMax L) V)[o]?.map Val.cx else none⟩, ?_, ?_⟩
  · rw [hl]
    unfold copyToDevice
    dsimp only
    rw [Function.update_self]
    dsimp only
    rw [if_neg (by rw [flatten_length]; omega), Function.update_idem]
  · intro r e w hr he hw
    have hlt := slot_lt hr he hw
    rw [get_of_block (Function.update_self ..) hlt]
    dsimp only
    rw [if_pos hlt, flatten_get hr he (lt_of_lt_of_le hw (nW_le L he))]
    rfl

theorem free_ok {p : ℕ} {d : Dev} {b : Block} (h0 : p ≠ 0) (hb : d.heap p = some b) :
    free p d = .ok ((), { d with heap := Function.update d.heap p none }) := by
  unfold free
  rw [if_neg h0, hb]

theorem fetch_ok {p : ℕ} {d : Dev} {b : Block} {S : ℝ} (hb : d.heap p = some b) (hC : SumsTo S 1 b) : fetch p d = .ok (S, d) := by
  obtain ⟨hl, f, hf, hS⟩ := hC
  have e : copyToHost p 1 d = .ok ([some (Val.re S)], d) := by
    unfold copyToHost
    rw [hb]
    dsimp only
    rw [if_neg (by omega)]
    have h0 := hf 0 (by omega)
    rw [Finset.sum_range_one] at hS
    rw [hS] at h0
    rw [show (List.range 1).map b.cell = [b.cell 0] from rfl, h0]
  exact (bind_ok e).trans rfl

/-- sum of an array of partial sums that was the last one allocated: the result, the array is released. -/
theorem total_spec {env : Env} {d : Dev} {S : ℝ} {p n : ℕ} {b : Block} (hG : GoodProp env d.prop) (hW : WF d) (hp : d.heap p = some b)
    (hC : SumsTo S n b) (hn : n < 2 ^ 31) :
    ∃ q d1 b', cascadedKernelSum (sumKernelCaller env) 6 p n 1 d = .ok (q, d1) ∧ fetch q d1 = .ok (S, d1) ∧
      d1.heap = Function.update (Function.update d.heap p none) q (some b') ∧ d.next ≤ q ∧ q < d1.next ∧ Same d d1 := by
  obtain ⟨q, h', next', l', b', e, h1, h2, h3, h4⟩ := cascade_spec (caller := sumKernelCaller env) (size := 1) (SumsTo S) d n
    (fun d' p q n' m b hS hp hC hn' hm hmn hpq hq => by
      obtain ⟨_, _, _, hS⟩ := hS
      exact sumCaller_spec (by rw [hS]; exact hG) hp hC (by omega) hm hmn hpq hq)
    n n d p b (le_refl _) (le_refl _) ⟨d.heap, d.next, d.launches, rfl⟩ hW hp hC
  refine ⟨q, _, b', e, fetch_ok (b := b') ?_ h4, h3, h1, h2, ⟨_, _, _, rfl⟩⟩
  dsimp only
  rw [h3, Function.update_self]

/-- likelihoodInterface::logLikelihood: the value, and the device memory is as before. -/
theorem logLikelihood_spec {env : Env} {L : LikData} {d : Dev} (hL : Loaded env L d) (hF : Fits env L d.prop) (V : Amps) (flat : ℝ) :
    ∃ next' l', d.next ≤ next' ∧
      logLikelihood env 16 (flatten L.rank (wMax L) V) (flatten L.rank (wMax L) V).length flat L.rank d =
        .ok (∑ n ∈ Finset.range L.nmbEvents, -Real.log (L.sigma V flat n), { d with next := next', launches := l' }) := by
  obtain ⟨bP, eP, hP⟩ := copyProd_spec (V := V) d hF.prod
  have hpos := hL.wf.pos
  -- allocations
  generalize hd1 : ({ d with heap := Function.update d.heap d.next (some bP), next := d.next + 1 } : Dev) = d1 at eP
  have g1 : GoodProp env d1.prop := by rw [← hd1]; exact hL.prop
  obtain ⟨nb, nt, eg, h1, h2, h3, _, h5, _⟩ := estimate_spec env .logLikelihood 0 d1 g1.warp g1.mp (g1.block _)
  have hT : nb * nt < 2 ^ 31 := lt_of_le_of_lt (h5 rfl) (g1.size _)
  have hu : u32 (nb * nt) = nb * nt := u32_of_lt (by omega)
  obtain ⟨T, eT⟩ : ∃ T, nb * nt = T := ⟨_, rfl⟩
  have hT0 : 0 < T := eT ▸ Nat.mul_pos h1 h2
  let b0 : Block := ⟨T, fun _ => none⟩
  let d2 : Dev := { d1 with heap := Function.update d1.heap d1.next (some b0), next := d1.next + 1 }
  have n1 : d1.next = d.next + 1 := by rw [← hd1]
  have hP1 : d1.heap = Function.update d.heap d.next (some bP) := by rw [← hd1]
  have hP2 : HasProd d2.heap d.next L V := hP.mono (by
    show Function.update d1.heap d1.next (some b0) d.next = _
    rw [Function.update_of_ne (by omega), hP1])
  have hne : d.decayAmps ≠ d.next := by have := hL.old; omega
  have hD2 : HasDecay d2.heap d.decayAmps L := hL.decay.mono (by
    show Function.update d1.heap d1.next (some b0) d.decayAmps = _
    rw [Function.update_of_ne (by have := hL.old; omega), hP1, Function.update_of_ne hne])
  have hout : d2.heap d1.next = some b0 := Function.update_self ..
  have hev := hF.events
  obtain ⟨b1, er, hl1, hc1⟩ := run_single (env := env) (k := .logLikelihood) (d := d2)
    (kernel := logLikelihoodKernel d.next (flat * flat) d.decayAmps L.nmbEvents L.rank (L.nW 0) (L.nW 1) (wMax L) d1.next T)
    (fun t => [(d1.next, t, .re (∑ n ∈ evts L.nmbEvents T t, -Real.log (L.sigma V flat n)))]) h1 h2 h3 (by omega) hout
    (fun t ht => logLikelihood_runs hP2 hD2 (by omega) (by have := hL.old; omega) (by have := hF.prod; omega) hF.decay (by omega)
      (by omega) hout rfl)
    (by
      refine nodup_keys List.nodup_range _ (fun _ _ => by simp) ?_
      intro t _ t' _ hne w hw w' hw' ek
      rw [List.mem_singleton] at hw hw'
      subst hw hw'
      exact hne (congrArg Prod.snd ek))
  have hC1 : SumsTo (∑ n ∈ Finset.range L.nmbEvents, -Real.log (L.sigma V flat n)) T b1 := by
    refine ⟨hl1, _, fun t ht => hc1 t (by omega) t _ (List.mem_singleton.mpr rfl), ?_⟩
    exact sum_threads L.nmbEvents T hT0 _
  -- release of the production amplitudes
  let d3 : Dev := { d2 with heap := Function.update d2.heap d1.next (some b1), launches := d2.launches + 1 }
  let d4 : Dev := { d3 with heap := Function.update d3.heap d.next none }
  have h3P : d3.heap d.next = some bP := by
    show Function.update (Function.update d1.heap d1.next (some b0)) d1.next (some b1) d.next = _
    rw [Function.update_of_ne (by omega), Function.update_of_ne (by omega), hP1, Function.update_self]
  have ef : free d.next d3 = .ok ((), d4) := free_ok (by omega) h3P
  have h4h : d4.heap = Function.update d.heap (d.next + 1) (some b1) := by
    show Function.update (Function.update (Function.update d1.heap d1.next (some b0)) d1.next (some b1)) d.next none = _
    rw [Function.update_idem, hP1, n1]
    funext x
    by_cases hx : x = d.next
    · rw [hx, Function.update_self, Function.update_of_ne (by omega), hL.wf.fresh _ (le_refl _)]
    · rw [Function.update_of_ne hx]
      by_cases hx1 : x = d.next + 1
      · rw [hx1, Function.update_self, Function.update_self]
      · rw [Function.update_of_ne hx1, Function.update_of_ne hx, Function.update_of_ne hx1]
  have n4 : d4.next = d.next + 2 := by show d1.next + 1 = _; rw [n1]
  have wf4 : WF d4 := by
    refine ⟨?_, ?_, by omega⟩
    · intro q hq
      rw [h4h, Function.update_of_ne (by omega), hL.wf.fresh q (by omega)]
    · rw [h4h, Function.update_of_ne (by omega), hL.wf.null]
  obtain ⟨q, d5, b5, e5, e6, h5h, hq1, hq2, S5⟩ := total_spec (env := env) (d := d4) (p := d.next + 1) (n := T)
    g1 wf4 (by rw [h4h, Function.update_self]) hC1 (by omega)
  have ef6 : free q d5 = .ok ((), { d5 with heap := Function.update d5.heap q none }) :=
    free_ok (by omega) (by rw [h5h, Function.update_self])
  obtain ⟨h5', n5', l5', S5⟩ := S5
  have hfin : Function.update d5.heap q none = d.heap := by
    rw [h5h, Function.update_idem, h4h, Function.update_idem]
    funext x
    by_cases hx : x = q
    · rw [hx, Function.update_self, hL.wf.fresh q (by omega)]
    · rw [Function.update_of_ne hx]
      by_cases hx1 : x = d.next + 1
      · rw [hx1, Function.update_self, hL.wf.fresh _ (by omega)]
      · rw [Function.update_of_ne hx1]
  refine ⟨d5.next, d5.launches, by omega, ?_⟩
  unfold logLikelihood
  refine (bind_ok (a := d.next) rfl).trans ?_
  refine (bind_ok eP).trans ?_
  refine (bind_ok eg).trans ?_
  dsimp only
  rw [hu, eT]
  refine (bind_ok (a := d1.next) (d' := d2) rfl).trans ?_
  refine (bind_ok (a := d2) (d' := d2) rfl).trans ?_
  have s1 : d2.decayAmps = d.decayAmps := by show d1.decayAmps = _; rw [← hd1]
  have s2 : d2.nmbEvents = L.nmbEvents := by rw [← hL.nmbEvents]; show d1.nmbEvents = _; rw [← hd1]
  have s3 : d2.nW0 = L.nW 0 := by rw [← hL.nW0]; show d1.nW0 = _; rw [← hd1]
  have s4 : d2.nW1 = L.nW 1 := by rw [← hL.nW1]; show d1.nW1 = _; rw [← hd1]
  have s5 : d2.nWMax = wMax L := by rw [← hL.nWMax]; show d1.nWMax = _; rw [← hd1]
  rw [s1, s2, s3, s4, s5]
  refine (bind_ok er).trans ?_
  refine (bind_ok ef).trans ?_
  rw [n1]
  refine (bind_ok e5).trans ?_
  refine (bind_ok e6).trans ?_
  refine (bind_ok ef6).trans ?_
  show Outcome.ok _ = _
  rw [hfin, S5]
  have : ({ d4 with heap := d.heap, next := n5', launches := l5' } : Dev) = { d with next := n5', launches := l5' } := by
    show ({ d1 with heap := d.heap, next := n5', launches := l5' } : Dev) = _
    rw [← hd1]
  rw [this]

end Rpwa.Cuda
