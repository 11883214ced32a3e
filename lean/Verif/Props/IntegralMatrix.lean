import Verif.Lemmas.IntegralMatrix
import Mathlib.Algebra.BigOperators.Field
/-!
# C19–C21: integral matrices are sums over events; merging by name; scaling
-/
namespace Rpwa.Integral
open scoped ComplexConjugate

/-! ## C19 -/

theorem integrate_ok (m : IntMat) (trees : List AmpTree) (mx : ℤ) (w : Option WeightFile)
    (b : Option (ℕ × (ℕ → Bool))) (hm : m.WF) (hn : (trees.map (·.wave)).Nodup) (r : IntMat)
    (h : m.integrate trees mx w b = .ok (true, r)) :
    r.WF ∧ r.names = trees.map (·.wave) ∧ r.nmbEvents = (selectedEvents trees mx b).length ∧
    (∀ ws, w = some ws → (selectedEvents trees mx b).length ≤ ws.length) ∧
    ∀ x ∈ r.names, ∀ y ∈ r.names, r.entry x y = sampleSum (treeSample trees mx w b) x y := by
  unfold IntMat.integrate at h
  cases trees with
  | nil => simp at h
  | cons t ts =>
    simp only at h
    split at h
    · simp at h
    rename_i m1 hstart
    have h1 : m1.nmbWaves = (t :: ts).length ∧ m1.names = (t :: ts).map (·.wave) := by
      split at hstart
      · injection hstart with hstart; subst hstart; simp
      · split at hstart
        · split at hstart
          · rename_i _ hl he
            injection hstart with hstart; subst hstart
            exact ⟨by rw [hm.waves, hl], he.symm⟩
          · simp at hstart
        · simp at hstart
    split at h
    · simp at h
    split at h
    · simp at h
    have hsel : ∀ inBin : Option (ℕ → Bool), (match b with | some (_, test) => some test | none => none) = inBin →
        selUpTo inBin (if mx ≤ 0 then t.events.length else min t.events.length mx.toNat) = selectedEvents (t :: ts) mx b := by
      intro inBin hb
      subst hb
      unfold selUpTo selectedEvents
      simp only [List.head?_cons, Option.map_some, Option.getD_some]
      congr 1
      funext ev
      cases b <;> simp
    cases b with
    | some et =>
      obtain ⟨entries, test⟩ := et
      simp only at h
      by_cases hent : entries = t.events.length
      · rw [if_neg (by simpa using hent)] at h
        obtain ⟨r1, r2, r3, _, r4, r5⟩ := finish_ok _ _ _ _ _ (by simp) hn (by exact h1.1) (by exact h1.2) r h
        have hsel := hsel (some test) rfl
        rw [hsel] at r3 r4 r5
        exact ⟨r1, r2, r3, r4, r5⟩
      · rw [if_pos (by simpa using hent)] at h; simp at h
    | none =>
      simp only at h
      obtain ⟨r1, r2, r3, _, r4, r5⟩ := finish_ok _ _ _ _ _ (by simp) hn (by exact h1.1) (by exact h1.2) r h
      have hsel := hsel none rfl
      rw [hsel] at r3 r4 r5
      exact ⟨r1, r2, r3, r4, r5⟩

theorem sampleSum_append (s t : List (ℝ × (String → ℂ))) (a b : String) :
    sampleSum (s ++ t) a b = sampleSum s a b + sampleSum t a b := by simp [sampleSum]

theorem sampleSum_scale (c : ℝ) (s : List (ℝ × (String → ℂ))) (a b : String) :
    sampleSum (s.map fun wf => (c * wf.1, wf.2)) a b = sampleSum s a b * (c : ℂ) := by
  unfold sampleSum
  rw [← List.sum_map_mul_right]
  simp only [List.map_map, Function.comp_def]
  congr 1
  apply List.map_congr_left
  intro wf _
  push_cast; ring

theorem empty_wf : empty.WF := ⟨rfl, rfl, rfl⟩

theorem history_spec (h : History) (hs : h.Sensible) (m : IntMat) (hr : h.run = some m) :
    m.WF ∧ m.names = h.waves ∧ m.names.Nodup ∧ m.nmbEvents = h.events ∧
    ∀ a ∈ m.names, ∀ b ∈ m.names, m.entry a b = sampleSum h.sample a b := by
  induction h generalizing m with
  | fresh ns =>
    simp [History.run, IntMat.setWaveNames, empty, IntMat.resize] at hr
    subst hr
    refine ⟨⟨rfl, rfl, rfl⟩, rfl, hs, rfl, ?_⟩
    intro a _ b _
    simp [IntMat.entry, History.sample, sampleSum]
  | addEvent h amps ih =>
    simp only [History.run, Option.bind_eq_some_iff] at hr
    obtain ⟨m0, h0, hr⟩ := hr
    obtain ⟨w, n, nd, ne, en⟩ := ih hs m0 h0
    rw [addEvent_ok m0 w] at hr
    by_cases hall : m0.names.all (fun n => (amps n).isSome) = true
    · rw [if_pos hall] at hr
      simp only [Option.some.injEq] at hr; subst hr
      rw [n] at hall
      refine ⟨⟨w.waves, w.rows, w.cols⟩, n, nd, by simp [History.events, hall, ne], ?_⟩
      intro a ha b hb
      have ia := List.idxOf_lt_length_of_mem ha
      have ib := List.idxOf_lt_length_of_mem hb
      simp only [History.sample, hall, if_true]
      rw [sampleSum_append, ← en a ha b hb]
      simp only [IntMat.entry] at *
      rw [if_pos ⟨ia, ib⟩, getD_idxOf ha, getD_idxOf hb]
      simp [sampleSum]
    · rw [if_neg hall] at hr
      simp at hr; subst hr
      rw [n] at hall
      refine ⟨w, n, nd, by simp [History.events, hall, ne], ?_⟩
      intro a ha b hb
      simp only [History.sample]
      rw [if_neg hall]
      exact en a ha b hb
  | merge h g ihh ihg =>
    simp only [History.run, Option.bind_eq_some_iff] at hr
    obtain ⟨m0, h0, o, ho, hr⟩ := hr
    obtain ⟨w, n, nd, ne, en⟩ := ihh hs.1 m0 h0
    obtain ⟨w', n', nd', ne', en'⟩ := ihg hs.2 o ho
    rw [addAssign_ok m0 o w w'] at hr
    split at hr
    · rename_i m' hm'
      split at hm'
      · rename_i hsame
        injection hm' with hm'; injection hr with hr; subst hr; subst hm'
        refine ⟨⟨w.waves, w.rows, w.cols⟩, n, nd, by simp [History.events, ne, ne'], ?_⟩
        intro a ha b hb
        have ia := List.idxOf_lt_length_of_mem ha
        have ib := List.idxOf_lt_length_of_mem hb
        simp only [History.sample]
        rw [sampleSum_append, ← en a ha b hb, ← en' a (hsame.2.1 ha) b (hsame.2.1 hb)]
        simp only [IntMat.entry] at *
        rw [if_pos ⟨ia, ib⟩, getD_idxOf ha, getD_idxOf hb]
      · simp at hm'
    · simp at hr
  | renormalize h k ih =>
    simp only [History.run, Option.bind_eq_some_iff] at hr
    obtain ⟨m0, h0, hr⟩ := hr
    obtain ⟨w, n, nd, ne, en⟩ := ih hs.1 m0 h0
    rw [renormalize_ok m0 w] at hr
    simp at hr; subst hr
    refine ⟨⟨w.waves, w.rows, w.cols⟩, n, nd, rfl, ?_⟩
    intro a ha b hb
    have ia := List.idxOf_lt_length_of_mem ha
    have ib := List.idxOf_lt_length_of_mem hb
    simp only [History.sample]
    rw [sampleSum_scale, ← en a ha b hb, ← ne]
    simp only [IntMat.entry] at *
    rw [if_pos ⟨ia, ib⟩]
    push_cast; rfl
  | integrate ts mx w b =>
    simp only [History.run] at hr
    split at hr
    · rename_i m' hi
      simp at hr; subst hr
      obtain ⟨r1, r2, r3, _, r5⟩ := integrate_ok _ ts mx w b empty_wf hs.1 _ hi
      exact ⟨r1, r2, by rw [r2]; exact hs.1, r3, r5⟩
    · simp at hr
  | reintegrate h ts mx w b ih =>
    simp only [History.run, Option.bind_eq_some_iff] at hr
    obtain ⟨m0, h0, hr⟩ := hr
    split at hr
    · rename_i m' hi
      simp at hr; subst hr
      obtain ⟨r1, r2, r3, _, r5⟩ := integrate_ok _ ts mx w b (ih hs.1 m0 h0).1 hs.2.1 _ hi
      exact ⟨r1, r2, by rw [r2]; exact hs.2.1, r3, r5⟩
    · simp at hr

/-- C19: after any sequence of event contributions, integrations, merges and renormalisations, the matrix element of two waves
is the weighted sum over the events divided by the event number. -/
theorem element_is_event_average (h : History) (hs : h.Sensible) (m : IntMat) (hr : h.run = some m)
    (a b : String) (ha : a ∈ h.waves) (hb : b ∈ h.waves) :
    m.elementByName a b = .ok (sampleSum h.sample a b / (h.events : ℂ)) ∧ m.nmbEvents = h.events := by
  obtain ⟨w, n, nd, ne, en⟩ := history_spec h hs m hr
  rw [← n] at ha hb
  rw [elementByName_ok m w a b ha hb, en a ha b hb, ne]
  exact ⟨rfl, rfl⟩

theorem eventWeight_nonneg (w : Option WeightFile) (hw : ∀ ws, w = some ws → ∀ x ∈ ws, 0 < x) (n k : ℕ) :
    0 ≤ eventWeight w n k := by
  have hf : ∀ q, 0 ≤ fileWeight w q := by
    intro q
    cases w with
    | none => simp [fileWeight]
    | some ws =>
      simp only [fileWeight]
      by_cases hq : q < ws.length
      · have := hw ws rfl _ (List.getElem_mem hq)
        simp [hq, this.le]
      · simp [hq]
  unfold eventWeight
  cases w with
  | none => simp
  | some ws =>
    simp only
    apply mul_nonneg (one_div_nonneg.2 (hf k))
    apply div_nonneg (Nat.cast_nonneg _)
    apply List.sum_nonneg
    intro x hx
    obtain ⟨q, _, rfl⟩ := List.mem_map.1 hx
    exact one_div_nonneg.2 (hf q)

theorem sample_nonneg (h : History) (hs : h.Sensible) : ∀ wf ∈ h.sample, 0 ≤ wf.1 := by
  have tree : ∀ ts mx w b, (∀ ws, w = some ws → (∀ x ∈ ws, 0 < x) ∧ selectedEvents ts mx b ≠ []) →
      ∀ wf ∈ treeSample ts mx w b, 0 ≤ wf.1 := by
    intro ts mx w b hw wf hwf
    simp only [treeSample, List.mem_flatMap, List.mem_map] at hwf
    obtain ⟨_, _, _, _, rfl⟩ := hwf
    exact eventWeight_nonneg w (fun ws hws => (hw ws hws).1) _ _
  induction h with
  | fresh ns => simp [History.sample]
  | addEvent h amps ih =>
    simp only [History.sample]
    split
    · intro wf hwf
      rcases List.mem_append.1 hwf with hwf | hwf
      · exact ih hs wf hwf
      · rw [List.mem_singleton] at hwf; subst hwf; simp
    · exact ih hs
  | merge h g ihh ihg =>
    intro wf hwf
    rcases List.mem_append.1 hwf with hwf | hwf
    · exact ihh hs.1 wf hwf
    · exact ihg hs.2 wf hwf
  | renormalize h n ih =>
    intro wf hwf
    simp only [History.sample, List.mem_map] at hwf
    obtain ⟨x, hx, rfl⟩ := hwf
    have := ih hs.1 x hx
    positivity
  | integrate ts mx w b => exact tree ts mx w b hs.2
  | reintegrate h ts mx w b ih => exact tree ts mx w b hs.2.2

theorem sampleSum_conj (s : List (ℝ × (String → ℂ))) (a b : String) : conj (sampleSum s a b) = sampleSum s b a := by
  unfold sampleSum
  rw [map_list_sum]
  congr 1
  rw [List.map_map]
  apply List.map_congr_left
  intro wf _
  simp; ring

/-- C19: the matrix of elements is Hermitian. -/
theorem element_hermitian (h : History) (hs : h.Sensible) (m : IntMat) (hr : h.run = some m)
    (a b : String) (ha : a ∈ h.waves) (hb : b ∈ h.waves) :
    ∃ z, m.elementByName a b = .ok z ∧ m.elementByName b a = .ok (conj z) := by
  refine ⟨_, (element_is_event_average h hs m hr a b ha hb).1, ?_⟩
  rw [(element_is_event_average h hs m hr b a hb ha).1]
  simp [sampleSum_conj]

theorem finsum_list {α : Type} (s : List α) (n : ℕ) (f : ℕ → ℕ → α → ℂ) :
    (∑ i ∈ Finset.range n, ∑ j ∈ Finset.range n, (s.map (f i j)).sum) =
      (s.map fun x => ∑ i ∈ Finset.range n, ∑ j ∈ Finset.range n, f i j x).sum := by
  induction s with
  | nil => simp
  | cons x s ih =>
    simp only [List.map_cons, List.sum_cons, Finset.sum_add_distrib]
    rw [ih]

/-- C19: the matrix of elements is positive semidefinite (as returned by index, in the order of the wave names). -/
theorem element_psd (h : History) (hs : h.Sensible) (m : IntMat) (hr : h.run = some m) (c : ℕ → ℂ) :
    ∃ E : ℕ → ℕ → ℂ, (∀ i < m.nmbWaves, ∀ j < m.nmbWaves, m.element i j = .ok (E i j)) ∧
      ∃ x : ℝ, 0 ≤ x ∧ ∑ i ∈ Finset.range m.nmbWaves, ∑ j ∈ Finset.range m.nmbWaves, c i * E i j * conj (c j) = (x : ℂ) := by
  obtain ⟨w, n, nd, ne, en⟩ := history_spec h hs m hr
  have hpos := sample_nonneg h hs
  refine ⟨fun i j => m.mat i j / (m.nmbEvents : ℂ), ?_, ?_⟩
  · intro i hi j hj
    rw [w.waves] at hi hj
    exact element_ok m w i j hi hj
  · have hE : ∀ i < m.nmbWaves, ∀ j < m.nmbWaves,
        m.mat i j = sampleSum h.sample (m.names.getD i "") (m.names.getD j "") := by
      intro i hi j hj
      rw [w.waves] at hi hj
      have := en (m.names.getD i "") (by simp [hi]) (m.names.getD j "") (by simp [hj])
      rw [← this]
      unfold IntMat.entry
      have e : ∀ k (hk : k < m.names.length), m.names.idxOf (m.names.getD k "") = k := by
        intro k hk
        rw [show m.names.getD k "" = m.names[k] by simp [hk]]
        exact nd.idxOf_getElem k hk
      rw [e i hi, e j hj]
    refine ⟨(h.sample.map fun wf => wf.1 *
      Complex.normSq (∑ i ∈ Finset.range m.nmbWaves, c i * wf.2 (m.names.getD i ""))).sum / m.nmbEvents, ?_, ?_⟩
    · apply div_nonneg _ (Nat.cast_nonneg _)
      apply List.sum_nonneg
      intro x hx
      obtain ⟨wf, hwf, rfl⟩ := List.mem_map.1 hx
      exact mul_nonneg (hpos wf hwf) (Complex.normSq_nonneg _)
    · have : ∑ i ∈ Finset.range m.nmbWaves, ∑ j ∈ Finset.range m.nmbWaves, c i * (m.mat i j / (m.nmbEvents : ℂ)) * conj (c j)
          = (∑ i ∈ Finset.range m.nmbWaves, ∑ j ∈ Finset.range m.nmbWaves,
            (h.sample.map fun wf => (wf.1 : ℂ) * (c i * wf.2 (m.names.getD i "")) *
              conj (c j * wf.2 (m.names.getD j ""))).sum) / (m.nmbEvents : ℂ) := by
        rw [Finset.sum_div]
        apply Finset.sum_congr rfl
        intro i hi
        rw [Finset.sum_div]
        apply Finset.sum_congr rfl
        intro j hj
        rw [hE i (Finset.mem_range.1 hi) j (Finset.mem_range.1 hj)]
        unfold sampleSum
        rw [mul_div_assoc', div_mul_eq_mul_div, ← List.sum_map_mul_left, ← List.sum_map_mul_right]
        congr 2
        apply List.map_congr_left
        intro wf _
        simp only [map_mul]; ring
      rw [this, finsum_list]
      push_cast
      congr 1
      rw [show ∀ l : List ℝ, ((l.sum : ℝ) : ℂ) = (l.map (fun x : ℝ => (x : ℂ))).sum from fun l => by
        induction l with
        | nil => simp
        | cons x l ih => simp [ih]]
      rw [List.map_map]
      congr 1
      apply List.map_congr_left
      intro wf _
      simp only [Function.comp]
      push_cast
      rw [← Complex.mul_conj, map_sum, Finset.sum_mul_sum, Finset.mul_sum]
      apply Finset.sum_congr rfl
      intro i _
      rw [Finset.mul_sum]
      apply Finset.sum_congr rfl
      intro j _
      ring

/-- amplitudes of the examples. -/
private noncomputable def amps1 : String → Option ℂ
  | "a" => some 1
  | "b" => some Complex.I
  | _ => none

/-- Non-vacuity: a merge of two matrices with different wave order, followed by a renormalisation, runs. -/
noncomputable example : ∃ m, (History.renormalize (.merge (.addEvent (.fresh ["a", "b"]) amps1)
    (.addEvent (.addEvent (.fresh ["b", "a"]) amps1) amps1)) 30).run = some m ∧
    m.elementByName "a" "b" = .ok (-Complex.I) := by
  have hrun : ∀ m, (History.renormalize (.merge (.addEvent (.fresh ["a", "b"]) amps1)
    (.addEvent (.addEvent (.fresh ["b", "a"]) amps1) amps1)) 30).run = some m → m.elementByName "a" "b" = .ok (-Complex.I) := by
    intro m hm
    have := (element_is_event_average _ (by simp [History.Sensible, History.events, History.waves, amps1]) m hm "a" "b"
      (by simp [History.waves]) (by simp [History.waves])).1
    rw [this]
    simp [History.sample, History.events, History.waves, amps1, sampleSum]
    ring
  suffices h : ((History.renormalize (.merge (.addEvent (.fresh ["a", "b"]) amps1)
    (.addEvent (.addEvent (.fresh ["b", "a"]) amps1) amps1)) 30).run).isSome by
    obtain ⟨m, hm⟩ := Option.isSome_iff_exists.1 h
    exact ⟨m, hm, hrun m hm⟩
  have f : ∀ ns : List String, ns.Nodup → ∃ m, (History.fresh ns).run = some m ∧ m.WF ∧ m.names = ns := by
    intro ns hn
    refine ⟨_, by simp [History.run, IntMat.setWaveNames, empty, IntMat.resize]; rfl, ⟨rfl, rfl, rfl⟩, rfl⟩
  have ad : ∀ h : History, (∃ m, h.run = some m ∧ m.WF ∧ m.names = h.waves) →
      ∃ m, (History.addEvent h amps1).run = some m ∧ m.WF ∧ m.names = h.waves := by
    rintro h ⟨m, hm, hw, hn⟩
    simp only [History.run, hm, Option.bind_some, addEvent_ok m hw]
    split
    · rename_i x hx
      split at hx
      · injection hx with hx
        injection hx with hx1 hx2
        subst hx2
        exact ⟨_, rfl, ⟨hw.waves, hw.rows, hw.cols⟩, hn⟩
      · injection hx with hx
        injection hx with hx1 hx2
        subst hx2
        exact ⟨_, rfl, hw, hn⟩
    · rename_i hx
      split at hx <;> exact absurd rfl (hx _ _)
  obtain ⟨m1, r1, w1, n1⟩ := ad _ (f ["a", "b"] (by simp))
  obtain ⟨m2, r2, w2, n2⟩ := ad _ (ad _ (f ["b", "a"] (by simp)))
  have hs : m1.names.length = m2.names.length ∧ m1.names ⊆ m2.names ∧ m2.names ⊆ m1.names := by
    rw [n1, n2]; simp [History.waves]
  rw [History.run, History.run, r1, r2]
  simp only [Option.bind_some]
  rw [addAssign_ok m1 m2 w1 w2, if_pos hs]
  simp only [Option.bind_some]
  rw [renormalize_ok]
  · rfl
  · exact ⟨w1.waves, w1.rows, w1.cols⟩

/-- Finding: an `integrate` call that is refused because the event tree has a different number of entries reports failure
but has already overwritten the event number, so the elements of the matrix are changed. -/
theorem refused_integrate_changes_elements : ∃ (m : IntMat) (trees : List AmpTree) (m' : IntMat), m.WF ∧
    m.integrate trees 0 none (some (5, fun _ => true)) = .ok (false, m') ∧
    m.elementByName "a" "a" = .ok 1 ∧ m'.elementByName "a" "a" = .ok 2 := by
  refine ⟨⟨1, ["a"], 4, 1, 1, fun _ _ => 4, []⟩, [⟨"a", [[1], [1]]⟩], ⟨1, ["a"], 2, 1, 1, fun _ _ => 4, []⟩,
    ⟨rfl, rfl, rfl⟩, ?_, ?_, ?_⟩
  · simp [IntMat.integrate, IntMat.allWavesHaveDesc]
  · rw [elementByName_ok _ ⟨rfl, rfl, rfl⟩ _ _ (by simp) (by simp)]
    simp [IntMat.entry]
  · rw [elementByName_ok _ ⟨rfl, rfl, rfl⟩ _ _ (by simp) (by simp)]
    simp [IntMat.entry]; norm_num

/-! ## C20 -/

/-- C20: matrices without repeated waves can be added iff they have the same waves in any order; otherwise the call aborts. -/
theorem addAssign_iff (m o : IntMat) (hm : m.WF) (ho : o.WF) (nm : m.names.Nodup) (no : o.names.Nodup) :
    ((∃ r, m.addAssign o = .ok r) ↔ m.names.Perm o.names) ∧ (m.addAssign o = .terminate ↔ ¬ m.names.Perm o.names) := by
  have key : (m.names.length = o.names.length ∧ m.names ⊆ o.names ∧ o.names ⊆ m.names) ↔ m.names.Perm o.names := by
    constructor
    · rintro ⟨_, h1, h2⟩
      exact (List.perm_ext_iff_of_nodup nm no).2 fun a => ⟨fun h => h1 h, fun h => h2 h⟩
    · intro h
      exact ⟨h.length_eq, h.subset, h.symm.subset⟩
  rw [addAssign_ok m o hm ho]
  by_cases h : m.names.length = o.names.length ∧ m.names ⊆ o.names ∧ o.names ⊆ m.names
  · rw [if_pos h]; simp [key.1 h]
  · rw [if_neg h]; simp [mt key.2 h]

/-- C20: the sum has the waves of the left operand and for every pair of wave names the sum of the two entries. -/
theorem addAssign_by_name (m o r : IntMat) (hm : m.WF) (ho : o.WF) (h : m.addAssign o = .ok r) :
    r.WF ∧ r.names = m.names ∧ r.nmbEvents = m.nmbEvents + o.nmbEvents ∧
    ∀ a ∈ m.names, ∀ b ∈ m.names, r.entry a b = m.entry a b + o.entry a b := by
  rw [addAssign_ok m o hm ho] at h
  split at h
  · injection h with h; subst h
    refine ⟨⟨hm.waves, hm.rows, hm.cols⟩, rfl, rfl, fun a ha b hb => ?_⟩
    have ia := List.idxOf_lt_length_of_mem ha
    have ib := List.idxOf_lt_length_of_mem hb
    simp only [IntMat.entry]
    rw [if_pos ⟨ia, ib⟩, getD_idxOf ha, getD_idxOf hb]
  · simp at h

theorem eq_ok (m o : IntMat) (hm : m.WF) (ho : o.WF) :
    m.eq o = .ok true ↔ (m.names.length = o.names.length ∧ m.names ⊆ o.names ∧ o.names ⊆ m.names) ∧
      m.nmbEvents = o.nmbEvents ∧
      ∀ i j, i < m.names.length → j < m.names.length → m.mat i j = o.entry (m.names.getD i "") (m.names.getD j "") := by
  unfold IntMat.eq
  rw [hasIdentical_ok m o hm ho]
  by_cases h : m.names.length = o.names.length ∧ m.names ⊆ o.names ∧ o.names ⊆ m.names
  · rw [decide_eq_true h]
    simp only [Outcome.ok_bind, Bool.true_eq_false, if_false]
    by_cases hne : m.nmbEvents = o.nmbEvents
    · rw [if_neg (by simpa using hne)]
      have hget : ∀ i < m.names.length, m.names.getD i "" ∈ o.names := fun i hi => by
        have := h.2.1 (List.getElem_mem hi); simpa [hi] using this
      have inner : ∀ i < m.nmbWaves, (do
          let ni ← m.waveName i
          allOutcome (fun j => do
            let nj ← m.waveName j
            let z ← m.get i j
            let oi ← o.waveIndex ni
            let oj ← o.waveIndex nj
            let w ← o.get oi oj
            .ok (by classical exact decide (z = w))) m.nmbWaves) =
          .ok ((List.range m.nmbWaves).all fun j => by
            classical exact decide (m.mat i j = o.entry (m.names.getD i "") (m.names.getD j ""))) := by
        intro i hi
        rw [hm.waves] at hi
        rw [waveName_ok m i hi]
        simp only [Outcome.ok_bind]
        apply allOutcome_ok
        intro j hj
        rw [hm.waves] at hj
        rw [waveName_ok m j hj]
        have ei : m.names[i] = m.names.getD i "" := by simp [hi]
        have ej : m.names[j] = m.names.getD j "" := by simp [hj]
        simp only [Outcome.ok_bind, ei, ej]
        rw [waveIndex_ok o _ (hget i hi), waveIndex_ok o _ (hget j hj)]
        have a1 := List.idxOf_lt_length_of_mem (hget i hi)
        have a2 := List.idxOf_lt_length_of_mem (hget j hj)
        simp only [Outcome.ok_bind, IntMat.get, hm.rows, hm.cols, ho.rows, ho.cols, hi, hj, a1, a2, and_self, if_true]
        rfl
      rw [allOutcome_ok _ _ _ inner]
      simp only [Outcome.ok.injEq, List.all_eq_true, List.mem_range, decide_eq_true_eq, hm.waves]
      constructor
      · intro hh
        exact ⟨h, hne, fun i j hi hj => hh i hi j hj⟩
      · rintro ⟨_, _, hh⟩ i hi j hj
        exact hh i j hi hj
    · rw [if_pos (by simpa using hne)]; simp [hne]
  · rw [decide_eq_false h]; simp [h]

theorem eq_iff (m o : IntMat) (hm : m.WF) (ho : o.WF) (nm : m.names.Nodup) (no : o.names.Nodup) :
    m.eq o = .ok true ↔ m.names.Perm o.names ∧ m.nmbEvents = o.nmbEvents ∧
      ∀ a ∈ m.names, ∀ b ∈ m.names, m.entry a b = o.entry a b := by
  rw [eq_ok m o hm ho]
  have idx : ∀ k (hk : k < m.names.length), m.names.idxOf (m.names.getD k "") = k := by
    intro k hk
    rw [show m.names.getD k "" = m.names[k] by simp [hk]]
    exact nm.idxOf_getElem k hk
  constructor
  · rintro ⟨⟨_, h1, h2⟩, h3, h4⟩
    refine ⟨(List.perm_ext_iff_of_nodup nm no).2 fun a => ⟨fun h => h1 h, fun h => h2 h⟩, h3, fun a ha b hb => ?_⟩
    have := h4 _ _ (List.idxOf_lt_length_of_mem ha) (List.idxOf_lt_length_of_mem hb)
    rw [getD_idxOf ha, getD_idxOf hb] at this
    exact this
  · rintro ⟨h1, h2, h3⟩
    refine ⟨⟨h1.length_eq, h1.subset, h1.symm.subset⟩, h2, fun i j hi hj => ?_⟩
    rw [← h3 _ (by simp [hi]) _ (by simp [hj])]
    unfold IntMat.entry
    rw [idx i hi, idx j hj]

/-- C20: the order of merging does not matter: `a += b` and `b += a` compare equal with the code's own `==`. -/
theorem merge_commutes (m o r s : IntMat) (hm : m.WF) (ho : o.WF) (nm : m.names.Nodup) (no : o.names.Nodup)
    (h1 : m.addAssign o = .ok r) (h2 : o.addAssign m = .ok s) : r.eq s = .ok true := by
  have hp := ((addAssign_iff m o hm ho nm no).1).1 ⟨r, h1⟩
  obtain ⟨w1, n1, e1, v1⟩ := addAssign_by_name m o r hm ho h1
  obtain ⟨w2, n2, e2, v2⟩ := addAssign_by_name o m s ho hm h2
  rw [eq_iff r s w1 w2 (by rw [n1]; exact nm) (by rw [n2]; exact no), n1, n2]
  refine ⟨hp, by omega, fun a ha b hb => ?_⟩
  rw [v1 a ha b hb, v2 a (hp.subset ha) b (hp.subset hb), add_comm]

/-- C20: merging is associative up to the code's `==`. -/
theorem merge_associative (a b c ab abc bc a' : IntMat) (ha : a.WF) (hb : b.WF) (hc : c.WF)
    (na : a.names.Nodup) (nb : b.names.Nodup)
    (h1 : a.addAssign b = .ok ab) (h2 : ab.addAssign c = .ok abc)
    (h3 : b.addAssign c = .ok bc) (h4 : a.addAssign bc = .ok a') : abc.eq a' = .ok true := by
  have hp := ((addAssign_iff a b ha hb na nb).1).1 ⟨ab, h1⟩
  obtain ⟨w1, n1, e1, v1⟩ := addAssign_by_name _ _ _ ha hb h1
  obtain ⟨w2, n2, e2, v2⟩ := addAssign_by_name _ _ _ w1 hc h2
  obtain ⟨w3, n3, e3, v3⟩ := addAssign_by_name _ _ _ hb hc h3
  obtain ⟨w4, n4, e4, v4⟩ := addAssign_by_name _ _ _ ha w3 h4
  rw [eq_iff _ _ w2 w4 (by rw [n2, n1]; exact na) (by rw [n4]; exact na), n2, n1, n4]
  refine ⟨List.Perm.refl _, by omega, fun x hx y hy => ?_⟩
  rw [v2 x (by rw [n1]; exact hx) y (by rw [n1]; exact hy), v1 x hx y hy, v4 x hx y hy,
    v3 x (hp.subset hx) y (hp.subset hy), add_assoc]

/-- C20 (the part about descriptions that holds): if the other matrix lists its waves in the same order and describes
each of them, every wave of the sum has its own description. Missing: waves in different order, see
`merge_swaps_descriptions`. -/
theorem merge_descriptions_partial (m o r : IntMat) (hm : m.WF) (ho : o.WF) (h : m.addAssign o = .ok r)
    (hsame : o.names = m.names) (hd : ∀ i n, o.names[i]? = some n → ∃ d, o.waveDesc i = some d ∧ d.wave = n) :
    ∀ i n, r.names[i]? = some n → ∃ d, r.waveDesc i = some d ∧ d.wave = n := by
  rw [addAssign_ok m o hm ho] at h
  split at h
  · injection h with h; subst h
    intro i n hn
    exact hd i n (by rw [hsame]; exact hn)
  · simp at h

/-- Finding (C20 is false for descriptions): adding a matrix whose waves are in another order attaches the
descriptions to the wrong waves, although both operands were described correctly. -/
theorem merge_swaps_descriptions : ∃ m o r : IntMat, m.WF ∧ o.WF ∧ m.names.Nodup ∧ o.names.Nodup ∧
    (∀ i n, m.names[i]? = some n → ∃ d, m.waveDesc i = some d ∧ d.wave = n) ∧
    (∀ i n, o.names[i]? = some n → ∃ d, o.waveDesc i = some d ∧ d.wave = n) ∧
    m.addAssign o = .ok r ∧ ∃ d, r.names[0]? = some "a" ∧ r.waveDesc 0 = some d ∧ d.wave = "b" := by
  refine ⟨⟨2, ["a", "b"], 1, 2, 2, fun _ _ => 0, [⟨"a", true⟩, ⟨"b", true⟩]⟩,
    ⟨2, ["b", "a"], 1, 2, 2, fun _ _ => 0, [⟨"b", true⟩, ⟨"a", true⟩]⟩, _, ⟨rfl, rfl, rfl⟩, ⟨rfl, rfl, rfl⟩, by simp, by simp,
    ?_, ?_, by rw [addAssign_ok _ _ ⟨rfl, rfl, rfl⟩ ⟨rfl, rfl, rfl⟩, if_pos (by simp)], ⟨"b", true⟩, rfl, rfl, rfl⟩
  · intro i n hn
    rcases i with _ | _ | i <;> simp_all [IntMat.waveDesc]
  · intro i n hn
    rcases i with _ | _ | i <;> simp_all [IntMat.waveDesc]

/-! ## C21 -/

/-- C21: renormalising to another number of events leaves all elements unchanged. -/
theorem renormalize_keeps_elements (m : IntMat) (hm : m.WF) (h0 : m.nmbEvents ≠ 0) (n : ℕ) (hn : n ≠ 0) :
    ∃ r, m.renormalize n = .ok r ∧ r.WF ∧ r.names = m.names ∧ r.nmbEvents = n ∧
      ∀ i j, r.element i j = m.element i j := by
  refine ⟨_, renormalize_ok m hm n, ⟨hm.waves, hm.rows, hm.cols⟩, rfl, rfl, fun i j => ?_⟩
  unfold IntMat.element
  simp only
  rw [hm.waves]
  by_cases hi : i < m.names.length
  · by_cases hj : j < m.names.length
    · rw [if_neg (by omega), if_neg (by omega), if_neg (by omega), if_neg (by omega)]
      simp only [IntMat.get, hm.rows, hm.cols, hi, hj, and_self, if_true, Outcome.ok_bind]
      have h0' : (m.nmbEvents : ℂ) ≠ 0 := by exact_mod_cast h0
      have hn' : (n : ℂ) ≠ 0 := by exact_mod_cast hn
      congr 1
      push_cast
      field_simp
    · rw [if_neg (by omega), if_pos (by omega), if_neg (by omega), if_pos (by omega)]
  · rw [if_pos (by omega), if_pos (by omega)]

/-- C21: multiplying by a factor multiplies every entry; the event number becomes the integer part of the product. -/
theorem mulAssign_spec (m : IntMat) (hm : m.WF) (c : ℝ) (hc : 0 ≤ c) :
    ∃ r, m.mulAssign c = .ok r ∧ r.WF ∧ r.names = m.names ∧ r.nmbEvents = ⌊(m.nmbEvents : ℝ) * c⌋₊ ∧
      ∀ i < m.names.length, ∀ j < m.names.length, r.mat i j = m.mat i j * (c : ℂ) := by
  unfold IntMat.mulAssign
  rw [mapLoop_ok _ m hm]
  simp only [Outcome.ok_bind]
  rw [if_neg (by have : 0 ≤ (m.nmbEvents : ℝ) * c := by positivity
                 linarith)]
  exact ⟨_, rfl, ⟨hm.waves, hm.rows, hm.cols⟩, rfl, rfl, fun i hi j hj => by simp [hi, hj]⟩

/-- the same for division by a positive factor. -/
theorem divAssign_spec (m : IntMat) (hm : m.WF) (c : ℝ) (hc : 0 < c) :
    ∃ r, m.divAssign c = .ok r ∧ r.WF ∧ r.names = m.names ∧ r.nmbEvents = ⌊(m.nmbEvents : ℝ) / c⌋₊ ∧
      ∀ i < m.names.length, ∀ j < m.names.length, r.mat i j = m.mat i j / (c : ℂ) := by
  unfold IntMat.divAssign
  rw [mapLoop_ok _ m hm]
  simp only [Outcome.ok_bind]
  rw [if_neg (by have : 0 ≤ (m.nmbEvents : ℝ) / c := by positivity
                 linarith)]
  exact ⟨_, rfl, ⟨hm.waves, hm.rows, hm.cols⟩, rfl, rfl, fun i hi j hj => by simp [hi, hj]⟩

/-- C21 (the part that holds): multiplication by a positive factor leaves the elements unchanged exactly when the
scaled event number is an integer or the element is zero. Missing: factors that give a fractional event number, see
`mulAssign_changes_elements`. -/
theorem mulAssign_keeps_elements_partial (m : IntMat) (hm : m.WF) (h0 : m.nmbEvents ≠ 0) (c : ℝ) (hc : 0 < c)
    (hfloor : ⌊(m.nmbEvents : ℝ) * c⌋₊ ≠ 0) (r : IntMat) (h : m.mulAssign c = .ok r)
    (i j : ℕ) (hi : i < m.names.length) (hj : j < m.names.length) :
    r.element i j = m.element i j ↔ (⌊(m.nmbEvents : ℝ) * c⌋₊ : ℝ) = m.nmbEvents * c ∨ m.mat i j = 0 := by
  obtain ⟨r', h', w, n, ne, v⟩ := mulAssign_spec m hm c hc.le
  rw [h] at h'; injection h' with h'; subst h'
  rw [element_ok r w i j (by rw [n]; exact hi) (by rw [n]; exact hj), element_ok m hm i j hi hj, v i hi j hj, ne]
  generalize hk : ⌊(m.nmbEvents : ℝ) * c⌋₊ = k at *
  have hk' : (k : ℂ) ≠ 0 := by exact_mod_cast hfloor
  have h0' : (m.nmbEvents : ℂ) ≠ 0 := by exact_mod_cast h0
  rw [Outcome.ok.injEq, div_eq_div_iff hk' h0']
  constructor
  · intro he
    by_cases hz : m.mat i j = 0
    · exact Or.inr hz
    · left
      have : (m.nmbEvents : ℂ) * (c : ℂ) = k := by
        have h2 : m.mat i j * ((m.nmbEvents : ℂ) * (c : ℂ)) = m.mat i j * k := by rw [← he]; ring
        exact mul_left_cancel₀ hz h2
      exact_mod_cast this.symm
  · rintro (he | he)
    · have : (k : ℂ) = (m.nmbEvents : ℂ) * (c : ℂ) := by exact_mod_cast congrArg (fun x : ℝ => (x : ℂ)) he
      rw [this]; ring
    · rw [he]; ring

/-- Finding (C21 is false in general): scaling one event by 3/2 changes the normalised element from 1 to 3/2. -/
theorem mulAssign_changes_elements : ∃ m r : IntMat, m.WF ∧ m.nmbEvents = 1 ∧ m.mulAssign (3 / 2) = .ok r ∧
    m.element 0 0 = .ok 1 ∧ r.element 0 0 = .ok (3 / 2) := by
  have hw : IntMat.WF ⟨1, ["a"], 1, 1, 1, fun _ _ => 1, []⟩ := ⟨rfl, rfl, rfl⟩
  obtain ⟨r, h, w, n, ne, v⟩ := mulAssign_spec _ hw (3 / 2) (by norm_num)
  refine ⟨_, r, hw, rfl, h, ?_, ?_⟩
  · rw [element_ok _ hw 0 0 (by simp) (by simp)]; simp
  · rw [element_ok r w 0 0 (by rw [n]; simp) (by rw [n]; simp), v 0 (by simp) 0 (by simp), ne]
    have : ⌊((1 : ℕ) : ℝ) * (3 / 2)⌋₊ = 1 := by
      rw [Nat.floor_eq_iff (by norm_num)]; constructor <;> norm_num
    rw [this]; push_cast; norm_num

/-- Non-vacuity of `renormalize_keeps_elements` and `mulAssign_keeps_elements_partial`: one wave, four events. -/
example : IntMat.WF ⟨1, ["a"], 4, 1, 1, fun _ _ => 1, []⟩ ∧ ⌊((4 : ℕ) : ℝ) * (3 / 2)⌋₊ ≠ 0 := by
  refine ⟨⟨rfl, rfl, rfl⟩, ?_⟩
  have : ⌊((4 : ℕ) : ℝ) * (3 / 2)⌋₊ = 6 := by rw [Nat.floor_eq_iff (by norm_num)]; constructor <;> norm_num
  omega

end Rpwa.Integral
