import Verif.Props.LikSetup
import Verif.Props.Covariance
/-! # C63: what a finished likelihood consists of -/
namespace Rpwa.Lik

open Rpwa.Integral

namespace SetupInput
variable (inp : SetupInput)

theorem added_nil (d : ParData) : inp.added d [] 0 = inp.base d := by
  unfold added
  simp
  rfl

theorem adds_spec (hdiag : inp.DiagOk) (d : ParData) (order : List String) (s : LikObj) :
    Succeeds (inp.base d) (order.map fun w => .addAmplitude w (inp.amps w)) s ↔
      ∃ N, (N = 0 ↔ order = []) ∧ (∀ w ∈ order, inp.AddOk w N) ∧ s = inp.added d order N := by
  induction order using List.reverseRecOn generalizing s with
  | nil =>
    constructor
    · intro h
      cases h
      exact ⟨0, by simp, by simp, (inp.added_nil d).symm⟩
    · rintro ⟨N, h1, _, rfl⟩
      rw [h1.2 rfl, added_nil]
      exact .nil _
  | append_singleton order w ih =>
    rw [List.map_append, succeeds_append]
    constructor
    · rintro ⟨t, ht, h2⟩
      obtain ⟨N, hN, hok, rfl⟩ := (ih t).1 ht
      obtain ⟨k1, k2, k3⟩ := (inp.added_step hdiag d order N w hN.1 s).1 ((succeeds_one _ _ _).1 h2)
      refine ⟨(inp.amps w).length, ?_, ?_, k3⟩
      · have := k1.1
        constructor
        · intro h; omega
        · intro h; simp at h
      · intro v hv
        rcases List.mem_append.1 hv with hv | hv
        · have hne : N ≠ 0 := fun h => by rw [hN.1 h] at hv; cases hv
          rw [k2 hne]; exact hok v hv
        · rw [List.mem_singleton.1 hv]; exact k1
    · rintro ⟨N, hN, hok, rfl⟩
      have hw : inp.AddOk w N := hok w (by simp)
      have hlen := hw.2.1
      by_cases ho : order = []
      · subst ho
        refine ⟨inp.added d [] 0, (ih _).2 ⟨0, by simp, by simp, rfl⟩, ?_⟩
        apply (succeeds_one _ _ _).2
        refine (inp.added_step hdiag d [] 0 w (fun _ => rfl) _).2 ⟨by rw [hlen]; exact hw, fun h => absurd rfl h, by rw [hlen]⟩
      · refine ⟨inp.added d order N, (ih _).2 ⟨N, ?_, fun v hv => hok v (by simp [hv]), rfl⟩, ?_⟩
        · constructor
          · intro h; have := hw.1; omega
          · intro h; exact absurd h ho
        · apply (succeeds_one _ _ _).2
          refine (inp.added_step hdiag d order N w (fun h => absurd h (by have := hw.1; omega)) _).2 ⟨by rw [hlen]; exact hw, fun _ => hlen, by rw [hlen]⟩

/-- the object after the protocol. -/
noncomputable def final (d : ParData) (order : List String) (N : ℕ) : LikObj :=
  { inp.added d order N with
    phaseSpace := fun i => if i ∈ waveIxs inp.waves.nW then Real.sqrt (inp.ints.norm i i).re else 0
    ints := if inp.useNorm then rescaleIntegrals inp.waves.nW inp.ints else inp.ints
    initFinished := true }

theorem protocol_spec (hdiag : inp.DiagOk) (order : List String) (s : LikObj) (h : Succeeds LikObj.new (inp.protocol order) s) :
    ∃ d N, inp.First d ∧ 0 < N ∧ (∀ w ∈ order, inp.AddOk w N) ∧ (∀ i, inp.IsWave i → ∃ w ∈ order, inp.index w = some i) ∧ s = inp.final d order N := by
  unfold protocol at h
  obtain ⟨t, h1, h3⟩ := (succeeds_append _ _ _ _).1 h
  obtain ⟨t0, h1, h2⟩ := (succeeds_append _ _ _ _).1 h1
  obtain ⟨d, hd, rfl⟩ := inp.first_spec t0 h1
  obtain ⟨N, hN, hok, rfl⟩ := (inp.adds_spec hdiag d order t).1 h2
  have h3 := (succeeds_one _ _ _).1 h3
  simp only [LikObj.step, LikObj.finishInit] at h3
  split at h3
  · simp at h3
  · rename_i hall
    rw [Outcome.ok.injEq, Prod.mk.injEq] at h3
    have hall' : ∀ i, inp.IsWave i → ∃ w ∈ order, inp.index w = some i := by
      intro i hi
      by_contra hno
      apply hall
      rw [List.any_eq_true]
      refine ⟨i, (mem_waveIxs _ _).2 hi, ?_⟩
      show (!(@decide (∃ w ∈ order, inp.index w = some i) _)) = true
      rw [decide_eq_false hno]
      rfl
    refine ⟨d, N, hd, ?_, hok, hall', h3.2.symm.trans ?_⟩
    · by_contra h0
      have ho : order = [] := hN.1 (by omega)
      obtain ⟨r, hr, hr2⟩ := buildParDataStruct_returns inp.waves inp.rank inp.mass
      rw [hd.hbuilt] at hr
      have hn : ¬ inp.waves.nW 0 + inp.waves.nW 1 = 0 := by
        intro h; have := hr2.2 h; rw [this] at hr; cases hr
      have hex : ∃ i, inp.IsWave i := by
        by_cases h0 : inp.waves.nW 0 = 0
        · exact ⟨(1, 0), by norm_num, by show 0 < inp.waves.nW 1; omega⟩
        · exact ⟨(0, 0), by norm_num, by show 0 < inp.waves.nW 0; omega⟩
      obtain ⟨i, hi⟩ := hex
      obtain ⟨w, hw, _⟩ := hall' i hi
      rw [ho] at hw; cases hw
    · rfl

theorem mem_order_iff (order : List String) (N : ℕ) (hok : ∀ w ∈ order, inp.AddOk w N)
    (hall : ∀ i, inp.IsWave i → ∃ w ∈ order, inp.index w = some i) (w : String) : w ∈ order ↔ ∃ i, inp.IsWave i ∧ inp.waveName i = w := by
  constructor
  · intro hw
    obtain ⟨_, _, i, hi, _⟩ := hok w hw
    exact ⟨i, inp.index_some w i hi⟩
  · rintro ⟨i, hi, rfl⟩
    obtain ⟨w, hw, h2⟩ := hall i hi
    rw [(inp.index_some w i h2).2]; exact hw

theorem index_name (order : List String) (hall : ∀ i, inp.IsWave i → ∃ w ∈ order, inp.index w = some i) (i : WaveIx) (hi : inp.IsWave i) :
    inp.index (inp.waveName i) = some i := by
  obtain ⟨w, _, h2⟩ := hall i hi
  rw [(inp.index_some w i h2).2]; exact h2

theorem fixWaves_eq (l : List String) (d : ParData) :
    l.foldl fixWave d = { d with params := d.params.map fun p => if p.waveName ∈ l then { p with fixed := true } else p } := by
  induction l generalizing d with
  | nil => simp
  | cons n l ih =>
    rw [List.foldl_cons, ih]
    unfold fixWave
    simp only [List.map_map]
    congr 1
    apply List.map_congr_left
    intro p _
    simp only [Function.comp_apply]
    by_cases h1 : p.waveName = n
    · rw [if_neg (not_not.2 h1)]
      by_cases h2 : p.waveName ∈ l
      · simp [h1]
      · simp [h1]
    · rw [if_pos h1]
      by_cases h2 : p.waveName ∈ l
      · rw [if_pos h2, if_pos (List.mem_cons_of_mem _ h2)]
      · rw [if_neg h2, if_neg (by simp [h1, h2])]

theorem scale_ne_zero (i : WaveIx) : inp.scale i ≠ 0 := by
  unfold scale
  split_ifs with h
  · exact one_ne_zero
  · exact fun h2 => h (Or.inr h2)

theorem scale_eq_waveNorm (hu : inp.useNorm = true) (i : WaveIx) : inp.scale i = waveNorm inp.ints.norm i := by
  unfold scale waveNorm
  simp [hu]

theorem scaleAmp_scale (hdiag : inp.DiagOk) (i : WaveIx) (hi : inp.IsWave i) (a : ℂ) :
    scaleAmp inp.useNorm (inp.ints.norm i i) a * (inp.scale i : ℂ) = a := by
  obtain ⟨h1, h2⟩ := hdiag i hi
  unfold scaleAmp scale
  cases hu : inp.useNorm with
  | false => simp
  | true =>
    by_cases hz : inp.ints.norm i i = 0
    · rw [if_neg (by simp [hz]), if_pos (Or.inr (by rw [hz]; simp))]
      simp
    · have hs : Real.sqrt (inp.ints.norm i i).re ≠ 0 := by
        intro h
        rw [Real.sqrt_eq_zero h1] at h
        exact hz (Complex.ext h h2)
      rw [if_pos ⟨rfl, hz⟩, if_neg (by simp [hs])]
      rw [div_mul_cancel₀]
      exact_mod_cast hs

/-- the names of the waves that get fixed. -/
theorem mem_fixed (order : List String) (N : ℕ) (hok : ∀ w ∈ order, inp.AddOk w N)
    (hall : ∀ i, inp.IsWave i → ∃ w ∈ order, inp.index w = some i) (w : String) :
    w ∈ order.filter inp.emptyName ↔ ∃ i, inp.IsWave i ∧ inp.waveName i = w ∧ inp.Empty i := by
  rw [List.mem_filter, inp.emptyName_iff]
  constructor
  · rintro ⟨_, i, hi, h2⟩
    obtain ⟨h3, h4⟩ := inp.index_some w i hi
    exact ⟨i, h3, h4, h2⟩
  · rintro ⟨i, h1, h2, h3⟩
    refine ⟨(inp.mem_order_iff order N hok hall w).2 ⟨i, h1, h2⟩, i, ?_, h3⟩
    rw [← h2]; exact inp.index_name order hall i h1

/-- **C63.** After the calls of `initLikelihood`, all of which report success, the likelihood is made from the given amplitudes, integrals and
event numbers: amplitudes divided by the square root of the normalisation integral of the wave (if amplitudes are normalised), acceptance integrals
per generated event divided by the same factors, the fraction of accepted events, the phase-space integrals, and the parameters of the wave list, of
which those of waves without any amplitude and acceptance are fixed.  The names of the waves are all different and every wave has been added. -/
theorem setup_finished (hdiag : inp.DiagOk) (hgen : inp.genEvents ≠ 0) (order : List String) (s : LikObj)
    (h : Succeeds LikObj.new (inp.protocol order) s) :
    ∃ N, 0 < N ∧ inp.Finished N s ∧ (∀ i j, inp.IsWave i → inp.IsWave j → inp.waveName i = inp.waveName j → i = j) ∧
      ∀ w, w ∈ order ↔ ∃ i, inp.IsWave i ∧ inp.waveName i = w := by
  obtain ⟨d, N, hd, hN, hok, hall, rfl⟩ := inp.protocol_spec hdiag order s h
  have hg : (inp.genEvents : ℂ) ≠ 0 := by exact_mod_cast hgen
  have hgr : (inp.genEvents : ℝ) ≠ 0 := by exact_mod_cast hgen
  refine ⟨N, hN, ⟨rfl, rfl, rfl, rfl, rfl, rfl, rfl, ?_, ?_, ?_, ?_, ?_⟩, ?_, inp.mem_order_iff order N hok hall⟩
  · intro i hi
    obtain ⟨w, hw, hx⟩ := hall i hi
    refine ⟨?_, ?_⟩
    · rw [(inp.index_some w i hx).2]; exact (hok w hw).2.1
    · intro ev
      have : (inp.final d order N).data.decayAmps i.1 ev i.2 = scaleAmp inp.useNorm (inp.ints.norm i i) ((inp.amps (inp.waveName i)).getD ev 0) :=
        if_pos ⟨w, hw, hx⟩
      rw [this]
      exact inp.scaleAmp_scale hdiag i hi _
  · intro i j hi hj hij
    have e1 : inp.ints.acc i j * (inp.genEvents : ℂ) = inp.acc.entry (inp.waveName i) (inp.waveName j) := by
      have : inp.ints.acc i j = inp.acc.entry (inp.waveName i) (inp.waveName j) / (inp.genEvents : ℂ) := if_pos ⟨hij, hi, hj⟩
      rw [this, div_mul_cancel₀ _ hg]
    rw [← e1]
    congr 1
    have hpi : ((i.1, i.2) : WaveIx) = i := rfl
    have hpj : ((i.1, j.2) : WaveIx) = j := by rw [hij]
    have e2 : (inp.final d order N).data.accMatrix i.1 i.2 j.2 =
        (if inp.useNorm then rescaleIntegrals inp.waves.nW inp.ints else inp.ints).acc (i.1, i.2) (i.1, j.2) := rfl
    rw [e2, hpi, hpj]
    cases hu : inp.useNorm with
    | false =>
      have hs : ∀ k, inp.scale k = 1 := fun k => by unfold scale; simp [hu]
      simp [hs]
    | true =>
      rw [if_pos rfl, rescale_acc _ _ i j ((mem_waveIxs _ _).2 hi) ((mem_waveIxs _ _).2 hj), ← inp.scale_eq_waveNorm hu i, ← inp.scale_eq_waveNorm hu j]
      rw [← Complex.ofReal_mul, div_mul_cancel₀]
      exact_mod_cast mul_ne_zero (inp.scale_ne_zero i) (inp.scale_ne_zero j)
  · show inp.totAcc * _ = _
    unfold totAcc
    rw [div_mul_cancel₀ _ hgr]
  · intro i hi
    exact if_pos ((mem_waveIxs _ _).2 hi)
  · have hp : (inp.final d order N).pars = (order.filter inp.emptyName).foldl fixWave d := rfl
    rw [hp, fixWaves_eq]
    refine ⟨d, hd.hbuilt, rfl, rfl, rfl, by simp, ?_⟩
    intro k p hk
    refine ⟨_, by rw [List.getElem?_map, hk]; rfl, ?_⟩
    rw [← inp.mem_fixed order N hok hall]
    dsimp only
    by_cases hm : p.waveName ∈ order.filter inp.emptyName
    · rw [if_pos hm]; simp [hm]
    · rw [if_neg hm]; simp [hm]
  · intro i j hi hj hij
    have h1 := inp.index_name order hall i hi
    have h2 := inp.index_name order hall j hj
    rw [hij, h2] at h1
    exact (Option.some.inj h1).symm

/-- **C63, order.** The order in which the waves are added does not matter. -/
theorem setup_order_irrelevant (hdiag : inp.DiagOk) (order order' : List String) (s s' : LikObj)
    (h : Succeeds LikObj.new (inp.protocol order) s) (h' : Succeeds LikObj.new (inp.protocol order') s') : s = s' := by
  obtain ⟨d, N, hd, hN, hok, hall, rfl⟩ := inp.protocol_spec hdiag order s h
  obtain ⟨d', N', hd', hN', hok', hall', rfl⟩ := inp.protocol_spec hdiag order' s' h'
  have e1 : d = d' := by
    have := hd.hbuilt
    rw [hd'.hbuilt] at this
    cases this; rfl
  subst e1
  have hm : ∀ w, w ∈ order ↔ w ∈ order' := fun w => by
    rw [inp.mem_order_iff order N hok hall, inp.mem_order_iff order' N' hok' hall']
  have e2 : N = N' := by
    have hne : order ≠ [] := by
      intro h0
      subst h0
      obtain ⟨r, hr, hr2⟩ := buildParDataStruct_returns inp.waves inp.rank inp.mass
      rw [hd.hbuilt] at hr
      have hn : ¬ inp.waves.nW 0 + inp.waves.nW 1 = 0 := by
        intro h; have := hr2.2 h; rw [this] at hr; cases hr
      have hex : ∃ i, inp.IsWave i := by
        by_cases h0 : inp.waves.nW 0 = 0
        · exact ⟨(1, 0), by norm_num, by show 0 < inp.waves.nW 1; omega⟩
        · exact ⟨(0, 0), by norm_num, by show 0 < inp.waves.nW 0; omega⟩
      obtain ⟨i, hi⟩ := hex
      obtain ⟨w, hw, _⟩ := hall i hi
      cases hw
    obtain ⟨w, hw⟩ := List.exists_mem_of_ne_nil _ hne
    rw [← (hok w hw).2.1, ← (hok' w ((hm w).1 hw)).2.1]
  subst e2
  have e3 : inp.added d order N = inp.added d order' N := by
    unfold added
    have k1 : ∀ i, (∃ w ∈ order, inp.index w = some i) = (∃ w ∈ order', inp.index w = some i) := by
      intro i
      apply propext
      constructor
      · rintro ⟨w, h1, h2⟩; exact ⟨w, (hm w).1 h1, h2⟩
      · rintro ⟨w, h1, h2⟩; exact ⟨w, (hm w).2 h1, h2⟩
    have k2 : (order.filter inp.emptyName).foldl fixWave d = (order'.filter inp.emptyName).foldl fixWave d := by
      rw [fixWaves_eq, fixWaves_eq]
      congr 1
      apply List.map_congr_left
      intro p _
      refine if_congr ?_ rfl rfl
      rw [List.mem_filter, List.mem_filter, hm]
    simp only [k1, k2]
  unfold final
  rw [e3]

/-- **C63, link to C29.** The data of the likelihood are those of `finishInit` in the model of C24-C29. -/
theorem setup_finishInit (hdiag : inp.DiagOk) (order : List String) (s : LikObj) (h : Succeeds LikObj.new (inp.protocol order) s) :
    ∃ N L, 0 < N ∧ finishInit inp.rank inp.waves.nW N inp.decayAmps inp.ints inp.totAcc inp.useNorm inp.prior inp.cauchyWidth = some L ∧
      L.nmbEvents = s.data.nmbEvents ∧ L.rank = s.data.rank ∧ L.nW = s.data.nW ∧ L.totAcc = s.data.totAcc ∧ L.useNormalizedAmps = s.data.useNormalizedAmps ∧
      L.prior = s.data.prior ∧ L.cauchyWidth = s.data.cauchyWidth ∧ L.accMatrix = s.data.accMatrix ∧
      ∀ i, inp.IsWave i → ∀ ev, L.decayAmps i.1 ev i.2 = s.data.decayAmps i.1 ev i.2 := by
  obtain ⟨d, N, hd, hN, hok, hall, rfl⟩ := inp.protocol_spec hdiag order s h
  have hdec : ∀ i, inp.IsWave i → ∀ ev, inp.decayAmps i ev = (inp.amps (inp.waveName i)).getD ev 0 := fun i hi ev => if_pos hi
  have hamp : ∀ i, inp.IsWave i → ∀ ev, (inp.final d order N).data.decayAmps i.1 ev i.2 = scaleAmp inp.useNorm (inp.ints.norm i i) (inp.decayAmps i ev) := by
    intro i hi ev
    rw [hdec i hi]
    exact if_pos (hall i hi)
  cases hu : inp.useNorm with
  | false =>
    refine ⟨N, _, hN, rfl, rfl, rfl, rfl, rfl, hu.symm, rfl, rfl, ?_, ?_⟩
    · show _ = fun e i j => (if inp.useNorm then _ else inp.ints).acc (e, i) (e, j)
      rw [hu]; rfl
    · intro i hi ev
      rw [hamp i hi ev]
      unfold scaleAmp
      rw [hu]; simp
  | true =>
    have hload : ∀ i, inp.IsWave i → normalizeAmps (inp.ints.norm i i) N (inp.decayAmps i) =
        some fun ev => scaleAmp inp.useNorm (inp.ints.norm i i) (inp.decayAmps i ev) := by
      intro i hi
      unfold normalizeAmps
      rw [if_neg]
      · congr 1
        funext ev
        unfold scaleAmp
        rw [hu]
        by_cases hz : inp.ints.norm i i = 0
        · simp [hz]
        · rw [if_pos hz, if_pos ⟨rfl, hz⟩]
      · rintro ⟨ev, hev, hz, hne⟩
        obtain ⟨w, hw, hx⟩ := hall i hi
        obtain ⟨_, hlen, i', hi', hno⟩ := hok w hw
        rw [hx] at hi'; cases hi'
        apply hno
        refine ⟨hu, hz, inp.decayAmps i ev, ?_, hne⟩
        rw [hdec i hi, (inp.index_some w i hx).2, List.getD_eq_getElem?_getD, List.getElem?_eq_getElem (by omega), Option.getD_some]
        exact List.getElem_mem _
    have hno : ¬ ∃ i ∈ waveIxs inp.waves.nW, normalizeAmps (inp.ints.norm i i) N (inp.decayAmps i) = none := by
      rintro ⟨i, hi, h0⟩
      rw [hload i ((mem_waveIxs _ _).1 hi)] at h0
      cases h0
    refine ⟨N, _, hN, ((if_pos rfl).trans (if_neg hno) :), rfl, rfl, rfl, rfl, hu.symm, rfl, rfl, ?_, ?_⟩
    · show _ = fun e i j => (if inp.useNorm then _ else inp.ints).acc (e, i) (e, j)
      rw [hu]; rfl
    · intro i hi ev
      rw [hamp i hi ev]
      show ((normalizeAmps (inp.ints.norm i i) N (inp.decayAmps i)).getD fun _ => 0) ev = _
      rw [hload i hi]
      rfl

/-- **C63, link to C23-C28.** The finished likelihood belongs to its wave list (no empty wave may be called "flat"). -/
theorem setup_matches (hdiag : inp.DiagOk) (order : List String) (s : LikObj) (h : Succeeds LikObj.new (inp.protocol order) s)
    (hflat : ∀ i, inp.IsWave i → inp.waveName i = "flat" → ¬ inp.Empty i) : s.data.Matches inp.waves s.pars inp.mass := by
  obtain ⟨d, N, hd, hN, hok, hall, rfl⟩ := inp.protocol_spec hdiag order s h
  refine ⟨⟨d, order.filter inp.emptyName, hd.hbuilt, ?_, rfl⟩, rfl⟩
  intro hm
  obtain ⟨i, h1, h2, h3⟩ := (inp.mem_fixed order N hok hall _).1 hm
  exact hflat i h1 h2 h3

end SetupInput

end Rpwa.Lik
