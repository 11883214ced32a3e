import Verif.Props.ModelIntensity
import Verif.Props.FitExamples
/-! # C65: loaded integrals, agreement with the weights of `weightEvents`, fits of higher rank, examples -/
namespace Rpwa.Wgt

open Rpwa.Fit Rpwa.Integral Finset

variable {α κ : Type} {rx : Name → Name → Bool} {ops : AmpOps α κ} {fit : FitResult} {labels : List Label}

/-- which call changes which flag: only a successful initialisation makes the object initialised, adding an amplitude revokes it, a refused addition
changes nothing; loading integrals decides whether there are integrals. -/
theorem step_flags (m m' : ModelInt α) (c : ModelInt.Call α) (b : Bool) (h : m.step ops c = .ok (b, m')) :
    match c with
    | .add _ => (b = false ∧ m' = m) ∨ (b = true ∧ m'.initialized = false ∧ m'.intLoaded = m.intLoaded ∧ m'.ints = m.ints)
    | .load _ => m'.intLoaded = b ∧ m'.initialized = m.initialized ∧ m'.amps = m.amps
    | .initX _ => m'.initialized = b ∧ m'.intLoaded = m.intLoaded ∧ m'.ints = m.ints ∧ m'.fromX = true
    | .init _ _ => m'.initialized = b ∧ m'.intLoaded = m.intLoaded ∧ m'.ints = m.ints ∧ m'.fromX = false := by
  cases c with
  | add a =>
    simp only
    change m.addDecayAmplitude ops a = _ at h
    unfold ModelInt.addDecayAmplitude at h
    cases hw : m.fit.waveIndex (ops.name a) with
    | none =>
      rw [hw] at h
      have e := Outcome.ok.inj h
      exact Or.inl ⟨(congrArg Prod.fst e).symm, (congrArg Prod.snd e).symm⟩
    | some w =>
      rw [hw] at h
      simp only at h
      cases ho : m.amps[w]? with
      | none => rw [ho] at h; cases h
      | some o =>
        rw [ho] at h
        cases o with
        | some y =>
          have e := Outcome.ok.inj h
          exact Or.inl ⟨(congrArg Prod.fst e).symm, (congrArg Prod.snd e).symm⟩
        | none =>
          have e := Outcome.ok.inj h
          have e1 := (congrArg Prod.snd e).symm
          subst e1
          exact Or.inr ⟨(congrArg Prod.fst e).symm, rfl, rfl, rfl⟩
  | load int =>
    simp only
    change m.loadPhaseSpaceIntegral int = _ at h
    unfold ModelInt.loadPhaseSpaceIntegral at h
    obtain ⟨res, _, h2⟩ := Outcome.bind_eq_ok.1 h
    have e := Outcome.ok.inj h2
    have e1 := (congrArg Prod.snd e).symm
    subst e1
    exact ⟨congrArg Prod.fst e, rfl, rfl⟩
  | initX decay =>
    have e := Outcome.ok.inj h
    have e1 := (congrArg Prod.snd e).symm
    subst e1
    exact ⟨congrArg Prod.fst e, rfl, rfl, rfl⟩
  | init prod decay =>
    have e := Outcome.ok.inj h
    have e1 := (congrArg Prod.snd e).symm
    subst e1
    exact ⟨congrArg Prod.fst e, rfl, rfl, rfl⟩

/-- the value loaded for a wave. -/
noncomputable def loadedInt (int : IntMat) (n : Name) : ℝ :=
  if n = "flat".toList then 1 else Real.sqrt ((int.entry (String.ofList n) (String.ofList n)).re / int.nmbEvents)

theorem loadLoop_spec (int : IntMat) (hwf : int.WF) : ∀ (ns : List Name) (i : ℕ) (ints ints' : List ℝ), i + ns.length ≤ ints.length →
    ModelInt.loadLoop int ns i ints = .ok (true, ints') → (∀ w : ℕ, w < i → ints'[w]? = ints[w]?) ∧
      (∀ n ∈ ns, n ≠ "flat".toList → String.ofList n ∈ int.names) ∧
      ∀ (w : ℕ) (n : Name), ns[w]? = some n → ints'[i + w]? = some (loadedInt int n) := by
  intro ns
  induction ns with
  | nil =>
    intro i ints ints' _ h
    unfold ModelInt.loadLoop at h
    have e : ints = ints' := congrArg Prod.snd (Outcome.ok.inj h)
    subst e
    exact ⟨fun _ _ => rfl, by simp, by simp⟩
  | cons n ns ih =>
    intro i ints ints' hlen h
    have hl : i < ints.length := by simp at hlen; omega
    have step : ∀ x : ℝ, x = loadedInt int n → (n ≠ "flat".toList → String.ofList n ∈ int.names) →
        ModelInt.loadLoop int ns (i + 1) (ints.set i x) = .ok (true, ints') → (∀ w : ℕ, w < i → ints'[w]? = ints[w]?) ∧
        (∀ k ∈ n :: ns, k ≠ "flat".toList → String.ofList k ∈ int.names) ∧
        ∀ (w : ℕ) (k : Name), (n :: ns)[w]? = some k → ints'[i + w]? = some (loadedInt int k) := by
      intro x hx hmem hs
      obtain ⟨h1, h2, h3⟩ := ih (i + 1) (ints.set i x) ints' (by simp at hlen ⊢; omega) hs
      refine ⟨?_, ?_, ?_⟩
      · intro w hw
        rw [h1 w (by omega), List.getElem?_set_ne (by omega)]
      · intro k hk
        rcases List.mem_cons.1 hk with rfl | hk
        · exact hmem
        · exact h2 k hk
      · intro w k hw
        cases w with
        | zero =>
          have : n = k := by simpa using hw
          subst this
          rw [Nat.add_zero, h1 i (by omega), List.getElem?_set_self hl, hx]
        | succ w =>
          have := h3 w k (by simpa using hw)
          rw [show i + (w + 1) = i + 1 + w by omega]
          exact this
    unfold ModelInt.loadLoop at h
    by_cases hf : n = "flat".toList
    · rw [if_pos hf] at h
      exact step 1 (by unfold loadedInt; rw [if_pos hf]) (fun hn => absurd hf hn) h
    · rw [if_neg hf] at h
      by_cases hc : int.containsWave (String.ofList n) = false
      · rw [if_pos hc] at h
        exact absurd (congrArg Prod.fst (Outcome.ok.inj h)) (by simp)
      · rw [if_neg hc] at h
        have hm : String.ofList n ∈ int.names := by
          have : int.containsWave (String.ofList n) = true := by simpa using hc
          unfold IntMat.containsWave at this
          simpa using this
        rw [Rpwa.Lik.elementByName_returns int hwf _ _ hm hm] at h
        simp only [Outcome.ok_bind] at h
        refine step _ ?_ (fun _ => hm) h
        unfold loadedInt
        rw [if_neg hf, Complex.div_natCast_re]

/-- a successful load: all waves are in the matrix and the square roots of its diagonal elements (1 for the flat wave) are used from then on. -/
theorem load_spec (hl : LawfulOps ops labels) {m m' : ModelInt α} (hr : Reached rx ops fit m) (int : IntMat) (hwf : int.WF)
    (h : m.step ops (.load int) = .ok (true, m')) :
    m'.intLoaded = true ∧ (∀ n ∈ fit.waveNames, n ≠ "flat".toList → String.ofList n ∈ int.names) ∧
      ∀ (w : ℕ) (n : Name), fit.waveNames[w]? = some n → m'.ints[w]? = some (loadedInt int n) := by
  have hinv := reached_inv hl hr
  change m.loadPhaseSpaceIntegral int = _ at h
  unfold ModelInt.loadPhaseSpaceIntegral at h
  obtain ⟨res, h1, h2⟩ := Outcome.bind_eq_ok.1 h
  have e := Outcome.ok.inj h2
  have e1 := (congrArg Prod.snd e).symm
  have e2 : res.1 = true := congrArg Prod.fst e
  subst e1
  obtain ⟨b, ints'⟩ := res
  simp only at e2
  subst e2
  rw [hinv.hfit] at h1
  obtain ⟨_, k2, k3⟩ := loadLoop_spec int hwf fit.waveNames 0 _ ints' (by have := hinv.hints; simp; omega) h1
  refine ⟨rfl, k2, fun w n hw => ?_⟩
  have := k3 w n hw
  rw [Nat.zero_add] at this
  exact this

/-- For a fit of rank 1 the intensity of `modelIntensity` with integrals from a matrix, divided by the number of events of the matrix, is the weight that
`weightEvents` gives to an event with the same decay amplitudes, without the weight of the flat wave. -/
theorem intensity_eq_weight (hl : LawfulOps ops labels) (hL : Lists fit labels) (hrx : NoFlatRx rx) {m m' m'' : ModelInt α} {int : IntMat}
    {files : Name → Option AmpFile} {A : Wave → ℕ → ℂ} {N : ℕ} (hu : Usable labels int files A N) (varied : List (ℕ → ℂ))
    (hr : Reached rx ops fit m) (hload : m.step ops (.load int) = .ok (true, m')) (prodN decayN : List Name)
    (hin : m'.step ops (.init prodN decayN) = .ok (true, m'')) (hone : fit.waveNames = labels.map fun l => l.wave.text) (hrank : ∀ l ∈ labels, l.rank = 0)
    (ev : ℕ) (hev : ev < N) (prod decay : List κ)
    (heval : ∀ (w : ℕ) (l : Label) (a : α), labels[w]? = some l → m''.amps[w]? = some (some a) → ops.eval a prod decay = some (A l.wave ev)) :
    ∃ outs o x, weightEvents int fit varied files = .ok outs ∧ outs[ev]? = some o ∧ m''.getIntensity ops prod decay = .ok x ∧
      o.weight = x / int.nmbEvents + o.flat := by
  obtain ⟨outs, h1, h2, h3⟩ := weights_spec hL hu varied 1 (fun l h => by have := hrank l h; omega)
  have hlt : ev < outs.length := by omega
  obtain ⟨hw, _, _, hf, _⟩ := h3 ev outs[ev] (List.getElem?_eq_getElem hlt)
  obtain ⟨k1, _, k3⟩ := load_spec hl hr int hu.hwf hload
  have hr' : Reached rx ops fit m' := .step m m' _ true hr hload
  have hr'' : Reached rx ops fit m'' := .step m' m'' _ true hr' hin
  obtain ⟨f1, f2, f3, _⟩ := step_flags m' m'' _ true hin
  have hinv := reached_inv hl hr''
  have hx := getIntensity_spec hl hL hrx hr'' f1 (f2.trans k1) hone hrank prod decay (normalised int A ev) (by
    intro w l a hwl ha
    refine ⟨A l.wave ev, heval w l a hwl ha, ?_⟩
    have hn : fit.waveNames[w]? = some l.wave.text := by rw [hone, List.getElem?_map, hwl]; rfl
    have hnf : l.wave.text ≠ "flat".toList := by
      intro hflat
      have := (hinv.hinit f1 w _ hn).2 hflat
      rw [this] at ha
      cases ha
    have := k3 w _ hn
    rw [f3, List.getD_eq_getElem?_getD, this, Option.getD_some]
    unfold normalised loadedInt diag
    rw [if_neg hnf])
  refine ⟨outs, outs[ev], _, h1, List.getElem?_eq_getElem hlt, hx, ?_⟩
  rw [hw, hf]
  ring

/-- Only as many production amplitudes as there are waves are ever used: for a fit of higher rank the rest is ignored. -/
theorem higher_ranks_ignored (hl : LawfulOps ops labels) (hL : Lists fit labels) (hrx : NoFlatRx rx) {m : ModelInt α} (hr : Reached rx ops fit m)
    (hi : m.initialized = true) (hint : m.intLoaded = true) (prod decay : List κ)
    (hev : ∀ (w : ℕ) (a : α), m.amps[w]? = some (some a) → ∃ z, ops.eval a prod decay = some z) (hz : ∀ w < fit.waveNames.length, fit.prodAmps w = 0) :
    m.getIntensity ops prod decay = .ok 0 := by
  obtain ⟨W, hW⟩ := exists_wavesOf hL
  have hinv := reached_inv hl hr
  have hex : ∀ A : Wave, ∃ z : ℂ, ∀ (w : ℕ) (a : α), w < fit.waveNames.length → W w = A → m.amps[w]? = some (some a) →
      ∃ y, ops.eval a prod decay = some y ∧ z = y / (m.ints.getD w 0 : ℂ) := by
    intro A
    by_cases h : ∃ w a, w < fit.waveNames.length ∧ W w = A ∧ m.amps[w]? = some (some a)
    · obtain ⟨w, a, hw, hA, ha⟩ := h
      obtain ⟨y, hy⟩ := hev w a ha
      refine ⟨y / (m.ints.getD w 0 : ℂ), fun w' a' hw' hA' ha' => ?_⟩
      have : w' = w := hW.hinj w' hw' w hw (hA'.trans hA.symm)
      subst this
      rw [ha] at ha'
      cases ha'
      exact ⟨y, hy, rfl⟩
    · exact ⟨0, fun w a hw hA ha => absurd ⟨w, a, hw, hA, ha⟩ h⟩
  choose psi hpsi using hex
  rw [getIntensity_general hl hL hrx hr hi hint hW prod decay psi (fun w a ha => hpsi (W w) w a (by
    have := (List.getElem?_eq_some_iff.1 ha).1; rw [hinv.hamps] at this; exact this) rfl ha)]
  refine congrArg Outcome.ok (sum_eq_zero fun e _ => ?_)
  rw [sum_eq_zero, map_zero]
  intro w hw
  rw [hz w (mem_range.1 hw)]
  simp

/-- a fresh fit result lists its waves as assumed. -/
theorem fill_lists (a : FillArgs) (labels : List Label) (hn : a.prodAmpNames = labels.map Label.text) (hl : a.nmbProdAmps = labels.length)
    (hnd : labels.Nodup) (hflat : ∀ l ∈ labels, l.wave = .flat → l.rank = 0) (hg : ∀ l ∈ labels, ∀ w, l.wave = .pw w → w.Good) :
    Lists (FitResult.new.fillA a) labels where
  hnames := hn
  hcount := hl
  hnodup := hnd
  hflat := hflat
  hgood := hg
  hwaves := by
    refine ⟨(fill_fresh_waveNames a).1, fun n => ?_⟩
    rw [(fill_fresh_waveNames a).2, hn]
    constructor
    · rintro ⟨p, hp, rfl⟩
      obtain ⟨l, hl, rfl⟩ := List.mem_map.1 hp
      exact ⟨l, hl, (waveNameOf_text l).symm⟩
    · rintro ⟨l, hl, rfl⟩
      exact ⟨l.text, List.mem_map.2 ⟨l, hl, rfl⟩, waveNameOf_text l⟩

/-! ### examples -/

theorem exFit_lists : Lists exFit exLabels := fill_lists exArgs exLabels rfl rfl exFit_labelled.nodup exFit_labelled.flat exLabels_good

/-- two events: the two waves have amplitudes (1, 1) and (1, -1). -/
noncomputable def exA : Wave → ℕ → ℂ := fun w ev => if w = .pw wF2 ∧ ev = 1 then -1 else 1

noncomputable def exFiles : Name → Option AmpFile := fun n =>
  if n = wRho.text then some [[1], [1]] else if n = wF2.text then some [[1], [-1]] else none

noncomputable def exInt : IntMat := ⟨2, [String.ofList wRho.text, String.ofList wF2.text], 2, 2, 2, fun i j => if i = j then 2 else 0, []⟩

theorem names_ne : wRho.text ≠ wF2.text := by decide +kernel

theorem exInt_entries : (∀ i j : ℕ, exInt.mat i j = if i = j then 2 else 0) ∧ exInt.names.idxOf (String.ofList wRho.text) = 0 ∧
    exInt.names.idxOf (String.ofList wF2.text) = 1 := by
  refine ⟨fun _ _ => rfl, ?_, ?_⟩
  · show [String.ofList wRho.text, String.ofList wF2.text].idxOf _ = 0
    simp
  · show [String.ofList wRho.text, String.ofList wF2.text].idxOf _ = 1
    rw [List.idxOf_cons_ne _ (fun h => names_ne (by simpa using congrArg String.toList h)), List.idxOf_cons_self]

theorem exLabels_cases {l : Label} (hl : l ∈ exLabels) (hf : l.wave ≠ .flat) : l.wave = .pw wRho ∨ l.wave = .pw wF2 := by
  simp only [exLabels, List.mem_cons, List.not_mem_nil, or_false] at hl
  rcases hl with rfl | rfl | rfl | rfl | rfl
  · exact Or.inl rfl
  · exact Or.inr rfl
  · exact Or.inl rfl
  · exact Or.inr rfl
  · exact absurd rfl hf

theorem exDiag : diag exInt (.pw wRho) = 1 ∧ diag exInt (.pw wF2) = 1 := by
  obtain ⟨h1, h2, h3⟩ := exInt_entries
  constructor
  · show (exInt.mat (exInt.names.idxOf (String.ofList wRho.text)) (exInt.names.idxOf (String.ofList wRho.text))).re / ((2 : ℕ) : ℝ) = 1
    rw [h1]; norm_num
  · show (exInt.mat (exInt.names.idxOf (String.ofList wF2.text)) (exInt.names.idxOf (String.ofList wF2.text))).re / ((2 : ℕ) : ℝ) = 1
    rw [h1]; norm_num

theorem exUsable : Usable exLabels exInt exFiles exA 2 where
  hN := by decide
  hsome := ⟨⟨.pw wRho, 0⟩, by simp [exLabels], by simp⟩
  hfiles := by
    intro l hl hf
    rcases exLabels_cases hl hf with h | h <;> rw [h]
    · show exFiles wRho.text = _
      unfold exFiles
      rw [if_pos rfl]
      have : (Wave.pw wRho = Wave.pw wF2) = False := by simp [wRho, wF2]
      simp [List.range_succ, exA, this]
    · show exFiles wF2.text = _
      unfold exFiles
      rw [if_neg (fun h => names_ne h.symm), if_pos rfl]
      simp [List.range_succ, exA]
  hint := by
    intro l hl hf
    rcases exLabels_cases hl hf with h | h <;> rw [h] <;> simp [exInt, Wave.text]
  hdiag := by
    intro l hl hf
    rcases exLabels_cases hl hf with h | h <;> rw [h]
    · rw [exDiag.1]; norm_num
    · rw [exDiag.2]; norm_num
  hwf := ⟨rfl, rfl, rfl⟩
  hevents := by decide

theorem exOwn : OwnIntegral exLabels exInt exA 2 where
  hevents := rfl
  hentry := by
    obtain ⟨h1, h2, h3⟩ := exInt_entries
    have hne : (Wave.pw wRho = Wave.pw wF2) = False := by simp [wRho, wF2]
    intro l hl l' hl' hf hf'
    rcases exLabels_cases hl hf with h | h <;> rcases exLabels_cases hl' hf' with h' | h' <;> rw [h, h'] <;>
      simp only [IntMat.entry, Wave.text, h2, h3, h1] <;> simp [sum_range_succ, exA, hne] <;> norm_num

theorem exSame : SameIntegral exFit exLabels exInt where
  hwave := by
    obtain ⟨h1, h2, h3⟩ := exInt_entries
    have he : ∀ i j, exFit.normIntegral.entry i j = if i = j then 1 else 0 := fun _ _ => rfl
    have hidx : ∀ (i : ℕ) (w : Wave), (w = .pw wRho ∨ w = .pw wF2) → exFit.waveNames[i]? = some w.text → i = exInt.names.idxOf (String.ofList w.text) := by
      intro i w hw hi
      rw [exFit_waveNames] at hi
      rcases hw with rfl | rfl
      · rw [show (Wave.pw wRho).text = wRho.text from rfl] at hi ⊢
        rw [h2]
        rcases i with _ | _ | _ | i
        · rfl
        · exact absurd (Option.some.inj hi).symm names_ne
        · exact absurd (Option.some.inj hi) (by decide +kernel)
        · simp at hi
      · rw [show (Wave.pw wF2).text = wF2.text from rfl] at hi ⊢
        rw [h3]
        rcases i with _ | _ | _ | i
        · exact absurd (Option.some.inj hi) names_ne
        · rfl
        · exact absurd (Option.some.inj hi) (by decide +kernel)
        · simp at hi
    intro i j l l' hl hl' hf hf' hi hj
    rw [he, hidx i l.wave (exLabels_cases hl hf) hi, hidx j l'.wave (exLabels_cases hl' hf') hj]
    have hn : (exInt.nmbEvents : ℂ) = 2 := by show ((2 : ℕ) : ℂ) = 2; norm_num
    rcases exLabels_cases hl hf with h | h <;> rcases exLabels_cases hl' hf' with h' | h' <;> rw [h, h'] <;>
      simp only [IntMat.entry, Wave.text, h2, h3, h1, hn, exDiag.1, exDiag.2, Real.sqrt_one] <;> norm_num
  hflat := fun i _ => by
    have he : ∀ i j, exFit.normIntegral.entry i j = if i = j then 1 else 0 := fun _ _ => rfl
    rw [he, if_pos rfl]
  hherm := exFit_integrals.herm

/-- all hypotheses of `weights_total` are met by a fit of rank two with the flat wave and two events. -/
example : ∃ outs, weightEvents exInt exFit [] exFiles = .ok outs ∧ exFit.intensityOf rxLit [] = .ok (2 * (outs.map EventOut.weight).sum) := by
  obtain ⟨outs, h1, h2, _⟩ := weights_total literalRx_rxLit exFit_lists exFit_labelled exUsable exOwn exSame [] [] (by
    intro n _
    exact (hasSub_iff _ _).2 (List.nil_infix (l := n)))
  refine ⟨outs, h1, h2.trans ?_⟩
  have : (exFit.normNmbEvents : ℝ) = 2 := by show ((2 : ℕ) : ℝ) = 2; norm_num
  rw [this]

/-- one wave in two ranks with amplitudes 0 and 1. -/
def rank2Labels : List Label := [⟨.pw wRho, 0⟩, ⟨.pw wRho, 1⟩]

noncomputable def rank2Args : FillArgs :=
  { exArgs with
    nmbProdAmps := 2
    prodAmps := fun k => if k = 1 then 1 else 0
    prodAmpNames := rank2Labels.map Label.text
    phaseSpaceIntegral := some [1] }

noncomputable def rank2Fit : FitResult := FitResult.new.fillA rank2Args

/-- one amplitude object: that of the wave, equal to 1 everywhere. -/
noncomputable def rank2Ops : AmpOps Unit Unit where
  name := fun _ => wRho.text
  refl := fun _ => 1
  parent := fun _ => []
  fromX := id
  initKin := fun a _ _ => (true, a)
  eval := fun _ _ _ => some 1

/-- the intensity of a fit of rank two is wrong: the object is completely initialised, the model has intensity 1, the object says 0. -/
theorem rank2_wrong : ∃ m : ModelInt Unit, Reached (fun _ s => decide (s ≠ "flat".toList)) rank2Ops rank2Fit m ∧ m.initialized = true ∧ m.intLoaded = true ∧
    m.getIntensity rank2Ops [] [] = .ok 0 ∧ modelIntensity rank2Labels rank2Fit.prodAmps (fun _ => 1) 2 = 1 := by
  have hg : ∀ l ∈ rank2Labels, ∀ w, l.wave = .pw w → w.Good := by
    intro l hl w hw
    have h1 : l.wave = .pw wRho := by
      simp only [rank2Labels, List.mem_cons, List.not_mem_nil, or_false] at hl
      rcases hl with rfl | rfl <;> rfl
    refine exLabels_good ⟨.pw wRho, 0⟩ (by simp [exLabels]) w ?_
    rw [← hw, h1]
  have hlists : Lists rank2Fit rank2Labels := fill_lists rank2Args rank2Labels rfl rfl (by decide +kernel) (by decide +kernel) hg
  have hnames : rank2Fit.waveNames = [wRho.text] := by
    have e : rank2Fit.waveNames = appear ((rank2Labels.map Label.text).map waveNameOf) [] := waveLoop_fst _ _ _ _
    rw [e, List.map_map]
    have : waveNameOf ∘ Label.text = fun l : Label => l.wave.text := by funext l; exact waveNameOf_text l
    rw [this]
    decide +kernel
  have hlaw : LawfulOps rank2Ops rank2Labels := by
    refine ⟨fun _ => rfl, fun _ _ _ => rfl, ?_⟩
    intro l hl a _
    simp only [rank2Labels, List.mem_cons, List.not_mem_nil, or_false] at hl
    rcases hl with rfl | rfl <;> rfl
  have hidx : rank2Fit.waveIndex wRho.text = some 0 := by
    unfold FitResult.waveIndex
    rw [hnames]
    simp
  obtain ⟨m0, hm0⟩ : ∃ m0 : ModelInt Unit, m0 = ModelInt.new (fun _ s => decide (s ≠ "flat".toList)) rank2Fit := ⟨_, rfl⟩
  have hnl : wRho.text ≠ "flat".toList := by decide +kernel
  have ha : m0.amps = [none] := by rw [hm0]; unfold ModelInt.new; rw [hnames]; rfl
  have hfit : m0.fit = rank2Fit := by rw [hm0]; rfl
  have h1 : m0.step rank2Ops (.add ()) = .ok (true, { m0 with
        initialized := false
        amps := m0.amps.set 0 (some ())
        refls := m0.refls.set 0 1
        allRefls := m0.allRefls.insert 1 }) := by
    show m0.addDecayAmplitude rank2Ops () = _
    unfold ModelInt.addDecayAmplitude
    rw [hfit, show rank2Ops.name () = wRho.text from rfl, hidx]
    simp only
    rw [ha]
    rfl
  obtain ⟨m1, hm1⟩ : ∃ m1 : ModelInt Unit, m1 = { m0 with
        initialized := false
        amps := m0.amps.set 0 (some ())
        refls := m0.refls.set 0 1
        allRefls := m0.allRefls.insert 1 } := ⟨_, rfl⟩
  rw [← hm1] at h1
  have ha1 : m1.amps = [some ()] := by rw [hm1]; simp only; rw [ha]; rfl
  have hfit1 : m1.fit = rank2Fit := by rw [hm1]; exact hfit
  have hb : (m1.initDecayAmplitudes rank2Ops [] []).1 = true := by
    show (ModelInt.initLoop rank2Ops false [] (m1.fit.waveNames.zip m1.amps) []).1 = true
    rw [hfit1, hnames, ha1, List.zip_cons_cons, List.zip_nil_left]
    unfold ModelInt.initLoop
    rw [if_neg hnl]
    rfl
  have h2 : m1.step rank2Ops (.init [] []) = .ok (true, (m1.initDecayAmplitudes rank2Ops [] []).2) := by
    show Outcome.ok (m1.initDecayAmplitudes rank2Ops [] []) = _
    rw [← hb]
  have hr : Reached (fun _ s => decide (s ≠ "flat".toList)) rank2Ops rank2Fit (m1.initDecayAmplitudes rank2Ops [] []).2 :=
    .step m1 _ _ true (.step m0 m1 _ true (by rw [hm0]; exact .new) h1) h2
  have hl0 : m0.intLoaded = true := by
    rw [hm0]
    show decide (rank2Fit.phaseSpaceIntegral.length = rank2Fit.waveNames.length) = true
    rw [hnames]
    rfl
  have hint : (m1.initDecayAmplitudes rank2Ops [] []).2.intLoaded = true := by
    show m1.intLoaded = true
    rw [hm1]; exact hl0
  refine ⟨(m1.initDecayAmplitudes rank2Ops [] []).2, hr, hb, hint, ?_, ?_⟩
  · refine higher_ranks_ignored hlaw hlists (fun n => by simp) hr hb hint [] [] (fun w a _ => ⟨1, rfl⟩) ?_
    intro w hw
    rw [hnames] at hw
    have : w = 0 := by simp at hw; exact hw
    rw [this]
    show (if (0 : ℕ) = 1 then (1 : ℂ) else 0) = 0
    simp
  · have hV : ∀ k, rank2Fit.prodAmps k = if k = 1 then (1 : ℂ) else 0 := fun _ => rfl
    have hp : Wave.refl (.pw wRho) = 1 := rfl
    simp [modelIntensity, reflIntensity, coherent, flatIntensity, rank2Labels, hV, hp, sum_range_succ]

end Rpwa.Wgt
