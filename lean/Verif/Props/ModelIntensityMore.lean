import Verif.Props.ModelIntensityEx
import Verif.Props.Pickers
/-! # C65: what is refused, and with which names the amplitudes are initialised -/
namespace Rpwa.Wgt

open Rpwa.Fit Rpwa.Integral Finset

variable {α κ : Type} {rx : Name → Name → Bool} {ops : AmpOps α κ} {fit : FitResult} {labels : List Label}

theorem mapM_ok_mem {β γ : Type} {f : β → Outcome γ} : ∀ {l : List β} {ys : List γ}, l.mapM f = .ok ys → ∀ x ∈ l, ∃ y, f x = .ok y := by
  intro l
  induction l with
  | nil => intro _ _ x hx; cases hx
  | cons a l ih =>
    intro ys h x hx
    rw [List.mapM_cons] at h
    obtain ⟨y, h1, h2⟩ := Outcome.bind_eq_ok.1 h
    obtain ⟨ys', h3, _⟩ := Outcome.bind_eq_ok.1 h2
    rcases List.mem_cons.1 hx with rfl | hx
    · exact ⟨y, h1⟩
    · exact ih h3 x hx

/-- **weights are written only if every amplitude is a single number**: if the program succeeds, the amplitude files have, for every wave but the flat
one and for every event, exactly one amplitude (incoherent sub-amplitudes end the program). -/
theorem weights_single {r : FitResult} {int : IntMat} {files : Name → Option AmpFile} (hL : Lists r labels) (varied : List (ℕ → ℂ)) {outs : List EventOut}
    (h : weightEvents int r varied files = .ok outs) (l : Label) (hl : l ∈ labels) (hf : l.wave ≠ .flat) :
    ∃ t, files l.wave.text = some t ∧ t.length = outs.length ∧ ∀ x ∈ t, ∃ a, x = [a] := by
  unfold weightEvents at h
  rw [prodInfos_eq hL] at h
  simp only [Outcome.ok_bind] at h
  rw [waveNamesOf_eq hL] at h
  by_cases h1 : r.waveNames.length ≠ (openAmpFiles files r.waveNames).2.length
  · rw [if_pos h1] at h; cases h
  rw [if_neg h1] at h
  by_cases h2 : (openAmpFiles files r.waveNames).1 = 0
  · rw [if_pos h2] at h; cases h
  rw [if_neg h2] at h
  obtain ⟨h3, h4⟩ := openAmpFiles_spec files r.waveNames (not_not.1 h1)
  have hn : l.wave.text ∈ r.waveNames := (hL.hwaves.2 _).2 ⟨l, hl, rfl⟩
  have hfl : l.wave.text ≠ "flat".toList := fun hc => hf ((text_flat_iff hL l hl).1 hc)
  obtain ⟨t, ht, hlen, _⟩ := h4 _ hn hfl
  have hol : outs.length = t.length := by
    rw [hlen]
    have : ∀ {β γ : Type} {f : β → Outcome γ} (l : List β) (ys : List γ), l.mapM f = .ok ys → ys.length = l.length := by
      intro β γ f l
      induction l with
      | nil => intro ys h; cases h; rfl
      | cons a l ih =>
        intro ys h
        rw [List.mapM_cons] at h
        obtain ⟨y, _, h2⟩ := Outcome.bind_eq_ok.1 h
        obtain ⟨ys', h3, h4⟩ := Outcome.bind_eq_ok.1 h2
        cases h4
        rw [List.length_cons, List.length_cons, ih ys' h3]
    rw [this _ _ h, List.length_range]
  refine ⟨t, ht, hol.symm, fun x hx => ?_⟩
  obtain ⟨ev, hev, rfl⟩ := List.mem_iff_getElem.1 hx
  obtain ⟨o, ho⟩ := mapM_ok_mem h ev (List.mem_range.2 (by omega))
  unfold weighEvent at ho
  obtain ⟨decay, hd, _⟩ := Outcome.bind_eq_ok.1 ho
  obtain ⟨z, hz⟩ := mapM_ok_mem hd (some t) (by
    rw [h3]
    exact List.mem_map.2 ⟨_, hn, by unfold treeOf; rw [if_neg hfl, ht]⟩)
  unfold decayAmp at hz
  simp only [List.getElem?_eq_getElem hev] at hz
  generalize t[ev] = x at hz
  match x, hz with
  | [a], _ => exact ⟨a, rfl⟩

/-- **an intensity is returned only if every amplitude accepts the momenta.** -/
theorem getIntensity_momenta {m : ModelInt α} {ws : List ℕ} {prod decay : List κ} {x : ℝ} (hint : m.ints.length = m.amps.length)
    (h : m.getIntensityOf ops ws prod decay = .ok x) : m.initialized = true ∧ m.intLoaded = true ∧ ∀ a, some a ∈ m.amps → (ops.eval a prod decay).isSome := by
  unfold ModelInt.getIntensityOf at h
  obtain ⟨psi, hp, _⟩ := Outcome.bind_eq_ok.1 h
  unfold ModelInt.getDecayAmplitudes at hp
  by_cases h1 : m.initialized = false
  · rw [if_pos h1] at hp; cases hp
  rw [if_neg h1] at hp
  by_cases h2 : m.intLoaded = false
  · rw [if_pos h2] at hp; cases hp
  rw [if_neg h2] at hp
  refine ⟨by simpa using h1, by simpa using h2, fun a ha => ?_⟩
  obtain ⟨w, hw, he⟩ := List.mem_iff_getElem.1 ha
  obtain ⟨y, hy⟩ := mapM_ok_mem hp (some a, m.ints[w]'(by omega)) (by
    rw [← he]
    refine List.mem_iff_getElem.2 ⟨w, by simp; omega, by simp⟩)
  unfold ModelInt.evalOne at hy
  simp only at hy
  cases he : ops.eval a prod decay with
  | none => rw [he] at hy; cases hy
  | some z => rfl

/-- **the intensity of the decay of X alone is given only by an object that was last initialised for it.** -/
theorem getIntensityX_refuses (zero : κ) {m m' : ModelInt α} {prod decay : List Name} {b : Bool} (h : m.step ops (.init prod decay) = .ok (b, m')) (mom : List κ) :
    m'.getIntensityX ops zero mom = .terminate := by
  have := (step_flags m m' (.init prod decay) b h).2.2.2
  unfold ModelInt.getIntensityX
  rw [if_pos this]

theorem initLoop_X (decay : List Name) (X : Name) : ∀ (l : List (Name × Option α)) (prod : List Name), prod = [[]] ∨ prod = [X] → (∀ n a, (n, some a) ∈ l → ops.parent a = X) →
    (ModelInt.initLoop ops true decay l prod).1 = true →
    (ModelInt.initLoop ops true decay l prod).2 = l.map fun e => e.2.map fun a => (ops.initKin (ops.fromX a) [X] decay).2 := by
  intro l
  induction l with
  | nil => intro _ _ _ _; rfl
  | cons e l ih =>
    obtain ⟨n, a⟩ := e
    intro prod hp hX h
    unfold ModelInt.initLoop at h ⊢
    by_cases hn : n = "flat".toList
    · rw [if_pos hn] at h ⊢
      cases a with
      | some a => cases h
      | none =>
        simp only at h ⊢
        rw [ih prod hp (fun n a ha => hX n a (List.mem_cons_of_mem _ ha)) h]
        rfl
    · rw [if_neg hn] at h ⊢
      cases a with
      | none => cases h
      | some a =>
        have hpa : ops.parent a = X := hX n a List.mem_cons_self
        have hone : ModelInt.initOne ops true prod decay a = ((ops.initKin (ops.fromX a) [X] decay).1, [X], (ops.initKin (ops.fromX a) [X] decay).2) := by
          unfold ModelInt.initOne
          have : (if (true && (prod.length == 0 || prod.head? == some [])) = true then [ops.parent a] else prod) = [X] := by
            rcases hp with rfl | rfl
            · rw [if_pos (by simp), hpa]
            · by_cases hXe : X = []
              · rw [if_pos (by simp [hXe]), hpa]
              · rw [if_neg (by simp [hXe])]
          simp only [this, if_pos]
        simp only [hone] at h ⊢
        by_cases hk : (ops.initKin (ops.fromX a) [X] decay).1 = true
        · rw [if_pos hk] at h ⊢
          simp only at h ⊢
          rw [ih [X] (.inr rfl) (fun n a ha => hX n a (List.mem_cons_of_mem _ ha)) h]
          rfl
        · rw [if_neg hk] at h
          cases h

/-- **initialised for the decay of X alone**, every amplitude is one of the decay of X, with the X itself as the only production particle and the given final state. -/
theorem initX_names {m m' : ModelInt α} {decay : List Name} {X : Name} (hlen : m.amps.length = m.fit.waveNames.length) (hX : ∀ a, some a ∈ m.amps → ops.parent a = X)
    (h : m.step ops (.initX decay) = .ok (true, m')) : m'.amps = m.amps.map fun a => a.map fun a => (ops.initKin (ops.fromX a) [X] decay).2 := by
  have e := Outcome.ok.inj h
  have e1 := (congrArg Prod.snd e).symm
  subst e1
  have e2 : (ModelInt.initLoop ops true decay (m.fit.waveNames.zip m.amps) [[]]).1 = true := congrArg Prod.fst e
  show (ModelInt.initLoop ops true decay (m.fit.waveNames.zip m.amps) [[]]).2 = _
  rw [initLoop_X decay X _ _ (.inl rfl) (fun n a ha => hX a (List.of_mem_zip ha).2) e2]
  rw [show (fun e : Name × Option α => e.2.map fun a => (ops.initKin (ops.fromX a) [X] decay).2) =
    (fun a : Option α => a.map fun a => (ops.initKin (ops.fromX a) [X] decay).2) ∘ Prod.snd from rfl, ← List.map_map, List.map_snd_zip (by omega)]

/-- **initialised with production particles**, every amplitude has the given particles. -/
theorem init_names {m m' : ModelInt α} {prod decay : List Name} (hlen : m.amps.length = m.fit.waveNames.length)
    (h : m.step ops (.init prod decay) = .ok (true, m')) : m'.amps = m.amps.map fun a => a.map fun a => (ops.initKin a prod decay).2 := by
  have key : ∀ (l : List (Name × Option α)), (ModelInt.initLoop ops false decay l prod).1 = true →
      (ModelInt.initLoop ops false decay l prod).2 = l.map fun e => e.2.map fun a => (ops.initKin a prod decay).2 := by
    intro l
    induction l with
    | nil => intro _; rfl
    | cons e l ih =>
      obtain ⟨n, a⟩ := e
      intro h
      unfold ModelInt.initLoop at h ⊢
      by_cases hn : n = "flat".toList
      · rw [if_pos hn] at h ⊢
        cases a with
        | some a => cases h
        | none =>
          simp only at h ⊢
          rw [ih h]
          rfl
      · rw [if_neg hn] at h ⊢
        cases a with
        | none => cases h
        | some a =>
          have hone : ModelInt.initOne ops false prod decay a = ((ops.initKin a prod decay).1, prod, (ops.initKin a prod decay).2) := by
            unfold ModelInt.initOne
            simp
          simp only [hone] at h ⊢
          by_cases hk : (ops.initKin a prod decay).1 = true
          · rw [if_pos hk] at h ⊢
            simp only at h ⊢
            rw [ih h]
            rfl
          · rw [if_neg hk] at h
            cases h
  have e := Outcome.ok.inj h
  have e1 := (congrArg Prod.snd e).symm
  subst e1
  have e2 : (ModelInt.initLoop ops false decay (m.fit.waveNames.zip m.amps) prod).1 = true := congrArg Prod.fst e
  show (ModelInt.initLoop ops false decay (m.fit.waveNames.zip m.amps) prod).2 = _
  rw [key _ e2]
  rw [show (fun e : Name × Option α => e.2.map fun a => (ops.initKin a prod decay).2) =
    (fun a : Option α => a.map fun a => (ops.initKin a prod decay).2) ∘ Prod.snd from rfl, ← List.map_map, List.map_snd_zip (by omega)]

/-- a case: the files of the example have single amplitudes. -/
theorem ex_single : ∃ outs t, weightEvents exInt exFit [] exFiles = .ok outs ∧ exFiles wRho.text = some t ∧ t.length = outs.length ∧ ∀ x ∈ t, ∃ a, x = [a] := by
  obtain ⟨outs, h, _⟩ := weights_spec exFit_lists exUsable [] (exLabels.foldl (fun m l => max m (l.rank + 1)) 0) (by decide)
  have hm : ∃ l ∈ exLabels, l.wave = .pw wRho := by
    refine ⟨_, List.mem_cons_self, rfl⟩
  obtain ⟨l, hl, hw⟩ := hm
  obtain ⟨t, h1, h2⟩ := weights_single exFit_lists [] h l hl (by rw [hw]; simp)
  rw [hw] at h1
  exact ⟨outs, t, h, h1, h2⟩

end Rpwa.Wgt
