import Verif.Props.EventWeightsTotal
import Verif.Props.FitRefill
/-! # C65: the intensity of `modelIntensity` -/
namespace Rpwa.Wgt

open Rpwa.Fit Rpwa.Integral Finset

variable {α κ : Type} {rx : Name → Name → Bool} {ops : AmpOps α κ} {fit : FitResult} {labels : List Label}

/-- what holds after every history of calls. -/
structure Inv (rx : Name → Name → Bool) (ops : AmpOps α κ) (fit : FitResult) (m : ModelInt α) : Prop where
  hfit : m.fit = fit
  hno : m.noFlat = fit.waveIndicesMatching rx noFlatPattern
  hamps : m.amps.length = fit.waveNames.length
  hrefls : m.refls.length = fit.waveNames.length
  hints : m.ints.length = fit.waveNames.length
  hname : ∀ (w : ℕ) (a : α), m.amps[w]? = some (some a) → fit.waveNames[w]? = some (ops.name a) ∧
    ∃ a0, ops.name a0 = ops.name a ∧ m.refls[w]? = some (ops.refl a0)
  hnone : ∀ w : ℕ, m.amps[w]? = some none → m.refls[w]? = some 0
  hnd : m.allRefls.Nodup
  hall : ∀ e, e ∈ m.allRefls ↔ ∃ w : ℕ, (∃ a, m.amps[w]? = some (some a)) ∧ m.refls[w]? = some e
  hinit : m.initialized = true → ∀ (w : ℕ) (n : Name), fit.waveNames[w]? = some n → (m.amps[w]? = some none ↔ n = "flat".toList)

theorem waveIndex_some {r : FitResult} {n : Name} {w : ℕ} (h : r.waveIndex n = some w) : r.waveNames[w]? = some n := by
  unfold FitResult.waveIndex at h
  simp only at h
  split_ifs at h with hlt
  cases h
  rw [List.getElem?_eq_getElem hlt]
  simp

theorem loadLoop_length (int : IntMat) : ∀ (ns : List Name) (i : ℕ) (ints : List ℝ) (b : Bool) (ints' : List ℝ),
    ModelInt.loadLoop int ns i ints = .ok (b, ints') → ints'.length = ints.length := by
  intro ns
  induction ns with
  | nil =>
    intro i ints b ints' h
    unfold ModelInt.loadLoop at h
    exact (congrArg (fun x => x.2.length) (Outcome.ok.inj h)).symm
  | cons n ns ih =>
    intro i ints b ints' h
    unfold ModelInt.loadLoop at h
    by_cases hf : n = "flat".toList
    · rw [if_pos hf] at h
      rw [ih _ _ _ _ h, List.length_set]
    · rw [if_neg hf] at h
      by_cases hc : int.containsWave (String.ofList n) = false
      · rw [if_pos hc] at h
        exact (congrArg (fun x => x.2.length) (Outcome.ok.inj h)).symm
      · rw [if_neg hc] at h
        obtain ⟨z, _, h2⟩ := Outcome.bind_eq_ok.1 h
        rw [ih _ _ _ _ h2, List.length_set]

/-- the initialisation keeps names and flat slots, and succeeds only if exactly the waves other than the flat wave have an amplitude. -/
theorem initLoop_spec (hX : ∀ a, ops.name (ops.fromX a) = ops.name a) (hI : ∀ a prod decay, ops.name (ops.initKin a prod decay).2 = ops.name a)
    (fromX : Bool) (decay : List Name) : ∀ (l : List (Name × Option α)) (prod : List Name),
    (ModelInt.initLoop ops fromX decay l prod).2.length = l.length ∧
    (∀ w : ℕ, ((ModelInt.initLoop ops fromX decay l prod).2[w]?).map (Option.map ops.name) = (l[w]?).map fun x => x.2.map ops.name) ∧
    ((ModelInt.initLoop ops fromX decay l prod).1 = true → ∀ x ∈ l, x.2 = none ↔ x.1 = "flat".toList) := by
  intro l
  induction l with
  | nil => intro prod; simp [ModelInt.initLoop]
  | cons x rest ih =>
    obtain ⟨n, a⟩ := x
    have stay : ∀ b : Option α, b.map ops.name = a.map ops.name → (b :: rest.map Prod.snd).length = ((n, a) :: rest).length ∧
        ∀ w : ℕ, ((b :: rest.map Prod.snd)[w]?).map (Option.map ops.name) = (((n, a) :: rest)[w]?).map fun x => x.2.map ops.name := by
      intro b hb
      refine ⟨by simp, fun w => ?_⟩
      cases w with
      | zero => simp [hb]
      | succ w => simp [Function.comp_def]
    have go : ∀ (b : Option α) (prod : List Name), b.map ops.name = a.map ops.name → (b :: (ModelInt.initLoop ops fromX decay rest prod).2).length = ((n, a) :: rest).length ∧
        ∀ w : ℕ, ((b :: (ModelInt.initLoop ops fromX decay rest prod).2)[w]?).map (Option.map ops.name) = (((n, a) :: rest)[w]?).map fun x => x.2.map ops.name := by
      intro b prod hb
      refine ⟨by simp [(ih prod).1], fun w => ?_⟩
      cases w with
      | zero => simp [hb]
      | succ w => simpa using (ih prod).2.1 w
    intro prod
    unfold ModelInt.initLoop
    by_cases hf : n = "flat".toList
    · rw [if_pos hf]
      cases a with
      | none =>
        refine ⟨(go none prod rfl).1, (go none prod rfl).2, ?_⟩
        intro hb x hx
        rcases List.mem_cons.1 hx with rfl | hx
        · simp only [hf]
        · exact (ih prod).2.2 hb x hx
      | some y => exact ⟨(stay (some y) rfl).1, (stay (some y) rfl).2, fun h => absurd h (by simp)⟩
    · rw [if_neg hf]
      cases a with
      | none => exact ⟨(stay none rfl).1, (stay none rfl).2, fun h => absurd h (by simp)⟩
      | some y =>
        have hname : ops.name (ModelInt.initOne ops fromX prod decay y).2.2 = ops.name y := by
          unfold ModelInt.initOne
          simp only [hI]
          split_ifs
          · exact hX y
          · rfl
        simp only
        by_cases hone : (ModelInt.initOne ops fromX prod decay y).1 = true
        · rw [if_pos hone]
          have hb : (some (ModelInt.initOne ops fromX prod decay y).2.2).map ops.name = (some y).map ops.name := congrArg some hname
          refine ⟨(go _ _ hb).1, (go _ _ hb).2, ?_⟩
          intro hb x hx
          rcases List.mem_cons.1 hx with rfl | hx
          · simp only [hf, reduceCtorEq]
          · exact (ih _).2.2 hb x hx
        · rw [if_neg hone]
          have hb : (some (ModelInt.initOne ops fromX prod decay y).2.2).map ops.name = (some y).map ops.name := congrArg some hname
          exact ⟨(stay _ hb).1, (stay _ hb).2, fun h => absurd h (by simp)⟩

theorem inv_initDecay (hX : ∀ a, ops.name (ops.fromX a) = ops.name a) (hI : ∀ a prod decay, ops.name (ops.initKin a prod decay).2 = ops.name a)
    {m : ModelInt α} (h : Inv rx ops fit m) (prod decay : List Name) (fromX : Bool) : Inv rx ops fit (m.initDecay ops prod decay fromX).2 := by
  obtain ⟨h1, h2, h3⟩ := initLoop_spec hX hI fromX decay (m.fit.waveNames.zip m.amps) prod
  have hlen : (m.fit.waveNames.zip m.amps).length = fit.waveNames.length := by rw [List.length_zip, h.hamps, h.hfit, min_self]
  have hz : ∀ w : ℕ, ((m.fit.waveNames.zip m.amps)[w]?).map (fun x => x.2.map ops.name) = (m.amps[w]?).map (Option.map ops.name) := by
    intro w
    by_cases hw : w < fit.waveNames.length
    · have k1 : w < (m.fit.waveNames.zip m.amps).length := by omega
      have k2 : w < m.amps.length := by rw [h.hamps]; exact hw
      rw [List.getElem?_eq_getElem k1, List.getElem?_eq_getElem k2]
      simp
    · rw [List.getElem?_eq_none (by omega), List.getElem?_eq_none (by rw [h.hamps]; omega)]
      rfl
  have hsome : ∀ (w : ℕ) (a : α), (m.initDecay ops prod decay fromX).2.amps[w]? = some (some a) → ∃ a', m.amps[w]? = some (some a') ∧ ops.name a' = ops.name a := by
    intro w a ha
    have := (h2 w).trans (hz w)
    rw [show (ModelInt.initLoop ops fromX decay (m.fit.waveNames.zip m.amps) prod).2[w]? = some (some a) from ha] at this
    cases hw : m.amps[w]? with
    | none => rw [hw] at this; simp at this
    | some o => cases o with
      | none => rw [hw] at this; simp at this
      | some a' => rw [hw] at this; exact ⟨a', rfl, by simpa using this.symm⟩
  have hsome' : ∀ (w : ℕ) (a' : α), m.amps[w]? = some (some a') → ∃ a, (m.initDecay ops prod decay fromX).2.amps[w]? = some (some a) := by
    intro w a' ha
    have := (h2 w).trans (hz w)
    rw [ha] at this
    show ∃ a, (ModelInt.initLoop ops fromX decay (m.fit.waveNames.zip m.amps) prod).2[w]? = some (some a)
    cases hw : (ModelInt.initLoop ops fromX decay (m.fit.waveNames.zip m.amps) prod).2[w]? with
    | none => rw [hw] at this; simp at this
    | some o => cases o with
      | none => rw [hw] at this; simp at this
      | some a => exact ⟨a, rfl⟩
  have hnone : ∀ w : ℕ, (m.initDecay ops prod decay fromX).2.amps[w]? = some none ↔ m.amps[w]? = some none := by
    intro w
    have := (h2 w).trans (hz w)
    show (ModelInt.initLoop ops fromX decay (m.fit.waveNames.zip m.amps) prod).2[w]? = some none ↔ _
    generalize (ModelInt.initLoop ops fromX decay (m.fit.waveNames.zip m.amps) prod).2[w]? = x at this ⊢
    generalize m.amps[w]? = y at this ⊢
    rcases x with _ | _ | x <;> rcases y with _ | _ | y <;> simp_all
  refine ⟨h.hfit, h.hno, ?_, h.hrefls, h.hints, ?_, ?_, h.hnd, ?_, ?_⟩
  · show (ModelInt.initLoop ops fromX decay (m.fit.waveNames.zip m.amps) prod).2.length = _
    rw [h1, hlen]
  · intro w a ha
    obtain ⟨a', k1, k2⟩ := hsome w a ha
    obtain ⟨k3, a0, k4, k5⟩ := h.hname w a' k1
    exact ⟨k2 ▸ k3, a0, k4.trans k2, k5⟩
  · intro w hw
    exact h.hnone w ((hnone w).1 hw)
  · intro e
    rw [show (m.initDecay ops prod decay fromX).2.allRefls = m.allRefls from rfl, h.hall]
    constructor
    · rintro ⟨w, ⟨a, ha⟩, he⟩; exact ⟨w, hsome' w a ha, he⟩
    · rintro ⟨w, ⟨a, ha⟩, he⟩
      obtain ⟨a', ha', _⟩ := hsome w a ha
      exact ⟨w, ⟨a', ha'⟩, he⟩
  · intro hb w n hn
    rw [hnone]
    have hw : w < fit.waveNames.length := (List.getElem?_eq_some_iff.1 hn).1
    have k1 : w < (m.fit.waveNames.zip m.amps).length := by omega
    have k2 : w < m.amps.length := by rw [h.hamps]; exact hw
    have := h3 hb ((m.fit.waveNames.zip m.amps)[w]'k1) (List.getElem_mem k1)
    rw [List.getElem?_eq_getElem k2, Option.some_inj]
    have hn' : m.fit.waveNames[w]'(by rw [h.hfit]; exact hw) = n := by
      have := h.hfit
      subst this
      exact (List.getElem?_eq_some_iff.1 hn).2
    simpa [hn'] using this

theorem inv_add {m m' : ModelInt α} (h : Inv rx ops fit m) (a : α) (b : Bool) (hs : m.addDecayAmplitude ops a = .ok (b, m')) :
    Inv rx ops fit m' ∧ (b = false → m' = m) ∧ (b = true → m'.initialized = false) := by
  unfold ModelInt.addDecayAmplitude at hs
  cases hw : m.fit.waveIndex (ops.name a) with
  | none =>
    rw [hw] at hs
    have e := Outcome.ok.inj hs
    have e1 : m = m' := congrArg Prod.snd e
    have e2 : false = b := congrArg Prod.fst e
    subst e1 e2
    exact ⟨h, fun _ => rfl, fun k => absurd k (by simp)⟩
  | some w =>
    rw [hw] at hs
    simp only at hs
    have hname : fit.waveNames[w]? = some (ops.name a) := by rw [← h.hfit]; exact waveIndex_some hw
    have hwl : w < fit.waveNames.length := (List.getElem?_eq_some_iff.1 hname).1
    cases ho : m.amps[w]? with
    | none => rw [ho] at hs; cases hs
    | some o =>
      rw [ho] at hs
      cases o with
      | some y =>
        have e := Outcome.ok.inj hs
        have e1 : m = m' := congrArg Prod.snd e
        have e2 : false = b := congrArg Prod.fst e
        subst e1 e2
        exact ⟨h, fun _ => rfl, fun k => absurd k (by simp)⟩
      | none =>
        have e := Outcome.ok.inj hs
        have e1 : _ = m' := congrArg Prod.snd e
        have e2 : true = b := congrArg Prod.fst e
        subst e1 e2
        refine ⟨⟨h.hfit, h.hno, ?_, ?_, h.hints, ?_, ?_, ?_, ?_, ?_⟩, fun k => absurd k (by simp), fun _ => rfl⟩
        · simp [h.hamps]
        · simp [h.hrefls]
        · intro w' a' ha'
          by_cases hww : w = w'
          · subst hww
            have : (m.amps.set w (some a))[w]? = some (some a') := ha'
            rw [List.getElem?_set_self (by rw [h.hamps]; exact hwl)] at this
            cases this
            exact ⟨hname, a, rfl, List.getElem?_set_self (by rw [h.hrefls]; exact hwl)⟩
          · have : (m.amps.set w (some a))[w']? = some (some a') := ha'
            rw [List.getElem?_set_ne hww] at this
            obtain ⟨k1, a0, k2, k3⟩ := h.hname w' a' this
            exact ⟨k1, a0, k2, (List.getElem?_set_ne hww).trans k3⟩
        · intro w' hw'
          by_cases hww : w = w'
          · subst hww
            have : (m.amps.set w (some a))[w]? = some none := hw'
            rw [List.getElem?_set_self (by rw [h.hamps]; exact hwl)] at this
            cases this
          · have : (m.amps.set w (some a))[w']? = some none := hw'
            rw [List.getElem?_set_ne hww] at this
            exact (List.getElem?_set_ne hww).trans (h.hnone w' this)
        · exact h.hnd.insert
        · intro e
          show e ∈ m.allRefls.insert (ops.refl a) ↔ ∃ w' : ℕ, (∃ a', (m.amps.set w (some a))[w']? = some (some a')) ∧ (m.refls.set w (ops.refl a))[w']? = some e
          rw [List.mem_insert_iff, h.hall]
          constructor
          · rintro (rfl | ⟨w', ⟨a', ha'⟩, he⟩)
            · exact ⟨w, ⟨a, List.getElem?_set_self (by rw [h.hamps]; exact hwl)⟩, List.getElem?_set_self (by rw [h.hrefls]; exact hwl)⟩
            · have hne : w ≠ w' := by
                rintro rfl; rw [ho] at ha'; cases ha'
              exact ⟨w', ⟨a', (List.getElem?_set_ne hne).trans ha'⟩, (List.getElem?_set_ne hne).trans he⟩
          · rintro ⟨w', ⟨a', ha'⟩, he⟩
            by_cases hww : w = w'
            · subst hww
              rw [List.getElem?_set_self (by rw [h.hrefls]; exact hwl)] at he
              exact Or.inl (Option.some.inj he).symm
            · rw [List.getElem?_set_ne hww] at ha' he
              exact Or.inr ⟨w', ⟨a', ha'⟩, he⟩
        · intro hb; exact absurd hb (by simp)

theorem inv_load {m m' : ModelInt α} (h : Inv rx ops fit m) (int : IntMat) (b : Bool) (hs : m.loadPhaseSpaceIntegral int = .ok (b, m')) :
    Inv rx ops fit m' ∧ m'.intLoaded = b ∧ m'.initialized = m.initialized ∧ m'.amps = m.amps := by
  unfold ModelInt.loadPhaseSpaceIntegral at hs
  obtain ⟨res, h1, h2⟩ := Outcome.bind_eq_ok.1 hs
  have e := Outcome.ok.inj h2
  have e1 : _ = m' := congrArg Prod.snd e
  have e2 : res.1 = b := congrArg Prod.fst e
  subst e1 e2
  refine ⟨⟨h.hfit, h.hno, h.hamps, h.hrefls, ?_, h.hname, h.hnone, h.hnd, h.hall, h.hinit⟩, rfl, rfl, rfl⟩
  show res.2.length = _
  rw [loadLoop_length int _ _ _ res.1 res.2 h1]
  have := h.hints
  rw [h.hfit]
  simp
  omega

theorem inv_new : Inv rx ops fit (ModelInt.new rx fit : ModelInt α) where
  hfit := rfl
  hno := rfl
  hamps := by simp [ModelInt.new]
  hrefls := by simp [ModelInt.new]
  hints := by
    unfold ModelInt.new
    by_cases h : fit.phaseSpaceIntegral.length = fit.waveNames.length
    · simp [h]
    · simp [h]
  hname := by
    intro w a h
    have : (List.replicate fit.waveNames.length (none : Option α))[w]? = some (some a) := h
    rw [List.getElem?_replicate] at this
    split_ifs at this
    cases this
  hnone := by
    intro w h
    have : (List.replicate fit.waveNames.length (none : Option α))[w]? = some none := h
    rw [List.getElem?_replicate] at this
    split_ifs at this with hw
    show (List.replicate fit.waveNames.length (0 : ℤ))[w]? = some 0
    rw [List.getElem?_replicate, if_pos hw]
  hnd := List.nodup_nil
  hall := by
    intro e
    constructor
    · intro h; cases h
    · rintro ⟨w, ⟨a, ha⟩, _⟩
      have : (List.replicate fit.waveNames.length (none : Option α))[w]? = some (some a) := ha
      rw [List.getElem?_replicate] at this
      split_ifs at this
      cases this
  hinit := by intro h; cases h

theorem reached_inv (hl : LawfulOps ops labels) {m : ModelInt α} (h : Reached rx ops fit m) : Inv rx ops fit m := by
  induction h with
  | new => exact inv_new
  | step m m' c b _ hs ih =>
    cases c with
    | add a => exact (inv_add ih a b hs).1
    | load int => exact (inv_load ih int b hs).1
    | initX decay =>
      have e1 : _ = m' := congrArg Prod.snd (Outcome.ok.inj hs)
      subst e1
      exact inv_initDecay hl.hX hl.hInit ih _ _ _
    | init prod decay =>
      have e1 : _ = m' := congrArg Prod.snd (Outcome.ok.inj hs)
      subst e1
      exact inv_initDecay hl.hX hl.hInit ih _ _ _

/-! ### the intensity -/

theorem reflSum_eq (m : ModelInt α) (psi : List ℂ) (e : ℤ) (refl : ℕ → ℤ) (f : ℕ → ℂ) : ∀ (ws : List ℕ),
    (∀ w ∈ ws, m.refls[w]? = some (refl w) ∧ psi[w]? = some (f w)) →
    m.reflSum ws psi e = .ok ((ws.map fun w => if refl w = e then m.fit.prodAmps w * f w else 0).sum) := by
  have key : ∀ (ws : List ℕ) (s : ℂ), (∀ w ∈ ws, m.refls[w]? = some (refl w) ∧ psi[w]? = some (f w)) →
      ws.foldlM (fun s w => match m.refls[w]?, psi[w]? with
        | some refl, some a => Outcome.ok (if refl = e then s + m.fit.prodAmps w * a else s)
        | _, _ => .ub) s = .ok (s + (ws.map fun w => if refl w = e then m.fit.prodAmps w * f w else 0).sum) := by
    intro ws
    induction ws with
    | nil => intro s _; simp [List.foldlM]
    | cons w ws ih =>
      intro s h
      obtain ⟨h1, h2⟩ := h w List.mem_cons_self
      rw [List.foldlM_cons, h1, h2]
      simp only [Outcome.ok_bind]
      rw [ih _ (fun x hx => h x (List.mem_cons_of_mem _ hx)), List.map_cons, List.sum_cons]
      refine congrArg Outcome.ok ?_
      by_cases he : refl w = e
      · rw [if_pos he, if_pos he, add_assoc]
      · rw [if_neg he, if_neg he, zero_add]
  intro ws h
  have := key ws 0 h
  rw [zero_add] at this
  exact this

theorem reflLoop_eq (m : ModelInt α) (ws : List ℕ) (psi : List ℂ) (S : ℤ → ℂ) : ∀ (es : List ℤ) (x : ℝ), (∀ e ∈ es, m.reflSum ws psi e = .ok (S e)) →
    es.foldlM (fun x e => do
      let s ← m.reflSum ws psi e
      Outcome.ok (x + Complex.normSq s)) x = .ok (x + (es.map fun e => Complex.normSq (S e)).sum) := by
  intro es
  induction es with
  | nil => intro x _; simp [List.foldlM]
  | cons e es ih =>
    intro x h
    rw [List.foldlM_cons, h e List.mem_cons_self]
    simp only [Outcome.ok_bind]
    rw [ih _ (fun y hy => h y (List.mem_cons_of_mem _ hy)), List.map_cons, List.sum_cons, add_assoc]

/-- for every history of calls that leaves the object initialised: the intensity is the sum over the reflectivities of `|Σ V_w ψ_w|²`, where `V_w` is
production amplitude number `w` of the fit result, for all waves `w` except the flat wave. -/
theorem getIntensity_general (hl : LawfulOps ops labels) (hL : Lists fit labels) (hrx : NoFlatRx rx) {m : ModelInt α} (hr : Reached rx ops fit m)
    (hi : m.initialized = true) (hint : m.intLoaded = true) {W : ℕ → Wave} (hW : WavesOf fit labels W) (prod decay : List κ) (psi : Wave → ℂ)
    (hev : ∀ (w : ℕ) (a : α), m.amps[w]? = some (some a) → ∃ z, ops.eval a prod decay = some z ∧ psi (W w) = z / (m.ints.getD w 0 : ℂ)) :
    m.getIntensity ops prod decay = .ok (∑ e ∈ {1, -1}, Complex.normSq
      (∑ w ∈ range fit.waveNames.length, if (W w).refl = e then fit.prodAmps w * psi (W w) else 0)) := by
  have h := reached_inv hl hr
  set n := fit.waveNames.length with hn
  have hflat : ∀ w < n, (m.amps[w]? = some none ↔ W w = .flat) := by
    intro w hw
    rw [h.hinit hi w _ (hW.htext w hw)]
    obtain ⟨l, hl', hwl⟩ := hW.hmem w hw
    rw [← hwl]
    exact text_flat_iff hL l hl'
  have hamp : ∀ w < n, W w ≠ .flat → ∃ a, m.amps[w]? = some (some a) := by
    intro w hw hf
    have hw' : w < m.amps.length := by rw [h.hamps]; exact hw
    cases ho : m.amps[w] with
    | none => exact absurd ((hflat w hw).1 (by rw [List.getElem?_eq_getElem hw', ho])) hf
    | some a => exact ⟨a, by rw [List.getElem?_eq_getElem hw', ho]⟩
  have hrefl : ∀ w < n, m.refls[w]? = some ((W w).refl) := by
    intro w hw
    by_cases hf : W w = .flat
    · rw [h.hnone w ((hflat w hw).2 hf), hf]; rfl
    · obtain ⟨a, ha⟩ := hamp w hw hf
      obtain ⟨k1, a0, k2, k3⟩ := h.hname w a ha
      obtain ⟨l, hl', hwl⟩ := hW.hmem w hw
      have : ops.name a0 = l.wave.text := by
        rw [k2, hwl]; exact Option.some.inj (k1.symm.trans (hW.htext w hw))
      rw [k3, hl.hrefl l hl' a0 this, hwl]
  -- decay amplitudes
  obtain ⟨ps, hps, hP⟩ := Rpwa.Best.mapM_ok_of (ModelInt.evalOne ops prod decay)
    (fun e z => ∀ a, e.1 = some a → ∃ y, ops.eval a prod decay = some y ∧ z = y / (e.2 : ℂ)) (m.amps.zip m.ints) (by
      intro e he
      obtain ⟨i, hi', rfl⟩ := List.mem_iff_getElem.1 he
      unfold ModelInt.evalOne
      have hi2 : i < m.amps.length := by simp at hi'; omega
      simp only [List.getElem_zip]
      cases ho : m.amps[i] with
      | none => exact ⟨_, rfl, fun a ha => by cases ha⟩
      | some a =>
        obtain ⟨z, hz, _⟩ := hev i a (by rw [List.getElem?_eq_getElem hi2, ho])
        simp only [hz]
        exact ⟨_, rfl, fun a' ha' => by cases ha'; exact ⟨z, hz, rfl⟩⟩)
  have hlen : ps.length = n := by
    have := hP.length_eq
    rw [List.length_zip, h.hamps, h.hints, min_self] at this
    exact this.symm
  have hpsi : ∀ w < n, W w ≠ .flat → ps[w]? = some (psi (W w)) := by
    intro w hw hf
    obtain ⟨a, ha⟩ := hamp w hw hf
    have hwa : w < m.amps.length := by rw [h.hamps]; exact hw
    have hwi : w < m.ints.length := by rw [h.hints]; exact hw
    have hz := (List.forall₂_iff_get.1 hP).2 w (by rw [List.length_zip]; omega) (by omega) a (by
      simp only [List.get_eq_getElem, List.getElem_zip]
      exact (List.getElem?_eq_some_iff.1 ha).2)
    obtain ⟨y, hy, hyz⟩ := hz
    obtain ⟨y', hy', hpsi'⟩ := hev w a ha
    have : y = y' := Option.some.inj (hy.symm.trans hy')
    subst this
    rw [List.getElem?_eq_getElem (by omega : w < ps.length)]
    refine congrArg some ?_
    rw [hpsi', List.getD_eq_getElem _ _ hwi]
    simpa using hyz
  have hmem : ∀ w, w ∈ m.noFlat ↔ w < n ∧ W w ≠ .flat := by
    intro w
    rw [h.hno]
    unfold FitResult.waveIndicesMatching
    rw [List.mem_filter, List.mem_range]
    refine and_congr_right fun hw => ?_
    rw [hW.htext w hw]
    simp only [Option.map_some, Option.getD_some]
    rw [hrx]
    obtain ⟨l, hl', hwl⟩ := hW.hmem w hw
    rw [← hwl]
    exact not_congr (text_flat_iff hL l hl')
  have hndw : m.noFlat.Nodup := by rw [h.hno]; exact List.nodup_range.filter _
  have hS : ∀ e, e ≠ 0 → m.reflSum m.noFlat ps e = .ok (∑ w ∈ range n, if (W w).refl = e then fit.prodAmps w * psi (W w) else 0) := by
    intro e he
    rw [reflSum_eq m ps e (fun w => (W w).refl) (fun w => psi (W w)) m.noFlat (fun w hw => ⟨hrefl w ((hmem w).1 hw).1, hpsi w ((hmem w).1 hw).1 ((hmem w).1 hw).2⟩),
      h.hfit, ← List.sum_toFinset _ hndw]
    refine congrArg Outcome.ok (sum_subset ?_ ?_)
    · intro w hw; exact mem_range.2 ((hmem w).1 (List.mem_toFinset.1 hw)).1
    · intro w hw hnot
      have : W w = .flat := by
        by_contra hf
        exact hnot (List.mem_toFinset.2 ((hmem w).2 ⟨mem_range.1 hw, hf⟩))
      rw [this, if_neg]
      exact fun h => he h.symm
  have hpm : ∀ w : Wave, w ≠ .flat → w.refl = 1 ∨ w.refl = -1 := by
    intro w hw
    cases w with
    | flat => exact absurd rfl hw
    | pw w => unfold Wave.refl; by_cases hp : w.pos <;> simp [hp]
  have hall : ∀ e, e ∈ m.allRefls ↔ ∃ w < n, W w ≠ .flat ∧ (W w).refl = e := by
    intro e
    rw [h.hall]
    constructor
    · rintro ⟨w, ⟨a, ha⟩, he⟩
      have hw : w < n := by have := (List.getElem?_eq_some_iff.1 ha).1; rw [h.hamps] at this; exact this
      refine ⟨w, hw, ?_, Option.some.inj ((hrefl w hw).symm.trans he)⟩
      intro hf
      rw [(hflat w hw).2 hf] at ha
      cases ha
    · rintro ⟨w, hw, hf, he⟩
      exact ⟨w, hamp w hw hf, he ▸ hrefl w hw⟩
  unfold ModelInt.getIntensity ModelInt.getIntensityOf ModelInt.getDecayAmplitudes
  rw [if_neg (by rw [hi]; decide), if_neg (by rw [hint]; decide), hps]
  simp only [Outcome.ok_bind]
  rw [reflLoop_eq m m.noFlat ps (fun e => ∑ w ∈ range n, if (W w).refl = e then fit.prodAmps w * psi (W w) else 0) m.allRefls 0 (by
    intro e he
    obtain ⟨w, hw, hf, rfl⟩ := (hall e).1 he
    exact hS _ (by rcases hpm _ hf with h | h <;> rw [h] <;> decide)), zero_add, ← List.sum_toFinset _ h.hnd]
  refine congrArg Outcome.ok (sum_subset ?_ ?_)
  · intro e he
    obtain ⟨w, _, hf, rfl⟩ := (hall e).1 (List.mem_toFinset.1 he)
    rcases hpm _ hf with h | h <;> rw [h] <;> decide
  · intro e he hnot
    rw [sum_eq_zero, map_zero]
    intro w hw
    rw [if_neg]
    intro heq
    refine hnot (List.mem_toFinset.2 ((hall e).2 ⟨w, mem_range.1 hw, ?_, heq⟩))
    intro hf
    rw [hf] at heq
    rw [← heq] at he
    exact absurd he (by decide)

/-- with one production amplitude per wave (a fit of rank 1) this is the intensity of the model without the flat wave. -/
theorem getIntensity_spec (hl : LawfulOps ops labels) (hL : Lists fit labels) (hrx : NoFlatRx rx) {m : ModelInt α} (hr : Reached rx ops fit m)
    (hi : m.initialized = true) (hint : m.intLoaded = true) (hone : fit.waveNames = labels.map fun l => l.wave.text) (hrank : ∀ l ∈ labels, l.rank = 0)
    (prod decay : List κ) (psi : Wave → ℂ)
    (hev : ∀ (w : ℕ) (l : Label) (a : α), labels[w]? = some l → m.amps[w]? = some (some a) →
      ∃ z, ops.eval a prod decay = some z ∧ psi l.wave = z / (m.ints.getD w 0 : ℂ)) :
    m.getIntensity ops prod decay = .ok (modelIntensity labels fit.prodAmps psi 1 - flatIntensity labels fit.prodAmps) := by
  obtain ⟨W, hW⟩ := exists_wavesOf hL
  have hlen : fit.waveNames.length = labels.length := by rw [hone, List.length_map]
  have hlab : ∀ (w : ℕ) (l : Label), labels[w]? = some l → W w = l.wave := by
    intro w l hwl
    have hlt := (List.getElem?_eq_some_iff.1 hwl).1
    have h1 := hW.htext w (by omega)
    obtain ⟨l', hl', e⟩ := hW.hmem w (by omega)
    rw [hone, List.getElem?_map, hwl] at h1
    rw [← e]
    refine wave_text_inj (hL.hgood l' hl') (hL.hgood l (List.mem_of_getElem? hwl)) ?_
    rw [e]
    exact (Option.some.inj h1).symm
  rw [getIntensity_general hl hL hrx hr hi hint hW prod decay psi (by
    intro w a ha
    have hw : w < labels.length := by
      have := (List.getElem?_eq_some_iff.1 ha).1
      rw [(reached_inv hl hr).hamps] at this; omega
    obtain ⟨z, h1, h2⟩ := hev w labels[w] a (List.getElem?_eq_getElem hw) ha
    exact ⟨z, h1, by rw [hlab w _ (List.getElem?_eq_getElem hw)]; exact h2⟩)]
  refine congrArg Outcome.ok ?_
  have hcoh : ∀ e, coherent labels fit.prodAmps psi e 0 = ∑ w ∈ range fit.waveNames.length, if (W w).refl = e then fit.prodAmps w * psi (W w) else 0 := by
    intro e
    rw [coherent_waves hL hW 1 (fun l h => by have := hrank l h; omega) psi e 0 (by omega)]
    refine sum_congr rfl fun w hw => ?_
    have hw : w < labels.length := by have := mem_range.1 hw; omega
    have h1 := hlab w _ (List.getElem?_eq_getElem hw)
    have h2 : (⟨W w, 0⟩ : Label) = labels[w] := by
      rw [h1]; have := hrank _ (List.getElem_mem hw)
      generalize labels[w] = x at this ⊢
      cases x; simp only at this; rw [this]
    unfold ampOf
    rw [h2, if_pos (List.getElem_mem hw), hL.hnodup.idxOf_getElem w hw]
  unfold modelIntensity reflIntensity
  rw [sum_range_one, sum_range_one, hcoh, hcoh, sum_pair (by decide)]
  ring

/-- the object refuses (the program ends) as long as it is not completely initialised. -/
theorem getIntensity_refuses (m : ModelInt α) (prod decay : List κ) (h : m.initialized = false ∨ m.intLoaded = false) :
    m.getIntensity ops prod decay = .terminate := by
  unfold ModelInt.getIntensity ModelInt.getIntensityOf ModelInt.getDecayAmplitudes
  by_cases h1 : m.initialized = false
  · rw [if_pos h1]; rfl
  · rw [if_neg h1, if_pos (h.resolve_left h1)]; rfl

end Rpwa.Wgt
