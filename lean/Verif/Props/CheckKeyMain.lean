import Verif.Props.CheckKey
import Verif.Props.AmplitudeFrames
/-! # C95: consistency checks of key files: the verdict -/
namespace Rpwa.CheckKey

open Rpwa.Amp Rpwa.Amp.Spec Rpwa.Gen

/-! ### what is found -/

theorem scale_large {δ c : ℝ} (hδ : -1 ≤ δ) (z : ℝ) : TooLargeR δ z (c * z) ↔ z ≠ 0 ∧ c ≠ 0 ∧ (1 + δ) * |c| < 1 := by
  unfold TooLargeR
  rw [abs_mul, mul_ne_zero_iff]
  constructor
  · rintro ⟨⟨hc, hz⟩, h⟩
    refine ⟨hz, hc, ?_⟩
    have hp := abs_pos.2 hz
    by_contra hn
    push Not at hn
    nlinarith
  · rintro ⟨hz, hc, h⟩
    refine ⟨⟨hc, hz⟩, ?_⟩
    have hp := abs_pos.2 hz
    nlinarith

theorem scale_sign {eig : ℤ} {c : ℝ} (z : ℝ) : WrongSignR eig z (c * z) ↔ z ≠ 0 ∧ c ≠ 0 ∧ ¬ 0 < eig * c := by
  unfold WrongSignR
  rw [mul_ne_zero_iff]
  have e : ∀ h : z ≠ 0, (0 < (eig : ℝ) * (z * (c * z)) ↔ 0 < eig * c) := by
    intro h
    rw [show (eig : ℝ) * (z * (c * z)) = eig * c * (z * z) by ring]
    exact mul_pos_iff_of_pos_right (mul_self_pos.2 h)
  constructor
  · rintro ⟨hz, ⟨hc, -⟩, h⟩
    exact ⟨hz, hc, fun h' => h ((e hz).2 h')⟩
  · rintro ⟨hz, hc, h⟩
    exact ⟨hz, ⟨hc, hz⟩, fun h' => h ((e hz).1 h')⟩

theorem ne_zero_parts (z : ℂ) : (z.re ≠ 0 ∨ z.im ≠ 0) ↔ z ≠ 0 := by
  rw [ne_eq z, Complex.ext_iff]
  simp only [Complex.zero_re, Complex.zero_im]
  tauto

/-- **C95.** Which amplitudes are reported if the amplitude of the transformed event is `c` times the amplitude: those with a wrong sign, and those with
`|c|` below the tolerance; larger factors of the right sign, and the factor zero, are accepted. -/
theorem scaled_amplitude {δ : ℝ} (hδ : -1 ≤ δ) {eig : ℤ} (c : ℝ) (a : ℂ) :
    (TooLarge δ a (c * a) ↔ a ≠ 0 ∧ c ≠ 0 ∧ (1 + δ) * |c| < 1) ∧ (WrongSign eig a (c * a) ↔ a ≠ 0 ∧ c ≠ 0 ∧ ¬ 0 < eig * c) := by
  unfold TooLarge WrongSign
  rw [Complex.re_ofReal_mul, Complex.im_ofReal_mul, scale_large hδ, scale_large hδ, scale_sign, scale_sign, ← ne_zero_parts]
  tauto

/-- **C95.** An amplitude that does not vanish and has the symmetry of its quantum numbers is accepted for every tolerance that is not negative. -/
theorem symmetric_accepted {E : Type} {δ : ℝ} (hδ : 0 ≤ δ) {w : Wave E} (hs : Signs w) {e : E} (h0 : plain w e ≠ 0) (h : Symmetric w e) :
    EventOk δ w e := by
  obtain ⟨-, -, s1, s2⟩ := eigenvalues hs
  have key : ∀ {eig : ℤ}, (eig = 1 ∨ eig = -1) → ∀ a : ℂ, ¬ TooLarge δ a (eig * a) ∧ ¬ WrongSign eig a (eig * a) := by
    intro eig he a
    obtain ⟨h1, h2⟩ := scaled_amplitude (by linarith : (-1 : ℝ) ≤ δ) (eig := eig) (eig : ℝ) a
    rw [show (((eig : ℝ) : ℂ) * a) = (eig : ℂ) * a by push_cast; rfl] at h1 h2
    rw [h1, h2]
    rcases he with rfl | rfl
    · exact ⟨fun h => by have := h.2.2; norm_num at this; linarith, fun h => h.2.2 (by norm_num)⟩
    · exact ⟨fun h => by have := h.2.2; norm_num at this; linarith, fun h => h.2.2 (by norm_num)⟩
  refine ⟨h0, ?_, ?_⟩
  · rw [h.inversion]; exact key s1 _
  · rw [h.reflection]; exact key s2 _

/-- **C95.** A wave whose amplitude has, for one of the events, the opposite parity (or reflectivity) than the key file says, is found wrong. -/
theorem opposite_sign_found {E : Type} {n : ℤ} {δ : ℝ} (hδ : -1 ≤ δ) {es : List E} {w : Wave E} (h : Consistent w) (hc : Comparable n es w) (hs : Signs w)
    {e : E} (he : e ∈ usedEvents n es) (h0 : plain w e ≠ 0) :
    (inverted w e = -(spaceInvSign w * plain w e) → ∃ errs, checkWave n δ (some es) w = .ok (errs, false) ∧ .spaceInv ∈ errs) ∧
    (reflected w e = -(reflSign w * plain w e) → ∃ errs, checkWave n δ (some es) w = .ok (errs, false) ∧ .refl ∈ errs) := by
  obtain ⟨errs, ok, h1, h2, h3⟩ := checkWave_data hδ h hc hs
  obtain ⟨-, -, s1, s2⟩ := eigenvalues hs
  have key : ∀ {eig : ℤ}, (eig = 1 ∨ eig = -1) → ∀ b : ℂ, b = -(eig * plain w e) → WrongSign eig (plain w e) b := by
    intro eig hei b hb
    have := (scaled_amplitude hδ (eig := eig) (-(eig : ℝ)) (plain w e)).2
    rw [show ((-(eig : ℝ) : ℝ) : ℂ) * plain w e = b by rw [hb]; push_cast; ring] at this
    rw [this]
    rcases hei with rfl | rfl <;> refine ⟨h0, by norm_num, by norm_num⟩
  have fin : ∀ x, x ∈ errs → ok = false := by
    intro x hx
    cases ok with
    | false => rfl
    | true =>
      rw [(no_errors h2).2 (h3.1 rfl)] at hx
      cases hx
  constructor
  · intro hi
    have hm := h2.spaceInv.2 ⟨e, he, key s1 _ hi⟩
    exact ⟨errs, by rw [h1, fin _ hm], hm⟩
  · intro hi
    have hm := h2.refl.2 ⟨e, he, key s2 _ hi⟩
    exact ⟨errs, by rw [h1, fin _ hm], hm⟩

/-- **C95.** Deviations are found in one direction only: amplitudes that grow by any factor under the transformations, or that become zero, are accepted. -/
theorem growing_accepted {E : Type} {n : ℤ} {δ : ℝ} (hδ : 0 ≤ δ) {es : List E} {w : Wave E} (h : Consistent w) (hc : Comparable n es w) (hs : Signs w)
    (f g : E → ℝ) (hf : ∀ e ∈ usedEvents n es, f e = 0 ∨ 1 ≤ f e) (hg : ∀ e ∈ usedEvents n es, g e = 0 ∨ 1 ≤ g e)
    (h0 : ∀ e ∈ usedEvents n es, plain w e ≠ 0)
    (hi : ∀ e ∈ usedEvents n es, inverted w e = f e * (spaceInvSign w * plain w e))
    (hr : ∀ e ∈ usedEvents n es, reflected w e = g e * (reflSign w * plain w e)) :
    checkWave n δ (some es) w = .ok ([], true) := by
  obtain ⟨errs, ok, h1, h2, h3⟩ := checkWave_data (by linarith : (-1 : ℝ) ≤ δ) h hc hs
  obtain ⟨-, -, s1, s2⟩ := eigenvalues hs
  have key : ∀ {eig : ℤ}, (eig = 1 ∨ eig = -1) → ∀ (c : ℝ), (c = 0 ∨ 1 ≤ c) → ∀ a b : ℂ, b = c * (eig * a) → ¬ TooLarge δ a b ∧ ¬ WrongSign eig a b := by
    intro eig he c hcc a b hb
    obtain ⟨h1, h2⟩ := scaled_amplitude (by linarith : (-1 : ℝ) ≤ δ) (eig := eig) (c * eig : ℝ) a
    rw [show (((c * eig : ℝ) : ℂ) * a) = b by rw [hb]; push_cast; ring] at h1 h2
    rw [h1, h2]
    rcases hcc with rfl | hcc
    · exact ⟨fun h => h.2.1 (by ring), fun h => h.2.1 (by ring)⟩
    · have ha : |c| = c := abs_of_pos (by linarith)
      rcases he with rfl | rfl
      · refine ⟨fun h => ?_, fun h => h.2.2 (by push_cast; linarith)⟩
        have := h.2.2
        push_cast at this
        rw [mul_one, ha] at this
        nlinarith
      · refine ⟨fun h => ?_, fun h => h.2.2 (by push_cast; linarith)⟩
        have := h.2.2
        push_cast at this
        rw [mul_neg_one, abs_neg, ha] at this
        nlinarith
  have hall : ∀ e ∈ usedEvents n es, EventOk δ w e := fun e he =>
    ⟨h0 e he, key s1 _ (hf e he) _ _ (hi e he), key s2 _ (hg e he) _ _ (hr e he)⟩
  rw [h1, h3.2 hall, (no_errors h2).2 hall]

/-! ### the amplitudes of the program -/

/-- the wave of a decay: amplitudes and quantum numbers of the decay. -/
noncomputable def waveOf (F : Formalism) (terms : List (ℂ × List ℕ)) (X : XDecay) : Wave (LV × (ℕ → LV)) where
  built := true
  checkTopology := true
  checkConsistency := true
  hasAmp := true
  initOk := true
  readable := fun _ => true
  amp := fun sw e => amplitude F sw terms X e.1 e.2
  P := X.P
  refl := X.refl
  fsParity := fsParityX X

theorem fs_sign : ∀ {t : Part}, ParityConserved t → fsParity t = 1 ∨ fsParity t = -1 := by
  intro t h
  have := fsParity_unit h
  exact mul_self_eq_one_iff.1 this

theorem signs_of {F : Formalism} {terms : List (ℂ × List ℕ)} {X : XDecay} (hX : MesonicX X) (hP : ParityConservedX X) : Signs (waveOf F terms X) := by
  refine ⟨hX.P_sign, hX.refl_sign, ?_⟩
  show fsParityX X = 1 ∨ fsParityX X = -1
  unfold fsParityX
  rcases fs_sign hP.left with h1 | h1 <;> rcases fs_sign hP.right with h2 | h2 <;> rw [h1, h2] <;> decide

/-- **C95.** Every wave in which parity is conserved passes, in the helicity and in the canonical formalism, for every list of events for which its amplitude does
not vanish (and in which no particle flies along the axes of the helicity frames), whatever the tolerance. -/
theorem conserving_wave_passes {F : Formalism} {terms : List (ℂ × List ℕ)} {X : XDecay} (hX : MesonicX X) (hP : ParityConservedX X)
    (n : ℤ) {δ : ℝ} (hδ : 0 ≤ δ) (es : List (LV × (ℕ → LV))) (hne : es ≠ [])
    (hg : (F = helicity ∧ ∀ e ∈ es, ∀ t ∈ terms, Generic X e.1 fun i => e.2 (t.2.getD i 0)) ∨
      (F = canonical ∧ ∀ e ∈ es, ∀ t ∈ terms, Physical X fun i => e.2 (t.2.getD i 0)))
    (h0 : ∀ e ∈ es, amplitude F {} terms X e.1 e.2 ≠ 0) :
    checkWave n δ (some es) (waveOf F terms X) = .ok ([], true) := by
  have hsub : ∀ e ∈ usedEvents n es, e ∈ es := by
    intro e he
    unfold usedEvents at he
    split at he
    · exact List.mem_of_mem_take he
    · exact he
  have hc : Comparable n es (waveOf F terms X) := by
    refine ⟨rfl, rfl, fun _ _ => rfl, ?_⟩
    unfold usedEvents
    split
    · intro h
      rw [List.take_eq_nil_iff] at h
      rcases h with h | h
      · omega
      · exact hne h
    · exact hne
  have hs := signs_of (F := F) (terms := terms) hX hP
  obtain ⟨errs, ok, h1, h2, h3⟩ := checkWave_data (by linarith : (-1 : ℝ) ≤ δ) ⟨rfl, rfl, rfl⟩ hc hs
  have hall : ∀ e ∈ usedEvents n es, EventOk δ (waveOf F terms X) e := by
    intro e he
    refine symmetric_accepted hδ hs (h0 e (hsub e he)) ?_
    rcases hg with ⟨rfl, hg⟩ | ⟨rfl, hg⟩
    · refine ⟨?_, ?_⟩
      · show amplitude helicity { spaceInversion := true } terms X e.1 e.2 = ((X.P * fsParityX X : ℤ) : ℂ) * amplitude helicity {} terms X e.1 e.2
        push_cast
        exact amplitude_inversion_helicity hX hP e.1 e.2 true terms (hg e (hsub e he))
      · show amplitude helicity { reflection := true } terms X e.1 e.2 = ((-(X.refl * fsParityX X) : ℤ) : ℂ) * amplitude helicity {} terms X e.1 e.2
        push_cast
        exact amplitude_reflection_helicity hX hP e.1 e.2 terms (hg e (hsub e he))
    · refine ⟨?_, ?_⟩
      · show amplitude canonical { spaceInversion := true } terms X e.1 e.2 = ((X.P * fsParityX X : ℤ) : ℂ) * amplitude canonical {} terms X e.1 e.2
        push_cast
        exact amplitude_inversion_canonical hX hP e.1 e.2 true terms (hg e (hsub e he))
      · show amplitude canonical { reflection := true } terms X e.1 e.2 = ((-(X.refl * fsParityX X) : ℤ) : ℂ) * amplitude canonical {} terms X e.1 e.2
        push_cast
        exact amplitude_reflection_canonical hX hP e.1 e.2 terms (hg e (hsub e he))
  rw [h1, h3.2 hall, (no_errors h2).2 hall]

/-! ### the verdict on files -/

/-- a wave with data that is found wrong. -/
def FoundWrong {E : Type} (n : ℤ) (δ : ℝ) (data : Option (List E)) (w : Wave E) : Prop :=
  Consistent w ∧ ∃ es, data = some es ∧ Comparable n es w ∧ ∃ e ∈ usedEvents n es, ¬ EventOk δ w e

theorem checkWave_total {E : Type} {n : ℤ} {δ : ℝ} (hδ : -1 ≤ δ) {data : Option (List E)} {w : Wave E} (hs : Consistent w → Signs w) :
    ∃ errs ok, checkWave n δ data w = .ok (errs, ok) ∧ (ok = false ↔ FoundWrong n δ data w) ∧ (ok = false → errs ≠ []) := by
  by_cases h : ¬ Consistent w ∨ data = none ∨ ∃ es, data = some es ∧ ¬ Comparable n es w
  · obtain ⟨errs, h1, -⟩ := checkWave_skipped (n := n) (δ := δ) h
    refine ⟨errs, true, h1, ⟨fun h' => Bool.noConfusion h', ?_⟩, fun h' => Bool.noConfusion h'⟩
    rintro ⟨hc, es, hd, hcmp, -⟩
    rcases h with h | h | ⟨es', h, h'⟩
    · exact absurd hc h
    · rw [h] at hd; cases hd
    · rw [h] at hd; cases hd; exact absurd hcmp h'
  · push Not at h
    obtain ⟨hc, hd, hcmp⟩ := h
    obtain ⟨es, rfl⟩ := Option.ne_none_iff_exists'.1 hd
    obtain ⟨errs, ok, h1, h2, h3⟩ := checkWave_data hδ hc (hcmp es rfl) (hs hc)
    refine ⟨errs, ok, h1, ?_, ?_⟩
    · constructor
      · rintro rfl
        have h4 : ¬ ∀ e ∈ usedEvents n es, EventOk δ w e := fun h => Bool.noConfusion (h3.2 h)
        push Not at h4
        exact ⟨hc, es, rfl, hcmp es rfl, h4⟩
      · rintro ⟨-, es', hd', -, e, he, hne⟩
        cases hd'
        cases ok with
        | false => rfl
        | true => exact absurd (h3.1 rfl e he) hne
    · rintro rfl hnil
      have := (no_errors h2).1 hnil
      exact Bool.noConfusion (h3.2 this)

/-- the errors of a wave. -/
noncomputable def errorsOf {E : Type} (n : ℤ) (δ : ℝ) (data : Option (List E)) (w : Wave E) : List Err :=
  match checkWave n δ data w with
  | .ok r => r.1
  | _ => []

theorem waveLoop_total {E : Type} {n : ℤ} {δ : ℝ} (hδ : -1 ≤ δ) {data : Option (List E)} : ∀ {ws : List (Wave E)}, (∀ w ∈ ws, Consistent w → Signs w) →
    ∃ ok, waveLoop n δ data ws = .ok (ws.flatMap (errorsOf n δ data), ok) ∧ (ok = false ↔ ∃ w ∈ ws, FoundWrong n δ data w) ∧
      (ok = false → ws.flatMap (errorsOf n δ data) ≠ [])
  | [], _ => ⟨true, rfl, by simp, by simp⟩
  | w :: ws, hs => by
    obtain ⟨errs, ok, h1, h2, h3⟩ := checkWave_total (n := n) (data := data) hδ (hs w List.mem_cons_self)
    obtain ⟨ok', h4, h5, h6⟩ := waveLoop_total hδ (data := data) (n := n) fun x hx => hs x (List.mem_cons_of_mem _ hx)
    have he : errorsOf n δ data w = errs := by unfold errorsOf; rw [h1]
    refine ⟨ok && ok', ?_, ?_, ?_⟩
    · unfold waveLoop
      rw [h1, h4, List.flatMap_cons, he]
      rfl
    · rw [Bool.and_eq_false_iff, h2, h5, List.exists_mem_cons_iff]
    · rw [List.flatMap_cons, he, Bool.and_eq_false_iff]
      rintro (h | h) hnil
      · exact h3 h (List.append_eq_nil_iff.1 hnil).1
      · exact h6 h (List.append_eq_nil_iff.1 hnil).2

/-- **C95.** A key file is reported as wrong exactly if it gives no wave, or one of its waves that could be compared with data is found wrong; the errors of all its waves
are collected. -/
theorem testAmplitude_verdict {E : Type} {n : ℤ} {δ : ℝ} (hδ : -1 ≤ δ) {data : Option (List E)} {ws : List (Wave E)} (hs : ∀ w ∈ ws, Consistent w → Signs w) :
    ∃ errs ok, testAmplitude n δ data ws = .ok (errs, ok) ∧ (ok = false ↔ ws = [] ∨ ∃ w ∈ ws, FoundWrong n δ data w) ∧ (ok = false → errs ≠ []) ∧
      (ws ≠ [] → errs = ws.flatMap (errorsOf n δ data)) := by
  unfold testAmplitude
  cases ws with
  | nil => exact ⟨[.parsing], false, rfl, by simp, by simp, by simp⟩
  | cons w ws =>
    obtain ⟨ok, h1, h2, h3⟩ := waveLoop_total hδ (n := n) (data := data) hs
    refine ⟨_, ok, ?_, ?_, h3, fun _ => rfl⟩
    · rw [if_neg (by simp)]; exact h1
    · rw [h2]; simp

/-- **C95.** Without test data every key file that gives a wave passes, also if the topologies of its waves cannot be built or are inconsistent and this was noticed. -/
theorem without_data_passes {E : Type} {n : ℤ} {δ : ℝ} {ws : List (Wave E)} (hne : ws ≠ []) :
    ∃ errs, testAmplitude (E := E) n δ none ws = .ok (errs, true) ∧ (errs = [] ↔ ∀ w ∈ ws, Consistent w) := by
  have key : ∀ l : List (Wave E), ∃ errs, waveLoop n δ none l = .ok (errs, true) ∧ (errs = [] ↔ ∀ w ∈ l, Consistent w) := by
    intro l
    induction l with
    | nil => exact ⟨[], rfl, by simp⟩
    | cons w l ih =>
      obtain ⟨e1, h1, h2⟩ := ih
      obtain ⟨e2, h3, h4, -⟩ := checkWave_skipped (n := n) (δ := δ) (w := w) (data := none) (Or.inr (Or.inl rfl))
      refine ⟨e2 ++ e1, ?_, ?_⟩
      · unfold waveLoop; rw [h3, h1]; rfl
      · rw [List.append_eq_nil_iff, h4, h2, List.forall_mem_cons]
  obtain ⟨errs, h1, h2⟩ := key ws
  refine ⟨errs, ?_, h2⟩
  unfold testAmplitude
  rw [if_neg (by rw [List.length_eq_zero_iff]; exact hne)]
  exact h1

theorem collect (f : String) (errs : List Err) : ∀ (m : Err → List String) (x : Err),
    errs.foldl (fun m e => Function.update m e (m e ++ [f])) m x = m x ++ List.replicate (errs.count x) f := by
  induction errs with
  | nil => intro m x; simp
  | cons e errs ih =>
    intro m x
    rw [List.foldl_cons, ih, List.count_cons]
    by_cases h : e = x
    · subst h
      rw [Function.update_self, if_pos (by simp), List.append_assoc, Nat.add_comm, List.replicate_add]
      rfl
    · rw [Function.update_of_ne (Ne.symm h), if_neg (by simpa using h), Nat.add_zero]

/-- the verdict and the errors on one file. -/
noncomputable def verdict {E : Type} (n : ℤ) (δ : ℝ) (data : Option (List E)) (ws : List (Wave E)) : List Err × Bool :=
  match testAmplitude n δ data ws with
  | .ok r => r
  | _ => ([], true)

theorem fileLoop_total {E : Type} {n : ℤ} {δ : ℝ} (hδ : -1 ≤ δ) {data : Option (List E)} : ∀ {fs : List (String × List (Wave E))} {k : ℕ} {m : Err → List String},
    (∀ f ∈ fs, ∀ w ∈ f.2, Consistent w → Signs w) →
    ∃ m', fileLoop n δ data k m fs = .ok (k + fs.countP (fun f => !(verdict n δ data f.2).2), m') ∧
      ∀ x, m' x = m x ++ fs.flatMap fun f => List.replicate ((verdict n δ data f.2).1.count x) f.1
  | [], k, m, _ => ⟨m, rfl, by simp⟩
  | f :: fs, k, m, hs => by
    obtain ⟨errs, ok, h1, -⟩ := testAmplitude_verdict hδ (n := n) (data := data) (hs f List.mem_cons_self)
    have hv : verdict n δ data f.2 = (errs, ok) := by unfold verdict; rw [h1]
    obtain ⟨m', h2, h3⟩ := fileLoop_total hδ (n := n) (data := data) (k := if ok then k else k + 1)
      (m := errs.foldl (fun m e => Function.update m e (m e ++ [f.1])) m) fun x hx => hs x (List.mem_cons_of_mem _ hx)
    refine ⟨m', ?_, fun x => ?_⟩
    · unfold fileLoop
      rw [h1]
      show fileLoop n δ data (if ok then k else k + 1) _ fs = _
      rw [h2, List.countP_cons, hv]
      cases ok
      · simp; omega
      · simp
    · rw [h3 x, collect, List.flatMap_cons, hv, List.append_assoc]

/-- **C95.** The exit status is 0 exactly if no key file is found wrong; otherwise it is 1, the number of wrong files is given, and for every error the files in which
it occurred, in order, once for every occurrence.  If the status is 0, nothing is listed. -/
theorem checkKeyFiles_report {E : Type} {n : ℤ} {δ : ℝ} (hδ : -1 ≤ δ) {data : Option (List E)} {fs : List (String × List (Wave E))}
    (hs : ∀ f ∈ fs, ∀ w ∈ f.2, Consistent w → Signs w) :
    ∃ rep, checkKeyFiles n δ data fs = .ok rep ∧ (rep.exit = 0 ∨ rep.exit = 1) ∧
      (rep.exit = 0 ↔ ∀ f ∈ fs, f.2 ≠ [] ∧ ∀ w ∈ f.2, ¬ FoundWrong n δ data w) ∧
      rep.failed = fs.countP (fun f => !(verdict n δ data f.2).2) ∧
      (rep.exit = 0 → ∀ x, rep.files x = []) ∧
      (rep.exit = 1 → (∃ x, rep.files x ≠ []) ∧ ∀ x, rep.files x = fs.flatMap fun f => List.replicate ((verdict n δ data f.2).1.count x) f.1) := by
  obtain ⟨m, h1, h2⟩ := fileLoop_total hδ (n := n) (data := data) (k := 0) (m := fun _ => []) hs
  rw [Nat.zero_add] at h1
  have hver : ∀ f ∈ fs, ((verdict n δ data f.2).2 = false ↔ f.2 = [] ∨ ∃ w ∈ f.2, FoundWrong n δ data w) ∧
      ((verdict n δ data f.2).2 = false → (verdict n δ data f.2).1 ≠ []) := by
    intro f hf
    obtain ⟨errs, ok, h3, h4, h5, -⟩ := testAmplitude_verdict hδ (n := n) (data := data) (hs f hf)
    have hv : verdict n δ data f.2 = (errs, ok) := by unfold verdict; rw [h3]
    rw [hv]
    exact ⟨h4, h5⟩
  have hzero : fs.countP (fun f => !(verdict n δ data f.2).2) = 0 ↔ ∀ f ∈ fs, f.2 ≠ [] ∧ ∀ w ∈ f.2, ¬ FoundWrong n δ data w := by
    rw [List.countP_eq_zero]
    refine forall₂_congr fun f hf => ?_
    rw [Bool.not_eq_true', (hver f hf).1]
    push Not
    rfl
  by_cases hc : fs.countP (fun f => !(verdict n δ data f.2).2) = 0
  · refine ⟨⟨0, 0, fun _ => []⟩, ?_, Or.inl rfl, ⟨fun _ => hzero.1 hc, fun _ => rfl⟩, hc.symm, fun _ _ => rfl, fun h => absurd h (by simp)⟩
    unfold checkKeyFiles
    rw [h1]
    show (if _ = 0 then _ else _) = _
    rw [if_pos hc]
  · refine ⟨⟨1, fs.countP (fun f => !(verdict n δ data f.2).2), m⟩, ?_, Or.inr rfl, ⟨fun h => absurd h (by simp), fun h => absurd (hzero.2 h) hc⟩, rfl, fun h => absurd h (by simp), fun _ => ⟨?_, ?_⟩⟩
    · unfold checkKeyFiles
      rw [h1]
      show (if _ = 0 then _ else _) = _
      rw [if_neg hc]
    · obtain ⟨f, hf, hfv⟩ := List.countP_pos_iff.1 (Nat.pos_of_ne_zero hc)
      obtain ⟨x, l, hx⟩ := List.exists_cons_of_ne_nil ((hver f hf).2 (by simpa using hfv))
      refine ⟨x, fun hnil => ?_⟩
      have hnil' : m x = [] := hnil
      rw [h2 x, List.nil_append, List.flatMap_eq_nil_iff] at hnil'
      have := hnil' f hf
      rw [List.replicate_eq_nil_iff, hx] at this
      simp at this
    · intro x
      show m x = _
      rw [h2 x]; rfl

end Rpwa.CheckKey
