import Verif.Spec.CheckKey
import Verif.Lemmas.Outcome
import Mathlib.Tactic.Linarith
import Mathlib.Tactic.FieldSimp
/-! # C95: consistency checks of key files -/
namespace Rpwa.CheckKey

open Rpwa.Amp

/-! ### one component -/

theorem ratio_large {δ : ℝ} (hδ : -1 ≤ δ) (a b : ℝ) : |ratio a b| - 1 > δ ↔ TooLargeR δ a b := by
  unfold ratio TooLargeR
  by_cases hb : b = 0
  · rw [if_neg (not_not.2 hb)]
    constructor
    · intro h; rw [abs_zero] at h; linarith
    · intro h; exact absurd hb h.1
  · have hp : 0 < |b| := abs_pos.2 hb
    rw [if_pos hb, abs_div]
    constructor
    · intro h
      refine ⟨hb, ?_⟩
      have h1 : 1 + δ < |a| / |b| := by linarith
      exact (lt_div_iff₀ hp).1 h1
    · rintro ⟨-, h⟩
      have := (lt_div_iff₀ hp).2 h
      linarith

theorem div_abs_self_pos {r : ℝ} (h : 0 < r) : r / |r| = 1 := by rw [abs_of_pos h, div_self h.ne']
theorem div_abs_self_neg {r : ℝ} (h : r < 0) : r / |r| = -1 := by rw [abs_of_neg h, div_neg, div_self h.ne]

theorem ratio_sign {eig : ℤ} (he : eig = 1 ∨ eig = -1) (a b : ℝ) : (ratio a b ≠ 0 ∧ ratio a b / |ratio a b| ≠ eig) ↔ WrongSignR eig a b := by
  unfold ratio WrongSignR
  by_cases hb : b = 0
  · rw [if_neg (not_not.2 hb)]
    constructor
    · intro h; exact absurd rfl h.1
    · intro h; exact absurd hb h.2.1
  · rw [if_pos hb]
    by_cases ha : a = 0
    · subst ha; simp
    · have hr : a / b ≠ 0 := div_ne_zero ha hb
      have hs : a / b * (b * b) = a * b := by field_simp
      have hbb : 0 < b * b := mul_self_pos.2 hb
      rcases lt_or_gt_of_ne hr with h | h
      · have hab : a * b < 0 := by rw [← hs]; exact mul_neg_of_neg_of_pos h hbb
        rw [div_abs_self_neg h]
        rcases he with rfl | rfl
        · exact ⟨fun _ => ⟨ha, hb, by push_cast; linarith⟩, fun _ => ⟨hr, by norm_num⟩⟩
        · exact ⟨fun h' => absurd (by norm_num) h'.2, fun h' => absurd (by push_cast; linarith) h'.2.2⟩
      · have hab : 0 < a * b := by rw [← hs]; exact mul_pos h hbb
        rw [div_abs_self_pos h]
        rcases he with rfl | rfl
        · exact ⟨fun h' => absurd (by norm_num) h'.2, fun h' => absurd (by push_cast; linarith) h'.2.2⟩
        · exact ⟨fun _ => ⟨ha, hb, by push_cast; linarith⟩, fun _ => ⟨hr, by norm_num⟩⟩

theorem ratioBad_iff {δ : ℝ} (hδ : -1 ≤ δ) (a b : ℂ) : ratioBad δ (ratio a.re b.re, ratio a.im b.im) = true ↔ TooLarge δ a b := by
  unfold ratioBad TooLarge
  rw [decide_eq_true_eq, ratio_large hδ, ratio_large hδ]

theorem eigenBad_iff {eig : ℤ} (he : eig = 1 ∨ eig = -1) (a b : ℂ) : eigenBad eig (ratio a.re b.re, ratio a.im b.im) = true ↔ WrongSign eig a b := by
  unfold eigenBad WrongSign
  rw [decide_eq_true_eq, ratio_sign he, ratio_sign he]

/-! ### the counters -/

theorem counts_pos {δ : ℝ} (hδ : -1 ≤ δ) {s r : ℤ} (hs : s = 1 ∨ s = -1) (hr : r = 1 ∨ r = -1) :
    ∀ (l : List (ℂ × ℂ × ℂ)) (c : Counts),
      (0 < (l.foldl (countEvent δ s r) c).ampZero ↔ 0 < c.ampZero ∨ ∃ a ∈ l, a.1 = 0) ∧
      (0 < (l.foldl (countEvent δ s r) c).ratioNotOk ↔ 0 < c.ratioNotOk ∨ ∃ a ∈ l, TooLarge δ a.1 a.2.1 ∨ TooLarge δ a.1 a.2.2) ∧
      (0 < (l.foldl (countEvent δ s r) c).spaceInvNotOk ↔ 0 < c.spaceInvNotOk ∨ ∃ a ∈ l, WrongSign s a.1 a.2.1) ∧
      (0 < (l.foldl (countEvent δ s r) c).reflNotOk ↔ 0 < c.reflNotOk ∨ ∃ a ∈ l, WrongSign r a.1 a.2.2) := by
  intro l
  induction l with
  | nil => intro c; simp
  | cons a l ih =>
    intro c
    obtain ⟨h1, h2, h3, h4⟩ := ih (countEvent δ s r c a)
    rw [List.foldl_cons]
    have pos : ∀ (n : ℕ) (p : Prop) [Decidable p], 0 < n + (if p then 1 else 0) ↔ 0 < n ∨ p := by
      intro n p _
      by_cases hp : p <;> simp [hp]
    have e1 : 0 < (countEvent δ s r c a).ampZero ↔ 0 < c.ampZero ∨ a.1 = 0 := by
      unfold countEvent; exact pos _ _
    have e2 : 0 < (countEvent δ s r c a).ratioNotOk ↔ 0 < c.ratioNotOk ∨ (TooLarge δ a.1 a.2.1 ∨ TooLarge δ a.1 a.2.2) := by
      unfold countEvent
      dsimp only
      rw [pos, pos, ratioBad_iff hδ, ratioBad_iff hδ, or_assoc]
    have e3 : 0 < (countEvent δ s r c a).spaceInvNotOk ↔ 0 < c.spaceInvNotOk ∨ WrongSign s a.1 a.2.1 := by
      unfold countEvent
      dsimp only
      rw [pos, eigenBad_iff hs]
    have e4 : 0 < (countEvent δ s r c a).reflNotOk ↔ 0 < c.reflNotOk ∨ WrongSign r a.1 a.2.2 := by
      unfold countEvent
      dsimp only
      rw [pos, eigenBad_iff hr]
    rw [h1, h2, h3, h4, e1, e2, e3, e4, List.exists_mem_cons_iff, List.exists_mem_cons_iff, List.exists_mem_cons_iff, List.exists_mem_cons_iff]
    exact ⟨or_assoc, or_assoc, or_assoc, or_assoc⟩

theorem errors_mem (c : Counts) :
    (.zero ∈ c.errors ↔ 0 < c.ampZero) ∧ (.deviation ∈ c.errors ↔ 0 < c.ratioNotOk) ∧ (.spaceInv ∈ c.errors ↔ 0 < c.spaceInvNotOk) ∧
      (.refl ∈ c.errors ↔ 0 < c.reflNotOk) ∧ (.parsing ∉ c.errors ∧ .topology ∉ c.errors ∧ .inconsistent ∉ c.errors) ∧ c.errors.Nodup := by
  unfold Counts.errors
  by_cases h1 : c.ampZero > 0 <;> by_cases h2 : c.ratioNotOk > 0 <;> by_cases h3 : c.spaceInvNotOk > 0 <;> by_cases h4 : c.reflNotOk > 0 <;>
    simp [h1, h2, h3, h4]

/-! ### the eigenvalues -/

theorem eigenvalues {E : Type} {w : Wave E} (h : Signs w) :
    w.spaceInvEigenValue = .ok (spaceInvSign w) ∧ w.reflectionEigenValue = .ok (reflSign w) ∧
      (spaceInvSign w = 1 ∨ spaceInvSign w = -1) ∧ (reflSign w = 1 ∨ reflSign w = -1) := by
  unfold Wave.spaceInvEigenValue Wave.reflectionEigenValue spaceInvSign reflSign
  rcases h.P with h1 | h1 <;> rcases h.refl with h2 | h2 <;> rcases h.fs with h3 | h3 <;> rw [h1, h2, h3] <;> decide

/-! ### the amplitudes -/

theorem ampLoop_eq {E : Type} (w : Wave E) (sw : Switches) : ∀ es : List E,
    ampLoop w sw es = (es.all w.readable, (es.filter w.readable).map (w.amp sw))
  | [] => rfl
  | e :: es => by
    unfold ampLoop
    rw [ampLoop_eq w sw es]
    by_cases h : w.readable e = true
    · rw [if_pos h, List.all_cons, List.filter_cons_of_pos h, h]; rfl
    · rw [if_neg h, List.all_cons, List.filter_cons_of_neg h, (Bool.not_eq_true _).mp h]; rfl

theorem take_used {E : Type} (n : ℤ) (es : List E) : es.take (nmbEvents n es.length) = usedEvents n es := by
  unfold nmbEvents usedEvents
  by_cases h : n > 0
  · rw [if_pos h, if_pos h]
    rcases le_total n.toNat es.length with h' | h'
    · rw [min_eq_left h']
    · rw [min_eq_right h', List.take_length, List.take_of_length_le h']
  · rw [if_neg h, if_neg h, List.take_length]

theorem processTree_ok {E : Type} {n : ℤ} {es : List E} {w : Wave E} (h : Comparable n es w) (sw : Switches) :
    processTree w sw n es = (true, (usedEvents n es).map (w.amp sw)) := by
  unfold processTree
  rw [h.amp, h.init, take_used, ampLoop_eq, List.filter_eq_self.2 h.read, List.all_eq_true.2 h.read]
  rfl

theorem processTree_bad {E : Type} {n : ℤ} {es : List E} {w : Wave E} (h : ¬ Comparable n es w) :
    (processTree w {} n es).1 = false ∨ (processTree w {} n es).2 = [] := by
  unfold processTree
  cases ha : w.hasAmp with
  | false => exact Or.inl rfl
  | true =>
    cases hi : w.initOk with
    | false => exact Or.inl rfl
    | true =>
      rw [take_used, ampLoop_eq]
      by_contra hc
      push Not at hc
      obtain ⟨h1, h2⟩ := hc
      have h1' : (usedEvents n es).all w.readable = true := by
        by_contra h4
        exact h1 (by simpa using h4)
      refine h ⟨ha, hi, List.all_eq_true.1 h1', fun h3 => h2 ?_⟩
      rw [h3]; rfl

/-- **C95.** What is reported for a wave that can be compared. -/
theorem checkAmps_errors {E : Type} {n : ℤ} {δ : ℝ} (hδ : -1 ≤ δ) {es : List E} {w : Wave E} (hc : Comparable n es w) (hs : Signs w) :
    ∃ errs, checkAmps n δ es w = .ok (some errs) ∧ ErrorsOf δ w (usedEvents n es) errs := by
  obtain ⟨e1, e2, s1, s2⟩ := eigenvalues hs
  have hz : ((usedEvents n es).map (w.amp {})).zip (((usedEvents n es).map (w.amp { spaceInversion := true })).zip
      ((usedEvents n es).map (w.amp { reflection := true }))) = (usedEvents n es).map fun e => (plain w e, inverted w e, reflected w e) := by
    rw [List.zip_map', List.zip_map']
  refine ⟨(((usedEvents n es).map fun e => (plain w e, inverted w e, reflected w e)).foldl (countEvent δ (spaceInvSign w) (reflSign w)) ⟨0, 0, 0, 0⟩).errors, ?_, ?_⟩
  · unfold checkAmps
    rw [processTree_ok hc, processTree_ok hc, processTree_ok hc]
    dsimp only
    rw [if_neg (by simp), if_neg (by
      rw [List.length_map]
      have := List.length_pos_iff.2 hc.some
      omega), if_neg (by simp), if_neg (by simp), if_neg (by simp), e1, e2, hz]
    rfl
  · obtain ⟨h1, h2, h3, h4⟩ := counts_pos hδ s1 s2 ((usedEvents n es).map fun e => (plain w e, inverted w e, reflected w e)) ⟨0, 0, 0, 0⟩
    obtain ⟨m1, m2, m3, m4, m5, m6⟩ := errors_mem (((usedEvents n es).map fun e => (plain w e, inverted w e, reflected w e)).foldl
      (countEvent δ (spaceInvSign w) (reflSign w)) ⟨0, 0, 0, 0⟩)
    refine ⟨m1.trans (h1.trans ?_), m2.trans (h2.trans ?_), m3.trans (h3.trans ?_), m4.trans (h4.trans ?_), m5, m6⟩ <;> simp [List.mem_map]

theorem checkAmps_none {E : Type} {n : ℤ} {δ : ℝ} {es : List E} {w : Wave E} (hc : ¬ Comparable n es w) : checkAmps n δ es w = .ok none := by
  unfold checkAmps
  dsimp only
  rcases processTree_bad hc with h | h
  · rw [h]; rfl
  · cases hb : (processTree w {} n es).1 with
    | false => rfl
    | true => rw [h]; rfl

/-! ### one wave -/

theorem consistent_errs {E : Type} {w : Wave E} (h : Consistent w) :
    ((if !w.checkTopology then [Err.topology] else []) ++ (if !w.checkConsistency then [Err.inconsistent] else [])) = [] := by
  rw [h.topology, h.consistency]; rfl

theorem checkWave_consistent {E : Type} {n : ℤ} {δ : ℝ} {es : List E} {w : Wave E} (h : Consistent w) :
    checkWave n δ (some es) w = (checkAmps n δ es w).bind fun e => match e with
      | none => .ok ([], true)
      | some e => .ok (e, decide (e = [])) := by
  unfold checkWave
  rw [h.built, consistent_errs h]
  rfl

theorem no_errors {E : Type} {δ : ℝ} {w : Wave E} {es : List E} {errs : List Err} (h : ErrorsOf δ w es errs) :
    errs = [] ↔ ∀ e ∈ es, EventOk δ w e := by
  constructor
  · rintro rfl e he
    have h1 := mt h.zero.2 (by simp)
    have h2 := mt h.deviation.2 (by simp)
    have h3 := mt h.spaceInv.2 (by simp)
    have h4 := mt h.refl.2 (by simp)
    push Not at h1 h2 h3 h4
    exact ⟨h1 e he, ⟨(h2 e he).1, h3 e he⟩, (h2 e he).2, h4 e he⟩
  · intro hk
    refine List.eq_nil_iff_forall_not_mem.2 fun x hx => ?_
    cases x with
    | parsing => exact h.other.1 hx
    | topology => exact h.other.2.1 hx
    | inconsistent => exact h.other.2.2 hx
    | zero => obtain ⟨e, he, h1⟩ := h.zero.1 hx; exact (hk e he).nonzero h1
    | deviation =>
      obtain ⟨e, he, h1⟩ := h.deviation.1 hx
      rcases h1 with h1 | h1
      · exact (hk e he).inversion.1 h1
      · exact (hk e he).reflection.1 h1
    | spaceInv => obtain ⟨e, he, h1⟩ := h.spaceInv.1 hx; exact (hk e he).inversion.2 h1
    | refl => obtain ⟨e, he, h1⟩ := h.refl.1 hx; exact (hk e he).reflection.2 h1

/-- **C95.** A consistent wave that can be compared with the data is found right exactly if every event has an amplitude that does not vanish and the
amplitudes of the transformed events have the right sign and are not smaller than allowed; the errors tell what is wrong. -/
theorem checkWave_data {E : Type} {n : ℤ} {δ : ℝ} (hδ : -1 ≤ δ) {es : List E} {w : Wave E} (h : Consistent w) (hc : Comparable n es w) (hs : Signs w) :
    ∃ errs ok, checkWave n δ (some es) w = .ok (errs, ok) ∧ ErrorsOf δ w (usedEvents n es) errs ∧
      (ok = true ↔ ∀ e ∈ usedEvents n es, EventOk δ w e) := by
  obtain ⟨errs, h1, h2⟩ := checkAmps_errors hδ hc hs
  refine ⟨errs, decide (errs = []), ?_, h2, ?_⟩
  · rw [checkWave_consistent h, h1]
    rfl
  · rw [decide_eq_true_eq]; exact no_errors h2

/-- **C95.** All other waves count as right, whatever was found: topologies that cannot be built or are inconsistent, waves without data, and waves whose
amplitudes cannot be calculated. -/
theorem checkWave_skipped {E : Type} {n : ℤ} {δ : ℝ} {data : Option (List E)} {w : Wave E}
    (h : ¬ Consistent w ∨ data = none ∨ ∃ es, data = some es ∧ ¬ Comparable n es w) :
    ∃ errs, checkWave n δ data w = .ok (errs, true) ∧ (errs = [] ↔ Consistent w) ∧
      (.parsing ∈ errs ↔ w.built = false) ∧ (.topology ∈ errs ↔ w.built = true ∧ w.checkTopology = false) ∧
      (.inconsistent ∈ errs ↔ w.built = true ∧ w.checkConsistency = false) := by
  by_cases hcon : Consistent w
  · refine ⟨[], ?_, by simp [hcon], by simp [hcon.built], by simp [hcon.topology], by simp [hcon.consistency]⟩
    rcases h with h | rfl | ⟨es, rfl, h⟩
    · exact absurd hcon h
    · unfold checkWave
      rw [hcon.built, consistent_errs hcon]
      rfl
    · rw [checkWave_consistent hcon, checkAmps_none h]; rfl
  · cases hb : w.built with
    | false =>
      refine ⟨[.parsing], ?_, by simp [hcon], by simp, by simp, by simp⟩
      unfold checkWave
      rw [hb]; rfl
    | true =>
      refine ⟨(if !w.checkTopology then [Err.topology] else []) ++ (if !w.checkConsistency then [Err.inconsistent] else []), ?_, ?_, ?_⟩
      · unfold checkWave
        rw [hb]
        cases ht : w.checkTopology <;> cases hk : w.checkConsistency
        · rfl
        · rfl
        · rfl
        · exact absurd ⟨hb, ht, hk⟩ hcon
      · cases ht : w.checkTopology <;> cases hk : w.checkConsistency <;> simp [hcon]
        exact hcon ⟨hb, ht, hk⟩
      · cases ht : w.checkTopology <;> cases hk : w.checkConsistency <;> simp

/-- **C95.** A wave with undefined reflectivity, or a final state with a particle of undefined parity, makes the program divide by zero as soon as there is
data to compare with. -/
theorem checkWave_undefined {E : Type} {n : ℤ} {δ : ℝ} {es : List E} {w : Wave E} (h : Consistent w) (hc : Comparable n es w)
    (h0 : w.refl = 0 ∨ w.fsParity = 0) : checkWave n δ (some es) w = .ub := by
  have hu : checkAmps n δ es w = .ub := by
    unfold checkAmps
    rw [processTree_ok hc, processTree_ok hc, processTree_ok hc]
    dsimp only
    rw [if_neg (by simp), if_neg (by
      rw [List.length_map]
      have := List.length_pos_iff.2 hc.some
      omega), if_neg (by simp), if_neg (by simp), if_neg (by simp)]
    unfold Wave.spaceInvEigenValue Wave.reflectionEigenValue
    by_cases hf : w.fsParity = 0
    · rw [if_pos hf]; rfl
    · rw [if_neg hf, if_pos (by rw [h0.resolve_right hf, zero_mul])]; rfl
  rw [checkWave_consistent h, hu]
  rfl

end Rpwa.CheckKey
