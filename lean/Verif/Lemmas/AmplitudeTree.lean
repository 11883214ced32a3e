import Verif.Lemmas.AmplitudeTwoBody
import Verif.Spec.Amplitude

/-!
# Mirrored decay trees
-/

namespace Rpwa.Amp

open Rpwa.Gen Rpwa.Amp.Spec

/-- all momenta of a tree -/
def Part.map (g : LV → LV) : Part → Part
  | .fs J P i p => .fs J P i (g p)
  | .isobar J P p v d1 d2 => .isobar J P (g p) v (d1.map g) (d2.map g)

@[simp] theorem Part.map_J (g : LV → LV) (t : Part) : (t.map g).J = t.J := by cases t <;> rfl
@[simp] theorem Part.map_P (g : LV → LV) (t : Part) : (t.map g).P = t.P := by cases t <;> rfl
@[simp] theorem Part.map_lz (g : LV → LV) (t : Part) : (t.map g).lz = g t.lz := by cases t <;> rfl
@[simp] theorem Part.toFrames_J (r : LV → LV → LV) (T : LV → LV) (t : Part) : (t.toFrames r T).J = t.J := by cases t <;> rfl
@[simp] theorem Part.toFrames_P (r : LV → LV → LV) (T : LV → LV) (t : Part) : (t.toFrames r T).P = t.P := by cases t <;> rfl
@[simp] theorem Part.toFrames_lz (r : LV → LV → LV) (T : LV → LV) (t : Part) : (t.toFrames r T).lz = T t.lz := by cases t <;> rfl

theorem mesonic_map {g : LV → LV} : ∀ {t : Part}, Mesonic (t.map g) ↔ Mesonic t
  | .fs _ _ _ _ => Iff.rfl
  | .isobar _ _ _ _ d1 d2 => by
    unfold Part.map Mesonic
    rw [mesonic_map (t := d1), mesonic_map (t := d2)]

theorem mesonic_frames {r : LV → LV → LV} : ∀ {t : Part} {T : LV → LV}, Mesonic (t.toFrames r T) ↔ Mesonic t
  | .fs _ _ _ _, _ => Iff.rfl
  | .isobar _ _ _ _ d1 d2, T => by
    unfold Part.toFrames Mesonic
    rw [mesonic_frames (t := d1), mesonic_frames (t := d2)]

theorem mesonic_J : ∀ {t : Part}, Mesonic t → 2 ∣ t.J
  | .fs _ _ _ _, h => by unfold Mesonic at h; show 2 ∣ _; rw [h]; exact dvd_zero 2
  | .isobar _ _ _ _ _ _, h => h.1

/-- `(-1)^(sum of L)` -/
noncomputable def kap : Part → ℂ
  | .fs _ _ _ _ => 1
  | .isobar _ _ _ v d1 d2 => sg v.L * kap d1 * kap d2

theorem sum_flip {s1 s2 : ℤ} {f g : ℤ → ℤ → ℂ} {c : ℂ}
    (h : ∀ l1 l2, Clebsch.Proj s1 l1 → Clebsch.Proj s2 l2 → f l1 l2 = c * g (-l1) (-l2)) :
    (spinLoop s1 fun l1 => spinLoop s2 fun l2 => f l1 l2) = c * spinLoop s1 fun l1 => spinLoop s2 fun l2 => g l1 l2 := by
  rw [← spinLoop_mul, ← spinLoop_neg s1 (fun l1 => c * spinLoop s2 fun l2 => g l1 l2)]
  refine spinLoop_congr fun l1 h1 => ?_
  rw [← spinLoop_mul, ← spinLoop_neg s2 (fun l2 => c * g (-l1) l2)]
  exact spinLoop_congr fun l2 h2 => h l1 l2 h1 h2

theorem sum_same {s1 s2 : ℤ} {f g : ℤ → ℤ → ℂ} {c : ℂ}
    (h : ∀ l1 l2, Clebsch.Proj s1 l1 → Clebsch.Proj s2 l2 → f l1 l2 = c * g l1 l2) :
    (spinLoop s1 fun l1 => spinLoop s2 fun l2 => f l1 l2) = c * spinLoop s1 fun l1 => spinLoop s2 fun l2 => g l1 l2 := by
  rw [← spinLoop_mul]
  refine spinLoop_congr fun l1 h1 => ?_
  rw [← spinLoop_mul]
  exact spinLoop_congr fun l2 h2 => h l1 l2 h1 h2

/-! ### reflection, helicity formalism -/

theorem hel_node_reflY {J Lambda : ℤ} {v : DecayVtx} {d1 d2 : Part} {p p' : LV} (hJ : 2 ∣ J) (hL : 2 ∣ v.L)
    (h1 : 2 ∣ d1.J) (h2 : 2 ∣ d2.J) (hLa : Clebsch.Proj J Lambda) (hp : mass p' = mass p) (P P' r r' : ℤ) {A1 A2 B1 B2 : ℤ → ℂ}
    {k1 k2 : ℂ} (hA1 : ∀ l, Clebsch.Proj d1.J l → B1 l = k1 * sg (d1.J - l) * A1 (-l))
    (hA2 : ∀ l, Clebsch.Proj d2.J l → B2 l = k2 * sg (d2.J - l) * A2 (-l)) {e1 e2 : Part}
    (he1 : e1.lz = reflY d1.lz) (he2 : mass e2.lz = mass d2.lz) (he1J : e1.J = d1.J) (he2J : e2.J = d2.J) :
    (spinLoop e1.J fun l1 => spinLoop e2.J fun l2 => helTwoBody false J P r Lambda v p' e1 e2 l1 l2 * B1 l1 * B2 l2) =
      sg v.L * k1 * k2 * sg (J - Lambda) *
        spinLoop d1.J fun l1 => spinLoop d2.J fun l2 => helTwoBody false J P' r' (-Lambda) v p d1 d2 l1 l2 * A1 l1 * A2 l2 := by
  rw [he1J, he2J]
  refine sum_flip (f := fun l1 l2 => helTwoBody false J P r Lambda v p' e1 e2 l1 l2 * B1 l1 * B2 l2)
    (g := fun l1 l2 => helTwoBody false J P' r' (-Lambda) v p d1 d2 l1 l2 * A1 l1 * A2 l2) fun l1 l2 hl1 hl2 => ?_
  have hLe := proj_even hJ hLa
  have hl1e := proj_even h1 hl1
  have hl2e := proj_even h2 hl2
  rw [hel_eq hLe, hel_eq (by omega), he1, he2, he1J, he2J, hp, mass_reflY, helVal_reflY hL hJ h1 h2 hLa, hA1 l1 hl1, hA2 l2 hl2]
  have hs : sg (v.L - J + d1.J + d2.J) * sg (Lambda + (l1 - l2)) * (sg (d1.J - l1) * sg (d2.J - l2)) =
      sg v.L * sg (J - Lambda) := by
    rw [← sg_add (by omega), ← sg_add (by omega), ← sg_add (by omega), ← sg_add (by omega)]
    exact sg_congr (by omega)
  linear_combination (helVal J (-Lambda) v (mass p) d1.lz (mass d1.lz) (mass d2.lz) d1.J d2.J (-l1) (-l2) *
    k1 * k2 * A1 (-l1) * A2 (-l2)) * hs

theorem hel_reflY : ∀ {t : Part}, Mesonic t → ∀ {Lambda : ℤ}, Clebsch.Proj t.J Lambda →
    decayAmp helicity (t.map reflY) Lambda = kap t * sg (t.J - Lambda) * decayAmp helicity t (-Lambda)
  | .fs J P i p, h, Lambda, hl => by
    unfold Mesonic at h
    obtain ⟨k, hk, hk2⟩ := hl
    have hJ : (Part.fs J P i p).J = 0 := h
    rw [hJ] at hk hk2 ⊢
    have : Lambda = 0 := by omega
    rw [this]
    unfold Part.map decayAmp kap
    rw [sub_zero, sg_four 0 (by norm_num)]
    ring
  | .isobar J P p v d1 d2, h, Lambda, hl => by
    obtain ⟨hJ, hL, hL0, hd1, hd2⟩ := h
    unfold Part.map
    rw [decayAmp, decayAmp]
    unfold kap
    exact hel_node_reflY (d1 := d1) (d2 := d2) hJ hL (mesonic_J hd1) (mesonic_J hd2) hl (mass_reflY p) P P 0 0
      (fun l hl => hel_reflY hd1 hl) (fun l hl => hel_reflY hd2 hl) (Part.map_lz _ _)
      (by rw [Part.map_lz, mass_reflY]) (Part.map_J _ _) (Part.map_J _ _)

theorem frames_reflY : ∀ {t : Part} {T T' g : LV → LV}, (∀ p, T' (g p) = reflY (T p)) → OffAxis (t.toFrames hfTransform T) →
    (t.map g).toFrames hfTransform T' = (t.toFrames hfTransform T).map reflY
  | .fs J P i p, T, T', g, h, _ => by
    unfold Part.map Part.toFrames
    rw [h]
  | .isobar J P p v d1 d2, T, T', g, h, ho => by
    unfold Part.toFrames OffAxis at ho
    obtain ⟨hm, ht, hx, ho1, ho2⟩ := ho
    unfold Part.map Part.toFrames
    have h' : ∀ q, hfTransform (T' (g p)) (T' (g q)) = reflY (hfTransform (T p) (T q)) := by
      intro q
      rw [h, h, hf_reflY hm ht hx]
    rw [frames_reflY (T' := fun q => hfTransform (T' (g p)) (T' q)) h' ho1,
      frames_reflY (T' := fun q => hfTransform (T' (g p)) (T' q)) h' ho2, h]

/-! ### inversion, helicity formalism -/

theorem prod_invert (p q : LV) : prod (invert p) (invert q) = prod p q := by
  unfold prod invert; dsimp only; ring

theorem vol_invert (a b c d : LV) : vol (invert a) (invert b) (invert c) (invert d) = -vol a b c d := by
  rw [vol_eq, vol_eq]; unfold invert; dsimp only; ring

theorem prod_reflX (p q : LV) : prod (reflX p) (reflX q) = prod p q := by
  unfold prod reflX; dsimp only; ring

theorem vol_reflX (a b c d : LV) : vol (reflX a) (reflX b) (reflX c) (reflX d) = -vol a b c d := by
  rw [vol_eq, vol_eq]; unfold reflX; dsimp only; ring

theorem invert_invert (p : LV) : invert (invert p) = p := by
  unfold invert; ext <;> dsimp only <;> ring

theorem reflX_reflX (p : LV) : reflX (reflX p) = p := by
  unfold reflX; ext <;> dsimp only; ring

/-- inverting the parent's frame reflects the helicity frame in its y-z-plane -/
theorem hf_invert {d : LV} (hm : 0 < d.m2) (ht : 0 < d.t) (hd : d.x ≠ 0 ∨ d.y ≠ 0) (p : LV) :
    hfTransform (invert d) (invert p) = reflX (hfTransform d p) := by
  have hm' : 0 < (invert d).m2 := by
    have : (invert d).m2 = d.m2 := prod_invert d d
    rw [this]; exact hm
  have h' := hf_frame (d := invert d) hm' ht (by
    rcases hd with h | h
    · exact Or.inl (neg_ne_zero.mpr h)
    · exact Or.inr (neg_ne_zero.mpr h))
  have h := hf_frame hm ht hd
  have hc : IsHF (invert d) (fun p => reflX (hfTransform d (invert p))) := by
    obtain ⟨f, ⟨m, hm0, eX⟩, ⟨k, e, hk, eb⟩, ⟨n, hn, en⟩⟩ := h
    refine ⟨⟨fun p => ?_, fun p q => ?_, fun a b c d => ?_⟩, ⟨m, hm0, ?_⟩, ⟨k, e, hk, ?_⟩, ⟨n, hn, ?_⟩⟩
    · obtain ⟨q, hq⟩ := f.onto (reflX p)
      exact ⟨invert q, by rw [invert_invert, hq, reflX_reflX]⟩
    · rw [prod_reflX, f.keeps_prod, prod_invert]
    · rw [vol_reflX, f.keeps_vol, vol_invert, neg_neg]
    · rw [invert_invert, eX]
      unfold reflX; ext <;> dsimp only; ring
    · have : invert ⟨0, 0, 0, 1⟩ = ⟨0, 0, 0, 1⟩ := by unfold invert; ext <;> dsimp only <;> ring
      rw [this, eb]
      unfold reflX; ext <;> dsimp only; ring
    · have : invert ⟨-(invert d).y, (invert d).x, 0, 0⟩ = ⟨-d.y, d.x, 0, 0⟩ := by
        unfold invert; ext <;> dsimp only <;> ring
      rw [this, en]
      unfold reflX; ext <;> dsimp only <;> ring
  have := hf_unique h' hc (invert p)
  rw [this, invert_invert]

theorem hf_reflX {d : LV} (hm : 0 < d.m2) (ht : 0 < d.t) (hd : d.x ≠ 0 ∨ d.y ≠ 0) (p : LV) :
    hfTransform (reflX d) (reflX p) = reflY (hfTransform d p) := by
  have e : ∀ q, reflX q = rotZ Real.pi (reflY q) := by
    intro q
    unfold reflX rotZ reflY
    ext <;> simp
  have hm' : 0 < (reflY d).m2 := by
    have : (reflY d).m2 = d.m2 := prod_reflY d d
    rw [this]; exact hm
  rw [e, e, hf_rotZ hm' ht, hf_reflY hm ht hd]
  rcases hd with h | h
  · exact Or.inl h
  · exact Or.inr (neg_ne_zero.mpr h)

/-- a tree after inversion, one level below -/
def flipX : Part → Part
  | .fs J P i p => .fs J P i (reflX p)
  | .isobar J P p v d1 d2 => .isobar J P (reflX p) v (d1.map reflY) (d2.map reflY)

/-- a tree after inversion of the parent's frame -/
def inverted : Part → Part
  | .fs J P i p => .fs J P i (invert p)
  | .isobar J P p v d1 d2 => .isobar J P (invert p) v (flipX d1) (flipX d2)

@[simp] theorem flipX_J (t : Part) : (flipX t).J = t.J := by cases t <;> rfl
@[simp] theorem flipX_lz (t : Part) : (flipX t).lz = reflX t.lz := by cases t <;> rfl
@[simp] theorem inverted_J (t : Part) : (inverted t).J = t.J := by cases t <;> rfl
@[simp] theorem inverted_lz (t : Part) : (inverted t).lz = invert t.lz := by cases t <;> rfl

theorem frames_flipX {t : Part} {T T' g : LV → LV} (h : ∀ p, T' (g p) = reflX (T p))
    (ho : OffAxis (t.toFrames hfTransform T)) :
    (t.map g).toFrames hfTransform T' = flipX (t.toFrames hfTransform T) := by
  cases t with
  | fs J P i p => unfold Part.map Part.toFrames; rw [h]; rfl
  | isobar J P p v d1 d2 =>
    unfold Part.toFrames OffAxis at ho
    obtain ⟨hm, ht, hx, ho1, ho2⟩ := ho
    unfold Part.map Part.toFrames
    have h' : ∀ q, hfTransform (T' (g p)) (T' (g q)) = reflY (hfTransform (T p) (T q)) := by
      intro q
      rw [h, h, hf_reflX hm ht hx]
    rw [frames_reflY (T' := fun q => hfTransform (T' (g p)) (T' q)) h' ho1,
      frames_reflY (T' := fun q => hfTransform (T' (g p)) (T' q)) h' ho2, h]
    rfl

theorem frames_invert {t : Part} {T T' g : LV → LV} (h : ∀ p, T' (g p) = invert (T p))
    (ho : OffAxis (t.toFrames hfTransform T)) :
    (t.map g).toFrames hfTransform T' = inverted (t.toFrames hfTransform T) := by
  cases t with
  | fs J P i p => unfold Part.map Part.toFrames; rw [h]; rfl
  | isobar J P p v d1 d2 =>
    unfold Part.toFrames OffAxis at ho
    obtain ⟨hm, ht, hx, ho1, ho2⟩ := ho
    unfold Part.map Part.toFrames
    have h' : ∀ q, hfTransform (T' (g p)) (T' (g q)) = reflX (hfTransform (T p) (T q)) := by
      intro q
      rw [h, h, hf_invert hm ht hx]
    rw [frames_flipX (T' := fun q => hfTransform (T' (g p)) (T' q)) h' ho1,
      frames_flipX (T' := fun q => hfTransform (T' (g p)) (T' q)) h' ho2, h]
    rfl

theorem offAxis_lz : ∀ {t : Part}, OffAxis t → t.lz.x ≠ 0 ∨ t.lz.y ≠ 0
  | .fs _ _ _ _, h => h
  | .isobar _ _ _ _ _ _, h => h.2.2.1

theorem mass_reflX (p : LV) : mass (reflX p) = mass p := mass_congr (by unfold LV.m2 reflX; dsimp only; ring)

theorem decay_flipX {t : Part} (Lambda : ℤ) : decayAmp helicity (flipX t) Lambda = decayAmp helicity (t.map reflY) Lambda := by
  cases t with
  | fs J P i p => rfl
  | isobar J P p v d1 d2 =>
    show decayAmp helicity (.isobar J P (reflX p) v (d1.map reflY) (d2.map reflY)) Lambda =
      decayAmp helicity (.isobar J P (reflY p) v (d1.map reflY) (d2.map reflY)) Lambda
    rw [decayAmp, decayAmp]
    have e : ∀ l1 l2, helicity.twoBody false J P 0 Lambda v (reflX p) (d1.map reflY) (d2.map reflY) l1 l2 =
        helicity.twoBody false J P 0 Lambda v (reflY p) (d1.map reflY) (d2.map reflY) l1 l2 := by
      intro l1 l2
      show helTwoBody _ _ _ _ _ _ _ _ _ _ _ = helTwoBody _ _ _ _ _ _ _ _ _ _ _
      unfold helTwoBody
      rw [mass_reflX, mass_reflY]
    simp only [e]

theorem decay_inverted {t : Part} (h : Mesonic t) (ho : OffAxis t) {Lambda : ℤ} (hl : Clebsch.Proj t.J Lambda) :
    decayAmp helicity (inverted t) Lambda = kap t * sg t.J * decayAmp helicity t (-Lambda) := by
  cases t with
  | fs J P i p =>
    have := hel_reflY h hl
    rw [show decayAmp helicity ((Part.fs J P i p).map reflY) Lambda = 1 from rfl] at this
    show (1 : ℂ) = _
    unfold Mesonic at h
    have hJ : (Part.fs J P i p).J = 0 := h
    rw [hJ]
    unfold kap decayAmp
    rw [sg_four 0 (by norm_num)]
    ring
  | isobar J P p v d1 d2 =>
    obtain ⟨hJ, hL, hL0, hd1, hd2⟩ := h
    obtain ⟨hm, ht, hx, ho1, ho2⟩ := ho
    have hLe := proj_even hJ hl
    have key := hel_node_reflY (d1 := d1) (d2 := d2) hJ hL (mesonic_J hd1) (mesonic_J hd2) hl (rfl : mass p = mass p) P P 0 0
      (fun l hl => hel_reflY hd1 hl) (fun l hl => hel_reflY hd2 hl) (Part.map_lz reflY d1)
      (by rw [Part.map_lz, mass_reflY]) (Part.map_J _ _) (Part.map_J _ _)
    unfold inverted
    rw [decayAmp, decayAmp]
    unfold kap
    have e : ∀ l1 l2, helicity.twoBody false J P 0 Lambda v (invert p) (flipX d1) (flipX d2) l1 l2 *
        decayAmp helicity (flipX d1) l1 * decayAmp helicity (flipX d2) l2 = sg Lambda *
        (helTwoBody false J P 0 Lambda v p (d1.map reflY) (d2.map reflY) l1 l2 *
        decayAmp helicity (d1.map reflY) l1 * decayAmp helicity (d2.map reflY) l2) := by
      intro l1 l2
      show helTwoBody _ _ _ _ _ _ _ _ _ _ _ * _ * _ = _
      rw [hel_eq hLe, hel_eq hLe, flipX_lz, flipX_lz, flipX_J, flipX_J, Part.map_lz, Part.map_lz, Part.map_J, Part.map_J,
        mass_reflX, mass_reflX, mass_reflY, mass_reflY, mass_invert, helVal_reflX _ (offAxis_lz ho1), decay_flipX, decay_flipX]
      ring
    simp only [e, flipX_J]
    rw [Part.map_J, Part.map_J] at key
    simp only [spinLoop_mul]
    refine (congrArg (fun z => sg Lambda * z) key).trans ?_
    have hs : sg Lambda * sg (J - Lambda) = sg J := by
      rw [← sg_add hLe]; congr 1; ring
    show sg Lambda * (sg v.L * kap d1 * kap d2 * sg (J - Lambda) * _) = sg v.L * kap d1 * kap d2 * sg J * _
    rw [← hs]
    ring!

/-! ### canonical formalism -/

theorem can_node_reflY {J M : ℤ} {v : DecayVtx} {d1 d2 : Part} {p p' : LV} (hJ : 2 ∣ J) (hL : 2 ∣ v.L) (hL0 : 0 ≤ v.L)
    (h1 : 2 ∣ d1.J) (h2 : 2 ∣ d2.J) (hM : 2 ∣ M) (hp : mass p' = mass p) (P P' r r' : ℤ) {A1 A2 B1 B2 : ℤ → ℂ}
    {k1 k2 : ℂ} (hA1 : ∀ l, Clebsch.Proj d1.J l → B1 l = k1 * sg (d1.J - l) * A1 (-l))
    (hA2 : ∀ l, Clebsch.Proj d2.J l → B2 l = k2 * sg (d2.J - l) * A2 (-l)) {e1 e2 : Part}
    (he1 : e1.lz = reflY d1.lz) (he2 : mass e2.lz = mass d2.lz) (he1J : e1.J = d1.J) (he2J : e2.J = d2.J) :
    (spinLoop e1.J fun l1 => spinLoop e2.J fun l2 => canTwoBody false J P r M v p' e1 e2 l1 l2 * B1 l1 * B2 l2) =
      sg v.L * k1 * k2 * sg (J - M) *
        spinLoop d1.J fun l1 => spinLoop d2.J fun l2 => canTwoBody false J P' r' (-M) v p d1 d2 l1 l2 * A1 l1 * A2 l2 := by
  rw [he1J, he2J]
  refine sum_flip (f := fun l1 l2 => canTwoBody false J P r M v p' e1 e2 l1 l2 * B1 l1 * B2 l2)
    (g := fun l1 l2 => canTwoBody false J P' r' (-M) v p d1 d2 l1 l2 * A1 l1 * A2 l2) fun l1 l2 hl1 hl2 => ?_
  have hl1e := proj_even h1 hl1
  have hl2e := proj_even h2 hl2
  rw [can_eq hL, can_eq hL, he1, he2, he1J, he2J, hp, mass_reflY, canVal_reflY hL hL0 hJ h1 h2 hM, hA1 l1 hl1, hA2 l2 hl2]
  have hs : sg (v.L - J + d1.J + d2.J) * sg (M - (l1 + l2)) * (sg (d1.J - l1) * sg (d2.J - l2)) =
      sg v.L * sg (J - M) := by
    rw [← sg_add (by omega), ← sg_add (by omega), ← sg_add (by omega), ← sg_add (by omega)]
    exact sg_congr (by omega)
  linear_combination (canVal J (-M) v (mass p) d1.lz (mass d1.lz) (mass d2.lz) d1.J d2.J (-l1) (-l2) *
    k1 * k2 * A1 (-l1) * A2 (-l2)) * hs

theorem can_reflY : ∀ {t : Part}, Mesonic t → ∀ {M : ℤ}, Clebsch.Proj t.J M →
    decayAmp canonical (t.map reflY) M = kap t * sg (t.J - M) * decayAmp canonical t (-M)
  | .fs J P i p, h, M, hl => by
    unfold Mesonic at h
    obtain ⟨k, hk, hk2⟩ := hl
    have hJ : (Part.fs J P i p).J = 0 := h
    rw [hJ] at hk hk2 ⊢
    have : M = 0 := by omega
    rw [this]
    unfold Part.map decayAmp kap
    rw [sub_zero, sg_four 0 (by norm_num)]
    ring
  | .isobar J P p v d1 d2, h, M, hl => by
    obtain ⟨hJ, hL, hL0, hd1, hd2⟩ := h
    unfold Part.map
    rw [decayAmp, decayAmp]
    unfold kap
    exact can_node_reflY (d1 := d1) (d2 := d2) hJ hL hL0 (mesonic_J hd1) (mesonic_J hd2) (proj_even hJ hl) (mass_reflY p) P P 0 0
      (fun l hl => can_reflY hd1 hl) (fun l hl => can_reflY hd2 hl) (Part.map_lz _ _)
      (by rw [Part.map_lz, mass_reflY]) (Part.map_J _ _) (Part.map_J _ _)

theorem can_node_invert {J M : ℤ} {v : DecayVtx} {d1 d2 : Part} {p p' : LV} (hL : 2 ∣ v.L)
    (hp : mass p' = mass p) (P P' r r' : ℤ) {A1 A2 B1 B2 : ℤ → ℂ} {k1 k2 : ℂ} (hA1 : ∀ l, B1 l = k1 * A1 l)
    (hA2 : ∀ l, B2 l = k2 * A2 l) {e1 e2 : Part} (he1 : e1.lz = invert d1.lz) (he2 : mass e2.lz = mass d2.lz)
    (he1J : e1.J = d1.J) (he2J : e2.J = d2.J) :
    (spinLoop e1.J fun l1 => spinLoop e2.J fun l2 => canTwoBody false J P r M v p' e1 e2 l1 l2 * B1 l1 * B2 l2) =
      sg v.L * k1 * k2 *
        spinLoop d1.J fun l1 => spinLoop d2.J fun l2 => canTwoBody false J P' r' M v p d1 d2 l1 l2 * A1 l1 * A2 l2 := by
  rw [he1J, he2J]
  refine sum_same (f := fun l1 l2 => canTwoBody false J P r M v p' e1 e2 l1 l2 * B1 l1 * B2 l2)
    (g := fun l1 l2 => canTwoBody false J P' r' M v p d1 d2 l1 l2 * A1 l1 * A2 l2) fun l1 l2 hl1 hl2 => ?_
  rw [can_eq hL, can_eq hL, he1, he2, he1J, he2J, hp, mass_invert, canVal_invert hL, hA1 l1, hA2 l2]
  ring

theorem can_invert : ∀ {t : Part}, Mesonic t → ∀ (M : ℤ),
    decayAmp canonical (t.map invert) M = kap t * decayAmp canonical t M
  | .fs J P i p, h, M => by
    unfold Part.map decayAmp kap
    ring
  | .isobar J P p v d1 d2, h, M => by
    obtain ⟨hJ, hL, hL0, hd1, hd2⟩ := h
    unfold Part.map
    rw [decayAmp, decayAmp]
    unfold kap
    exact can_node_invert (d1 := d1) (d2 := d2) hL (mass_invert p) P P 0 0
      (fun l => can_invert hd1 l) (fun l => can_invert hd2 l) (Part.map_lz _ _)
      (by rw [Part.map_lz, mass_invert]) (Part.map_J _ _) (Part.map_J _ _)

theorem boost_reflY (p q : LV) : (reflY q).boost (reflY p).boostVector.neg = reflY (q.boost p.boostVector.neg) := by
  unfold LV.boost LV.boostVector V3.neg reflY
  have hb : - (p.x / p.t) * -(p.x / p.t) + -(-p.y / p.t) * -(-p.y / p.t) + -(p.z / p.t) * -(p.z / p.t) =
    - (p.x / p.t) * -(p.x / p.t) + -(p.y / p.t) * -(p.y / p.t) + -(p.z / p.t) * -(p.z / p.t) := by ring
  ext <;> dsimp only <;> rw [hb] <;> ring

theorem boost_invert (p q : LV) : (invert q).boost (invert p).boostVector.neg = invert (q.boost p.boostVector.neg) := by
  unfold LV.boost LV.boostVector V3.neg invert
  have hb : - (-p.x / p.t) * -(-p.x / p.t) + -(-p.y / p.t) * -(-p.y / p.t) + -(-p.z / p.t) * -(-p.z / p.t) =
    - (p.x / p.t) * -(p.x / p.t) + -(p.y / p.t) * -(p.y / p.t) + -(p.z / p.t) * -(p.z / p.t) := by ring
  ext <;> dsimp only <;> rw [hb] <;> ring

theorem frames_equivariant {r : LV → LV → LV} {s : LV → LV} (hr : ∀ p q, r (s p) (s q) = s (r p q)) :
    ∀ {t : Part} {T T' g : LV → LV}, (∀ p, T' (g p) = s (T p)) → (t.map g).toFrames r T' = (t.toFrames r T).map s
  | .fs J P i p, T, T', g, h => by
    unfold Part.map Part.toFrames
    rw [h]
  | .isobar J P p v d1 d2, T, T', g, h => by
    unfold Part.map Part.toFrames
    have h' : ∀ q, r (T' (g p)) (T' (g q)) = s (r (T p) (T q)) := by
      intro q
      rw [h, h, hr]
    rw [frames_equivariant hr (t := d1) (T' := fun q => r (T' (g p)) (T' q)) h',
      frames_equivariant hr (t := d2) (T' := fun q => r (T' (g p)) (T' q)) h', h]

end Rpwa.Amp
