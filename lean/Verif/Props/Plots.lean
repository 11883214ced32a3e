import Verif.Spec.Plots
import Mathlib.Data.List.Basic
import Mathlib.Data.List.Range
import Mathlib.Data.List.Nodup
import Mathlib.Data.Rat.Defs
import Mathlib.Algebra.Order.Ring.Rat
import Mathlib.Algebra.Field.Rat
import Mathlib.Tactic.Ring
import Mathlib.Tactic.Linarith
import Mathlib.Tactic.FieldSimp
import Mathlib.Tactic.IntervalCases
/-! # C99: graphs of a resonance fit -/
namespace Rpwa.Plots

variable {K : Type} [Field K] [LinearOrder K]

/-! ### points of graphs -/

theorem addPoint_show (m : ℕ) (p : Pt K) (s : ℕ × Graph K) (h : s.1 + s.2.length = m) : addPoint true m p s = (s.1, s.2 ++ [p]) := by
  have e : m - s.1 = s.2.length := by omega
  unfold addPoint
  rw [if_pos rfl, e]
  have h1 : setPoint s.2 s.2.length p.x p.y = s.2 ++ [⟨p.x, p.y, some 0, 0⟩] := by
    unfold setPoint
    rw [if_neg (lt_irrefl _)]
    simp
  rw [h1]
  unfold setError
  rw [if_pos (by simp), List.modify_eq_set_getElem?]
  simp

theorem setPoint_length (g : Graph K) (x y : K) : setPoint g g.length x y = g ++ [⟨x, y, some 0, 0⟩] := by
  unfold setPoint
  rw [if_neg (lt_irrefl _)]
  simp

theorem setPoint_at {n : ℕ} (g : Graph K) (h : g.length = n) (x y : K) : setPoint g n x y = g ++ [⟨x, y, some 0, 0⟩] := by
  rw [← h, setPoint_length]

theorem loop_inv (show? : ℕ → Bool) (pt : ℕ → Pt K) : ∀ n,
    (List.range n).foldl (fun s m => addPoint (show? m) m (pt m) s) (0, []) =
      (n - ((List.range n).filter show?).length, ((List.range n).filter show?).map pt)
  | 0 => rfl
  | n + 1 => by
    have hle : ((List.range n).filter show?).length ≤ n := by
      have := List.length_filter_le show? (List.range n)
      rwa [List.length_range] at this
    rw [List.range_succ, List.foldl_append, loop_inv show? pt n, List.foldl_cons, List.foldl_nil, List.filter_append]
    by_cases h : show? n = true
    · rw [h, addPoint_show _ _ _ (by simp only [List.length_map]; omega)]
      simp [h]
    · have h' : show? n = false := by simpa using h
      unfold addPoint
      rw [h', if_neg (by simp)]
      simp only [List.filter_cons, List.filter_nil, h', List.append_nil]
      simp
      omega

theorem shownLoop_eq (n : ℕ) (show? : ℕ → Bool) (pt : ℕ → Pt K) : shownLoop n show? pt = ((List.range n).filter show?).map pt := by
  unfold shownLoop
  rw [loop_inv]

theorem shows_filter (n : ℕ) (show? : ℕ → Bool) (P : ℕ → Prop) (pt : ℕ → Pt K) (h : ∀ m, show? m = true ↔ P m) :
    ShowsBins n P pt (((List.range n).filter show?).map pt) :=
  ⟨_, List.Pairwise.filter _ List.pairwise_lt_range, fun m => by simp [h m], rfl⟩

/-- **C99.** A wave is left out in a mass bin exactly if everything that was fitted is zero. -/
theorem zeroWave_iff (e : Elems K) (nWaves m w : ℕ) : zeroWave e nWaves m w = false ↔ HasResult e nWaves m w := by
  unfold zeroWave HasResult
  rw [← Bool.not_eq_true]
  simp only [Bool.and_eq_true, decide_eq_true_eq, List.all_eq_true, List.mem_range, ne_eq, Prod.ext_iff]
  constructor
  · intro h
    by_contra hc
    push Not at hc
    exact h ⟨hc.1, fun j hj => by
      obtain ⟨h1, h2, h3⟩ := hc.2 j hj
      exact ⟨⟨⟨⟨⟨h1.1, h1.2⟩, h2.1⟩, h2.2⟩, h3.1⟩, h3.2⟩⟩
  · rintro (h | ⟨j, hj, h⟩) hc
    · exact h hc.1
    · obtain ⟨⟨⟨⟨⟨h1, h2⟩, h3⟩, h4⟩, h5⟩, h6⟩ := hc.2 j hj
      rcases h with h | h | h
      · exact h ⟨h1, h2⟩
      · exact h ⟨h3, h4⟩
      · exact h ⟨h5, h6⟩

/-! ### curves -/

theorem foldl_setPoint (first : ℕ) (x y : ℕ → K) : ∀ n,
    (List.range' first n).foldl (fun g p => setPoint g (p - first) (x p) (y p)) ([] : Graph K) =
      (List.range' first n).map fun p => ⟨x p, y p, some 0, 0⟩
  | 0 => rfl
  | n + 1 => by
    have h : List.range' first (n + 1) = List.range' first n ++ [first + n] := by
      rw [List.range'_concat]; simp
    rw [h, List.foldl_append, foldl_setPoint first x y n, List.foldl_cons, List.foldl_nil, List.map_append]
    have e : first + n - first = ((List.range' first n).map fun p => (⟨x p, y p, some 0, 0⟩ : Pt K)).length := by simp
    rw [e, setPoint_length]
    rfl

theorem curve_eq (b : Bin K) (eb first last : ℕ) (f : K → Option ℕ → K) :
    curve b eb first last f = (List.range' first (last + 1 - first)).map fun p => ⟨gridMass b eb p, f (gridMass b eb p) (gridIdx eb p), some 0, 0⟩ :=
  foldl_setPoint first _ _ _

theorem isCurve_map (b : Bin K) (eb first last : ℕ) (f : ℕ → K) :
    IsCurve b eb first last f ((List.range' first (last + 1 - first)).map fun p => ⟨gridMass b eb p, f p, some 0, 0⟩) where
  length := by simp
  point p h1 h2 := by
    have : (List.range' first (last + 1 - first))[p - first]? = some p := by
      rw [List.getElem?_range' (by omega)]
      congr 1
      omega
    simp [List.getElem?_map, this]

/-- **C99.** A curve goes through all points of its range. -/
theorem curve_spec (b : Bin K) (eb first last : ℕ) (f : K → Option ℕ → K) :
    IsCurve b eb first last (fun p => f (gridMass b eb p) (gridIdx eb p)) (curve b eb first last f) := by
  rw [curve_eq]
  exact isCurve_map b eb first last _

/-- **C99.** Curves go through the centers of the mass bins, where the index of the mass bin is known. -/
theorem grid_center (b : Bin K) {eb : ℕ} (heb : 0 < eb) (m : ℕ) : gridIdx eb (eb * m) = some m ∧ gridMass b eb (eb * m) = b.centers m := by
  have h : gridIdx eb (eb * m) = some m := by
    unfold gridIdx
    rw [if_pos (Nat.mul_mod_right eb m), Nat.mul_div_cancel_left m heb]
  exact ⟨h, by unfold gridMass; rw [h]⟩

theorem gridIdx_eq {eb p m : ℕ} (heb : 0 < eb) : gridIdx eb p = some m ↔ p = eb * m := by
  constructor
  · intro h
    unfold gridIdx at h
    split_ifs at h with hp
    have := Option.some.inj h
    rw [← this]
    have := Nat.div_add_mod p eb
    omega
  · rintro rfl
    unfold gridIdx
    rw [if_pos (Nat.mul_mod_right eb m), Nat.mul_div_cancel_left m heb]

/-- **C99.** For mass bins of the same width the points of a curve are `1/eb` of the width apart. -/
theorem grid_even [IsStrictOrderedRing K] (b : Bin K) {eb : ℕ} (heb : 0 < eb) (c0 d : K) (hn : 2 ≤ b.nMass) (hc : ∀ m < b.nMass, b.centers m = c0 + m * d)
    {p : ℕ} (hp : p ≤ eb * (b.nMass - 1)) : gridMass b eb p = c0 + p * (d / eb) := by
  have hebK : (eb : K) ≠ 0 := Nat.cast_ne_zero.2 (by omega)
  have hnK : ((b.nMass - 1 : ℕ) : K) ≠ 0 := Nat.cast_ne_zero.2 (by omega)
  have hdm := Nat.div_add_mod p eb
  have hlt : p / eb < b.nMass := by
    have : p / eb ≤ b.nMass - 1 := by
      rw [Nat.div_le_iff_le_mul_add_pred heb]
      omega
    omega
  have hpK : (p : K) = eb * ((p / eb : ℕ) : K) + ((p % eb : ℕ) : K) := by
    conv_lhs => rw [← hdm]
    push_cast
    rfl
  by_cases h : p % eb = 0
  · have e : p = eb * (p / eb) := by omega
    rw [hpK, h]
    rw [show gridMass b eb p = b.centers (p / eb) by unfold gridMass gridIdx; rw [if_pos h], hc _ hlt]
    push_cast
    field_simp
    ring
  · rw [show gridMass b eb p = b.centers (p / eb) + ((p % eb : ℕ) : K) * ((b.centers (b.nMass - 1) - b.centers 0) / ((b.nMass - 1 : ℕ) : K) / (eb : K)) by
      unfold gridMass gridIdx; rw [if_neg h], hc _ hlt, hc _ (by omega), hc 0 (by omega), hpK]
    push_cast
    field_simp
    ring

/-! ### plots of a wave -/

theorem waveData_eq (lowest : K) (b : Bin K) (w : ℕ) :
    (waveData lowest b w).1 = (List.range b.nMass).foldl (fun s m => addPoint (!zeroWave b.val b.nWaves m w) m
        ⟨b.centers m, (b.val.int m w).1, halfBin b, (b.val.int m w).2⟩ s) (0, []) ∧
      (b.hasSys = true → (waveData lowest b w).2.1 = (List.range b.nMass).foldl (fun s m => addPoint (!zeroWave b.sys b.nWaves m w) m
        (band (b.centers m) (halfBin b) (b.sys.int m w)) s) (0, [])) := by
  unfold waveData
  have key : ∀ l : List ℕ, ∀ s : (ℕ × Graph K) × (ℕ × Graph K) × K,
      (l.foldl (fun s m =>
        (addPoint (!zeroWave b.val b.nWaves m w) m ⟨b.centers m, (b.val.int m w).1, halfBin b, (b.val.int m w).2⟩ s.1,
          if b.hasSys then addPoint (!zeroWave b.sys b.nWaves m w) m (band (b.centers m) (halfBin b) (b.sys.int m w)) s.2.1 else s.2.1,
          if b.hasSys && !zeroWave b.sys b.nWaves m w then
            max (if !zeroWave b.val b.nWaves m w then max s.2.2 ((b.val.int m w).1 + (b.val.int m w).2) else s.2.2) (b.sys.int m w).2
          else if !zeroWave b.val b.nWaves m w then max s.2.2 ((b.val.int m w).1 + (b.val.int m w).2) else s.2.2)) s).1 =
        l.foldl (fun s m => addPoint (!zeroWave b.val b.nWaves m w) m
          ⟨b.centers m, (b.val.int m w).1, halfBin b, (b.val.int m w).2⟩ s) s.1 ∧
      (b.hasSys = true → (l.foldl (fun s m =>
        (addPoint (!zeroWave b.val b.nWaves m w) m ⟨b.centers m, (b.val.int m w).1, halfBin b, (b.val.int m w).2⟩ s.1,
          if b.hasSys then addPoint (!zeroWave b.sys b.nWaves m w) m (band (b.centers m) (halfBin b) (b.sys.int m w)) s.2.1 else s.2.1,
          if b.hasSys && !zeroWave b.sys b.nWaves m w then
            max (if !zeroWave b.val b.nWaves m w then max s.2.2 ((b.val.int m w).1 + (b.val.int m w).2) else s.2.2) (b.sys.int m w).2
          else if !zeroWave b.val b.nWaves m w then max s.2.2 ((b.val.int m w).1 + (b.val.int m w).2) else s.2.2)) s).2.1 =
        l.foldl (fun s m => addPoint (!zeroWave b.sys b.nWaves m w) m
          (band (b.centers m) (halfBin b) (b.sys.int m w)) s) s.2.1) := by
    intro l
    induction l with
    | nil => exact fun s => ⟨rfl, fun _ => rfl⟩
    | cons m l ih =>
      intro s
      simp only [List.foldl_cons]
      obtain ⟨h1, h2⟩ := ih (addPoint (!zeroWave b.val b.nWaves m w) m ⟨b.centers m, (b.val.int m w).1, halfBin b, (b.val.int m w).2⟩ s.1,
          if b.hasSys then addPoint (!zeroWave b.sys b.nWaves m w) m (band (b.centers m) (halfBin b) (b.sys.int m w)) s.2.1 else s.2.1,
          if b.hasSys && !zeroWave b.sys b.nWaves m w then
            max (if !zeroWave b.val b.nWaves m w then max s.2.2 ((b.val.int m w).1 + (b.val.int m w).2) else s.2.2) (b.sys.int m w).2
          else if !zeroWave b.val b.nWaves m w then max s.2.2 ((b.val.int m w).1 + (b.val.int m w).2) else s.2.2)
      exact ⟨h1, fun hs => by rw [h2 hs]; simp only [hs, if_true]⟩
  exact key _ _

/-- what the height of the plot is computed from. -/
def heights (b : Bin K) (c : Curves K) (first last eb w : ℕ) : List K :=
  ((List.range b.nMass).flatMap fun m =>
    (if zeroWave b.val b.nWaves m w then [] else [(b.val.int m w).1 + (b.val.int m w).2]) ++
      if b.hasSys && !zeroWave b.sys b.nWaves m w then [(b.sys.int m w).2] else []) ++
    (c.int w :: c.comps w).flatMap fun f => (curve b eb first last f).map (·.y)

theorem foldl_max_map {α : Type} (f : α → K) : ∀ (l : List α) (x : K), l.foldl (fun mx p => max mx (f p)) x = (l.map f).foldl max x
  | [], _ => rfl
  | a :: l, x => by rw [List.foldl_cons, List.map_cons, List.foldl_cons, foldl_max_map f l]

theorem maxIE_eq (lowest : K) (b : Bin K) (c : Curves K) (first last eb w : ℕ) :
    (curve b eb first last (c.int w) :: (c.comps w).map (curve b eb first last)).foldl (fun mx g => g.foldl (fun mx p => max mx p.y) mx)
      (waveData lowest b w).2.2 = (heights b c first last eb w).foldl max lowest := by
  unfold heights
  rw [List.foldl_append]
  have h1 : (waveData lowest b w).2.2 = ((List.range b.nMass).flatMap fun m =>
      (if zeroWave b.val b.nWaves m w then [] else [(b.val.int m w).1 + (b.val.int m w).2]) ++
        if b.hasSys && !zeroWave b.sys b.nWaves m w then [(b.sys.int m w).2] else []).foldl max lowest := by
    unfold waveData
    have key : ∀ (l : List ℕ) (s : (ℕ × Graph K) × (ℕ × Graph K) × K),
        (l.foldl (fun s m =>
          (addPoint (!zeroWave b.val b.nWaves m w) m ⟨b.centers m, (b.val.int m w).1, halfBin b, (b.val.int m w).2⟩ s.1,
            if b.hasSys then addPoint (!zeroWave b.sys b.nWaves m w) m (band (b.centers m) (halfBin b) (b.sys.int m w)) s.2.1 else s.2.1,
            if b.hasSys && !zeroWave b.sys b.nWaves m w then
              max (if !zeroWave b.val b.nWaves m w then max s.2.2 ((b.val.int m w).1 + (b.val.int m w).2) else s.2.2) (b.sys.int m w).2
            else if !zeroWave b.val b.nWaves m w then max s.2.2 ((b.val.int m w).1 + (b.val.int m w).2) else s.2.2)) s).2.2 =
          (l.flatMap fun m => (if zeroWave b.val b.nWaves m w then [] else [(b.val.int m w).1 + (b.val.int m w).2]) ++
            if b.hasSys && !zeroWave b.sys b.nWaves m w then [(b.sys.int m w).2] else []).foldl max s.2.2 := by
      intro l
      induction l with
      | nil => exact fun s => rfl
      | cons m l ih =>
        intro s
        rw [List.foldl_cons, ih, List.flatMap_cons, List.foldl_append]
        congr 1
        cases zeroWave b.val b.nWaves m w <;> cases b.hasSys <;> cases zeroWave b.sys b.nWaves m w <;> rfl
    exact key _ _
  rw [h1]
  generalize ((List.range b.nMass).flatMap fun m =>
      (if zeroWave b.val b.nWaves m w then [] else [(b.val.int m w).1 + (b.val.int m w).2]) ++
        if b.hasSys && !zeroWave b.sys b.nWaves m w then [(b.sys.int m w).2] else []).foldl max lowest = x
  have h2 : ∀ (l : List (K → Option ℕ → K)) (x : K),
      (l.map (curve b eb first last)).foldl (fun mx g => g.foldl (fun mx p => max mx p.y) mx) x =
        (l.flatMap fun f => (curve b eb first last f).map (·.y)).foldl max x := by
    intro l
    induction l with
    | nil => exact fun _ => rfl
    | cons f l ih =>
      intro x
      rw [List.map_cons, List.foldl_cons, ih, List.flatMap_cons, List.foldl_append, foldl_max_map (fun p : Pt K => p.y)]
  exact h2 (c.int w :: c.comps w) x

theorem setPoint_lt (g : Graph K) {i : ℕ} {p : Pt K} (h : g[i]? = some p) (x y : K) : setPoint g i x y = g.set i { p with x := x, y := y } := by
  unfold setPoint
  have hi : i < g.length := (List.getElem?_eq_some_iff.1 h).1
  rw [if_pos hi, List.modify_eq_set_getElem?, h]
  rfl

theorem scale_eq (f : K → K) : ∀ (todo done : Graph K),
    (List.range' done.length todo.length).foldl (scalePoint f) (done ++ todo) = done ++ todo.map fun p => { p with y := f p.y } := by
  intro todo
  induction todo with
  | nil => intro done; simp
  | cons p t ih =>
    intro done
    have hp : (done ++ p :: t)[done.length]? = some p := by simp
    rw [List.length_cons, List.range'_succ, List.foldl_cons]
    rw [show scalePoint f (done ++ p :: t) done.length = setPoint (done ++ p :: t) done.length p.x (f p.y) by unfold scalePoint; rw [hp], setPoint_lt _ hp]
    have h1 : (done ++ p :: t).set done.length { p with x := p.x, y := f p.y } = (done ++ [{ p with y := f p.y }]) ++ t := by simp
    rw [h1]
    have h2 := ih (done ++ [{ p with y := f p.y }])
    rw [List.length_append, List.length_singleton] at h2
    rw [h2]
    simp

/-- **C99.** The plot of a wave: the results and the systematics of the mass bins that have them, the curves in their range, and the phase space
in all mass bins scaled by the heights of the others. -/
theorem wave_spec (lowest : K) (b : Bin K) (c : Curves K) (rangePlotting : Bool) {eb w : ℕ} (hn : b.nMass ≠ 0) (heb : eb ≠ 0) :
    ∃ r, createPlotsWave lowest b c rangePlotting eb w = .ok r ∧
      ShowsBins b.nMass (fun m => HasResult b.val b.nWaves m w) (fun m => ⟨b.centers m, (b.val.int m w).1, halfBin b, (b.val.int m w).2⟩) r.data ∧
      (b.hasSys = true → ∃ g, r.sys = some g ∧ ShowsBins b.nMass (fun m => HasResult b.sys b.nWaves m w)
        (fun m => ⟨b.centers m, ((b.sys.int m w).2 + (b.sys.int m w).1) / 2, halfBin b, ((b.sys.int m w).2 - (b.sys.int m w).1) / 2⟩) g) ∧
      (b.hasSys = false → r.sys = none) ∧
      IsCurve b eb (firstPoint b rangePlotting eb w w) (lastPoint b rangePlotting eb w w) (fun p => c.int w (gridMass b eb p) (gridIdx eb p)) r.fit ∧
      List.Forall₂ (fun f g => IsCurve b eb (firstPoint b rangePlotting eb w w) (lastPoint b rangePlotting eb w w)
        (fun p => f (gridMass b eb p) (gridIdx eb p)) g) (c.comps w) r.comps ∧
      IsCurve b eb 0 (eb * (b.nMass - 1)) (fun p => c.ps w (gridMass b eb p) (gridIdx eb p) * (1 / 2) *
          (heights b c (firstPoint b rangePlotting eb w w) (lastPoint b rangePlotting eb w w) eb w).foldl max lowest /
          ((List.range (eb * (b.nMass - 1) + 1)).map fun p => c.ps w (gridMass b eb p) (gridIdx eb p)).foldl max lowest) r.ps := by
  unfold createPlotsWave
  rw [if_neg (not_or.2 ⟨hn, heb⟩)]
  dsimp only
  refine ⟨_, rfl, ?_, ?_, ?_, ?_, ?_, ?_⟩
  · dsimp only
    rw [(waveData_eq lowest b w).1, loop_inv]
    exact shows_filter _ _ _ _ fun m => by rw [Bool.not_eq_true', zeroWave_iff]
  · intro hs
    dsimp only
    rw [if_pos hs]
    refine ⟨_, rfl, ?_⟩
    rw [(waveData_eq lowest b w).2 hs, loop_inv]
    exact shows_filter _ _ _ _ fun m => by rw [Bool.not_eq_true', zeroWave_iff]
  · intro hs
    dsimp only
    rw [if_neg (by simp [hs])]
  · exact curve_spec _ _ _ _ _
  · dsimp only
    rw [List.forall₂_map_right_iff]
    exact List.forall₂_same.2 fun f _ => curve_spec _ _ _ _ _
  · dsimp only
    have h := scale_eq (fun y => y * (1 / 2) * (curve b eb (firstPoint b rangePlotting eb w w) (lastPoint b rangePlotting eb w w) (c.int w) ::
        (c.comps w).map (curve b eb (firstPoint b rangePlotting eb w w) (lastPoint b rangePlotting eb w w))).foldl
          (fun mx g => g.foldl (fun mx p => max mx p.y) mx) (waveData lowest b w).2.2 /
        (curve b eb 0 (eb * (b.nMass - 1)) (c.ps w)).foldl (fun mx p => max mx p.y) lowest) (curve b eb 0 (eb * (b.nMass - 1)) (c.ps w)) []
    rw [List.length_nil, List.nil_append, List.nil_append, ← List.range_eq_range'] at h
    rw [h, maxIE_eq, foldl_max_map (fun p : Pt K => p.y), curve_eq b eb 0, List.map_map, List.map_map, Nat.sub_zero, ← List.range_eq_range']
    have h2 := isCurve_map b eb 0 (eb * (b.nMass - 1)) (fun p => c.ps w (gridMass b eb p) (gridIdx eb p) * (1 / 2) *
          (heights b c (firstPoint b rangePlotting eb w w) (lastPoint b rangePlotting eb w w) eb w).foldl max lowest /
          ((List.range (eb * (b.nMass - 1) + 1)).map fun p => c.ps w (gridMass b eb p) (gridIdx eb p)).foldl max lowest)
    rw [Nat.sub_zero, ← List.range_eq_range'] at h2
    exact h2

theorem foldl_max_le {l : List K} {x : K} : x ≤ l.foldl max x ∧ (∀ y ∈ l, y ≤ l.foldl max x) ∧ (l.foldl max x = x ∨ l.foldl max x ∈ l) := by
  induction l generalizing x with
  | nil => simp
  | cons a l ih =>
    obtain ⟨h1, h2, h3⟩ := @ih (max x a)
    rw [List.foldl_cons]
    refine ⟨le_trans (le_max_left x a) h1, ?_, ?_⟩
    · intro y hy
      rcases List.mem_cons.1 hy with rfl | hy
      · exact le_trans (le_max_right x y) h1
      · exact h2 y hy
    · rcases h3 with h | h
      · rcases max_choice x a with h' | h'
        · exact Or.inl (h.trans h')
        · exact Or.inr (by rw [h, h']; exact List.mem_cons_self)
      · exact Or.inr (List.mem_cons_of_mem _ h)

/-- **C99.** The phase space is drawn to half of the height: no point is higher, and one is that high, if it is positive somewhere. -/
theorem ps_scaled [IsStrictOrderedRing K] (lowest maxIE : K) (l : List K) (hpos : ∃ y ∈ l, 0 < y) (hlow : lowest < 0) (hmax : 0 ≤ maxIE) :
    (∀ y ∈ l, y * (1 / 2) * maxIE / l.foldl max lowest ≤ maxIE / 2) ∧ ∃ y ∈ l, y * (1 / 2) * maxIE / l.foldl max lowest = maxIE / 2 := by
  obtain ⟨h1, h2, h3⟩ := @foldl_max_le K _ _ l lowest
  obtain ⟨y0, hy0, hp0⟩ := hpos
  have hM : 0 < l.foldl max lowest := lt_of_lt_of_le hp0 (h2 y0 hy0)
  refine ⟨fun y hy => ?_, ?_⟩
  · rw [div_le_iff₀ hM]
    have := mul_le_mul_of_nonneg_right (h2 y hy) hmax
    linarith
  · rcases h3 with h | h
    · rw [h] at hM
      exact absurd hM (not_lt.2 hlow.le)
    · refine ⟨_, h, ?_⟩
      rw [div_eq_iff hM.ne']
      ring

/-! ### phases -/

/-- the choice of the offset, one after the other. -/
def better (v ref : K) (s : ℤ × Option K) (k : ℤ) : ℤ × Option K :=
  match s.2 with
  | none => (k, some |v + k * 360 - ref|)
  | some d => if |v + k * 360 - ref| < d then (k, some |v + k * 360 - ref|) else s

theorem better_fold (v ref : K) : ∀ (l : List ℤ) (k0 : ℤ),
    ∃ k, (k = k0 ∨ k ∈ l) ∧ l.foldl (better v ref) (k0, some |v + k0 * 360 - ref|) = (k, some |v + k * 360 - ref|) ∧
      |v + k * 360 - ref| ≤ |v + k0 * 360 - ref| ∧ ∀ k' ∈ l, |v + k * 360 - ref| ≤ |v + k' * 360 - ref|
  | [], k0 => ⟨k0, Or.inl rfl, rfl, le_refl _, fun _ h => (by cases h)⟩
  | k1 :: l, k0 => by
    rw [List.foldl_cons]
    by_cases h : |v + k1 * 360 - ref| < |v + k0 * 360 - ref|
    · have e : better v ref (k0, some |v + k0 * 360 - ref|) k1 = (k1, some |v + k1 * 360 - ref|) := by
        unfold better; exact if_pos h
      obtain ⟨k, h1, h2, h3, h4⟩ := better_fold v ref l k1
      refine ⟨k, ?_, by rw [e, h2], le_trans h3 h.le, fun k' hk' => ?_⟩
      · rcases h1 with rfl | h1
        · exact Or.inr List.mem_cons_self
        · exact Or.inr (List.mem_cons_of_mem _ h1)
      · rcases List.mem_cons.1 hk' with rfl | hk'
        · exact h3
        · exact h4 k' hk'
    · have e : better v ref (k0, some |v + k0 * 360 - ref|) k1 = (k0, some |v + k0 * 360 - ref|) := by
        unfold better; exact if_neg h
      obtain ⟨k, h1, h2, h3, h4⟩ := better_fold v ref l k0
      refine ⟨k, ?_, by rw [e, h2], h3, fun k' hk' => ?_⟩
      · rcases h1 with rfl | h1
        · exact Or.inl rfl
        · exact Or.inr (List.mem_cons_of_mem _ h1)
      · rcases List.mem_cons.1 hk' with rfl | hk'
        · exact le_trans h3 (not_lt.1 h)
        · exact h4 k' hk'

theorem mem_offsets (k : ℤ) : k ∈ offsets ↔ -5 ≤ k ∧ k ≤ 5 := by
  unfold offsets
  simp only [List.mem_cons, List.not_mem_nil, or_false]
  omega

theorem bestOffs_spec (v ref : K) : bestOffs v ref ∈ offsets ∧ ∀ k ∈ offsets, |v + bestOffs v ref * 360 - ref| ≤ |v + k * 360 - ref| := by
  obtain ⟨k, h1, h2, h3, h4⟩ := better_fold v ref [-4, -3, -2, -1, 0, 1, 2, 3, 4, 5] (-5)
  have e : bestOffs v ref = k := by
    have : bestOffs v ref = ([-4, -3, -2, -1, 0, 1, 2, 3, 4, 5].foldl (better v ref) ((-5 : ℤ), some |v + ((-5 : ℤ) : K) * 360 - ref|)).1 := rfl
    rw [this, h2]
  rw [e]
  refine ⟨List.mem_cons.2 h1, fun k' hk' => ?_⟩
  rcases List.mem_cons.1 hk' with rfl | hk'
  · exact h3
  · exact h4 k' hk'

/-- **C99.** A phase is shifted by at most five turns as close as possible to its reference. -/
theorem near_spec (v ref : K) : Nearest v ref (near v ref) := by
  obtain ⟨h1, h2⟩ := bestOffs_spec v ref
  exact ⟨⟨bestOffs v ref, ((mem_offsets _).1 h1).1, ((mem_offsets _).1 h1).2, rfl⟩, fun k hk hk' => h2 k ((mem_offsets k).2 ⟨hk, hk'⟩)⟩

/-- **C99.** It ends up at most half a turn away if it starts at most five turns and a half away. -/
theorem near_half [IsStrictOrderedRing K] (v ref : K) (h : |v - ref| ≤ 1980) : |near v ref - ref| ≤ 180 := by
  have hb := (near_spec v ref).best
  obtain ⟨h1, h2⟩ := abs_le.1 h
  have get : ∀ k : ℤ, -5 ≤ k → k ≤ 5 → -180 ≤ v + k * 360 - ref → v + k * 360 - ref ≤ 180 → |near v ref - ref| ≤ 180 :=
    fun k hk hk' ha hb' => le_trans (hb k hk hk') (abs_le.2 ⟨ha, hb'⟩)
  have step : ∀ k : ℤ, -5 ≤ k → k ≤ 5 → ((k : ℤ) : K) * 360 - 180 ≤ ref - v → ref - v ≤ ((k : ℤ) : K) * 360 + 180 → |near v ref - ref| ≤ 180 := by
    intro k hk hk' ha hb'
    exact get k hk hk' (by linarith) (by linarith)
  by_cases c : ∃ k : ℤ, -5 ≤ k ∧ k ≤ 5 ∧ ((k : ℤ) : K) * 360 - 180 ≤ ref - v ∧ ref - v ≤ ((k : ℤ) : K) * 360 + 180
  · obtain ⟨k, a, b, d, e⟩ := c
    exact step k a b d e
  · exfalso
    push Not at c
    have up : ∀ k : ℤ, -5 ≤ k → k ≤ 5 → ((k : ℤ) : K) * 360 + 180 < ref - v := by
      intro k hk
      induction k, hk using Int.le_induction with
      | base => exact fun hk' => c (-5) (by norm_num) hk' (by push_cast; linarith)
      | succ k hk ih =>
        intro hk'
        have := ih (by omega)
        exact c (k + 1) (by omega) hk' (by push_cast; linarith)
    have := up 5 (by norm_num) (by norm_num)
    push_cast at this
    linarith

/-- **C99.** The phase that is less than half a turn from its reference is found, if it takes at most five turns. -/
theorem near_unique [IsStrictOrderedRing K] (v ref r : K) (k : ℤ) (hk : -5 ≤ k) (hk' : k ≤ 5) (hr : r = v + k * 360) (hd : |r - ref| < 180) :
    near v ref = r := by
  obtain ⟨⟨k2, h1, h2, h3⟩, hb⟩ := near_spec v ref
  have h4 := lt_of_le_of_lt (hb k hk hk') (by rwa [← hr])
  obtain ⟨a1, a2⟩ := abs_lt.1 h4
  obtain ⟨b1, b2⟩ := abs_lt.1 hd
  have h5 : k2 = k := by
    by_contra hne
    rcases lt_or_gt_of_ne hne with hlt | hlt
    · have : ((k2 : ℤ) : K) + 1 ≤ k := by exact_mod_cast hlt
      rw [h3] at a1
      rw [hr] at b2
      linarith
    · have : ((k : ℤ) : K) + 1 ≤ k2 := by exact_mod_cast hlt
      rw [h3] at a2
      rw [hr] at b1
      linarith
  rw [h3, hr, h5]

/-- the phases of the curve. -/
def unwrapped (v : ℕ → K) : ℕ → K
  | 0 => v 0
  | p + 1 => near (v (p + 1)) (unwrapped v p)

theorem phaseAll_eq (b : Bin K) (eb : ℕ) (f : K → Option ℕ → K) :
    phaseAll b eb f = (List.range (eb * (b.nMass - 1) + 1)).map fun p =>
      ⟨gridMass b eb p, unwrapped (fun p => f (gridMass b eb p) (gridIdx eb p)) p, some 0, 0⟩ := by
  unfold phaseAll
  generalize eb * (b.nMass - 1) + 1 = n
  induction n with
  | zero => rfl
  | succ n ih =>
    rw [List.range_succ, List.foldl_append, ih, List.foldl_cons, List.foldl_nil, List.map_append]
    dsimp only
    have hl : n = ((List.range n).map fun p => (⟨gridMass b eb p, unwrapped (fun p => f (gridMass b eb p) (gridIdx eb p)) p, some 0, 0⟩ : Pt K)).length := by
      simp
    match n with
    | 0 => rfl
    | k + 1 =>
      rw [if_pos (Nat.succ_ne_zero k)]
      have hg : (((List.range (k + 1)).map fun p => (⟨gridMass b eb p, unwrapped (fun p => f (gridMass b eb p) (gridIdx eb p)) p, some 0, 0⟩ : Pt K))[k + 1 - 1]?.map (·.y)).getD 0 =
          unwrapped (fun p => f (gridMass b eb p) (gridIdx eb p)) k := by
        simp
      rw [hg]
      rw [setPoint_at _ hl.symm]
      rfl

theorem unwrapped_angle (v : ℕ → K) : ∀ p, SameAngle (unwrapped v p) (v p)
  | 0 => ⟨0, by simp [unwrapped]⟩
  | p + 1 => by
    obtain ⟨⟨k, _, _, h⟩, _⟩ := near_spec (v (p + 1)) (unwrapped v p)
    exact ⟨k, h⟩

/-- **C99.** Every phase of the curve is the phase of the model up to whole turns, and consecutive ones are at most half a turn apart as long as the
curve stays within five turns. -/
theorem phase_steps [IsStrictOrderedRing K] (v : ℕ → K) (hv : ∀ p, |v p| ≤ 180) (p : ℕ) :
    SameAngle (unwrapped v p) (v p) ∧ (|unwrapped v p| ≤ 1800 → |unwrapped v (p + 1) - unwrapped v p| ≤ 180) := by
  refine ⟨unwrapped_angle v p, fun h => near_half _ _ ?_⟩
  obtain ⟨a, b⟩ := abs_le.1 h
  obtain ⟨c, d⟩ := abs_le.1 (hv (p + 1))
  exact abs_le.2 ⟨by linarith, by linarith⟩

/-- **C99.** The curve is the continuous phase: if `g` starts at the phase of the model, agrees with it up to at most five turns, and its steps are
smaller than half a turn, then `g` is drawn. -/
theorem phase_continuous [IsStrictOrderedRing K] (v g : ℕ → K) (n : ℕ) (h0 : g 0 = v 0)
    (hg : ∀ p ≤ n, ∃ k : ℤ, -5 ≤ k ∧ k ≤ 5 ∧ g p = v p + k * 360) (hs : ∀ p < n, |g (p + 1) - g p| < 180) :
    ∀ p ≤ n, unwrapped v p = g p
  | 0, _ => h0.symm
  | p + 1, hp => by
    obtain ⟨k, h1, h2, h3⟩ := hg (p + 1) hp
    have ih := phase_continuous v g n h0 hg hs p (by omega)
    exact near_unique _ _ _ k h1 h2 h3 (by rw [ih]; exact hs p (by omega))

/-! ### plots of a pair -/

/-- the number of shown mass bins before `m`. -/
def before (show? : ℕ → Bool) (m : ℕ) : ℕ := ((List.range m).filter show?).length

theorem before_le (show? : ℕ → Bool) (m : ℕ) : before show? m ≤ m := by
  have := List.length_filter_le show? (List.range m)
  rwa [List.length_range] at this

theorem filter_split (show? : ℕ → Bool) {n m : ℕ} (hm : m < n) (hs : show? m = true) :
    ∃ r, (List.range n).filter show? = (List.range m).filter show? ++ m :: r ∧ ∀ k ∈ r, m < k := by
  obtain ⟨d, rfl⟩ : ∃ d, n = m + (1 + d) := ⟨n - m - 1, by omega⟩
  refine ⟨((List.range d).map fun k => m + 1 + k).filter show?, ?_, fun k hk => ?_⟩
  · rw [List.range_add, List.filter_append]
    congr 1
    rw [Nat.add_comm 1 d, List.range_succ_eq_map, List.map_cons, List.map_map, Nat.add_zero, List.filter_cons, if_pos hs]
    congr 2
    apply List.map_congr_left
    intro a _
    simp only [Function.comp, Nat.succ_eq_add_one]
    omega
  · obtain ⟨h1, _⟩ := List.mem_filter.1 hk
    obtain ⟨a, _, rfl⟩ := List.mem_map.1 h1
    omega

theorem map_at (show? : ℕ → Bool) (f : ℕ → Pt K) {n m : ℕ} (hm : m < n) (hs : show? m = true) :
    (((List.range n).filter show?).map f)[before show? m]? = some (f m) := by
  obtain ⟨r, hr, _⟩ := filter_split show? hm hs
  rw [hr, List.map_append, List.getElem?_append_right (by simp [before])]
  simp [before]

theorem map_set (show? : ℕ → Bool) (f g : ℕ → Pt K) {n m : ℕ} (hm : m < n) (hs : show? m = true) (hg : ∀ k, k ≠ m → g k = f k) :
    (((List.range n).filter show?).map f).set (before show? m) (g m) = ((List.range n).filter show?).map g := by
  obtain ⟨r, hr, hr'⟩ := filter_split show? hm hs
  rw [hr, List.map_append, List.map_append, List.map_cons, List.map_cons, List.set_append_right _ _ (by simp [before])]
  have e : before show? m - (((List.range m).filter show?).map f).length = 0 := by simp [before]
  rw [e, List.set_cons_zero]
  congr 1
  · apply List.map_congr_left
    intro k hk
    have := List.mem_range.1 (List.mem_filter.1 hk).1
    exact (hg k (by omega)).symm
  · congr 1
    apply List.map_congr_left
    intro k hk
    exact (hg k (by have := hr' k hk; omega)).symm

/-- the phases of the mass bins that were already passed are next to the curve. -/
def rectified (eb k : ℕ) (val : ℕ → K) (ref : ℕ → K) (pt : ℕ → Pt K) (m : ℕ) : Pt K :=
  if eb * m < k then { pt m with y := (pt m).y + bestOffs (val m) (ref (eb * m)) * 360 } else pt m

theorem rectifyBin_eq (hasSys : Bool) (show? : ℕ → Bool) (n eb : ℕ) (heb : 0 < eb) (ref : ℕ → K) (pt spt : ℕ → Pt K) (m : ℕ) (hm : m < n) :
    rectifyBin hasSys (show? m) m (ref (eb * m)) (m - before show? m,
        ((List.range n).filter show?).map (rectified eb (eb * m) (fun m => (pt m).y) ref pt),
        if hasSys then ((List.range n).filter show?).map (rectified eb (eb * m) (fun m => (pt m).y) ref spt) else []) =
      (m + 1 - before show? (m + 1),
        ((List.range n).filter show?).map (rectified eb (eb * m + 1) (fun m => (pt m).y) ref pt),
        if hasSys then ((List.range n).filter show?).map (rectified eb (eb * m + 1) (fun m => (pt m).y) ref spt) else []) := by
  have hb := before_le show? m
  have hother : ∀ (q : ℕ → Pt K) k, k ≠ m → rectified eb (eb * m + 1) (fun m => (pt m).y) ref q k = rectified eb (eb * m) (fun m => (pt m).y) ref q k := by
    intro q k hk
    unfold rectified
    have : eb * k ≠ eb * m := fun h => hk (Nat.eq_of_mul_eq_mul_left heb h)
    refine ite_congr (propext ⟨fun h => by omega, fun h => by omega⟩) (fun _ => rfl) (fun _ => rfl)
  by_cases h : show? m = true
  · have hb1 : before show? (m + 1) = before show? m + 1 := by
      unfold before
      rw [List.range_succ, List.filter_append]
      simp [h]
    have hi : m - (m - before show? m) = before show? m := by omega
    have hself : ∀ q : ℕ → Pt K, rectified eb (eb * m) (fun m => (pt m).y) ref q m = q m := fun q => by unfold rectified; exact if_neg (lt_irrefl _)
    have hnew : ∀ q : ℕ → Pt K, rectified eb (eb * m + 1) (fun m => (pt m).y) ref q m =
        { q m with y := (q m).y + bestOffs (pt m).y (ref (eb * m)) * 360 } := fun q => by unfold rectified; exact if_pos (Nat.lt_succ_self _)
    have hat : ∀ q : ℕ → Pt K, (((List.range n).filter show?).map (rectified eb (eb * m) (fun m => (pt m).y) ref q))[before show? m]? = some (q m) :=
      fun q => by rw [map_at show? _ hm h, hself]
    have hset : ∀ q : ℕ → Pt K, (((List.range n).filter show?).map (rectified eb (eb * m) (fun m => (pt m).y) ref q)).set (before show? m)
        { q m with y := (q m).y + bestOffs (pt m).y (ref (eb * m)) * 360 } =
        ((List.range n).filter show?).map (rectified eb (eb * m + 1) (fun m => (pt m).y) ref q) := fun q => by
      rw [← hnew q, map_set show? _ _ hm h (hother q)]
    unfold rectifyBin
    rw [if_pos h]
    dsimp only
    rw [hi, hat pt]
    dsimp only
    rw [setPoint_lt _ (hat pt), hset pt, hb1]
    cases hasSys
    · rw [if_neg (by simp), if_neg (by simp), if_neg (by simp)]
      exact Prod.ext (by dsimp only; omega) rfl
    · rw [if_pos rfl, if_pos rfl, if_pos rfl, hat spt]
      simp only [Option.map_some, Option.getD_some]
      rw [setPoint_lt _ (hat spt), hset spt]
      exact Prod.ext (by dsimp only; omega) rfl
  · have h' : show? m = false := by simpa using h
    have hb1 : before show? (m + 1) = before show? m := by
      unfold before
      rw [List.range_succ, List.filter_append]
      simp [h']
    have hmap : ∀ q : ℕ → Pt K, ((List.range n).filter show?).map (rectified eb (eb * m) (fun m => (pt m).y) ref q) =
        ((List.range n).filter show?).map (rectified eb (eb * m + 1) (fun m => (pt m).y) ref q) := by
      intro q
      apply List.map_congr_left
      intro k hk
      refine (hother q k ?_).symm
      rintro rfl
      rw [(List.mem_filter.1 hk).2] at h'
      cases h'
    unfold rectifyBin
    rw [h', if_neg (by simp), hmap pt, hmap spt, hb1]
    exact Prod.ext (by dsimp only; omega) rfl

theorem rectified_step (eb : ℕ) (val ref : ℕ → K) (pt : ℕ → Pt K) (p : ℕ) (hp : ∀ m, p ≠ eb * m) :
    rectified eb (p + 1) val ref pt = rectified eb p val ref pt := by
  funext m
  unfold rectified
  have := hp m
  refine ite_congr (propext ⟨fun h => by omega, fun h => by omega⟩) (fun _ => rfl) (fun _ => rfl)

theorem rectify_eq (b : Bin K) {eb : ℕ} (heb : 0 < eb) (first last i j : ℕ) (all : Graph K) (pt spt : ℕ → Pt K) (hn : b.nMass ≠ 0) :
    rectify b eb first last i j all (((List.range b.nMass).filter (showPair b i j)).map pt)
        (if b.hasSys then ((List.range b.nMass).filter (showPair b i j)).map spt else []) =
      ((b.nMass - before (showPair b i j) b.nMass,
        ((List.range b.nMass).filter (showPair b i j)).map
          (rectified eb (eb * (b.nMass - 1) + 1) (fun m => (pt m).y) (fun p => (all[p]?.map (·.y)).getD 0) pt),
        if b.hasSys then ((List.range b.nMass).filter (showPair b i j)).map
          (rectified eb (eb * (b.nMass - 1) + 1) (fun m => (pt m).y) (fun p => (all[p]?.map (·.y)).getD 0) spt) else []),
      (List.range' first (min (eb * (b.nMass - 1) + 1) (last + 1) - first)).map fun p => ⟨gridMass b eb p, (all[p]?.map (·.y)).getD 0, some 0, 0⟩) := by
  have key : ∀ (ref : ℕ → K) k, k ≤ eb * (b.nMass - 1) + 1 →
      (List.range k).foldl (fun s p =>
        let valueFit := ref p
        (match gridIdx eb p with
          | some m => rectifyBin b.hasSys (showPair b i j m) m valueFit s.1
          | none => s.1,
         if p < first ∨ last < p then s.2 else setPoint s.2 (p - first) (gridMass b eb p) valueFit))
        ((0, ((List.range b.nMass).filter (showPair b i j)).map pt,
          if b.hasSys then ((List.range b.nMass).filter (showPair b i j)).map spt else []), []) =
      (((k + eb - 1) / eb - before (showPair b i j) ((k + eb - 1) / eb),
        ((List.range b.nMass).filter (showPair b i j)).map (rectified eb k (fun m => (pt m).y) ref pt),
        if b.hasSys then ((List.range b.nMass).filter (showPair b i j)).map
          (rectified eb k (fun m => (pt m).y) ref spt) else []),
      (List.range' first (min k (last + 1) - first)).map fun p => ⟨gridMass b eb p, ref p, some 0, 0⟩) := by
    intro ref k
    induction k with
    | zero =>
      intro _
      have h0 : ∀ q : ℕ → Pt K, rectified eb 0 (fun m => (pt m).y) ref q = q := by
        intro q; funext m; unfold rectified; exact if_neg (Nat.not_lt_zero _)
      have h1 : (0 + eb - 1) / eb = 0 := Nat.div_eq_of_lt (by omega)
      rw [h0, h0, h1]
      simp [before]
    | succ p ih =>
      intro hp
      rw [List.range_succ, List.foldl_append, ih (by omega), List.foldl_cons, List.foldl_nil]
      dsimp only
      refine Prod.ext ?_ ?_
      · dsimp only
        by_cases hmod : p % eb = 0
        · obtain ⟨m, rfl⟩ : ∃ m, p = eb * m := ⟨p / eb, by have := Nat.div_add_mod p eb; omega⟩
          have hm : m < b.nMass := by
            have : eb * m ≤ eb * (b.nMass - 1) := by omega
            have := Nat.le_of_mul_le_mul_left this heb
            omega
          rw [(grid_center b heb m).1]
          dsimp only
          have e1 : (eb * m + eb - 1) / eb = m := by
            rw [show eb * m + eb - 1 = (eb - 1) + eb * m by omega, Nat.add_mul_div_left _ _ heb, Nat.div_eq_of_lt (by omega), Nat.zero_add]
          have e2 : (eb * m + 1 + eb - 1) / eb = m + 1 := by
            rw [show eb * m + 1 + eb - 1 = 0 + eb * (m + 1) by rw [Nat.mul_succ]; omega, Nat.add_mul_div_left _ _ heb, Nat.zero_div, Nat.zero_add]
          rw [e1, e2]
          exact rectifyBin_eq b.hasSys (showPair b i j) b.nMass eb heb ref pt spt m hm
        · have hg : gridIdx eb p = none := by unfold gridIdx; exact if_neg hmod
          rw [hg]
          dsimp only
          have hne : ∀ m, p ≠ eb * m := fun m h => hmod (by rw [h]; exact Nat.mul_mod_right eb m)
          rw [rectified_step _ _ _ _ _ hne, rectified_step _ _ _ _ _ hne]
          have e : (p + 1 + eb - 1) / eb = (p + eb - 1) / eb := by
            have hd := Nat.div_add_mod p eb
            have hlt := Nat.mod_lt p heb
            generalize p / eb = q at hd
            generalize p % eb = r at hd hmod hlt
            subst hd
            rw [show eb * q + r + 1 + eb - 1 = r + eb * (q + 1) by rw [Nat.mul_succ]; omega,
              show eb * q + r + eb - 1 = (r - 1) + eb * (q + 1) by rw [Nat.mul_succ]; omega, Nat.add_mul_div_left _ _ heb,
              Nat.add_mul_div_left _ _ heb, Nat.div_eq_of_lt hlt, Nat.div_eq_of_lt (by omega)]
          rw [e]
      · dsimp only
        by_cases hr : p < first ∨ last < p
        · rw [if_pos hr]
          congr 2
          omega
        · rw [if_neg hr, setPoint_at _ (by simp; omega)]
          have e : min (p + 1) (last + 1) - first = (min p (last + 1) - first) + 1 := by omega
          rw [e, List.range'_concat, List.map_append]
          congr 1
          simp only [List.map_cons, List.map_nil]
          have : first + 1 * (min p (last + 1) - first) = p := by omega
          rw [this]
  have h := key (fun p => (all[p]?.map (·.y)).getD 0) (eb * (b.nMass - 1) + 1) (le_refl _)
  have e : (eb * (b.nMass - 1) + 1 + eb - 1) / eb = b.nMass := by
    rw [show eb * (b.nMass - 1) + 1 + eb - 1 = 0 + eb * (b.nMass - 1 + 1) by rw [Nat.mul_succ]; omega, Nat.add_mul_div_left _ _ heb, Nat.zero_div]
    omega
  rw [e] at h
  exact h

/-- **C99.** The plots of a pair of waves: the elements of the spin-density matrix and the phases in the mass bins where both waves have results, the
phases shifted next to the curve; the systematics in the same mass bins shifted with the phases. -/
theorem pair_spec (b : Bin K) (c : Curves K) (rangePlotting : Bool) {eb i j : ℕ} (hn : b.nMass ≠ 0) (heb : eb ≠ 0)
    (hlim : (b.limits i j).2 < b.nMass)
    (hsys : b.hasSys = true → ∀ m < b.nMass, showPairSys b i j m = showPair b i j m) :
    ∃ r, createPlotsWavePair b c rangePlotting eb i j = .ok r ∧
      let Both := fun m => HasResult b.val b.nWaves m i ∧ HasResult b.val b.nWaves m j
      let ref := unwrapped fun p => c.phase i j (gridMass b eb p) (gridIdx eb p)
      let first := firstPoint b rangePlotting eb i j
      let last := lastPoint b rangePlotting eb i j
      ShowsBins b.nMass Both (fun m => ⟨b.centers m, (b.val.re m i j).1, halfBin b, (b.val.re m i j).2⟩) r.re ∧
      ShowsBins b.nMass Both (fun m => ⟨b.centers m, (b.val.im m i j).1, halfBin b, (b.val.im m i j).2⟩) r.im ∧
      ShowsBins b.nMass Both (fun m => ⟨b.centers m, near (b.val.ph m i j).1 (ref (eb * m)), halfBin b, (b.val.ph m i j).2⟩) r.ph ∧
      (b.hasSys = true →
        ShowsBins b.nMass Both (fun m => band (b.centers m) (halfBin b) (b.sys.re m i j)) r.reSys ∧
        ShowsBins b.nMass Both (fun m => band (b.centers m) (halfBin b) (b.sys.im m i j)) r.imSys ∧
        ShowsBins b.nMass Both (fun m => ⟨b.centers m, ((b.sys.ph m i j).2 + (b.sys.ph m i j).1) / 2 +
          (near (b.val.ph m i j).1 (ref (eb * m)) - (b.val.ph m i j).1), halfBin b, ((b.sys.ph m i j).2 - (b.sys.ph m i j).1) / 2⟩) r.phSys) ∧
      IsCurve b eb first last (fun p => (c.elem i j (gridMass b eb p) (gridIdx eb p)).1) r.reFit ∧
      IsCurve b eb first last (fun p => (c.elem i j (gridMass b eb p) (gridIdx eb p)).2) r.imFit ∧
      IsCurve b eb first last ref r.phFit := by
  have heb' : 0 < eb := Nat.pos_of_ne_zero heb
  have hboth : ∀ m, showPair b i j m = true ↔ HasResult b.val b.nWaves m i ∧ HasResult b.val b.nWaves m j := by
    intro m
    unfold showPair
    rw [Bool.and_eq_true, Bool.not_eq_true', Bool.not_eq_true', zeroWave_iff, zeroWave_iff]
  have hfs : b.hasSys = true → (List.range b.nMass).filter (showPairSys b i j) = (List.range b.nMass).filter (showPair b i j) := fun hs =>
    List.filter_congr fun m hm => hsys hs m (List.mem_range.1 hm)
  have hlast : lastPoint b rangePlotting eb i j ≤ eb * (b.nMass - 1) := by
    unfold lastPoint
    by_cases h : rangePlotting = true
    · rw [if_pos h]
      exact Nat.mul_le_mul_left _ (by omega)
    · rw [if_neg h]
  have hget : ∀ p, p < eb * (b.nMass - 1) + 1 → (((phaseAll b eb (c.phase i j))[p]?.map (·.y)).getD 0) =
      unwrapped (fun p => c.phase i j (gridMass b eb p) (gridIdx eb p)) p := by
    intro p hp
    rw [phaseAll_eq, List.getElem?_map, List.getElem?_range hp]
    rfl
  unfold createPlotsWavePair
  rw [if_neg (not_or.2 ⟨hn, heb⟩)]
  dsimp only
  have hS : ∀ e : ℕ → ℕ → ℕ → K × K, (if b.hasSys then shownLoop b.nMass (showPairSys b i j) fun m => band (b.centers m) (halfBin b) (e m i j) else []) =
      if b.hasSys then ((List.range b.nMass).filter (showPair b i j)).map fun m => band (b.centers m) (halfBin b) (e m i j) else [] := by
    intro e
    by_cases h : b.hasSys = true
    · rw [if_pos h, if_pos h, shownLoop_eq, hfs h]
    · rw [if_neg h, if_neg h]
  rw [hS, hS, hS, shownLoop_eq, shownLoop_eq, shownLoop_eq, rectify_eq b heb' _ _ i j _ _ _ hn]
  refine ⟨_, rfl, ?_⟩
  dsimp only
  refine ⟨shows_filter _ _ _ _ hboth, shows_filter _ _ _ _ hboth, ?_, fun hs => ?_, curve_spec b eb _ _ fun x k => (c.elem i j x k).1, curve_spec b eb _ _ fun x k => (c.elem i j x k).2, ?_⟩
  · refine ⟨_, List.Pairwise.filter (showPair b i j) List.pairwise_lt_range, fun m => by rw [List.mem_filter, List.mem_range, hboth m], ?_⟩
    apply List.map_congr_left
    intro m hm
    have hm' := List.mem_range.1 (List.mem_filter.1 hm).1
    have hle : eb * m < eb * (b.nMass - 1) + 1 := Nat.lt_succ_of_le (Nat.mul_le_mul_left _ (by omega))
    unfold rectified
    rw [if_pos hle]
    dsimp only
    rw [hget _ hle]
    rfl
  · rw [if_pos hs, if_pos hs, if_pos hs]
    refine ⟨shows_filter _ _ _ _ hboth, shows_filter _ _ _ _ hboth, ?_⟩
    refine ⟨_, List.Pairwise.filter (showPair b i j) List.pairwise_lt_range, fun m => by rw [List.mem_filter, List.mem_range, hboth m], ?_⟩
    apply List.map_congr_left
    intro m hm
    have hm' := List.mem_range.1 (List.mem_filter.1 hm).1
    have hle : eb * m < eb * (b.nMass - 1) + 1 := Nat.lt_succ_of_le (Nat.mul_le_mul_left _ (by omega))
    unfold rectified
    rw [if_pos hle]
    dsimp only
    rw [hget _ hle]
    unfold band near
    congr 1
    ring
  · have e : min (eb * (b.nMass - 1) + 1) (lastPoint b rangePlotting eb i j + 1) = lastPoint b rangePlotting eb i j + 1 := by omega
    rw [e]
    have h2 := isCurve_map b eb (firstPoint b rangePlotting eb i j) (lastPoint b rangePlotting eb i j)
      (unwrapped fun p => c.phase i j (gridMass b eb p) (gridIdx eb p))
    have h3 : ((List.range' (firstPoint b rangePlotting eb i j) (lastPoint b rangePlotting eb i j + 1 - firstPoint b rangePlotting eb i j)).map fun p =>
        (⟨gridMass b eb p, ((phaseAll b eb (c.phase i j))[p]?.map (·.y)).getD 0, some 0, 0⟩ : Pt K)) =
        (List.range' (firstPoint b rangePlotting eb i j) (lastPoint b rangePlotting eb i j + 1 - firstPoint b rangePlotting eb i j)).map fun p =>
        ⟨gridMass b eb p, unwrapped (fun p => c.phase i j (gridMass b eb p) (gridIdx eb p)) p, some 0, 0⟩ := by
      apply List.map_congr_left
      intro p hp
      obtain ⟨h4, h5⟩ := List.mem_range'_1.1 hp
      rw [hget p (by omega)]
    rw [h3]
    exact h2

/-- **C99.** Whether the systematics of the second wave are there does not matter. -/
theorem pairSys_ignores (b : Bin K) (i j : ℕ) (sys : Elems K) (h : ∀ m, sys.int m i = b.sys.int m i ∧
    ∀ k, sys.re m i k = b.sys.re m i k ∧ sys.im m i k = b.sys.im m i k ∧ sys.ph m i k = b.sys.ph m i k) (m : ℕ) :
    showPairSys { b with sys := sys } i j m = showPairSys b i j m := by
  unfold showPairSys
  have : zeroWave sys b.nWaves m i = zeroWave b.sys b.nWaves m i := by
    unfold zeroWave
    rw [(h m).1]
    simp only [(h m).2]
  dsimp only
  rw [this]

/-! ### all plots -/

theorem zipIdx_mem {α : Type} (l : List α) (a : α) (k : ℕ) : (a, k) ∈ l.zipIdx ↔ l[k]? = some a := List.mem_zipIdx_iff_getElem?

/-- **C99.** Every wave of every bin is plotted, in the directory of its bin, which is the main one if there is only one bin. -/
theorem jobs_wave (nWaves : List ℕ) (fsmd : Option ℕ) (es em : Bool) (dir : Option ℕ) (bin w : ℕ) :
    Job.wave dir bin w ∈ createPlots nWaves fsmd es em ↔ (∃ n, nWaves[bin]? = some n ∧ w < n) ∧ dir = if nWaves.length = 1 then none else some bin := by
  unfold createPlots
  rw [List.mem_append, List.mem_append, List.mem_flatMap]
  have h1 : Job.wave dir bin w ∉ (if nWaves.length ≠ 1 ∧ es = true ∧ em = true then (List.range (nWaves.headD 0)).map Job.sum else []) := by
    split_ifs <;> simp
  have h2 : Job.wave dir bin w ∉ (match fsmd with | some k => if k = 1 ∧ es = true then [Job.fsmd none 0] else [] | none => []) := by
    cases fsmd with
    | none => simp
    | some k => dsimp only; split_ifs <;> simp
  constructor
  · rintro ((⟨⟨n, k⟩, hq, h⟩ | h) | h)
    · dsimp only at h
      rw [List.mem_append, List.mem_append] at h
      rcases h with (h | h) | h
      · obtain ⟨w', hw, e⟩ := List.mem_map.1 h
        injection e with e1 e2 e3
        subst e2 e3
        exact ⟨⟨n, (zipIdx_mem _ _ _).1 hq, List.mem_range.1 hw⟩, e1.symm⟩
      · obtain ⟨a, _, h⟩ := List.mem_flatMap.1 h
        obtain ⟨_, _, e⟩ := List.mem_map.1 h
        cases e
      · exfalso
        cases fsmd with
        | none => simp at h
        | some k => dsimp only at h; split_ifs at h <;> simp at h
    · exact absurd h h1
    · exact absurd h h2
  · rintro ⟨⟨n, hn, hw⟩, hd⟩
    refine Or.inl (Or.inl ⟨(n, bin), (zipIdx_mem _ _ _).2 hn, ?_⟩)
    dsimp only
    rw [List.mem_append, List.mem_append]
    exact Or.inl (Or.inl (List.mem_map.2 ⟨w, List.mem_range.2 hw, by rw [hd]⟩))

/-- **C99.** So is every pair of waves, once. -/
theorem jobs_pair (nWaves : List ℕ) (fsmd : Option ℕ) (es em : Bool) (dir : Option ℕ) (bin i j : ℕ) :
    Job.pair dir bin i j ∈ createPlots nWaves fsmd es em ↔
      (∃ n, nWaves[bin]? = some n ∧ i < j ∧ j < n) ∧ dir = if nWaves.length = 1 then none else some bin := by
  unfold createPlots
  rw [List.mem_append, List.mem_append, List.mem_flatMap]
  have h1 : Job.pair dir bin i j ∉ (if nWaves.length ≠ 1 ∧ es = true ∧ em = true then (List.range (nWaves.headD 0)).map Job.sum else []) := by
    split_ifs <;> simp
  have h2 : Job.pair dir bin i j ∉ (match fsmd with | some k => if k = 1 ∧ es = true then [Job.fsmd none 0] else [] | none => []) := by
    cases fsmd with
    | none => simp
    | some k => dsimp only; split_ifs <;> simp
  constructor
  · rintro ((⟨⟨n, k⟩, hq, h⟩ | h) | h)
    · dsimp only at h
      rw [List.mem_append, List.mem_append] at h
      rcases h with (h | h) | h
      · obtain ⟨_, _, e⟩ := List.mem_map.1 h
        cases e
      · obtain ⟨a, ha, h⟩ := List.mem_flatMap.1 h
        obtain ⟨c, hc, e⟩ := List.mem_map.1 h
        injection e with e1 e2 e3 e4
        subst e2 e3 e4
        have := List.mem_range'_1.1 hc
        exact ⟨⟨n, (zipIdx_mem _ _ _).1 hq, by omega, by omega⟩, e1.symm⟩
      · exfalso
        cases fsmd with
        | none => simp at h
        | some k => dsimp only at h; split_ifs at h <;> simp at h
    · exact absurd h h1
    · exact absurd h h2
  · rintro ⟨⟨n, hn, hij, hj⟩, hd⟩
    refine Or.inl (Or.inl ⟨(n, bin), (zipIdx_mem _ _ _).2 hn, ?_⟩)
    dsimp only
    rw [List.mem_append, List.mem_append]
    exact Or.inl (Or.inr (List.mem_flatMap.2 ⟨i, List.mem_range.2 (by omega), List.mem_map.2 ⟨j, List.mem_range'_1.2 ⟨by omega, by omega⟩, by rw [hd]⟩⟩))

/-- **C99.** Sums over the bins are plotted if there are several of the same structure. -/
theorem jobs_sum (nWaves : List ℕ) (fsmd : Option ℕ) (es em : Bool) (w : ℕ) :
    Job.sum w ∈ createPlots nWaves fsmd es em ↔ (nWaves.length ≠ 1 ∧ es = true ∧ em = true) ∧ w < nWaves.headD 0 := by
  unfold createPlots
  rw [List.mem_append, List.mem_append]
  have h2 : Job.sum w ∉ (match fsmd with | some k => if k = 1 ∧ es = true then [Job.fsmd none 0] else [] | none => []) := by
    cases fsmd with
    | none => simp
    | some k => dsimp only; split_ifs <;> simp
  have h0 : Job.sum w ∉ nWaves.zipIdx.flatMap (fun q =>
    let dir := if nWaves.length = 1 then none else some q.2
    (List.range q.1).map (fun w => Job.wave dir q.2 w) ++
      (List.range q.1).flatMap (fun i => (List.range' (i + 1) (q.1 - (i + 1))).map fun j => Job.pair dir q.2 i j) ++
      (match fsmd with
        | some k => if k ≠ 1 ∨ es = false then [Job.fsmd dir q.2] else []
        | none => [])) := by
    intro h
    obtain ⟨q, _, h⟩ := List.mem_flatMap.1 h
    dsimp only at h
    rw [List.mem_append, List.mem_append] at h
    rcases h with (h | h) | h
    · simp at h
    · simp at h
    · cases fsmd with
      | none => simp at h
      | some k => dsimp only at h; split_ifs at h <;> simp at h
  by_cases hc : nWaves.length ≠ 1 ∧ es = true ∧ em = true
  · rw [if_pos hc]
    constructor
    · rintro ((h | h) | h)
      · exact absurd h h0
      · exact ⟨hc, by simpa using h⟩
      · exact absurd h h2
    · exact fun h => Or.inl (Or.inr (by simpa using h.2))
  · rw [if_neg hc]
    constructor
    · rintro ((h | h) | h)
      · exact absurd h h0
      · simp at h
      · exact absurd h h2
    · exact fun h => absurd h.1 hc

/-- **C99.** The final-state mass dependence is plotted once if it has one bin and the bins are of the same structure, and in every bin otherwise (C105:
the number of bins of a final-state mass dependence is always that of the fit). -/
theorem jobs_fsmd (nWaves : List ℕ) (fsmd : Option ℕ) (es em : Bool) (dir : Option ℕ) (bin : ℕ) :
    Job.fsmd dir bin ∈ createPlots nWaves fsmd es em ↔ ∃ k, fsmd = some k ∧
      ((k = 1 ∧ es = true ∧ dir = none ∧ bin = 0) ∨
        (¬ (k = 1 ∧ es = true) ∧ bin < nWaves.length ∧ dir = if nWaves.length = 1 then none else some bin)) := by
  unfold createPlots
  rw [List.mem_append, List.mem_append, List.mem_flatMap]
  have h1 : Job.fsmd dir bin ∉ (if nWaves.length ≠ 1 ∧ es = true ∧ em = true then (List.range (nWaves.headD 0)).map Job.sum else []) := by
    split_ifs <;> simp
  constructor
  · rintro ((⟨⟨n, k⟩, hq, h⟩ | h) | h)
    · dsimp only at h
      rw [List.mem_append, List.mem_append] at h
      rcases h with (h | h) | h
      · simp at h
      · simp at h
      · cases fsmd with
        | none => simp at h
        | some f =>
          dsimp only at h
          by_cases hc : f ≠ 1 ∨ es = false
          · rw [if_pos hc] at h
            have e := List.mem_singleton.1 h
            injection e with e1 e2
            subst e2
            have := (zipIdx_mem _ _ _).1 hq
            refine ⟨f, rfl, Or.inr ⟨?_, (List.getElem?_eq_some_iff.1 this).1, e1⟩⟩
            rintro ⟨a, b⟩
            rcases hc with hc | hc
            · exact hc a
            · rw [b] at hc; cases hc
          · rw [if_neg hc] at h
            cases h
    · exact absurd h h1
    · cases fsmd with
      | none => simp at h
      | some f =>
        dsimp only at h
        by_cases hc : f = 1 ∧ es = true
        · rw [if_pos hc] at h
          have e := List.mem_singleton.1 h
          injection e with e1 e2
          exact ⟨f, rfl, Or.inl ⟨hc.1, hc.2, e1, e2⟩⟩
        · rw [if_neg hc] at h
          cases h
  · rintro ⟨k, rfl, (⟨h1, h2, h3, h4⟩ | ⟨h1, h2, h3⟩)⟩
    · refine Or.inr ?_
      dsimp only
      rw [if_pos ⟨h1, h2⟩, h3, h4]
      exact List.mem_singleton.2 rfl
    · refine Or.inl (Or.inl ⟨(nWaves[bin], bin), (zipIdx_mem _ _ _).2 (List.getElem?_eq_getElem h2), ?_⟩)
      dsimp only
      rw [List.mem_append]
      refine Or.inr ?_
      rw [if_pos (show k ≠ 1 ∨ es = false by
        by_cases a : k = 1
        · exact Or.inr (by simpa using fun e => h1 ⟨a, e⟩)
        · exact Or.inl a), h3]
      exact List.mem_singleton.2 rfl

theorem mem_ite_single {c : Prop} [Decidable c] {a x : Job} (h : x ∈ if c then [a] else []) : x = a := by
  by_cases hc : c
  · rw [if_pos hc] at h
    exact List.mem_singleton.1 h
  · rw [if_neg hc] at h
    cases h

/-- **C99.** Nothing is plotted twice. -/
theorem jobs_nodup (nWaves : List ℕ) (fsmd : Option ℕ) (es em : Bool) : (createPlots nWaves fsmd es em).Nodup := by
  have e : createPlots nWaves fsmd es em = nWaves.zipIdx.flatMap (fun q =>
      (List.range q.1).map (fun w => Job.wave (if nWaves.length = 1 then none else some q.2) q.2 w) ++
        (List.range q.1).flatMap (fun i => (List.range' (i + 1) (q.1 - (i + 1))).map fun j => Job.pair (if nWaves.length = 1 then none else some q.2) q.2 i j) ++
        (if ∃ k, fsmd = some k ∧ (k ≠ 1 ∨ es = false) then [Job.fsmd (if nWaves.length = 1 then none else some q.2) q.2] else [])) ++
      (if nWaves.length ≠ 1 ∧ es = true ∧ em = true then (List.range (nWaves.headD 0)).map Job.sum else []) ++
      (if ∃ k, fsmd = some k ∧ k = 1 ∧ es = true then [Job.fsmd none 0] else []) := by
    unfold createPlots
    cases fsmd with
    | none => simp
    | some k => simp
  rw [e]
  have hz : (nWaves.zipIdx.map Prod.snd).Nodup := by
    rw [List.zipIdx_map_snd]
    exact List.nodup_range'
  rw [List.nodup_append, List.nodup_append, List.nodup_flatMap]
  refine ⟨⟨⟨fun q _ => ?_, ?_⟩, ?_, ?_⟩, ?_, ?_⟩
  · rw [List.nodup_append, List.nodup_append, List.nodup_flatMap]
    refine ⟨⟨List.Nodup.map (fun a b h => by injection h) List.nodup_range, ⟨fun i _ => List.Nodup.map (fun a b h => by injection h) List.nodup_range', ?_⟩, ?_⟩, ?_, ?_⟩
    · refine List.Pairwise.imp (fun {a b} (h : a < b) => ?_) List.pairwise_lt_range
      intro x hx hy
      obtain ⟨c, _, rfl⟩ := List.mem_map.1 hx
      obtain ⟨d, _, e⟩ := List.mem_map.1 hy
      injection e with _ _ e
      omega
    · intro x hx y hy e
      obtain ⟨c, _, rfl⟩ := List.mem_map.1 hx
      obtain ⟨a, _, hy⟩ := List.mem_flatMap.1 hy
      obtain ⟨d, _, rfl⟩ := List.mem_map.1 hy
      cases e
    · split_ifs <;> simp
    · intro x hx y hy e
      rw [mem_ite_single hy] at e
      subst e
      rcases List.mem_append.1 hx with h | h
      · obtain ⟨_, _, e⟩ := List.mem_map.1 h; cases e
      · obtain ⟨_, _, h⟩ := List.mem_flatMap.1 h
        obtain ⟨_, _, e⟩ := List.mem_map.1 h; cases e
  · rw [List.Nodup, List.pairwise_map] at hz
    refine List.Pairwise.imp (fun {a b} h => ?_) hz
    have bin : ∀ (q : ℕ × ℕ) x, x ∈ (List.range q.1).map (fun w => Job.wave (if nWaves.length = 1 then none else some q.2) q.2 w) ++
        (List.range q.1).flatMap (fun i => (List.range' (i + 1) (q.1 - (i + 1))).map fun j => Job.pair (if nWaves.length = 1 then none else some q.2) q.2 i j) ++
        (if ∃ k, fsmd = some k ∧ (k ≠ 1 ∨ es = false) then [Job.fsmd (if nWaves.length = 1 then none else some q.2) q.2] else []) →
        (match x with | .wave _ k _ => k = q.2 | .pair _ k _ _ => k = q.2 | .fsmd _ k => k = q.2 | .sum _ => False) := by
      intro q x hx
      rcases List.mem_append.1 hx with h | h
      · rcases List.mem_append.1 h with h | h
        · obtain ⟨_, _, rfl⟩ := List.mem_map.1 h; rfl
        · obtain ⟨_, _, h⟩ := List.mem_flatMap.1 h
          obtain ⟨_, _, rfl⟩ := List.mem_map.1 h; rfl
      · rw [mem_ite_single h]
    intro x hx hy
    have h1 := bin a x hx
    have h2 := bin b x hy
    cases x <;> first | exact h (h1.symm.trans h2) | exact h1
  · split_ifs
    · exact List.Nodup.map (fun a b h => by injection h) List.nodup_range
    · exact List.nodup_nil
  · intro x hx y hy e
    subst e
    split_ifs at hy
    · obtain ⟨w, _, rfl⟩ := List.mem_map.1 hy
      obtain ⟨q, _, h⟩ := List.mem_flatMap.1 hx
      rcases List.mem_append.1 h with h | h
      · rcases List.mem_append.1 h with h | h
        · obtain ⟨_, _, e⟩ := List.mem_map.1 h; cases e
        · obtain ⟨_, _, h⟩ := List.mem_flatMap.1 h
          obtain ⟨_, _, e⟩ := List.mem_map.1 h; cases e
      · cases mem_ite_single h
    · cases hy
  · split_ifs <;> simp
  · intro x hx y hy e
    subst e
    by_cases hc : ∃ k, fsmd = some k ∧ k = 1 ∧ es = true
    · rw [if_pos hc] at hy
      rw [List.mem_singleton.1 hy] at hx
      rcases List.mem_append.1 hx with h | h
      · obtain ⟨q, _, h⟩ := List.mem_flatMap.1 h
        rcases List.mem_append.1 h with h | h
        · rcases List.mem_append.1 h with h | h
          · obtain ⟨_, _, e⟩ := List.mem_map.1 h; cases e
          · obtain ⟨_, _, h⟩ := List.mem_flatMap.1 h
            obtain ⟨_, _, e⟩ := List.mem_map.1 h; cases e
        · obtain ⟨k, h1, h2, h3⟩ := hc
          rw [if_neg (by
            rintro ⟨k', e, h4⟩
            rw [h1] at e
            cases e
            rcases h4 with h4 | h4
            · exact h4 h2
            · rw [h3] at h4; cases h4)] at h
          cases h
      · split_ifs at h
        · obtain ⟨_, _, e⟩ := List.mem_map.1 h; cases e
        · cases h
    · rw [if_neg hc] at hy
      cases hy

/-! ### sums over bins -/

theorem sumBins_eq (bins : List (Bin K)) (m w : ℕ) :
    ((sumBins bins m w).1 = false ↔ ∃ b ∈ bins, HasResult b.val b.nWaves m w) ∧
      (sumBins bins m w).2.1 = (bins.map fun b => if zeroWave b.val b.nWaves m w then 0 else (b.val.int m w).1).sum ∧
      (sumBins bins m w).2.2 = (bins.map fun b => if zeroWave b.val b.nWaves m w then 0 else (b.val.int m w).2 * (b.val.int m w).2).sum := by
  unfold sumBins
  have key : ∀ (l : List (Bin K)) (s : Bool × K × K),
      ((l.foldl (fun s b => if zeroWave b.val b.nWaves m w then s else (false, s.2.1 + (b.val.int m w).1, s.2.2 + (b.val.int m w).2 * (b.val.int m w).2)) s).1 = false ↔
        s.1 = false ∨ ∃ b ∈ l, HasResult b.val b.nWaves m w) ∧
      (l.foldl (fun s b => if zeroWave b.val b.nWaves m w then s else (false, s.2.1 + (b.val.int m w).1, s.2.2 + (b.val.int m w).2 * (b.val.int m w).2)) s).2.1 =
        s.2.1 + (l.map fun b => if zeroWave b.val b.nWaves m w then 0 else (b.val.int m w).1).sum ∧
      (l.foldl (fun s b => if zeroWave b.val b.nWaves m w then s else (false, s.2.1 + (b.val.int m w).1, s.2.2 + (b.val.int m w).2 * (b.val.int m w).2)) s).2.2 =
        s.2.2 + (l.map fun b => if zeroWave b.val b.nWaves m w then 0 else (b.val.int m w).2 * (b.val.int m w).2).sum := by
    intro l
    induction l with
    | nil => intro s; simp
    | cons b l ih =>
      intro s
      rw [List.foldl_cons, List.map_cons, List.map_cons, List.sum_cons, List.sum_cons, List.exists_mem_cons_iff]
      by_cases h : zeroWave b.val b.nWaves m w = true
      · have hn : ¬ HasResult b.val b.nWaves m w := by rw [← zeroWave_iff, h]; simp
        rw [if_pos h, if_pos h, if_pos h, zero_add, zero_add]
        obtain ⟨h1, h2, h3⟩ := ih s
        refine ⟨h1.trans ⟨?_, ?_⟩, h2, h3⟩
        · rintro (h | h)
          · exact Or.inl h
          · exact Or.inr (Or.inr h)
        · rintro (h | h | h)
          · exact Or.inl h
          · exact absurd h hn
          · exact Or.inr h
      · have hy : HasResult b.val b.nWaves m w := by rw [← zeroWave_iff]; simpa using h
        rw [if_neg h, if_neg h, if_neg h]
        obtain ⟨h1, h2, h3⟩ := ih (false, s.2.1 + (b.val.int m w).1, s.2.2 + (b.val.int m w).2 * (b.val.int m w).2)
        refine ⟨h1.trans ⟨fun _ => Or.inr (Or.inl hy), fun _ => Or.inl rfl⟩, ?_, ?_⟩
        · rw [h2]; dsimp only; ring
        · rw [h3]; dsimp only; ring
  obtain ⟨h1, h2, h3⟩ := key bins (true, 0, 0)
  exact ⟨h1.trans (by simp), by rw [h2, zero_add], by rw [h3, zero_add]⟩

/-- a wave without result has no intensity: the sums run over all bins. -/
theorem sumBins_all (bins : List (Bin K)) (m w : ℕ) :
    (sumBins bins m w).2.1 = (bins.map fun b => (b.val.int m w).1).sum ∧ (sumBins bins m w).2.2 = (bins.map fun b => (b.val.int m w).2 * (b.val.int m w).2).sum := by
  have h0 : ∀ b : Bin K, zeroWave b.val b.nWaves m w = true → b.val.int m w = (0, 0) := by
    intro b h
    by_contra hc
    have := (zeroWave_iff b.val b.nWaves m w).2 (Or.inl hc)
    rw [h] at this
    cases this
  obtain ⟨_, h2, h3⟩ := sumBins_eq bins m w
  rw [h2, h3]
  constructor
  · congr 1
    apply List.map_congr_left
    intro b _
    by_cases h : zeroWave b.val b.nWaves m w = true
    · rw [if_pos h, h0 b h]
    · rw [if_neg h]
  · congr 1
    apply List.map_congr_left
    intro b _
    by_cases h : zeroWave b.val b.nWaves m w = true
    · rw [if_pos h, h0 b h, mul_zero]
    · rw [if_neg h]

/-- **C99.** The sum over bins of the same structure shows the mass bins where any of them has a result, with the sum of the intensities and of the
squared errors of all bins; the curves are the sums of the curves. -/
theorem sum_spec (b : Bin K) (c : Curves K) (rest : List (Bin K × Curves K)) (rangePlotting : Bool) {eb w : ℕ} (hn : b.nMass ≠ 0) (heb : eb ≠ 0) :
    ∃ r : WavePlot K, createPlotsWaveSum true ((b, c) :: rest) rangePlotting eb w = .ok r ∧
      ShowsBins b.nMass (fun m => ∃ q ∈ (b, c) :: rest, HasResult q.1.val q.1.nWaves m w) (fun m => ⟨b.centers m,
        (((b, c) :: rest).map fun q => (q.1.val.int m w).1).sum, halfBin b,
        (((b, c) :: rest).map fun q => (q.1.val.int m w).2 * (q.1.val.int m w).2).sum⟩) r.data ∧
      IsCurve b eb (firstPoint b rangePlotting eb w w) (lastPoint b rangePlotting eb w w)
        (fun p => (((b, c) :: rest).map fun q => q.2.int w (gridMass b eb p) (gridIdx eb p)).sum) r.fit ∧
      r.comps.length = (c.comps w).length ∧
      ∀ (k : ℕ) (g : Graph K), r.comps[k]? = some g → IsCurve b eb (firstPoint b rangePlotting eb w w) (lastPoint b rangePlotting eb w w)
        (fun p => (((b, c) :: rest).map fun q => (((q.2.comps w)[k]?).map fun (f : K → Option ℕ → K) => f (gridMass b eb p) (gridIdx eb p)).getD 0).sum) g := by
  unfold createPlotsWaveSum
  rw [if_neg (by simp)]
  dsimp only
  rw [if_neg (not_or.2 ⟨hn, heb⟩)]
  refine ⟨_, rfl, ?_, curve_spec b eb _ _ fun x i => (((b, c) :: rest).map fun q => q.2.int w x i).sum, by simp, fun k g hg => ?_⟩
  · dsimp only
    rw [loop_inv]
    have h := shows_filter (K := K) b.nMass (fun m => !(sumBins (((b, c) :: rest).map (·.1)) m w).1)
      (fun m => ∃ q ∈ (b, c) :: rest, HasResult q.1.val q.1.nWaves m w)
      (fun m => ⟨b.centers m, (sumBins (((b, c) :: rest).map (·.1)) m w).2.1, halfBin b, (sumBins (((b, c) :: rest).map (·.1)) m w).2.2⟩) (fun m => by
        rw [Bool.not_eq_true', (sumBins_eq _ _ _).1]
        exact ⟨fun ⟨q, hq, h⟩ => (by obtain ⟨r, hr, rfl⟩ := List.mem_map.1 hq; exact ⟨r, hr, h⟩), fun ⟨q, hq, h⟩ => ⟨q.1, List.mem_map_of_mem hq, h⟩⟩)
    obtain ⟨l, h1, h2, h3⟩ := h.ex
    refine ⟨l, h1, h2, h3.trans ?_⟩
    apply List.map_congr_left
    intro m _
    obtain ⟨a1, a2⟩ := sumBins_all (((b, c) :: rest).map (·.1)) m w
    rw [a1, a2, List.map_map, List.map_map]
    rfl
  · dsimp only at hg
    rw [List.getElem?_map] at hg
    obtain ⟨k', hk, rfl⟩ := Option.map_eq_some_iff.1 hg
    have := List.getElem?_eq_some_iff.1 hk
    obtain ⟨hlt, he⟩ := this
    rw [List.getElem_range] at he
    subst he
    exact curve_spec b eb _ _ fun x i => (((b, c) :: rest).map fun q => (((q.2.comps w)[k]?).map fun (f : K → Option ℕ → K) => f x i).getD 0).sum

/-- **C99.** Bins of different structure end the program instead of being summed. -/
theorem sum_refused (bins : List (Bin K × Curves K)) (rangePlotting : Bool) (eb w : ℕ) : createPlotsWaveSum false bins rangePlotting eb w = .terminate := rfl

/-- **C99.** The error bars in mass are half of the mean distance of the mass bins; a single mass bin has none. -/
theorem halfBin_spec (b : Bin K) : halfBin b = if b.nMass ≤ 1 then none else
    some (1 / 2 * (b.centers (b.nMass - 1) - b.centers 0) / ((b.nMass - 1 : ℕ) : K)) := by
  unfold halfBin
  exact ite_congr (propext ⟨fun h => by omega, fun h => by omega⟩) (fun _ => rfl) (fun _ => rfl)

end Rpwa.Plots
